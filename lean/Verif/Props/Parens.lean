import Verif.Lemmas.Parens
import Verif.Props.Trailing

/-! Parentheses around a whole expression do not matter (C139). -/
namespace Bant
namespace Props
open Commands Cli Query Rules Headers GraphSpec CommandSpec LayoutSpec Layout Parser Grammar

/-- **C139** for the parser: if a text is read without errors, then it is with parentheses around expressions, too, and
the tree is the same. -/
theorem C139_tree {content content' : Str} (h : Parenthesized content content') {tree : Node}
    {st : PState} (hp : parseFile content = some (tree, st)) (he : st.errs = []) :
    ∃ st', parseFile content' = some (tree, st') ∧ st'.errs = [] :=
  Parens.tree_all h hp he

/-- **C139** for the commands: whether there are such parentheses in BUILD and workspace files or not, a command prints
the same with the same status. -/
theorem C139_commands {m m' : Machine} {flags : Flags} {cmd : Command} {pattern : BazelPattern}
    (h : SameButParens m m') (hdwyu : cmd = .dwyu → SameSources m m') (hplaces : SamePlaces m m' cmd) :
    runCommand m' flags cmd pattern = runCommand m flags cmd pattern := by
  refine run_trees ⟨h.rest, h.missing, fun name c c' h1 h2 h3 => ?_, h.settings⟩ hdwyu hplaces
  rcases h.builds name c c' h1 h2 h3 with e | ⟨⟨tree, st, h4, h5⟩, h6⟩ | ⟨⟨tree, st, h4, h5⟩, h6⟩
  · exact Or.inl e
  · obtain ⟨st', h7, h8⟩ := C139_tree h6 h4 h5
    exact Or.inr ⟨tree, st, st', h4, h7, by simp [h5, h8]⟩
  · obtain ⟨st', h7, h8⟩ := C139_tree h6 h4 h5
    exact Or.inr ⟨tree, st', st, h7, h4, by simp [h5, h8]⟩

/-! ### Examples -/

/-- Are these tokens the same for the parser? -/
def sameAllB : List Token → List Token → Bool
  | [], [] => true
  | t :: s, t' :: s' => sameB t t' && sameAllB s s'
  | _, _ => false

theorem sameAllB_sound : ∀ {s s' : List Token}, sameAllB s s' = true → SameTokens s s'
  | [], [], _ => .nil
  | t :: s, t' :: s', h => by
    simp only [sameAllB, Bool.and_eq_true] at h
    exact .cons (sameB_sound h.1) (sameAllB_sound h.2)

theorem sameTokens_refl : ∀ s : List Token, SameTokens s s
  | [] => .nil
  | _ :: s => .cons ⟨rfl, rfl, fun _ => rfl⟩ (sameTokens_refl s)

theorem sameTokens_append {a b c d : List Token} (h : SameTokens a b) (h' : SameTokens c d) :
    SameTokens (a ++ c) (b ++ d) := by
  induction h with
  | nil => exact h'
  | cons h _ ih => exact .cons h ih

/-- How many tokens belong to the expression at the begin? -/
def exprLength (s : List Token) : Option Nat :=
  match run (enoughFuel s.length) (.expression false) (Parens.stateOf s) with
  | some (_, st) => if st.errs = [] ∧ s.drop (s.length - st.toks.length) = st.toks then some (s.length - st.toks.length) else none
  | none => none

theorem exprLength_sound {s : List Token} {k : Nat} (hf : Parens.Fine s) (h : exprLength s = some k) :
    ∃ n, Parses (.expr false) s (s.drop k) n := by
  unfold exprLength at h
  split at h
  · next n st hr =>
    split at h
    · next hc =>
      cases h
      obtain ⟨_, h1⟩ := run_sound _ (.expression false) (Parens.stateOf s) (Parens.good_of hf) _ _ hr
      refine ⟨n, ?_⟩
      rw [hc.2]
      exact (h1 hc.1).2
    · cases h
  · cases h

/-- Are the second tokens the first, with parentheses around expressions? -/
def aroundB : Nat → Bool → TokenType → List Token → List Token → Bool
  | 0, _, _, _, _ => false
  | _ + 1, _, _, [], [] => true
  | n + 1, v, prev, t :: s, t' :: s' =>
    (sameB t t' && aroundB n (variables v prev t.type) t.type s s') ||
    (!v && decide (prev ∈ expecting) && decide (t'.type = .op '(') &&
      match exprLength (t :: s) with
      | none => false
      | some k =>
        sameAllB ((t :: s).take k) (s'.take k) &&
          match s'.drop k with
          | [] => false
          | q :: u => decide (q.type = .op ')') && aroundB n false (.op ')') ((t :: s).drop k) u)
  | _ + 1, _, _, _, _ => false

theorem aroundB_sound : ∀ {n : Nat} {v : Bool} {prev : TokenType} {s s' : List Token}, Parens.Fine s →
    aroundB n v prev s s' = true → ∃ u, Around v prev s u ∧ SameTokens u s' := by
  intro n
  induction n with
  | zero => intro v prev s s' _ h; cases h
  | succ n ih =>
    intro v prev s s' hf h
    cases s with
    | nil =>
      cases s' with
      | nil => exact ⟨[], .done, .nil⟩
      | cons => cases h
    | cons t s =>
      cases s' with
      | nil => cases h
      | cons t' s' =>
        simp only [aroundB, Bool.or_eq_true, Bool.and_eq_true, decide_eq_true_eq, Bool.not_eq_true'] at h
        rcases h with ⟨h1, h2⟩ | ⟨⟨⟨rfl, h1⟩, h2⟩, h3⟩
        · obtain ⟨u, h3, h4⟩ := ih (hf.sub (by simp +contextual)) h2
          exact ⟨t :: u, .next h3, .cons (sameB_sound h1) h4⟩
        · split at h3
          · cases h3
          · next k hk =>
            simp only [Bool.and_eq_true] at h3
            obtain ⟨h3, h4⟩ := h3
            split at h4
            · cases h4
            · next q u hq =>
              simp only [Bool.and_eq_true, decide_eq_true_eq] at h4
              obtain ⟨m, h5⟩ := exprLength_sound hf hk
              obtain ⟨w, h6, h7⟩ := ih (hf.sub fun x hx => List.mem_of_mem_drop hx) h4.2
              have e1 : t :: s = (t :: s).take k ++ (t :: s).drop k := (List.take_append_drop k _).symm
              have e2 : s' = s'.take k ++ q :: u := by rw [← hq, List.take_append_drop]
              refine ⟨t' :: ((t :: s).take k ++ q :: w), ?_, ?_⟩
              · have h8 : Parses (.expr false) ((t :: s).take k ++ (t :: s).drop k) ((t :: s).drop k) m := by
                  rw [← e1]; exact h5
                have := Around.wrap (p := t') (q := q) h1 h8 h2 h4.1 h6
                rw [← e1] at this
                exact this
              · rw [e2]
                exact .cons ⟨rfl, rfl, fun _ => rfl⟩
                  (sameTokens_append (sameAllB_sound h3) (.cons ⟨rfl, rfl, fun _ => rfl⟩ h7))

theorem withParens_of {c c' : Str}
    (h : aroundB (c.length + 1) false .eof (initState c).toks (initState c').toks = true) : WithParens c c' := by
  obtain ⟨ts, hts, _⟩ := tokensOf_exists c
  obtain ⟨ts', hts', _⟩ := tokensOf_exists c'
  rw [initState_toks hts, initState_toks hts'] at h
  obtain ⟨u, h1, h2⟩ := aroundB_sound (Parens.fine_of hts) h
  exact ⟨ts, u, ts', hts, hts', h1, h2⟩

def bareText : Str :=
  c!"cc_library(\n    name = \"a\",\n    deps = [\":b\"] + COMMON,\n)\n(x, y) = f(1)[2:3]\n[g(name = i) for i in x]\n"
def parenText : Str :=
  c!"cc_library(\n    (name) = (\"a\"),\n    deps = ([\":b\"] + COMMON),\n)\n(x, y) = (f(1)[2:3])\n[(g(name = i)) for i in (x)]\n"
def parensText : Str :=
  c!"cc_library(\n    ((name)) = (\"a\"),\n    deps = ([(\":b\")] + (COMMON)),\n)\n(x, y) = (f(1)[(2):(3)])\n[((g(name = i))) for i in (x)]\n"

theorem bare_parens : Parenthesized bareText parensText :=
  .step (.step .same (withParens_of (c' := parenText) (by decide +kernel))) (withParens_of (by decide +kernel))

theorem bare_clean : Clean bareText := by
  have e : (parseFile bareText).map (fun x => x.2.errs) = some [] := by decide +kernel
  cases h : parseFile bareText with
  | none => rw [h] at e; cases e
  | some r => rw [h] at e; exact ⟨r.1, r.2, h, by simpa using e⟩

/-- Three statements in both. -/
example : ∃ tree st st', parseFile bareText = some (tree, st) ∧ parseFile parensText = some (tree, st') ∧
    st'.errs = [] ∧ countOf tree = 3 := by
  obtain ⟨tree, st, h1, h2⟩ := bare_clean
  obtain ⟨st', h3, h4⟩ := C139_tree bare_parens h1 h2
  have e : (parseFile bareText).map (fun x => countOf x.1) = some 3 := by decide +kernel
  rw [h1] at e
  exact ⟨tree, st, st', h1, h3, h4, by simpa using e⟩

/-- Why only expressions that are read as a whole: to bant the product is `a * (b + c)`. -/
example : (parseFile c!"x = a * b + c").map (·.1) = (parseFile c!"x = a * (b + c)").map (·.1) ∧
    WithParens c!"x = a * b + c" c!"x = a * (b + c)" ∧
    (parseFile c!"x = (a * b) + c").map (·.1) ≠ (parseFile c!"x = a * b + c").map (·.1) :=
  ⟨by decide +kernel, withParens_of (by decide +kernel), by decide +kernel⟩

/-- Why not around variables: the loop ends at the parenthesis. -/
example : (parseFile c!"[x for x, y in z]").map (fun x => x.2.errs.length) = some 0 ∧
    (parseFile c!"[x for (x), y in z]").map (fun x => x.2.errs.length) = some 1 :=
  ⟨by decide +kernel, by decide +kernel⟩

/-- A machine on which the file is written in the other way. -/
def parenthesized (texts : List (Str × Str)) : Machine :=
  { disk texts with
    fs := { (disk texts).fs with
      content := fun p => ((disk texts).fs.content p).map fun c => if c = bareText then parensText else c } }

/-- A project with that text. -/
def bareFiles : List (Str × Str) :=
  [(c!"p/BUILD", bareText), (c!"q/BUILD", c!"cc_library(name=\"d\",deps=[\"//p:a\"])")]

/-- The commands print the same. -/
example : (∀ flags cmd pattern,
      runCommand (parenthesized bareFiles) flags cmd pattern = runCommand (disk bareFiles) flags cmd pattern) ∧
    (parenthesized bareFiles).fs.content c!"p/BUILD" = some parensText ∧
    (runCommand (disk bareFiles) { ({} : Flags) with format := .csv, elaborate := true } .dependsOn everything).map
      (·.out) = some c!"\"library\",\"depends-on\"\n\"//p:a\",\"//p:b\"\n\"//q:d\",\"//p:a\"\n" := by
  refine ⟨fun flags cmd pattern => ?_, by decide +kernel, by decide +kernel⟩
  refine C139_commands ⟨rfl, ?_, ?_, ?_⟩ (fun _ => ⟨?_, fun _ _ _ => rfl⟩) ⟨fun _ => rfl, fun _ => rfl⟩
  · intro name
    simp only [parenthesized]
    cases (disk bareFiles).fs.content name <;> simp
  · intro name c c' h1 h2 _
    simp only [parenthesized, h1, Option.map_some, Option.some.injEq] at h2
    subst h2
    split
    · next hc => subst hc; exact Or.inr (Or.inl ⟨bare_clean, bare_parens⟩)
    · exact Or.inl rfl
  · decide +kernel
  · intro name c c' h1 h2
    simp only [parenthesized, h1, Option.map_some, Option.some.injEq] at h2
    subst h2
    split
    · next hc => subst hc; decide +kernel
    · rfl

end Props
end Bant
