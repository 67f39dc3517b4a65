import Verif.Lemmas.LocatedParser
import Verif.Lemmas.Elab

/-! The elaborator with places is the elaborator; its texts are in the file or are made. -/
namespace Bant
namespace Located

/-- The values of the variables without places. -/
def plainVars (vars : Vars) : Elab.Vars := vars.map fun v => (v.1, v.2.plain)

theorem find_plain (vars : Vars) (id : Str) : (plainVars vars).find id = (vars.find id).map Tree.plain := by
  unfold Elab.Vars.find Vars.find plainVars
  rw [List.find?_map]
  simp only [Option.map_map]
  rfl

theorem selectEntry_plain (xs : List Tree) :
    Elab.selectEntry (plains xs) = (selectEntry xs).map (·.map Tree.plain) := by
  induction xs with
  | nil => rfl
  | cons x xs ih =>
    cases x <;> simp only [plains, Tree.plain, Elab.selectEntry, selectEntry, ih, plain_isNull, Option.map_none]
    split
    · split
      · rfl
      · split <;> rfl
    · rfl

theorem selectArgs_plain (xs : List Tree) :
    Elab.selectArgs (plains xs) = (selectArgs xs).map (·.map Tree.plain) := by
  induction xs with
  | nil => rfl
  | cons x xs ih =>
    cases x <;> try (simp only [plains, Tree.plain, Elab.selectArgs, selectArgs, ih, Option.map_none]; done)
    rename_i ty ys
    cases ty <;> simp only [plains, Tree.plain, Elab.selectArgs, selectArgs, ih, selectEntry_plain]
    cases selectEntry ys with
    | none => rfl
    | some o => cases o <;> rfl

theorem plus_plain (range : Nat × Nat) (l r : Tree) :
    Elab.plus l.plain r.plain = (plus range l r).map Tree.plain := by
  unfold Elab.plus plus
  simp only [plain_isNull]
  split
  · rfl
  · rename_i hn
    cases l <;> cases r <;> simp only [Tree.plain] <;>
      first | rfl | (split <;> simp only [Option.map_some, Tree.plain, plains_append])

theorem glob_plain (glob : Elab.GlobFn) (id : View) (args : List Tree) :
    Elab.handleGlob glob (plains args) = (handleGlob glob id args).map Tree.plain := by
  unfold handleGlob
  cases h : Elab.handleGlob glob (plains args) with
  | none => rfl
  | some n =>
    unfold Elab.handleGlob at h
    simp only [Option.bind_eq_bind, Option.bind_eq_some_iff] at h
    obtain ⟨g, _, inc, _, exc, _, h⟩ := h
    cases h
    simp only [Option.map_some, Tree.plain, plains_eq, List.map_map, Option.some.injEq, Node.list.injEq, true_and]
    apply List.map_congr_left
    intro f _
    rfl

theorem finishCall_plain (glob : Elab.GlobFn) (fn args : Tree) :
    Elab.finishCall glob fn.plain args.plain = (finishCall glob fn args).map Tree.plain := by
  cases fn <;> try (simp only [Elab.finishCall, finishCall, Tree.plain, Option.map_none]; done)
  rename_i name
  simp only [Elab.finishCall, finishCall, Tree.plain]
  split
  · cases args <;> try (simp only [Tree.plain, Option.map_none]; done)
    simp only [Tree.plain, ← glob_plain]
  · split
    · cases args <;> try (simp only [Tree.plain, Option.map_none]; done)
      rename_i ty xs
      simp only [Tree.plain, selectArgs_plain]
      cases selectArgs xs with
      | none => rfl
      | some o => cases o <;> rfl
    · rfl

theorem finishCompr_plain (ty : ListType) (f : Tree) :
    Elab.finishCompr ty f.plain = (finishCompr ty f).map Tree.plain := by
  cases f <;> rfl

/-- Result of the elaborator without places. -/
def plainResult (r : Tree × Vars) : Node × Elab.Vars := (r.1.plain, plainVars r.2)

mutual
theorem walk_plain (glob : Elab.GlobFn) : ∀ (nest : Nat) (vars : Vars) (t : Tree),
    Elab.walk glob nest (plainVars vars) t.plain = (walk glob nest vars t).map plainResult
  | nest, vars, .null => by simp [walk, Elab.walk, Tree.plain, plainResult]
  | nest, vars, .str _ _ _ => by simp [walk, Elab.walk, Tree.plain, plainResult]
  | nest, vars, .int _ _ => by simp [walk, Elab.walk, Tree.plain, plainResult]
  | nest, vars, .ident i => by
    simp only [walk, Elab.walk, Tree.plain, find_plain, Option.map_some, plainResult]
    cases vars.find i.text <;> rfl
  | nest, vars, .unary op e => by
    simp only [walk, Elab.walk, Tree.plain, walk_plain glob nest vars e]
    cases walk glob nest vars e <;> simp [plainResult, Tree.plain]
  | nest, vars, .binop op range l r => by
    simp only [walk, Elab.walk, Tree.plain, walk_plain glob nest vars l]
    cases walk glob nest vars l with
    | none => rfl
    | some p =>
      simp only [Option.map_some, plainResult]
      rw [walk_plain glob nest p.2 r]
      cases walk glob nest p.2 r with
      | none => rfl
      | some q =>
        simp only [Option.map_some, plainResult]
        split
        · rw [plus_plain range]
          cases plus range p.1 q.1 <;> rfl
        · rfl
  | nest, vars, .list ty xs => by
    simp only [walk, Elab.walk, Tree.plain, walks_plain glob nest vars xs]
    cases walks glob nest vars xs <;> simp [plainResult, Tree.plain]
  | nest, vars, .compr ty f => by
    simp only [walk, Elab.walk, Tree.plain, walk_plain glob nest vars f]
    cases walk glob nest vars f with
    | none => rfl
    | some p =>
      simp only [Option.map_some, plainResult, finishCompr_plain]
      cases finishCompr ty p.1 <;> rfl
  | nest, vars, .ternary c p n => by
    simp only [walk, Elab.walk, Tree.plain, walk_plain glob nest vars c]
    cases walk glob nest vars c with
    | none => rfl
    | some c' =>
      simp only [Option.map_some, plainResult]
      rw [walk_plain glob nest c'.2 p]
      cases walk glob nest c'.2 p with
      | none => rfl
      | some p' =>
        simp only [Option.map_some, plainResult]
        rw [walk_plain glob nest p'.2 n]
        cases walk glob nest p'.2 n <;> rfl
  | nest, vars, .assign l r => by
    simp only [walk, Elab.walk, Tree.plain, walk_plain glob nest vars r]
    cases walk glob nest vars r with
    | none => rfl
    | some p =>
      cases l <;> simp only [Option.map_some, plainResult, Tree.plain]
      split <;> rfl
  | nest, vars, .call fn args => by
    simp only [walk, Elab.walk, Tree.plain, walk_plain glob (nest + 1) vars fn]
    cases walk glob (nest + 1) vars fn with
    | none => rfl
    | some p =>
      simp only [Option.map_some, plainResult]
      rw [walk_plain glob (nest + 1) p.2 args]
      cases walk glob (nest + 1) p.2 args with
      | none => rfl
      | some q =>
        simp only [Option.map_some, plainResult, finishCall_plain]
        cases finishCall glob p.1 q.1 <;> rfl
theorem walks_plain (glob : Elab.GlobFn) : ∀ (nest : Nat) (vars : Vars) (ts : List Tree),
    Elab.walks glob nest (plainVars vars) (plains ts) =
      (walks glob nest vars ts).map fun r => (plains r.1, plainVars r.2)
  | nest, vars, [] => by simp [walks, Elab.walks, plains]
  | nest, vars, t :: ts => by
    simp only [walks, Elab.walks, plains, walk_plain glob nest vars t]
    cases walk glob nest vars t with
    | none => rfl
    | some p =>
      simp only [Option.map_some, plainResult]
      rw [walks_plain glob nest p.2 ts]
      cases walks glob nest p.2 ts <;> rfl
end

/-- The elaborator with places gives the tree of the elaborator. -/
theorem elabFile_plain (glob : Elab.GlobFn) (t : Tree) :
    Elab.elabFile glob t.plain = (elabFile glob t).map Tree.plain := by
  have := walk_plain glob 0 [] t
  unfold Elab.elabFile elabFile
  rw [show ([] : Elab.Vars) = plainVars [] from rfl, this]
  cases walk glob 0 [] t <;> rfl

/-! ### The places -/

/-- The text is in the file, where its place says; or it was made from a range of the file: from a `+` or from a
word `glob`. -/
def Fine (content : Str) (v : View) : Prop :=
  InFile content v ∨ ∃ b e, v.place = .made b e ∧ b ≤ e ∧ e ≤ content.length ∧
    ((content.drop b).take (e - b) = c!"+" ∨ (content.drop b).take (e - b) = c!"glob")

mutual
theorem Tree.All.imp {p p' i : View → Prop} {q : TokenType → Nat × Nat → Prop} (h : ∀ v, p v → p' v) :
    ∀ {t : Tree}, t.All p q i → t.All p' q i
  | .null, _ => trivial
  | .str _ _ _, ht => h _ ht
  | .int _ _, ht => h _ ht
  | .ident _, ht => ht
  | .unary _ n, ht => Tree.All.imp (t := n) h ht
  | .binop _ _ a b, ht => ⟨ht.1, Tree.All.imp (t := a) h ht.2.1, Tree.All.imp (t := b) h ht.2.2⟩
  | .list _ xs, ht => AllOf.imp (ts := xs) h ht
  | .compr _ f, ht => Tree.All.imp (t := f) h ht
  | .ternary a b c, ht =>
    ⟨Tree.All.imp (t := a) h ht.1, Tree.All.imp (t := b) h ht.2.1, Tree.All.imp (t := c) h ht.2.2⟩
  | .assign a b, ht => ⟨Tree.All.imp (t := a) h ht.1, Tree.All.imp (t := b) h ht.2⟩
  | .call a b, ht => ⟨Tree.All.imp (t := a) h ht.1, Tree.All.imp (t := b) h ht.2⟩
theorem AllOf.imp {p p' i : View → Prop} {q : TokenType → Nat × Nat → Prop} (h : ∀ v, p v → p' v) :
    ∀ {ts : List Tree}, AllOf p q i ts → AllOf p' q i ts
  | [], _ => trivial
  | t :: ts, ht => ⟨Tree.All.imp (t := t) h ht.1, AllOf.imp (ts := ts) h ht.2⟩
end

section
variable {p i : View → Prop} {q : TokenType → Nat × Nat → Prop}
variable (hsum : ∀ r t, q (.op '+') r → p ⟨t, .made r.1 r.2⟩)
variable (hglob : ∀ (id : View) t, i id → id.text = c!"glob" → p ⟨t, .made id.range.1 id.range.2⟩)

/-- All texts in the values of the variables have a property. -/
def VarsAll (p : View → Prop) (q : TokenType → Nat × Nat → Prop) (i : View → Prop) (vars : Vars) : Prop := ∀ v ∈ vars, v.2.All p q i

theorem selectEntry_all {xs : List Tree} {t : Tree} (h : AllOf p q i xs) (hs : selectEntry xs = some (some t)) :
    t.All p q i := by
  induction xs with
  | nil => cases hs
  | cons x xs ih =>
    cases x <;> simp only [selectEntry] at hs <;> try exact ih h.2 hs
    · cases hs
    · split at hs
      · split at hs
        · cases hs
        · split at hs
          · cases hs; exact h.1.2.2
          · exact ih h.2 hs
      · exact ih h.2 hs

theorem selectArgs_all {xs : List Tree} {t : Tree} (h : AllOf p q i xs) (hs : selectArgs xs = some (some t)) :
    t.All p q i := by
  induction xs with
  | nil => cases hs
  | cons x xs ih =>
    cases x <;> try (simp only [selectArgs] at hs; first | exact ih h.2 hs | cases hs; done)
    rename_i ty ys
    cases ty <;> simp only [selectArgs] at hs <;> try exact ih h.2 hs
    cases he : selectEntry ys with
    | none => rw [he] at hs; cases hs
    | some o =>
      rw [he] at hs
      cases o with
      | none => exact ih h.2 hs
      | some v => cases hs; exact selectEntry_all h.1 he

include hsum in
theorem plus_all {range : Nat × Nat} {l r t : Tree} (hq : q (.op '+') range) (hl : l.All p q i) (hr : r.All p q i)
    (h : plus range l r = some t) : t.All p q i := by
  unfold plus at h
  split at h
  · cases h
  · have hkeep : (Tree.binop (.op '+') range l r).All p q i := ⟨hq, hl, hr⟩
    cases l <;> cases r <;> simp only at h <;>
      first
        | (cases h; first | exact hkeep | exact hl | exact hr | exact hsum _ _ hq)
        | (split at h <;> cases h <;> first | exact hkeep | exact allOf_append.2 ⟨hl, hr⟩)

include hglob in
theorem finishCall_all {glob : Elab.GlobFn} {fn args t : Tree} (hf : fn.All p q i) (ha : args.All p q i)
    (h : finishCall glob fn args = some t) : t.All p q i := by
  unfold finishCall at h
  cases fn <;> simp only at h <;> try (cases h; done)
  rename_i name
  split at h
  · rename_i hn
    cases args <;> simp only at h <;> try (cases h; done)
    rename_i xs
    unfold handleGlob at h
    split at h
    · cases h
      refine allOf_iff.2 ?_
      intro x hx
      obtain ⟨f, _, rfl⟩ := List.mem_map.1 hx
      cases f <;> first | trivial | exact hglob name _ hf hn
    · cases h
  · split at h
    · cases args <;> simp only at h <;> try (cases h; done)
      rename_i xs
      cases hs : selectArgs xs with
      | none => rw [hs] at h; cases h
      | some o =>
        rw [hs] at h
        cases o with
        | none => cases h; exact ⟨hf, ha⟩
        | some v => cases h; exact selectArgs_all ha hs
    · cases h; exact ⟨hf, ha⟩

theorem finishCompr_all {ty : ListType} {f t : Tree} (hf : f.All p q i) (h : finishCompr ty f = some t) : t.All p q i := by
  cases f <;> simp only [finishCompr] at h <;> cases h <;> exact hf

theorem find_all {vars : Vars} {id : Str} {t : Tree} (h : VarsAll p q i vars) (hf : vars.find id = some t) :
    t.All p q i := by
  unfold Vars.find at hf
  obtain ⟨v, hv, rfl⟩ := Option.map_eq_some_iff.1 hf
  exact h v (List.mem_of_find?_eq_some hv)

set_option linter.unusedSectionVars false
include hsum hglob
mutual
theorem walk_all (glob : Elab.GlobFn) : ∀ (nest : Nat) (vars : Vars) (t : Tree) (t' : Tree) (vars' : Vars),
    t.All p q i → VarsAll p q i vars → walk glob nest vars t = some (t', vars') → t'.All p q i ∧ VarsAll p q i vars'
  | nest, vars, .null, t', vars', ht, hv, h => by cases h; exact ⟨ht, hv⟩
  | nest, vars, .str _ _ _, t', vars', ht, hv, h => by cases h; exact ⟨ht, hv⟩
  | nest, vars, .int _ _, t', vars', ht, hv, h => by cases h; exact ⟨ht, hv⟩
  | nest, vars, .ident i, t', vars', ht, hv, h => by
    simp only [walk, Option.some.injEq, Prod.mk.injEq] at h
    obtain ⟨rfl, rfl⟩ := h
    refine ⟨?_, hv⟩
    cases hf : vars.find i.text with
    | none => exact ht
    | some t => exact find_all hv hf
  | nest, vars, .unary op e, t', vars', ht, hv, h => by
    simp only [walk] at h
    cases he : walk glob nest vars e with
    | none => rw [he] at h; cases h
    | some r =>
      rw [he] at h
      cases h
      exact walk_all glob nest vars e r.1 r.2 ht hv he
  | nest, vars, .binop op range l r, t', vars', ht, hv, h => by
    simp only [walk] at h
    cases hl : walk glob nest vars l with
    | none => rw [hl] at h; cases h
    | some a =>
      simp only [hl] at h
      have h1 := walk_all glob nest vars l _ _ ht.2.1 hv hl
      cases hr : walk glob nest a.2 r with
      | none => rw [hr] at h; cases h
      | some b =>
        simp only [hr] at h
        have h2 := walk_all glob nest a.2 r _ _ ht.2.2 h1.2 hr
        split at h
        · rename_i hop
          subst hop
          cases hp : plus range a.1 b.1 with
          | none => rw [hp] at h; cases h
          | some n =>
            rw [hp] at h
            cases h
            exact ⟨plus_all hsum ht.1 h1.1 h2.1 hp, h2.2⟩
        · cases h
          exact ⟨⟨ht.1, h1.1, h2.1⟩, h2.2⟩
  | nest, vars, .list ty xs, t', vars', ht, hv, h => by
    simp only [walk] at h
    cases he : walks glob nest vars xs with
    | none => rw [he] at h; cases h
    | some r =>
      rw [he] at h
      cases h
      exact walks_all glob nest vars xs _ _ ht hv he
  | nest, vars, .compr ty f, t', vars', ht, hv, h => by
    simp only [walk] at h
    cases he : walk glob nest vars f with
    | none => rw [he] at h; cases h
    | some r =>
      simp only [he] at h
      have h1 := walk_all glob nest vars f _ _ ht hv he
      cases hc : finishCompr ty r.1 with
      | none => rw [hc] at h; cases h
      | some n =>
        rw [hc] at h
        cases h
        exact ⟨finishCompr_all h1.1 hc, h1.2⟩
  | nest, vars, .ternary c a b, t', vars', ht, hv, h => by
    simp only [walk] at h
    cases h1 : walk glob nest vars c with
    | none => rw [h1] at h; cases h
    | some r1 =>
      simp only [h1] at h
      have g1 := walk_all glob nest vars c _ _ ht.1 hv h1
      cases h2 : walk glob nest r1.2 a with
      | none => rw [h2] at h; cases h
      | some r2 =>
        simp only [h2] at h
        have g2 := walk_all glob nest r1.2 a _ _ ht.2.1 g1.2 h2
        cases h3 : walk glob nest r2.2 b with
        | none => rw [h3] at h; cases h
        | some r3 =>
          simp only [h3] at h
          have g3 := walk_all glob nest r2.2 b _ _ ht.2.2 g2.2 h3
          cases h
          exact ⟨⟨g1.1, g2.1, g3.1⟩, g3.2⟩
  | nest, vars, .assign l r, t', vars', ht, hv, h => by
    simp only [walk] at h
    cases hr : walk glob nest vars r with
    | none => rw [hr] at h; cases h
    | some a =>
      simp only [hr] at h
      have h1 := walk_all glob nest vars r _ _ ht.2 hv hr
      cases l <;> simp only at h <;> first
        | (cases h; exact ⟨⟨ht.1, h1.1⟩, h1.2⟩)
        | skip
      cases h
      refine ⟨⟨ht.1, h1.1⟩, ?_⟩
      split
      · intro v hv'
        rcases List.mem_cons.1 hv' with rfl | hv'
        · exact h1.1
        · exact h1.2 v hv'
      · exact h1.2
  | nest, vars, .call fn args, t', vars', ht, hv, h => by
    simp only [walk] at h
    cases hl : walk glob (nest + 1) vars fn with
    | none => rw [hl] at h; cases h
    | some a =>
      simp only [hl] at h
      have h1 := walk_all glob (nest + 1) vars fn _ _ ht.1 hv hl
      cases hr : walk glob (nest + 1) a.2 args with
      | none => rw [hr] at h; cases h
      | some b =>
        simp only [hr] at h
        have h2 := walk_all glob (nest + 1) a.2 args _ _ ht.2 h1.2 hr
        cases hc : finishCall glob a.1 b.1 with
        | none => rw [hc] at h; cases h
        | some n =>
          rw [hc] at h
          cases h
          exact ⟨finishCall_all hglob h1.1 h2.1 hc, h2.2⟩
theorem walks_all (glob : Elab.GlobFn) : ∀ (nest : Nat) (vars : Vars) (ts ts' : List Tree) (vars' : Vars),
    AllOf p q i ts → VarsAll p q i vars → walks glob nest vars ts = some (ts', vars') → AllOf p q i ts' ∧ VarsAll p q i vars'
  | nest, vars, [], t', vars', ht, hv, h => by cases h; exact ⟨ht, hv⟩
  | nest, vars, t :: ts, t', vars', ht, hv, h => by
    simp only [walks] at h
    cases hl : walk glob nest vars t with
    | none => rw [hl] at h; cases h
    | some a =>
      simp only [hl] at h
      have h1 := walk_all glob nest vars t _ _ ht.1 hv hl
      cases hr : walks glob nest a.2 ts with
      | none => rw [hr] at h; cases h
      | some b =>
        simp only [hr] at h
        have h2 := walks_all glob nest a.2 ts _ _ ht.2 h1.2 hr
        cases h
        exact ⟨⟨h1.1, h2.1⟩, h2.2⟩
end
end

/-- All texts in the elaborated tree of a file are in the file, or were made from a range of it; identifiers are in
the file. -/
theorem elabFile_fine {content : Str} {glob : Elab.GlobFn} {t t' : Tree}
    (ht : t.All (InFile content) (RangeIn content) (InFile content)) (h : elabFile glob t = some t') :
    t'.All (Fine content) (RangeIn content) (InFile content) := by
  unfold elabFile at h
  obtain ⟨⟨a, vars⟩, ha, rfl⟩ := Option.map_eq_some_iff.1 h
  refine (walk_all ?_ ?_ glob 0 [] t a vars (ht.imp fun v => .inl) (fun v hv => by cases hv) ha).1
  · intro r t hr
    obtain ⟨h1, h2, h3⟩ := hr rfl
    exact .inr ⟨r.1, r.2, rfl, h1, h2, .inl h3⟩
  · rintro ⟨w, place⟩ t hid hg
    refine .inr ⟨_, _, rfl, ?_⟩
    obtain ⟨pos, h1, h2, h3⟩ := hid
    cases h1
    simp only at h2 h3 hg
    simp only [View.range]
    refine ⟨Nat.le_add_right _ _, h2, .inr ?_⟩
    rw [Nat.add_sub_cancel_left, ← h3, hg]

end Located
end Bant
