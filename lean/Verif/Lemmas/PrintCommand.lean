import Verif.Lemmas.PrintFile
import Verif.Props.Query

/-! Lemmas about highlighting and about the rules that are printed. -/
namespace Bant
namespace Print
open Query Rules

/-! ### Colours -/

theorem Colored.refl (s : Str) : Colored s s := by
  induction s with
  | nil => exact .nil
  | cons c s ih => exact .char ih

theorem Colored.append {a b c d : Str} (h1 : Colored a b) (h2 : Colored c d) : Colored (a ++ c) (b ++ d) := by
  induction h1 with
  | nil => exact h2
  | char _ ih => exact .char ih
  | sequence hs _ ih => rw [List.append_assoc]; exact .sequence hs ih

theorem Colored.seq {s : Str} (h : Sequence s) (color : Bool) : Colored [] (colored color s) := by
  cases color with
  | false => exact .nil
  | true =>
    have := Colored.sequence h .nil
    simpa [Print.colored] using this

theorem seq_bold : Sequence bold := ⟨c!"1", rfl, by decide⟩
theorem seq_lhs : Sequence lhsColor := ⟨c!"35", rfl, by decide⟩
theorem seq_reset : Sequence reset := ⟨c!"0", rfl, by decide⟩
theorem seq_on : Sequence highlightOn := ⟨c!"7", rfl, by decide⟩
theorem seq_off : Sequence highlightOff := ⟨c!"27", rfl, by decide⟩
theorem seq_comment : Sequence c!"\x1b[2;37m" := ⟨c!"2;37", rfl, by decide⟩

mutual
theorem colored_printWith {mark : Str → Str} {color : Bool} (i : Nat) (n : Node)
    (h : ∀ w ∈ words n, Colored w (mark w)) : Colored (printWith id false i n) (printWith mark color i n) := by
  cases n with
  | null => exact .nil
  | str text triple raw =>
    simp only [printWith]
    exact ((Colored.refl _).append (h text (by simp [words]))).append (.refl _)
  | int rep v => exact .refl _
  | ident id => exact h id (by simp [words])
  | unary op e =>
    simp only [printWith]
    exact (Colored.refl _).append (colored_printWith i e (by simpa [words] using h))
  | binop op l r =>
    simp only [printWith]
    exact (((colored_printWith i l (fun w hw => h w (by simp [words, hw]))).append (.refl _)).append
      (colored_printWith i r (fun w hw => h w (by simp [words, hw])))).append (.refl _)
  | list ty xs =>
    simp only [printWith]
    exact ((((Colored.refl _).append (colored_printElems _ _ _ xs (by simpa [words] using h))).append
      (.refl _)).append (.refl _)).append (.refl _)
  | compr ty f =>
    simp only [printWith]
    exact ((Colored.refl _).append (colored_printWith i f (by simpa [words] using h))).append (.refl _)
  | ternary c p n =>
    simp only [printWith]
    refine (((colored_printWith i p (fun w hw => h w (by simp [words, hw]))).append (.refl _)).append
      (colored_printWith i c (fun w hw => h w (by simp [words, hw])))).append ?_
    split
    · exact .nil
    · exact (Colored.refl _).append (colored_printWith i n (fun w hw => h w (by simp [words, hw])))
  | assign l r =>
    simp only [printWith]
    have h1 := colored_printWith (color := color) i l (fun w hw => h w (by simp [words, hw]))
    have h2 := colored_printWith (color := color) i r (fun w hw => h w (by simp [words, hw]))
    have h3 := (((((Colored.seq seq_lhs color).append h1).append (Colored.seq seq_reset color)).append
      (.refl c!" = ")).append h2)
    simpa [colored] using h3
  | call fn args =>
    simp only [printWith]
    have h1 := h (fn.asIdent.getD []) (by simp [words])
    have h2 := colored_printWith (color := color) i args (fun w hw => h w (by simp [words, hw]))
    have h3 := (((Colored.seq seq_bold color).append h1).append (Colored.seq seq_reset color)).append h2
    simpa [colored] using h3
theorem colored_printElems {mark : Str → Str} {color : Bool} (i : Nat) (multi first : Bool)
    (xs : List Node) (h : ∀ w ∈ wordsAll xs, Colored w (mark w)) :
    Colored (printElems id false i multi first xs) (printElems mark color i multi first xs) := by
  cases xs with
  | nil => exact .nil
  | cons x xs =>
    simp only [printElems]
    refine ((Colored.refl _).append ?_).append
      (colored_printElems i multi false xs (fun w hw => h w (by simp [wordsAll, hw])))
    split
    · exact .refl _
    · exact colored_printWith i x (fun w hw => h w (by simp [wordsAll, hw]))
end

mutual
theorem printWith_congr {mark mark' : Str → Str} {color : Bool} (i : Nat) (n : Node)
    (h : ∀ w ∈ words n, mark w = mark' w) : printWith mark color i n = printWith mark' color i n := by
  cases n with
  | null => rfl
  | str text triple raw => simp only [printWith, h text (by simp [words])]
  | int rep v => rfl
  | ident id => exact h id (by simp [words])
  | unary op e => simp only [printWith, printWith_congr i e (by simpa [words] using h)]
  | binop op l r =>
    simp only [printWith, printWith_congr i l (fun w hw => h w (by simp [words, hw])),
      printWith_congr i r (fun w hw => h w (by simp [words, hw]))]
  | list ty xs => simp only [printWith, printElems_congr _ _ _ xs (by simpa [words] using h)]
  | compr ty f => simp only [printWith, printWith_congr i f (by simpa [words] using h)]
  | ternary c p n =>
    simp only [printWith, printWith_congr i p (fun w hw => h w (by simp [words, hw])),
      printWith_congr i c (fun w hw => h w (by simp [words, hw])),
      printWith_congr i n (fun w hw => h w (by simp [words, hw]))]
  | assign l r =>
    simp only [printWith, printWith_congr i l (fun w hw => h w (by simp [words, hw])),
      printWith_congr i r (fun w hw => h w (by simp [words, hw]))]
  | call fn args =>
    simp only [printWith, h (fn.asIdent.getD []) (by simp [words]),
      printWith_congr i args (fun w hw => h w (by simp [words, hw]))]
theorem printElems_congr {mark mark' : Str → Str} {color : Bool} (i : Nat) (multi first : Bool)
    (xs : List Node) (h : ∀ w ∈ wordsAll xs, mark w = mark' w) :
    printElems mark color i multi first xs = printElems mark' color i multi first xs := by
  cases xs with
  | nil => rfl
  | cons x xs =>
    simp only [printElems, printWith_congr i x (fun w hw => h w (by simp [wordsAll, hw])),
      printElems_congr i multi false xs (fun w hw => h w (by simp [wordsAll, hw]))]
end

/-! ### Words -/

mutual
theorem words_iff (n : Node) (ht : wellTyped n = true) (w : Str) : w ∈ words n ↔ Word n w := by
  cases n with
  | null => simp only [words, List.not_mem_nil, false_iff]; intro h; cases h
  | str text triple raw =>
    simp only [words, List.mem_singleton]
    exact ⟨fun h => h ▸ .str, fun h => by cases h; rfl⟩
  | int rep v => simp only [words, List.not_mem_nil, false_iff]; intro h; cases h
  | ident id =>
    simp only [words, List.mem_singleton]
    exact ⟨fun h => h ▸ .ident, fun h => by cases h; rfl⟩
  | unary op e =>
    simp only [words, words_iff e (by simpa [wellTyped] using ht) w]
    exact ⟨.unary, fun h => by cases h; assumption⟩
  | binop op l r =>
    simp only [wellTyped, Bool.and_eq_true] at ht
    simp only [words, List.mem_append, words_iff l ht.1 w, words_iff r ht.2 w]
    exact ⟨fun h => h.elim .left .right, fun h => by cases h; exact Or.inl (by assumption); exact Or.inr (by assumption)⟩
  | list ty xs =>
    simp only [words, wordsAll_iff xs (by simpa [wellTyped] using ht) w]
    exact ⟨fun ⟨x, hx, h⟩ => .elem hx h, fun h => by cases h; exact ⟨_, by assumption, by assumption⟩⟩
  | compr ty f =>
    simp only [words, words_iff f (by simpa [wellTyped] using ht) w]
    exact ⟨.compr, fun h => by cases h; assumption⟩
  | ternary c p n =>
    simp only [wellTyped, Bool.and_eq_true] at ht
    simp only [words, List.mem_append, words_iff p ht.1.1 w, words_iff c ht.1.2 w, words_iff n ht.2 w]
    constructor
    · rintro ((h | h) | h)
      · exact .positive h
      · exact .condition h
      · exact .negative h
    · intro h
      cases h with
      | condition h => exact Or.inl (Or.inr h)
      | positive h => exact Or.inl (Or.inl h)
      | negative h => exact Or.inr h
  | assign l r =>
    simp only [wellTyped, Bool.and_eq_true] at ht
    simp only [words, List.mem_append, words_iff l ht.1 w, words_iff r ht.2 w]
    exact ⟨fun h => h.elim .lhs .rhs, fun h => by cases h; exact Or.inl (by assumption); exact Or.inr (by assumption)⟩
  | call fn args =>
    simp only [wellTyped, Bool.and_eq_true] at ht
    simp only [words, List.mem_cons, words_iff args ht.2 w]
    cases fn with
    | ident f =>
      simp only [Node.asIdent, Option.getD_some]
      exact ⟨fun h => h.elim (fun h => h ▸ .called .ident) .arg, fun h => by
        cases h with
        | called h => cases h; exact Or.inl rfl
        | arg h => exact Or.inr h⟩
    | _ => simp [Node.asIdent] at ht
theorem wordsAll_iff (xs : List Node) (ht : wellTypedAll xs = true) (w : Str) :
    w ∈ wordsAll xs ↔ ∃ x ∈ xs, Word x w := by
  cases xs with
  | nil => simp [wordsAll]
  | cons x xs =>
    simp only [wellTypedAll, Bool.and_eq_true] at ht
    simp only [wordsAll, List.mem_append, words_iff x ht.1 w, wordsAll_iff xs ht.2 w, List.mem_cons,
      exists_eq_or_imp]
end

/-! ### Highlighting -/

theorem highlightLoop_sound {find : Find} {color : Bool} : ∀ (n : Nat) (s : Str) (r : Str × Bool),
    highlightLoop find color n s = some r → Colored s r.1 ∧ (color = false → r.1 = s) ∧
      r.2 = (find s).isSome := by
  intro n
  induction n with
  | zero => intro s r h; cases h
  | succ n ih =>
    intro s r h
    simp only [highlightLoop] at h
    cases hf : find s with
    | none =>
      simp only [hf, Option.some.injEq] at h
      rw [← h]
      exact ⟨.refl _, fun _ => rfl, rfl⟩
    | some x =>
      obtain ⟨b, l⟩ := x
      simp only [hf] at h
      split at h
      · cases h
      · cases hl : highlightLoop find color n (s.drop (b + l)) with
        | none => simp [hl] at h
        | some q =>
          simp only [hl, Option.map_some, Option.some.injEq] at h
          obtain ⟨e2, e3, _⟩ := ih _ q hl
          rw [← h]
          refine ⟨?_, ?_, rfl⟩
          · have := ((((Colored.refl (s.take b)).append (Colored.seq seq_on color)).append
              (.refl ((s.drop b).take l))).append (Colored.seq seq_off color)).append e2
            have e : s.take b ++ [] ++ (s.drop b).take l ++ [] ++ s.drop (b + l) = s := by
              rw [List.append_nil, List.append_nil, List.append_assoc, ← List.drop_drop,
                List.take_append_drop, List.take_append_drop]
            rw [e] at this
            exact this
          · rintro rfl
            simp only [e3 rfl, colored, Bool.false_eq_true, if_false, List.append_nil]
            rw [List.append_assoc, ← List.drop_drop, List.take_append_drop, List.take_append_drop]

theorem highlight_sound {find : Option Find} {color : Bool} {s : Str} {r : Str × Bool}
    (h : highlight find color s = some r) : Colored s r.1 ∧ (color = false → r.1 = s) ∧
      (r.2 = true ↔ ∃ f, find = some f ∧ (f s).isSome = true) := by
  cases find with
  | none =>
    simp only [highlight, Option.some.injEq] at h
    rw [← h]
    exact ⟨.refl _, fun _ => rfl, by simp⟩
  | some f =>
    obtain ⟨h1, h2, h3⟩ := highlightLoop_sound _ _ _ h
    exact ⟨h1, h2, by rw [h3]; simp⟩

theorem highlightLoop_ends {find : Find} (color : Bool) (hne : ∀ s, find s ≠ some (0, 0))
    (hin : ∀ s b l, find s = some (b, l) → b + l ≤ s.length) : ∀ (n : Nat) (s : Str), s.length < n →
    (highlightLoop find color n s).isSome := by
  intro n
  induction n with
  | zero => intro s h; omega
  | succ n ih =>
    intro s hs
    cases hf : find s with
    | none => simp [highlightLoop, hf]
    | some r =>
      obtain ⟨b, l⟩ := r
      have h1 := hin s b l hf
      have h2 : b + l ≠ 0 := by
        intro e
        have hb : b = 0 := by omega
        have hl : l = 0 := by omega
        exact hne s (by rw [hf, hb, hl])
      have := ih (s.drop (b + l)) (by simp; omega)
      simp only [highlightLoop, hf, h2, if_false, Option.isSome_map, this]

theorem behind_first {find : Find} {w s : Str} {b l : Nat} (hf : find w = some (b, l))
    (h : Behind find (w.drop (b + l)) s) : Behind find w s := by
  induction h with
  | whole => exact .further .whole hf
  | further _ h2 ih => exact .further ih h2

theorem behind_cases {find : Find} {w s : Str} (h : Behind find w s) :
    s = w ∨ ∃ b l, find w = some (b, l) ∧ Behind find (w.drop (b + l)) s := by
  induction h with
  | whole => exact .inl rfl
  | further _ h2 ih =>
    rcases ih with rfl | ⟨b, l, h3, h4⟩
    · exact .inr ⟨_, _, h2, .whole⟩
    · exact .inr ⟨b, l, h3, .further h4 h2⟩

/-- The loop does not end iff there is an empty match at the begin of what is left. -/
theorem highlightLoop_none {find : Find} (color : Bool)
    (hin : ∀ s b l, find s = some (b, l) → b + l ≤ s.length) : ∀ (n : Nat) (s : Str), s.length < n →
    (highlightLoop find color n s = none ↔ ∃ r, Behind find s r ∧ find r = some (0, 0)) := by
  intro n
  induction n with
  | zero => intro s h; omega
  | succ n ih =>
    intro s hs
    cases hf : find s with
    | none =>
      simp only [highlightLoop, hf, reduceCtorEq, false_iff]
      rintro ⟨r, h1, h2⟩
      rcases behind_cases h1 with rfl | ⟨b, l, h3, _⟩
      · rw [hf] at h2; cases h2
      · rw [hf] at h3; cases h3
    | some r =>
      obtain ⟨b, l⟩ := r
      have h1 := hin s b l hf
      by_cases h2 : b + l = 0
      · have hb : b = 0 := by omega
        have hl : l = 0 := by omega
        simp only [highlightLoop, hf, h2, if_true, true_iff]
        exact ⟨s, .whole, by rw [hf, hb, hl]⟩
      · have := ih (s.drop (b + l)) (by simp; omega)
        simp only [highlightLoop, hf, h2, if_false, Option.map_eq_none_iff, this]
        constructor
        · rintro ⟨r, h3, h4⟩
          exact ⟨r, behind_first hf h3, h4⟩
        · rintro ⟨r, h3, h4⟩
          rcases behind_cases h3 with rfl | ⟨b', l', h5, h6⟩
          · rw [hf] at h4
            cases h4
            exact absurd rfl h2
          · rw [hf] at h5
            cases h5
            exact ⟨r, h6, h4⟩

theorem printNode_sound {find : Option Find} {color : Bool} {n : Node} {text : Str} {hit : Bool}
    (h : printNode find color n = some (text, hit)) :
    Colored (print 0 n) text ∧ (color = false → text = print 0 n) ∧
      (hit = true ↔ ∃ f w, find = some f ∧ Word n w ∧ (f w).isSome = true) := by
  simp only [printNode] at h
  split at h
  · next hc =>
    simp only [Bool.and_eq_true, List.all_eq_true] at hc
    obtain ⟨ht, hw⟩ := hc
    have key : ∀ w ∈ words n, ∃ r, highlight find color w = some r := fun w hm =>
      Option.isSome_iff_exists.1 (hw w hm)
    simp only [Option.some.injEq, Prod.mk.injEq] at h
    obtain ⟨e1, e2⟩ := h
    refine ⟨?_, ?_, ?_⟩
    · rw [← e1]
      refine colored_printWith 0 n fun w hm => ?_
      obtain ⟨r, hr⟩ := key w hm
      rw [hr]
      exact (highlight_sound hr).1
    · rintro rfl
      rw [← e1]
      refine printWith_congr 0 n fun w hm => ?_
      obtain ⟨r, hr⟩ := key w hm
      rw [hr]
      exact (highlight_sound hr).2.1 rfl
    · rw [← e2, List.any_eq_true]
      constructor
      · rintro ⟨w, hm, hh⟩
        obtain ⟨r, hr⟩ := key w hm
        rw [hr] at hh
        obtain ⟨f, h1, h2⟩ := (highlight_sound hr).2.2.1 hh
        exact ⟨f, w, h1, (words_iff n ht w).1 hm, h2⟩
      · rintro ⟨f, w, h1, h2, h3⟩
        have hm := (words_iff n ht w).2 h2
        obtain ⟨r, hr⟩ := key w hm
        refine ⟨w, hm, ?_⟩
        rw [hr]
        exact (highlight_sound hr).2.2.2 ⟨f, h1, h3⟩
  · cases h

/-- Exactly when printing does not end. -/
theorem printNode_none {find : Find} {color : Bool} {n : Node} (ht : wellTyped n = true)
    (hin : ∀ s b l, find s = some (b, l) → b + l ≤ s.length) :
    printNode (some find) color n = none ↔
      ∃ w r, Word n w ∧ Behind find w r ∧ find r = some (0, 0) := by
  have h1 : printNode (some find) color n = none ↔
      ∃ w ∈ words n, highlightLoop find color (w.length + 1) w = none := by
    simp only [printNode, ht, Bool.true_and, highlight]
    split
    · next hc =>
      simp only [List.all_eq_true, Option.isSome_iff_ne_none] at hc
      simp only [reduceCtorEq, false_iff]
      rintro ⟨w, h1, h2⟩
      exact hc w h1 h2
    · next hc =>
      simp only [List.all_eq_true, Option.isSome_iff_ne_none] at hc
      simp only [true_iff]
      exact Classical.byContradiction fun h => hc fun w h1 h2 => h ⟨w, h1, h2⟩
  rw [h1]
  constructor
  · rintro ⟨w, h2, h3⟩
    obtain ⟨r, h4, h5⟩ := (highlightLoop_none color hin _ w (by omega)).1 h3
    exact ⟨w, r, (words_iff n ht w).1 h2, h4, h5⟩
  · rintro ⟨w, r, h2, h3, h4⟩
    exact ⟨w, (words_iff n ht w).2 h2, (highlightLoop_none color hin _ w (by omega)).2 ⟨r, h3, h4⟩⟩

theorem printNode_ends {find : Find} {color : Bool} {n : Node} (ht : wellTyped n = true)
    (hne : ∀ s, find s ≠ some (0, 0)) (hin : ∀ s b l, find s = some (b, l) → b + l ≤ s.length) :
    ∃ text hit, printNode (some find) color n = some (text, hit) := by
  have : (words n).all (fun w => (highlight (some find) color w).isSome) = true := by
    rw [List.all_eq_true]
    exact fun w _ => highlightLoop_ends color hne hin _ w (by omega)
  have h : ∃ r, printNode (some find) color n = some r :=
    ⟨_, by simp only [printNode, ht, this, Bool.and_self, if_true]; rfl⟩
  obtain ⟨⟨text, hit⟩, h⟩ := h
  exact ⟨text, hit, h⟩

/-! ### Names of calls -/

theorem wellTypedAll_iff {xs : List Node} : wellTypedAll xs = true ↔ ∀ x ∈ xs, wellTyped x = true := by
  induction xs with
  | nil => simp [wellTypedAll]
  | cons x xs ih => simp [wellTypedAll, ih]

theorem wellTyped_vars {vs : List Node} (h : ∀ v ∈ vs, v = .null ∨ ∃ i, v = .ident i ∧ IdentText i) :
    wellTypedAll vs = true := by
  rw [wellTypedAll_iff]
  intro v hv
  rcases h v hv with rfl | ⟨i, rfl, _⟩ <;> rfl

theorem tree_wellTyped {k : Kind} {n : Node} (h : Tree k n) : wellTyped n = true := by
  induction h with
  | list _ ih => simpa [wellTyped, wellTypedAll_iff] using ih
  | tuple _ ih => simpa [wellTyped, wellTypedAll_iff] using ih
  | map _ ih => simpa [wellTyped, wellTypedAll_iff] using ih
  | call _ _ ih => simpa [wellTyped, wellTypedAll_iff, Node.asIdent] using ih
  | one _ hv _ ih1 ih2 => simp [wellTyped, ih1, ih2, wellTyped_vars hv]
  | more _ hv _ ih1 ih2 => simp [wellTyped, ih1, ih2, wellTyped_vars hv]
  | _ => simp_all [wellTyped]

theorem stmt_wellTyped {n : Node} (h : Stmt n) : wellTyped n = true := by
  cases h with
  | call h => exact tree_wellTyped h
  | list h => exact tree_wellTyped h
  | compr h => exact tree_wellTyped h
  | assign _ h => simp [wellTyped, tree_wellTyped h]
  | tupleAssign hv h => simp [wellTyped, wellTyped_vars hv, tree_wellTyped h]
  | method _ h => simp [wellTyped, tree_wellTyped h]

theorem printNode_plain {n : Node} (h : wellTyped n = true) :
    printNode none false n = some (print 0 n, false) := by
  have e : printNode none false n = some (printWith (fun w => w) false 0 n, false) := by
    simp [printNode, h, highlight]
  rw [e]
  rfl

/-! ### Values of keyword arguments -/

theorem kwArgsIn_mem {c : Node × Node} {xs : List Node} (h : c ∈ kwArgsIn xs) : ∃ x ∈ xs, c ∈ kwArgs x := by
  induction xs with
  | nil => simp [kwArgsIn] at h
  | cons x xs ih =>
    simp only [kwArgsIn, List.mem_append] at h
    rcases h with h | h
    · exact ⟨x, by simp, h⟩
    · obtain ⟨y, hy, h⟩ := ih h
      exact ⟨y, by simp [hy], h⟩

theorem kwArgs_vars {vs : List Node} (h : ∀ v ∈ vs, v = .null ∨ ∃ i, v = .ident i ∧ IdentText i) :
    kwArgsIn vs = [] := by
  cases hc : kwArgsIn vs with
  | nil => rfl
  | cons c cs =>
    exfalso
    obtain ⟨v, hv, hm⟩ := kwArgsIn_mem (c := c) (xs := vs) (by rw [hc]; simp)
    rcases h v hv with rfl | ⟨i, rfl, _⟩ <;> simp [kwArgs] at hm

theorem tree_kwArgs {k : Kind} {n : Node} (h : Tree k n) : ∀ c ∈ kwArgs n, Tree .expr c.2 := by
  have elems : ∀ {xs : List Node}, (∀ x ∈ xs, ∀ c ∈ kwArgs x, Tree .expr c.2) →
      ∀ c ∈ kwArgsIn xs, Tree .expr c.2 := by
    intro xs h c hc
    obtain ⟨x, hx, hc⟩ := kwArgsIn_mem hc
    exact h x hx c hc
  induction h with
  | str => simp [kwArgs]
  | int => simp [kwArgs]
  | ident => simp [kwArgs]
  | unary _ _ ih => simpa [kwArgs] using ih
  | unaryHole => simp [kwArgs]
  | binop _ _ _ ih1 ih2 =>
    intro c hc; simp only [kwArgs, List.mem_append] at hc; exact hc.elim (ih1 c) (ih2 c)
  | index _ _ ih1 ih2 =>
    intro c hc; simp only [kwArgs, List.mem_append] at hc; exact hc.elim (ih1 c) (ih2 c)
  | ternary _ _ _ ih1 ih2 ih3 =>
    intro c hc; simp only [kwArgs, List.mem_append] at hc
    exact hc.elim (fun h => h.elim (ih1 c) (ih2 c)) (ih3 c)
  | onlyIf _ _ ih1 ih2 =>
    intro c hc; simp only [kwArgs, List.append_nil, List.mem_append] at hc
    exact hc.elim (ih1 c) (ih2 c)
  | list _ ih => exact elems ih
  | tuple _ ih => exact elems ih
  | map _ ih => exact elems ih
  | call hf h ih => exact elems ih
  | listCompr _ ih => simpa [kwArgs] using ih
  | mapCompr _ ih => simpa [kwArgs] using ih
  | entry _ _ ih1 ih2 =>
    intro c hc; simp only [kwArgs, List.mem_append] at hc; exact hc.elim (ih1 c) (ih2 c)
  | value _ ih => exact ih
  | keyword _ h _ => intro c hc; simp only [kwArgs, List.mem_singleton] at hc; rw [hc]; exact h
  | at_ _ ih => exact ih
  | slice _ _ ih1 ih2 =>
    intro c hc; simp only [kwArgs, List.mem_append] at hc; exact hc.elim (ih1 c) (ih2 c)
  | sliceFrom _ ih => simpa [kwArgs] using ih
  | sliceTo _ ih => simpa [kwArgs] using ih
  | one _ hv _ ih1 ih2 =>
    intro c hc
    simp only [kwArgs, kwArgs_vars hv, List.nil_append, List.mem_append] at hc
    exact hc.elim (ih1 c) (ih2 c)
  | more _ hv _ ih1 ih2 =>
    intro c hc
    simp only [kwArgs, kwArgs_vars hv, List.nil_append, List.mem_append] at hc
    exact hc.elim (ih1 c) (ih2 c)

theorem Tree.ne_null {k : Kind} {n : Node} (h : Tree k n) : n ≠ .null := by
  induction h <;> first | (intro e; cases e; done) | assumption

theorem tree_elems {ty : ListType} {xs : List Node} (h : Tree .expr (.list ty xs)) : .null ∉ xs := by
  intro hm
  cases h with
  | list h => exact (h _ hm).ne_null rfl
  | tuple h => exact (h _ hm).ne_null rfl
  | map h => exact (h _ hm).ne_null rfl

mutual
theorem sites_calls (n : Node) : ∀ c ∈ sites n, c ∈ calls n := by
  cases n with
  | null => simp [sites]
  | str => simp [sites]
  | int => simp [sites]
  | ident => simp [sites]
  | unary op e => exact sites_calls e
  | binop op a b =>
    intro c hc
    simp only [sites, calls, List.mem_append] at hc ⊢
    exact hc.imp (sites_calls a c) (sites_calls b c)
  | list ty xs => exact sitesIn_callsIn xs
  | compr ty e => exact sites_calls e
  | ternary a b d =>
    intro c hc
    simp only [sites, calls, List.mem_append] at hc ⊢
    exact hc.imp (fun h => h.imp (sites_calls a c) (sites_calls b c)) (sites_calls d c)
  | assign => simp [sites]
  | call f args =>
    intro c hc
    simp only [sites, List.mem_singleton] at hc
    simp [calls, hc]
theorem sitesIn_callsIn (xs : List Node) : ∀ c ∈ sitesIn xs, c ∈ callsIn xs := by
  cases xs with
  | nil => simp [sitesIn]
  | cons x xs =>
    intro c hc
    simp only [sitesIn, callsIn, List.mem_append] at hc ⊢
    exact hc.imp (sites_calls x c) (sitesIn_callsIn xs c)
end

/-- What is reported is one of the calls, with lists given as keyword arguments. -/
theorem report_mem {rules : List Str} {ae : Bool} {r : Result} : ∀ {ss : List (Node × Node)}
    {vis : Option ListRef}, r ∈ report kwArgsIn rules ae vis ss →
    (∃ s ∈ ss, r.node = .call s.1 s.2) ∧
    (r.visibility = vis ∨ r.visibility = none ∨
      ∃ s ∈ ss, ∃ kw ∈ kwArgs s.2, listOf kw.2 = r.visibility)
  | [], _, h => by simp [report] at h
  | s :: ss, vis, h => by
    have weaken : ∀ {vis'}, r ∈ report kwArgsIn rules ae vis' ss →
        (vis' = vis ∨ vis' = none ∨ ∃ kw ∈ kwArgs s.2, listOf kw.2 = vis') →
        (∃ t ∈ s :: ss, r.node = .call t.1 t.2) ∧ (r.visibility = vis ∨ r.visibility = none ∨
          ∃ t ∈ s :: ss, ∃ kw ∈ kwArgs t.2, listOf kw.2 = r.visibility) := by
      intro vis' hm hv
      obtain ⟨⟨t, ht, h1⟩, h2⟩ := report_mem hm
      refine ⟨⟨t, by simp [ht], h1⟩, ?_⟩
      rcases h2 with h2 | h2 | ⟨t, ht, h2⟩
      · rw [h2]
        rcases hv with hv | hv | ⟨kw, hk, hv⟩
        · exact Or.inl hv
        · exact Or.inr (Or.inl hv)
        · exact Or.inr (Or.inr ⟨s, by simp, kw, hk, hv⟩)
      · exact Or.inr (Or.inl h2)
      · exact Or.inr (Or.inr ⟨t, by simp [ht], h2⟩)
    have lastMem : ∀ {key : Str} {kws : List (Node × Node)} {l : ListRef}, last key listOf kws = some l →
        ∃ kw ∈ kws, listOf kw.2 = some l := by
      intro key kws l hl
      obtain ⟨kw, hk, he⟩ := List.exists_of_findSome?_eq_some hl
      refine ⟨kw, by simpa using hk, ?_⟩
      revert he
      split
      · split
        · exact id
        · intro he; cases he
      · intro he; cases he
    have lastOr : ∀ (key : Str) (args : List Node) (vis : Option ListRef),
        (last key listOf (kwArgsIn args)).or vis = vis ∨
        ∃ kw ∈ kwArgsIn args, listOf kw.2 = (last key listOf (kwArgsIn args)).or vis := by
      intro key args vis
      cases hl : last key listOf (kwArgsIn args) with
      | none => left; rfl
      | some l =>
        right
        obtain ⟨kw, hk, he⟩ := lastMem hl
        exact ⟨kw, hk, by simpa using he⟩
    have other : r ∈ report kwArgsIn rules ae vis ss → _ := fun hm => weaken hm (Or.inl rfl)
    obtain ⟨f, a⟩ := s
    cases f with
    | ident fn =>
      cases a with
      | list ty args =>
        simp only [report] at h
        split at h
        · refine weaken h ?_
          rcases lastOr c!"default_visibility" args vis with h' | ⟨kw, hk, h'⟩
          · exact Or.inl h'
          · exact Or.inr (Or.inr ⟨kw, hk, h'⟩)
        · split at h
          · rcases List.mem_cons.1 h with rfl | h
            · refine ⟨⟨(.ident fn, .list ty args), by simp, rfl⟩, ?_⟩
              rcases lastOr c!"visibility" args vis with h' | ⟨kw, hk, h'⟩
              · exact Or.inl h'
              · exact Or.inr (Or.inr ⟨(.ident fn, .list ty args), by simp, kw, hk, h'⟩)
            · exact other h
          · exact other h
      | _ => simp only [report] at h; exact other h
    | _ => simp only [report] at h; exact other h

theorem visibilityWords_eq {xs : List Node} (h : .null ∉ xs) :
    visibilityWords xs = some ((xs.filterMap Rules.text).flatMap (' ' :: ·)) := by
  induction xs with
  | nil => rfl
  | cons x xs ih =>
    have ih' := ih fun hm => h (by simp [hm])
    cases x with
    | null => simp at h
    | str t tr rw' => simp [visibilityWords, ih', Rules.text]
    | int rep v => simp [visibilityWords, ih', Rules.text]
    | _ =>
      rw [List.filterMap_cons_none (by rfl)]
      simpa only [visibilityWords] using ih'

end Print
end Bant
