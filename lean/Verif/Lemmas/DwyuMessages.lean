import Verif.Lemmas.DwyuRule
import Verif.Lemmas.Ordered
import Verif.Props.Includes
import Verif.Props.LineCol
import Verif.Spec.DwyuMessages

/-! Lemmas about what DWYU says. -/
namespace Bant
namespace Dwyu
open DwyuSpec Query Rules Headers HeaderSpec HeaderIndex Paths

/-! ### Sources -/

theorem openFile_iff {env : Env} {pkg : BazelPackage} {src path content : Str} {isGen : Bool} :
    openFile env.read (pkg.fullyQualifiedFile env.workspace src) = some (path, content, isGen) ↔
      ∃ dir, ReadFrom env pkg src dir content ∧ path = dir ++ pkg.fullyQualifiedFile env.workspace src ∧
        isGen = !dir.isEmpty := by
  unfold openFile ReadFrom
  rw [List.findSome?_eq_some_iff]
  constructor
  · rintro ⟨a, d, b, h1, h2, h3⟩
    rw [Option.map_eq_some_iff] at h2
    obtain ⟨c, h2, h4⟩ := h2
    injection h4 with h4 h5
    injection h5 with h5 h6
    subst h5
    exact ⟨d, ⟨a, b, h1, h2, fun x hx => by simpa using h3 x hx⟩, h4.symm, h6.symm⟩
  · rintro ⟨d, ⟨a, b, h1, h2, h3⟩, rfl, rfl⟩
    exact ⟨a, d, b, h1, by rw [h2]; rfl, fun x hx => by rw [h3 x hx]; rfl⟩

theorem openFile_none {env : Env} {pkg : BazelPackage} {src : Str} :
    openFile env.read (pkg.fullyQualifiedFile env.workspace src) = none ↔ ∀ c, ¬ Content env pkg src c := by
  constructor
  · rintro h c ⟨a, d, b, h1, h2, h3⟩
    have := openFile_iff.2 ⟨d, ⟨a, b, h1, h2, h3⟩, rfl, rfl⟩
    rw [this] at h; cases h
  · intro h
    cases ho : openFile env.read (pkg.fullyQualifiedFile env.workspace src) with
    | none => rfl
    | some x =>
      obtain ⟨d, ⟨a, b, h1, h2, h3⟩, _⟩ := openFile_iff.1 ho
      exact absurd ⟨a, d, b, h1, h2, h3⟩ (h _)

theorem readFrom_unique {env : Env} {pkg : BazelPackage} {src dir dir' content content' : Str}
    (h : ReadFrom env pkg src dir content) (h' : ReadFrom env pkg src dir' content') :
    dir' = dir ∧ content' = content := by
  have h1 := openFile_iff.2 ⟨dir, h, rfl, rfl⟩
  have h2 := openFile_iff.2 ⟨dir', h', rfl, rfl⟩
  rw [h1] at h2
  injection h2 with h2
  injection h2 with h2 h3
  injection h3 with h3 _
  exact ⟨(List.append_cancel_right h2).symm, h3.symm⟩

theorem extract_bound {content : Str} {x : Nat × Str} (h : x ∈ Includes.extract content) :
    x.1 + x.2.length ≤ content.length := by
  obtain ⟨pos, path⟩ := x
  obtain ⟨a, b, c, rest, h1, _, _, _, _, h2⟩ := (Props.C45_sound_partial content).1 pos path h
  rw [h1, h2]
  simp only [List.length_append, List.length_cons, List.length_nil]
  omega

theorem extract_last {content : Str} {x y : Nat × Str} (h : x ∈ Includes.extract content)
    (hl : (Includes.extract content).getLast? = some y) : x.1 + x.2.length ≤ y.1 + y.2.length := by
  have hp := (Props.C45_sound_partial content).2
  obtain ⟨init, hi⟩ : ∃ init, Includes.extract content = init ++ [y] := by
    rw [List.getLast?_eq_some_iff] at hl; exact hl
  rw [hi] at h hp
  rcases List.mem_append.1 h with h | h
  · have := (List.pairwise_append.1 hp).2.2 x h y (by simp)
    omega
  · simp at h; subst h; exact Nat.le_refl _

/-- Locations in sources are the true ones. -/
theorem sourceLoc_eq {path content : Str} {incs : List (Nat × Str)} (hi : incs = Includes.extract content) :
    ∃ index, lineIndex content incs = some index ∧ ∀ x ∈ incs,
      sourceLoc path content index x = some (locationIn path content x.1 (x.1 + x.2.length)) := by
  subst hi
  unfold lineIndex
  cases hl : (Includes.extract content).getLast? with
  | none =>
    rw [List.getLast?_eq_none_iff] at hl
    exact ⟨[], rfl, by simp [hl]⟩
  | some y =>
    obtain ⟨m, h1, h2⟩ := Props.C09_position (content.take (y.1 + y.2.length))
    have hy := extract_bound (List.mem_of_getLast? hl)
    refine ⟨m, h1, fun x hx => ?_⟩
    have hx1 := extract_last hx hl
    have hx2 := extract_bound hx
    have hlen : (content.take (y.1 + y.2.length)).length = y.1 + y.2.length := by
      rw [List.length_take]; omega
    have g1 := h2 x.1 (by omega)
    have g2 := h2 (x.1 + x.2.length) (by omega)
    have t1 : ∀ p, p ≤ y.1 + y.2.length → (content.take (y.1 + y.2.length)).take p = content.take p := by
      intro p hp
      rw [List.take_take, Nat.min_eq_left hp]
    unfold Props.lineOf Props.colOf at g1 g2
    rw [t1 _ (by omega)] at g1 g2
    unfold sourceLoc getLocation locationIn
    rw [if_pos hx2]
    unfold LineMap.getRange
    rw [g1, g2]
    simp

/-! ### One include -/

/-- What the index finds. -/
def nearOf (gen : Generator) (path : Str) : Option Str :=
  match findBySuffix gen.headers path 2 with
  | some (some f) => some f.found
  | _ => none

theorem nearOf_cases {files : Files} {gen : Generator} (hm : Made files gen) (path : Str) :
    (∃ f, findBySuffix gen.headers path 2 = some (some f) ∧ nearOf gen path = some f.found ∧
      Nearest files path f.found ∧ (∀ t, t ∈ f.targets ↔ Provides files f.found t)) ∨
    (findBySuffix gen.headers path 2 = some none ∧ nearOf gen path = none ∧ ∀ p, ¬ Nearest files path p) := by
  unfold nearOf
  rcases hm.index path with ⟨found, ts, score, h1, h2, h3, _⟩ | ⟨h1, h2⟩
  · exact .inl ⟨⟨found, ts, score⟩, h1, by rw [h1], h2, h3⟩
  · exact .inr ⟨h1, by rw [h1], h2⟩

theorem reading_of {files : Files} {gen : Generator} (hm : Made files gen) : Reading files (nearOf gen) where
  found path p h := by
    rcases nearOf_cases hm path with ⟨f, _, h2, h3, _⟩ | ⟨_, h2, _⟩
    · rw [h2] at h; cases h; exact h3
    · rw [h2] at h; cases h
  missing path h := by
    rcases nearOf_cases hm path with ⟨f, _, h2, h3, _⟩ | ⟨_, _, h3⟩
    · rw [h2] at h; cases h
    · exact h3

theorem mem_inOrder {s : List BazelTarget} {t : BazelTarget} : t ∈ inOrder s ↔ t ∈ s := by
  have := (foldl_add (fun t : BazelTarget => t) s []).1 t
  unfold inOrder
  rw [this]
  simp

theorem inOrder_ascending (s : List BazelTarget) :
    (inOrder s).Pairwise fun a b => Ordered.lt a b = true :=
  foldl_add_ascending (fun t : BazelTarget => t) s [] List.Pairwise.nil

theorem sayProviders_spec {files : Files} {gen : Generator} (hm : Made files gen) (talk : Talk)
    (target : BazelTarget) (loc : Str) (ts : List BazelTarget) :
    ∃ ms, sayProviders talk gen target loc ts = some ms ∧ ∀ m, m ∈ ms ↔
      ∃ t ∈ ts, ∃ visible, (visible = true ↔ Visible files target t) ∧ m = .provider loc t visible talk.color := by
  induction ts with
  | nil => exact ⟨[], rfl, by simp⟩
  | cons t ts ih =>
    obtain ⟨ms, h1, h2⟩ := ih
    obtain ⟨b, h3, h4⟩ := canSee_spec hm target t
    rw [sayProviders, h3, h1]
    refine ⟨_, rfl, fun m => ?_⟩
    rw [List.mem_cons, h2]
    simp only [List.mem_cons, exists_eq_or_imp]
    have : (m = .provider loc t b talk.color) ↔
        ∃ visible, (visible = true ↔ Visible files target t) ∧ m = .provider loc t visible talk.color := by
      constructor
      · exact fun h => ⟨b, h4, h⟩
      · rintro ⟨v, hv, h⟩
        have : v = b := by rw [Bool.eq_iff_iff, hv, h4]
        rw [h, this]
    rw [this]

theorem maybeLog_spec {files : Files} {gen : Generator} (hm : Made files gen) (talk : Talk)
    (target : BazelTarget) (loc inc : Str) {p : Str} {ts : List BazelTarget}
    (hts : ∀ t, t ∈ ts ↔ Provides files p t) :
    ∃ ms, maybeLog talk gen target loc inc ts = some ms ∧ ∀ m, m ∈ ms ↔ 3 ≤ talk.verbose ∧
      (m = .included loc inc ∨ ∃ t visible, Provides files p t ∧ (visible = true ↔ Visible files target t) ∧
        m = .provider loc t visible talk.color) := by
  unfold maybeLog
  split
  · refine ⟨[], rfl, fun m => ?_⟩
    have : ¬ 3 ≤ talk.verbose := by omega
    simp [this]
  · obtain ⟨ms, h1, h2⟩ := sayProviders_spec hm talk target loc (inOrder ts)
    rw [h1]
    refine ⟨_, rfl, fun m => ?_⟩
    have : 3 ≤ talk.verbose := by omega
    rw [List.mem_cons, h2]
    simp only [this, true_and, mem_inOrder, hts]
    constructor
    · rintro (h | ⟨t, ht, v, hv, h⟩)
      · exact .inl h
      · exact .inr ⟨t, v, ht, hv, h⟩
    · rintro (h | ⟨t, v, ht, hv, h⟩)
      · exact .inl h
      · exact .inr ⟨t, ht, v, hv, h⟩

section
variable (files : List Tree) (talk : Talk) (near : Str → Option Str) (pkg : BazelPackage) (r : Result)
  (target : BazelTarget)

/-- Complaints about one include. -/
inductive Faulty (isGen : Bool) (loc inc : Str) : Message → Prop
  | own : isGen = false → ¬ Own target r inc → OwnSlash r inc → Faulty isGen loc inc (.relative loc inc)
  | relative {p} : isGen = false → ¬ Own target r inc → ¬ OwnSlash r inc → near inc = none →
      near (pkg.qualifiedFile inc) = some p → Faulty isGen loc inc (.relative loc inc)
  | generated {g} : ¬ Own target r inc → ¬ OwnSlash r inc → near inc = none →
      near (pkg.qualifiedFile inc) = none → madeBy files inc = some g → Faulty isGen loc inc (.generated loc inc g)
  | unknown : 1 ≤ talk.verbose → ¬ Own target r inc → ¬ OwnSlash r inc → near inc = none →
      near (pkg.qualifiedFile inc) = none → madeBy files inc = none → Faulty isGen loc inc (.unknown loc inc)

/-- What else is said about it. -/
inductive Noted (loc inc : Str) : Message → Prop
  | similar {p} : 2 ≤ talk.verbose → ¬ Own target r inc → ¬ OwnSlash r inc → near inc = some p →
      p.length ≠ inc.length → Noted loc inc (.similar loc inc p)
  | included {p} : 3 ≤ talk.verbose → ¬ Own target r inc → ¬ OwnSlash r inc →
      near inc = some p ∨ near inc = none ∧ near (pkg.qualifiedFile inc) = some p → Noted loc inc (.included loc inc)
  | provider {p t visible} : 3 ≤ talk.verbose → ¬ Own target r inc → ¬ OwnSlash r inc →
      near inc = some p ∨ near inc = none ∧ near (pkg.qualifiedFile inc) = some p →
      Provides files p t → (visible = true ↔ Visible files target t) →
      Noted loc inc (.provider loc t visible talk.color)
end

theorem own_iff {target : BazelTarget} {r : Result} {inc : Str} :
    isHeaderInList inc (sourcesOf r) target.package.path = true ↔ Own target r inc := by
  rw [isHeaderInList_iff]; rfl

theorem ownSlash_iff {target : BazelTarget} {r : Result} {inc : Str} (h : ¬ Own target r inc) :
    isHeaderInList inc (sourcesOf r) [] = true ↔ OwnSlash r inc := by
  rw [isHeaderInList_iff]
  constructor
  · rintro ⟨s, hs, h' | h'⟩
    · exact absurd ⟨s, hs, .inl h'⟩ h
    · exact ⟨s, hs, h'⟩
  · rintro ⟨s, hs, h'⟩; exact ⟨s, hs, .inr h'⟩

theorem sayInclude_spec {files : Files} {gen : Generator} (hm : Made files gen) (talk : Talk)
    {genrules : List (Str × BazelTarget)} (hg : ∀ path, lookup genrules path = madeBy files path)
    (target : BazelTarget) (pkg : BazelPackage) (r : Result) (isGen : Bool) (loc inc : Str) :
    ∃ ms refer, sayInclude talk gen genrules target pkg (sourcesOf r) isGen loc inc = some (ms, refer) ∧
      (∀ m, m ∈ ms ↔ Faulty files talk (nearOf gen) pkg r target isGen loc inc m ∨
        Noted files talk (nearOf gen) pkg r target loc inc m) ∧
      (refer = true ↔ ∃ m, Faulty files talk (nearOf gen) pkg r target isGen loc inc m) := by
  unfold sayInclude
  by_cases ho : Own target r inc
  · rw [if_pos (own_iff.2 ho)]
    refine ⟨[], false, rfl, fun m => ⟨by simp, ?_⟩, ⟨by simp, ?_⟩⟩
    · rintro (h | h) <;> cases h <;> contradiction
    · rintro ⟨m, h⟩; cases h <;> contradiction
  · rw [if_neg (fun h => ho (own_iff.1 h))]
    by_cases hsl : OwnSlash r inc
    · rw [if_pos ((ownSlash_iff ho).2 hsl)]
      cases isGen with
      | true =>
        refine ⟨[], false, rfl, fun m => ⟨by simp, ?_⟩, ⟨by simp, ?_⟩⟩
        · rintro (h | h) <;> cases h <;> contradiction
        · rintro ⟨m, h⟩; cases h <;> contradiction
      | false =>
        refine ⟨[.relative loc inc], true, rfl, fun m => ⟨?_, ?_⟩, by simp; exact ⟨_, .own rfl ho hsl⟩⟩
        · intro h; simp at h; subst h; exact .inl (.own rfl ho hsl)
        · rintro (h | h) <;> cases h <;> first | contradiction | simp
    · rw [if_neg (fun h => hsl ((ownSlash_iff ho).1 h))]
      rcases nearOf_cases hm inc with ⟨f, h1, h2, h3, h4⟩ | ⟨h1, h2, h3⟩
      · rw [h1]
        simp only []
        obtain ⟨log, l1, l2⟩ := maybeLog_spec hm talk target loc inc h4
        rw [l1]
        refine ⟨_, _, rfl, fun m => ?_, ?_⟩
        · rw [List.mem_append, l2]
          constructor
          · rintro (h | ⟨h, rfl | ⟨t, v, g1, g2, rfl⟩⟩)
            · split at h
              · rename_i hc
                simp only [ne_eq, Bool.and_eq_true, decide_eq_true_eq] at hc
                simp at h; subst h
                exact .inr (.similar (by omega) ho hsl h2 hc.1)
              · cases h
            · exact .inr (.included h ho hsl (.inl h2))
            · exact .inr (.provider h ho hsl (.inl h2) g1 g2)
          · rintro (h | h)
            · cases h with
              | own _ _ h => contradiction
              | relative _ _ _ h => rw [h2] at h; cases h
              | generated _ _ h => rw [h2] at h; cases h
              | unknown _ _ _ h => rw [h2] at h; cases h
            · cases h with
              | similar g1 _ _ g2 g3 =>
                rw [h2] at g2; cases g2
                left
                rw [if_pos (by simp only [ne_eq, Bool.and_eq_true, decide_eq_true_eq]; exact ⟨g3, by omega⟩)]
                simp
              | included g1 _ _ _ => exact .inr ⟨g1, .inl rfl⟩
              | provider g1 _ _ g2 g3 g4 =>
                rcases g2 with g2 | ⟨g2, _⟩
                · rw [h2] at g2; cases g2
                  exact .inr ⟨g1, .inr ⟨_, _, g3, g4, rfl⟩⟩
                · rw [h2] at g2; cases g2
        · simp only [Bool.false_eq_true, false_iff]
          rintro ⟨m, h⟩
          cases h with
          | own _ _ h => contradiction
          | relative _ _ _ h => rw [h2] at h; cases h
          | generated _ _ h => rw [h2] at h; cases h
          | unknown _ _ _ h => rw [h2] at h; cases h
      · rw [h1]
        simp only []
        rcases nearOf_cases hm (pkg.qualifiedFile inc) with ⟨f, k1, k2, k3, k4⟩ | ⟨k1, k2, k3⟩
        · rw [k1]
          simp only []
          obtain ⟨log, l1, l2⟩ := maybeLog_spec hm talk target loc inc k4
          rw [l1]
          refine ⟨_, _, rfl, fun m => ?_, ?_⟩
          · rw [List.mem_append, l2]
            constructor
            · rintro (h | ⟨h, rfl | ⟨t, v, g1, g2, rfl⟩⟩)
              · cases isGen with
                | true => simp at h
                | false => simp at h; subst h; exact .inl (.relative rfl ho hsl h2 k2)
              · exact .inr (.included h ho hsl (.inr ⟨h2, k2⟩))
              · exact .inr (.provider h ho hsl (.inr ⟨h2, k2⟩) g1 g2)
            · rintro (h | h)
              · cases h with
                | own _ _ h => contradiction
                | relative g1 _ _ _ _ => subst g1; simp
                | generated _ _ _ h => rw [k2] at h; cases h
                | unknown _ _ _ _ h => rw [k2] at h; cases h
              · cases h with
                | similar g1 _ _ g2 g3 => rw [h2] at g2; cases g2
                | included g1 _ _ _ => exact .inr ⟨g1, .inl rfl⟩
                | provider g1 _ _ g2 g3 g4 =>
                  rcases g2 with g2 | ⟨_, g2⟩
                  · rw [h2] at g2; cases g2
                  · rw [k2] at g2; cases g2
                    exact .inr ⟨g1, .inr ⟨_, _, g3, g4, rfl⟩⟩
          · cases isGen with
            | true =>
              simp only [Bool.not_true, Bool.false_eq_true, false_iff]
              rintro ⟨m, h⟩
              cases h with
              | own h _ _ => cases h
              | relative h _ _ _ _ => cases h
              | generated _ _ _ h => rw [k2] at h; cases h
              | unknown _ _ _ _ h => rw [k2] at h; cases h
            | false =>
              simp only [Bool.not_false, true_iff]
              exact ⟨_, .relative rfl ho hsl h2 k2⟩
        · rw [k1]
          simp only []
          rw [hg]
          cases hmade : madeBy files inc with
          | some g =>
            refine ⟨_, _, rfl, fun m => ⟨?_, ?_⟩, by simp; exact ⟨_, .generated ho hsl h2 k2 hmade⟩⟩
            · intro h; simp at h; subst h; exact .inl (.generated ho hsl h2 k2 hmade)
            · rintro (h | h)
              · cases h with
                | own _ _ h => contradiction
                | relative _ _ _ _ h => rw [k2] at h; cases h
                | generated _ _ _ _ h => rw [hmade] at h; cases h; simp
                | unknown _ _ _ _ _ h => rw [hmade] at h; cases h
              · cases h with
                | similar _ _ _ g2 _ => rw [h2] at g2; cases g2
                | included _ _ _ g2 =>
                  rcases g2 with g2 | ⟨_, g2⟩
                  · rw [h2] at g2; cases g2
                  · rw [k2] at g2; cases g2
                | provider _ _ _ g2 _ _ =>
                  rcases g2 with g2 | ⟨_, g2⟩
                  · rw [h2] at g2; cases g2
                  · rw [k2] at g2; cases g2
          | none =>
            have hno : ∀ m, Noted files talk (nearOf gen) pkg r target loc inc m → False := by
              intro m h
              cases h with
              | similar _ _ _ g2 _ => rw [h2] at g2; cases g2
              | included _ _ _ g2 =>
                rcases g2 with g2 | ⟨_, g2⟩
                · rw [h2] at g2; cases g2
                · rw [k2] at g2; cases g2
              | provider _ _ _ g2 _ _ =>
                rcases g2 with g2 | ⟨_, g2⟩
                · rw [h2] at g2; cases g2
                · rw [k2] at g2; cases g2
            simp only []
            split
            · rename_i hv
              have hu : Faulty files talk (nearOf gen) pkg r target isGen loc inc (.unknown loc inc) :=
                .unknown (by omega) ho hsl h2 k2 hmade
              refine ⟨_, _, rfl, fun m => ⟨?_, ?_⟩, by simp; exact ⟨_, hu⟩⟩
              · intro h; simp at h; subst h; exact .inl hu
              · rintro (h | h)
                · cases h with
                  | own _ _ h => contradiction
                  | relative _ _ _ _ h => rw [k2] at h; cases h
                  | generated _ _ _ _ h => rw [hmade] at h; cases h
                  | unknown _ _ _ _ _ h => simp
                · exact (hno m h).elim
            · rename_i hv
              have hf : ∀ m, Faulty files talk (nearOf gen) pkg r target isGen loc inc m → False := by
                intro m h
                cases h with
                | own _ _ h => contradiction
                | relative _ _ _ _ h => rw [k2] at h; cases h
                | generated _ _ _ _ h => rw [hmade] at h; cases h
                | unknown h _ _ _ _ _ => omega
              refine ⟨_, _, rfl, fun m => ⟨by simp, ?_⟩, ⟨by simp, ?_⟩⟩
              · rintro (h | h)
                · exact (hf m h).elim
                · exact (hno m h).elim
              · rintro ⟨m, h⟩; exact (hf m h).elim

/-! ### All includes of a source -/

theorem sayIncludes_spec {files : Files} {gen : Generator} (hm : Made files gen) (talk : Talk)
    {genrules : List (Str × BazelTarget)} (hg : ∀ path, lookup genrules path = madeBy files path)
    (target : BazelTarget) (pkg : BazelPackage) (r : Result) (isGen : Bool) (path content : Str) (index : LineMap)
    {loc : Nat × Str → Str} (incs : List (Nat × Str)) (hloc : ∀ x ∈ incs, sourceLoc path content index x = some (loc x)) :
    ∃ ms refer, sayIncludes talk gen genrules target pkg (sourcesOf r) isGen path content index incs = some (ms, refer) ∧
      (∀ m, m ∈ ms ↔ ∃ x ∈ incs, Faulty files talk (nearOf gen) pkg r target isGen (loc x) x.2 m ∨
        Noted files talk (nearOf gen) pkg r target (loc x) x.2 m) ∧
      (refer = true ↔ ∃ x ∈ incs, ∃ m, Faulty files talk (nearOf gen) pkg r target isGen (loc x) x.2 m) := by
  induction incs with
  | nil => exact ⟨[], false, rfl, by simp, by simp⟩
  | cons x incs ih =>
    obtain ⟨ms, refer, h1, h2, h3⟩ := ih fun y hy => hloc y (.tail _ hy)
    obtain ⟨ms', refer', g1, g2, g3⟩ := sayInclude_spec hm talk hg target pkg r isGen (loc x) x.2
    rw [sayIncludes, hloc x (by simp)]
    simp only []
    rw [g1, h1]
    refine ⟨_, _, rfl, fun m => ?_, ?_⟩
    · rw [List.mem_append, g2, h2]
      simp
    · rw [Bool.or_eq_true, g3, h3]
      simp

/-- What is said about the n-th source. -/
def SourceSays (files : List Tree) (env : Env) (talk : Talk) (near : Str → Option Str) (pkg : BazelPackage)
    (r : Result) (target : BazelTarget) (n : Nat) (src : Str) (m : Message) : Prop :=
  ((∀ c, ¬ Content env pkg src c) ∧
    m = .unreadable (talk.places.source r target n) (pkg.fullyQualifiedFile env.workspace src) target
      (madeBy files (pkg.fullyQualifiedFile env.workspace src))) ∨
  ∃ dir content, ReadFrom env pkg src dir content ∧ ∃ x ∈ Includes.extract content,
    Faulty files talk near pkg r target (!dir.isEmpty) (locationIn (dir ++ pkg.fullyQualifiedFile env.workspace src)
      content x.1 (x.1 + x.2.length)) x.2 m ∨
    Noted files talk near pkg r target (locationIn (dir ++ pkg.fullyQualifiedFile env.workspace src) content x.1
      (x.1 + x.2.length)) x.2 m ∨
    m = .referenced (talk.places.source r target n) src target ∧
      ∃ m', Faulty files talk near pkg r target (!dir.isEmpty) (locationIn (dir ++ pkg.fullyQualifiedFile env.workspace src)
        content x.1 (x.1 + x.2.length)) x.2 m'

theorem saySources_spec {files : Files} {gen : Generator} (hm : Made files gen) (talk : Talk) (env : Env)
    {genrules : List (Str × BazelTarget)} (hg : ∀ path, lookup genrules path = madeBy files path)
    (target : BazelTarget) (pkg : BazelPackage) (r : Result) (srcs : List Str) :
    ∀ n, ∃ ms, saySources talk env gen genrules target r pkg (sourcesOf r) n srcs = some ms ∧
      ∀ m, m ∈ ms ↔ ∃ k src, srcs[k]? = some src ∧
        SourceSays files env talk (nearOf gen) pkg r target (n + k) src m := by
  induction srcs with
  | nil => exact fun n => ⟨[], rfl, by simp⟩
  | cons src srcs ih =>
    intro n
    obtain ⟨more, h1, h2⟩ := ih (n + 1)
    have hlater : ∀ m, m ∈ more ↔ ∃ k s, (src :: srcs)[k + 1]? = some s ∧
        SourceSays files env talk (nearOf gen) pkg r target (n + (k + 1)) s m := by
      intro m
      rw [h2]
      constructor
      · rintro ⟨k, s, hk, h⟩
        exact ⟨k, s, hk, by rwa [show n + (k + 1) = n + 1 + k by omega]⟩
      · rintro ⟨k, s, hk, h⟩
        exact ⟨k, s, hk, by rwa [show n + 1 + k = n + (k + 1) by omega]⟩
    have hsplit : ∀ m, (∃ k s, (src :: srcs)[k]? = some s ∧
        SourceSays files env talk (nearOf gen) pkg r target (n + k) s m) ↔
        SourceSays files env talk (nearOf gen) pkg r target n src m ∨ m ∈ more := by
      intro m
      rw [hlater]
      constructor
      · rintro ⟨k, s, hk, h⟩
        cases k with
        | zero => simp at hk; subst hk; exact .inl h
        | succ k => exact .inr ⟨k, s, hk, h⟩
      · rintro (h | ⟨k, s, hk, h⟩)
        · exact ⟨0, src, rfl, h⟩
        · exact ⟨k + 1, s, hk, h⟩
    simp only [hsplit]
    rw [saySources]
    simp only [h1]
    cases ho : openFile env.read (pkg.fullyQualifiedFile env.workspace src) with
    | none =>
      have hno := openFile_none.1 ho
      refine ⟨_, rfl, fun m => ?_⟩
      rw [List.mem_append, hg]
      refine or_congr ?_ Iff.rfl
      constructor
      · intro h; simp at h; exact .inl ⟨hno, h⟩
      · rintro (⟨_, h⟩ | ⟨dir, c, ⟨a, b, h1, h2, h3⟩, _⟩)
        · simp [h]
        · exact absurd ⟨a, dir, b, h1, h2, h3⟩ (hno c)
    | some x =>
      obtain ⟨path, content, isGen⟩ := x
      obtain ⟨dir, hr, rfl, rfl⟩ := openFile_iff.1 ho
      obtain ⟨index, i1, i2⟩ := sourceLoc_eq (path := dir ++ pkg.fullyQualifiedFile env.workspace src)
        (content := content) rfl
      obtain ⟨ms, refer, k1, k2, k3⟩ := sayIncludes_spec hm talk hg target pkg r (!dir.isEmpty)
        (dir ++ pkg.fullyQualifiedFile env.workspace src) content index (Includes.extract content) i2
      simp only [i1, k1, Option.map_some]
      refine ⟨_, rfl, fun m => ?_⟩
      rw [List.mem_append]
      refine or_congr ?_ Iff.rfl
      rw [List.mem_append, k2]
      constructor
      · rintro (⟨x, hx, h | h⟩ | h)
        · exact .inr ⟨dir, content, hr, x, hx, .inl h⟩
        · exact .inr ⟨dir, content, hr, x, hx, .inr (.inl h)⟩
        · split at h
          · rename_i hc
            obtain ⟨x, hx, h'⟩ := k3.1 hc
            simp at h
            exact .inr ⟨dir, content, hr, x, hx, .inr (.inr ⟨h, h'⟩)⟩
          · cases h
      · rintro (⟨h, _⟩ | ⟨dir', content', hr', x, hx, h⟩)
        · obtain ⟨a, b, h1, h2, h3⟩ := hr
          exact absurd ⟨a, dir, b, h1, h2, h3⟩ (h content)
        · obtain ⟨rfl, rfl⟩ := readFrom_unique hr hr'
          rcases h with h | h | ⟨rfl, h⟩
          · exact .inl ⟨x, hx, .inl h⟩
          · exact .inl ⟨x, hx, .inr h⟩
          · right
            rw [if_pos (k3.2 ⟨x, hx, h⟩)]
            simp

/-! ### Dependencies -/

/-- What is said about the n-th dependency, when the map `checked` is there, and `needed` remains. -/
inductive DepSays (talk : Talk) (target : BazelTarget) (r : Result) (accounted : Bool) (deps : List Str)
    (n : Nat) (needed : List (List BazelTarget)) (checked : List (BazelTarget × BazelTarget)) : Message → Prop
  | invalid {m dep} : deps[m]? = some dep → BazelTarget.parseFrom dep target.package = none →
      DepSays talk target r accounted deps n needed checked (.invalid (talk.places.dep r target (n + m)) dep)
  | before {m dep t u} : deps[m]? = some dep → BazelTarget.parseFrom dep target.package = some t →
      (∀ s ∈ needed, t ∉ s) → lookup checked t = some u →
      DepSays talk target r accounted deps n needed checked
        (if u = t then .again (talk.places.dep r target (n + m)) target dep
          else .already (talk.places.dep r target (n + m)) target dep u)
  | now {m dep t u s k} : deps[m]? = some dep → BazelTarget.parseFrom dep target.package = some t →
      s ∈ needed → t ∈ s → k < m → (∃ dep, deps[k]? = some dep ∧ BazelTarget.parseFrom dep target.package = some u) →
      u ∈ s → (∀ j < k, ∀ dep v, deps[j]? = some dep → BazelTarget.parseFrom dep target.package = some v → v ∉ s) →
      DepSays talk target r accounted deps n needed checked
        (if u = t then .again (talk.places.dep r target (n + m)) target dep
          else .already (talk.places.dep r target (n + m)) target dep u)
  | unsure {m dep t} : deps[m]? = some dep → BazelTarget.parseFrom dep target.package = some t →
      (∀ s ∈ needed, t ∉ s) → lookup checked t = none → accounted = false → 2 ≤ talk.verbose →
      DepSays talk target r accounted deps n needed checked (.unsure (talk.places.dep r target (n + m)) t)

theorem lookup_append {α β : Type} [DecidableEq α] (a b : List (α × β)) (k : α) :
    lookup (a ++ b) k = (lookup a k).or (lookup b k) := by
  unfold lookup
  rw [List.find?_append]
  cases a.find? fun x => x.1 = k <;> rfl

theorem lookup_const {α β : Type} [DecidableEq α] (s : List α) (u : β) (t : α) :
    lookup (s.map fun x => (x, u)) t = if t ∈ s then some u else none := by
  unfold lookup
  induction s with
  | nil => rfl
  | cons x s ih =>
    rw [List.map_cons, List.find?_cons]
    by_cases h : x = t
    · subst h; simp
    · simp only [h, decide_false]
      rw [ih]
      simp [Ne.symm h]

theorem sayDeps_spec (talk : Talk) (target : BazelTarget) (r : Result) (acc : Bool) (deps : List Str) :
    ∀ n needed checked, (needed.Pairwise fun r r' => ∀ x ∈ r, x ∉ r') →
      (∀ s ∈ needed, ∀ t ∈ s, lookup checked t = none) → ∀ m,
      m ∈ sayDeps talk target r acc n needed checked deps ↔ DepSays talk target r acc deps n needed checked m := by
  induction deps with
  | nil =>
    intro n needed checked _ _ m
    rw [sayDeps]
    constructor
    · intro h; cases h
    · intro h; cases h <;> simp at *
  | cons dep deps ih =>
    intro n needed checked hd hc m
    -- what is said later
    have hshift : ∀ k, n + (k + 1) = n + 1 + k := fun k => by omega
    rw [sayDeps]
    cases hp : BazelTarget.parseFrom dep target.package with
    | none =>
      simp only []
      rw [List.mem_cons, ih _ _ _ hd hc]
      constructor
      · rintro (rfl | h)
        · exact DepSays.invalid (m := 0) rfl hp
        · cases h with
          | @invalid k d h1 h2 => rw [← hshift]; exact .invalid h1 h2
          | @before k d t u h1 h2 h3 h4 => rw [← hshift]; exact .before h1 h2 h3 h4
          | @now k d t u s j h1 h2 h3 h4 h5 h6 h7 h8 =>
            rw [← hshift]
            refine .now (k := j + 1) h1 h2 h3 h4 (by omega) h6 h7 ?_
            intro i hi d' v g1 g2
            cases i with
            | zero => simp at g1; subst g1; rw [hp] at g2; cases g2
            | succ i => exact h8 i (by omega) d' v g1 g2
          | @unsure k d t h1 h2 h3 h4 h5 h6 => rw [← hshift]; exact .unsure h1 h2 h3 h4 h5 h6
      · intro h
        cases h with
        | @invalid k d h1 h2 =>
          cases k with
          | zero => simp at h1; subst h1; exact .inl rfl
          | succ k => rw [hshift k]; exact .inr (.invalid h1 h2)
        | @before k d t u h1 h2 h3 h4 =>
          cases k with
          | zero => simp at h1; subst h1; rw [hp] at h2; cases h2
          | succ k => rw [hshift k]; exact .inr (.before h1 h2 h3 h4)
        | @now k d t u s j h1 h2 h3 h4 h5 h6 h7 h8 =>
          cases k with
          | zero => omega
          | succ k =>
            cases j with
            | zero => obtain ⟨d', g1, g2⟩ := h6; simp at g1; subst g1; rw [hp] at g2; cases g2
            | succ j =>
              rw [hshift k]
              exact .inr (.now h1 h2 h3 h4 (by omega) h6 h7 fun i hi d' v g1 g2 => h8 (i + 1) (by omega) d' v g1 g2)
        | @unsure k d t h1 h2 h3 h4 h5 h6 =>
          cases k with
          | zero => simp at h1; subst h1; rw [hp] at h2; cases h2
          | succ k => rw [hshift k]; exact .inr (.unsure h1 h2 h3 h4 h5 h6)
    | some t0 =>
      simp only []
      rcases checkOff_spec (t := t0) hd with ⟨hco, hno⟩ | ⟨s0, others, hco, hs0, ht0, hot, hun⟩
      · rw [hco]
        simp only []
        rw [List.mem_append, ih _ _ _ hd hc]
        constructor
        · rintro (h | h)
          · cases hl : lookup checked t0 with
            | some u =>
              rw [hl] at h
              have : m = if u = t0 then .again (talk.places.dep r target (n + 0)) target dep
                  else .already (talk.places.dep r target (n + 0)) target dep u := by
                simp only [] at h
                split at h
                · rename_i he; simp at h; rw [h, if_pos he]; rfl
                · rename_i he; simp at h; rw [h, if_neg he]; rfl
              rw [this]
              exact .before (m := 0) rfl hp hno hl
            | none =>
              rw [hl] at h
              simp only [] at h
              split at h
              · rename_i hcond
                simp only [Bool.and_eq_true, Bool.not_eq_true', decide_eq_true_eq] at hcond
                simp at h
                subst h
                exact .unsure (m := 0) rfl hp hno hl hcond.1 (by omega)
              · cases h
          · cases h with
            | @invalid k d h1 h2 => rw [← hshift]; exact .invalid h1 h2
            | @before k d t u h1 h2 h3 h4 => rw [← hshift]; exact .before h1 h2 h3 h4
            | @now k d t u s j h1 h2 h3 h4 h5 h6 h7 h8 =>
              rw [← hshift]
              refine .now (k := j + 1) h1 h2 h3 h4 (by omega) h6 h7 ?_
              intro i hi d' v g1 g2
              cases i with
              | zero => simp at g1; subst g1; rw [hp] at g2; cases g2; exact hno _ h3
              | succ i => exact h8 i (by omega) d' v g1 g2
            | @unsure k d t h1 h2 h3 h4 h5 h6 => rw [← hshift]; exact .unsure h1 h2 h3 h4 h5 h6
        · intro h
          cases h with
          | @invalid k d h1 h2 =>
            cases k with
            | zero => simp at h1; subst h1; rw [hp] at h2; cases h2
            | succ k => rw [hshift k]; exact .inr (.invalid h1 h2)
          | @before k d t u h1 h2 h3 h4 =>
            cases k with
            | zero =>
              simp at h1; subst h1; rw [hp] at h2; cases h2
              left
              rw [h4]
              simp only []
              split <;> simp
            | succ k => rw [hshift k]; exact .inr (.before h1 h2 h3 h4)
          | @now k d t u s j h1 h2 h3 h4 h5 h6 h7 h8 =>
            cases k with
            | zero => omega
            | succ k =>
              cases j with
              | zero =>
                obtain ⟨d', g1, g2⟩ := h6; simp at g1; subst g1; rw [hp] at g2; cases g2
                exact absurd h7 (hno _ h3)
              | succ j =>
                rw [hshift k]
                exact .inr (.now h1 h2 h3 h4 (by omega) h6 h7 fun i hi d' v g1 g2 => h8 (i + 1) (by omega) d' v g1 g2)
          | @unsure k d t h1 h2 h3 h4 h5 h6 =>
            cases k with
            | zero =>
              simp at h1; subst h1; rw [hp] at h2; cases h2
              left
              rw [h4]
              simp only []
              rw [if_pos (by simp only [Bool.and_eq_true, Bool.not_eq_true', decide_eq_true_eq]; exact ⟨h5, by omega⟩)]
              simp
            | succ k => rw [hshift k]; exact .inr (.unsure h1 h2 h3 h4 h5 h6)
      · rw [hco]
        simp only []
        have hsub : others.Sublist needed := hot ▸ List.filter_sublist
        have hl : ∀ t, lookup (insertAll checked (s0.map fun t => (t, t0))) t =
            (lookup checked t).or (if t ∈ s0 then some t0 else none) := by
          intro t
          rw [insertAll_lookup, lookup_append, lookup_const]
        have hdis : ∀ s ∈ others, ∀ t ∈ s, t ∉ s0 := by
          intro s hs t ht hts
          rw [hot, List.mem_filter] at hs
          have hne : s ≠ s0 := by rintro rfl; simp [ht0] at hs
          -- two sets with a common element
          have := hd
          rw [List.pairwise_iff_getElem] at this
          obtain ⟨i, hi, rfl⟩ := List.mem_iff_getElem.1 hs.1
          obtain ⟨j, hj, rfl⟩ := List.mem_iff_getElem.1 hs0
          rcases Nat.lt_trichotomy i j with h | h | h
          · exact this i j hi hj h t ht hts
          · subst h; exact hne rfl
          · exact this j i hj hi h t hts ht
        have hc' : ∀ s ∈ others, ∀ t ∈ s, lookup (insertAll checked (s0.map fun t => (t, t0))) t = none := by
          intro s hs t ht
          rw [hl, hc s (hsub.subset hs) t ht, if_neg (hdis s hs t ht)]
          rfl
        have hmem : ∀ s, s ∈ others ↔ s ∈ needed ∧ t0 ∉ s := by
          intro s; rw [hot, List.mem_filter]; simp
        have honly : ∀ s ∈ needed, ∀ t ∈ s, t ∈ s0 → s = s0 := by
          intro s hs t ht hts
          by_cases h : t0 ∈ s
          · have := hd
            rw [List.pairwise_iff_getElem] at this
            obtain ⟨i, hi, rfl⟩ := List.mem_iff_getElem.1 hs
            obtain ⟨j, hj, rfl⟩ := List.mem_iff_getElem.1 hs0
            rcases Nat.lt_trichotomy i j with h | h | h
            · exact absurd hts (this i j hi hj h t ht)
            · subst h; rfl
            · exact absurd ht (this j i hj hi h t hts)
          · exact absurd hts (hdis s ((hmem s).2 ⟨hs, h⟩) t ht)
        rw [ih _ _ _ (hd.sublist hsub) hc']
        constructor
        · intro h
          cases h with
          | @invalid k d h1 h2 => rw [← hshift]; exact .invalid h1 h2
          | @before k d t u h1 h2 h3 h4 =>
            rw [← hshift]
            rw [hl] at h4
            by_cases hts : t ∈ s0
            · rw [hc s0 hs0 t hts, if_pos hts] at h4
              cases h4
              exact .now (k := 0) h1 h2 hs0 hts (by omega) ⟨dep, rfl, hp⟩ ht0 (fun i hi => by omega)
            · rw [if_neg hts, Option.or_none] at h4
              refine .before h1 h2 ?_ h4
              intro s hs ht
              by_cases h : t0 ∈ s
              · exact hts (by rw [← honly s hs t0 h ht0]; exact ht)
              · exact h3 s ((hmem s).2 ⟨hs, h⟩) ht
          | @now k d t u s j h1 h2 h3 h4 h5 h6 h7 h8 =>
            rw [← hshift]
            refine .now (k := j + 1) h1 h2 (hsub.subset h3) h4 (by omega) h6 h7 ?_
            intro i hi d' v g1 g2
            cases i with
            | zero => simp at g1; subst g1; rw [hp] at g2; cases g2; exact ((hmem s).1 h3).2
            | succ i => exact h8 i (by omega) d' v g1 g2
          | @unsure k d t h1 h2 h3 h4 h5 h6 =>
            rw [← hshift]
            rw [hl, Option.or_eq_none_iff] at h4
            obtain ⟨h4, h4'⟩ := h4
            have hts : t ∉ s0 := by intro h; rw [if_pos h] at h4'; cases h4'
            refine .unsure h1 h2 ?_ h4 h5 h6
            intro s hs ht
            by_cases h : t0 ∈ s
            · exact hts (by rw [← honly s hs t0 h ht0]; exact ht)
            · exact h3 s ((hmem s).2 ⟨hs, h⟩) ht
        · intro h
          cases h with
          | @invalid k d h1 h2 =>
            cases k with
            | zero => simp at h1; subst h1; rw [hp] at h2; cases h2
            | succ k => rw [hshift k]; exact .invalid h1 h2
          | @before k d t u h1 h2 h3 h4 =>
            cases k with
            | zero => simp at h1; subst h1; rw [hp] at h2; cases h2; exact absurd ht0 (h3 s0 hs0)
            | succ k =>
              rw [hshift k]
              exact .before h1 h2 (fun s hs => h3 s (hsub.subset hs)) (by rw [hl, h4]; rfl)
          | @now k d t u s j h1 h2 h3 h4 h5 h6 h7 h8 =>
            cases k with
            | zero => omega
            | succ k =>
              rw [hshift k]
              cases j with
              | zero =>
                obtain ⟨d', g1, g2⟩ := h6; simp at g1; subst g1; rw [hp] at g2; cases g2
                have hss := honly s h3 _ h7 ht0
                subst hss
                refine .before h1 h2 ?_ (by rw [hl, hc _ h3 t h4, if_pos h4]; rfl)
                intro s' hs' ht'
                exact hdis s' hs' t ht' h4
              | succ j =>
                refine .now h1 h2 ((hmem s).2 ⟨h3, ?_⟩) h4 (by omega) h6 h7
                  fun i hi d' v g1 g2 => h8 (i + 1) (by omega) d' v g1 g2
                exact h8 0 (by omega) dep t0 rfl hp
          | @unsure k d t h1 h2 h3 h4 h5 h6 =>
            cases k with
            | zero => simp at h1; subst h1; rw [hp] at h2; cases h2; exact absurd ht0 (h3 s0 hs0)
            | succ k =>
              rw [hshift k]
              refine .unsure h1 h2 (fun s hs => h3 s (hsub.subset hs)) ?_ h5 h6
              rw [hl, h4, if_neg (h3 s0 hs0)]
              rfl

/-! ### Libraries that are missing -/

/-- What is said about alternatives that remain. -/
def NeedSays (files : List Tree) (talk : Talk) (target : BazelTarget) (r : Result) (s : List BazelTarget)
    (m : Message) : Prop :=
  2 ≤ s.length ∧ m = .choices (talk.places.name r target) target (inOrder s) ∨
  ∃ t, s = [t] ∧ (Visible files target t ∧ ¬ TestonlyOk files target t ∧
      (∃ d, Library files target d ∧ m = .testonly (talk.places.known target) target t) ∨
    2 ≤ talk.verbose ∧ ¬ (Visible files target t ∧ TestonlyOk files target t) ∧
      m = .notVisible (talk.places.name r target) t)

theorem sayTestonly_spec {files : Files} {gen : Generator} (hm : Made files gen) (talk : Talk)
    (target t : BazelTarget) (m : Message) : m ∈ sayTestonly talk gen target t ↔
      ¬ TestonlyOk files target t ∧ ∃ d, Library files target d ∧
        m = .testonly (talk.places.known target) target t := by
  unfold sayTestonly
  have h := testonly_spec hm target t
  split
  · rename_i hc
    simp [h.1 hc]
  · rename_i hc
    have hn : ¬ TestonlyOk files target t := fun h' => hc (h.2 h')
    cases hl : lookup gen.known target with
    | none =>
      simp only [List.not_mem_nil, false_iff]
      rintro ⟨_, d, hd, _⟩
      exact (hm.unknown _).1 hl d hd
    | some d =>
      have hd := (hm.known _ _).1 hl
      simp only [List.mem_singleton, hn, not_false_eq_true, true_and]
      constructor
      · exact fun h => ⟨d, hd, h⟩
      · exact fun ⟨_, _, h⟩ => h

theorem sayNeeded_spec {files : Files} {gen : Generator} (hm : Made files gen) (talk : Talk)
    (target : BazelTarget) (r : Result) (sets : List (List BazelTarget)) (hne : ∀ s ∈ sets, s ≠ []) :
    ∃ ms, sayNeeded talk gen target r sets = some ms ∧ ∀ m, m ∈ ms ↔ ∃ s ∈ sets, NeedSays files talk target r s m := by
  induction sets with
  | nil => exact ⟨[], rfl, by simp⟩
  | cons s sets ih =>
    obtain ⟨more, h1, h2⟩ := ih fun x hx => hne x (.tail _ hx)
    rw [sayNeeded, h1]
    simp only [List.mem_cons, exists_eq_or_imp, ← h2]
    match s with
    | [] => exact absurd rfl (hne [] (by simp))
    | [t] =>
      obtain ⟨b, h3, h4⟩ := canSee_spec hm target t
      have h5 := testonly_spec hm target t
      simp only [h3]
      refine ⟨_, rfl, fun m => ?_⟩
      rw [List.mem_append, List.mem_append]
      refine or_congr ?_ Iff.rfl
      unfold NeedSays
      constructor
      · rintro (h | h)
        · split at h
          · rename_i hb
            obtain ⟨g1, g2⟩ := (sayTestonly_spec hm talk target t m).1 h
            exact .inr ⟨t, rfl, .inl ⟨h4.1 hb, g1, g2⟩⟩
          · cases h
        · split at h
          · rename_i hc
            simp only [Bool.and_eq_true, Bool.not_eq_true', decide_eq_true_eq, ← Bool.not_eq_true, h4, h5] at hc
            simp at h
            exact .inr ⟨t, rfl, .inr ⟨by omega, hc.1, h⟩⟩
          · cases h
      · rintro (⟨h, _⟩ | ⟨t', ht, ⟨g1, g2, g3⟩ | ⟨g1, g2, g3⟩⟩)
        · simp at h
        · injection ht with ht _; subst ht
          left
          rw [if_pos (h4.2 g1), sayTestonly_spec hm]
          exact ⟨g2, g3⟩
        · injection ht with ht _; subst ht
          right
          rw [if_pos (by
            simp only [Bool.and_eq_true, Bool.not_eq_true', decide_eq_true_eq, ← Bool.not_eq_true, h4, h5]
            exact ⟨g2, by omega⟩)]
          simp [g3]
    | x :: y :: s =>
      refine ⟨_, rfl, fun m => ?_⟩
      rw [List.mem_cons]
      refine or_congr ?_ Iff.rfl
      unfold NeedSays
      constructor
      · intro h; exact .inl ⟨by simp, h⟩
      · rintro (⟨_, h⟩ | ⟨t, ht, _⟩)
        · exact h
        · cases ht

/-! ### One rule -/

theorem needed_visible {files : Files} {pkg : BazelPackage} {target : BazelTarget} {Inc : Str → Prop}
    {sets needed : List (List BazelTarget)} (ha : Alternatives files pkg target Inc sets) (hr : Reduced sets needed)
    {s : List BazelTarget} (hs : s ∈ needed) {t : BazelTarget} (ht : t ∈ s) : Visible files target t := by
  obtain ⟨family, hne, hfam, hiff⟩ := hr.common s hs
  obtain ⟨x, hx⟩ := List.exists_mem_of_ne_nil _ hne
  obtain ⟨_, _, inc, found, _, _, h⟩ := ha.from_inc x (hfam x hx)
  exact ((h t).1 ((hiff t).1 ht x hx)).2

theorem includesAt_iff {env : Env} {pkg : BazelPackage} {r : Result} {n : Nat} {src dir content : Str}
    (hs : (sourcesOf r)[n]? = some src) (hr : ReadFrom env pkg src dir content) {x : Nat × Str}
    (hx : x ∈ Includes.extract content) :
    IncludesAt env pkg r n dir (locationIn (dir ++ pkg.fullyQualifiedFile env.workspace src) content x.1
      (x.1 + x.2.length)) x.2 :=
  ⟨src, content, x.1, hs, hr, hx, rfl⟩

theorem complains_of {files : Files} {env : Env} {talk : Talk} {near : Str → Option Str} {pkg : BazelPackage}
    {r : Result} {target : BazelTarget} {n : Nat} {dir loc inc : Str} {m : Message}
    (h : IncludesAt env pkg r n dir loc inc) (hf : Faulty files talk near pkg r target (!dir.isEmpty) loc inc m) :
    Complains files env talk near pkg r target n m := by
  have hd : (!dir.isEmpty) = false → dir = [] := by simp
  cases hf with
  | own h1 h2 h3 => cases hd h1; exact .own h h2 h3
  | relative h1 h2 h3 h4 h5 => cases hd h1; exact .relative h h2 h3 h4 h5
  | generated h1 h2 h3 h4 h5 => exact .generated h h1 h2 h3 h4 h5
  | unknown h1 h2 h3 h4 h5 h6 => exact .unknown h1 h h2 h3 h4 h5 h6

theorem faulty_of {files : Files} {env : Env} {talk : Talk} {near : Str → Option Str} {pkg : BazelPackage}
    {r : Result} {target : BazelTarget} {n : Nat} {m : Message} (h : Complains files env talk near pkg r target n m) :
    ∃ dir loc inc, IncludesAt env pkg r n dir loc inc ∧
      Faulty files talk near pkg r target (!dir.isEmpty) loc inc m := by
  cases h with
  | own h h2 h3 => exact ⟨_, _, _, h, .own rfl h2 h3⟩
  | relative h h2 h3 h4 h5 => exact ⟨_, _, _, h, .relative rfl h2 h3 h4 h5⟩
  | generated h h1 h2 h3 h4 h5 => exact ⟨_, _, _, h, .generated h1 h2 h3 h4 h5⟩
  | unknown h1 h h2 h3 h4 h5 h6 => exact ⟨_, _, _, h, .unknown h1 h2 h3 h4 h5 h6⟩

theorem sources_says {files : Files} {env : Env} {talk : Talk} {near : Str → Option Str} {pkg : BazelPackage}
    {r : Result} {target : BazelTarget} {m : Message} :
    (∃ n src, (sourcesOf r)[n]? = some src ∧ SourceSays files env talk near pkg r target n src m) ↔
      (∃ n src, (sourcesOf r)[n]? = some src ∧ (∀ c, ¬ Content env pkg src c) ∧
        m = .unreadable (talk.places.source r target n) (pkg.fullyQualifiedFile env.workspace src) target
          (madeBy files (pkg.fullyQualifiedFile env.workspace src))) ∨
      (∃ n, Complains files env talk near pkg r target n m) ∨
      (∃ n src m', (sourcesOf r)[n]? = some src ∧ Complains files env talk near pkg r target n m' ∧
        m = .referenced (talk.places.source r target n) src target) ∨
      ∃ n dir loc inc, IncludesAt env pkg r n dir loc inc ∧ Noted files talk near pkg r target loc inc m := by
  constructor
  · rintro ⟨n, src, h1, ⟨h2, h3⟩ | ⟨dir, content, h2, x, hx, h | h | ⟨h, m', h'⟩⟩⟩
    · exact .inl ⟨n, src, h1, h2, h3⟩
    · exact .inr (.inl ⟨n, complains_of (includesAt_iff h1 h2 hx) h⟩)
    · exact .inr (.inr (.inr ⟨n, _, _, _, includesAt_iff h1 h2 hx, h⟩))
    · exact .inr (.inr (.inl ⟨n, src, m', h1, complains_of (includesAt_iff h1 h2 hx) h', h⟩))
  · rintro (⟨n, src, h1, h2, h3⟩ | ⟨n, h⟩ | ⟨n, src, m', h1, h, hm⟩ | ⟨n, dir, loc, inc, h, h'⟩)
    · exact ⟨n, src, h1, .inl ⟨h2, h3⟩⟩
    · obtain ⟨dir, loc, inc, ⟨src, content, pos, g1, g2, g3, rfl⟩, h'⟩ := faulty_of h
      exact ⟨n, src, g1, .inr ⟨dir, content, g2, (pos, inc), g3, .inl h'⟩⟩
    · obtain ⟨dir, loc, inc, ⟨src', content, pos, g1, g2, g3, rfl⟩, h'⟩ := faulty_of h
      rw [h1] at g1; cases g1
      exact ⟨n, src, h1, .inr ⟨dir, content, g2, (pos, inc), g3, .inr (.inr ⟨hm, m', h'⟩)⟩⟩
    · obtain ⟨src, content, pos, g1, g2, g3, rfl⟩ := h
      exact ⟨n, src, g1, .inr ⟨dir, content, g2, (pos, inc), g3, .inr (.inl h')⟩⟩

theorem inOrder_unique {s l : List BazelTarget} (h : ∀ t, t ∈ l ↔ t ∈ s)
    (ha : l.Pairwise fun a b => Ordered.lt a b = true) : inOrder s = l :=
  Ascending.unique (inOrder_ascending s) ha fun t => by rw [mem_inOrder, h]

theorem rule_says {files : Files} {gen : Generator} (hm : Made files gen) (hs : ∀ f ∈ files, Searchable f.2)
    (talk : Talk) (env : Env) {genrules : List (Str × BazelTarget)}
    (hg : ∀ path, lookup genrules path = madeBy files path) {pkg : BazelPackage} {r : Result} {target : BazelTarget}
    (hr : Rule files pkg r target) :
    ∃ edits sets needed removed libs ms, createEditsForTarget env gen target r pkg = some edits ∧
      Account files env pkg r target edits sets needed removed libs ∧
      sayForTarget talk env gen genrules target r pkg = some ms ∧
      ∀ m, m ∈ ms ↔ Says files env talk (nearOf gen) pkg r target needed m := by
  obtain ⟨edits, sets, needed, removed, libs, acc, h1, h2, h3, h4, h5⟩ := rule_account_from hm hs env hr
  obtain ⟨ast, hf, hrr, hq⟩ := hr
  have hl : ∀ l ∈ listsOf r, stringList l = some (stringsOf l) := fun l hl => stringList_rule (hs _ hf) hrr hl
  obtain ⟨first, g1, g2⟩ := saySources_spec hm talk env hg target pkg r (sourcesOf r) 0
  have g3 := sayDeps_spec talk target r acc (stringsOf r.deps) 0 needed [] h2.reduced.disjoint
    (fun _ _ _ _ => rfl)
  obtain ⟨rem, removals, k1, k2, k3, _, _⟩ :=
    lookAtDeps_spec hm env target r acc (stringsOf r.deps) 0 needed [] h2.reduced.disjoint
  obtain ⟨last, l1, l2⟩ := sayNeeded_spec hm talk target r rem fun s hs => h2.reduced.nonempty s (k2.subset hs)
  refine ⟨edits, sets, needed, removed, libs, first ++ sayDeps talk target r acc 0 needed [] (stringsOf r.deps) ++ last,
    h1, h2, ?_, fun m => ?_⟩
  · unfold sayForTarget
    rw [hl r.srcs (by simp [listsOf]), hl r.hdrs (by simp [listsOf]), hl r.deps (by simp [listsOf])]
    unfold sourcesOf at h3 g1
    simp only [h3, g1, h4, k1, l1, Option.map_some]
  · have hrem : ∀ s, s ∈ rem ↔ s ∈ needed ∧ ∀ t ∈ s, ¬ DependsOn target r t := by
      intro s
      constructor
      · intro h
        refine ⟨k2.subset h, ?_⟩
        rintro t ht ⟨dep, hd, hp⟩
        exact (k3 s (k2.subset h)).1 h dep hd t hp ht
      · rintro ⟨h, h'⟩
        exact (k3 s h).2 fun dep hd t hp ht => h' t ht ⟨dep, hd, hp⟩
    have hvis : ∀ t, [t] ∈ needed → Visible files target t :=
      fun t ht => needed_visible h2.alternatives h2.reduced ht (by simp)
    rw [List.mem_append, List.mem_append, g2, g3, l2]
    simp only [Nat.zero_add, sources_says, hrem]
    constructor
    · rintro ((h | h) | h)
      · rcases h with ⟨n, src, c1, c2, rfl⟩ | ⟨n, h⟩ | ⟨n, src, m', c1, c2, rfl⟩ | ⟨n, dir, loc, inc, c1, c2⟩
        · exact .unreadable c1 c2
        · exact .complaint h
        · exact .referenced c1 c2
        · cases c2 with
          | similar d1 d2 d3 d4 d5 => exact .similar d1 c1 d2 d3 d4 d5
          | included d1 d2 d3 d4 => exact .included d1 c1 d2 d3 d4
          | provider d1 d2 d3 d4 d5 d6 => exact .provider d1 c1 d2 d3 d4 d5 d6
      · cases h with
        | invalid c1 c2 => rw [Nat.zero_add]; exact .invalid c1 c2
        | before _ _ _ c => cases c
        | @now n dep t u s k c1 c2 c3 c4 c5 c6 c7 c8 =>
          rw [Nat.zero_add]
          split
          · rename_i he
            subst he
            exact .again c1 c2 c3 ⟨c6, c7, c8⟩ c5
          · rename_i he
            exact .already c1 c2 c3 c4 ⟨c6, c7, c8⟩ c5 he
        | unsure c1 c2 c3 c4 c5 c6 =>
          rw [Nat.zero_add]
          exact .unsure c6 c1 c2 c3 fun h => by rw [h5.2 h] at c5; cases c5
      · obtain ⟨s, ⟨c1, c2⟩, ⟨c3, rfl⟩ | ⟨t, rfl, ⟨d1, d2, d, d3, rfl⟩ | ⟨d1, d2, rfl⟩⟩⟩ := h
        · exact .choices c1 c3 c2 (fun t => mem_inOrder) (inOrder_ascending s)
        · exact .testonly c1 (c2 t (by simp)) d2 d3
        · exact .notVisible d1 c1 (c2 t (by simp)) fun h => d2 ⟨hvis t c1, h⟩
    · intro h
      cases h with
      | unreadable c1 c2 => exact .inl (.inl (.inl ⟨_, _, c1, c2, rfl⟩))
      | complaint c => exact .inl (.inl (.inr (.inl ⟨_, c⟩)))
      | referenced c1 c2 => exact .inl (.inl (.inr (.inr (.inl ⟨_, _, _, c1, c2, rfl⟩))))
      | similar d1 c1 d2 d3 d4 d5 =>
        exact .inl (.inl (.inr (.inr (.inr ⟨_, _, _, _, c1, .similar d1 d2 d3 d4 d5⟩))))
      | included d1 c1 d2 d3 d4 =>
        exact .inl (.inl (.inr (.inr (.inr ⟨_, _, _, _, c1, .included d1 d2 d3 d4⟩))))
      | provider d1 c1 d2 d3 d4 d5 d6 =>
        exact .inl (.inl (.inr (.inr (.inr ⟨_, _, _, _, c1, .provider d1 d2 d3 d4 d5 d6⟩))))
      | @invalid n _ c1 c2 =>
        have := DepSays.invalid (talk := talk) (r := r) (accounted := acc) (n := 0) (needed := needed) (checked := []) c1 c2
        rw [Nat.zero_add] at this
        exact .inl (.inr this)
      | again c1 c2 c3 c4 c5 =>
        have := DepSays.now (talk := talk) (r := r) (accounted := acc) (n := 0) (needed := needed) (checked := [])
          c1 c2 c3 c4.2.1 c5 c4.1 c4.2.1 c4.2.2
        rw [Nat.zero_add, if_pos rfl] at this
        exact .inl (.inr this)
      | already c1 c2 c3 c4 c5 c6 c7 =>
        have := DepSays.now (talk := talk) (r := r) (accounted := acc) (n := 0) (needed := needed) (checked := [])
          c1 c2 c3 c4 c6 c5.1 c5.2.1 c5.2.2
        rw [Nat.zero_add, if_neg c7] at this
        exact .inl (.inr this)
      | unsure c1 c2 c3 c4 c5 =>
        have hacc : acc = false := by
          cases acc with
          | false => rfl
          | true => exact absurd (h5.1 rfl) c5
        have := DepSays.unsure (talk := talk) (r := r) (accounted := acc) (n := 0) (needed := needed) (checked := [])
          c2 c3 c4 rfl hacc c1
        rw [Nat.zero_add] at this
        exact .inl (.inr this)
      | @choices s l c1 c2 c3 c4 c5 =>
        exact .inr ⟨s, ⟨c1, c3⟩, .inl ⟨c2, by rw [inOrder_unique c4 c5]⟩⟩
      | @testonly t d c1 c2 c3 c4 =>
        exact .inr ⟨[t], ⟨c1, fun x hx => by simp at hx; subst hx; exact c2⟩, .inr ⟨t, rfl, .inl ⟨hvis t c1, c3, d, c4, rfl⟩⟩⟩
      | @notVisible t c1 c2 c3 c4 =>
        exact .inr ⟨[t], ⟨c2, fun x hx => by simp at hx; subst hx; exact c3⟩, .inr ⟨t, rfl, .inr ⟨c1, fun h => c4 h.2, rfl⟩⟩⟩

/-! ### Outputs of rules -/

theorem genruleOuts_eq {files : Files} (hs : ∀ f ∈ files, Searchable f.2) (talk : Talk) :
    genruleOuts talk files = some (files.flatMap fun f => (rulesOf [c!"genrule"] f.2).flatMap fun r =>
      match f.1.qualifiedTarget r.name with
      | none => []
      | some t => (stringsOf r.outs).zipIdx.map fun o => (f.1, talk.places.out r t o.2, f.1.qualifiedFile o.1, t)) := by
  refine mapAll_eq (g := fun (f : BazelPackage × Node) => (rulesOf [c!"genrule"] f.2).flatMap fun r =>
      match f.1.qualifiedTarget r.name with
      | none => []
      | some t => (stringsOf r.outs).zipIdx.map fun o => (f.1, talk.places.out r t o.2, f.1.qualifiedFile o.1, t)) ?_
  rintro ⟨pkg, ast⟩ hf
  have hs := hs _ hf
  simp only at hs ⊢
  split
  · rename_i hn
    cases ast <;> simp [Node.isNull] at hn
    rfl
  · refine forTargets_eq hs.proper ?_
    intro r hr
    rw [stringList_rule hs hr (by simp [listsOf])]
    cases hq : pkg.qualifiedTarget r.name <;> rfl

/-- All but the first that make a file. -/
theorem sayGenrules_spec (l : List (BazelPackage × Str × Str × BazelTarget)) :
    ∀ made m, m ∈ sayGenrules made l ↔ ∃ pkg loc path target other, (pkg, loc, path, target) ∈ l ∧
      pkg.project = [] ∧ lookup (made ++ l.map fun x => (x.2.2.1, x.2.2.2)) path = some other ∧ other ≠ target ∧
      m = .alsoCreated loc path target other := by
  induction l with
  | nil => intro made m; simp [sayGenrules]
  | cons x l ih =>
    obtain ⟨pkg, loc, path, target⟩ := x
    intro made m
    rw [sayGenrules, List.mem_append, ih]
    have hlook : ∀ p, lookup (insertAll made [(path, target)] ++ l.map fun x => (x.2.2.1, x.2.2.2)) p =
        lookup (made ++ (path, target) :: l.map fun x => (x.2.2.1, x.2.2.2)) p := by
      intro p
      rw [lookup_append, insertAll_lookup, ← lookup_append, List.append_assoc]
      rfl
    simp only [hlook, List.map_cons]
    constructor
    · rintro (h | ⟨pkg', loc', path', target', other, h1, h2⟩)
      · cases hl : lookup made path with
        | none => rw [hl] at h; cases h
        | some other =>
          rw [hl] at h
          simp only [] at h
          split at h
          · rename_i hc
            simp only [ne_eq, Bool.and_eq_true, decide_eq_true_eq] at hc
            simp at h
            refine ⟨pkg, loc, path, target, other, by simp, by simpa using hc.2, ?_, fun h => hc.1 h.symm, h⟩
            rw [lookup_append, hl]; rfl
          · cases h
      · exact ⟨pkg', loc', path', target', other, .tail _ h1, h2⟩
    · rintro ⟨pkg', loc', path', target', other, h1, h2, h3, h4, rfl⟩
      rcases List.mem_cons.1 h1 with h1 | h1
      · injection h1 with e1 h1
        injection h1 with e2 h1
        injection h1 with e3 e4
        subst e1 e2 e3 e4
        left
        have : lookup made path' = some other := by
          rw [lookup_append] at h3
          cases hl : lookup made path' with
          | some o => rw [hl] at h3; exact h3
          | none =>
            rw [hl] at h3
            simp only [Option.or] at h3
            unfold lookup at h3
            rw [List.find?_cons] at h3
            simp at h3
            exact absurd h3.symm h4
        rw [this]
        simp only []
        rw [if_pos (by
          simp only [ne_eq, Bool.and_eq_true, decide_eq_true_eq]
          exact ⟨fun h => h4 h.symm, by simp [h2]⟩)]
        simp
      · exact .inr ⟨pkg', loc', path', target', other, h1, h2, h3, h4, rfl⟩

theorem outputs_of (files : List Tree) (talk : Talk) :
    ((files.flatMap fun f => (rulesOf [c!"genrule"] f.2).flatMap fun r =>
      match f.1.qualifiedTarget r.name with
      | none => []
      | some t => (stringsOf r.outs).zipIdx.map fun o =>
          (f.1, talk.places.out r t o.2, f.1.qualifiedFile o.1, t)).map fun x => (x.2.2.1, x.2.2.2)) = outputs files := by
  unfold outputs
  rw [List.map_flatMap]
  congr 1
  funext f
  rw [List.map_flatMap]
  congr 1
  funext r
  cases f.1.qualifiedTarget r.name with
  | none => rfl
  | some t =>
    simp only [List.map_map]
    have : (stringsOf r.outs).map (fun o => (f.1.qualifiedFile o, t)) =
        ((stringsOf r.outs).zipIdx.map Prod.fst).map (fun o => (f.1.qualifiedFile o, t)) := by
      rw [List.zipIdx_map_fst]
    rw [this, List.map_map]
    rfl

theorem twice_iff {files : Files} {talk : Talk} {m : Message} :
    m ∈ sayGenrules [] (files.flatMap fun f => (rulesOf [c!"genrule"] f.2).flatMap fun r =>
      match f.1.qualifiedTarget r.name with
      | none => []
      | some t => (stringsOf r.outs).zipIdx.map fun o =>
          (f.1, talk.places.out r t o.2, f.1.qualifiedFile o.1, t)) ↔ SaysTwice files talk m := by
  rw [sayGenrules_spec, List.nil_append, outputs_of]
  constructor
  · rintro ⟨pkg, loc, path, target, other, h1, h2, h3, h4, rfl⟩
    rw [List.mem_flatMap] at h1
    obtain ⟨⟨pkg', ast⟩, hf, h1⟩ := h1
    rw [List.mem_flatMap] at h1
    obtain ⟨r, hr, h1⟩ := h1
    cases hq : pkg'.qualifiedTarget r.name with
    | none => simp only [hq] at h1; cases h1
    | some t =>
      simp only [hq] at h1
      rw [List.mem_map] at h1
      obtain ⟨⟨o, n⟩, ho, h1⟩ := h1
      cases h1
      rw [List.mem_zipIdx_iff_getElem?] at ho
      exact .mk hf hr hq ho h2 h3 h4
  · intro h
    cases h with
    | @mk pkg ast r target n out other hf hr hq ho h2 h3 h4 =>
      refine ⟨pkg, _, _, target, other, ?_, h2, h3, h4, rfl⟩
      rw [List.mem_flatMap]
      refine ⟨(pkg, ast), hf, ?_⟩
      rw [List.mem_flatMap]
      refine ⟨r, hr, ?_⟩
      simp only [hq]
      rw [List.mem_map]
      exact ⟨(out, n), List.mem_zipIdx_iff_getElem?.2 ho, rfl⟩

end Dwyu
end Bant
