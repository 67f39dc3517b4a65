import Verif.Lemmas.Searchable
import Verif.Lemmas.Str
import Verif.Lemmas.HeaderIndex
import Verif.Model.Headers

/-! Lemmas about header providers. -/
namespace Bant
namespace Headers
open Query Rules HeaderSpec

/-! ### Paths -/

theorem stripFront_split (c : Char) (s : Str) : ∃ n, s = List.replicate n c ++ stripFront c s := by
  induction s with
  | nil => exact ⟨0, rfl⟩
  | cons x s ih =>
    by_cases hx : x = c
    · subst hx
      obtain ⟨n, hn⟩ := ih
      refine ⟨n + 1, ?_⟩
      rw [stripFront_cons, List.replicate_succ, List.cons_append, ← hn]
    · exact ⟨0, by rw [stripFront_of_head (by simp [hx])]; rfl⟩

theorem stripBack_split (c : Char) (s : Str) : ∃ n, s = stripBack c s ++ List.replicate n c := by
  induction s with
  | nil => exact ⟨0, rfl⟩
  | cons x s ih =>
    obtain ⟨n, hn⟩ := ih
    simp only [stripBack]
    split
    · rename_i he
      rw [he, List.nil_append] at hn
      by_cases hx : x = c
      · refine ⟨n + 1, ?_⟩
        rw [if_pos hx, hx, List.nil_append, List.replicate_succ, ← hn]
      · exact ⟨n, by rw [if_neg hx, List.singleton_append, ← hn]⟩
    · exact ⟨n, by rw [List.cons_append, ← hn]⟩

theorem stripFront_replicate (c : Char) (n : Nat) (s : Str) :
    stripFront c (List.replicate n c ++ s) = stripFront c s := by
  induction n with
  | zero => rfl
  | succ n ih => rw [List.replicate_succ, List.cons_append, stripFront_cons, ih]

theorem stripBack_replicate (c : Char) (n : Nat) : stripBack c (List.replicate n c) = [] := by
  induction n with
  | zero => rfl
  | succ n ih => rw [List.replicate_succ, stripBack, ih]; simp

theorem stripBack_append (c : Char) (s : Str) (n : Nat) (h : s.getLast? ≠ some c) :
    stripBack c (s ++ List.replicate n c) = s := by
  induction s with
  | nil => exact stripBack_replicate c n
  | cons x s ih =>
    rw [List.cons_append, stripBack]
    cases s with
    | nil =>
      rw [List.nil_append, stripBack_replicate]
      have : x ≠ c := by simpa using h
      simp [this]
    | cons y s =>
      rw [ih (by simpa using h)]

theorem trimmed_iff {s out : Str} :
    Trimmed s out ↔ out = stripBack '/' (stripFront '/' s) := by
  constructor
  · rintro ⟨n, m, rfl, h1, h2⟩
    rw [List.append_assoc, stripFront_replicate]
    cases out with
    | nil =>
      rw [List.nil_append]
      have := stripFront_replicate '/' m []
      rw [List.append_nil] at this
      rw [this]; rfl
    | cons x out =>
      rw [stripFront_of_head (by simpa using h1), stripBack_append _ _ _ h2]
  · rintro rfl
    obtain ⟨n, hn⟩ := stripFront_split '/' s
    obtain ⟨m, hm⟩ := stripBack_split '/' (stripFront '/' s)
    refine ⟨n, m, ?_, stripBack_head (stripFront_head _ _), stripBack_last _ _⟩
    rw [List.append_assoc, ← hm, ← hn]

theorem dropDotSlash_replicate (n : Nat) (s : Str) :
    dropDotSlash ((List.replicate n c!"./").flatten ++ s) = dropDotSlash s := by
  induction n with
  | zero => rfl
  | succ n ih =>
    rw [List.replicate_succ, List.flatten_cons, List.append_assoc]
    simp only [List.cons_append, List.nil_append, dropDotSlash]
    exact ih

theorem dropDotSlash_of {s : Str} (h : ¬ c!"./" <+: s) : dropDotSlash s = s := by
  unfold dropDotSlash
  split
  · rename_i s
    exact absurd ⟨s, rfl⟩ h
  · rfl

theorem dropDotSlash_split (s : Str) :
    (∃ n, s = (List.replicate n c!"./").flatten ++ dropDotSlash s) ∧
    ¬ c!"./" <+: dropDotSlash s := by
  fun_induction dropDotSlash s with
  | case1 s ih =>
    obtain ⟨⟨n, hn⟩, h⟩ := ih
    refine ⟨⟨n + 1, ?_⟩, h⟩
    rw [List.replicate_succ, List.flatten_cons, List.append_assoc, ← hn]; rfl
  | case2 s h =>
    refine ⟨⟨0, rfl⟩, ?_⟩
    rintro ⟨t, rfl⟩
    exact h t rfl

theorem normalised_iff {path out : Str} : Normalised path out ↔ out = lightCanonicalizePath path := by
  unfold lightCanonicalizePath
  constructor
  · rintro ⟨n, m, rfl, h1, h2⟩
    have hh : out.head? ≠ some '/' := by
      intro hc
      cases out with
      | nil => cases hc
      | cons x out => exact h1 ⟨out, by simpa using hc.symm⟩
    rw [List.append_assoc, dropDotSlash_replicate]
    cases m with
    | zero => rw [List.replicate_zero, List.nil_append, dropDotSlash_of (h2 rfl), stripFront_of_head hh]
    | succ m =>
      rw [dropDotSlash_of, stripFront_replicate, stripFront_of_head hh]
      rintro ⟨t, ht⟩
      rw [List.replicate_succ, List.cons_append, List.cons_append] at ht
      simp at ht
  · rintro rfl
    obtain ⟨⟨n, hn⟩, hd⟩ := dropDotSlash_split path
    obtain ⟨m, hm⟩ := stripFront_split '/' (dropDotSlash path)
    refine ⟨n, m, ?_, ?_, ?_⟩
    · rw [List.append_assoc, ← hm, ← hn]
    · rintro ⟨t, ht⟩
      exact stripFront_head '/' (dropDotSlash path) (by rw [← ht]; rfl)
    · rintro rfl
      rw [List.replicate_zero, List.nil_append] at hm
      rwa [← hm]

theorem startsWith_iff {s p : Str} : startsWith s p = true ↔ p <+: s := List.isPrefixOf_iff_prefix

theorem endsWith_iff {s p : Str} : endsWith s p = true ↔ p <:+ s := List.isSuffixOf_iff_suffix

theorem dirOf_iff {d dir : Str} :
    DirOf d dir ↔ dir = if endsWith d ['/'] then d else d ++ ['/'] := by
  have key : endsWith d ['/'] = true ↔ d.getLast? = some '/' := by
    rw [endsWith_iff, List.getLast?_eq_some_iff]
    exact ⟨fun ⟨t, h⟩ => ⟨t, h.symm⟩, fun ⟨t, h⟩ => ⟨t, h.symm⟩⟩
  unfold DirOf
  by_cases h : d.getLast? = some '/'
  · simp [h, key.2 h]
  · have : endsWith d ['/'] = false := by
      cases hc : endsWith d ['/'] with
      | false => rfl
      | true => exact absurd (key.1 hc) h
    simp [h, this]

/-- The stripped path. -/
theorem stripped_cases (fqn strip : Str) :
    (∃ dir rest, Trimmed strip dir ∧ dir ≠ [] ∧ fqn = dir ++ c!"/" ++ rest ∧ stripped fqn strip = rest) ∨
    ((∀ dir rest, Trimmed strip dir → dir ≠ [] → fqn ≠ dir ++ c!"/" ++ rest) ∧
      stripped fqn strip = fqn) := by
  have ht : Trimmed strip (stripBack '/' (stripFront '/' strip)) := trimmed_iff.2 rfl
  unfold stripped
  generalize hd : stripBack '/' (stripFront '/' strip) = dir at *
  simp only
  split
  · rename_i h
    obtain ⟨h1, h2, h3, h4⟩ := h
    obtain ⟨rest, rfl⟩ := startsWith_iff.1 h3
    left
    rw [List.getElem?_append_right (Nat.le_refl _), Nat.sub_self] at h4
    cases rest with
    | nil => simp at h4
    | cons x rest =>
      simp at h4
      subst h4
      exact ⟨dir, rest, ht, by rintro rfl; simp at h1, by simp, by simp⟩
  · rename_i h
    right
    refine ⟨?_, rfl⟩
    rintro dir' rest ht' hne rfl
    rw [trimmed_iff, hd] at ht'
    subst ht'
    apply h
    refine ⟨List.length_pos_iff.2 hne, by simp, startsWith_iff.2 ⟨c!"/" ++ rest, by simp⟩, ?_⟩
    simp

theorem pathsOf_spec {pkg : BazelPackage} {r : Result}
    (hi : stringList r.includes = some (stringsOf r.includes)) (h : Str) :
    ∃ ps, pathsOf pkg r h = some ps ∧ ∀ p, p ∈ ps ↔ IncludedAs pkg r h p := by
  unfold pathsOf
  by_cases hp : r.includePrefix = []
  · refine ⟨_, by simp only [hp, ne_eq, not_true_eq_false, if_false, hi, Option.map_some]; rfl, ?_⟩
    intro p
    have hrel : p ∈ fromIncludes (pkg.qualifiedFile h) (stringsOf r.includes) ↔
        ∃ d dir, d ∈ stringsOf r.includes ∧ DirOf d dir ∧ pkg.qualifiedFile h = dir ++ p := by
      unfold fromIncludes
      simp only [List.mem_flatMap]
      constructor
      · rintro ⟨d, hd, hm⟩
        refine ⟨d, _, hd, dirOf_iff.2 rfl, ?_⟩
        generalize (if endsWith d ['/'] then d else d ++ ['/']) = dir at *
        split at hm
        · rename_i hs
          obtain ⟨t, ht⟩ := startsWith_iff.1 hs
          rw [List.mem_singleton] at hm
          rw [hm, ← ht]
          simp
        · cases hm
      · rintro ⟨d, dir, hd, hdir, he⟩
        rw [dirOf_iff] at hdir
        refine ⟨d, hd, ?_⟩
        rw [← hdir, if_pos (startsWith_iff.2 ⟨p, he.symm⟩), he]
        simp
    rw [List.mem_cons, hrel]
    constructor
    · rintro (rfl | ⟨d, dir, hd, hdir, he⟩)
      · rcases stripped_cases (pkg.qualifiedFile h) r.stripIncludePrefix with
          ⟨dir, rest, h1, h2, h3, h4⟩ | ⟨h1, h2⟩
        · rw [h4]; exact .short hp h1 h2 h3
        · rw [h2]; exact .long hp h1
      · exact .relative hp hd hdir he
    · intro hinc
      cases hinc with
      | prescribed hne => exact absurd hp hne
      | short _ h1 h2 h3 =>
        left
        rcases stripped_cases (pkg.qualifiedFile h) r.stripIncludePrefix with
          ⟨dir, rest, g1, g2, g3, g4⟩ | ⟨g1, _⟩
        · rw [g4]
          rw [trimmed_iff] at h1 g1
          rw [h3, h1, g1, List.append_assoc, List.append_assoc, List.append_cancel_left_eq] at g3
          simpa using g3
        · exact absurd h3 (g1 _ _ h1 h2)
      | long _ h1 =>
        left
        rcases stripped_cases (pkg.qualifiedFile h) r.stripIncludePrefix with
          ⟨dir, rest, g1, g2, g3, g4⟩ | ⟨_, g2⟩
        · exact absurd g3 (h1 _ _ g1 g2)
        · exact g2.symm
      | relative _ hd hdir he => exact .inr ⟨_, _, hd, hdir, he⟩
  · refine ⟨_, by simp only [hp, ne_eq, not_false_eq_true, if_true]; rfl, ?_⟩
    intro p
    rw [List.mem_singleton]
    constructor
    · rintro rfl
      have := IncludedAs.prescribed (pkg := pkg) (h := h) hp
      simpa using this
    · intro hinc
      cases hinc with
      | prescribed => simp
      | short h => exact absurd h hp
      | long h => exact absurd h hp
      | relative h => exact absurd h hp

/-! ### Aliases -/

theorem actualOf_some {pkg : BazelPackage} {r : Result} {t : BazelTarget} :
    actualOf pkg r = some t ↔ r.hasActual = true ∧ BazelTarget.parseFrom r.actual pkg = some t := by
  unfold actualOf
  split <;> simp_all

/-- The aliases of a file. -/
theorem aliasesIn_spec {pkg : BazelPackage} {ast : Node} (h : Searchable ast) :
    ∃ l, aliasesIn pkg ast = some l ∧ ∀ t a, (t, a) ∈ l ↔ Alias [(pkg, ast)] t a := by
  refine ⟨_, forTargets_eq (g := fun r =>
    match pkg.qualifiedTarget r.name, actualOf pkg r with
    | some alias, some actual => [(actual, alias)]
    | _, _ => []) h.proper ?_, ?_⟩
  · intro r _
    cases pkg.qualifiedTarget r.name <;> cases actualOf pkg r <;> rfl
  · intro t a
    simp only [List.mem_flatMap, Alias, List.mem_singleton, Prod.mk.injEq]
    constructor
    · rintro ⟨r, hr, hm⟩
      split at hm
      · rename_i h1 h2
        simp at hm
        exact ⟨pkg, ast, r, ⟨rfl, rfl⟩, hr, hm.2 ▸ h1, actualOf_some.mp (hm.1 ▸ h2)⟩
      · cases hm
    · rintro ⟨_, _, r, ⟨rfl, rfl⟩, hr, h1, h2⟩
      exact ⟨r, hr, by simp [h1, actualOf_some.mpr h2]⟩

theorem mapAll_spec {α β : Type} {f : α → Option (List β)} {P : α → β → Prop} {l : List α}
    (h : ∀ x ∈ l, ∃ ys, f x = some ys ∧ ∀ y, y ∈ ys ↔ P x y) :
    ∃ ys, mapAll f l = some ys ∧ ∀ y, y ∈ ys ↔ ∃ x ∈ l, P x y := by
  induction l with
  | nil => exact ⟨[], rfl, by simp⟩
  | cons x l ih =>
    obtain ⟨ys, h1, h2⟩ := h x (by simp)
    obtain ⟨zs, h3, h4⟩ := ih (fun x hx => h x (by simp [hx]))
    refine ⟨ys ++ zs, by rw [mapAll, h1, h3]; rfl, ?_⟩
    intro y
    simp [h2, h4]

theorem extractAliasedBy_spec {files : Files} (h : ∀ f ∈ files, Searchable f.2) :
    ∃ l, extractAliasedBy files = some l ∧ ∀ t a, (t, a) ∈ l ↔ Alias files t a := by
  obtain ⟨l, h1, h2⟩ := mapAll_spec (f := fun f => aliasesIn f.1 f.2)
    (P := fun f (e : BazelTarget × BazelTarget) => Alias [f] e.1 e.2) (l := files) (by
      intro f hf
      obtain ⟨l, h1, h2⟩ := aliasesIn_spec (pkg := f.1) (h f hf)
      exact ⟨l, h1, fun y => h2 y.1 y.2⟩)
  refine ⟨l, h1, ?_⟩
  intro t a
  rw [h2]
  simp only [Alias, List.mem_singleton]
  constructor
  · rintro ⟨f, hf, pkg, ast, r, rfl, hr⟩
    exact ⟨pkg, ast, r, hf, hr⟩
  · rintro ⟨pkg, ast, r, hf, hr⟩
    exact ⟨_, hf, pkg, ast, r, rfl, hr⟩

theorem mem_aliasesOf {l : List (BazelTarget × BazelTarget)} {t a : BazelTarget} :
    a ∈ aliasesOf l t ↔ (t, a) ∈ l := by
  simp only [aliasesOf, List.mem_map, List.mem_filter, decide_eq_true_eq]
  constructor
  · rintro ⟨⟨x, y⟩, ⟨h, rfl⟩, rfl⟩; exact h
  · intro h; exact ⟨_, ⟨h, rfl⟩, rfl⟩

/-! ### Libraries -/

theorem forTargets_spec {β : Type} {ast : Node} {kinds : List Str} {f : Result → Option (List β)}
    {P : Result → β → Prop} (hs : ∀ s ∈ sites ast, Proper s)
    (h : ∀ r ∈ rulesOf kinds ast, ∃ ys, f r = some ys ∧ ∀ y, y ∈ ys ↔ P r y) :
    ∃ ys, forTargets ast kinds f = some ys ∧ ∀ y, y ∈ ys ↔ ∃ r ∈ rulesOf kinds ast, P r y := by
  rw [forTargets, findTargets_report ast hs]
  exact mapAll_spec h

theorem skipStringView_iff {pkg : BazelPackage} {r : Result} {h : Str} :
    (skipStringView pkg (stringsOf r.hdrs) (stringsOf r.textualHdrs) &&
      decide (h = c!"string_view.h")) = true ↔ Exempt pkg r h := by
  simp only [skipStringView, Bool.and_eq_true, decide_eq_true_eq, endsWith_iff,
    List.contains_iff_mem, Exempt]
  constructor
  · rintro ⟨⟨⟨h1, h2⟩, h3⟩, rfl⟩; exact ⟨rfl, h1, h2, h3⟩
  · rintro ⟨rfl, h1, h2, h3⟩; exact ⟨⟨⟨h1, h2⟩, h3⟩, rfl⟩

/-- What a library of a file exports. -/
def Exports (pkg : BazelPackage) (ast : Node) (lib : BazelTarget) (p : Str) : Prop :=
  ∃ r ∈ rulesOf [c!"cc_library", c!"grpc_cc_library"] ast,
    pkg.qualifiedTarget r.name = some lib ∧
    ∃ h ∈ stringsOf r.hdrs ++ stringsOf r.textualHdrs ++ stringsOf r.publicHdrs,
      ¬ Exempt pkg r h ∧ IncludedAs pkg r h p

theorem iterate_spec {pkg : BazelPackage} {ast : Node} (hs : Searchable ast) :
    ∃ l, iterateCCLibraryHeaders pkg ast = some l ∧ ∀ e, e ∈ l ↔ Exports pkg ast e.1 e.2 := by
  refine forTargets_spec (P := fun r (e : BazelTarget × Str) =>
    pkg.qualifiedTarget r.name = some e.1 ∧
    ∃ h ∈ stringsOf r.hdrs ++ stringsOf r.textualHdrs ++ stringsOf r.publicHdrs,
      ¬ Exempt pkg r h ∧ IncludedAs pkg r h e.2) hs.proper ?_
  intro r hr
  have e1 := stringList_rule hs hr (l := r.hdrs) (by simp [listsOf])
  have e2 := stringList_rule hs hr (l := r.textualHdrs) (by simp [listsOf])
  have e3 := stringList_rule hs hr (l := r.publicHdrs) (by simp [listsOf])
  have e4 := stringList_rule hs hr (l := r.includes) (by simp [listsOf])
  cases hq : pkg.qualifiedTarget r.name with
  | none => exact ⟨[], rfl, by simp⟩
  | some lib =>
    simp only [e1, e2, e3]
    obtain ⟨ys, h1, h2⟩ := mapAll_spec
      (f := fun header =>
        if skipStringView pkg (stringsOf r.hdrs) (stringsOf r.textualHdrs) &&
            decide (header = c!"string_view.h") then some []
        else (pathsOf pkg r header).map fun ps => ps.map fun p => (lib, p))
      (P := fun h (e : BazelTarget × Str) => ¬ Exempt pkg r h ∧ IncludedAs pkg r h e.2 ∧ e.1 = lib)
      (l := stringsOf r.hdrs ++ stringsOf r.textualHdrs ++ stringsOf r.publicHdrs) (by
        intro h _
        obtain ⟨ps, hp, hps⟩ := pathsOf_spec (pkg := pkg) e4 h
        split
        · rename_i hx
          exact ⟨[], rfl, fun y => by simp [skipStringView_iff.1 hx]⟩
        · rename_i hx
          refine ⟨_, by rw [hp]; rfl, ?_⟩
          rintro ⟨a, b⟩
          simp only [List.mem_map, Prod.mk.injEq, hps]
          constructor
          · rintro ⟨p, hp, rfl, rfl⟩
            exact ⟨fun he => hx (skipStringView_iff.2 he), hp, rfl⟩
          · rintro ⟨_, hp, rfl⟩
            exact ⟨_, hp, rfl, rfl⟩)
    refine ⟨ys, h1, ?_⟩
    rintro ⟨a, b⟩
    rw [h2]
    constructor
    · rintro ⟨h, hm, hx, hi, he⟩
      simp only at he
      exact ⟨by rw [he], h, hm, hx, hi⟩
    · rintro ⟨he, h, hm, hx, hi⟩
      exact ⟨h, hm, hx, hi, by simpa using he.symm⟩

theorem appendCC_spec {files : Files} {aliases : List (BazelTarget × BazelTarget)}
    (ha : ∀ t a, (t, a) ∈ aliases ↔ Alias files t a) {pkg : BazelPackage} {ast : Node}
    (hs : Searchable ast) :
    ∃ l, appendCCLibraryHeaders aliases pkg ast = some l ∧ ∀ path t, (path, t) ∈ l ↔
      ∃ lib p, Exports pkg ast lib p ∧ Normalised p path ∧ (t = lib ∨ Alias files lib t) := by
  obtain ⟨l, h1, h2⟩ := iterate_spec (pkg := pkg) hs
  refine ⟨_, by rw [appendCCLibraryHeaders, h1]; rfl, ?_⟩
  intro path t
  simp only [List.mem_flatMap, normalised_iff]
  constructor
  · rintro ⟨⟨lib, p⟩, he, hm⟩
    refine ⟨lib, p, (h2 _).1 he, ?_⟩
    rcases List.mem_cons.1 hm with hm | hm
    · simp at hm
      exact ⟨hm.1, .inl hm.2⟩
    · simp only [List.mem_map, Prod.mk.injEq, mem_aliasesOf, ha] at hm
      obtain ⟨a, ha, he, rfl⟩ := hm
      exact ⟨he.symm, .inr ha⟩
  · rintro ⟨lib, p, he, hp, ht⟩
    refine ⟨(lib, p), (h2 _).2 he, ?_⟩
    rcases ht with rfl | ht
    · simp [hp]
    · refine List.mem_cons_of_mem _ ?_
      simp only [List.mem_map, Prod.mk.injEq, mem_aliasesOf, ha]
      exact ⟨t, ht, hp.symm, rfl⟩

/-! ### Protocol buffers -/

theorem insertAll_lookup {α β : Type} [DecidableEq α] (l m : List (α × β)) (k : α) :
    lookup (insertAll m l) k = lookup (m ++ l) k := by
  induction l generalizing m with
  | nil => rw [insertAll, List.append_nil]
  | cons e l ih =>
    rw [insertAll, ih]
    split
    · rename_i h
      unfold lookup
      rw [List.find?_append, List.find?_append, List.find?_cons]
      split
      · rename_i he
        simp only [List.any_eq_true, decide_eq_true_eq] at h he
        obtain ⟨x, hx, hxe⟩ := h
        cases hf : List.find? (fun x => decide (x.1 = k)) m with
        | some y => rfl
        | none =>
          rw [List.find?_eq_none] at hf
          exact absurd (by simp [hxe, he]) (hf x hx)
      · rfl
    · rw [List.append_assoc]; rfl

theorem flatMap_filter {α β : Type} (p : α → Bool) (f : α → List β) (l : List α) :
    (l.filter p).flatMap f = l.flatMap fun x => if p x then f x else [] := by
  induction l with
  | nil => rfl
  | cons x l ih =>
    rw [List.filter_cons]
    cases hp : p x <;> simp [ih, hp]

theorem protoUsers_eq {pkg : BazelPackage} {ast : Node} (hs : Searchable ast) (grpc : Bool) :
    protoUsers pkg ast grpc = some (protoRules pkg ast grpc) := by
  unfold protoUsers protoRules
  rw [forTargets_eq (g := fun r => if decide (r.rule = if grpc then c!"cc_grpc_library" else c!"cc_proto_library") then
    (match pkg.qualifiedTarget r.name with
    | none => []
    | some lib => (stringsOf (if grpc then r.srcs else r.deps)).filterMap fun d =>
        (BazelTarget.parseFrom d pkg).map fun p => (p, lib)) else []) hs.proper,
    ← flatMap_filter, rulesOf_kind]
  · cases grpc <;> rfl
  · cases grpc <;> simp
  · intro r hr
    have e1 := stringList_rule hs hr (l := r.srcs) (by simp [listsOf])
    have e2 := stringList_rule hs hr (l := r.deps) (by simp [listsOf])
    have hk := rule_kind hr (by simp)
    simp only [e1, e2]
    have hne : c!"cc_proto_library" ≠ c!"cc_grpc_library" := by decide
    have hne' : c!"cc_grpc_library" ≠ c!"cc_proto_library" := by decide
    cases hq : pkg.qualifiedTarget r.name with
    | none => simp
    | some lib =>
      simp only [List.mem_cons, List.not_mem_nil, or_false] at hk
      rcases hk with hk | hk <;> cases grpc <;> simp [hk]

theorem protoHeaders_spec (pkg : BazelPackage) (grpc : Bool) (src : Str) (p : Str) :
    p ∈ protoHeaders pkg grpc src ↔ ∃ stem ext,
      ((src = stem ++ c!".proto" ∧ ¬ c!":" <+: src) ∨ src = c!":" ++ stem ++ c!".proto") ∧
      ext ∈ (if grpc then [c!".grpc.pb.h", c!".grpc.proto.h"] else [c!".pb.h", c!".proto.h"]) ∧
      p = pkg.qualifiedFile (stem ++ ext) := by
  unfold protoHeaders
  have hlast : ∀ s : Str, beforeLast '.' (s ++ c!".proto") = s := by
    intro s
    rw [beforeLast]
    have : s ++ c!".proto" = s ++ '.' :: c!"proto" := rfl
    rw [this, splitLast_append (by decide)]
  by_cases he : endsWith src c!".proto" = true
  · rw [if_neg (by simp [he])]
    obtain ⟨s, hs⟩ := endsWith_iff.1 he
    have hstem : ∀ stem : Str,
        ((src = stem ++ c!".proto" ∧ ¬ c!":" <+: src) ∨ src = c!":" ++ stem ++ c!".proto") ↔
        stem = beforeLast '.' (dropColon src) := by
      intro stem
      unfold dropColon
      split
      · rename_i t
        constructor
        · rintro (⟨_, h⟩ | h)
          · exact absurd ⟨t, rfl⟩ h
          · have : t = stem ++ c!".proto" := by simpa using h
            rw [this, hlast]
        · intro h
          right
          cases s with
          | nil => simp at hs
          | cons x s =>
            simp at hs
            rw [h, ← hs.2, hlast]
            rfl
      · rename_i hn
        constructor
        · rintro (⟨h, _⟩ | h)
          · rw [h, hlast]
          · exact absurd h (by intro hc; exact hn _ hc)
        · intro h
          left
          rw [h, ← hs, hlast]
          refine ⟨rfl, ?_⟩
          rintro ⟨t, ht⟩
          exact hn t (by rw [← hs, ← ht]; rfl)
    constructor
    · intro hm
      refine ⟨beforeLast '.' (dropColon src), ?_⟩
      cases grpc
      · simp only [Bool.false_eq_true, if_false, List.map_cons, List.map_nil, List.mem_cons,
          List.not_mem_nil, or_false, List.append_assoc, List.nil_append] at hm ⊢
        rcases hm with rfl | rfl
        · exact ⟨_, (hstem _).2 rfl, .inl rfl, rfl⟩
        · exact ⟨_, (hstem _).2 rfl, .inr rfl, rfl⟩
      · simp only [if_true, List.map_cons, List.map_nil, List.mem_cons,
          List.not_mem_nil, or_false, List.append_assoc] at hm ⊢
        rcases hm with rfl | rfl
        · exact ⟨_, (hstem _).2 rfl, .inl rfl, rfl⟩
        · exact ⟨_, (hstem _).2 rfl, .inr rfl, rfl⟩
    · rintro ⟨stem, ext, h1, h2, rfl⟩
      rw [hstem] at h1
      subst h1
      cases grpc
      · simp only [Bool.false_eq_true, if_false, List.map_cons, List.map_nil, List.mem_cons,
          List.not_mem_nil, or_false, List.append_assoc, List.nil_append] at h2 ⊢
        rcases h2 with rfl | rfl
        · exact .inl rfl
        · exact .inr rfl
      · simp only [if_true, List.map_cons, List.map_nil, List.mem_cons,
          List.not_mem_nil, or_false, List.append_assoc] at h2 ⊢
        rcases h2 with rfl | rfl
        · exact .inl rfl
        · exact .inr rfl
  · rw [if_pos he]
    constructor
    · intro h; cases h
    · rintro ⟨stem, ext, (⟨h, _⟩ | h), _⟩
      · exact absurd (endsWith_iff.2 ⟨stem, h.symm⟩) he
      · exact absurd (endsWith_iff.2 ⟨c!":" ++ stem, h.symm⟩) he

/-- What the proto libraries of a file provide. -/
def ProtoProvides (pkg : BazelPackage) (ast : Node) (path : Str) (lib : BazelTarget) : Prop :=
  ∃ r ∈ rulesOf [c!"proto_library"] ast, ∃ proto grpc, pkg.qualifiedTarget r.name = some proto ∧
    ((protoRules pkg ast grpc).find? (·.1 = proto)).map (·.2) = some lib ∧
    ∃ src ∈ stringsOf r.srcs, path ∈ protoHeaders pkg grpc src

theorem appendProto_spec {pkg : BazelPackage} {ast : Node} (hs : Searchable ast) :
    ∃ l, appendProtoLibraryHeaders pkg ast = some l ∧
      ∀ e, e ∈ l ↔ ProtoProvides pkg ast e.1 e.2 := by
  unfold appendProtoLibraryHeaders
  rw [protoUsers_eq hs, protoUsers_eq hs]
  refine forTargets_spec (P := fun r (e : Str × BazelTarget) =>
    ∃ proto grpc, pkg.qualifiedTarget r.name = some proto ∧
      ((protoRules pkg ast grpc).find? (·.1 = proto)).map (·.2) = some e.2 ∧
      ∃ src ∈ stringsOf r.srcs, e.1 ∈ protoHeaders pkg grpc src) hs.proper ?_
  intro r hr
  have e1 := stringList_rule hs hr (l := r.srcs) (by simp [listsOf])
  cases hq : pkg.qualifiedTarget r.name with
  | none => exact ⟨[], rfl, by simp⟩
  | some proto =>
    simp only [e1]
    obtain ⟨ys, h1, h2⟩ := mapAll_spec
      (f := fun isGrpc =>
            match lookup (insertAll [] (if isGrpc then protoRules pkg ast true else protoRules pkg ast false)) proto with
            | none => some []
            | some lib =>
              (some (stringsOf r.srcs)).map fun srcs =>
                srcs.flatMap fun proto => (protoHeaders pkg isGrpc proto).map fun h => (h, lib))
      (P := fun grpc (e : Str × BazelTarget) =>
        ((protoRules pkg ast grpc).find? (·.1 = proto)).map (·.2) = some e.2 ∧
        ∃ src ∈ stringsOf r.srcs, e.1 ∈ protoHeaders pkg grpc src)
      (l := [false, true]) (by
        intro g _
        have hg : (if g then protoRules pkg ast true else protoRules pkg ast false) = protoRules pkg ast g := by
          cases g <;> rfl
        simp only [hg, insertAll_lookup, List.nil_append]
        show ∃ ys, (match ((protoRules pkg ast g).find? (·.1 = proto)).map (·.2) with
            | none => some []
            | some lib => _) = some ys ∧ _
        cases hl : ((protoRules pkg ast g).find? (·.1 = proto)).map (·.2) with
        | none => exact ⟨[], rfl, by simp⟩
        | some lib =>
          refine ⟨_, rfl, ?_⟩
          rintro ⟨a, b⟩
          simp only [List.mem_flatMap, List.mem_map, Prod.mk.injEq, Option.some.injEq]
          constructor
          · rintro ⟨s, hs, h, hh, rfl, rfl⟩
            exact ⟨rfl, s, hs, hh⟩
          · rintro ⟨rfl, s, hs, hh⟩
            exact ⟨s, hs, _, hh, rfl, rfl⟩)
    refine ⟨ys, h1, ?_⟩
    intro e
    rw [h2]
    constructor
    · rintro ⟨g, _, h⟩
      exact ⟨proto, g, rfl, h⟩
    · rintro ⟨p, g, hp, h⟩
      cases hp
      exact ⟨g, by cases g <;> simp, h⟩

/-! ### The index -/

theorem headerAdds_spec {files : Files} (hs : ∀ f ∈ files, Searchable f.2) :
    ∃ adds, headerAdds files = some adds ∧ ∀ p t, (p, t) ∈ adds ↔ Provides files p t := by
  obtain ⟨aliases, ha, hal⟩ := extractAliasedBy_spec hs
  unfold headerAdds
  rw [ha]
  obtain ⟨l, h1, h2⟩ := mapAll_spec (l := files)
    (f := fun f => if f.2.isNull then some []
        else
          match appendCCLibraryHeaders aliases f.1 f.2 with
          | none => none
          | some cc => (appendProtoLibraryHeaders f.1 f.2).map (cc ++ ·))
    (P := fun f (e : Str × BazelTarget) =>
      (∃ lib p, Exports f.1 f.2 lib p ∧ Normalised p e.1 ∧ (e.2 = lib ∨ Alias files lib e.2)) ∨
      ProtoProvides f.1 f.2 e.1 e.2) (by
    rintro ⟨pkg, ast⟩ hf
    have hs := hs _ hf
    simp only at hs ⊢
    split
    · rename_i hn
      have hn : ast = .null := by cases ast <;> first | rfl | cases hn
      subst hn
      refine ⟨[], rfl, ?_⟩
      intro e
      simp [Exports, ProtoProvides, rulesOf, sites, report]
    · obtain ⟨cc, hc, hcc⟩ := appendCC_spec (files := files) (pkg := pkg) hal hs
      obtain ⟨pp, hp, hpp⟩ := appendProto_spec (pkg := pkg) hs
      refine ⟨cc ++ pp, by rw [hc, hp]; rfl, ?_⟩
      rintro ⟨a, b⟩
      rw [List.mem_append, hcc, hpp])
  refine ⟨l, h1, ?_⟩
  intro path t
  rw [h2]
  constructor
  · rintro ⟨⟨pkg, ast⟩, hf, ⟨lib, p, ⟨r, hr, hq, h, hh, hx, hi⟩, hn, ht⟩ |
      ⟨r, hr, proto, grpc, hq, hl, src, hsrc, hp⟩⟩
    · exact .library hf hr hq hh hx hi hn ht
    · obtain ⟨stem, ext, g1, g2, rfl⟩ := (protoHeaders_spec _ _ _ _).1 hp
      exact .proto hf hr hq hl hsrc g1 g2
  · intro hp
    cases hp with
    | library hf hr hq hh hx hi hn ht =>
      exact ⟨_, hf, .inl ⟨_, _, ⟨_, hr, hq, _, hh, hx, hi⟩, hn, ht⟩⟩
    | proto hf hr hq hl hsrc g1 g2 =>
      exact ⟨_, hf, .inr ⟨_, hr, _, _, hq, hl, _, hsrc, (protoHeaders_spec _ _ _ _).2 ⟨_, _, g1, g2, rfl⟩⟩⟩

/-- The outputs of all `genrule`s. -/
theorem genruleAdds_eq {files : Files} (hs : ∀ f ∈ files, Searchable f.2) :
    genruleAdds files = some (outputs files) := by
  refine mapAll_eq (g := fun (f : BazelPackage × Node) => (rulesOf [c!"genrule"] f.2).flatMap fun r =>
      match f.1.qualifiedTarget r.name with
      | none => []
      | some t => (stringsOf r.outs).map fun o => (f.1.qualifiedFile o, t)) ?_
  rintro ⟨pkg, ast⟩ hf
  have hs := hs _ hf
  simp only at hs ⊢
  split
  · rename_i hn
    have hn : ast = .null := by cases ast <;> first | rfl | cases hn
    subst hn
    rfl
  · refine forTargets_eq hs.proper ?_
    intro r hr
    rw [stringList_rule hs hr (l := r.outs) (by simp [listsOf])]
    cases pkg.qualifiedTarget r.name <;> rfl

end Headers
end Bant
