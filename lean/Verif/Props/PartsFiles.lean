import Verif.Props.Parts

/-! Asking for a part of a project: who provides headers, and who makes files (C136). -/
namespace Bant
namespace Props
open Commands hiding Result
open Cli Query Rules Headers GraphSpec CommandSpec InvarianceSpec FileUtils FileSpec CollectSpec PartSpec

variable {m : Machine} {flags : Flags} {p q : BazelPattern} {ws : Workspace.Map}
  {found found' : List Str} {files files' : Loaded}

theorem outputs_part (p : BazelPattern) (fs : Files) :
    HeaderSpec.outputs (fs.filter fun f => p.matchPackage f.1) =
      (HeaderSpec.outputs fs).filter fun o => p.matchPackage o.2.package := by
  have hpk : ∀ f : BazelPackage × Node, ∀ o ∈ HeaderSpec.outputs [f], o.2.package = f.1 := by
    intro f o ho
    simp only [HeaderSpec.outputs, List.flatMap_cons, List.flatMap_nil, List.append_nil] at ho
    obtain ⟨r, _, hr⟩ := List.mem_flatMap.1 ho
    split at hr
    · cases hr
    · next t ht =>
      obtain ⟨_, _, rfl⟩ := List.mem_map.1 hr
      exact qualifiedTarget_package ht
  have hall : ∀ fs : Files, HeaderSpec.outputs fs = fs.flatMap fun f => HeaderSpec.outputs [f] := by
    intro fs
    simp only [HeaderSpec.outputs, List.flatMap_cons, List.flatMap_nil, List.append_nil]
  rw [hall, hall fs, filter_flatMap]
  induction fs with
  | nil => rfl
  | cons f fs ih =>
    rw [List.filter_cons, List.flatMap_cons, ← ih]
    cases hp : p.matchPackage f.1 with
    | false =>
      have := List.filter_eq_nil_iff.2 fun (o : Str × BazelTarget) ho => show ¬ p.matchPackage o.2.package = true by
        rw [hpk f o ho, hp]; simp
      rw [this]
      simp
    | true =>
      have := List.filter_eq_self.2 fun (o : Str × BazelTarget) ho => show p.matchPackage o.2.package = true by
        rw [hpk f o ho, hp]
      rw [this]
      simp

theorem find_part {α : Type} (keep is : α → Bool) : ∀ (l : List α),
    (l.filter keep).find? is = match l.find? is with
      | none => none
      | some x => if keep x then some x else (l.filter keep).find? is
  | [] => rfl
  | a :: l => by
    have ih := find_part keep is l
    rw [List.filter_cons, List.find?_cons]
    cases hi : is a with
    | true =>
      cases hk : keep a with
      | true => simp [hi]
      | false => simp [hk]
    | false =>
      cases hk : keep a with
      | true => simp only [if_true, List.find?_cons, hi]; exact ih
      | false => simpa using ih

theorem sortedKeys_ext {α : Type} {l l' : List (Str × α)} (h : SortedKeys l) (h' : SortedKeys l')
    (hm : ∀ x, x ∈ l ↔ x ∈ l') : l = l' := by
  have hn : ∀ {l : List (Str × α)}, SortedKeys l → l.Nodup := fun h =>
    List.Pairwise.imp (fun {a b} hab he => by rw [he, strLt_irrefl] at hab; cases hab) h
  refine List.Perm.eq_of_pairwise (le := fun (a b : Str × α) => strLt a.1 b.1 = true) ?_ h h' ((List.perm_ext_iff_of_nodup (hn h) (hn h')).2 hm)
  intro a b _ _ h1 h2
  have := strLt_trans h1 h2
  rw [strLt_irrefl] at this
  cases this

/-- **C136** for `genrule-outputs`: whoever asks for less, is told all of the files of which they are told otherwise that
one of the rules they ask for makes them, and the same rule. There can be more of these lines, but only for files that
are also made by a rule of another package. -/
theorem C136_genrule_outputs_partial (hh : Healthy m) (ha : Asks m ws p q) (hd : flags.depth = 0)
    (hs : Starts m flags .genruleOutputs p ws found files) (hs' : Starts m flags .genruleOutputs q ws found' files') :
    ∃ rows rows' : List (Str × BazelTarget),
      Prints m flags .genruleOutputs q (note found') [c!"generated-file", c!"providing-rule"]
        (rows'.map fun e => .row [e.1, e.2.toString]) ∧
      Prints m flags .genruleOutputs p (note found) [c!"generated-file", c!"providing-rule"]
        (rows.map fun e => .row [e.1, e.2.toString]) ∧
      (rows'.filter fun e => p.matchTarget e.2).Sublist rows ∧
      ∀ f t, (f, t) ∈ rows → p.matchTarget t = true ∧ ((f, t) ∈ rows' ∨
        ∃ other, p.matchPackage other.package = false ∧ (f, other) ∈ HeaderSpec.outputs (trees files')) := by
  obtain ⟨now, g1, rows, h1, h2, h3⟩ := C88_genrule_outputs hh hs (by omega)
  obtain ⟨now', g4, rows', h4, h5, h6⟩ := C88_genrule_outputs hh hs' (by omega)
  rw [show flags.depth.toNat = 0 by rw [hd]; rfl] at g1 g4
  obtain rfl := grown_zero hs'.opened.order g4
  obtain rfl := grown_zero hs.opened.order g1
  have hsh : ∀ (pattern : BazelPattern) t, shown flags pattern t = pattern.matchTarget t := by
    intro pattern t; simp [shown, hd]
  simp only [hsh, starts_trees ha (by simp) hs hs', outputs_part] at h3 h6
  refine ⟨rows, rows', h4, h1, ?_, ?_⟩
  · have e : (rows'.filter fun e => p.matchTarget e.2) = rows.filter fun e => decide (e ∈ rows') := by
      refine sortedKeys_ext (List.Pairwise.filter _ h5) (List.Pairwise.filter _ h2) ?_
      rintro ⟨f, t⟩
      rw [List.mem_filter, List.mem_filter, decide_eq_true_iff]
      constructor
      · rintro ⟨a1, a2⟩
        refine ⟨?_, a1⟩
        obtain ⟨b1, _⟩ := (h6 f t).1 a1
        obtain ⟨x, c1, c2⟩ := Option.map_eq_some_iff.1 b1
        refine (h3 f t).2 ⟨?_, a2⟩
        rw [find_part, c1]
        simp only [c2, matchTarget_package a2, if_true, Option.map_some]
      · rintro ⟨a1, a2⟩
        exact ⟨a2, ((h3 f t).1 a1).2⟩
    rw [e]
    exact List.filter_sublist
  · intro f t hr
    obtain ⟨a1, a2⟩ := (h3 f t).1 hr
    refine ⟨a2, ?_⟩
    rw [find_part] at a1
    cases hx : (HeaderSpec.outputs (trees files')).find? (·.1 = f) with
    | none => rw [hx] at a1; cases a1
    | some x =>
      rw [hx] at a1
      simp only at a1
      cases hk : p.matchPackage x.2.package with
      | true =>
        rw [hk] at a1
        simp only [if_true, Option.map_some, Option.some.injEq] at a1
        left
        refine (h6 f t).2 ⟨?_, ha.narrower t a2⟩
        rw [hx, Option.map_some, a1]
      | false =>
        right
        have hf := List.find?_some hx
        rw [decide_eq_true_iff] at hf
        exact ⟨x.2, hk, hf ▸ List.mem_of_find?_eq_some hx⟩

/-- Of a part of the files, less is known. -/
theorem provides_of_part {fs fs' : Files} (h : ∀ f ∈ fs, f ∈ fs') {path : Str} {t : BazelTarget}
    (hp : HeaderSpec.Provides fs path t) : HeaderSpec.Provides fs' path t := by
  cases hp with
  | library h1 h2 h3 h4 h5 h6 h7 h8 =>
    refine .library (h _ h1) h2 h3 h4 h5 h6 h7 ?_
    rcases h8 with h8 | ⟨pkg, ast, r, a1, a2⟩
    · exact .inl h8
    · exact .inr ⟨pkg, ast, r, h _ a1, a2⟩
  | proto h1 h2 h3 h4 h5 h6 h7 => exact .proto (h _ h1) h2 h3 h4 h5 h6 h7

theorem protoRules_package {pkg : BazelPackage} {ast : Node} {grpc : Bool} :
    ∀ x ∈ HeaderSpec.protoRules pkg ast grpc, x.2.package = pkg := by
  intro x hx
  unfold HeaderSpec.protoRules at hx
  obtain ⟨r, _, hr⟩ := List.mem_flatMap.1 hx
  split at hr
  · cases hr
  · next lib hl =>
    obtain ⟨d, _, hd⟩ := List.mem_filterMap.1 hr
    obtain ⟨_, _, rfl⟩ := Option.map_eq_some_iff.1 hd
    exact qualifiedTarget_package hl

/-- What is provided in the packages asked for is known from these alone, but for aliases of libraries elsewhere. -/
theorem provides_part {fs : Files} {path : Str} {t : BazelTarget} (hp : HeaderSpec.Provides fs path t)
    (ht : p.matchPackage t.package = true)
    (ha : ∀ lib, HeaderSpec.Alias fs lib t → p.matchPackage lib.package = true) :
    HeaderSpec.Provides (fs.filter fun f => p.matchPackage f.1) path t := by
  cases hp with
  | @library pkg ast r lib h' p' _ _ h1 h2 h3 h4 h5 h6 h7 h8 =>
    have hl : p.matchPackage pkg = true := by
      rw [← qualifiedTarget_package h3]
      rcases h8 with rfl | h8
      · exact ht
      · exact ha _ h8
    refine .library (List.mem_filter.2 ⟨h1, hl⟩) h2 h3 h4 h5 h6 h7 ?_
    rcases h8 with h8 | ⟨pkg', ast', r', a1, a2, a3, a4⟩
    · exact .inl h8
    · refine .inr ⟨pkg', ast', r', List.mem_filter.2 ⟨a1, ?_⟩, a2, a3, a4⟩
      rw [← qualifiedTarget_package a3]
      exact ht
  | @proto pkg ast r proto grpc src stem ext lib h1 h2 h3 h4 h5 h6 h7 =>
    obtain ⟨x, b1, b2⟩ := Option.map_eq_some_iff.1 h4
    have := protoRules_package x (List.mem_of_find?_eq_some b1)
    rw [b2] at this
    exact .proto (List.mem_filter.2 ⟨h1, by rw [← this]; exact ht⟩) h2 h3 h4 h5 h6 h7

/-- **C136** for `lib-headers`: whoever asks for less, is told of a library they ask for that it provides a header, if they
are told so otherwise; but for aliases of libraries in packages that are not asked for. -/
theorem C136_lib_headers_partial (hh : Healthy m) (ha : Asks m ws p q) (hd : flags.depth = 0)
    (hs : Starts m flags .libraryHeaders p ws found files) (hs' : Starts m flags .libraryHeaders q ws found' files') :
    ∃ rows rows' : List (Str × List BazelTarget),
      Prints m flags .libraryHeaders q (note found') [c!"header", c!"providing-rule"]
        (rows'.map fun e => .repeated [e.1] (e.2.map BazelTarget.toString)) ∧
      Prints m flags .libraryHeaders p (note found) [c!"header", c!"providing-rule"]
        (rows.map fun e => .repeated [e.1] (e.2.map BazelTarget.toString)) ∧
      (∀ header t, (∃ ts, (header, ts) ∈ rows ∧ t ∈ ts) →
        p.matchTarget t = true ∧ ∃ ts, (header, ts) ∈ rows' ∧ t ∈ ts) ∧
      ∀ header t, (∃ ts, (header, ts) ∈ rows' ∧ t ∈ ts) → p.matchTarget t = true →
        (∀ lib, HeaderSpec.Alias (trees files') lib t → p.matchPackage lib.package = true) →
        ∃ ts, (header, ts) ∈ rows ∧ t ∈ ts := by
  obtain ⟨now, g1, rows, h1, _, _, h2, h3⟩ := C87_lib_headers_partial hh hs (by omega)
  obtain ⟨now', g4, rows', h4, _, _, h5, h6⟩ := C87_lib_headers_partial hh hs' (by omega)
  rw [show flags.depth.toNat = 0 by rw [hd]; rfl] at g1 g4
  obtain rfl := grown_zero hs'.opened.order g4
  obtain rfl := grown_zero hs.opened.order g1
  have hsh : ∀ (pattern : BazelPattern) t, shown flags pattern t = pattern.matchTarget t := by
    intro pattern t; simp [shown, hd]
  simp only [hsh, starts_trees ha (by simp) hs hs'] at h2 h3 h5 h6
  refine ⟨rows, rows', h4, h1, ?_, ?_⟩
  · rintro header t ⟨ts, a1, a2⟩
    obtain ⟨b1, b2⟩ := (h3 header ts a1 t).1 a2
    have hp := provides_of_part (fun f hf => (List.mem_filter.1 hf).1) b1
    obtain ⟨ts', c⟩ := (h5 header).2 ⟨t, hp⟩
    exact ⟨b2, ts', c, (h6 header ts' c t).2 ⟨hp, ha.narrower t b2⟩⟩
  · rintro header t ⟨ts, a1, a2⟩ hm hal
    obtain ⟨b1, _⟩ := (h6 header ts a1 t).1 a2
    have hp := provides_part b1 (matchTarget_package hm) hal
    obtain ⟨ts', c⟩ := (h2 header).2 ⟨t, hp⟩
    exact ⟨ts', c, (h3 header ts' c t).2 ⟨hp, hm⟩⟩

/-! ### Examples -/

/-- Two packages with libraries and files that are made; in one there is an alias of a library in the other. -/
def madeParts : List (Str × Str) :=
  [(c!"p/BUILD", c!"cc_library(name=\"a\",hdrs=[\"a.h\"])\ngenrule(name=\"g\",outs=[\"x\",\"y\"])"),
   (c!"q/BUILD", c!"alias(name=\"b\",actual=\"//p:a\")\ncc_library(name=\"c\",hdrs=[\"c.h\"])\ngenrule(name=\"h\",outs=[\"z\"])")]

example : (runCommand (disk madeParts) {} .genruleOutputs everything).map (·.out) =
      some c!"p/x //p:g\np/y //p:g\nq/z //q:h\n" ∧
    (runCommand (disk madeParts) {} .genruleOutputs (pat c!"//p:all")).map (·.out) = some c!"p/x //p:g\np/y //p:g\n" := by
  decide +kernel

/-- The alias is not told if its library is not asked for. -/
example : (runCommand (disk madeParts) {} .libraryHeaders everything).map (·.out) =
      some c!"p/a.h //p:a\np/a.h //q:b\nq/c.h //q:c\n" ∧
    (runCommand (disk madeParts) {} .libraryHeaders (pat c!"//q/...")).map (·.out) = some c!"q/c.h //q:c\n" := by
  decide +kernel

end Props
end Bant
