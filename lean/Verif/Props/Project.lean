import Verif.Lemmas.Project
import Verif.Props.Containers
import Verif.Props.LineCol
import Verif.Props.Scanner

/-!
C24 (a location is attributed to the file it came from) and C42 (a package is loaded once,
errors are counted).

A history is a list of steps: build files that are added (with the result of reading the file
and the address its content is put at), and generated texts that are registered.
-/
namespace Bant.Props
open Project Parser Scanner Grammar

/-! ## C42 -/

/-- **C42**: loading never fails internally; for each package the first readable file is kept,
with its tree. -/
theorem C42_first_kept (h : List Step) : ∃ as p, State.steps {} h = some (as, p) ∧
    ∀ pkg, match firstFile h pkg with
      | none => p.find pkg = none
      | some (_, name, content, base) => ∃ f st, p.find pkg = some f ∧ f.package = pkg ∧
          f.source.name = name ∧ f.source.content = content ∧ f.source.base = base ∧
          parseFile content = some (f.ast, st) ∧ f.errors = st.errs := by
  obtain ⟨as, p, h1, h2, -⟩ := steps_spec h {} [] (by simp [State.find])
  refine ⟨as, p, h1, fun pkg => ?_⟩
  have := h2 pkg
  cases hf : firstFile h pkg with
  | none => rw [this, hf]; rfl
  | some f =>
    obtain ⟨q, name, content, base⟩ := f
    have hq : q = pkg := by simpa using List.find?_some hf
    obtain ⟨ast, st, hp, _⟩ := parseFile_total content
    rw [hf] at this
    simp only [State.find, List.find?_nil, Option.map_none, Option.bind_some, Option.none_or] at this
    simp only
    rw [show p.find pkg = loaded (q, name, content, base) from this]
    simp only [loaded, hp]
    exact ⟨_, st, rfl, hq, rfl, rfl, rfl, rfl, rfl⟩

/-- **C42**: what is answered: nothing for a file that cannot be read, and the file kept (now and
until the end) for any other. -/
theorem C42_answers (h : List Step) : ∃ as p, State.steps {} h = some (as, p) ∧ as.length = h.length ∧
    (∀ (i : Nat) pkg name base, h[i]? = some (Step.add pkg name none base) → as[i]? = some none) ∧
    (∀ (i : Nat) pkg name content base, h[i]? = some (Step.add pkg name (some content) base) →
      as[i]? = some (p.find pkg) ∧ (p.find pkg).isSome) := by
  obtain ⟨as, p, h1, h2, h3, -⟩ := steps_spec h {} [] (by simp [State.find])
  refine ⟨as, p, h1, by simp [h3], ?_, ?_⟩
  · intro i pkg name base hi
    simp [h3, hi, readable]
  · intro i pkg name content base hi
    refine ⟨by simp [h3, hi, readable], ?_⟩
    rw [h2]
    have : (firstFile h pkg).isSome := by
      simp only [firstFile, List.find?_isSome, List.mem_filterMap]
      exact ⟨(pkg, name, content, base), ⟨_, List.mem_of_getElem? hi, rfl⟩, by simp⟩
    obtain ⟨f, hf⟩ := Option.isSome_iff_exists.1 this
    obtain ⟨ast, st, hp, _⟩ := parseFile_total f.2.2.1
    simp [hf, loaded, hp, State.find]

open Classical in
/-- **C42**: the number of errors is the number of steps that fail. -/
theorem C42_errors (h : List Step) : ∃ as p, State.steps {} h = some (as, p) ∧
    p.errorCount = ((List.range h.length).filter fun i => Fails h i).length := by
  obtain ⟨as, p, h1, h2, h3, h4, -⟩ := steps_spec h {} [] (by simp [State.find])
  refine ⟨as, p, h1, ?_⟩
  rw [h4]
  simp [failures, FailsAfter, Fails]

/-- Two files for a package (the second one is not looked at), one that cannot be read and one
that has an error. -/
example : (State.steps {} [.add ⟨[], c!"a"⟩ c!"a/BUILD" (some c!"x = 1") 10,
      .add ⟨[], c!"a"⟩ c!"a/BUILD.bazel" (some c!"]") 30, .add ⟨[], c!"b"⟩ c!"b/BUILD" none 0,
      .add ⟨[], c!"c"⟩ c!"c/BUILD" (some c!"]") 40]).map
      (fun r => (r.1.map (·.map (·.source.name)), r.2.errorCount)) =
    some ([some c!"a/BUILD", some c!"a/BUILD", none, some c!"c/BUILD"], 2) := by decide +kernel

/-! ## C24 -/

/-- The true location of the text between two offsets. -/
def trueLocation (content : Str) (b e : Nat) : LineColumnRange :=
  ⟨⟨lineOf content b, colOf content b⟩, ⟨lineOf content e, colOf content e⟩⟩

/-- C24, full statement: the location given for a non-empty piece of a loaded file is the name of
the file and the true location in it. That memory regions are separate is what the allocators
guarantee (C22 for the arena). -/
def C24_statement : Prop :=
  ∀ (h : List Step) as p, Separate (regions [] h) → State.steps {} h = some (as, p) →
    ∀ lo hi name content base, (lo, hi, Origin.file name content base) ∈ regions [] h →
    ∀ b e, lo ≤ b → b < e → e ≤ hi →
      p.getLocation b e = some (name, trueLocation content (b - base) (e - base))

/-- C24 is false as stated: a newline in `not in` is not counted (see C12). -/
theorem C24_counterexample : ¬ C24_statement := by
  intro hs
  have h : (State.steps {} [.add ⟨[], []⟩ c!"BUILD" (some c!"x = 1 not\nin y") 5]).map
      (fun r => r.2.getLocation 18 19) = some (some (c!"BUILD", ⟨⟨0, 13⟩, ⟨0, 14⟩⟩)) := by
    decide +kernel
  generalize hc : c!"x = 1 not\nin y" = content at h
  generalize hn : c!"BUILD" = name at h
  cases hr : State.steps {} [.add ⟨[], []⟩ name (some content) 5] with
  | none => rw [hr] at h; simp at h
  | some r =>
    obtain ⟨as, p⟩ := r
    rw [hr] at h
    simp only [Option.map_some, Option.some.injEq] at h
    have hl : content.length = 14 := by subst hc; decide
    have := hs _ as p (by constructor <;> simp [regions]) hr 5 19 name content 5
      (by simp [regions, hl]) 18 19 (by omega) (by omega) (by omega)
    rw [h] at this
    subst hc hn
    revert this
    decide

theorem separate_map {α β : Type} (g : α → β) {rs : List (Nat × Nat × α)} (h : Separate rs) :
    Separate (rs.map fun r => (r.1, r.2.1, g r.2.2)) := by
  refine ⟨?_, ?_⟩
  · intro r hr
    obtain ⟨s, hs, rfl⟩ := List.mem_map.1 hr
    exact h.1 s hs
  · rw [List.pairwise_map]
    exact h.2

/-- The locator found for a piece. -/
theorem find_locator {h : List Step} {as p} (hsep : Separate (regions [] h))
    (hr : State.steps {} h = some (as, p)) {lo hi : Nat} {o : Origin} (ho : (lo, hi, o) ∈ regions [] h)
    {b e : Nat} (h1 : lo ≤ b) (h2 : b < e) (h3 : e ≤ hi) :
    RangeMap.find p.locations b e = some (locatorOf o) := by
  obtain ⟨as', p', h1', -, -, -, h5⟩ := steps_spec h {} [] (by simp [State.find])
  rw [hr] at h1'
  cases h1'
  rw [h5]
  exact C23_found _ (separate_map locatorOf hsep) lo hi _ (List.mem_map.2 ⟨_, ho, rfl⟩) b e h2 h1 h3

theorem region_file {seen : List BazelPackage} {h : List Step} {lo hi base : Nat} {name content : Str}
    (ho : (lo, hi, Origin.file name content base) ∈ regions seen h) :
    lo = base ∧ hi = base + content.length := by
  induction h generalizing seen with
  | nil => simp [regions] at ho
  | cons s h ih =>
    cases s with
    | register => simp [regions] at ho; exact ih ho
    | add pkg n c a =>
      cases c with
      | none => exact ih (by simpa [regions] using ho)
      | some c =>
        simp only [regions] at ho
        split at ho
        · exact ih ho
        · rcases List.mem_cons.1 ho with ho | ho
          · simp only [Prod.mk.injEq, Origin.file.injEq] at ho
            obtain ⟨rfl, rfl, rfl, rfl, rfl⟩ := ho
            exact ⟨rfl, rfl⟩
          · exact ih ho

/-- **C24**: a piece is always attributed to the file it came from; no `CHECK` fails. -/
theorem C24_attribution (h : List Step) (as p) (hsep : Separate (regions [] h))
    (hr : State.steps {} h = some (as, p)) (lo hi name content base)
    (ho : (lo, hi, Origin.file name content base) ∈ regions [] h)
    (b e : Nat) (h1 : lo ≤ b) (h2 : b < e) (h3 : e ≤ hi) :
    ∃ r, p.getLocation b e = some (name, r) := by
  obtain ⟨rfl, rfl⟩ := region_file ho
  obtain ⟨m, hm⟩ := linesOf_zero content
  simp only [State.getLocation, find_locator hsep hr ho h1 h2 h3, locatorOf, Locator.getLocation,
    if_neg (Nat.not_lt.2 h1), Bant.getLocation, if_pos (show e - lo ≤ content.length by omega), hm]
  obtain ⟨x, hx⟩ := getPos_some m (b - lo)
  obtain ⟨y, hy⟩ := getPos_some m (e - lo)
  simp [LineMap.getRange, hx, hy]

/-- **C24** (partial: the file has no syntax error, and no `not in` in it spans lines): name, line
and column are right. -/
theorem C24_location_partial (h : List Step) (as p) (hsep : Separate (regions [] h))
    (hr : State.steps {} h = some (as, p)) (lo hi name content base)
    (ho : (lo, hi, Origin.file name content base) ∈ regions [] h)
    (hok : ¬ Malformed content)
    (hnot : ∀ ts, TokensOf content ts → ∀ t ∈ ts, t.type = .kNotIn → '\n' ∉ t.text)
    (b e : Nat) (h1 : lo ≤ b) (h2 : b < e) (h3 : e ≤ hi) :
    p.getLocation b e = some (name, trueLocation content (b - base) (e - base)) := by
  obtain ⟨rfl, rfl⟩ := region_file ho
  have hpos := linesOf_complete hok hnot
  simp [State.getLocation, find_locator hsep hr ho h1 h2 h3, locatorOf, Locator.getLocation,
    Nat.not_lt.2 h1, Bant.getLocation, show e - lo ≤ content.length by omega, LineMap.getRange,
    hpos (b - lo) (by omega), hpos (e - lo) (by omega), trueLocation, lineOf, colOf]

/-- **C24** (partial): also in a file with a syntax error, name, line and column are right for
everything up to the end of a token that the parser has consumed, provided no `not in` up to
there spans lines. -/
theorem C24_consumed_partial (h : List Step) (as p) (hsep : Separate (regions [] h))
    (hr : State.steps {} h = some (as, p)) (lo hi name content base)
    (ho : (lo, hi, Origin.file name content base) ∈ regions [] h)
    (tree st) (hp : parseFile content = some (tree, st)) (ts rest : List Token) (t : Token)
    (hts : TokensOf content (ts ++ [t] ++ rest)) (hcons : st.toks.length ≤ rest.length)
    (hnot : ∀ u ∈ ts ++ [t], u.type = .kNotIn → '\n' ∉ u.text)
    (b e : Nat) (h1 : lo ≤ b) (h2 : b < e) (h3 : e ≤ base + (t.start + t.text.length)) :
    p.getLocation b e = some (name, trueLocation content (b - base) (e - base)) := by
  obtain ⟨rfl, rfl⟩ := region_file ho
  obtain ⟨h4, hpos⟩ := linesOf_consumed hp hts hcons hnot
  simp [State.getLocation, find_locator hsep hr ho h1 h2 (by omega), locatorOf, Locator.getLocation,
    Nat.not_lt.2 h1, Bant.getLocation, show e - lo ≤ content.length by omega, LineMap.getRange,
    hpos (b - lo) (by omega), hpos (e - lo) (by omega), trueLocation, lineOf, colOf]

/-- **C24**: generated text has the location it was registered with. -/
theorem C24_generated (h : List Step) (as p) (hsep : Separate (regions [] h))
    (hr : State.steps {} h = some (as, p)) (lo hi name range)
    (ho : (lo, hi, Origin.generated name range) ∈ regions [] h)
    (b e : Nat) (h1 : lo ≤ b) (h2 : b < e) (h3 : e ≤ hi) :
    p.getLocation b e = some (name, range) := by
  simp [State.getLocation, find_locator hsep hr ho h1 h2 h3, locatorOf, Locator.getLocation]

/-- **C24**: the surrounding line is the line of that file. -/
theorem C24_surrounding_line (h : List Step) (as p) (hsep : Separate (regions [] h))
    (hr : State.steps {} h = some (as, p)) (lo hi name content base)
    (ho : (lo, hi, Origin.file name content base) ∈ regions [] h)
    (b e : Nat) (h1 : lo ≤ b) (h2 : b < e) (h3 : e ≤ hi) :
    ∃ s t, p.getSurroundingLine b e = some (base + s, base + t) ∧
      IsLineAround content (b - base) (e - base) s t := by
  obtain ⟨rfl, rfl⟩ := region_file ho
  obtain ⟨s, t, h4, h5⟩ := C09_surrounding_line content (b - lo) (e - lo) (by omega)
  refine ⟨s, t, ?_, h5⟩
  simp [State.getSurroundingLine, find_locator hsep hr ho h1 h2 h3, locatorOf,
    Locator.getSurroundingLine, Nat.not_lt.2 h1, h4]

/-- **C24**: a text that is in no region is not located (the `CHECK` fails). -/
theorem C24_unknown (h : List Step) (as p) (hsep : Separate (regions [] h))
    (hr : State.steps {} h = some (as, p)) (b e : Nat)
    (hno : ∀ r ∈ regions [] h, ¬ (r.1 ≤ b ∧ e ≤ r.2.1)) : p.getLocation b e = none := by
  obtain ⟨as', p', h1', -, -, -, h5⟩ := steps_spec h {} [] (by simp [State.find])
  rw [hr] at h1'
  cases h1'
  have : RangeMap.find p.locations b e = none := by
    rw [h5]
    refine C23_not_found _ (separate_map locatorOf hsep) b e ?_
    intro r hr
    obtain ⟨s, hs, rfl⟩ := List.mem_map.1 hr
    exact hno s hs
  simp [State.getLocation, this]

/-- Text behind a syntax error is not indexed: the last line (line 2) is said to be line 0. -/
example : (State.steps {} [.add ⟨[], []⟩ c!"BUILD" (some c!"]\n\nx = 1") 5]).map
    (fun r => r.2.getLocation 8 9) = some (some (c!"BUILD", ⟨⟨0, 3⟩, ⟨0, 4⟩⟩)) := by decide +kernel

/-- Two files, one of them empty, and a generated text. -/
example : (State.steps {} [.add ⟨[], c!"a"⟩ c!"a/BUILD" (some c!"x = 1\ny = x") 10,
      .add ⟨[], c!"b"⟩ c!"b/BUILD" (some []) 22,
      .add ⟨[], c!"c"⟩ c!"c/BUILD" (some c!"z\n=\n'q'") 23,
      .register 40 44 c!"a/BUILD" ⟨⟨7, 1⟩, ⟨7, 3⟩⟩]).map
      (fun r => ([(16, 17), (20, 21), (23, 24), (25, 27), (27, 30), (41, 43), (31, 32)].map
        fun x => r.2.getLocation x.1 x.2)) =
    some [some (c!"a/BUILD", ⟨⟨1, 0⟩, ⟨1, 1⟩⟩), some (c!"a/BUILD", ⟨⟨1, 4⟩, ⟨1, 5⟩⟩),
      some (c!"c/BUILD", ⟨⟨0, 0⟩, ⟨0, 1⟩⟩), some (c!"c/BUILD", ⟨⟨1, 0⟩, ⟨2, 0⟩⟩),
      some (c!"c/BUILD", ⟨⟨2, 0⟩, ⟨2, 3⟩⟩), some (c!"a/BUILD", ⟨⟨7, 1⟩, ⟨7, 3⟩⟩), none] := by
  decide +kernel

end Bant.Props
