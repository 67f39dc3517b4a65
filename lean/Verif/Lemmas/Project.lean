import Verif.Spec.Project
import Verif.Lemmas.ParserScans
import Verif.Model.RangeMap

/-! Lemmas about loading files. -/
namespace Bant.Project
open Parser Scanner Grammar

/-! ### Relation to the program -/

/-- The line index after parsing. -/
def linesOf (content : Str) : LineMap :=
  match parseFile content with
  | none => []
  | some (_, st) => (scanTimes st.scans (Scanner.init content)).lines

def locatorOf : Origin → Locator
  | .file name content base => .file ⟨name, content, base, linesOf content⟩
  | .generated name range => .fixed name range

/-- The file as it is after loading. -/
def loaded (f : BazelPackage × Str × Str × Nat) : Option BuildFile :=
  match parseFile f.2.2.1 with
  | none => none
  | some (ast, st) => some ⟨⟨f.2.1, f.2.2.1, f.2.2.2, linesOf f.2.2.1⟩, ast, st.errs, f.1⟩

/-- `Fails` for a history that continues another one. -/
def FailsAfter (seen : List BazelPackage) (h : List Step) (i : Nat) : Prop :=
  (∃ pkg name base, h[i]? = some (.add pkg name none base)) ∨
  ∃ f, IsFirst h i f ∧ f.1 ∉ seen ∧ Malformed f.2.2.1

open Classical in
noncomputable def failures (seen : List BazelPackage) (h : List Step) : Nat :=
  ((List.range h.length).filter fun i => FailsAfter seen h i).length

theorem malformed_iff {content : Str} {ast : Node} {st : PState}
    (h : parseFile content = some (ast, st)) : Malformed content ↔ st.errs ≠ [] := by
  obtain ⟨ts, hts, _⟩ := tokensOf_exists content
  constructor
  · intro hm he
    exact hm ts ast hts ((parseFile_iff hts ast).1 ⟨st, h, he⟩)
  · intro he ts tree hts hp
    obtain ⟨st', h', he'⟩ := (parseFile_iff hts tree).2 hp
    rw [h] at h'
    cases h'
    exact he he'

open Classical in
theorem failures_cons (seen seen' : List BazelPackage) (s : Step) (h : List Step)
    (hs : ∀ i, FailsAfter seen (s :: h) (i + 1) ↔ FailsAfter seen' h i) :
    failures seen (s :: h) = (if FailsAfter seen (s :: h) 0 then 1 else 0) + failures seen' h := by
  unfold failures
  rw [List.length_cons, List.range_succ_eq_map, List.filter_cons, List.filter_map]
  have : ((fun i => decide (FailsAfter seen (s :: h) i)) ∘ Nat.succ)
      = fun i => decide (FailsAfter seen' h i) := by
    funext i
    simp only [Function.comp, Nat.succ_eq_add_one, hs]
  rw [this]
  split <;> rename_i hd <;> simp at hd <;> simp [hd]
  omega

theorem isFirst_succ (s : Step) (h : List Step) (i : Nat) (f : BazelPackage × Str × Str × Nat) :
    IsFirst (s :: h) (i + 1) f ↔ IsFirst h i f ∧ ∀ g, readable s = some g → g.1 ≠ f.1 := by
  unfold IsFirst
  constructor
  · rintro ⟨h1, h2⟩
    refine ⟨⟨by simpa using h1, fun j g hj hg => h2 (j + 1) g (by omega) (by simpa using hg)⟩, ?_⟩
    intro g hg
    exact h2 0 g (by omega) (by simpa using hg)
  · rintro ⟨⟨h1, h2⟩, h3⟩
    refine ⟨by simpa using h1, fun j g hj hg => ?_⟩
    cases j with
    | zero => exact h3 g (by simpa using hg)
    | succ j => exact h2 j g (by omega) (by simpa using hg)

theorem isFirst_zero (s : Step) (h : List Step) (f : BazelPackage × Str × Str × Nat) :
    IsFirst (s :: h) 0 f ↔ readable s = some f := by
  simp [IsFirst]

theorem find_append (p : State) (pkg q : BazelPackage) (f : BuildFile) (n : Nat) (l) :
    State.find ⟨p.files ++ [(pkg, f)], n, l⟩ q = (p.find q).or (if pkg = q then some f else none) := by
  unfold State.find
  rw [List.find?_append]
  cases List.find? (fun f => decide (f.1 = q)) p.files with
  | some x => simp
  | none =>
    by_cases h : pkg = q <;> simp [h]

/-- Everything about a history. -/
theorem steps_spec : ∀ (h : List Step) (p : State) (seen : List BazelPackage),
    (∀ pkg, pkg ∈ seen ↔ (p.find pkg).isSome) →
    ∃ as p', p.steps h = some (as, p') ∧
      (∀ pkg, p'.find pkg = (p.find pkg).or ((firstFile h pkg).bind loaded)) ∧
      as = h.map (fun s => (readable s).bind fun f => p'.find f.1) ∧
      p'.errorCount = p.errorCount + failures seen h ∧
      p'.locations = RangeMap.inserts p.locations
        ((regions seen h).map fun r => (r.1, r.2.1, locatorOf r.2.2))
  | [], p, seen, _ => by
    refine ⟨[], p, rfl, fun pkg => ?_, rfl, ?_, rfl⟩
    · simp [firstFile]
    · simp [failures]
  | .register b e name range :: h, p, seen, hs => by
    obtain ⟨as, p', h1, h2, h3, h4, h5⟩ := steps_spec h (p.register b e (.fixed name range)) seen hs
    refine ⟨none :: as, p', by simp [State.steps, State.step, h1], ?_, ?_, ?_, ?_⟩
    · intro pkg; rw [h2]; simp [firstFile, readable, State.find, State.register]
    · simp [readable, h3]
    · rw [h4, failures_cons seen seen, if_neg]
      · simp [State.register]
      · rintro (⟨_, _, _, h⟩ | ⟨f, h, _⟩)
        · simp at h
        · simp [isFirst_zero, readable] at h
      · intro i; simp [FailsAfter, isFirst_succ, readable]
    · rw [h5]; simp [regions, RangeMap.inserts, State.register, locatorOf]
  | .add pkg name none base :: h, p, seen, hs => by
    obtain ⟨as, p', h1, h2, h3, h4, h5⟩ :=
      steps_spec h { p with errorCount := p.errorCount + 1 } seen hs
    refine ⟨none :: as, p', by simp [State.steps, State.step, State.addFile, h1], ?_, ?_, ?_, ?_⟩
    · intro pkg; rw [h2]; simp [firstFile, readable, State.find]
    · simp [readable, h3]
    · rw [h4, failures_cons seen seen, if_pos]
      · simp; omega
      · exact .inl ⟨_, _, _, rfl⟩
      · intro i; simp [FailsAfter, isFirst_succ, readable]
    · rw [h5]; simp [regions]
  | .add pkg name (some content) base :: h, p, seen, hs => by
    cases hf : p.find pkg with
    | some f =>
      have hseen : pkg ∈ seen := (hs pkg).2 (by simp [hf])
      obtain ⟨as, p', h1, h2, h3, h4, h5⟩ := steps_spec h p seen hs
      refine ⟨some f :: as, p', by simp [State.steps, State.step, State.addFile, State.addContent, hf, h1],
        ?_, ?_, ?_, ?_⟩
      · intro q
        rw [h2]
        by_cases hq : pkg = q
        · subst hq; simp [hf]
        · simp [firstFile, readable, hq]
      · simp [readable, h3, h2, hf]
      · rw [h4, failures_cons seen seen, if_neg]
        · simp
        · rintro (⟨_, _, _, h⟩ | ⟨f, h, hn, _⟩)
          · simp at h
          · simp [isFirst_zero, readable] at h
            subst h
            exact hn hseen
        · intro i
          simp only [FailsAfter, isFirst_succ, readable]
          refine or_congr (by simp) (exists_congr fun g => ?_)
          simp only [Option.some.injEq, forall_eq']
          constructor
          · rintro ⟨⟨a, _⟩, b⟩; exact ⟨a, b⟩
          · rintro ⟨a, b, c⟩
            exact ⟨⟨a, fun e => b (e ▸ hseen)⟩, b, c⟩
      · rw [h5]; simp [regions, hseen]
    | none =>
      have hseen : pkg ∉ seen := fun hm => by simpa [hf] using (hs pkg).1 hm
      obtain ⟨ast, st, hp, _⟩ := parseFile_total content
      have hlines : (scanTimes st.scans (Scanner.init content)).lines = linesOf content := by
        simp [linesOf, hp]
      obtain ⟨as, p', h1, h2, h3, h4, h5⟩ := steps_spec h
        (State.register ⟨p.files ++ [(pkg, ⟨⟨name, content, base, linesOf content⟩, ast, st.errs, pkg⟩)],
          if st.errs ≠ [] then p.errorCount + 1 else p.errorCount, p.locations⟩
          base (base + content.length) (.file ⟨name, content, base, linesOf content⟩))
        (pkg :: seen) (by
          intro q
          simp only [State.register, find_append, List.mem_cons, hs]
          by_cases hq : pkg = q
          · subst hq; simp [hf]
          · simp [hq, Ne.symm hq])
      refine ⟨some ⟨⟨name, content, base, linesOf content⟩, ast, st.errs, pkg⟩ :: as, p',
        by simp [State.steps, State.step, State.addFile, State.addContent, hf, hp, hlines] at h1 ⊢; rw [h1],
        ?_, ?_, ?_, ?_⟩
      · intro q
        rw [h2]
        simp only [State.register, find_append]
        by_cases hq : pkg = q
        · subst hq; simp [hf, firstFile, readable, loaded, hp]
        · simp [firstFile, readable, hq]
      · simp only [readable, h3, List.map_cons, Option.bind_some, h2]
        simp [State.register, find_append, hf]
      · rw [h4, failures_cons seen (pkg :: seen)]
        · simp only [State.register]
          have : FailsAfter seen (.add pkg name (some content) base :: h) 0 ↔ st.errs ≠ [] := by
            rw [← malformed_iff hp]
            constructor
            · rintro (⟨_, _, _, h⟩ | ⟨f, h, hn, hm⟩)
              · simp at h
              · simp [isFirst_zero, readable] at h
                subst h
                exact hm
            · intro hm
              exact .inr ⟨(pkg, name, content, base), by simp [isFirst_zero, readable], hseen, hm⟩
          by_cases he : st.errs = []
          · rw [if_neg (fun hc => this.1 hc he)]; simp [he]
          · rw [if_pos (this.2 he)]; simp [he]; omega
        · intro i
          simp only [FailsAfter, isFirst_succ, readable]
          refine or_congr (by simp) (exists_congr fun g => ?_)
          simp only [Option.some.injEq, forall_eq', List.mem_cons, not_or]
          constructor
          · rintro ⟨⟨a, a'⟩, b, c⟩; exact ⟨a, ⟨fun e => a' e.symm, b⟩, c⟩
          · rintro ⟨a, ⟨b, b'⟩, c⟩; exact ⟨⟨a, fun e => b e.symm⟩, b', c⟩
      · rw [h5]; simp [regions, hseen, RangeMap.inserts, State.register, locatorOf]

/-! ### The line index of a loaded file -/

theorem scanTimes_eq (n : Nat) (s : Scanner) : scanTimes n s = (deliver n s).2 := by
  induction n generalizing s with
  | zero => rfl
  | succ n ih => simp [scanTimes, deliver, ih]

theorem deliver_add (m n : Nat) (s : Scanner) :
    deliver (m + n) s = ((deliver m s).1 ++ (deliver n (deliver m s).2).1, (deliver n (deliver m s).2).2) := by
  induction m generalizing s with
  | zero => simp [deliver]
  | succ m ih => rw [show m + 1 + n = (m + n) + 1 by omega]; simp [deliver, ih]

theorem deliver_length (n : Nat) (s : Scanner) : (deliver n s).1.length = n := by
  induction n generalizing s with
  | zero => rfl
  | succ n ih => simp [deliver, ih]

theorem linesInv_good {content : Str} (n : Nat) (s : Scanner) (h : LinesInv content s s.pos)
    (hb : ∀ u ∈ (deliver n s).1, ¬ BadNotIn u) :
    LinesInv content (deliver n s).2 (deliver n s).2.pos := by
  induction n generalizing s with
  | zero => exact h
  | succ n ih =>
    simp only [deliver] at hb ⊢
    exact ih _ (linesInv_next_complete h (hb _ (by simp))) fun u hu => hb u (by simp [hu])

theorem linesOf_eq {content : Str} {ast : Node} {st : PState} (h : parseFile content = some (ast, st)) :
    linesOf content = (deliver st.scans (Scanner.init content)).2.lines := by
  simp [linesOf, h, scanTimes_eq]

theorem linesOf_zero (content : Str) : ∃ m, linesOf content = 0 :: m := by
  obtain ⟨ast, st, hp, _⟩ := parseFile_total content
  rw [linesOf_eq hp]
  obtain ⟨l, hl, -⟩ := (linesInv_deliver st.scans (linesInv_init content)).table
  exact ⟨_, hl⟩

theorem getPos_some (m : LineMap) (q : Nat) : ∃ x, LineMap.getPos (0 :: m) q = some x := by
  unfold LineMap.getPos
  simp only [List.takeWhile_cons, Nat.zero_le, decide_true, if_true, List.length_cons,
    Nat.add_one_ne_zero, if_false, Nat.add_sub_cancel]
  have : (m.takeWhile fun b => decide (b ≤ q)).length < (0 :: m).length := by
    have := (List.takeWhile_prefix (l := m) fun b => decide (b ≤ q)).length_le
    simp; omega
  rw [List.getElem?_eq_getElem this]
  exact ⟨_, rfl⟩

/-- The last token delivered ends where the scanner is. -/
theorem deliver_last {s : Scanner} {n : Nat} {ts : List Token} {t : Token} (hu : s.upcoming = none)
    (h : (deliver n s).1 = ts ++ [t]) :
    t.start + t.text.length = (deliver n s).2.pos ∧ (t.type = .eof → (deliver n s).2.rest = []) := by
  induction n generalizing s ts with
  | zero => simp [deliver] at h
  | succ n ih =>
    simp only [deliver] at h ⊢
    obtain ⟨⟨g, hg⟩, hup⟩ := next_ok hu
    cases ts with
    | nil =>
      simp at h
      obtain ⟨h1, h2⟩ := h
      have hn : n = 0 := by rw [← deliver_length n (Scanner.next s).2, h2]; rfl
      subst hn
      simp only [deliver]
      rw [← h1]
      exact ⟨(next_bounds hu).2, hg.eofRest⟩
    | cons x ts =>
      simp at h
      exact ih hup h.2

/-- If the tokens up to `t` have been scanned, positions up to the end of `t` are right. -/
theorem lines_upto {content : Str} {ts : List Token} {t : Token} {m : Nat}
    (ht : (deliver (ts.length + 1) (Scanner.init content)).1 = ts ++ [t])
    (hnot : ∀ u ∈ ts ++ [t], u.type = .kNotIn → '\n' ∉ u.text) (hm : ts.length + 1 ≤ m) :
    t.start + t.text.length ≤ content.length ∧
    (t.type = .eof → t.start + t.text.length = content.length) ∧
    ∀ q, q ≤ t.start + t.text.length →
      (deliver m (Scanner.init content)).2.lines.getPos q = some ⟨(content.take q).count '\n',
        ((content.take q).reverse.takeWhile (· != '\n')).length⟩ := by
  have hl := deliver_last rfl ht
  have hinv := linesInv_good (content := content) (ts.length + 1) (Scanner.init content)
    (linesInv_init content) (by
      intro u hu hb
      rw [ht] at hu
      exact hnot u hu hb.1 hb.2)
  obtain ⟨c, hc, hpos⟩ := hinv.consumed
  rw [← hl.1] at hinv hpos
  refine ⟨by rw [hc]; simp; omega, fun he => ?_, fun q hq => ?_⟩
  · rw [hl.2 he] at hc
    rw [hc, hpos]; simp
  · obtain ⟨k, rfl⟩ : ∃ k, m = ts.length + 1 + k := ⟨m - (ts.length + 1), by omega⟩
    rw [deliver_add]
    exact linesInv_getPos (linesInv_deliver k hinv) hq

/-- The line index of a file without syntax error. -/
theorem linesOf_complete {content : Str} (hok : ¬ Malformed content)
    (hnot : ∀ ts, TokensOf content ts → ∀ t ∈ ts, t.type = .kNotIn → '\n' ∉ t.text) (q : Nat)
    (hq : q ≤ content.length) :
    (linesOf content).getPos q = some ⟨(content.take q).count '\n',
        ((content.take q).reverse.takeWhile (· != '\n')).length⟩ := by
  obtain ⟨ts, hts, _⟩ := tokensOf_exists content
  obtain ⟨ast, st, hp, _⟩ := parseFile_total content
  have he : st.errs = [] := by
    have := mt (malformed_iff hp).2 hok
    simpa using this
  have hsc := (parseFile_scanned hp).2 he
  rw [initState_toks hts] at hsc
  obtain ⟨e, h1, h2, h3⟩ := hts
  have key := lines_upto h1 (by
    intro u hu hk
    rcases List.mem_append.1 hu with hu | hu
    · exact hnot ts ⟨e, h1, h2, h3⟩ u hu hk
    · simp at hu; subst hu; rw [h2] at hk; cases hk) hsc
  rw [linesOf_eq hp]
  exact key.2.2 q (by rw [key.2.1 h2]; exact hq)

/-- The line index of any file, up to what the parser has consumed. -/
theorem linesOf_consumed {content : Str} {tree : Node} {st : PState}
    (hp : parseFile content = some (tree, st)) {ts rest : List Token} {t : Token}
    (hts : TokensOf content (ts ++ [t] ++ rest)) (hcons : st.toks.length ≤ rest.length)
    (hnot : ∀ u ∈ ts ++ [t], u.type = .kNotIn → '\n' ∉ u.text) :
    t.start + t.text.length ≤ content.length ∧
    ∀ q, q ≤ t.start + t.text.length →
      (linesOf content).getPos q = some ⟨(content.take q).count '\n',
        ((content.take q).reverse.takeWhile (· != '\n')).length⟩ := by
  have hsc := (parseFile_scanned hp).1
  rw [initState_toks hts] at hsc
  obtain ⟨e, h1, h2, h3⟩ := hts
  have ht : (deliver (ts.length + 1) (Scanner.init content)).1 = ts ++ [t] := by
    have : (ts ++ [t] ++ rest).length + 1 = (ts.length + 1) + (rest.length + 1) := by simp; omega
    rw [this, deliver_add] at h1
    have := congrArg (List.take (ts.length + 1)) h1
    rw [List.take_left' (deliver_length _ _), List.append_assoc, List.take_left' (by simp)] at this
    exact this
  have key := lines_upto ht hnot (m := st.scans) (by simp at hsc; omega)
  rw [linesOf_eq hp]
  exact ⟨key.1, key.2.2⟩

end Bant.Project
