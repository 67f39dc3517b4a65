import Verif.Lemmas.NotIn
import Verif.Lemmas.Project

/-! Helper lemmas: the text of which the lines are counted after a file has been parsed. -/

namespace Bant
open Scanner Parser Project

theorem unbroken_congr {ts us : List Token} (h : ∀ p, inNotIn ts p = inNotIn us p) (p : Nat) (s : Str) :
    unbroken ts p s = unbroken us p s := by
  induction s generalizing p with
  | nil => rfl
  | cons c cs ih => simp [unbroken, h, ih]

theorem inNotIn_append (ts us : List Token) (p : Nat) :
    inNotIn (ts ++ us) p = (inNotIn ts p || inNotIn us p) := by simp [inNotIn]

theorem inNotIn_none {ts : List Token} (h : ∀ t ∈ ts, t.type ≠ .kNotIn) (p : Nat) : inNotIn ts p = false :=
  inNotIn_false fun t ht hk => absurd hk (h t ht)

/-- At the end there is nothing but the end. -/
theorem deliver_end {s : Scanner} (hu : s.upcoming = none) (hr : s.rest = []) (n : Nat) :
    (∀ t ∈ (deliver n s).1, t.type = .eof) ∧ (deliver n s).2.pos = s.pos := by
  induction n with
  | zero => simp [deliver]
  | succ n ih =>
    obtain ⟨h1, h2⟩ := nextRaw_eof hr
    rw [← next_eq hu] at h1 h2
    simp only [deliver, h1, h2]
    refine ⟨fun t ht => ?_, ih.2⟩
    rcases List.mem_cons.1 ht with rfl | ht
    · rfl
    · exact ih.1 t ht

theorem deliver_upcoming {s : Scanner} (hu : s.upcoming = none) (n : Nat) : (deliver n s).2.upcoming = none := by
  induction n generalizing s with
  | zero => exact hu
  | succ n ih => exact ih (next_ok hu).2

/-- What has been read after some requests: some of the tokens, or all of the file. -/
theorem deliver_read {content : Str} {ts : List Token} (hts : TokensOf content ts) (n : Nat) :
    ∃ read rest more, ts = read ++ rest ∧ (deliver n (Scanner.init content)).1 = read ++ more ∧
      (∀ t ∈ more, t.type = .eof) ∧ (n ≤ ts.length → read.length = n ∧ more = []) ∧
      (ts.length < n → rest = [] ∧ (deliver n (Scanner.init content)).2.pos = content.length) := by
  obtain ⟨e, h1, h2, h3⟩ := hts
  by_cases hn : n ≤ ts.length
  · obtain ⟨k, hk⟩ : ∃ k, ts.length + 1 = n + (k + 1) := ⟨ts.length - n, by omega⟩
    rw [hk, deliver_add] at h1
    simp only at h1
    have hlen := deliver_length n (Scanner.init content)
    refine ⟨ts.take n, ts.drop n, [], (List.take_append_drop _ _).symm, ?_, by simp, ?_, by omega⟩
    · have := congrArg (List.take n) h1
      rw [List.take_append_of_le_length (by omega), List.take_of_length_le (by omega),
        List.take_append_of_le_length hn] at this
      simpa using this
    · intro _; simp; omega
  · obtain ⟨k, rfl⟩ : ∃ k, n = ts.length + 1 + k := ⟨n - (ts.length + 1), by omega⟩
    have hl := deliver_last rfl h1
    have hend := deliver_end (deliver_upcoming (s := Scanner.init content) rfl (ts.length + 1)) (hl.2 h2) k
    have hinv := linesInv_deliver (ts.length + 1) (linesInv_init content)
    rw [deliver_add]
    refine ⟨ts, [], e :: (deliver k (deliver (ts.length + 1) (Scanner.init content)).2).1, by simp, ?_, ?_, by omega, ?_⟩
    · simp only [h1]; simp
    · intro t ht
      rcases List.mem_cons.1 ht with rfl | ht
      · exact h2
      · exact hend.1 t ht
    · intro _
      refine ⟨rfl, ?_⟩
      obtain ⟨c, hc, hp⟩ := hinv.consumed
      rw [hl.2 h2] at hc
      show (deliver k _).2.pos = _
      rw [hend.2, hp, hc]; simp

theorem counted_eofs {read more : List Token} (h : ∀ t ∈ more, t.type = .eof) (q : Nat) (content : Str) :
    counted (read ++ more) q content = counted read q content := by
  unfold counted
  rw [unbroken_congr (us := read)]
  intro p
  rw [inNotIn_append, inNotIn_none (ts := more) (fun t ht hk => by rw [h t ht] at hk; cases hk)]
  simp

/-- The tokens end where the scanner is, or before. -/
theorem deliver_ends {s : Scanner} (hu : s.upcoming = none) (n : Nat) :
    s.pos ≤ (deliver n s).2.pos ∧ ∀ t ∈ (deliver n s).1, t.start + t.text.length ≤ (deliver n s).2.pos := by
  induction n generalizing s with
  | zero => simp [deliver]
  | succ n ih =>
    have hb := next_bounds hu
    obtain ⟨i1, i2⟩ := ih (next_ok hu).2
    simp only [deliver]
    refine ⟨by omega, fun t ht => ?_⟩
    rcases List.mem_cons.1 ht with rfl | ht
    · omega
    · exact i2 t ht

namespace Project

/-- The text of which lines are counted once the file is parsed. -/
def asCounted (content : Str) : Str :=
  match parseFile content with
  | none => content
  | some (_, st) =>
    let r := deliver st.scans (Scanner.init content)
    counted r.1 r.2.pos content

theorem asCounted_length (content : Str) : (asCounted content).length = content.length := by
  unfold asCounted
  split
  · rfl
  · exact counted_length _ _ _

theorem linesOf_counted (content : Str) (q : Nat) (hq : q ≤ content.length) :
    (linesOf content).getPos q = some ⟨((asCounted content).take q).count '\n',
        (((asCounted content).take q).reverse.takeWhile (· != '\n')).length⟩ := by
  obtain ⟨ast, st, hp, _⟩ := parseFile_total content
  rw [linesOf_eq hp]
  simp only [asCounted, hp]
  exact getPos_counted content st.scans q hq

theorem getLocation_counted (content : Str) {b e : Nat} (hb : b ≤ e) (he : e ≤ content.length) :
    getLocation content (linesOf content) b e =
      some ⟨⟨((asCounted content).take b).count '\n', (((asCounted content).take b).reverse.takeWhile (· != '\n')).length⟩,
        ⟨((asCounted content).take e).count '\n', (((asCounted content).take e).reverse.takeWhile (· != '\n')).length⟩⟩ := by
  simp [getLocation, he, LineMap.getRange, linesOf_counted content b (by omega), linesOf_counted content e he]

/-- What it is in terms of the tokens of the file. -/
theorem asCounted_spec {content : Str} {ts : List Token} (hts : TokensOf content ts) :
    ∃ read rest q, ts = read ++ rest ∧ q ≤ content.length ∧
      asCounted content = counted read q content ∧
      (rest ≠ [] → q = (read.getLast?.map fun t => t.start + t.text.length).getD 0) ∧
      (∀ t ∈ read, t.start + t.text.length ≤ q) ∧
      (¬ Malformed content → rest = [] ∧ q = content.length) ∧
      ∀ tree st, parseFile content = some (tree, st) → rest.length ≤ st.toks.length := by
  obtain ⟨ast, st, hp, _⟩ := parseFile_total content
  obtain ⟨read, rest, more, h1, h2, h3, h4, h5⟩ := deliver_read hts st.scans
  have hsc := parseFile_scanned hp
  rw [initState_toks hts] at hsc
  have hends := (deliver_ends (s := Scanner.init content) rfl st.scans).2
  refine ⟨read, rest, (deliver st.scans (Scanner.init content)).2.pos, h1, ?_, ?_, ?_, ?_, ?_, ?_⟩
  · obtain ⟨c, hc, hpos⟩ := (linesInv_deliver st.scans (linesInv_init content)).consumed
    rw [hpos]
    have := congrArg List.length hc
    simp at this; omega
  · simp only [asCounted, hp]
    rw [h2, counted_eofs h3]
  · intro hr
    have hle : st.scans ≤ ts.length := by
      rcases Nat.lt_or_ge ts.length st.scans with h | h
      · exact absurd (h5 h).1 hr
      · exact h
    obtain ⟨h6, rfl⟩ := h4 hle
    rw [List.append_nil] at h2
    rcases List.eq_nil_or_concat read with rfl | ⟨init, t, rfl⟩
    · have h0 : st.scans = 0 := by simpa using h6.symm
      simp [h0, deliver, Scanner.init]
    · rw [List.concat_eq_append] at h2 ⊢
      simp only [List.getLast?_append, List.getLast?_singleton, Option.some_or, Option.map_some, Option.getD_some]
      exact (deliver_last rfl h2).1.symm
  · intro t ht
    exact hends t (by rw [h2]; simp [ht])
  · intro hok
    have he : st.errs = [] := by
      have := mt (malformed_iff hp).2 hok
      simpa using this
    exact h5 (by have := hsc.2 he; omega)
  · intro tree st' hp'
    rw [hp] at hp'
    cases hp'
    rcases Nat.lt_or_ge ts.length st.scans with h | h
    · rw [(h5 h).1]; simp
    · have := h4 h
      have := congrArg List.length h1
      simp at this
      omega

/-- Nothing changes if there is no newline in a `not in`. -/
theorem unbroken_good {ts : List Token} {content : Str}
    (hp : ∀ t ∈ ts, (content.drop t.start).take t.text.length = t.text)
    (hnot : ∀ t ∈ ts, t.type = .kNotIn → '\n' ∉ t.text) : unbroken ts 0 content = content := by
  have key : ∀ (p : Nat) (s : Str), content.drop p = s → unbroken ts p s = s := by
    intro p s
    induction s generalizing p with
    | nil => intro _; rfl
    | cons c cs ih =>
      intro hd
      have hcs : content.drop (p + 1) = cs := by
        rw [← List.drop_drop, hd]; rfl
      have hc : content[p]? = some c := by
        rw [← List.head?_drop, hd]; rfl
      simp only [unbroken, ih _ hcs]
      by_cases hnl : c = '\n' ∧ inNotIn ts p = true
      · exfalso
        obtain ⟨rfl, hin⟩ := hnl
        unfold inNotIn at hin
        rw [List.any_eq_true] at hin
        obtain ⟨t, ht, h5⟩ := hin
        simp at h5
        refine hnot t ht h5.1.1 ?_
        rw [← hp t ht]
        refine List.mem_of_getElem? (i := p - t.start) ?_
        rw [List.getElem?_take, if_pos (by omega), List.getElem?_drop, ← hc]
        congr 1
        omega
      · simp [hnl]
  exact key 0 content (by simp)

/-- In a file without syntax errors and without newline in a `not in`, it is the text itself. -/
theorem asCounted_clear {content : Str} (hok : ¬ Malformed content)
    (hnot : ∀ ts, TokensOf content ts → ∀ t ∈ ts, t.type = .kNotIn → '\n' ∉ t.text) :
    asCounted content = content := by
  obtain ⟨ts, hts, _⟩ := tokensOf_exists content
  obtain ⟨read, rest, q, h1, h2, h3, _, _, h4, _⟩ := asCounted_spec hts
  obtain ⟨rfl, rfl⟩ := h4 hok
  rw [List.append_nil] at h1
  subst h1
  have hp : ∀ t ∈ ts, (content.drop t.start).take t.text.length = t.text := by
    intro t ht
    obtain ⟨e, d1, _, _⟩ := hts
    exact (Props.C10_tokens_are_pieces content _ t (by rw [d1]; simp [ht])).symm
  rw [h3, counted, List.take_length, List.drop_length, unbroken_good hp (hnot ts hts)]
  simp [flat]

end Project
end Bant
