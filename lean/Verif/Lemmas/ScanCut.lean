import Verif.Lemmas.LayoutScan
import Verif.Lemmas.ParserFirst
import Verif.Lemmas.Project

/-! A file that is cut off before a token and completed by other words. -/
namespace Bant
namespace ScanCut
open Scanner Relex Parser Layout Project

theorem dispatch_notIn {c : Char} {cs : Str} {pos : Nat} {lines : LineMap} {nl : Nat}
    (h : (dispatch c cs pos lines nl).type = .kNotIn) : (dispatch c cs pos lines nl).nl = nl := by
  have hs : ∀ x p l n, (handleString x p l n).type ≠ .kNotIn := by
    intro x p l n
    unfold handleString
    simp only
    split
    · simp
    · split <;> split <;> simp
  unfold dispatch at h ⊢
  split
  · rfl
  · rw [if_neg (by assumption)] at h
    split
    · rfl
    · rw [if_neg (by assumption)] at h
      split
      · rfl
      · rw [if_neg (by assumption)] at h
        split
        · rfl
        · rw [if_neg (by assumption)] at h
          split
          · rw [if_pos (by assumption)] at h
            exact absurd h (hs _ _ _ _)
          · rw [if_neg (by assumption)] at h
            unfold handleWord at h ⊢
            split
            · rw [if_pos (by assumption)] at h
              exact absurd h (hs _ _ _ _)
            · simp only
              split
              · rfl
              · split
                · split <;> rfl
                · rfl

/-- The number of lines depends on the token only. -/
theorem dispatch_nl {c : Char} {x y : Str} {pos pos' : Nat} {lines lines' : LineMap} {nl : Nat} (hc : c ≠ '\n')
    (hty : (dispatch c y pos' lines' nl).type = (dispatch c x pos lines nl).type)
    (htx : (dispatch c y pos' lines' nl).text = (dispatch c x pos lines nl).text) :
    (dispatch c y pos' lines' nl).nl = (dispatch c x pos lines nl).nl := by
  by_cases h : (dispatch c x pos lines nl).type = .kNotIn
  · rw [dispatch_notIn h, dispatch_notIn (hty.trans h)]
  · have a := (dispatch_ok c x pos lines nl hc).hlines
    have b := (dispatch_ok c y pos' lines' nl hc).hlines
    rcases a with ⟨a, _⟩ | ⟨_, a⟩
    · exact absurd a h
    · rcases b with ⟨b, _⟩ | ⟨_, b⟩
      · exact absurd (hty ▸ b) h
      · rw [a, b, htx]

/-- Scanners at the same place of different texts. -/
structure Sim (s s' : Scanner) : Prop where
  pos : s'.pos = s.pos
  nl : s'.newlineCount = s.newlineCount
  last : s'.lastTokenNewlineCount = s.lastTokenNewlineCount
  up : s.upcoming = none
  up' : s'.upcoming = none

/-- The next token, what is before it and what it depends on. -/
theorem next_full {s : Scanner} (hup : s.upcoming = none) (he : (next s).1.type ≠ .eof) :
    ∃ g c w lines, Gap False g ∧ s.rest = g ++ (c :: (w ++ (next s).2.rest)) ∧ skipped c = false ∧
      (dispatch c (w ++ (next s).2.rest) (s.pos + g.length) lines (s.newlineCount + g.count '\n')).text = c :: w ∧
      (next s).1 = ⟨(dispatch c (w ++ (next s).2.rest) (s.pos + g.length) lines (s.newlineCount + g.count '\n')).type,
        s.pos + g.length, c :: w, s.lastTokenNewlineCount !=
          (dispatch c (w ++ (next s).2.rest) (s.pos + g.length) lines (s.newlineCount + g.count '\n')).nl⟩ ∧
      (next s).2.newlineCount =
        (dispatch c (w ++ (next s).2.rest) (s.pos + g.length) lines (s.newlineCount + g.count '\n')).nl ∧
      (next s).2.lastTokenNewlineCount = (next s).2.newlineCount ∧ (next s).2.upcoming = none ∧
      (next s).2.pos = s.pos + g.length + (c :: w).length := by
  obtain ⟨g, hg⟩ := skipSpace_ok false s.rest s.pos s.lines s.newlineCount
  rw [next_eq hup] at he ⊢
  unfold nextRaw at he ⊢
  simp only at he ⊢
  generalize skipSpace false s.rest s.pos s.lines s.newlineCount = k at hg he
  obtain ⟨krest, kpos, klines, knl⟩ := k
  obtain ⟨htext, hpos, hlines, hnl, hgap, hstop⟩ := hg
  simp only at htext hpos hlines hnl hgap hstop he ⊢
  simp only [Bool.false_eq_true, if_false] at hgap
  cases krest with
  | nil => exact absurd rfl he
  | cons c cs =>
    simp only at he ⊢
    obtain ⟨h1, h2, h3⟩ := hstop c cs rfl
    have hc : c ≠ '\n' := by rintro rfl; revert h1; decide
    obtain ⟨⟨rest', hr⟩, hne, -, -⟩ := dispatch_ok c cs kpos klines knl hc
    obtain ⟨c', w, hw⟩ := List.exists_cons_of_ne_nil hne
    have hcs : c' = c ∧ cs = w ++ rest' := by
      rw [hw] at hr
      simp only [List.cons_append, List.cons.injEq] at hr
      exact ⟨hr.1, hr.2.symm⟩
    obtain ⟨rfl, rfl⟩ := hcs
    have hd : (c' :: (w ++ rest')).drop (dispatch c' (w ++ rest') kpos klines knl).text.length = rest' := by
      rw [hw, ← List.cons_append, List.drop_left]
    subst hpos hnl
    refine ⟨g, c', w, klines, Gap.imp hgap (by simp), ?_, by simp [skipped, h1, h2, h3], ?_, ?_, ?_, trivial, hup, ?_⟩
    · rw [hd]; exact htext
    · rw [hd]; exact hw
    · rw [hd, hw]
    · rw [hd]
    · rw [hw]

theorem no_in {X b y : Str} (h : consumeOptionalIn (X ++ b) = none) : consumeOptionalIn (X ++ '#' :: y) = none := by
  cases hc : consumeOptionalIn (X ++ '#' :: y) with
  | none => rfl
  | some t =>
    exfalso
    obtain ⟨ws, r, _, h1, h2⟩ := consumeOptionalIn_some hc
    have hno : '#' ∉ ws ++ c!"in" := by
      intro hm
      rcases List.mem_append.1 hm with hm | hm
      · exact absurd (h2 _ hm) (by decide)
      · revert hm; decide
    have hpre : ∃ z, X = ws ++ c!"in" ++ z := by
      rcases List.append_eq_append_iff.1 h1 with ⟨z, e1, e2⟩ | ⟨z, e1, e2⟩
      · cases z with
        | nil => exact ⟨[], by simpa using e1.symm⟩
        | cons d z =>
          simp only [List.cons_append, List.cons.injEq] at e2
          exact absurd (by rw [e1, e2.1]; simp) hno
      · exact ⟨z, e1⟩
    obtain ⟨z, rfl⟩ := hpre
    have htw : (ws ++ c!"in" ++ z ++ b).takeWhile isSpace = ws := by
      rw [List.append_assoc, List.append_assoc, List.takeWhile_append_of_pos h2]
      have : isSpace 'i' = false := by decide
      simp [this]
    simp only [consumeOptionalIn, htw] at h
    simp at h

/-- If the word `not` stands alone, then no `in` follows. -/
theorem not_alone {c : Char} {w rest : Str} {pos : Nat} {lines : LineMap} {nl : Nat}
    (h : (dispatch c (w ++ rest) pos lines nl).text = c :: w) (hw : c :: w = c!"not") :
    consumeOptionalIn rest = none := by
  simp only [List.cons.injEq] at hw
  obtain ⟨rfl, rfl⟩ := hw
  rw [(word_start (by decide) (by decide) _ pos lines nl).1] at h
  simp only [List.cons_append, List.nil_append] at h
  unfold handleWord at h
  rw [if_neg (by simp [isRawString])] at h
  simp only at h
  rw [if_neg (by decide)] at h
  have htw : ('n' :: 'o' :: 't' :: rest).takeWhile isIdentifierChar = c!"not" ++ rest.takeWhile isIdentifierChar := by
    have h1 : isIdentifierChar 'n' = true := by decide
    have h2 : isIdentifierChar 'o' = true := by decide
    have h3 : isIdentifierChar 't' = true := by decide
    simp [h1, h2, h3]
  by_cases hn : ('n' :: 'o' :: 't' :: rest).takeWhile isIdentifierChar = c!"not"
  · simp only [hn, if_true, List.length_cons, List.length_nil, List.drop_succ_cons, List.drop_zero] at h
    cases hc : consumeOptionalIn rest with
    | none => rfl
    | some t =>
      rw [hc] at h
      simp only [List.cons_append, List.nil_append, List.cons.injEq, true_and] at h
      obtain ⟨ws, r, rfl, _⟩ := consumeOptionalIn_some hc
      simp at h
  · rw [if_neg hn] at h
    exact absurd h hn

theorem deliver_rest (n : Nat) (s : Scanner) (hup : s.upcoming = none) :
    ∃ x, s.rest = x ++ (deliver n s).2.rest ∧ (deliver n s).2.pos = s.pos + x.length ∧
      (deliver n s).2.upcoming = none := by
  induction n generalizing s with
  | zero => exact ⟨[], rfl, by simp [deliver], hup⟩
  | succ n ih =>
    obtain ⟨⟨g, hg⟩, hu⟩ := next_ok hup
    obtain ⟨x, h1, h2, h3⟩ := ih (next s).2 hu
    refine ⟨g ++ (next s).1.text ++ x, ?_, ?_, h3⟩
    · rw [hg.text, h1]; simp [deliver]
    · simp only [deliver, h2, hg.hpos, hg.start, List.length_append]; omega

/-- One token of the text that is cut off. -/
theorem step_cut {s s' : Scanner} (hs : Sim s s') {X X1 b y : Str} (hr : s.rest = X ++ b)
    (hr' : s'.rest = X ++ '#' :: y) (he : (next s).1.type ≠ .eof) (herr : (next s).1.type ≠ .error)
    (h1 : (next s).2.rest = X1 ++ b) (hc : Compat (X1 ++ b) (X1 ++ '#' :: y)) :
    (next s').1 = (next s).1 ∧ (next s').2.rest = X1 ++ '#' :: y ∧ Sim (next s).2 (next s').2 := by
  obtain ⟨g, c, w, lines, hg, e1, e2, e3, e4, e5, e6, e7, e8⟩ := next_full hs.up he
  rw [h1] at e1 e3 e4 e5
  have hX : X = g ++ c :: (w ++ X1) := by
    have : X ++ b = (g ++ c :: (w ++ X1)) ++ b := by rw [← hr, e1]; simp
    exact List.append_cancel_right this
  have hty : (dispatch c (w ++ (X1 ++ b)) (s.pos + g.length) lines (s.newlineCount + g.count '\n')).type ≠ .error := by
    intro h; rw [e4] at herr; exact herr h
  have hloc := dispatch_local hty e3 hc (fun h => no_in (not_alone e3 h))
  have hcn : c ≠ '\n' := by rintro rfl; revert e2; decide
  obtain ⟨l', hl⟩ := skipSpace_gap hg e2 (w ++ (X1 ++ '#' :: y)) s'.pos s'.lines s'.newlineCount
  have hrest : s'.rest = g ++ c :: (w ++ (X1 ++ '#' :: y)) := by rw [hr', hX]; simp
  rw [hs.pos, hs.nl] at hl
  obtain ⟨k1, k2⟩ := hloc (s.pos + g.length) l' (s.newlineCount + g.count '\n')
  have k3 := dispatch_nl hcn k1 (k2.trans e3.symm)
  rw [next_eq hs.up']
  unfold nextRaw
  simp only [hrest, hs.pos, hs.nl, hl, k1, k2, k3, hs.last]
  refine ⟨e4.symm, by rw [← List.cons_append, List.drop_left], ?_⟩
  exact ⟨e8.symm, e5.symm, by rw [e6, e5], e7, hs.up'⟩

/-- The tokens before the cut stay. -/
theorem cut_scan {a b y : Str} (ha : ∀ c, a.head? = some c → skipped c = true) (pre : List Token) :
    ∀ {s s' : Scanner} {X : Str}, Sim s s' → (deliver pre.length s).1 = pre →
      (∀ t ∈ pre, t.type ≠ .eof ∧ t.type ≠ .error) → (deliver pre.length s).2.rest = a ++ b →
      s.rest = X ++ b → s'.rest = X ++ '#' :: y →
      (deliver pre.length s').1 = pre ∧ (deliver pre.length s').2.rest = a ++ '#' :: y ∧
        (deliver pre.length s').2.upcoming = none := by
  induction pre with
  | nil =>
    intro s s' X hs _ _ hend hr hr'
    simp only [List.length_nil, deliver] at hend ⊢
    have : X = a := List.append_cancel_right (hr.symm.trans hend)
    exact ⟨trivial, by rw [hr', this], hs.up'⟩
  | cons t pre ih =>
    intro s s' X hs hdel hok hend hr hr'
    simp only [List.length_cons, deliver, List.cons.injEq] at hdel hend ⊢
    obtain ⟨ht, hdel⟩ := hdel
    obtain ⟨ho1, ho2⟩ := hok t (by simp)
    obtain ⟨x, hx, _, _⟩ := deliver_rest pre.length (next s).2 (next_ok hs.up).2
    rw [hend] at hx
    have h1 : (next s).2.rest = (x ++ a) ++ b := by rw [hx]; simp
    have hc : Compat ((x ++ a) ++ b) ((x ++ a) ++ '#' :: y) := by
      rw [← h1]
      cases pre with
      | nil =>
        simp only [List.length_nil, deliver] at hend
        have hxa : x ++ a = a := List.append_cancel_right (h1.symm.trans hend)
        left
        intro d hd
        rw [hxa] at hd
        cases a with
        | nil => simp at hd; subst hd; rfl
        | cons d' a => exact ha d (by simpa using hd)
      | cons t2 pre =>
        simp only [List.length_cons, deliver, List.cons.injEq] at hdel hend
        have hok2 := hok t2 (by simp)
        obtain ⟨g, c, w, lines, hg, e1, e2, e3, e4, _, _, e7, _⟩ := next_full (next_ok hs.up).2 (by rw [hdel.1]; exact hok2.1)
        obtain ⟨x2, hx2, _, _⟩ := deliver_rest pre.length (next (next s).2).2 e7
        rw [hend] at hx2
        have hxa : x ++ a = g ++ c :: (w ++ (x2 ++ a)) := by
          refine List.append_cancel_right (bs := b) ?_
          rw [← h1, e1, hx2]; simp
        cases g with
        | cons d g =>
          left
          intro d' hd
          rw [hxa] at hd
          exact gap_head hg (by simpa using hd)
        | nil =>
          right
          refine ⟨c, w, (next (next s).2).2.rest, x2 ++ (a ++ '#' :: y), by rw [e1]; rfl, by rw [hxa]; simp, ?_⟩
          rintro hq rfl
          have hd : ∀ z p l n, dispatch c z p l n = handleString (c :: z) p l n :=
            fun z p l n => (quote_start (by simpa using hq) z p l n).1
          have herr2 := hok2.2
          rw [← hdel.1, e4] at herr2
          simp only [hd] at e3 herr2
          have := handleString_local (pre := []) (q := c) (Or.inl rfl) (by simpa using hq) (body := [])
            (rest := (next (next s).2).2.rest) (rest' := (next (next s).2).2.rest) herr2 e3 (fun h => h) 0 [] 0
          exact this.2.2.2 rfl
    obtain ⟨n1, n2, n3⟩ := step_cut hs hr hr' (by rw [ht]; exact ho1) (by rw [ht]; exact ho2) h1 hc
    obtain ⟨m1, m2, m3⟩ := ih n3 hdel (fun u hu => hok u (by simp [hu])) hend h1 n2
    exact ⟨⟨n1.trans ht, m1⟩, m2, m3⟩

/-- The text of words, each followed by a blank. -/
def spelled : List (TokenType × Str) → Str
  | [] => []
  | w :: ws => w.2 ++ ' ' :: spelled ws

theorem simple_lexes {w : TokenType × Str} (h : w ∈ simple) (rest : Str) : Lexes w.1 w.2 (' ' :: rest) := by
  simp only [simple, values, List.cons_append, List.nil_append, List.mem_cons, List.not_mem_nil, or_false] at h
  rcases h with rfl | rfl | rfl | rfl | rfl | rfl | rfl | rfl | rfl | rfl | rfl | rfl
  · refine lexes_number (d := isDigit) (.dec (by decide) ⟨by simp, by simp⟩) ?_
    intro c cs h; cases h; decide
  · refine lexes_identifier (by decide) (by decide) (by simp [keywords]) ?_ ?_ (by decide)
    · rintro ⟨c, cs, h1, h2⟩; cases h1; revert h2; decide
    · intro q h; cases h; decide
  · exact lexes_single (pre := []) (q := '"') (units := []) (by simp) (by simp) (by simp) (by simp) (by simp)
  · exact lexes_punct (by decide)
  · exact lexes_punct (by decide)
  · exact lexes_punct (by decide)
  · exact lexes_punct (by decide)
  · exact lexes_rel (by decide) (by simp)
  · exact lexes_keyword (by decide)
  · exact lexes_punct (by decide)
  · exact lexes_punct (by decide)
  · exact lexes_keyword (by decide)

theorem simple_not_eof {w : TokenType × Str} (h : w ∈ simple) : w.1 ≠ .eof := by
  simp only [simple, values, List.cons_append, List.nil_append, List.mem_cons, List.not_mem_nil, or_false] at h
  rcases h with rfl | rfl | rfl | rfl | rfl | rfl | rfl | rfl | rfl | rfl | rfl | rfl <;> simp

theorem words_scan (ws : List (TokenType × Str)) (hw : ∀ w ∈ ws, w ∈ simple) :
    ∀ {s : Scanner} {g : Str}, s.upcoming = none → Gap False g → s.rest = g ++ spelled ws →
      ∃ us e, (deliver (us.length + 1) s).1 = us ++ [e] ∧ e.type = .eof ∧ Spells ws us ∧
        ∀ u ∈ us, u.type ≠ .eof := by
  induction ws with
  | nil =>
    intro s g hup hg hr
    refine ⟨[], (next s).1, by simp [deliver], next_end hup ?_, by simp [Spells], by simp⟩
    rw [hr]
    simpa [spelled] using Gap.imp hg (fun h => h.elim)
  | cons w ws ih =>
    intro s g hup hg hr
    have hw1 := hw w (by simp)
    obtain ⟨c, cs, hwc, hsk, _, hd⟩ := simple_lexes hw1 (spelled ws)
    obtain ⟨n1, n2, n3, n4, _, _⟩ := next_of hup hg hsk (w := cs) (rest := ' ' :: spelled ws) (ty := w.1)
      (by rw [hr, spelled, hwc]; simp) (by rw [← hwc]; exact hd)
    obtain ⟨us, e, d1, d2, d3, d4⟩ := ih (fun v hv => hw v (by simp [hv])) (s := (next s).2) (g := [' ']) n4
      (.blank (by simp) .nil) n3
    refine ⟨(next s).1 :: us, e, ?_, d2, ?_, ?_⟩
    · rw [List.length_cons, deliver]; simp [d1]
    · simp only [Spells, List.map_cons, n1, n2]
      rw [← hwc, show us.map (fun t => (t.type, t.text)) = ws from d3]
    · intro u hu
      rcases List.mem_cons.1 hu with rfl | hu
      · rw [n1]; exact simple_not_eof hw1
      · exact d4 u hu

theorem gap_close {p : Prop} {a : Str} (h : Gap p a) : Gap False (a ++ c!"#\n") := by
  induction h with
  | nil => exact .comment (body := []) (by simp) .nil
  | blank h _ ih => exact .blank h ih
  | @comment body s h _ ih =>
    have := Gap.comment h ih
    simpa using this
  | @lastComment body _ h =>
    have := Gap.comment (body := body ++ ['#']) (atEof := False) (s := []) (by simpa using h) .nil
    simpa using this

/-- The tokens before a place and then other words. -/
theorem cut_tokens {content : Str} {pre : List Token} {a b : Str} (hdel : (deliver pre.length (Scanner.init content)).1 = pre)
    (hok : ∀ t ∈ pre, t.type ≠ .eof ∧ t.type ≠ .error) {p : Prop} (ha : Gap p a)
    (hrest : (deliver pre.length (Scanner.init content)).2.rest = a ++ b) {X : Str} (hX : content = X ++ b)
    (ws : List (TokenType × Str)) (hw : ∀ w ∈ ws, w ∈ simple) :
    ∃ us, TokensOf (X ++ (c!"#\n" ++ spelled ws)) (pre ++ us) ∧ Spells ws us := by
  obtain ⟨m1, m2, m3⟩ := cut_scan (a := a) (b := b) (y := '\n' :: spelled ws) (fun c hc => gap_head ha hc) pre
    (s := Scanner.init content) (s' := Scanner.init (X ++ (c!"#\n" ++ spelled ws))) (X := X)
    ⟨rfl, rfl, rfl, rfl, rfl⟩ hdel hok hrest hX rfl
  obtain ⟨us, e, d1, d2, d3, d4⟩ := words_scan ws hw (s := (deliver pre.length (Scanner.init (X ++ (c!"#\n" ++ spelled ws)))).2)
    m3 (gap_close ha) (by rw [m2]; simp)
  refine ⟨us, ⟨e, ?_, d2, ?_⟩, d3⟩
  · have := deliver_add pre.length (us.length + 1) (Scanner.init (X ++ (c!"#\n" ++ spelled ws)))
    rw [List.length_append, Nat.add_assoc, this, m1, d1]
    simp
  · intro t ht
    rcases List.mem_append.1 ht with ht | ht
    · exact (hok t ht).1
    · exact d4 t ht

end ScanCut
end Bant
