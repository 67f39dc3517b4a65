import Verif.Lemmas.Layout

/-! Lemmas about texts with other layout: the tokens. -/
namespace Bant
namespace Layout
open Scanner Relex Parser LayoutSpec

theorem skipSpace_comment {body : Str} (h : '\n' ∉ body) (rest : Str) (pos : Nat) (lines : LineMap) (nl : Nat) :
    skipSpace true (body ++ '\n' :: rest) pos lines nl =
      skipSpace false rest (pos + body.length + 1) (lines ++ [pos + body.length + 1]) (nl + 1) := by
  induction body generalizing pos with
  | nil => simp [skipSpace]
  | cons c cs ih =>
    simp only [List.mem_cons, not_or] at h
    rw [List.cons_append, skipSpace]
    simp only [Bool.or_true, if_true]
    rw [if_neg (Ne.symm h.1), ih h.2]
    simp only [ite_self, List.length_cons]
    rw [show pos + 1 + cs.length = pos + (cs.length + 1) by omega]

theorem skipSpace_lastComment {body : Str} (h : '\n' ∉ body) (b : Bool) (hb : b = true ∨ ∃ c cs, body = c :: cs ∧ c = '#')
    (pos : Nat) (lines : LineMap) (nl : Nat) :
    (skipSpace b body pos lines nl).rest = [] := by
  induction body generalizing b pos with
  | nil => simp [skipSpace]
  | cons c cs ih =>
    simp only [List.mem_cons, not_or] at h
    rw [skipSpace]
    have : (isSpace c || c == '\\' || c == '#' || b) = true := by
      rcases hb with rfl | ⟨d, ds, e, rfl⟩
      · simp
      · cases e; rfl
    rw [if_pos this, if_neg (Ne.symm h.1)]
    split
    · exact ih h.2 _ (Or.inl rfl) _
    · rename_i hc
      rcases hb with rfl | ⟨d, ds, e, rfl⟩
      · exact ih h.2 _ (Or.inl rfl) _
      · cases e; exact absurd rfl hc

theorem blank_skipped {c : Char} (h : c ∈ [' ', '\t', '\n', '\x0b', '\x0c', '\r', '\\']) :
    skipped c = true ∧ c ≠ '#' := by
  simp only [List.mem_cons, List.not_mem_nil, or_false] at h
  rcases h with rfl | rfl | rfl | rfl | rfl | rfl | rfl <;> decide

theorem skipSpace_blank {c : Char} (h : c ∈ [' ', '\t', '\n', '\x0b', '\x0c', '\r', '\\']) (rest : Str) (pos : Nat)
    (lines : LineMap) (nl : Nat) : ∃ lines', skipSpace false (c :: rest) pos lines nl =
      skipSpace false rest (pos + 1) lines' (nl + (if c = '\n' then 1 else 0)) := by
  obtain ⟨h1, h2⟩ := blank_skipped h
  rw [skipSpace, if_pos (by simpa [skipped] using h1), if_neg h2]
  split
  · exact ⟨_, rfl⟩
  · exact ⟨lines, rfl⟩

/-- White space and comments are skipped up to the next token. -/
theorem skipSpace_gap {g : Str} (hg : Gap False g) {c : Char} (hc : skipped c = false) (cs : Str) (pos : Nat)
    (lines : LineMap) (nl : Nat) : ∃ lines', skipSpace false (g ++ c :: cs) pos lines nl =
      ⟨c :: cs, pos + g.length, lines', nl + g.count '\n'⟩ := by
  induction hg generalizing pos lines nl with
  | nil =>
    refine ⟨lines, ?_⟩
    rw [List.nil_append, skipSpace, if_neg (by simpa [skipped] using hc)]
    rfl
  | @blank d s hd _ ih =>
    obtain ⟨l1, h1⟩ := skipSpace_blank hd (s ++ c :: cs) pos lines nl
    obtain ⟨l2, h2⟩ := ih (pos + 1) l1 (nl + (if d = '\n' then 1 else 0))
    refine ⟨l2, ?_⟩
    rw [List.cons_append, h1, h2, List.count_cons, List.length_cons]
    congr 1
    · omega
    · simp only [beq_iff_eq]; omega
  | @comment body s hb _ ih =>
    obtain ⟨l2, h2⟩ := ih (pos + 1 + body.length + 1) (lines ++ [pos + 1 + body.length + 1]) (nl + 1)
    refine ⟨l2, ?_⟩
    rw [List.cons_append, skipSpace, if_pos (by rfl), if_pos rfl, List.append_assoc, List.cons_append,
      skipSpace_comment hb, h2]
    congr 1
    · simp; omega
    · simp [List.count_append, List.count_eq_zero.2 hb]; omega
  | lastComment h _ => exact h.elim

theorem skipSpace_end {g : Str} (hg : Gap True g) (pos : Nat) (lines : LineMap) (nl : Nat) :
    (skipSpace false g pos lines nl).rest = [] := by
  induction hg generalizing pos lines nl with
  | nil => simp [skipSpace]
  | @blank d s hd _ ih =>
    obtain ⟨l1, h1⟩ := skipSpace_blank hd s pos lines nl
    rw [h1]
    exact ih _ _ _
  | @comment body s hb _ ih =>
    rw [skipSpace, if_pos (by rfl), if_pos rfl, skipSpace_comment hb]
    exact ih _ _ _
  | @lastComment body _ hb =>
    exact skipSpace_lastComment (by simpa using hb) _ (Or.inr ⟨_, _, rfl, rfl⟩) _ _ _

theorem gap_head {p : Prop} {g : Str} (hg : Gap p g) {c : Char} (h : g.head? = some c) : skipped c = true := by
  cases hg with
  | nil => cases h
  | blank hd _ =>
    obtain rfl := Option.some.inj h
    exact (blank_skipped hd).1
  | comment _ _ => obtain rfl := Option.some.inj h; rfl
  | lastComment _ _ => obtain rfl := Option.some.inj h; rfl

theorem dispatch_bracket {c : Char} {cs : Str} {pos : Nat} {lines : LineMap} {nl : Nat}
    (h : (dispatch c cs pos lines nl).type = .op '[') : (dispatch c cs pos lines nl).nl = nl := by
  have hs : ∀ x p l n, (handleString x p l n).type ≠ .op '[' := by
    intro x p l n
    unfold handleString
    simp only
    split
    · simp
    · split <;> split <;> simp
  unfold dispatch at h ⊢
  split
  · rfl
  · rw [if_neg (by assumption)] at h
    split
    · rfl
    · rw [if_neg (by assumption)] at h
      split
      · rfl
      · rw [if_neg (by assumption)] at h
        split
        · rfl
        · rw [if_neg (by assumption)] at h
          split
          · rw [if_pos (by assumption)] at h
            exact absurd h (hs _ _ _ _)
          · rw [if_neg (by assumption)] at h
            unfold handleWord at h ⊢
            split
            · rw [if_pos (by assumption)] at h
              exact absurd h (hs _ _ _ _)
            · simp only
              split
              · rfl
              · split
                · split <;> rfl
                · rfl

/-- The next token. -/
theorem next_shape {s s1 : Scanner} {t : Token} (hup : s.upcoming = none) (hn : next s = (t, s1)) (he : t.type ≠ .eof) :
    ∃ g c w pos lines, s.rest = g ++ (c :: (w ++ s1.rest)) ∧ t.start = s.pos + g.length ∧ t.text = c :: w ∧
      skipped c = false ∧ s1.upcoming = none ∧ s1.lastTokenNewlineCount = s1.newlineCount ∧
      s1.pos = t.start + t.text.length ∧
      t.type = (dispatch c (w ++ s1.rest) pos lines (s.newlineCount + g.count '\n')).type ∧
      t.text = (dispatch c (w ++ s1.rest) pos lines (s.newlineCount + g.count '\n')).text ∧
      (t.type = .op '[' →
        t.newlineSinceLast = (s.lastTokenNewlineCount != s.newlineCount + g.count '\n')) := by
  obtain ⟨g, hg⟩ := skipSpace_ok false s.rest s.pos s.lines s.newlineCount
  rw [next_eq hup] at hn
  unfold nextRaw at hn
  simp only at hn
  generalize skipSpace false s.rest s.pos s.lines s.newlineCount = k at hg hn
  obtain ⟨krest, kpos, klines, knl⟩ := k
  obtain ⟨htext, hpos, hlines, hnl, hgap, hstop⟩ := hg
  simp only at htext hpos hlines hnl hgap hstop hn
  cases krest with
  | nil =>
    simp only [Prod.mk.injEq] at hn
    rw [← hn.1] at he
    exact absurd rfl he
  | cons c cs =>
    simp only [Prod.mk.injEq] at hn
    obtain ⟨rfl, rfl⟩ := hn
    obtain ⟨h1, h2, h3⟩ := hstop c cs rfl
    have hc : c ≠ '\n' := by rintro rfl; revert h1; decide
    obtain ⟨⟨rest', hr⟩, hne, -, -⟩ := dispatch_ok c cs kpos klines knl hc
    obtain ⟨c', w, hw⟩ := List.exists_cons_of_ne_nil hne
    have hcs : c' = c ∧ cs = w ++ rest' := by
      rw [hw] at hr
      simp only [List.cons_append, List.cons.injEq] at hr
      exact ⟨hr.1, hr.2.symm⟩
    obtain ⟨rfl, rfl⟩ := hcs
    have hd : (c' :: (w ++ rest')).drop (dispatch c' (w ++ rest') kpos klines knl).text.length = rest' := by
      rw [hw, ← List.cons_append, List.drop_left]
    simp only [hd]
    refine ⟨g, c', w, kpos, klines, htext, hpos, hw, by simp [skipped, h1, h2, h3], hup, trivial, trivial, ?_, ?_, ?_⟩
    · rw [hnl]
    · rw [← hnl]
    · intro h
      rw [dispatch_bracket h, hnl]

/-- The next token, if it is known what is there. -/
theorem next_of {s : Scanner} (hup : s.upcoming = none) {g : Str} (hg : Gap False g) {c : Char}
    (hc : skipped c = false) {w rest : Str} (hrest : s.rest = g ++ (c :: (w ++ rest))) {ty : TokenType}
    (hd : ∀ pos lines nl, (dispatch c (w ++ rest) pos lines nl).type = ty ∧
      (dispatch c (w ++ rest) pos lines nl).text = c :: w) :
    (next s).1.type = ty ∧ (next s).1.text = c :: w ∧ (next s).2.rest = rest ∧ (next s).2.upcoming = none ∧
      (next s).2.lastTokenNewlineCount = (next s).2.newlineCount ∧
      (ty = .op '[' →
        (next s).1.newlineSinceLast = (s.lastTokenNewlineCount != s.newlineCount + g.count '\n')) := by
  rw [next_eq hup]
  unfold nextRaw
  obtain ⟨l', hl⟩ := skipSpace_gap hg hc (w ++ rest) s.pos s.lines s.newlineCount
  simp only [hrest, hl]
  obtain ⟨h1, h2⟩ := hd (s.pos + g.length) l' (s.newlineCount + g.count '\n')
  refine ⟨h1, h2, ?_, hup, trivial, fun h => ?_⟩
  · rw [h2, ← List.cons_append, List.drop_left]
  · rw [dispatch_bracket (h1.trans h)]

theorem next_end {s : Scanner} (hup : s.upcoming = none) (hg : Gap True s.rest) : (next s).1.type = .eof := by
  rw [next_eq hup]
  unfold nextRaw
  simp only [skipSpace_end hg]

theorem not_in {x : Str} (h : ∀ ws r, x = ws ++ c!"in" ++ r → ∃ c ∈ ws, isSpace c = false) :
    consumeOptionalIn x = none := by
  cases hc : consumeOptionalIn x with
  | none => rfl
  | some t =>
    obtain ⟨ws, r, _, h1, h2⟩ := consumeOptionalIn_some hc
    obtain ⟨c, hc, hn⟩ := h ws r h1
    rw [h2 c hc] at hn
    cases hn

theorem bne_of_iff {a b : Nat} {g g' : Str} {n n' : Nat} (h : '\n' ∈ g ↔ '\n' ∈ g') (ha : a = n) (hb : b = n') :
    (b != n' + g'.count '\n') = (a != n + g.count '\n') := by
  subst ha hb
  have key : ∀ (k : Nat) (x : Str), (k != k + x.count '\n') = decide ('\n' ∈ x) := by
    intro k x
    by_cases hx : '\n' ∈ x
    · have := List.count_pos_iff.2 hx
      simp [hx]; omega
    · simp [List.count_eq_zero.2 hx, hx]
  rw [key, key]
  simp [h]

theorem relaid_scan {p : Nat} {ts : List Token} {c c' : Str} (h : Relaid NotThenIn p ts c c') :
    ∀ {s s' : Scanner} {e : Token}, s.rest = c → s.pos = p → s.upcoming = none →
      s.lastTokenNewlineCount = s.newlineCount → s'.rest = c' → s'.upcoming = none →
      s'.lastTokenNewlineCount = s'.newlineCount →
      (deliver (ts.length + 1) s).1 = ts ++ [e] → (∀ t ∈ ts, t.type ≠ .eof) → (∀ t ∈ ts, t.type ≠ .error) →
      ∃ ts' e', (deliver (ts'.length + 1) s').1 = ts' ++ [e'] ∧ e'.type = .eof ∧ SameTokens ts ts' := by
  induction h with
  | done hg hg' =>
    intro s s' e _ _ _ _ hr' hup' _ _ _ _
    exact ⟨[], (next s').1, by simp [deliver], next_end hup' (by rw [hr']; exact hg'), SameTokens.nil⟩
  | @token p t ts g g' rest rest' hg hg' hst htouch hbr hnot hrel ih =>
    intro s s' e hr hp hup hl hr' hup' hl' hdel hne herr
    rw [List.length_cons, deliver] at hdel
    simp only [List.cons_append, List.cons.injEq] at hdel
    obtain ⟨ht, hdel⟩ := hdel
    obtain ⟨g0, x, w, pos, lines, e1, e2, e3, e4, e5, e6, e7, e8, e9, e10⟩ :=
      next_shape (s := s) (s1 := (next s).2) (t := t) hup (by rw [← ht]) (hne t (by simp))
    have hgg : g0 = g ∧ (next s).2.rest = rest := by
      rw [hr, e3] at e1
      have hlen : g0.length = g.length := by omega
      simp only [List.append_assoc, List.cons_append] at e1
      obtain ⟨a, b⟩ := List.append_inj e1 hlen.symm
      simp only [List.cons.injEq, List.append_cancel_left_eq, true_and] at b
      exact ⟨a.symm, b.symm⟩
    obtain ⟨rfl, hrest⟩ := hgg
    rw [hrest] at e1 e8 e9
    have hcompat : Compat rest rest' := by
      cases hrel with
      | done _ hgd => exact Or.inl fun y hy => gap_head hgd hy
      | @token _ t2 ts2 g2 g2' r2 r2' hg2 hg2' hst2 htouch2 _ _ _ =>
        by_cases hg0 : g2' = []
        · have hg1 := htouch2 hg0
          subst hg0 hg1
          rw [List.length_cons, deliver] at hdel
          simp only [List.cons_append, List.cons.injEq] at hdel
          obtain ⟨ht2, _⟩ := hdel
          obtain ⟨g3, y, v, pos2, lines2, f1, f2, f3, _, _, _, _, f8, f9, _⟩ :=
            next_shape (s := (next s).2) (s1 := (next (next s).2).2) (t := t2) e5 (by rw [← ht2])
              (hne t2 (by simp))
          refine Or.inr ⟨y, v, r2, r2', by rw [f3]; rfl, by rw [f3]; rfl, ?_⟩
          rintro hq rfl
          have herr2 := herr t2 (by simp)
          have hd : ∀ z p l n, dispatch y z p l n = handleString (y :: z) p l n :=
            fun z p l n => (quote_start (by simpa using hq) z p l n).1
          rw [hd] at f8 f9
          have := handleString_local (pre := []) (q := y) (Or.inl rfl) (by simpa using hq) (body := [])
            (rest := (next (next s).2).2.rest) (rest' := (next (next s).2).2.rest) (pos := pos2) (lines := lines2)
            (nl := (next s).2.newlineCount + g3.count '\n') (by rw [f8] at herr2; exact herr2)
            (by rw [f3] at f9; exact f9.symm) (fun h => h) 0 [] 0
          exact this.2.2.2 rfl
        · obtain ⟨y, ys, rfl⟩ := List.exists_cons_of_ne_nil hg0
          exact Or.inl fun z hz => gap_head hg2' (by simpa using hz)
    have hloc := dispatch_local (c := x) (w := w) (rest := rest) (rest' := rest') (pos := pos) (lines := lines)
      (nl := s.newlineCount + g0.count '\n') (by rw [← e8]; exact herr t (by simp)) (by rw [← e9, e3]) hcompat
      (fun h => not_in (hnot (e3.trans h)))
    obtain ⟨n1, n2, n3, n4, n5, n6⟩ := next_of (s := s') hup' hg' e4 (w := w) (rest := rest')
      (by rw [hr', e3]; simp) (ty := t.type) (by rw [e8]; exact hloc)
    obtain ⟨ts', e', d1, d2, d3⟩ := ih (s := (next s).2) (s' := (next s').2) (e := e) hrest e7 e5 e6 n3 n4 n5 hdel
      (fun u hu => hne u (by simp [hu])) (fun u hu => herr u (by simp [hu]))
    refine ⟨(next s').1 :: ts', e', ?_, d2, SameTokens.cons ⟨n1, by rw [n2, e3], ?_⟩ d3⟩
    · rw [List.length_cons, deliver]
      simp only [d1, List.cons_append]
    · intro h
      rw [n6 h, e10 h]
      exact bne_of_iff (hbr h) hl hl'

theorem sameTokens_types {ts ts' : List Token} (h : SameTokens ts ts') {ty : TokenType}
    (hne : ∀ t ∈ ts, t.type ≠ ty) : ∀ t ∈ ts', t.type ≠ ty := by
  induction h with
  | nil => simp
  | @cons t t' _ _ h1 _ ih =>
    simp only [List.mem_cons, forall_eq_or_imp] at hne ⊢
    exact ⟨by rw [h1.type]; exact hne.1, ih hne.2⟩

/-- Layout does not change the tokens. -/
theorem relaid_tokens {ts : List Token} {c c' : Str} (h : Relaid NotThenIn 0 ts c c') (hts : TokensOf c ts)
    (herr : ∀ t ∈ ts, t.type ≠ .error) : ∃ ts', TokensOf c' ts' ∧ SameTokens ts ts' := by
  obtain ⟨e, h1, h2, h3⟩ := hts
  obtain ⟨ts', e', d1, d2, d3⟩ := relaid_scan h (s := Scanner.init c) (s' := Scanner.init c') rfl rfl rfl rfl rfl rfl
    rfl h1 h3 herr
  exact ⟨ts', ⟨e', d1, d2, sameTokens_types d3 h3⟩, d3⟩

end Layout
end Bant
