import Verif.Lemmas.Broken
import Verif.Lemmas.FirstCut
import Verif.Lemmas.LayoutParse

/-! Helper lemmas: the tokens of two texts, one after the other. -/
namespace Bant
namespace ScanJoin
open Parser Scanner Grammar Layout LayoutSpec ScanCut Relex Project

/-! ### A file does not end with `not` -/

/-- The last token is no `not`. -/
def Ends (s s' : List Token) : Prop := ∃ p t, s = p ++ t :: s' ∧ t.type ≠ .op '!'

theorem suf {nt : NT} {s s' : List Token} {n : Node} (h : Parses nt s s' n) (hp : nt ≠ .program := by simp) :
    ∃ p, s = p ++ s' := by
  obtain ⟨p, h1, _⟩ := replace h hp
  exact ⟨p, h1⟩

theorem Ends.after {s s1 s2 : List Token} (h : Ends s1 s2) (hs : ∃ p, s = p ++ s1) : Ends s s2 := by
  obtain ⟨p, t, rfl, h2⟩ := h
  obtain ⟨q, rfl⟩ := hs
  exact ⟨q ++ p, t, by simp, h2⟩

theorem Ends.tok {s s1 : List Token} {t : Token} {ty : TokenType} (hs : ∃ p, s = p ++ t :: s1) (ht : t.type = ty)
    (hty : ty ≠ .op '!') : Ends s s1 := by
  obtain ⟨p, rfl⟩ := hs
  exact ⟨p, t, rfl, by rw [ht]; exact hty⟩

theorem Ends.cons {s s' : List Token} (h : Ends s s') (t : Token) : Ends (t :: s) s' := h.after ⟨[t], rfl⟩

theorem Ends.orSame {s s1 s2 : List Token} (h : Ends s s1) (h2 : s1 = s2 ∨ Ends s1 s2) : Ends s s2 := by
  rcases h2 with rfl | h2
  · exact h
  · obtain ⟨p, t, rfl, _⟩ := h
    exact h2.after ⟨p ++ [t], by simp⟩

/-- What is known by kind of phrase. -/
def EndOk : NT → List Token → List Token → Prop
  | .expr opt, s, s' => opt = false → Ends s s'
  | .cont _, s, s' => s = s' ∨ Ends s s'
  | .item .variable, s, s' => s = s' ∨ Ends s s'
  | .items _ _ c, s, s' => c ≠ .op '!' → Ends s s'
  | .clauses c _, s, s' => c ≠ .op '!' → Ends s s'
  | .moreClauses c _, s, s' => c ≠ .op '!' → Ends s s'
  | .program, s, s' => s = s' ∨ Ends s s'
  | _, s, s' => Ends s s'

theorem one (t : Token) (s : List Token) : ∃ p, t :: s = p ++ t :: s := ⟨[], rfl⟩
theorem two (t u : Token) (s : List Token) : ∃ p, t :: u :: s = p ++ u :: s := ⟨[t], rfl⟩

theorem end_ok {nt : NT} {s s' : List Token} {n : Node} (h : Parses nt s s' n) : EndOk nt s s' := by
  have hcl : ∀ ty, closing ty ≠ .op '!' := by intro ty; cases ty <;> simp [closing]
  induction h with
  | missing h => intro h; cases h
  | unary h _ _ ih1 ih2 => exact fun ho => (Ends.cons (ih1 ho) _).orSame ih2
  | parenthesis h _ _ ih1 ih2 => exact fun _ => (Ends.cons ih1 _).orSame ih2
  | operand _ _ ih1 ih2 => exact fun _ => Ends.orSame ih1 ih2
  | stop => exact .inl rfl
  | ifOnly _ _ _ ih => exact .inr (Ends.cons (ih rfl) _)
  | ifElse _ h1 _ _ _ ih2 =>
    refine .inr (Ends.cons (Ends.after (Ends.cons (ih2 rfl) _) (suf h1)) _)
  | binary h _ ih => exact .inr (Ends.cons (ih rfl) _)
  | indexed _ _ _ _ ih1 ih2 => exact .inr ((Ends.cons ih1 _).orSame ih2)
  | at_ h _ ht _ => exact Ends.tok (suf h) ht (by simp)
  | slice h1 _ h2 ht _ _ _ =>
    obtain ⟨p, rfl⟩ := suf h1
    exact Ends.after (Ends.cons (Ends.tok (suf h2) ht (by simp)) _) ⟨p, rfl⟩
  | string h _ => exact Ends.tok (one _ _) h (by simp)
  | number h _ => exact Ends.tok (one _ _) h (by simp)
  | name h _ => exact Ends.tok (one _ _) h (by simp)
  | call _ _ _ ih => exact ((ih (by simp)).cons _).cons _
  | list _ _ ih => exact Ends.cons ih _
  | map _ _ ih => exact Ends.cons ih _
  | grouped h _ ht _ => exact Ends.tok (suf h) ht (by simp)
  | emptyTuple h ht _ => exact Ends.tok (suf h) ht (by simp)
  | tuple h _ _ _ _ ih2 => exact Ends.after ih2 (suf h)
  | tupleEnd h => exact Ends.tok (one _ _) h (by simp)
  | tupleComma _ h => exact Ends.tok (two _ _ _) h (by simp)
  | tupleNext _ _ h _ _ ih2 => exact Ends.cons (Ends.after ih2 (suf h)) _
  | emptyBracket h => exact Ends.tok (one _ _) h (hcl _)
  | comprehension _ h _ _ _ _ ih2 => exact Ends.after (ih2 (hcl _)) (suf h)
  | bracketOne _ h _ ht _ => exact Ends.tok (suf h) ht (hcl _)
  | bracketMore _ h _ _ _ _ ih2 => exact Ends.after (Ends.cons (ih2 (hcl _)) _) (suf h)
  | itemsEnd h => exact fun hc => Ends.tok (one _ _) h hc
  | itemsLast _ h ht _ => exact fun hc => Ends.tok (suf h) ht hc
  | itemsMore _ h _ _ _ ih2 => exact fun hc => Ends.after (Ends.cons (ih2 hc) _) (suf h)
  | itemValue _ ih => exact ih rfl
  | itemArgument _ _ _ ih => exact ih rfl
  | itemKeyword h _ _ _ ih2 => exact Ends.after (Ends.cons (ih2 rfl) _) (suf h)
  | itemEntry h _ _ _ ih2 => exact Ends.after (Ends.cons (ih2 rfl) _) (suf h)
  | itemVariable h => exact .inr (Ends.tok (one _ _) h (by simp))
  | itemNothing => exact .inl rfl
  | forTuple _ _ h _ h2 _ _ _ ih3 =>
    exact fun hc => Ends.cons (Ends.cons (Ends.after (Ends.cons (Ends.after (ih3 hc) (suf h2)) _) (suf h)) _) _
  | forList _ _ h h2 _ _ _ ih3 => exact fun hc => Ends.cons (Ends.after (Ends.after (ih3 hc) (suf h2)) (suf h)) _
  | nextClause _ _ ih => exact ih
  | lastClause h _ => exact fun hc => Ends.tok (one _ _) h hc
  | endOfFile => exact .inl rfl
  | docString h _ ih => exact .inr (Ends.orSame (Ends.tok (one _ _) h (by simp)) ih)
  | listStatement _ _ _ ih1 ih2 => exact .inr (Ends.orSame (Ends.cons ih1 _) ih2)
  | tupleAssign _ h _ _ _ _ ih2 ih3 =>
    exact .inr (Ends.orSame (Ends.cons (Ends.after (Ends.cons (ih2 rfl) _) (suf h)) _) ih3)
  | assign _ _ _ _ ih1 ih2 => exact .inr (Ends.orSame (Ends.cons (Ends.cons (ih1 rfl) _) _) ih2)
  | rule _ _ _ _ ih1 ih2 => exact .inr (Ends.orSame (Ends.cons (Ends.cons (ih1 (by simp)) _) _) ih2)
  | method _ _ _ _ ih1 ih2 => exact .inr (Ends.orSame (Ends.cons (Ends.cons (ih1 rfl) _) _) ih2)

/-! ### The first text -/

theorem no_in_join {X b z : Str} (hX : ∃ d ∈ X, isSpace d = false) (hz : ∀ c, z.head? = some c → skipped c = true)
    (h : consumeOptionalIn (X ++ b) = none) : consumeOptionalIn (X ++ z) = none := by
  cases hc : consumeOptionalIn (X ++ z) with
  | none => rfl
  | some t =>
    exfalso
    obtain ⟨ws, r, _, h1, h2⟩ := consumeOptionalIn_some hc
    have hpre : ∃ y, X = ws ++ c!"in" ++ y := by
      rcases List.append_eq_append_iff.1 h1 with ⟨y, e1, e2⟩ | ⟨y, e1, e2⟩
      · cases y with
        | nil => exact ⟨[], by simpa using e1.symm⟩
        | cons d y =>
          have hd := hz d (by simp [e2])
          obtain ⟨x, hx, hs⟩ := hX
          rcases List.append_eq_append_iff.1 e1 with ⟨v, f1, f2⟩ | ⟨v, f1, f2⟩
          · cases v with
            | nil => 
              
              exact absurd (h2 x (by simpa [f1] using hx)) (by simp [hs])
            | cons u v =>
              simp only [List.cons_append, List.cons.injEq] at f2
              obtain ⟨rfl, f2⟩ := f2
              cases v with
              | nil =>
                simp only [List.nil_append, List.cons.injEq] at f2
                rw [← f2.1] at hd
                exact absurd hd (by decide)
              | cons u v => simp at f2
          · exact absurd (h2 x (by rw [f1]; simp [hx])) (by simp [hs])
      · exact ⟨y, e1⟩
    obtain ⟨y, rfl⟩ := hpre
    have htw : (ws ++ c!"in" ++ y ++ b).takeWhile isSpace = ws := by
      rw [List.append_assoc, List.append_assoc, List.takeWhile_append_of_pos h2]
      have : isSpace 'i' = false := by decide
      simp [this]
    simp only [consumeOptionalIn, htw] at h
    simp at h

/-- One token of the first text. -/
theorem step_join {s s' : Scanner} (hs : ScanCut.Sim s s') {X X1 b z : Str} (hr : s.rest = X ++ b)
    (hr' : s'.rest = X ++ z) (he : (next s).1.type ≠ .eof) (herr : (next s).1.type ≠ .error)
    (h1 : (next s).2.rest = X1 ++ b) (hc : Compat (X1 ++ b) (X1 ++ z))
    (hin : (next s).1.text = c!"not" → consumeOptionalIn (X1 ++ b) = none → consumeOptionalIn (X1 ++ z) = none) :
    (next s').1 = (next s).1 ∧ (next s').2.rest = X1 ++ z ∧ ScanCut.Sim (next s).2 (next s').2 := by
  obtain ⟨g, c, w, lines, hg, e1, e2, e3, e4, e5, e6, e7, e8⟩ := next_full hs.up he
  rw [h1] at e1 e3 e4 e5
  have hX : X = g ++ c :: (w ++ X1) := by
    have : X ++ b = (g ++ c :: (w ++ X1)) ++ b := by rw [← hr, e1]; simp
    exact List.append_cancel_right this
  have hty : (dispatch c (w ++ (X1 ++ b)) (s.pos + g.length) lines (s.newlineCount + g.count '\n')).type ≠ .error := by
    intro h; rw [e4] at herr; exact herr h
  have hloc := dispatch_local hty e3 hc (fun h => hin (by rw [e4]; exact h) (not_alone e3 h))
  have hcn : c ≠ '\n' := by rintro rfl; revert e2; decide
  obtain ⟨l', hl⟩ := skipSpace_gap hg e2 (w ++ (X1 ++ z)) s'.pos s'.lines s'.newlineCount
  have hrest : s'.rest = g ++ c :: (w ++ (X1 ++ z)) := by rw [hr', hX]; simp
  rw [hs.pos, hs.nl] at hl
  obtain ⟨k1, k2⟩ := hloc (s.pos + g.length) l' (s.newlineCount + g.count '\n')
  have k3 := dispatch_nl hcn k1 (k2.trans e3.symm)
  rw [next_eq hs.up']
  unfold nextRaw
  simp only [hrest, hs.pos, hs.nl, hl, k1, k2, k3, hs.last]
  refine ⟨e4.symm, by rw [← List.cons_append, List.drop_left], ?_⟩
  exact ⟨e8.symm, e5.symm, by rw [e6, e5], e7, hs.up'⟩

/-- The tokens of the first text stay. -/
theorem join_scan {a b z : Str} (ha : ∀ c, a.head? = some c → skipped c = true)
    (hz : ∀ c, z.head? = some c → skipped c = true) (pre : List Token) :
    ∀ {s s' : Scanner} {X : Str}, ScanCut.Sim s s' → (deliver pre.length s).1 = pre →
      (∀ t ∈ pre, t.type ≠ .eof ∧ t.type ≠ .error) → (∀ p t, pre = p ++ [t] → t.text ≠ c!"not") →
      (deliver pre.length s).2.rest = a ++ b →
      s.rest = X ++ b → s'.rest = X ++ z →
      (deliver pre.length s').1 = pre ∧ (deliver pre.length s').2.rest = a ++ z ∧
        (deliver pre.length s').2.upcoming = none := by
  induction pre with
  | nil =>
    intro s s' X hs _ _ _ hend hr hr'
    simp only [List.length_nil, deliver] at hend ⊢
    have : X = a := List.append_cancel_right (hr.symm.trans hend)
    exact ⟨trivial, by rw [hr', this], hs.up'⟩
  | cons t pre ih =>
    intro s s' X hs hdel hok hlast hend hr hr'
    simp only [List.length_cons, deliver, List.cons.injEq] at hdel hend ⊢
    obtain ⟨ht, hdel⟩ := hdel
    obtain ⟨ho1, ho2⟩ := hok t (by simp)
    obtain ⟨x, hx, _, _⟩ := deliver_rest pre.length (next s).2 (next_ok hs.up).2
    rw [hend] at hx
    have h1 : (next s).2.rest = (x ++ a) ++ b := by rw [hx]; simp
    have hc : Compat ((x ++ a) ++ b) ((x ++ a) ++ z) ∧
        ((next s).1.text = c!"not" → consumeOptionalIn ((x ++ a) ++ b) = none → consumeOptionalIn ((x ++ a) ++ z) = none) := by
      rw [← h1]
      cases pre with
      | nil =>
        simp only [List.length_nil, deliver] at hend
        have hxa : x ++ a = a := List.append_cancel_right (h1.symm.trans hend)
        refine ⟨?_, fun h => absurd (by rw [← ht]; exact h) (hlast [] t rfl)⟩
        left
        intro d hd
        rw [hxa] at hd
        cases a with
        | nil => exact hz d (by simpa using hd)
        | cons d' a => exact ha d (by simpa using hd)
      | cons t2 pre =>
        simp only [List.length_cons, deliver, List.cons.injEq] at hdel hend
        have hok2 := hok t2 (by simp)
        obtain ⟨g, c, w, lines, hg, e1, e2, e3, e4, _, _, e7, _⟩ := next_full (next_ok hs.up).2 (by rw [hdel.1]; exact hok2.1)
        obtain ⟨x2, hx2, _, _⟩ := deliver_rest pre.length (next (next s).2).2 e7
        rw [hend] at hx2
        have hxa : x ++ a = g ++ c :: (w ++ (x2 ++ a)) := by
          refine List.append_cancel_right (bs := b) ?_
          rw [← h1, e1, hx2]; simp
        refine ⟨?_, fun _ h => ?_⟩
        · cases g with
          | cons d g =>
            left
            intro d' hd
            rw [hxa] at hd
            exact gap_head hg (by simpa using hd)
          | nil =>
            right
            refine ⟨c, w, (next (next s).2).2.rest, x2 ++ (a ++ z), by rw [e1]; rfl, by rw [hxa]; simp, ?_⟩
            rintro hq rfl
            have hd : ∀ z p l n, dispatch c z p l n = handleString (c :: z) p l n :=
              fun z p l n => (quote_start (by simpa using hq) z p l n).1
            have herr2 := hok2.2
            rw [← hdel.1, e4] at herr2
            simp only [hd] at e3 herr2
            have := handleString_local (pre := []) (q := c) (Or.inl rfl) (by simpa using hq) (body := [])
              (rest := (next (next s).2).2.rest) (rest' := (next (next s).2).2.rest) herr2 e3 (fun h => h) 0 [] 0
            exact this.2.2.2 rfl
        · refine no_in_join ⟨c, by rw [hxa]; simp, ?_⟩ hz (by rw [h1] at h; exact h)
          simp only [skipped, Bool.or_eq_false_iff] at e2
          exact e2.1.1
    obtain ⟨n1, n2, n3⟩ := step_join hs hr hr' (by rw [ht]; exact ho1) (by rw [ht]; exact ho2) h1 hc.1 hc.2
    obtain ⟨m1, m2, m3⟩ := ih n3 hdel (fun u hu => hok u (by simp [hu]))
      (fun p u hp => hlast (t :: p) u (by simp [hp])) hend h1 n2
    exact ⟨⟨n1.trans ht, m1⟩, m2, m3⟩

/-! ### The second text -/

theorem loop_any (q : Char) (tr : Bool) : ∀ (x : Str) (p p' : Nat) (l l' : LineMap) (n n' k : Nat) (b : Bool),
    (stringLoop q tr x p l n k b).1 = (stringLoop q tr x p' l' n' k b).1 ∧
    (stringLoop q tr x p l n k b).2.2.2 = (stringLoop q tr x p' l' n' k b).2.2.2
  | [], _, _, _, _, _, _, _, _ => ⟨rfl, rfl⟩
  | c :: cs, p, p', l, l', n, n', k, b => by
    simp only [stringLoop]
    split
    · exact ⟨rfl, rfl⟩
    · obtain ⟨h1, h2⟩ := loop_any q tr cs (p + 1) (p' + 1) (if c = '\n' then l ++ [p + 1] else l)
        (if c = '\n' then l' ++ [p' + 1] else l') (if c = '\n' then n + 1 else n) (if c = '\n' then n' + 1 else n')
        (if (c == q && !b) = true then k - 1 else if tr = true then 3 else 1) (c == '\\' && !b)
      exact ⟨by rw [h1], h2⟩

theorem string_any (x : Str) (p p' : Nat) (l l' : LineMap) (n n' : Nat) :
    (handleString x p l n).type = (handleString x p' l' n').type ∧
    (handleString x p l n).text = (handleString x p' l' n').text := by
  unfold handleString
  simp only
  split
  · exact ⟨rfl, rfl⟩
  · rename_i q body hq
    generalize hk : (if isTriple q body = true then rawPrefix x ++ [q, q, q] else rawPrefix x ++ [q]) = o
    obtain ⟨h1, h2⟩ := loop_any q (isTriple q body) (x.drop o.length) (p + o.length) (p' + o.length) l l' n n'
      (if isTriple q body = true then 3 else 1) false
    rw [h1, h2]
    cases (stringLoop q (isTriple q body) (x.drop o.length) (p' + o.length) l' n'
      (if isTriple q body = true then 3 else 1) false).2.2.2 <;> exact ⟨rfl, rfl⟩

/-- Type and text of a token do not depend on where it is. -/
theorem dispatch_any (c : Char) (cs : Str) (p p' : Nat) (l l' : LineMap) (n n' : Nat) :
    (dispatch c cs p l n).type = (dispatch c cs p' l' n').type ∧
    (dispatch c cs p l n).text = (dispatch c cs p' l' n').text := by
  unfold dispatch
  split
  · exact ⟨rfl, rfl⟩
  split
  · exact ⟨rfl, rfl⟩
  split
  · exact ⟨rfl, rfl⟩
  split
  · exact ⟨rfl, rfl⟩
  split
  · exact string_any _ _ _ _ _ _ _
  unfold handleWord
  split
  · exact string_any _ _ _ _ _ _ _
  simp only
  split
  · exact ⟨rfl, rfl⟩
  split
  · split <;> exact ⟨rfl, rfl⟩
  · exact ⟨rfl, rfl⟩

theorem gap_append {a b : Str} {p : Prop} (ha : Gap False a) (hb : Gap p b) : Gap p (a ++ b) := by
  induction ha with
  | nil => exact hb
  | blank h _ ih => exact .blank h ih
  | @comment body s h _ ih =>
    have := Gap.comment h ih
    simpa using this
  | lastComment h => exact h.elim

theorem end_gap {s : Scanner} (hup : s.upcoming = none) (he : (next s).1.type = .eof) : Gap True s.rest := by
  obtain ⟨⟨g, hg⟩, _⟩ := next_ok hup
  have r1 := hg.eofIff.1 he
  have r2 := hg.eofRest he
  have r3 := hg.text
  rw [r1, r2, List.append_nil, List.append_nil] at r3
  rw [r3]
  exact Gap.imp hg.hgap (by simp)

/-- One token of the second text. -/
theorem shift_step {s s' : Scanner} {g' : Str} (hup : s.upcoming = none) (hup' : s'.upcoming = none)
    (hg' : Gap False g') (hr : s'.rest = g' ++ s.rest) (he : (next s).1.type ≠ .eof) :
    (next s').1.type = (next s).1.type ∧ (next s').1.text = (next s).1.text ∧ (next s').2.rest = (next s).2.rest ∧
      (next s').2.upcoming = none ∧ (next s').2.lastTokenNewlineCount = (next s').2.newlineCount ∧
      (next s).2.upcoming = none ∧ (next s).2.lastTokenNewlineCount = (next s).2.newlineCount ∧
      (g' = [] → s.lastTokenNewlineCount = s.newlineCount → s'.lastTokenNewlineCount = s'.newlineCount →
        (next s).1.type = .op '[' → (next s').1.newlineSinceLast = (next s).1.newlineSinceLast) := by
  obtain ⟨g, c, w, lines, hg, e1, e2, e3, e4, e5, e6, e7, e8⟩ := next_full hup he
  have hgg : Gap False (g' ++ g) := gap_append hg' hg
  obtain ⟨n1, n2, n3, n4, n5, n6⟩ := next_of hup' hgg e2 (w := w) (rest := (next s).2.rest) (ty := (next s).1.type)
    (by rw [hr, e1]; simp) (fun pos l nl => by
      obtain ⟨k1, k2⟩ := dispatch_any c (w ++ (next s).2.rest) pos (s.pos + g.length) l lines nl
        (s.newlineCount + g.count '\n')
      refine ⟨?_, by rw [k2, e3]⟩
      rw [k1]
      rw [e4])
  refine ⟨n1, by rw [n2, e4], n3, n4, n5, e7, e6, ?_⟩
  rintro rfl hl hl' hb
  rw [n6 hb]
  have h7 : (next s).1.newlineSinceLast = (s.lastTokenNewlineCount != s.newlineCount + g.count '\n') := by
    have hb' := hb
    rw [e4] at hb' ⊢
    simp only at hb' ⊢
    rw [dispatch_bracket hb']
  rw [h7]
  exact bne_of_iff Iff.rfl hl hl'

theorem shift_scan (us : List Token) : ∀ {s s' : Scanner} {e : Token}, s.upcoming = none → s'.upcoming = none →
    s'.rest = s.rest → s.lastTokenNewlineCount = s.newlineCount → s'.lastTokenNewlineCount = s'.newlineCount →
    (deliver (us.length + 1) s).1 = us ++ [e] → e.type = .eof → (∀ t ∈ us, t.type ≠ .eof) →
    ∃ us' e', (deliver (us'.length + 1) s').1 = us' ++ [e'] ∧ e'.type = .eof ∧ SameTokens us us' := by
  induction us with
  | nil =>
    intro s s' e hup hup' hr _ _ hdel he _
    simp only [deliver, List.length_nil, List.nil_append, List.cons.injEq, and_true] at hdel
    refine ⟨[], (next s').1, by simp [deliver], next_end hup' ?_, .nil⟩
    rw [hr]
    exact end_gap hup (by rw [hdel]; exact he)
  | cons t us ih =>
    intro s s' e hup hup' hr hl hl' hdel he hne
    rw [List.length_cons, deliver] at hdel
    simp only [List.cons_append, List.cons.injEq] at hdel
    obtain ⟨ht, hdel⟩ := hdel
    obtain ⟨n1, n2, n3, n4, n5, n6, n7, n8⟩ := shift_step (g' := []) hup hup' .nil (by simpa using hr)
      (by rw [ht]; exact hne t (by simp))
    obtain ⟨us', e', d1, d2, d3⟩ := ih n6 n4 n3 n7 n5 hdel he (fun u hu => hne u (by simp [hu]))
    refine ⟨(next s').1 :: us', e', ?_, d2, .cons ⟨by rw [n1, ht], by rw [n2, ht], fun h => ?_⟩ d3⟩
    · rw [List.length_cons, deliver]; simp only [d1, List.cons_append]
    · rw [← ht]; exact n8 rfl hl hl' (by rw [ht]; exact h)

/-! ### Both -/

theorem gap_line {p : Prop} {a : Str} (h : Gap p a) : Gap False (a ++ ['\n']) := by
  induction h with
  | nil => exact .blank (by simp) .nil
  | blank h _ ih => exact .blank h ih
  | @comment body s h _ ih =>
    have := Gap.comment h ih
    simpa using this
  | @lastComment body _ h =>
    have := Gap.comment (body := body) (atEof := False) (s := []) h .nil
    simpa using this

/-- The tokens of a text with another text in a new line. -/
theorem joined {X b : Str} {pre us : List Token} (hpre : TokensOf X pre) (hok : ∀ t ∈ pre, t.type ≠ .error)
    (hlast : ∀ p t, pre = p ++ [t] → t.text ≠ c!"not") (hus : TokensOf b us) (hb : hd us ≠ .op '[') :
    ∃ us', TokensOf (X ++ '\n' :: b) (pre ++ us') ∧ SameTokens us us' := by
  obtain ⟨e, d1, d2, d3⟩ := hpre
  obtain ⟨p1, p2⟩ := parts (rest := []) (f := e) (by simpa using d1)
  simp only [List.length_nil, deliver, List.nil_append, List.cons.injEq, and_true] at p2
  obtain ⟨x, x1, x2, x3⟩ := deliver_rest pre.length (Scanner.init X) rfl
  have hgap := end_gap x3 (by rw [p2]; exact d2)
  generalize ha : (deliver pre.length (Scanner.init X)).2.rest = a at hgap
  obtain ⟨m1, m2, m3⟩ := join_scan (a := a) (b := []) (z := '\n' :: b) (fun c hc => gap_head hgap hc)
    (by intro c hc; simp at hc; subst hc; rfl) pre
    (s := Scanner.init X) (s' := Scanner.init (X ++ '\n' :: b)) (X := X)
    ⟨rfl, rfl, rfl, rfl, rfl⟩ p1 (fun t ht => ⟨d3 t ht, hok t ht⟩) hlast (by rw [ha]; simp) (by simp [Scanner.init]) rfl
  obtain ⟨f, u1, u2, u3⟩ := hus
  generalize hD : deliver pre.length (Scanner.init (X ++ '\n' :: b)) = D at m1 m2 m3
  have main : ∃ us' e', (deliver (us'.length + 1) D.2).1 = us' ++ [e'] ∧ e'.type = .eof ∧ SameTokens us us' := by
    have hline : D.2.rest = (a ++ ['\n']) ++ b := by rw [m2]; simp
    cases us with
    | nil =>
      simp only [deliver, List.length_nil, List.nil_append, List.cons.injEq, and_true] at u1
      refine ⟨[], (next D.2).1, by simp [deliver], next_end m3 ?_, .nil⟩
      rw [hline]
      exact gap_append (gap_line hgap) (end_gap (s := Scanner.init b) rfl (by rw [u1]; exact u2))
    | cons t us =>
      rw [List.length_cons, deliver] at u1
      simp only [List.cons_append, List.cons.injEq] at u1
      obtain ⟨ht, hdel⟩ := u1
      obtain ⟨n1, n2, n3, n4, n5, n6, n7, _⟩ := shift_step (s := Scanner.init b) (s' := D.2) rfl m3 (gap_line hgap) hline
        (by rw [ht]; exact u3 t (by simp))
      obtain ⟨us', e', d1, d2, d3⟩ := shift_scan us n6 n4 n3 n7 n5 hdel u2 (fun u hu => u3 u (by simp [hu]))
      refine ⟨(next D.2).1 :: us', e', ?_, d2, .cons ⟨by rw [n1, ht], by rw [n2, ht], fun h => absurd h hb⟩ d3⟩
      rw [List.length_cons, deliver]; simp only [d1, List.cons_append]
  obtain ⟨us', e', v1, v2, v3⟩ := main
  refine ⟨us', ⟨e', ?_, v2, ?_⟩, v3⟩
  · have := deliver_add pre.length (us'.length + 1) (Scanner.init (X ++ '\n' :: b))
    rw [List.length_append, Nat.add_assoc, this, hD, m1, v1]
    simp
  · intro t ht
    rcases List.mem_append.1 ht with ht | ht
    · exact d3 t ht
    · exact sameTokens_types v3 u3 t ht

/-! ### The parser -/

theorem not_text {ty : TokenType} {w rest : Str} (h : TokenOk ty w rest) (hw : w = c!"not") (he : ty ≠ .error) :
    ty = .op '!' := by
  cases h with
  | punct h => simp at hw
  | rel => simp at hw
  | relEq => simp at hw
  | keyword h => subst hw; simp [keywords] at h
  | not => rfl
  | notIn _ _ => simp at hw
  | identifier _ _ h => exact absurd hw h
  | number h =>
    subst hw
    cases h <;> simp_all [isDigit]
  | string h =>
    subst hw
    generalize hx : c!"not" = x at h
    cases h with
    | single h =>
      obtain ⟨h1, h2⟩ := h
      simp only [List.mem_cons, List.not_mem_nil, or_false] at h1 h2
      rcases h1 with rfl | rfl | rfl <;> rcases h2 with rfl | rfl <;> simp at hx
    | triple h =>
      obtain ⟨h1, h2⟩ := h
      simp only [List.mem_cons, List.not_mem_nil, or_false] at h1 h2
      rcases h1 with rfl | rfl | rfl <;> rcases h2 with rfl | rfl <;> simp at hx
  | secondDot => exact absurd rfl he
  | unterminated => exact absurd rfl he
  | invalid => exact absurd rfl he
  | eof => simp at hw

theorem last_not {X : Str} {pre : List Token} {n : Node} (hts : TokensOf X pre) (h : Parses .program pre [] n) :
    (∀ t ∈ pre, t.type ≠ .error) ∧ ∀ p t, pre = p ++ [t] → t.text ≠ c!"not" := by
  have hok : ∀ t ∈ pre, t.type ≠ .error := by
    obtain ⟨q, q1, q2⟩ : Eaten pre [] := eaten_ok h
    rw [List.append_nil] at q1
    subst q1
    exact fun t ht => (q2 t ht).1
  refine ⟨hok, ?_⟩
  rintro p t rfl htx
  obtain ⟨e, d1, _, _⟩ := hts
  have hc := Props.C52_token_class X ((p ++ [t]).length + 1) t (by rw [d1]; simp)
  have ht := not_text hc htx (hok t (by simp))
  rcases (end_ok h : p ++ [t] = [] ∨ Ends (p ++ [t]) []) with h | ⟨q, u, h1, h2⟩
  · simp at h
  · have := List.append_inj' h1 rfl
    simp only [List.cons.injEq, and_true] at this
    exact h2 (by rw [← this.2]; exact ht)

/-- What begins a new statement, or cannot be part of one. -/
theorem startsNew_same {us us' : List Token} (h : SameTokens us us') : hd us' = hd us := by
  cases h with
  | nil => rfl
  | cons h _ => exact h.type

/-- A text, and another one in a new line: the statements of both. -/
theorem parse_joined {X b : Str} {xs : List Node} {st : PState} (hx : parseFile X = some (.list .list xs, st))
    (he : st.errs = []) {t2 : Node} {st2 : PState} (hb : parseFile b = some (t2, st2)) {us : List Token}
    (hus : TokensOf b us) (hid : Broken.StartsNew (hd us)) :
    ∃ ys st', t2 = .list .list ys ∧ parseFile (X ++ '\n' :: b) = some (.list .list (xs ++ ys), st') ∧
      SameTokens st2.errs st'.errs := by
  obtain ⟨pre, hpre, _⟩ := tokensOf_exists X
  have hprog := (parseFile_iff hpre _).1 ⟨st, hx, he⟩
  obtain ⟨hok, hlast⟩ := last_not hpre hprog
  obtain ⟨us', hts, hsame⟩ := joined hpre hok hlast hus (by
    rcases hid with h | h
    · intro h2; rw [h2] at h; simp [Stops] at h
    · rcases h with h | h <;> rw [h] <;> simp)
  obtain ⟨a, st', hj, _⟩ := parseFile_total (X ++ '\n' :: b)
  obtain ⟨n, st1, g1, g2, g3, g4⟩ := Broken.found hprog (rest := us') (by rw [startsNew_same hsame]; exact hid) rfl []
    _ _ (initState_good _) (initState_toks hts) rfl a st' hj
  have hss : SameState (initState b) st1 :=
    ⟨by rw [g1, initState_toks hus]; exact hsame, by rw [g2]; exact ⟨rfl, rfl, fun h => by cases h⟩, by rw [g3]; exact .nil⟩
  have b1 := run_below (enoughFuel (initState b).toks.length) n (.statements []) _ _ hb
  have b2 := run_below n (enoughFuel (initState b).toks.length) _ _ _ g4
  rw [Nat.add_comm] at b1
  obtain ⟨ys, rfl⟩ := Broken.statements_form _ _ _ _ _ hb
  simp only [List.nil_append] at b1 b2 ⊢
  rcases run_sim (n + enoughFuel (initState b).toks.length) (.statements []) _ _ hss with
    ⟨h1, _⟩ | ⟨c, c', s1, s1', h1, h2, h3, h4⟩
  · rw [b1] at h1; cases h1
  · rw [b1] at h1
    cases h1
    subst h3
    have b3 := Broken.statements_before _ xs [] st1 ys s1' h2
    rw [List.append_nil, b2] at b3
    cases b3
    exact ⟨ys, st', rfl, hj, h4.errs⟩

end ScanJoin
end Bant
