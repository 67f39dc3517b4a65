import Verif.Model.Glob
import Verif.Spec.Glob
import Verif.Lemmas.Regex

/-! Lemmas about file patterns. -/
namespace Bant
namespace Glob
open Regex GlobSpec

/-! ### Substitutions -/

theorem replaceAll_skip (subs : List (Str × Str)) (k : Nat) (s : Str) :
    replaceAll subs k s = replaceAll subs 0 (s.drop k) := by
  induction s generalizing k with
  | nil => cases k <;> simp [replaceAll]
  | cons c s ih =>
    cases k with
    | zero => rfl
    | succ k => rw [replaceAll, ih]; rfl

theorem replaceAll_some {subs : List (Str × Str)} {old new rest : Str} (ho : old ≠ [])
    (h : substitution subs (old ++ rest) = some (old, new)) :
    replaceAll subs 0 (old ++ rest) =
      (new ++ (replaceAll subs 0 rest).1, (replaceAll subs 0 rest).2 + 1) := by
  cases old with
  | nil => exact absurd rfl ho
  | cons c old =>
    simp only [List.cons_append] at h ⊢
    simp only [replaceAll, h]
    rw [replaceAll_skip]
    simp

theorem replaceAll_none {subs : List (Str × Str)} {c : Char} {rest : Str}
    (h : substitution subs (c :: rest) = none) :
    replaceAll subs 0 (c :: rest) = (c :: (replaceAll subs 0 rest).1, (replaceAll subs 0 rest).2) := by
  simp only [replaceAll, h]

/-- All that is replaced begins with an escaped `m`. -/
def Begins (m : Char) (subs : List (Str × Str)) : Prop := ∀ sub ∈ subs, ∃ r, sub.1 = '\\' :: m :: r

theorem substitution_none {subs : List (Str × Str)} {m : Char} (h : Begins m subs) {s : Str}
    (hs : ¬ ∃ r, s = '\\' :: m :: r) : substitution subs s = none := by
  have : ∀ sub ∈ subs, sub.1.isPrefixOf s = false := by
    intro sub hm
    obtain ⟨r, hr⟩ := h sub hm
    rw [hr]
    cases hb : List.isPrefixOf ('\\' :: m :: r) s with
    | false => rfl
    | true =>
      obtain ⟨t, ht⟩ := List.isPrefixOf_iff_prefix.1 hb
      exact absurd ⟨r ++ t, by rw [← ht]; rfl⟩ hs
  unfold substitution
  clear h hs
  induction subs with
  | nil => rfl
  | cons sub subs ih =>
    rw [List.foldl_cons, this sub (by simp)]
    exact ih fun x hx => this x (by simp [hx])

theorem quoteChar_cases (c : Char) : (quoteChar c = [c] ∧ c ≠ '\\' ∧ c ≠ '*' ∧ c ≠ '/') ∨
    (quoteChar c = c!"\\x00" ∧ c.toNat = 0) ∨ (quoteChar c = ['\\', c]) := by
  unfold quoteChar
  split
  · next h =>
    left
    have n : ∀ d : Char, (d.isAlphanum || d == '_' || decide (d.toNat ≥ 128)) = false → c ≠ d := by
      intro d hd e; rw [e, hd] at h; cases h
    exact ⟨rfl, n _ (by decide), n _ (by decide), n _ (by decide)⟩
  · split
    · next h => exact .inr (.inl ⟨rfl, h⟩)
    · exact .inr (.inr rfl)

theorem quoteChar_star : quoteChar '*' = c!"\\*" := by decide
theorem quoteChar_slash : quoteChar '/' = c!"\\/" := by decide

/-- What is quoted does not begin with `*` or `/`. -/
theorem quoteChar_head {m c d : Char} {t r : Str} (hm : m = '*' ∨ m = '/') (h : quoteChar c ++ t = d :: r) :
    d ≠ m := by
  rcases quoteChar_cases c with ⟨h1, h2, h3, h4⟩ | ⟨h1, _⟩ | h1 <;> rw [h1] at h
  · simp only [List.cons_append, List.nil_append, List.cons.injEq] at h
    rw [← h.1]
    rcases hm with rfl | rfl <;> assumption
  · simp only [List.cons_append, List.nil_append, List.cons.injEq] at h
    rw [← h.1]
    rcases hm with rfl | rfl <;> decide
  · simp only [List.cons_append, List.nil_append, List.cons.injEq] at h
    rw [← h.1]
    rcases hm with rfl | rfl <;> decide

/-- Where an escaped `m` begins. -/
theorem quoteChar_begins {m c : Char} {t r : Str} (hm : m = '*' ∨ m = '/')
    (h : quoteChar c ++ t = '\\' :: m :: r) : c = m ∧ t = r := by
  rcases quoteChar_cases c with ⟨h1, h2, h3, h4⟩ | ⟨h1, _⟩ | h1 <;> rw [h1] at h
  · simp only [List.cons_append, List.nil_append, List.cons.injEq] at h
    exact absurd h.1 h2
  · simp only [List.cons_append, List.nil_append, List.cons.injEq] at h
    rw [← h.2.1] at hm
    rcases hm with hm | hm <;> exact absurd hm (by decide)
  · simp only [List.cons_append, List.nil_append, List.cons.injEq] at h
    exact h.2

/-- Other characters are not touched. -/
theorem replaceAll_other {subs : List (Str × Str)} {m c : Char} (hm : m = '*' ∨ m = '/') (h : Begins m subs)
    (hc : c ≠ m) {t : Str} (ht : ∀ d r, t = d :: r → d ≠ m) :
    replaceAll subs 0 (quoteChar c ++ t) =
      (quoteChar c ++ (replaceAll subs 0 t).1, (replaceAll subs 0 t).2) := by
  have first : ¬ ∃ r, quoteChar c ++ t = '\\' :: m :: r := by
    rintro ⟨r, hr⟩
    exact hc (quoteChar_begins hm hr).1
  have plain : ∀ (d : Char) (s : Str), d ≠ '\\' → replaceAll subs 0 (d :: s) =
      (d :: (replaceAll subs 0 s).1, (replaceAll subs 0 s).2) := by
    intro d s hd
    refine replaceAll_none (substitution_none h ?_)
    rintro ⟨r, hr⟩
    simp only [List.cons.injEq] at hr
    exact hd hr.1
  rcases quoteChar_cases c with ⟨h1, h2, _⟩ | ⟨h1, _⟩ | h1 <;> rw [h1] at first ⊢
  · exact plain c t h2
  · have e : c!"\\x00" ++ t = '\\' :: 'x' :: '0' :: '0' :: t := rfl
    rw [e] at first ⊢
    rw [replaceAll_none (substitution_none h first), plain 'x' _ (by decide), plain '0' _ (by decide),
      plain '0' _ (by decide)]
    rfl
  · have e : ['\\', c] ++ t = '\\' :: c :: t := rfl
    rw [e] at first ⊢
    rw [replaceAll_none (substitution_none h first)]
    have : replaceAll subs 0 (c :: t) = (c :: (replaceAll subs 0 t).1, (replaceAll subs 0 t).2) := by
      refine replaceAll_none (substitution_none h ?_)
      rintro ⟨r, hr⟩
      simp only [List.cons.injEq] at hr
      exact ht m r hr.2 rfl
    rw [this]
    rfl

theorem quoteMeta_cons (c : Char) (p : Str) : quoteMeta (c :: p) = quoteChar c ++ quoteMeta p := by
  simp [quoteMeta]

theorem quoteMeta_head {m : Char} (hm : m = '*' ∨ m = '/') (p : Str) : ∀ d r, quoteMeta p = d :: r → d ≠ m := by
  intro d r h
  cases p with
  | nil => cases h
  | cons c p =>
    rw [quoteMeta_cons] at h
    exact quoteChar_head hm h

/-! ### Pieces of patterns -/

/-- What a pattern consists of. -/
inductive Piece
  | any
  | seg
  | lit (c : Char)

def Piece.text : Piece → Str
  | .any => c!".*/?"
  | .seg => c!"[^/]*"
  | .lit c => quoteChar c

def filePieces : Str → List Piece
  | [] => []
  | c :: p =>
    if c = '*' then
      match p with
      | '*' :: '/' :: q => .any :: filePieces q
      | p => .seg :: filePieces p
    else .lit c :: filePieces p

def dirPieces : Str → List Piece
  | [] => []
  | c :: p =>
    if c = '*' then
      match p with
      | '*' :: q => .any :: dirPieces q
      | p => .seg :: dirPieces p
    else .lit c :: dirPieces p

theorem filePieces_any (p : Str) : filePieces (c!"**/" ++ p) = .any :: filePieces p := by
  show filePieces ('*' :: '*' :: '/' :: p) = _
  rw [filePieces.eq_def]; rfl

theorem filePieces_seg {p : Str} (h : ¬ c!"*/" <+: p) : filePieces ('*' :: p) = .seg :: filePieces p := by
  rw [filePieces.eq_def]
  simp only [if_true]
  split
  · next q => exact absurd ⟨q, rfl⟩ h
  · rfl

theorem filePieces_lit {c : Char} (h : c ≠ '*') (p : Str) : filePieces (c :: p) = .lit c :: filePieces p := by
  rw [filePieces.eq_def]; simp [h]

theorem dirPieces_any (p : Str) : dirPieces ('*' :: '*' :: p) = .any :: dirPieces p := by
  rw [dirPieces.eq_def]; rfl

theorem dirPieces_seg {p : Str} (h : p.head? ≠ some '*') : dirPieces ('*' :: p) = .seg :: dirPieces p := by
  rw [dirPieces.eq_def]
  simp only [if_true]
  split
  · next q => exact absurd rfl h
  · rfl

theorem dirPieces_lit {c : Char} (h : c ≠ '*') (p : Str) : dirPieces (c :: p) = .lit c :: dirPieces p := by
  rw [dirPieces.eq_def]; simp [h]

/-- Induction along the pieces. -/
theorem filePieces_induct {P : Str → Prop} (nil : P []) (any : ∀ p, P p → P (c!"**/" ++ p))
    (seg : ∀ p, ¬ c!"*/" <+: p → P p → P ('*' :: p)) (lit : ∀ c p, c ≠ '*' → P p → P (c :: p)) (p : Str) : P p := by
  generalize hn : p.length = n
  induction n using Nat.strongRecOn generalizing p with
  | ind n ih =>
    cases p with
    | nil => exact nil
    | cons c p =>
      by_cases hc : c = '*'
      · subst hc
        by_cases h : c!"*/" <+: p
        · obtain ⟨q, rfl⟩ := h
          exact any q (ih q.length (by subst hn; simp; omega) q rfl)
        · exact seg p h (ih p.length (by subst hn; simp) p rfl)
      · exact lit c p hc (ih p.length (by subst hn; simp) p rfl)

theorem dirPieces_induct {P : Str → Prop} (nil : P []) (any : ∀ p, P p → P ('*' :: '*' :: p))
    (seg : ∀ p, p.head? ≠ some '*' → P p → P ('*' :: p)) (lit : ∀ c p, c ≠ '*' → P p → P (c :: p)) (p : Str) : P p := by
  generalize hn : p.length = n
  induction n using Nat.strongRecOn generalizing p with
  | ind n ih =>
    cases p with
    | nil => exact nil
    | cons c p =>
      by_cases hc : c = '*'
      · subst hc
        by_cases h : p.head? = some '*'
        · cases p with
          | nil => cases h
          | cons d q =>
            cases h
            exact any q (ih q.length (by subst hn; simp; omega) q rfl)
        · exact seg p h (ih p.length (by subst hn; simp) p rfl)
      · exact lit c p hc (ih p.length (by subst hn; simp) p rfl)

theorem fileRegex_eq (p : Str) : fileRegex p = (filePieces p).flatMap Piece.text := by
  have hb : Begins '*' [(c!"\\*\\*\\/", c!".*/?"), (c!"\\*", c!"[^/]*")] := by
    intro sub hs
    simp only [List.mem_cons, List.not_mem_nil, or_false] at hs
    rcases hs with rfl | rfl
    · exact ⟨_, rfl⟩
    · exact ⟨_, rfl⟩
  unfold fileRegex
  refine filePieces_induct (P := fun p => (replaceAll [(c!"\\*\\*\\/", c!".*/?"), (c!"\\*", c!"[^/]*")] 0 (quoteMeta p)).1 =
    (filePieces p).flatMap Piece.text) rfl ?_ ?_ ?_ p
  · intro p ih
    have : quoteMeta (c!"**/" ++ p) = c!"\\*\\*\\/" ++ quoteMeta p := by
      simp only [List.cons_append, List.nil_append, quoteMeta_cons, quoteChar_star, quoteChar_slash]
    rw [this, replaceAll_some (new := c!".*/?") (by simp), filePieces_any, List.flatMap_cons, ih]
    · rfl
    · simp [substitution]
  · intro p hp ih
    have : quoteMeta ('*' :: p) = c!"\\*" ++ quoteMeta p := by rw [quoteMeta_cons, quoteChar_star]
    rw [this, replaceAll_some (new := c!"[^/]*") (by simp), filePieces_seg hp, List.flatMap_cons, ih]
    · rfl
    · have hno : List.isPrefixOf c!"\\*\\*\\/" (c!"\\*" ++ quoteMeta p) = false := by
        rw [Bool.eq_false_iff]
        intro hpre
        obtain ⟨t, ht⟩ := List.isPrefixOf_iff_prefix.1 hpre
        have ht : quoteMeta p = '\\' :: '*' :: '\\' :: '/' :: t := by simpa using ht.symm
        cases p with
        | nil => cases ht
        | cons a p =>
          rw [quoteMeta_cons] at ht
          obtain ⟨rfl, ht2⟩ := quoteChar_begins (.inl rfl) ht
          cases p with
          | nil => cases ht2
          | cons b p =>
            rw [quoteMeta_cons] at ht2
            obtain ⟨rfl, ht3⟩ := quoteChar_begins (.inr rfl) ht2
            exact hp ⟨p, rfl⟩
      have hyes : List.isPrefixOf c!"\\*" (c!"\\*" ++ quoteMeta p) = true := by simp [List.isPrefixOf]
      simp only [substitution, List.foldl_cons, List.foldl_nil, hno, hyes, Bool.false_and, Bool.true_and,
        Bool.false_eq_true, if_false, if_true]
  · intro c p hc ih
    rw [quoteMeta_cons, replaceAll_other (.inl rfl) hb hc (quoteMeta_head (.inl rfl) p), filePieces_lit hc,
      List.flatMap_cons, ih]
    rfl

/-- Pieces of the expression for directories: groups open at slashes. -/
def Piece.group : Piece → Str
  | .lit '/' => c!"(\\/"
  | p => p.text

theorem group_lit {c : Char} (h : c ≠ '/') : (Piece.lit c).group = quoteChar c := by
  unfold Piece.group
  split
  · next heq => cases heq; exact absurd rfl h
  · rfl

/-- Number of groups. -/
def groups : List Piece → Nat
  | [] => 0
  | .lit '/' :: ps => groups ps + 1
  | _ :: ps => groups ps

theorem groups_lit {c : Char} (h : c ≠ '/') (ps : List Piece) : groups (.lit c :: ps) = groups ps := by
  rw [groups.eq_def]
  split
  · next heq => cases heq
  · next heq => cases heq; exact absurd rfl h
  · next heq => cases heq; rfl

theorem text_head (ps : List Piece) : ∀ d r, ps.flatMap Piece.text = d :: r → d ≠ '/' := by
  intro d r h
  cases ps with
  | nil => cases h
  | cons q ps =>
    rw [List.flatMap_cons] at h
    cases q with
    | any => cases h; decide
    | seg => cases h; decide
    | lit c => exact quoteChar_head (.inr rfl) h

theorem directoryRegex_text (p : Str) :
    (replaceAll [(c!"\\*\\*", c!".*/?"), (c!"\\*", c!"[^/]*")] 0 (quoteMeta p)).1 =
      (dirPieces p).flatMap Piece.text := by
  have hb : Begins '*' [(c!"\\*\\*", c!".*/?"), (c!"\\*", c!"[^/]*")] := by
    intro sub hs
    simp only [List.mem_cons, List.not_mem_nil, or_false] at hs
    rcases hs with rfl | rfl
    · exact ⟨_, rfl⟩
    · exact ⟨_, rfl⟩
  refine dirPieces_induct (P := fun p => (replaceAll [(c!"\\*\\*", c!".*/?"), (c!"\\*", c!"[^/]*")] 0 (quoteMeta p)).1 =
    (dirPieces p).flatMap Piece.text) rfl ?_ ?_ ?_ p
  · intro p ih
    have : quoteMeta ('*' :: '*' :: p) = c!"\\*\\*" ++ quoteMeta p := by
      simp only [List.cons_append, List.nil_append, quoteMeta_cons, quoteChar_star]
    rw [this, replaceAll_some (new := c!".*/?") (by simp), dirPieces_any, List.flatMap_cons, ih]
    · rfl
    · simp [substitution]
  · intro p hp ih
    have : quoteMeta ('*' :: p) = c!"\\*" ++ quoteMeta p := by rw [quoteMeta_cons, quoteChar_star]
    rw [this, replaceAll_some (new := c!"[^/]*") (by simp), dirPieces_seg hp, List.flatMap_cons, ih]
    · rfl
    · have hno : List.isPrefixOf c!"\\*\\*" (c!"\\*" ++ quoteMeta p) = false := by
        rw [Bool.eq_false_iff]
        intro hpre
        obtain ⟨t, ht⟩ := List.isPrefixOf_iff_prefix.1 hpre
        have ht : quoteMeta p = '\\' :: '*' :: t := by simpa using ht.symm
        cases p with
        | nil => cases ht
        | cons a p =>
          rw [quoteMeta_cons] at ht
          obtain ⟨rfl, ht⟩ := quoteChar_begins (.inl rfl) ht
          exact hp rfl
      have hyes : List.isPrefixOf c!"\\*" (c!"\\*" ++ quoteMeta p) = true := by simp [List.isPrefixOf]
      simp only [substitution, List.foldl_cons, List.foldl_nil, hno, hyes, Bool.false_and, Bool.true_and,
        Bool.false_eq_true, if_false, if_true]
  · intro c p hc ih
    rw [quoteMeta_cons, replaceAll_other (.inl rfl) hb hc (quoteMeta_head (.inl rfl) p), dirPieces_lit hc,
      List.flatMap_cons, ih]
    rfl

theorem replaceAll_slash (ps : List Piece) :
    replaceAll [(c!"\\/", c!"(\\/")] 0 (ps.flatMap Piece.text) = (ps.flatMap Piece.group, groups ps) := by
  have hb : Begins '/' [(c!"\\/", c!"(\\/")] := by
    intro sub hs
    simp only [List.mem_cons, List.not_mem_nil, or_false] at hs
    subst hs
    exact ⟨_, rfl⟩
  have plain : ∀ (d : Char) (s : Str), d ≠ '\\' → replaceAll [(c!"\\/", c!"(\\/")] 0 (d :: s) =
      (d :: (replaceAll [(c!"\\/", c!"(\\/")] 0 s).1, (replaceAll [(c!"\\/", c!"(\\/")] 0 s).2) := by
    intro d s hd
    refine replaceAll_none (substitution_none hb ?_)
    rintro ⟨r, hr⟩
    simp only [List.cons.injEq] at hr
    exact hd hr.1
  induction ps with
  | nil => rfl
  | cons q ps ih =>
    rw [List.flatMap_cons, List.flatMap_cons]
    cases q with
    | any =>
      show replaceAll _ 0 ('.' :: '*' :: '/' :: '?' :: ps.flatMap Piece.text) = _
      rw [plain _ _ (by decide), plain _ _ (by decide), plain _ _ (by decide), plain _ _ (by decide), ih]
      rfl
    | seg =>
      show replaceAll _ 0 ('[' :: '^' :: '/' :: ']' :: '*' :: ps.flatMap Piece.text) = _
      rw [plain _ _ (by decide), plain _ _ (by decide), plain _ _ (by decide), plain _ _ (by decide),
        plain _ _ (by decide), ih]
      rfl
    | lit c =>
      by_cases hc : c = '/'
      · subst hc
        show replaceAll _ 0 (quoteChar '/' ++ _) = _
        rw [quoteChar_slash, replaceAll_some (new := c!"(\\/") (by simp), ih]
        · rfl
        · simp [substitution]
      · show replaceAll _ 0 (quoteChar c ++ _) = _
        rw [replaceAll_other (.inr rfl) hb hc (text_head ps), ih, group_lit hc, groups_lit hc]

theorem directoryRegex_eq (p : Str) : directoryRegex p =
    (dirPieces p).flatMap Piece.group ++ (List.replicate (groups (dirPieces p)) c!")?").flatten := by
  simp only [directoryRegex, directoryRegex_text, replaceAll_slash]

/-! ### Tokens -/

def Piece.toks : Piece → List ReTok
  | .any => [.atom .dot, .star, .atom (.lit '/'), .quest]
  | .seg => [.atom .notSlash, .star]
  | .lit c => [.atom (.lit c)]

theorem reTokens_anyPiece (s : Str) :
    reTokens (c!".*/?" ++ s) = (reTokens s).map (Piece.any.toks ++ ·) := by
  have : c!".*/?" ++ s = c!".*" ++ ('/' :: '?' :: s) := rfl
  rw [this, reTokens_dotStar, reTokens_plain (by decide),
    reTokens_simple (t := .quest) (by decide) (by decide) rfl]
  cases reTokens s <;> simp [Piece.toks]

theorem reTokens_piece (q : Piece) (s : Str) : reTokens (q.text ++ s) = (reTokens s).map (q.toks ++ ·) := by
  cases q with
  | any => exact reTokens_anyPiece s
  | seg => exact reTokens_notSlashStar
  | lit c => exact reTokens_quoteChar

theorem reTokens_pieces (ps : List Piece) (s : Str) :
    reTokens (ps.flatMap Piece.text ++ s) = (reTokens s).map (ps.flatMap Piece.toks ++ ·) := by
  induction ps with
  | nil => simp
  | cons q ps ih =>
    rw [List.flatMap_cons, List.append_assoc, reTokens_piece, ih]
    cases reTokens s <;> simp

def Piece.gtoks : Piece → List ReTok
  | .lit '/' => [.lparen, .atom (.lit '/')]
  | p => p.toks

theorem gtoks_lit {c : Char} (h : c ≠ '/') : (Piece.lit c).gtoks = [.atom (.lit c)] := by
  unfold Piece.gtoks
  split
  · next heq => cases heq; exact absurd rfl h
  · rfl

theorem reTokens_group (q : Piece) (s : Str) : reTokens (q.group ++ s) = (reTokens s).map (q.gtoks ++ ·) := by
  cases q with
  | any => exact reTokens_piece .any s
  | seg => exact reTokens_piece .seg s
  | lit c =>
    by_cases h : c = '/'
    · subst h
      have : (Piece.lit '/').group ++ s = '(' :: '\\' :: '/' :: s := rfl
      rw [this, reTokens_simple (t := .lparen) (by decide) (by decide) rfl, reTokens_escaped (by decide)]
      cases reTokens s <;> simp [Piece.gtoks]
    · rw [group_lit h, gtoks_lit h]
      exact reTokens_quoteChar

theorem reTokens_groups (ps : List Piece) (s : Str) :
    reTokens (ps.flatMap Piece.group ++ s) = (reTokens s).map (ps.flatMap Piece.gtoks ++ ·) := by
  induction ps with
  | nil => simp
  | cons q ps ih =>
    rw [List.flatMap_cons, List.append_assoc, reTokens_group, ih]
    cases reTokens s <;> simp

theorem reTokens_close (n : Nat) (s : Str) :
    reTokens ((List.replicate n c!")?").flatten ++ s) =
      (reTokens s).map ((List.replicate n [ReTok.rparen, .quest]).flatten ++ ·) := by
  induction n with
  | zero => simp
  | succ n ih =>
    rw [List.replicate_succ, List.flatten_cons, List.append_assoc]
    show reTokens (')' :: '?' :: ((List.replicate n c!")?").flatten ++ s)) = _
    rw [reTokens_simple (t := .rparen) (by decide) (by decide) rfl,
      reTokens_simple (t := .quest) (by decide) (by decide) rfl, ih]
    cases reTokens s <;> simp [List.replicate_succ]

/-! ### What pieces match -/

def FileMatch : List Piece → Str → Prop
  | [], s => s = []
  | .any :: ps, s => ∃ u v, s = u ++ v ∧ '\n' ∉ u ∧ FileMatch ps v
  | .seg :: ps, s => ∃ u v, s = u ++ v ∧ '/' ∉ u ∧ FileMatch ps v
  | .lit c :: ps, s => ∃ v, s = c :: v ∧ FileMatch ps v

def DirMatch : List Piece → Str → Prop
  | [], s => s = []
  | .any :: ps, s => ∃ u v, s = u ++ v ∧ '\n' ∉ u ∧ DirMatch ps v
  | .seg :: ps, s => ∃ u v, s = u ++ v ∧ '/' ∉ u ∧ DirMatch ps v
  | .lit c :: ps, s => (c = '/' ∧ s = []) ∨ ∃ v, s = c :: v ∧ DirMatch ps v

theorem filePieces_match {p f : Str} : FileMatch (filePieces p) f ↔ Accepts p f := by
  constructor
  · refine filePieces_induct (P := fun p => ∀ f, FileMatch (filePieces p) f → Accepts p f) ?_ ?_ ?_ ?_ p f
    · rintro f rfl; exact .nil
    · intro p ih f h
      rw [filePieces_any] at h
      obtain ⟨u, v, rfl, h1, h2⟩ := h
      exact .deep h1 (ih v h2)
    · intro p hp ih f h
      rw [filePieces_seg hp] at h
      obtain ⟨u, v, rfl, h1, h2⟩ := h
      exact .star hp h1 (ih v h2)
    · intro c p hc ih f h
      rw [filePieces_lit hc] at h
      obtain ⟨v, rfl, h2⟩ := h
      exact .char hc (ih v h2)
  · intro h
    induction h with
    | nil => rfl
    | deep h1 _ ih => rw [filePieces_any]; exact ⟨_, _, rfl, h1, ih⟩
    | star hp h1 _ ih => rw [filePieces_seg hp]; exact ⟨_, _, rfl, h1, ih⟩
    | char hc _ ih => rw [filePieces_lit hc]; exact ⟨_, rfl, ih⟩

/-- Tokens that add expressions to the current alternative, which match as `M` says. -/
def Runs (ts : List ReTok) (M : Str → Prop) : Prop :=
  ∃ rs : List Regex, (∀ s, MatchesSeq rs s ↔ M s) ∧
    ∀ al cur fs b, ∃ b', reRun (⟨al, cur⟩ :: fs) b ts = some (⟨al, rs.reverse ++ cur⟩ :: fs, b')

theorem matchesSeq_one {r : Regex} {s : Str} : MatchesSeq [r] s ↔ Matches r s := by
  simp only [MatchesSeq]
  constructor
  · rintro ⟨u, v, rfl, h, rfl⟩; simpa using h
  · intro h; exact ⟨s, [], by simp, h, rfl⟩

theorem runs_append {ts us : List ReTok} {M N : Str → Prop} (h1 : Runs ts M) (h2 : Runs us N) :
    Runs (ts ++ us) fun s => ∃ u v, s = u ++ v ∧ M u ∧ N v := by
  obtain ⟨rs, m1, r1⟩ := h1
  obtain ⟨qs, m2, r2⟩ := h2
  refine ⟨rs ++ qs, ?_, ?_⟩
  · intro s
    rw [matchesSeq_append]
    simp only [m1, m2]
  · intro al cur fs b
    obtain ⟨b1, e1⟩ := r1 al cur fs b
    obtain ⟨b2, e2⟩ := r2 al (rs.reverse ++ cur) fs b1
    exact ⟨b2, by rw [reRun_append, e1]; simp [e2]⟩

theorem Runs.congr {ts : List ReTok} {M N : Str → Prop} (h : Runs ts M) (hn : ∀ s, M s ↔ N s) : Runs ts N := by
  obtain ⟨rs, m, r⟩ := h
  exact ⟨rs, fun s => (m s).trans (hn s), r⟩

theorem runs_nil : Runs [] fun s => s = [] :=
  ⟨[], fun _ => Iff.rfl, fun _ _ _ b => ⟨b, rfl⟩⟩

theorem runs_atom (r : Regex) : Runs [.atom r] (Matches r) :=
  ⟨[r], fun _ => matchesSeq_one, fun _ _ _ _ => ⟨_, rfl⟩⟩

theorem runs_star (r : Regex) : Runs [.atom r, .star] (Matches (.star r)) :=
  ⟨[.star r], fun _ => matchesSeq_one, fun _ _ _ _ => ⟨_, rfl⟩⟩

theorem runs_opt (r : Regex) : Runs [.atom r, .quest] (Matches (.opt r)) :=
  ⟨[.opt r], fun _ => matchesSeq_one, fun _ _ _ _ => ⟨_, rfl⟩⟩

theorem runs_any : Runs Piece.any.toks fun s => '\n' ∉ s := by
  refine (runs_append (runs_star .dot) (runs_opt (.lit '/'))).congr ?_
  intro s
  constructor
  · rintro ⟨u, v, rfl, h1, h2⟩
    rw [dot, matches_star_cls] at h1
    rw [matches_opt, matches_lit] at h2
    have hu : '\n' ∉ u := by
      intro h
      have := h1 _ h
      simp at this
    rcases h2 with rfl | rfl
    · simpa using hu
    · simpa using hu
  · intro h
    refine ⟨s, [], by simp, ?_, .optNone⟩
    rw [dot, matches_star_cls]
    intro c hc
    simp only [bne_iff_ne, ne_eq]
    rintro rfl
    exact h hc

theorem runs_seg : Runs Piece.seg.toks fun s => '/' ∉ s := by
  refine (runs_star .notSlash).congr ?_
  intro s
  rw [notSlash, matches_star_cls]
  constructor
  · intro h hs
    have := h _ hs
    simp at this
  · intro h c hc
    simp only [bne_iff_ne, ne_eq]
    rintro rfl
    exact h hc

theorem runs_lit (c : Char) : Runs (Piece.lit c).toks fun s => s = [c] :=
  (runs_atom _).congr fun _ => matches_lit

theorem runs_file (ps : List Piece) : Runs (ps.flatMap Piece.toks) (FileMatch ps) := by
  induction ps with
  | nil => exact runs_nil
  | cons q ps ih =>
    rw [List.flatMap_cons]
    cases q with
    | any => exact runs_append runs_any ih
    | seg => exact runs_append runs_seg ih
    | lit c =>
      refine (runs_append (runs_lit c) ih).congr ?_
      intro s
      constructor
      · rintro ⟨u, v, rfl, rfl, h⟩; exact ⟨v, rfl, h⟩
      · rintro ⟨v, rfl, h⟩; exact ⟨[c], v, rfl, rfl, h⟩

/-- An optional group. -/
theorem runs_group {ts : List ReTok} {M : Str → Prop} (h : Runs ts M) :
    Runs (.lparen :: ts ++ [.rparen, .quest]) fun s => s = [] ∨ M s := by
  obtain ⟨rs, m, r⟩ := h
  refine ⟨[.opt (ReFrame.catRev rs.reverse)], ?_, ?_⟩
  · intro s
    rw [matchesSeq_one, matches_opt, matches_catRev, List.reverse_reverse, m]
  · intro al cur fs b
    obtain ⟨b1, e1⟩ := r none [] (⟨al, cur⟩ :: fs) false
    rw [List.append_nil] at e1
    refine ⟨false, ?_⟩
    rw [List.cons_append, reRun]
    simp only [reStep]
    rw [reRun_append, e1]
    rfl

theorem runs_dir (ps : List Piece) :
    Runs (ps.flatMap Piece.gtoks ++ (List.replicate (groups ps) [ReTok.rparen, .quest]).flatten) (DirMatch ps) := by
  induction ps with
  | nil => exact runs_nil
  | cons q ps ih =>
    rw [List.flatMap_cons]
    cases q with
    | any =>
      rw [List.append_assoc]
      exact runs_append runs_any ih
    | seg =>
      rw [List.append_assoc]
      exact runs_append runs_seg ih
    | lit c =>
      by_cases hc : c = '/'
      · subst hc
        have e : (Piece.lit '/').gtoks ++ ps.flatMap Piece.gtoks
            ++ (List.replicate (groups (.lit '/' :: ps)) [ReTok.rparen, .quest]).flatten =
            .lparen :: ((Piece.lit '/').toks ++ (ps.flatMap Piece.gtoks
              ++ (List.replicate (groups ps) [ReTok.rparen, .quest]).flatten)) ++ [.rparen, .quest] := by
          have : groups (.lit '/' :: ps) = groups ps + 1 := rfl
          rw [this, List.replicate_succ']
          simp [Piece.gtoks, Piece.toks]
        rw [e]
        refine (runs_group (runs_append (runs_lit '/') ih)).congr ?_
        intro s
        constructor
        · rintro (rfl | ⟨u, v, rfl, rfl, h⟩)
          · exact .inl ⟨rfl, rfl⟩
          · exact .inr ⟨v, rfl, h⟩
        · rintro (⟨_, rfl⟩ | ⟨v, rfl, h⟩)
          · exact .inl rfl
          · exact .inr ⟨['/'], v, rfl, rfl, h⟩
      · rw [groups_lit hc, gtoks_lit hc, List.append_assoc]
        refine (runs_append (runs_lit c) ih).congr ?_
        intro s
        constructor
        · rintro ⟨u, v, rfl, rfl, h⟩; exact .inr ⟨v, rfl, h⟩
        · rintro (⟨h, _⟩ | ⟨v, rfl, h⟩)
          · exact absurd h hc
          · exact ⟨[c], v, rfl, rfl, h⟩

/-! ### Alternatives -/

/-- The text of an expression that matches as `M` says. -/
def Reads (t : Str) (M : Str → Prop) : Prop :=
  ∃ ts, (∀ s, reTokens (t ++ s) = (reTokens s).map (ts ++ ·)) ∧ Runs ts M

theorem reads_file (p : Str) : Reads (fileRegex p) (Accepts p) :=
  ⟨_, fun s => by rw [fileRegex_eq, reTokens_pieces], (runs_file _).congr fun _ => filePieces_match⟩

theorem reads_dir (p : Str) : Reads (directoryRegex p) (DirMatch (dirPieces p)) := by
  refine ⟨_, fun s => ?_, runs_dir _⟩
  rw [directoryRegex_eq, List.append_assoc, reTokens_groups, reTokens_close]
  cases reTokens s <;> simp

theorem joinBar_run {α : Type} {text : α → Str} {M : α → Str → Prop} (h : ∀ x, Reads (text x) (M x)) :
    ∀ (x : α) (xs : List α), ∃ ts, reTokens (joinBar ((x :: xs).map text)) = some ts ∧
      ∀ al b, ∃ f b', reRun [⟨al, []⟩] b ts = some ([f], b') ∧
        ∀ s, Matches f.close s ↔ (∃ a, al = some a ∧ Matches a s) ∨ ∃ y ∈ x :: xs, M y s := by
  have close : ∀ (al : Option Regex) (rs : List Regex) (s : Str),
      Matches (ReFrame.close ⟨al, rs.reverse⟩) s ↔ (∃ a, al = some a ∧ Matches a s) ∨ MatchesSeq rs s := by
    intro al rs s
    cases al with
    | none => simp [ReFrame.close, matches_catRev]
    | some a => simp [ReFrame.close, matches_alt, matches_catRev]
  intro x xs
  induction xs generalizing x with
  | nil =>
    obtain ⟨ts, h1, rs, h2, h3⟩ := h x
    refine ⟨ts, ?_, ?_⟩
    · have := h1 []
      simpa [joinBar, reTokens] using this
    · intro al b
      obtain ⟨b', h4⟩ := h3 al [] [] b
      rw [List.append_nil] at h4
      refine ⟨_, b', h4, ?_⟩
      intro s
      rw [close, h2]
      simp
  | cons y xs ih =>
    obtain ⟨ts, h1, rs, h2, h3⟩ := h x
    obtain ⟨us, h4, h5⟩ := ih y
    refine ⟨ts ++ .bar :: us, ?_, ?_⟩
    · have e : joinBar ((x :: y :: xs).map text) = text x ++ '|' :: joinBar ((y :: xs).map text) := rfl
      rw [e, h1, reTokens_simple (t := .bar) (by decide) (by decide) rfl, h4]
      rfl
    · intro al b
      obtain ⟨b', h6⟩ := h3 al [] [] b
      rw [List.append_nil] at h6
      obtain ⟨f, b'', h7, h8⟩ := h5 (some (ReFrame.close ⟨al, rs.reverse⟩)) false
      refine ⟨f, b'', ?_, ?_⟩
      · rw [reRun_append, h6]
        exact h7
      · intro s
        rw [h8]
        simp only [Option.some.injEq]
        constructor
        · rintro (⟨a, rfl, ha⟩ | ⟨z, hz, hm⟩)
          · rcases (close _ _ _).1 ha with ha | ha
            · exact .inl ha
            · exact .inr ⟨x, by simp, (h2 s).1 ha⟩
          · exact .inr ⟨z, List.mem_cons_of_mem _ hz, hm⟩
        · rintro (ha | ⟨z, hz, hm⟩)
          · exact .inl ⟨_, rfl, (close _ _ _).2 (.inl ha)⟩
          · rcases List.mem_cons.1 hz with rfl | hz
            · exact .inl ⟨_, rfl, (close _ _ _).2 (.inr ((h2 s).2 hm))⟩
            · exact .inr ⟨z, hz, hm⟩

theorem joinBar_parse {α : Type} {text : α → Str} {M : α → Str → Prop} (h : ∀ x, Reads (text x) (M x))
    (xs : List α) : ∃ r, re2Parse (joinBar (xs.map text)) = some r ∧
      ∀ s, r.fullMatch s = true ↔ (xs = [] ∧ s = []) ∨ ∃ x ∈ xs, M x s := by
  cases xs with
  | nil => exact ⟨.eps, rfl, fun s => by rw [fullMatch_iff, matches_eps]; simp⟩
  | cons x xs =>
    obtain ⟨ts, h1, h2⟩ := joinBar_run h x xs
    obtain ⟨f, b', h3, h4⟩ := h2 none false
    refine ⟨f.close, by simp only [re2Parse, h1, h3], fun s => ?_⟩
    rw [fullMatch_iff, h4]
    simp

theorem accepts_plain {p s : Str} (h : '*' ∉ p) : Accepts p s ↔ s = p := by
  constructor
  · intro ha
    induction ha with
    | nil => rfl
    | deep => simp at h
    | star => simp at h
    | char _ _ ih => rw [ih fun hm => h (by simp [hm])]
  · rintro rfl
    induction s with
    | nil => exact .nil
    | cons c s ih =>
      simp only [List.mem_cons, not_or] at h
      exact .char (fun e => h.1 e.symm) (ih h.2)

/-- The file names that are matched; no file has an empty name. -/
theorem filename_matches {patterns : List Str} {s : Str} (hs : s ≠ []) :
    (makeFilenameMatcher patterns).matches s = true ↔ ∃ p ∈ patterns, Accepts p s := by
  obtain ⟨r, h1, h2⟩ := joinBar_parse reads_file (patterns.filter (fun p => '*' ∈ p))
  simp only [PathMatcher.matches, makeFilenameMatcher, h1, Bool.or_eq_true, decide_eq_true_eq, h2, hs, and_false,
    false_or, List.mem_filter]
  constructor
  · rintro (⟨hm, hp⟩ | ⟨p, ⟨hm, _⟩, ha⟩)
    · exact ⟨s, hm, (accepts_plain (by simpa using hp)).2 rfl⟩
    · exact ⟨p, hm, ha⟩
  · rintro ⟨p, hm, ha⟩
    by_cases hp : '*' ∈ p
    · exact .inr ⟨p, ⟨hm, by simpa using hp⟩, ha⟩
    · have := (accepts_plain hp).1 ha
      subst this
      exact .inl ⟨hm, by simpa using hp⟩

/-! ### Directories -/

theorem last_slash {p : Str} (h : '/' ∈ p) : ∃ d r, p = d ++ '/' :: r ∧ '/' ∉ r := by
  induction p with
  | nil => cases h
  | cons c p ih =>
    by_cases hp : '/' ∈ p
    · obtain ⟨d, r, rfl, hr⟩ := ih hp
      exact ⟨c :: d, r, rfl, hr⟩
    · rcases List.mem_cons.1 h with rfl | h
      · exact ⟨[], p, rfl, hp⟩
      · exact absurd h hp

theorem beforeLastSlash_none {p : Str} (h : '/' ∉ p) : beforeLastSlash p = none := by
  simp [beforeLastSlash, h]

theorem beforeLastSlash_some {d r : Str} (hr : '/' ∉ r) : beforeLastSlash (d ++ '/' :: r) = some d := by
  have hall : ∀ c ∈ r.reverse, decide (c ≠ '/') = true := by
    intro c hc
    simp only [decide_eq_true_eq]
    rintro rfl
    exact hr (by simpa using hc)
  simp only [beforeLastSlash, List.mem_append, List.mem_cons, true_or, or_true, if_true, List.reverse_append,
    List.reverse_cons, List.append_assoc, List.cons_append, List.nil_append]
  rw [List.dropWhile_append_of_pos hall]
  simp

theorem accepts_no_slash {p f : Str} (h : Accepts p f) : '/' ∉ p → '/' ∉ f := by
  induction h with
  | nil => simp
  | deep => simp
  | star _ hu _ ih =>
    intro hp
    simp only [List.mem_append, not_or]
    exact ⟨hu, ih fun h => hp (by simp [h])⟩
  | char _ _ ih =>
    intro hp
    simp only [List.mem_cons, not_or] at hp ⊢
    exact ⟨hp.1, ih hp.2⟩

/-- One more star matches more. -/
theorem dirPieces_star {q : Str} : ∀ {u v : Str}, '/' ∉ u → '\n' ∉ u ++ v → DirMatch (dirPieces q) v →
    DirMatch (dirPieces ('*' :: q)) (u ++ v) := by
  refine dirPieces_induct (P := fun q => ∀ {u v : Str}, '/' ∉ u → '\n' ∉ u ++ v → DirMatch (dirPieces q) v →
    DirMatch (dirPieces ('*' :: q)) (u ++ v)) ?_ ?_ ?_ ?_ q
  · intro u v hu hn h
    rw [dirPieces_seg (by simp)]
    exact ⟨u, v, rfl, hu, h⟩
  · intro q ih u v hu hn h
    rw [dirPieces_any] at h
    obtain ⟨u2, v2, rfl, hu2, h⟩ := h
    rw [dirPieces_any]
    refine ⟨u ++ u2, v2, by simp, ?_, ?_⟩
    · simp only [List.mem_append, not_or] at hn ⊢
      exact ⟨hn.1, hn.2.1⟩
    · refine ih (u := []) (by simp) ?_ h
      simp only [List.mem_append, not_or] at hn ⊢
      exact ⟨by simp, hn.2.2⟩
  · intro q hq _ u v hu hn h
    rw [dirPieces_seg hq] at h
    obtain ⟨u2, v2, rfl, hu2, h⟩ := h
    rw [dirPieces_any]
    refine ⟨u ++ u2, v2, by simp, ?_, h⟩
    simp only [List.mem_append, not_or] at hn ⊢
    exact ⟨hn.1, hn.2.1⟩
  · intro c q hc _ u v hu hn h
    rw [dirPieces_seg (by simpa using hc)]
    exact ⟨u, v, rfl, hu, h⟩

/-- A text without slashes ends before the first one. -/
theorem split_slash {u f d rest : Str} (hu : '/' ∉ u) (h : u ++ f = d ++ '/' :: rest) :
    ∃ d', d = u ++ d' ∧ f = d' ++ '/' :: rest := by
  induction u generalizing d with
  | nil => exact ⟨d, rfl, h⟩
  | cons c u ih =>
    cases d with
    | nil =>
      simp only [List.cons_append, List.nil_append, List.cons.injEq] at h
      exact absurd (by rw [h.1]; simp) hu
    | cons e d =>
      simp only [List.cons_append, List.cons.injEq] at h
      obtain ⟨d', rfl, hf⟩ := ih (fun hm => hu (by simp [hm])) h.2
      exact ⟨d', by rw [h.1]; rfl, hf⟩

/-- Directories of accepted files are accepted. -/
theorem dirPieces_prunes {p f : Str} (h : Accepts p f) : ∀ {q r d rest : Str}, p = q ++ '/' :: r → '/' ∉ r →
    f = d ++ '/' :: rest → '\n' ∉ f → DirMatch (dirPieces q) d := by
  induction h with
  | nil =>
    intro q r d rest hp
    cases q <;> cases hp
  | @deep p u s hu _ _ =>
    intro q r d rest hp _ hf hn
    have hd : '\n' ∉ d := by
      rw [hf] at hn
      exact fun h => hn (by simp [h])
    match q, hp with
    | [], hp => simp at hp
    | [a], hp => simp at hp
    | [a, b], hp =>
      simp only [List.cons_append, List.nil_append, List.cons.injEq] at hp
      obtain ⟨rfl, rfl, _⟩ := hp
      exact ⟨d, [], by simp, hd, rfl⟩
    | a :: b :: c :: q, hp =>
      simp only [List.cons_append, List.nil_append, List.cons.injEq] at hp
      obtain ⟨rfl, rfl, rfl, _⟩ := hp
      rw [dirPieces_any, dirPieces_lit (by decide)]
      exact ⟨d, [], by simp, hd, .inl ⟨rfl, rfl⟩⟩
  | @star p u s _ hu _ ih =>
    intro q r d rest hp hr hf hn
    cases q with
    | nil => simp at hp
    | cons a q =>
      simp only [List.cons_append, List.cons.injEq] at hp
      obtain ⟨rfl, hp⟩ := hp
      obtain ⟨d', rfl, hs⟩ := split_slash hu hf
      have hn' : '\n' ∉ u ++ d' ∧ '\n' ∉ s := by
        rw [hs] at hn ⊢
        simp only [List.mem_append, not_or] at hn ⊢
        exact ⟨⟨hn.1, hn.2.1⟩, hn.2⟩
      exact dirPieces_star hu hn'.1 (ih hp hr hs hn'.2)
  | @char c p s hc ha ih =>
    intro q r d rest hp hr hf hn
    cases q with
    | nil =>
      simp only [List.nil_append, List.cons.injEq] at hp
      obtain ⟨rfl, rfl⟩ := hp
      have := accepts_no_slash ha hr
      cases d with
      | nil => rfl
      | cons e d =>
        simp only [List.cons_append, List.cons.injEq] at hf
        rw [hf.2] at this
        simp at this
    | cons a q =>
      simp only [List.cons_append, List.cons.injEq] at hp
      obtain ⟨rfl, hp⟩ := hp
      rw [dirPieces_lit hc]
      cases d with
      | nil =>
        simp only [List.nil_append, List.cons.injEq] at hf
        exact .inl ⟨hf.1, rfl⟩
      | cons e d =>
        simp only [List.cons_append, List.cons.injEq] at hf
        refine .inr ⟨d, by rw [hf.1], ih hp hr hf.2 fun h => hn (by simp [h])⟩

theorem directoriesOf_self (pre q : Str) : pre ++ q ∈ directoriesOf pre q := by
  induction q generalizing pre with
  | nil => simp [directoriesOf]
  | cons c q ih =>
    have := ih (pre ++ [c])
    rw [List.append_assoc] at this
    simp only [directoriesOf]
    split
    · exact List.mem_cons_of_mem _ this
    · exact this

theorem directoriesOf_mem {pre q d b : Str} (h : q = d ++ '/' :: b) : pre ++ d ∈ directoriesOf pre q := by
  induction d generalizing pre q with
  | nil => subst h; simp [directoriesOf]
  | cons c d ih =>
    subst h
    have := ih (pre := pre ++ [c]) rfl
    rw [List.append_assoc] at this
    simp only [List.cons_append, directoriesOf]
    split
    · exact List.mem_cons_of_mem _ this
    · exact this

/-- A pattern without stars in the directory part. -/
theorem accepts_plain_dir {q r f : Str} (hq : '*' ∉ q) (h : Accepts (q ++ '/' :: r) f) :
    ∃ s, f = q ++ '/' :: s ∧ Accepts r s := by
  induction q generalizing f with
  | nil =>
    cases h with
    | char _ h => exact ⟨_, rfl, h⟩
  | cons c q ih =>
    simp only [List.mem_cons, not_or] at hq
    generalize hp : c :: q ++ '/' :: r = p at h
    cases h with
    | nil => cases hp
    | deep _ _ => simp only [List.cons_append, List.nil_append, List.cons.injEq] at hp; exact absurd hp.1.symm hq.1
    | star _ _ _ => simp only [List.cons_append, List.cons.injEq] at hp; exact absurd hp.1.symm hq.1
    | char _ h =>
      simp only [List.cons_append, List.cons.injEq] at hp
      obtain ⟨rfl, rfl⟩ := hp
      obtain ⟨s, rfl, hs⟩ := ih hq.2 h
      exact ⟨s, rfl, hs⟩

/-- The directory part of a pattern, if it has a star. -/
def starDir (p : Str) : Option Str :=
  match beforeLastSlash p with
  | some d => if '*' ∈ d then some d else none
  | none => none

theorem makeDirectoryMatcher_regex (patterns : List Str) :
    (makeDirectoryMatcher patterns).regex = joinBar ((patterns.filterMap starDir).map directoryRegex) := by
  simp only [makeDirectoryMatcher, List.map_filterMap]
  congr 2
  funext p
  unfold starDir
  cases beforeLastSlash p with
  | none => rfl
  | some d => by_cases h : '*' ∈ d <;> simp [h]

theorem directoryMatches_prunes {incl : List Str} {p f d rest : Str} (hp : p ∈ incl) (ha : Accepts p f)
    (hn : '\n' ∉ f) (hf : f = d ++ '/' :: rest) : directoryMatches incl d = true := by
  obtain ⟨r, h1, h2⟩ := joinBar_parse reads_dir (incl.filterMap starDir)
  unfold directoryMatches PathMatcher.matches
  rw [makeDirectoryMatcher_regex, h1, Bool.or_eq_true, decide_eq_true_eq]
  simp only [h2]
  have hs : '/' ∈ p := by
    cases Decidable.em ('/' ∈ p) with
    | inl h => exact h
    | inr h => exact absurd (by rw [hf]; simp) (accepts_no_slash ha h)
  obtain ⟨q, t, rfl, ht⟩ := last_slash hs
  have hb := beforeLastSlash_some (d := q) ht
  by_cases hq : '*' ∈ q
  · exact .inr (.inr ⟨q, List.mem_filterMap.2 ⟨_, hp, by simp [starDir, hb, hq]⟩, dirPieces_prunes ha rfl ht hf hn⟩)
  · left
    refine List.mem_flatMap.2 ⟨_, hp, ?_⟩
    simp only [hb, hq, if_false]
    obtain ⟨s, h3, h4⟩ := accepts_plain_dir hq ha
    have h5 := accepts_no_slash h4 ht
    have h6 := h3.symm.trans hf
    by_cases hd : d = q
    · subst hd
      exact directoriesOf_self [] d
    · have : ∃ b, q = d ++ '/' :: b := by
        rcases List.append_eq_append_iff.1 h6 with ⟨a, h7, h8⟩ | ⟨a, h7, h8⟩
        · cases a with
          | nil => exact absurd (by simpa using h7) hd
          | cons x a =>
            simp only [List.cons_append, List.cons.injEq] at h8
            exact absurd (by rw [h8.2]; simp) h5
        · cases a with
          | nil => exact absurd (by simpa using h7.symm) hd
          | cons x a =>
            simp only [List.cons_append, List.cons.injEq] at h8
            exact ⟨a, by rw [h7, h8.1]⟩
      obtain ⟨b, hb⟩ := this
      exact directoriesOf_mem (pre := []) hb

end Glob
end Bant
