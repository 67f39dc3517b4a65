import Verif.Lemmas.Elab

/-! Helper lemmas: elaboration and the meaning of expressions. -/
namespace Bant
namespace Elab
open Meaning

/-! ### Escape sequences -/

theorem spells_self : ∀ {t : Str}, '\\' ∉ t → Spells t t
  | [], _ => .nil
  | c :: t, h => .char (fun hc => h (by simp [hc])) (spells_self (fun h' => h (by simp [h'])))

theorem spells_unique_plain : ∀ {t s : Str}, '\\' ∉ t → Spells t s → s = t
  | [], _, _, h => by cases h; rfl
  | c :: t, s, hn, h => by
    have hc : c ≠ '\\' := fun hc => hn (by simp [hc])
    cases h with
    | char _ h => rw [spells_unique_plain (fun h' => hn (by simp [h'])) h]
    | letter => exact absurd rfl hc
    | octal => exact absurd rfl hc

theorem noOctal_plain : ∀ {t : Str}, '\\' ∉ t → noOctal t = true
  | [], _ => rfl
  | c :: t, h => by
    have hc : c ≠ '\\' := fun hc => h (by simp [hc])
    unfold noOctal
    split
    · rename_i he; cases he; exact absurd rfl hc
    · rename_i he; cases he; exact noOctal_plain (fun h' => h (by simp [h']))
    · rfl

theorem noOctal_char {c : Char} {t : Str} (h : c ≠ '\\') : noOctal (c :: t) = noOctal t := by
  unfold noOctal
  split
  · rename_i he; cases he; exact absurd rfl h
  · rename_i he; cases he; rw [noOctal.eq_def]
  · rename_i he; cases he

/-- Without octal escapes, text can be put together. -/
theorem spells_append {a x : Str} (h : Spells a x) : ∀ {b y : Str}, noOctal a = true → Spells b y →
    noOctal b = true → Spells (a ++ b) (x ++ y) ∧ noOctal (a ++ b) = true := by
  induction h with
  | nil => intro b y _ h1 h2; exact ⟨h1, h2⟩
  | char hc _ ih =>
    intro b y h1 h2 h3
    rw [noOctal_char hc] at h1
    obtain ⟨h4, h5⟩ := ih h1 h2 h3
    exact ⟨.char hc h4, by rw [List.cons_append, noOctal_char hc]; exact h5⟩
  | letter hl _ ih =>
    intro b y h1 h2 h3
    simp only [noOctal, Bool.and_eq_true] at h1
    obtain ⟨h4, h5⟩ := ih h1.2 h2 h3
    exact ⟨.letter hl h4, by simp [noOctal, h5]; simpa using h1.1⟩
  | @octal ds n t s hne hd _ _ _ _ _ =>
    intro b y h1 h2 h3
    cases ds with
    | nil => exact absurd rfl hne
    | cons d ds =>
      simp only [noOctal, List.cons_append, Bool.and_eq_true] at h1
      have := hd d (by simp)
      have h1 := h1.1
      simp at h1
      exact absurd this h1

/-- What a string without special characters can be written as. -/
theorem spells_inv {a x : Str} (h : Spells a x) : noOctal a = true →
    (∀ c ∈ x, ∀ d e, (d, e) ∈ letterEscapes → c ≠ e) → a = x := by
  induction h with
  | nil => intro _ _; rfl
  | char hc _ ih =>
    intro h1 h2
    rw [noOctal_char hc] at h1
    rw [ih h1 (fun c h => h2 c (by simp [h]))]
  | letter hl _ ih => intro _ h2; exact absurd rfl (h2 _ (by simp) _ _ hl)
  | @octal ds n t s hne hd _ _ _ _ _ =>
    intro h1
    cases ds with
    | nil => exact absurd rfl hne
    | cons d ds =>
      simp only [noOctal, List.cons_append, Bool.and_eq_true] at h1
      have := hd d (by simp)
      have h1 := h1.1
      simp at h1
      exact absurd this h1

theorem default_text {t : Str} (h : Spells t c!"//conditions:default") (ho : noOctal t = true) :
    t = c!"//conditions:default" := by
  refine spells_inv h ho ?_
  intro c hc d e hm
  have h1 : ∀ c ∈ c!"//conditions:default", c ∉ letterEscapes.map (·.2) := by decide
  intro he
  exact h1 c hc (List.mem_map.2 ⟨(d, e), hm, he.symm⟩)

/-! ### Elaborated trees -/

/-- Trees that are what they mean: lists and strings are literals. -/
inductive NF (I : Interp) : Node → Prop
  | str {t tr raw} : (raw = true → '\\' ∉ t) → noOctal t = true → NF I (.str t tr raw)
  | int {rep i} : rep ≠ c!"//conditions:default" → NF I (.int rep i)
  | list {ty xs} : (∀ x ∈ xs, NF I x) → NF I (.list ty xs)
  | entry {k v} : NF I k → NF I v → NF I (.binop (.op ':') k v)
  | other {n} : (∀ rep i, n ≠ .int rep i) → (∀ v, Means I noVars n v → ∃ i, v = .int i) → NF I n

theorem nf_str {I : Interp} {n : Node} {s : Str} (h : NF I n) (hm : Means I noVars n (.str s)) :
    ∃ t tr raw, n = .str t tr raw ∧ Spells t s ∧ noOctal t = true := by
  cases h with
  | str h1 h2 =>
    cases hm with
    | raw => exact ⟨_, _, _, rfl, spells_self (h1 rfl), h2⟩
    | str h => exact ⟨_, _, _, rfl, h, h2⟩
  | int => cases hm
  | list => cases hm
  | entry => cases hm
  | other _ h => obtain ⟨i, h⟩ := h _ hm; cases h

theorem nf_list {I : Interp} {n : Node} {ty : ListType} {vs : List Val} (h : NF I n)
    (hm : Means I noVars n (.list ty vs)) :
    ∃ xs, n = .list ty xs ∧ MeansAll I noVars xs vs ∧ ∀ x ∈ xs, NF I x := by
  cases h with
  | str => cases hm
  | int => cases hm
  | list h => cases hm with | list hm => exact ⟨_, rfl, hm, h⟩
  | entry => cases hm
  | other _ h => obtain ⟨i, h⟩ := h _ hm; cases h

theorem nf_entry {I : Interp} {n : Node} {a b : Val} (h : NF I n)
    (hm : Means I noVars n (.entry a b)) :
    ∃ k v, n = .binop (.op ':') k v ∧ Means I noVars k a ∧ Means I noVars v b ∧ NF I k ∧ NF I v := by
  cases h with
  | str => cases hm
  | int => cases hm
  | list => cases hm
  | entry h1 h2 =>
    cases hm with
    | entry h3 h4 => exact ⟨_, _, rfl, h3, h4, h1, h2⟩
  | other _ h => obtain ⟨i, h⟩ := h _ hm; cases h

theorem means_ne_null {I : Interp} {env : Env} {n : Node} {v : Val} (h : Means I env n v) :
    n.isNull = false := by
  cases h <;> rfl

theorem meansAll_append {I : Interp} {env : Env} {xs ys : List Node} {vs ws : List Val}
    (h1 : MeansAll I env xs vs) (h2 : MeansAll I env ys ws) : MeansAll I env (xs ++ ys) (vs ++ ws) := by
  induction xs generalizing vs with
  | nil => cases h1; exact h2
  | cons x xs ih => cases h1 with | cons h3 h4 => exact .cons h3 (ih h4)

/-! ### `+` and `select()` -/

theorem plus_str {I : Interp} {l r n : Node} {a b : Str} (hl : NF I l) (hr : NF I r)
    (h1 : Means I noVars l (.str a)) (h2 : Means I noVars r (.str b)) (hp : plus l r = some n) :
    Means I noVars n (.str (a ++ b)) ∧ NF I n := by
  obtain ⟨t, tr, raw, rfl, h3, h4⟩ := nf_str hl h1
  obtain ⟨t', tr', raw', rfl, h5, h6⟩ := nf_str hr h2
  simp only [plus, Node.isNull, Bool.or_self, Bool.false_eq_true, if_false, Option.some.injEq] at hp
  subst hp
  obtain ⟨h7, h8⟩ := spells_append h3 h4 h5 h6
  exact ⟨.str h7, .str (by simp) h8⟩

theorem plus_list {I : Interp} {l r n : Node} {ty : ListType} {a b : List Val} (hl : NF I l)
    (hr : NF I r) (h1 : Means I noVars l (.list ty a)) (h2 : Means I noVars r (.list ty b))
    (hp : plus l r = some n) : Means I noVars n (.list ty (a ++ b)) ∧ NF I n := by
  obtain ⟨xs, rfl, h3, h4⟩ := nf_list hl h1
  obtain ⟨ys, rfl, h5, h6⟩ := nf_list hr h2
  simp only [plus, Node.isNull, Bool.or_self, Bool.false_eq_true, if_false, if_true,
    Option.some.injEq] at hp
  subst hp
  refine ⟨.list (meansAll_append h3 h5), .list ?_⟩
  intro x hx
  rcases List.mem_append.1 hx with h | h
  · exact h4 x h
  · exact h6 x h

theorem int_not_str {I : Interp} {env : Env} {n : Node} {a : Int} {s : Str} (hn : NF I n)
    (h1 : Means I env n (.int a)) (h2 : Means I noVars n (.str s)) : False := by
  obtain ⟨t, tr, raw, rfl, _⟩ := nf_str hn h2
  cases h1

theorem int_not_list {I : Interp} {env : Env} {n : Node} {a : Int} {ty : ListType} {s : List Val}
    (hn : NF I n) (h1 : Means I env n (.int a)) (h2 : Means I noVars n (.list ty s)) : False := by
  obtain ⟨t, rfl, _⟩ := nf_list hn h2
  cases h1

theorem plus_int {I : Interp} {l r n : Node} {a b i : Int} (hl : NF I l) (hr : NF I r)
    (h1 : Means I noVars l (.int a)) (h2 : Means I noVars r (.int b))
    (hi : I.op (.op '+') (.int a) (.int b) = some i) (hp : plus l r = some n) :
    Means I noVars n (.int i) ∧ NF I n := by
  have hn : n = .binop (.op '+') l r := by
    simp only [plus, means_ne_null h1, means_ne_null h2, Bool.or_self, Bool.false_eq_true,
      if_false] at hp
    split at hp
    · cases h1
    · cases h1
    · cases h2
    · cases h1
    · simpa using hp.symm
  subst hn
  refine ⟨.plusInt h1 h2 hi, .other (by simp) ?_⟩
  intro v hv
  cases hv with
  | plusStr h3 h4 => exact (int_not_str hl h1 h3).elim
  | plusList h3 h4 => exact (int_not_list hl h1 h3).elim
  | plusInt => exact ⟨_, rfl⟩
  | op => exact ⟨_, rfl⟩

theorem key_default {I : Interp} {k : Node} (hk : NF I k) (h : Means I noVars k defaultKey) :
    isDefaultCondition k = true := by
  obtain ⟨t, tr, raw, rfl, h1, h2⟩ := nf_str hk h
  simp [isDefaultCondition, default_text h1 h2]

theorem key_other {I : Interp} {k : Node} {a : Val} (hk : NF I k) (h : Means I noVars k a)
    (ha : a ≠ defaultKey) : isDefaultCondition k = false := by
  cases hd : isDefaultCondition k with
  | false => rfl
  | true =>
    exfalso
    cases k with
    | str t tr raw =>
      simp only [isDefaultCondition, decide_eq_true_eq] at hd
      subst hd
      cases h with
      | raw => exact ha rfl
      | str h => exact ha (by rw [spells_unique_plain (by decide) h]; rfl)
    | int rep i =>
      simp only [isDefaultCondition, decide_eq_true_eq] at hd
      cases hk with
      | int h => exact h hd
      | other h => exact h _ _ rfl
    | _ => simp [isDefaultCondition] at hd

theorem selectEntry_means {I : Interp} {v : Val} {post : List Val} : ∀ {pre : List Val} {es : List Node},
    MeansAll I noVars es (pre ++ .entry defaultKey v :: post) → (∀ e ∈ es, NF I e) →
    (∀ w, .entry defaultKey w ∉ pre) →
    ∃ n, selectEntry es = some (some n) ∧ Means I noVars n v ∧ NF I n
  | [], es, h, hn, _ => by
    cases h with
    | cons h1 h2 =>
      obtain ⟨k, w, rfl, h3, h4, h5, h6⟩ := nf_entry (hn _ (by simp)) h1
      exact ⟨w, by simp [selectEntry, means_ne_null h3, key_default h5 h3], h4, h6⟩
  | p :: pre, es, h, hn, hp => by
    cases h with
    | @cons _ x xs _ _ h1 h2 =>
      obtain ⟨n, h3, h4, h5⟩ := selectEntry_means h2 (fun e he => hn e (by simp [he]))
        (fun w hw => hp w (by simp [hw]))
      refine ⟨n, ?_, h4, h5⟩
      have hx := hn x (by simp)
      unfold selectEntry
      split
      · rename_i he; cases he
      · rename_i he; cases he; cases h1
      · rename_i op key value rest he
        cases he
        split
        · rename_i hop
          subst hop
          cases h1 with
          | @entry _ _ _ a b h6 h7 =>
            obtain ⟨k, w, he, h3', h4', h5', h6'⟩ := nf_entry hx (.entry h6 h7)
            cases he
            have : isDefaultCondition key = false := by
              refine key_other h5' h6 ?_
              rintro rfl
              exact hp b (by simp)
            rw [if_neg (by simp [means_ne_null h6]), if_neg (by simp [this])]
            exact h3
          | op h => exact absurd rfl h
        · exact h3
      · rename_i he; cases he; exact h3

/-! ### Elaboration of expressions keeps the meaning -/

/-- Inside of calls, no variables are assigned. -/
theorem walk_nested (glob : GlobFn) (n : Node) : ∀ (nest : Nat) (vars : Vars) (n' : Node) (vars' : Vars),
    walk glob (nest + 1) vars n = some (n', vars') → vars' = vars := by
  have hlist : ∀ xs : List Node, (∀ x ∈ xs, ∀ nest vars n' vars',
      walk glob (nest + 1) vars x = some (n', vars') → vars' = vars) →
      ∀ nest vars xs' vars', walks glob (nest + 1) vars xs = some (xs', vars') → vars' = vars := by
    intro xs
    induction xs with
    | nil => intro _ nest vars xs' vars' h; simp [walks] at h; exact h.2.symm
    | cons x xs ih =>
      intro hx nest vars xs' vars' h
      simp only [walks] at h
      split at h
      · cases h
      · rename_i x' vars1 h1
        split at h
        · cases h
        · rename_i xs1 vars2 h2
          cases h
          have e1 := hx x (by simp) nest _ _ _ h1
          have e2 := ih (fun y hy => hx y (by simp [hy])) nest _ _ _ h2
          rw [e2, e1]
  induction n using Node.induct with
  | null => intro nest vars n' vars' h; simp [walk] at h; exact h.2.symm
  | str => intro nest vars n' vars' h; simp [walk] at h; exact h.2.symm
  | int => intro nest vars n' vars' h; simp [walk] at h; exact h.2.symm
  | ident => intro nest vars n' vars' h; simp [walk] at h; exact h.2.symm
  | unary op e ih =>
    intro nest vars n' vars' h
    simp only [walk] at h
    split at h
    · cases h
    · rename_i h1; cases h; exact ih _ _ _ _ h1
  | binop op l r ih1 ih2 =>
    intro nest vars n' vars' h
    simp only [walk] at h
    split at h
    · cases h
    · rename_i l' v1 h1
      split at h
      · cases h
      · rename_i r' v2 h2
        have e1 := ih1 _ _ _ _ h1
        have e2 := ih2 _ _ _ _ h2
        split at h
        · split at h
          · cases h
          · cases h; rw [e2, e1]
        · cases h; rw [e2, e1]
  | list ty xs ih =>
    intro nest vars n' vars' h
    simp only [walk] at h
    split at h
    · cases h
    · rename_i h1; cases h; exact hlist xs ih _ _ _ _ h1
  | compr ty f ih =>
    intro nest vars n' vars' h
    simp only [walk] at h
    split at h
    · cases h
    · rename_i h1
      split at h
      · cases h
      · cases h; exact ih _ _ _ _ h1
  | ternary a b c ih1 ih2 ih3 =>
    intro nest vars n' vars' h
    simp only [walk] at h
    split at h
    · cases h
    · rename_i h1
      split at h
      · cases h
      · rename_i h2
        split at h
        · cases h
        · rename_i h3
          cases h
          rw [ih3 _ _ _ _ h3, ih2 _ _ _ _ h2, ih1 _ _ _ _ h1]
  | assign l r ih1 ih2 =>
    intro nest vars n' vars' h
    simp only [walk] at h
    split at h
    · cases h
    · rename_i h1
      split at h
      · simp at h; rw [← h.2]; exact ih2 _ _ _ _ h1
      · cases h; exact ih2 _ _ _ _ h1
  | call f a ih1 ih2 =>
    intro nest vars n' vars' h
    simp only [walk] at h
    split at h
    · cases h
    · rename_i h1
      split at h
      · cases h
      · rename_i h2
        split at h
        · cases h
        · cases h
          rw [ih2 _ _ _ _ h2, ih1 _ _ _ _ h1]

/-- The variables have the values they should have, as far as known. -/
def Agrees (I : Interp) (env : Env) (vars : Vars) : Prop :=
  ∀ x v, env x = some v → ∃ m, vars.find x = some m ∧ Means I noVars m v ∧ NF I m

/-- Elaboration of `n` keeps its meaning. -/
def Keeps (I : Interp) (glob : GlobFn) (n : Node) : Prop :=
  ∀ nest vars n' vars' env v, walk glob nest vars n = some (n', vars') → plain n = true →
    Agrees I env vars → Free (called n) vars → Means I env n v →
    vars' = vars ∧ Means I noVars n' v ∧ NF I n'

theorem walks_keeps {I : Interp} {glob : GlobFn} {env : Env} {nest : Nat} {vars : Vars} :
    ∀ {xs : List Node}, (∀ x ∈ xs, Keeps I glob x) → allPlain xs = true → Agrees I env vars →
    Free (calledIn xs) vars → ∀ {xs' vars' vs}, walks glob nest vars xs = some (xs', vars') →
    MeansAll I env xs vs → vars' = vars ∧ MeansAll I noVars xs' vs ∧ ∀ x ∈ xs', NF I x
  | [], _, _, _, _, xs', vars', vs, h, hm => by
    simp only [walks, Option.some.injEq, Prod.mk.injEq] at h
    obtain ⟨rfl, rfl⟩ := h
    cases hm
    exact ⟨rfl, .nil, by simp⟩
  | x :: xs, hk, hp, ha, hf, xs', vars', vs, h, hm => by
    simp only [allPlain, Bool.and_eq_true] at hp
    simp only [walks] at h
    cases hm with
    | cons hm1 hm2 =>
      split at h
      · cases h
      · rename_i x' vars1 h1
        split at h
        · cases h
        · rename_i xs1 vars2 h2
          cases h
          obtain ⟨e1, m1, n1⟩ := hk x (by simp) _ _ _ _ _ _ h1 hp.1 ha
            (fun f hm => hf f (by simp [calledIn, hm])) hm1
          subst e1
          obtain ⟨e2, m2, n2⟩ := walks_keeps (fun y hy => hk y (by simp [hy])) hp.2 ha
            (fun f hm => hf f (by simp [calledIn, hm])) h2 hm2
          exact ⟨e2, .cons m1 m2, by simpa using ⟨n1, n2⟩⟩

theorem keeps (I : Interp) (glob : GlobFn) (n : Node) :
    Keeps I glob n ∧ ∀ ty xs, n = .list ty xs → ∀ x ∈ xs, Keeps I glob x := by
  induction n using Node.induct with
  | null => exact ⟨(by intro _ _ _ _ _ _ _ _ _ _ hm; cases hm), by simp⟩
  | str t tr raw =>
    refine ⟨?_, by simp⟩
    intro nest vars n' vars' env v h hp _ _ hm
    simp only [walk, Option.some.injEq, Prod.mk.injEq] at h
    obtain ⟨rfl, rfl⟩ := h
    simp only [plain] at hp
    cases hm with
    | raw =>
      have : '\\' ∉ t := by simpa using hp
      exact ⟨rfl, .raw, .str (fun _ => this) (noOctal_plain this)⟩
    | str hs => exact ⟨rfl, .str hs, .str (by simp) (by simpa using hp)⟩
  | int rep i =>
    refine ⟨?_, by simp⟩
    intro nest vars n' vars' env v h hp _ _ hm
    simp only [walk, Option.some.injEq, Prod.mk.injEq] at h
    obtain ⟨rfl, rfl⟩ := h
    cases hm
    exact ⟨rfl, .int, .int (by simpa [plain] using hp)⟩
  | ident x =>
    refine ⟨?_, by simp⟩
    intro nest vars n' vars' env v h hp ha _ hm
    simp only [walk, Option.some.injEq, Prod.mk.injEq] at h
    obtain ⟨rfl, rfl⟩ := h
    cases hm with
    | ident hx =>
      obtain ⟨m, h1, h2, h3⟩ := ha x v hx
      rw [h1]
      exact ⟨rfl, h2, h3⟩
  | unary op e ih =>
    refine ⟨?_, by simp⟩
    intro nest vars n' vars' env v h hp ha hf hm
    simp only [walk] at h
    cases hm with
    | unary hm hi =>
      split at h
      · cases h
      · rename_i e' vars1 h1
        cases h
        obtain ⟨e1, m1, n1⟩ := ih.1 _ _ _ _ _ _ h1 hp ha hf hm
        refine ⟨e1, .unary m1 hi, .other (by simp) ?_⟩
        intro v hv
        cases hv
        exact ⟨_, rfl⟩
  | binop op l r ih1 ih2 =>
    refine ⟨?_, by simp⟩
    intro nest vars n' vars' env v h hp ha hf hm
    simp only [walk] at h
    simp only [plain, Bool.and_eq_true] at hp
    have hf1 : Free (called l) vars := fun f hm => hf f (by simp [called, hm])
    have hf2 : Free (called r) vars := fun f hm => hf f (by simp [called, hm])
    split at h
    · cases h
    · rename_i l' vars1 h1
      split at h
      · cases h
      · rename_i r' vars2 h2
        have both : ∀ a b, Means I env l a → Means I env r b →
            vars2 = vars ∧ Means I noVars l' a ∧ NF I l' ∧ Means I noVars r' b ∧ NF I r' := by
          intro a b ma mb
          obtain ⟨e1, m1, n1⟩ := ih1.1 _ _ _ _ _ _ h1 hp.1 ha hf1 ma
          subst e1
          obtain ⟨e2, m2, n2⟩ := ih2.1 _ _ _ _ _ _ h2 hp.2 ha hf2 mb
          exact ⟨e2, m1, n1, m2, n2⟩
        cases hm with
        | entry ma mb =>
          obtain ⟨e, m1, n1, m2, n2⟩ := both _ _ ma mb
          rw [if_neg (by decide)] at h
          cases h
          exact ⟨e, .entry m1 m2, .entry n1 n2⟩
        | plusStr ma mb =>
          obtain ⟨e, m1, n1, m2, n2⟩ := both _ _ ma mb
          rw [if_pos rfl] at h
          split at h
          · cases h
          · rename_i n hpl
            cases h
            exact ⟨e, plus_str n1 n2 m1 m2 hpl⟩
        | plusList ma mb =>
          obtain ⟨e, m1, n1, m2, n2⟩ := both _ _ ma mb
          rw [if_pos rfl] at h
          split at h
          · cases h
          · rename_i n hpl
            cases h
            exact ⟨e, plus_list n1 n2 m1 m2 hpl⟩
        | plusInt ma mb hi =>
          obtain ⟨e, m1, n1, m2, n2⟩ := both _ _ ma mb
          rw [if_pos rfl] at h
          split at h
          · cases h
          · rename_i n hpl
            cases h
            exact ⟨e, plus_int n1 n2 m1 m2 hi hpl⟩
        | op hne1 hne2 ma mb hi =>
          obtain ⟨e, m1, n1, m2, n2⟩ := both _ _ ma mb
          rw [if_neg hne2] at h
          cases h
          refine ⟨e, .op hne1 hne2 m1 m2 hi, .other (by simp) ?_⟩
          intro v hv
          cases hv with
          | entry => exact absurd rfl hne1
          | plusStr => exact absurd rfl hne2
          | plusList => exact absurd rfl hne2
          | plusInt => exact absurd rfl hne2
          | op => exact ⟨_, rfl⟩
  | list ty xs ih =>
    refine ⟨?_, by intro ty' xs' he; cases he; exact fun x hx => (ih x hx).1⟩
    intro nest vars n' vars' env v h hp ha hf hm
    simp only [walk] at h
    cases hm with
    | list hm =>
      split at h
      · cases h
      · rename_i xs' vars1 h1
        cases h
        obtain ⟨e1, m1, n1⟩ := walks_keeps (fun x hx => (ih x hx).1) (by simpa [plain] using hp) ha
          (by simpa [called] using hf) h1 hm
        exact ⟨e1, .list m1, .list n1⟩
  | compr ty f ih => exact ⟨by intro _ _ _ _ _ _ _ hp; simp [plain] at hp, by simp⟩
  | ternary => exact ⟨(by intro _ _ _ _ _ _ _ _ _ _ hm; cases hm), by simp⟩
  | assign => exact ⟨(by intro _ _ _ _ _ _ _ _ _ _ hm; cases hm), by simp⟩
  | call f args ih1 ih2 =>
    refine ⟨?_, by simp⟩
    intro nest vars n' vars' env v h hp ha hf hm
    cases hm with
    | @select _ m ty rest pre _ post hm hpre =>
      have hm' := ih2.2 _ _ rfl m (by simp)
      have hsel : vars.find c!"select" = none := hf _ (by simp [called])
      simp only [plain, allPlain, Bool.and_eq_true] at hp
      simp only [walk, walks, hsel, Option.getD_none] at h
      split at h
      · cases h
      · rename_i args' vars1 h1
        split at h1
        · cases h1
        · rename_i xs' vars2 h2
          cases h1
          split at h2
          · cases h2
          · rename_i m' vars3 h3
            split at h2
            · cases h2
            · rename_i rest' vars4 h4
              cases h2
              obtain ⟨e1, m1, n1⟩ := hm' _ _ _ _ _ _ h3 hp.2.1 ha
                (fun g hg => hf g (by simp [called, calledIn, hg])) hm
              subst e1
              have e2 : vars1 = vars3 := by
                have := walk_nested glob (.list ty rest) nest vars3 (.list ty rest') vars1
                  (by simp [walk, h4])
                exact this
              obtain ⟨es, rfl, h5, h6⟩ := nf_list n1 m1
              obtain ⟨w, h7, h8, h9⟩ := selectEntry_means h5 h6 hpre
              have : finishCall glob (.ident c!"select") (.list ty (.list .map es :: rest')) = some w := by
                simp [finishCall, selectArgs, h7]
              rw [this] at h
              cases h
              exact ⟨e2, h8, h9⟩

/-! ### Files -/

theorem walks_append (glob : GlobFn) (nest : Nat) : ∀ (xs ys : List Node) (vars : Vars),
    walks glob nest vars (xs ++ ys) =
      match walks glob nest vars xs with
      | none => none
      | some (xs', vars1) =>
        match walks glob nest vars1 ys with
        | none => none
        | some (ys', vars2) => some (xs' ++ ys', vars2)
  | [], ys, vars => by
    simp only [List.nil_append, walks]
    split <;> simp_all
  | x :: xs, ys, vars => by
    simp only [List.cons_append, walks]
    cases walk glob nest vars x with
    | none => rfl
    | some p =>
      simp only [walks_append glob nest xs ys]
      cases walks glob nest p.2 xs with
      | none => rfl
      | some q =>
        simp only
        cases walks glob nest q.2 ys with
        | none => rfl
        | some r => rfl

theorem walks_length (glob : GlobFn) (nest : Nat) : ∀ (xs : List Node) (vars : Vars) xs' vars',
    walks glob nest vars xs = some (xs', vars') → xs'.length = xs.length
  | [], vars, xs', vars', h => by simp [walks] at h; rw [← h.1]
  | x :: xs, vars, xs', vars', h => by
    simp only [walks] at h
    split at h
    · cases h
    · split at h
      · cases h
      · rename_i h2
        cases h
        simp [walks_length glob nest xs _ _ _ h2]

/-- The walk before the statement after `pre`. -/
theorem walks_split {glob : GlobFn} {pre post : List Node} {s : Node} {out : List Node} {vars2 : Vars}
    (h : walks glob 0 [] (pre ++ s :: post) = some (out, vars2)) :
    ∃ pre' vars s' vars', walks glob 0 [] pre = some (pre', vars) ∧
      walk glob 0 vars s = some (s', vars') ∧ out[pre.length]? = some s' := by
  rw [walks_append] at h
  split at h
  · cases h
  · rename_i pre' vars h1
    split at h
    · cases h
    · rename_i ys vars3 h2
      simp only [walks] at h2
      split at h2
      · cases h2
      · rename_i s' vars' h3
        split at h2
        · cases h2
        · cases h2
          cases h
          refine ⟨pre', vars, s', vars', h1, h3, ?_⟩
          rw [← walks_length _ _ _ _ _ _ h1]
          simp

theorem assigned_append (a b : List Node) : assigned (a ++ b) = assigned a ++ assigned b := by
  simp [assigned, List.filterMap_append]

theorem calledIn_append (a b : List Node) : calledIn (a ++ b) = calledIn a ++ calledIn b := by
  induction a with
  | nil => rfl
  | cons x xs ih => simp [calledIn, ih]

/-- Variables after some statements. -/
theorem walks_vars (glob : GlobFn) : ∀ (xs : List Node) (vars : Vars) xs' vars', VarsOk vars →
    (∀ x ∈ xs, Stmt x) → Free (calledIn xs) vars → (∀ f ∈ calledIn xs, f ∉ assigned xs) →
    walks glob 0 vars xs = some (xs', vars') →
    VarsOk vars' ∧ ∀ f, vars.find f = none → f ∉ assigned xs → vars'.find f = none
  | [], vars, xs', vars', hv, _, _, _, h => by
    simp only [walks, Option.some.injEq, Prod.mk.injEq] at h
    obtain ⟨_, rfl⟩ := h
    exact ⟨hv, fun f h _ => h⟩
  | x :: xs, vars, xs', vars', hv, hs, hf, ha, h => by
    have hf1 : Free (called x) vars := fun f hm => hf f (by simp [calledIn, hm])
    have hf2 : Free (calledIn xs) vars := fun f hm => hf f (by simp [calledIn, hm])
    have hs' : ∀ y ∈ xs, Stmt y := fun y hy => hs y (by simp [hy])
    have hsub : ∀ f, f ∈ assigned xs → f ∈ assigned (x :: xs) := by
      intro f hm
      simp only [assigned, List.filterMap_cons]
      split
      · exact hm
      · exact List.mem_cons_of_mem _ hm
    have ha' : ∀ f ∈ calledIn xs, f ∉ assigned xs :=
      fun f hm hm' => ha f (by simp [calledIn, hm]) (hsub f hm')
    simp only [walks] at h
    rcases walk_stmt glob hv (hs x (by simp)) hf1 with ⟨v, e, e', rfl, _, h2, h3⟩ | ⟨_, n', h1, _⟩
    · rw [h3] at h
      have hf3 : Free (calledIn xs) ((v, e') :: vars) := by
        intro f hm
        rw [find_cons, if_neg]
        · exact hf2 f hm
        · rintro rfl
          exact ha v (by simp [calledIn, hm]) (by simp [assigned])
      simp only at h
      split at h
      · cases h
      · rename_i hr
        cases h
        obtain ⟨h4, h5⟩ := walks_vars glob xs _ _ _ (varsOk_cons h2 hv) hs' hf3 ha' hr
        refine ⟨h4, ?_⟩
        intro f hf hna
        refine h5 f ?_ (fun hm => hna (hsub f hm))
        rw [find_cons, if_neg]
        · exact hf
        · rintro rfl
          exact hna (by simp [assigned])
    · rw [h1] at h
      simp only at h
      split at h
      · cases h
      · rename_i hr
        cases h
        obtain ⟨h4, h5⟩ := walks_vars glob xs _ _ _ hv hs' hf2 ha' hr
        exact ⟨h4, fun f hf hna => h5 f hf (fun hm => hna (hsub f hm))⟩

/-- The values of the variables are what they mean. -/
theorem walks_agrees (I : Interp) (glob : GlobFn) {ss : List Node} {env : Env}
    (hr : Reaches I ss env) : ∀ {ss' vars}, walks glob 0 [] ss = some (ss', vars) →
    (∀ x ∈ ss, Stmt x) → (∀ f ∈ calledIn ss, f ∉ assigned ss) → (∀ x ∈ ss, plain x = true) →
    (∀ x ∈ ss, ∀ ty xs e, x ≠ .assign (.list ty xs) e) → Agrees I env vars := by
  induction hr with
  | start => intro ss' vars _ _ _ _ _ x v h; simp [noVars] at h
  | @step ss env n env' _ haft ih =>
    intro ss' vars h hs ha hp ht
    rw [walks_append] at h
    split at h
    · cases h
    · rename_i pre' vars0 h1
      simp only [walks] at h
      have hs1 : ∀ x ∈ ss, Stmt x := fun x hx => hs x (by simp [hx])
      have ha1 : ∀ f ∈ calledIn ss, f ∉ assigned ss := by
        intro f hm hm'
        exact ha f (by simp [calledIn_append, hm]) (by simp [assigned_append, hm'])
      have hag := ih h1 hs1 ha1 (fun x hx => hp x (by simp [hx])) (fun x hx => ht x (by simp [hx]))
      have hv0 : VarsOk ([] : Vars) := by intro x m hm; simp [Vars.find] at hm
      obtain ⟨hv, hfr⟩ := walks_vars glob ss [] _ _ hv0 hs1
        (fun f _ => rfl) ha1 h1
      have hfn : Free (called n) vars0 := by
        intro f hm
        refine hfr f rfl ?_
        intro hm'
        exact ha f (by simp [calledIn_append, calledIn, hm]) (by simp [assigned_append, hm'])
      split at h
      · cases h
      · rename_i s' vars1 h2
        split at h2
        · cases h2
        · rename_i x' vars2 h3
          cases h2
          cases h
          rcases walk_stmt glob hv (hs n (by simp)) hfn with ⟨v, e, e', rfl, h4, h5, h6⟩ | ⟨hne, n', h4, _⟩
          · rw [h6] at h3
            cases h3
            cases haft with
            | assign hm =>
              obtain ⟨_, m1, n1⟩ := (keeps I glob e).1 _ _ _ _ _ _ h4
                (by have := hp (.assign (.ident v) e) (by simp); simp [plain] at this; exact this) hag
                (fun f hm => hfn f (by simp [called, hm])) hm
              intro y w hy
              rw [find_cons]
              simp only [Env.set] at hy
              by_cases hxy : y = v
              · subst hxy
                simp only [if_true, Option.some.injEq] at hy
                subst hy
                exact ⟨e', by simp, m1, n1⟩
              · rw [if_neg hxy] at hy
                rw [if_neg (fun h => hxy h.symm)]
                exact hag y w hy
            | unknown _ =>
              intro y w hy
              rw [find_cons]
              simp only [Env.set] at hy
              by_cases hxy : y = v
              · simp [hxy] at hy
              · rw [if_neg hxy] at hy
                rw [if_neg (fun h => hxy h.symm)]
                exact hag y w hy
            | other h => exact absurd rfl (h _ _)
          · rw [h4] at h3
            cases h3
            cases haft with
            | assign _ => exact absurd rfl (hne _ _)
            | unknown _ => exact absurd rfl (hne _ _)
            | unpack _ => exact absurd rfl (ht _ (List.mem_append_right _ (List.mem_singleton.2 rfl)) _ _ _)
            | other _ => exact hag

/-- Arguments of calls keep their meaning. -/
theorem walks_args {I : Interp} {glob : GlobFn} {env : Env} {nest : Nat} {vars : Vars}
    (ha : Agrees I env vars) : ∀ {xs xs' : List Node} {vars' : Vars}, allPlain xs = true →
    Free (calledIn xs) vars → walks glob (nest + 1) vars xs = some (xs', vars') →
    ∀ (i : Nat) (v : Val),
      (∀ n, xs[i]? = some n → Means I env n v → ∃ n', xs'[i]? = some n' ∧ Means I noVars n' v) ∧
      (∀ a e, xs[i]? = some (Node.assign (.ident a) e) → Means I env e v →
        ∃ e', xs'[i]? = some (Node.assign (.ident a) e') ∧ Means I noVars e' v)
  | [], _, _, _, _, _ => by intro i v; simp
  | x :: xs, xs', vars', hp, hf, h => by
    simp only [allPlain, Bool.and_eq_true] at hp
    simp only [walks] at h
    split at h
    · cases h
    · rename_i x' vars1 h1
      have e1 := walk_nested glob x nest vars x' vars1 h1
      subst e1
      split at h
      · cases h
      · rename_i xs1 vars2 h2
        cases h
        have ih := walks_args (nest := nest) ha hp.2 (fun f hm => hf f (by simp [calledIn, hm])) h2
        have hf1 : Free (called x) vars1 := fun f hm => hf f (by simp [calledIn, hm])
        intro i v
        cases i with
        | succ i => simpa using ih i v
        | zero =>
          constructor
          · intro n hn hm
            simp only [List.getElem?_cons_zero, Option.some.injEq] at hn ⊢
            subst hn
            exact ⟨x', rfl, ((keeps I glob x).1 _ _ _ _ _ _ h1 hp.1 ha hf1 hm).2.1⟩
          · intro a e hn hm
            simp only [List.getElem?_cons_zero, Option.some.injEq] at hn ⊢
            subst hn
            simp only [walk] at h1
            split at h1
            · cases h1
            · rename_i e' vars3 h3
              cases h1
              exact ⟨e', rfl, ((keeps I glob e).1 _ _ _ _ _ _ h3 (by simpa [plain] using hp.1) ha
                (fun f hm => hf1 f (by simp [called, hm])) hm).2.1⟩

end Elab
end Bant
