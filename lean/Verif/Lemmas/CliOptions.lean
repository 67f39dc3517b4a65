import Verif.Lemmas.Cli

/-! Lemmas: what `getopt` returns, and what comes of it. -/
namespace Bant
namespace Cli
open CliSpec

/-- An option that `getopt` knows, with an argument if it needs one. -/
def WellFormed (os : Str) : Opt → Prop
  | .bad => True
  | .opt c arg => ∃ k, takes os c = some k ∧ (k = .argument → arg ≠ none)

theorem cluster_wellFormed (os : Str) (w : Str) :
    (∀ o ∈ (cluster os w).1, WellFormed os o) ∧ ∀ c, (cluster os w).2 = some c → takes os c = some .argument := by
  induction w with
  | nil => simp [cluster]
  | cons c cs ih =>
    rw [cluster]
    cases h : takes os c with
    | none =>
      simp only
      refine ⟨?_, ih.2⟩
      intro o ho
      rcases List.mem_cons.1 ho with rfl | ho
      · trivial
      · exact ih.1 o ho
    | some k =>
      cases k with
      | nothing =>
        simp only
        refine ⟨?_, ih.2⟩
        intro o ho
        rcases List.mem_cons.1 ho with rfl | ho
        · exact ⟨_, h, by simp⟩
        · exact ih.1 o ho
      | maybeArgument =>
        simp only [List.mem_singleton, forall_eq, reduceCtorEq, false_implies, implies_true, and_true]
        exact ⟨_, h, by simp⟩
      | argument =>
        by_cases hcs : cs = []
        · simp [hcs, h]
        · simp only [hcs, if_false, List.mem_singleton, forall_eq, reduceCtorEq, false_implies, implies_true, and_true]
          exact ⟨_, h, by simp⟩

theorem getopt_wellFormed (os : Str) : ∀ (args : List Str), ∀ o ∈ (getopt os args).1, WellFormed os o
  | [] => by simp [getopt]
  | a :: rest => by
    have hc := cluster_wellFormed os (a.drop 1)
    rw [getopt.eq_def]
    simp only
    split
    · simp
    · split
      · cases hcl : cluster os (a.drop 1) with
        | mk l need =>
          rw [hcl] at hc
          cases need with
          | none =>
            simp only
            intro o ho
            rcases List.mem_append.1 ho with ho | ho
            · exact hc.1 o ho
            · exact getopt_wellFormed os rest o ho
          | some c =>
            cases rest with
            | nil =>
              simp only
              intro o ho
              rcases List.mem_append.1 ho with ho | ho
              · exact hc.1 o ho
              · simp only [List.mem_singleton] at ho
                subst ho
                trivial
            | cons b rest =>
              simp only
              intro o ho
              rcases List.mem_append.1 ho with ho | ho
              · exact hc.1 o ho
              · rcases List.mem_cons.1 ho with rfl | ho
                · exact ⟨_, hc.2 c rfl, by simp⟩
                · exact getopt_wellFormed os rest o ho
      · exact getopt_wellFormed os rest

/-- If all options are known, a larger `optstring` makes no difference. -/
theorem cluster_congr {os os' : Str} (h : ∀ c k, takes os c = some k → takes os' c = some k) {w : Str}
    (hb : Opt.bad ∉ (cluster os w).1) : cluster os' w = cluster os w := by
  induction w with
  | nil => rfl
  | cons c cs ih =>
    rw [cluster, cluster]
    rw [cluster] at hb
    cases hk : takes os c with
    | none => rw [hk] at hb; simp at hb
    | some k =>
      rw [hk] at hb
      rw [h c k hk]
      cases k with
      | nothing =>
        simp only [List.mem_cons, reduceCtorEq, false_or] at hb
        simp only [ih hb]
      | maybeArgument => rfl
      | argument => rfl

theorem getopt_congr {os os' : Str} (h : ∀ c k, takes os c = some k → takes os' c = some k) :
    ∀ {args : List Str}, Opt.bad ∉ (getopt os args).1 → getopt os' args = getopt os args
  | [], _ => rfl
  | a :: rest, hb => by
    rw [getopt.eq_def, getopt.eq_def os]
    rw [getopt.eq_def] at hb
    simp only at hb ⊢
    split
    · rfl
    · rename_i h1
      rw [if_neg h1] at hb
      split
      · rename_i h2
        rw [if_pos h2] at hb
        have hc : Opt.bad ∉ (cluster os (a.drop 1)).1 := by
          intro hm
          apply hb
          cases hcl : cluster os (a.drop 1) with
          | mk l need =>
            rw [hcl] at hm
            cases need with
            | none => simp only; exact List.mem_append.2 (.inl hm)
            | some c => cases rest <;> (simp only; exact List.mem_append.2 (.inl hm))
        rw [cluster_congr h hc]
        cases hcl : cluster os (a.drop 1) with
        | mk l need =>
          rw [hcl] at hb
          cases need with
          | none =>
            simp only at hb ⊢
            rw [getopt_congr h (fun hm => hb (List.mem_append.2 (.inr hm)))]
          | some c =>
            cases rest with
            | nil => rfl
            | cons b rest =>
              simp only at hb ⊢
              rw [getopt_congr h (fun hm => hb (List.mem_append.2 (.inr (List.mem_cons_of_mem _ hm))))]
      · rename_i h2
        rw [if_neg h2] at hb
        simp only at hb ⊢
        rw [getopt_congr h hb]

theorem takes_mem {os : Str} {c : Char} {k : Takes} (h : takes os c = some k) : c ∈ os := by
  induction os with
  | nil => simp [takes] at h
  | cons o os ih =>
    rw [takes.eq_def] at h
    simp only at h
    split at h
    · cases h
    · split at h
      · rename_i h2; simp [h2]
      · exact List.mem_cons_of_mem _ (ih h)

/-! ### The effect of options -/

/-- What an option does. -/
structure Effect (s : Setup) (o : Opt) (s' : Setup) : Prop where
  quiet : s'.quiet = (s.quiet || is 'q' o)
  insensitive : s'.insensitive = (s.insensitive || is 'i' o)
  printAst : s'.flags.printAst = (s.flags.printAst || is 'p' o)
  onlyErrors : s'.flags.onlyErrors = (s.flags.onlyErrors || is 'E' o)
  elaborate : s'.flags.elaborate = (s.flags.elaborate || (is 'e' o || is 'b' o))
  ignoreKeep : s'.flags.ignoreKeep = (s.flags.ignoreKeep || is 'k' o)
  verbose : s'.flags.verbose = s.flags.verbose + (if is 'v' o then 1 else 0)
  grep : s'.flags.grep = if is 'g' o then (argOf o).getD [] else s.flags.grep
  depth : some s'.flags.depth = if is 'r' o then depthOf (argOf o) else some s.flags.depth
  format : some s'.flags.format = if is 'f' o then (argOf o).bind findFormat else some s.flags.format
  out : s'.out = if is 'o' o then (argOf o).filter (· ≠ c!"-") else s.out
  cd : s'.cd = s.cd ++ (if is 'C' o then (argOf o).toList else [])
  truncated : s'.truncated = s.truncated ++ (if is 'o' o then ((argOf o).filter (· ≠ c!"-")).toList else [])

theorem option_effect {env : Env} {s s' : Setup} {o : Opt} (h : option env s o = .go s') : Effect s o s' := by
  cases o with
  | bad => simp [option] at h
  | opt c arg =>
    unfold option at h
    simp only at h
    by_cases hC : c = 'C'
    · subst hC
      cases arg with
      | none => simp at h
      | some a =>
        simp only [if_true] at h
        split at h <;> cases h
        constructor <;> simp [is, argOf]
    rw [if_neg hC] at h
    by_cases hq : c = 'q'
    · subst hq
      cases h
      constructor <;> simp [is]
    rw [if_neg hq] at h
    by_cases ho : c = 'o'
    · subst ho
      cases arg with
      | none => simp at h
      | some a =>
        simp only [if_true] at h
        split at h
        · rename_i ha
          cases h
          constructor <;> simp [is, argOf, ha, Option.filter]
        · rename_i ha
          split at h <;> cases h
          constructor <;> simp [is, argOf, ha, Option.filter]
    rw [if_neg ho] at h
    by_cases hr : c = 'r'
    · subst hr
      cases arg with
      | none =>
        cases h
        constructor <;> simp [is, argOf, depthOf, intMax]
      | some a =>
        simp only [if_true] at h
        cases ha : atoi a with
        | none => simp [ha] at h
        | some d =>
          rw [ha] at h
          cases h
          constructor <;> simp [is, argOf, depthOf, ha]
    rw [if_neg hr] at h
    by_cases hk : c = 'k'
    · subst hk
      cases h
      constructor <;> simp [is]
    rw [if_neg hk] at h
    by_cases hg : c = 'g'
    · subst hg
      cases arg with
      | none => simp at h
      | some a =>
        cases h
        constructor <;> simp [is, argOf]
    rw [if_neg hg] at h
    by_cases hi : c = 'i'
    · subst hi
      cases h
      constructor <;> simp [is]
    rw [if_neg hi] at h
    by_cases hp : c = 'p'
    · subst hp
      cases h
      constructor <;> simp [is]
    rw [if_neg hp] at h
    by_cases hE : c = 'E'
    · subst hE
      cases h
      constructor <;> simp [is]
    rw [if_neg hE] at h
    by_cases hb : c = 'b' ∨ c = 'e'
    · rw [if_pos hb] at h
      cases h
      rcases hb with rfl | rfl <;> constructor <;> simp [is]
    rw [if_neg hb] at h
    by_cases hf : c = 'f'
    · subst hf
      cases arg with
      | none => simp at h
      | some a =>
        simp only [if_true] at h
        cases ha : findFormat a with
        | none => simp [ha] at h
        | some d =>
          rw [ha] at h
          cases h
          constructor <;> simp [is, argOf, ha]
    rw [if_neg hf] at h
    by_cases hv : c = 'v'
    · subst hv
      cases h
      constructor <;> simp [is]
    rw [if_neg hv] at h
    split at h <;> cases h

/-- The effect of all options: those that are switches, those where the last one counts. -/
structure Effects (s : Setup) (os : List Opt) (s' : Setup) : Prop where
  quiet : s'.quiet = (s.quiet || os.any (is 'q'))
  insensitive : s'.insensitive = (s.insensitive || os.any (is 'i'))
  printAst : s'.flags.printAst = (s.flags.printAst || os.any (is 'p'))
  onlyErrors : s'.flags.onlyErrors = (s.flags.onlyErrors || os.any (is 'E'))
  elaborate : s'.flags.elaborate = (s.flags.elaborate || os.any (fun o => is 'e' o || is 'b' o))
  ignoreKeep : s'.flags.ignoreKeep = (s.flags.ignoreKeep || os.any (is 'k'))
  verbose : s'.flags.verbose = s.flags.verbose + os.countP (is 'v')
  grep : s'.flags.grep = os.foldl (fun g o => if is 'g' o then (argOf o).getD [] else g) s.flags.grep
  depth : some s'.flags.depth = os.foldl (fun d o => if is 'r' o then depthOf (argOf o) else d) (some s.flags.depth)
  format : some s'.flags.format =
    os.foldl (fun f o => if is 'f' o then (argOf o).bind findFormat else f) (some s.flags.format)
  out : s'.out = os.foldl (fun f o => if is 'o' o then (argOf o).filter (· ≠ c!"-") else f) s.out
  cd : s'.cd = s.cd ++ os.flatMap (fun o => if is 'C' o then (argOf o).toList else [])
  truncated : s'.truncated = s.truncated ++ os.flatMap (fun o => if is 'o' o then ((argOf o).filter (· ≠ c!"-")).toList else [])

theorem options_effects {env : Env} {s s' : Setup} {os : List Opt} (h : options env s os = .go s') :
    Effects s os s' := by
  induction os generalizing s with
  | nil => cases h; constructor <;> simp
  | cons o os ih =>
    rw [options] at h
    cases ho : option env s o with
    | undefined => simp [ho] at h
    | exit _ _ _ => simp [ho] at h
    | go s1 =>
      rw [ho] at h
      have e := option_effect ho
      have i := ih h
      constructor
      · rw [i.quiet, e.quiet]; simp [Bool.or_assoc]
      · rw [i.insensitive, e.insensitive]; simp [Bool.or_assoc]
      · rw [i.printAst, e.printAst]; simp [Bool.or_assoc]
      · rw [i.onlyErrors, e.onlyErrors]; simp [Bool.or_assoc]
      · rw [i.elaborate, e.elaborate]; simp [Bool.or_assoc]
      · rw [i.ignoreKeep, e.ignoreKeep]; simp [Bool.or_assoc]
      · rw [i.verbose, e.verbose, List.countP_cons]; omega
      · rw [i.grep, e.grep]; rfl
      · rw [i.depth, e.depth]; rfl
      · rw [i.format, e.format]; rfl
      · rw [i.out, e.out]; rfl
      · rw [i.cd, e.cd]; simp
      · rw [i.truncated, e.truncated]; simp

/-- A value that depends on the last option. -/
theorem foldl_last {α : Type} (c : Char) (f : Opt → α) (os : List Opt) (a : α) :
    os.foldl (fun d o => if is c o then f o else d) a = ((last c os).map f).getD a := by
  unfold last
  have : ∀ (acc : Option Opt), os.foldl (fun d o => if is c o then f o else d) ((acc.map f).getD a) =
      ((os.foldl (fun acc o => if is c o then some o else acc) acc).map f).getD a := by
    induction os with
    | nil => intro acc; rfl
    | cons o os ih =>
      intro acc
      simp only [List.foldl_cons]
      rw [← ih]
      congr 1
      split <;> rfl
  exact this none

theorem last_mem {c : Char} {os : List Opt} {o : Opt} (h : last c os = some o) : o ∈ os ∧ is c o = true := by
  unfold last at h
  have : ∀ (acc : Option Opt), os.foldl (fun acc o => if is c o then some o else acc) acc = some o →
      acc = some o ∨ (o ∈ os ∧ is c o = true) := by
    clear h
    induction os with
    | nil => intro acc h; exact .inl h
    | cons x os ih =>
      intro acc h
      rcases ih _ h with h | h
      · simp only at h
        split at h
        · cases h
          rename_i hx
          exact .inr ⟨by simp, hx⟩
        · exact .inl h
      · exact .inr ⟨by simp [h.1], h.2⟩
  rcases this none h with h | h
  · cases h
  · exact h

theorem options_go_mem {env : Env} {s s' : Setup} {os : List Opt} (h : options env s os = .go s') :
    ∀ o ∈ os, ∃ s1 s2, option env s1 o = .go s2 := by
  induction os generalizing s with
  | nil => simp
  | cons o os ih =>
    rw [options] at h
    cases hs : option env s o with
    | undefined => rw [hs] at h; cases h
    | exit _ _ _ => rw [hs] at h; cases h
    | go s1 =>
      rw [hs] at h
      intro o' ho'
      rcases List.mem_cons.1 ho' with rfl | ho'
      · exact ⟨_, _, hs⟩
      · exact ih h o' ho'

/-! ### Options that end it -/

theorem option_exit {env : Env} {s s' : Setup} {o : Opt} {st : Nat} {e : Str} (ho : WellFormed optstring o)
    (h : option env s o = .exit s' st e) :
    s' = s ∧ ((st = 0 ∧ (asksForText o = true ∨ unknown o = true)) ∨ (st = 1 ∧ e ≠ [])) := by
  cases o with
  | bad => cases h; exact ⟨rfl, .inl ⟨rfl, .inr rfl⟩⟩
  | opt c arg =>
    unfold option at h
    simp only at h
    by_cases hC : c = 'C'
    · subst hC
      cases arg with
      | none => simp at h
      | some a =>
        simp only [if_true] at h
        split at h <;> cases h
        exact ⟨rfl, .inr ⟨rfl, by simp⟩⟩
    rw [if_neg hC] at h
    by_cases hq : c = 'q'
    · subst hq; cases h
    rw [if_neg hq] at h
    by_cases hoo : c = 'o'
    · subst hoo
      cases arg with
      | none => simp at h
      | some a =>
        simp only [if_true] at h
        split at h
        · cases h
        · split at h <;> cases h
          exact ⟨rfl, .inr ⟨rfl, by simp⟩⟩
    rw [if_neg hoo] at h
    by_cases hr : c = 'r'
    · subst hr
      cases arg with
      | none => cases h
      | some a =>
        simp only [if_true] at h
        split at h <;> cases h
    rw [if_neg hr] at h
    by_cases hk : c = 'k'
    · subst hk; cases h
    rw [if_neg hk] at h
    by_cases hg : c = 'g'
    · subst hg
      cases arg <;> cases h
    rw [if_neg hg] at h
    by_cases hi : c = 'i'
    · subst hi; cases h
    rw [if_neg hi] at h
    by_cases hp : c = 'p'
    · subst hp; cases h
    rw [if_neg hp] at h
    by_cases hE : c = 'E'
    · subst hE; cases h
    rw [if_neg hE] at h
    by_cases hb : c = 'b' ∨ c = 'e'
    · rw [if_pos hb] at h; cases h
    rw [if_neg hb] at h
    by_cases hf : c = 'f'
    · subst hf
      cases arg with
      | none => simp at h
      | some a =>
        simp only [if_true] at h
        split at h <;> cases h
        exact ⟨rfl, .inr ⟨rfl, by simp⟩⟩
    rw [if_neg hf] at h
    by_cases hv : c = 'v'
    · subst hv; cases h
    rw [if_neg hv] at h
    obtain ⟨k, hck, _⟩ := ho
    have hm := takes_mem hck
    have hcolon : c ≠ ':' := by
      rintro rfl
      revert hck
      cases k <;> decide
    simp only [optstring, List.mem_cons, List.not_mem_nil, or_false] at hm
    simp only [not_or] at hb
    have hc : c = 'h' ∨ c = 'c' ∨ c = 'V' := by
      simp only [hC, hq, hoo, hr, hk, hg, hi, hp, hb, hf, hv, hcolon, false_or, or_false] at hm
      exact hm
    rcases hc with rfl | rfl | rfl
    · cases h; exact ⟨rfl, .inl ⟨rfl, .inl rfl⟩⟩
    · cases h; exact ⟨rfl, .inl ⟨rfl, .inr rfl⟩⟩
    · cases h; exact ⟨rfl, .inl ⟨rfl, .inl rfl⟩⟩

theorem option_undefined {env : Env} {s : Setup} {o : Opt} (ho : WellFormed optstring o)
    (h : option env s o = .undefined) : ∃ n, o = .opt 'r' (some n) ∧ atoi n = none := by
  cases o with
  | bad => cases h
  | opt c arg =>
    obtain ⟨k, hck, hka⟩ := ho
    have hneed : ∀ d, c = d → takes optstring d = some .argument → arg ≠ none := by
      rintro d rfl hd
      rw [hd] at hck
      cases hck
      exact hka rfl
    unfold option at h
    simp only at h
    by_cases hC : c = 'C'
    · cases arg with
      | none => exact absurd rfl (hneed _ hC (by decide))
      | some a =>
        rw [if_pos hC] at h
        simp only at h
        split at h <;> cases h
    rw [if_neg hC] at h
    by_cases hq : c = 'q'
    · subst hq; cases h
    rw [if_neg hq] at h
    by_cases hoo : c = 'o'
    · cases arg with
      | none => exact absurd rfl (hneed _ hoo (by decide))
      | some a =>
        rw [if_pos hoo] at h
        simp only at h
        split at h
        · cases h
        · split at h <;> cases h
    rw [if_neg hoo] at h
    by_cases hr : c = 'r'
    · subst hr
      cases arg with
      | none => cases h
      | some a =>
        simp only [if_true] at h
        split at h
        · rename_i hn; exact ⟨a, rfl, hn⟩
        · cases h
    rw [if_neg hr] at h
    by_cases hk : c = 'k'
    · subst hk; cases h
    rw [if_neg hk] at h
    by_cases hg : c = 'g'
    · cases arg with
      | none => exact absurd rfl (hneed _ hg (by decide))
      | some a => rw [if_pos hg] at h; cases h
    rw [if_neg hg] at h
    by_cases hi : c = 'i'
    · subst hi; cases h
    rw [if_neg hi] at h
    by_cases hp : c = 'p'
    · subst hp; cases h
    rw [if_neg hp] at h
    by_cases hE : c = 'E'
    · subst hE; cases h
    rw [if_neg hE] at h
    by_cases hb : c = 'b' ∨ c = 'e'
    · rw [if_pos hb] at h; cases h
    rw [if_neg hb] at h
    by_cases hf : c = 'f'
    · cases arg with
      | none => exact absurd rfl (hneed _ hf (by decide))
      | some a =>
        rw [if_pos hf] at h
        simp only at h
        split at h <;> cases h
    rw [if_neg hf] at h
    by_cases hv : c = 'v'
    · subst hv; cases h
    rw [if_neg hv] at h
    split at h <;> cases h

theorem options_undefined {env : Env} {s : Setup} {os : List Opt} (ho : ∀ o ∈ os, WellFormed optstring o)
    (h : options env s os = .undefined) : ∃ n, .opt 'r' (some n) ∈ os ∧ atoi n = none := by
  induction os generalizing s with
  | nil => cases h
  | cons o os ih =>
    rw [options] at h
    cases hs : option env s o with
    | undefined =>
      obtain ⟨n, rfl, hn⟩ := option_undefined (ho o (by simp)) hs
      exact ⟨n, by simp, hn⟩
    | exit s1 st e1 => rw [hs] at h; cases h
    | go s1 =>
      rw [hs] at h
      obtain ⟨n, h1, h2⟩ := ih (fun o ho' => ho o (by simp [ho'])) h
      exact ⟨n, by simp [h1], h2⟩

theorem options_exit_err {env : Env} {s s' : Setup} {os : List Opt} {st : Nat} {e : Str}
    (ho : ∀ o ∈ os, WellFormed optstring o) (h : options env s os = .exit s' st e) (hst : st ≠ 0) : e ≠ [] := by
  induction os generalizing s with
  | nil => cases h
  | cons o os ih =>
    rw [options] at h
    cases hs : option env s o with
    | undefined => rw [hs] at h; cases h
    | exit s1 st1 e1 =>
      rw [hs] at h
      cases h
      rcases (option_exit (ho o (by simp)) hs).2 with h1 | h1
      · exact absurd h1.1 hst
      · exact h1.2
    | go s1 =>
      rw [hs] at h
      exact ih (fun o ho' => ho o (by simp [ho'])) h

theorem options_exit_truncated {env : Env} {s s' : Setup} {os : List Opt} {st : Nat} {e : Str}
    (ho : ∀ o ∈ os, WellFormed optstring o) (h : options env s os = .exit s' st e) :
    ∀ f ∈ s'.truncated, f ∈ s.truncated ∨ (.opt 'o' (some f) ∈ os ∧ f ≠ c!"-") := by
  induction os generalizing s with
  | nil => cases h
  | cons o os ih =>
    rw [options] at h
    cases hs : option env s o with
    | undefined => rw [hs] at h; cases h
    | exit s1 st1 e1 =>
      rw [hs] at h
      cases h
      rw [(option_exit (ho o (by simp)) hs).1]
      exact fun f hf => .inl hf
    | go s1 =>
      rw [hs] at h
      intro f hf
      rcases ih (fun o ho' => ho o (by simp [ho'])) h f hf with h1 | h1
      · rw [(option_effect hs).truncated] at h1
        rcases List.mem_append.1 h1 with h1 | h1
        · exact .inl h1
        · right
          cases o with
          | bad => simp [is] at h1
          | opt c arg =>
            by_cases hc : c = 'o'
            · subst hc
              simp only [is, decide_true, if_true, argOf, Option.mem_toList] at h1
              obtain ⟨h3, h4⟩ := Option.filter_eq_some_iff.1 h1
              subst h3
              exact ⟨by simp, by simpa using h4⟩
            · simp [is, hc] at h1
      · exact .inr ⟨by simp [h1.1], h1.2⟩

end Cli
end Bant
