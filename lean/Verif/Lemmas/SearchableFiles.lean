import Verif.Lemmas.Searchable
import Verif.Props.Query

/-! Files without errors can be searched. -/
namespace Bant
namespace Rules
open Query Elab Parser Props

theorem kwArgsIn_mem {xs : List Node} {k : Node × Node} :
    k ∈ kwArgsIn xs ↔ ∃ x ∈ xs, k ∈ kwArgs x := by
  induction xs with
  | nil => simp [kwArgsIn]
  | cons x xs ih => simp [kwArgsIn, ih]

theorem sitesIn_mem {xs : List Node} {k : Node × Node} :
    k ∈ sitesIn xs ↔ ∃ x ∈ xs, k ∈ sites x := by
  induction xs with
  | nil => simp [sitesIn]
  | cons x xs ih => simp [sitesIn, ih]

/-- Values of keyword arguments are expressions. -/
theorem expr_kwArgs {kw : Bool} {n : Node} (h : Expr kw n) : ∀ k ∈ kwArgs n, Expr false k.2 := by
  induction h with
  | str => intro k hk; simp [kwArgs] at hk
  | int => intro k hk; simp [kwArgs] at hk
  | ident => intro k hk; simp [kwArgs] at hk
  | unary _ ih => exact ih
  | binop _ _ ih1 ih2 =>
    intro s hs
    rw [kwArgs, List.mem_append] at hs
    exact hs.elim (ih1 s) (ih2 s)
  | sliceFrom _ _ ih1 ih2 =>
    intro s hs
    simp only [kwArgs, List.mem_append, List.append_nil] at hs
    exact hs.elim (ih1 s) (ih2 s)
  | sliceTo _ _ ih1 ih2 =>
    intro s hs
    simp only [kwArgs, List.mem_append, List.nil_append] at hs
    exact hs.elim (ih1 s) (ih2 s)
  | list _ ih =>
    intro k hk
    rw [kwArgs, kwArgsIn_mem] at hk
    obtain ⟨x, hx, hk⟩ := hk
    exact ih x hx k hk
  | compr _ ih => exact ih
  | ternary _ _ _ ih1 ih2 ih3 =>
    intro s hs
    simp only [kwArgs, List.mem_append] at hs
    exact hs.elim (fun h => h.elim (ih1 s) (ih2 s)) (ih3 s)
  | onlyIf _ _ ih1 ih2 =>
    intro s hs
    simp only [kwArgs, List.mem_append, List.append_nil] at hs
    exact hs.elim (ih1 s) (ih2 s)
  | call _ ih =>
    intro k hk
    rw [kwArgs, kwArgs, kwArgsIn_mem] at hk
    obtain ⟨x, hx, hk⟩ := hk
    exact ih x hx k hk
  | unaryHole => intro s hs; simp [kwArgs] at hs
  | forHole _ _ _ ihx ih1 ih2 =>
    intro s hs
    simp only [kwArgs, List.mem_append, kwArgsIn_mem] at hs
    rcases hs with hs | ⟨x, hx, hs⟩ | hs
    · exact ih1 s hs
    · by_cases hn : x = .null
      · subst hn; simp [kwArgs] at hs
      · exact ihx x hx hn s hs
    · exact ih2 s hs
  | keyword h _ =>
    intro k hk
    simp only [kwArgs, List.mem_singleton] at hk
    rw [hk]; exact h

/-- Arguments of calls are expressions. -/
theorem expr_sites {kw : Bool} {n : Node} (h : Expr kw n) : ∀ fn ty args,
    (.ident fn, .list ty args) ∈ sites n → ∀ a ∈ args, Expr true a := by
  induction h with
  | str => intro _ _ _ h; simp [sites] at h
  | int => intro _ _ _ h; simp [sites] at h
  | ident => intro _ _ _ h; simp [sites] at h
  | unary _ ih => exact ih
  | binop _ _ ih1 ih2 =>
    intro f t a hs
    rw [sites, List.mem_append] at hs
    exact hs.elim (ih1 f t a) (ih2 f t a)
  | sliceFrom _ _ ih1 ih2 =>
    intro f t a hs
    simp only [sites, List.mem_append, List.append_nil] at hs
    exact hs.elim (ih1 f t a) (ih2 f t a)
  | sliceTo _ _ ih1 ih2 =>
    intro f t a hs
    simp only [sites, List.mem_append, List.nil_append] at hs
    exact hs.elim (ih1 f t a) (ih2 f t a)
  | list _ ih =>
    intro f t a hk
    rw [sites, sitesIn_mem] at hk
    obtain ⟨x, hx, hk⟩ := hk
    exact ih x hx f t a hk
  | compr _ ih => exact ih
  | ternary _ _ _ ih1 ih2 ih3 =>
    intro f t a hs
    simp only [sites, List.mem_append] at hs
    exact hs.elim (fun h => h.elim (ih1 f t a) (ih2 f t a)) (ih3 f t a)
  | onlyIf _ _ ih1 ih2 =>
    intro f t a hs
    simp only [sites, List.mem_append, List.append_nil] at hs
    exact hs.elim (ih1 f t a) (ih2 f t a)
  | call h _ =>
    intro f t a hk
    simp only [sites, List.mem_singleton, Prod.mk.injEq, Node.list.injEq] at hk
    rw [hk.2.2]; exact h
  | unaryHole => intro _ _ _ hs; simp [sites] at hs
  | forHole _ _ _ ihx ih1 ih2 =>
    intro f t a hs
    simp only [sites, List.mem_append, sitesIn_mem] at hs
    rcases hs with hs | ⟨x, hx, hs⟩ | hs
    · exact ih1 f t a hs
    · by_cases hn : x = .null
      · subst hn; simp [sites] at hs
      · exact ihx x hx hn f t a hs
    · exact ih2 f t a hs
  | keyword _ _ => intro _ _ _ hs; simp [sites] at hs

theorem stmts_searchable {ty : ListType} {stmts : List Node} (h : ∀ s ∈ stmts, Stmt s) :
    Searchable (.list ty stmts) := by
  refine ⟨by rw [sites]; exact stmts_proper h, ?_⟩
  intro fn ty args hs kw hkw ty' xs he hn
  rw [sites, sitesIn_mem] at hs
  obtain ⟨s, hm, hs⟩ := hs
  rw [kwArgsIn_mem] at hkw
  obtain ⟨a, ha, hkw⟩ := hkw
  have hargs : ∀ a ∈ args, Expr true a := by
    cases h s hm with
    | expr he => exact expr_sites he fn ty args hs
    | assign => simp [sites] at hs
    | unpack => simp [sites] at hs
  have hv := expr_kwArgs (hargs a ha) kw hkw
  rw [he] at hv
  cases hv with
  | list hv => exact (hv _ hn).ne_null rfl

/-- Arguments of calls are not missing in a file without errors. -/
theorem stmts_args {ty : ListType} {stmts : List Node} (h : ∀ s ∈ stmts, Elab.Stmt s) :
    ∀ fn ty' args, (.ident fn, .list ty' args) ∈ sites (.list ty stmts) → Node.null ∉ args := by
  intro fn ty' args hs hn
  rw [sites, sitesIn_mem] at hs
  obtain ⟨s, hm, hs⟩ := hs
  cases h s hm with
  | expr he => exact (expr_sites he fn ty' args hs _ hn).ne_null rfl
  | assign => simp [sites] at hs
  | unpack => simp [sites] at hs

theorem stmts_complete {stmts : List Node} (h : ∀ s ∈ stmts, Elab.Stmt s) : Complete (.list .list stmts) :=
  ⟨stmts_searchable h, fun ty args => stmts_args h _ ty args⟩

end Rules
end Bant
