import Verif.Lemmas.Json
import Verif.Lemmas.Searchable
import Verif.Lemmas.TypesBazel
import Verif.Model.CompDb
import Verif.Spec.CompDb

/-! Lemmas on the compilation database. -/
namespace Bant
namespace CompDb
open Query Rules CompDbSpec Json

/-! ### Each element once -/

theorem once_firsts (l : List Str) : ∀ o : Once,
    (l.foldl (fun o s => o.add s [s]) o).result = o.result ++ (firsts l).filter (· ∉ o.seen) := by
  induction l with
  | nil => intro o; simp [firsts]
  | cons x l ih =>
    intro o
    rw [List.foldl_cons, ih, firsts]
    unfold Once.add
    split
    · rename_i hx
      rw [List.filter_cons_of_neg (by simpa using hx), List.filter_filter]
      congr 1
      apply List.filter_congr
      intro y hy
      by_cases hs : y ∈ o.seen
      · simp [hs]
      · have : y ≠ x := by rintro rfl; exact hs hx
        simp [hs, this]
    · rename_i hx
      rw [List.filter_cons_of_pos (by simpa using hx), List.filter_filter]
      simp only [List.append_assoc, List.singleton_append]
      congr 2
      apply List.filter_congr
      intro y hy
      by_cases hs : y ∈ o.seen <;> by_cases hyx : y = x <;> simp [hs, hyx]

theorem once_nil (l : List Str) : (l.foldl (fun o s => o.add s [s]) ({} : Once)).result = firsts l := by
  rw [once_firsts]
  simp

theorem mem_firsts {l : List Str} {x : Str} : x ∈ firsts l ↔ x ∈ l := by
  induction l with
  | nil => simp [firsts]
  | cons y l ih =>
    rw [firsts, List.mem_cons, List.mem_cons, List.mem_filter, ih]
    by_cases h : x = y <;> simp [h]

theorem nodup_firsts (l : List Str) : (firsts l).Nodup := by
  induction l with
  | nil => simp [firsts]
  | cons y l ih =>
    rw [firsts, List.nodup_cons]
    exact ⟨by simp [List.mem_filter], ih.filter _⟩

/-! ### Sources -/

theorem sources_eq {ws : Workspace.Map} {pattern : BazelPattern} {pkg : BazelPackage} {ast : Node}
    (h : Searchable ast) {kinds : List Str} {r : Result} (hr : r ∈ rulesOf kinds ast) :
    sources ws pattern pkg r = some (sourcesOf ws pattern pkg r) := by
  unfold sources sourcesOf
  cases ht : pkg.qualifiedTarget r.name with
  | none => rfl
  | some t =>
    simp only []
    rw [stringList_rule h hr (l := r.srcs) (by simp [listsOf]), stringList_rule h hr (l := r.hdrs) (by simp [listsOf])]
    by_cases hp : pattern.matchTarget t = true <;> simp [hp]

theorem allSources_eq {ws : Workspace.Map} {pattern : BazelPattern} {files : List (BazelPackage × Node)}
    (h : ∀ f ∈ files, Searchable f.2) :
    mapAll (fileSources ws pattern) files = some (allSources ws pattern files) := by
  refine mapAll_eq fun f hf => ?_
  unfold fileSources
  by_cases hp : pattern.matchPackage f.1 = true
  · simp only [hp, not_true, if_false, if_true]
    exact forTargets_eq (h f hf).proper fun r hr => sources_eq (h f hf) hr
  · simp [hp]

/-! ### Reading the database -/

theorem plain_lit (s : Str) (h : s.all (fun c => c ≠ '"' && c ≠ '\\' && decide (32 ≤ c.toNat)) = true) : Plain s := by
  intro c hc
  have := List.all_eq_true.1 h c hc
  simp only [Bool.and_eq_true, decide_eq_true_eq] at this
  exact ⟨this.1.1, this.1.2, this.2⟩

/-- An item of an array, with a comma. -/
def item (x : Str) : List Tok := [.str x, .punct ',']

theorem lexes_item {pre x : Str} (hp : Lexes pre []) (h : Plain x) : Lexes (pre ++ q x ++ c!",\n") (item x) := by
  have h1 : Lexes c!",\n" [.punct ','] := fun d => by simp [Lex.next]
  have := (hp.append (Lexes.quoted h)).append h1
  exact this

theorem lexes_indent : Lexes c!"      " [] := fun d => by simp [Lex.next]

theorem lexes_flags {opts dirs : List Str} (ho : ∀ o ∈ opts, Plain o) (hd : ∀ d ∈ dirs, Plain d) :
    Lexes (flagsJson opts dirs) ((opts ++ dirs.flatMap fun d => [c!"-iquote", d]).flatMap item) := by
  rw [List.flatMap_append, List.flatMap_assoc]
  refine .append (.flatMap _ fun o hm => lexes_item lexes_indent (ho o hm)) (.flatMap _ fun d hm => ?_)
  have h1 : Lexes (q c!"-iquote") [.str c!"-iquote"] := Lexes.quoted (plain_lit _ (by decide))
  have h2 : Lexes c!", " [.punct ','] := fun d => by simp [Lex.next]
  have h3 : Lexes c!",\n" [.punct ','] := fun d => by simp [Lex.next]
  exact (((lexes_indent.append h1).append h2).append (Lexes.quoted (hd d hm))).append h3

/-- The tokens of an entry. -/
def entryToks (cwd : Str) (opts dirs : List Str) (src : Str) : List Tok :=
  [.punct '{', .str c!"file", .punct ':', .str src, .punct ',', .str c!"arguments", .punct ':', .punct '['] ++
    ((command opts dirs src).flatMap item ++
      [.punct ']', .punct ',', .str c!"directory", .punct ':', .str cwd, .punct '}', .punct ','])

theorem lexes_entry {cwd src : Str} {opts dirs : List Str} (hc : Plain cwd) (hs : Plain src)
    (ho : ∀ o ∈ opts, Plain o) (hd : ∀ d ∈ dirs, Plain d) :
    Lexes (entry cwd (flagsJson opts dirs) src) (entryToks cwd opts dirs src) := by
  have lit (s : Str) (h : s.all (fun c => c ≠ '"' && c ≠ '\\' && decide (32 ≤ c.toNat)) = true := by decide) :
      Lexes (q s) [.str s] := Lexes.quoted (plain_lit s h)
  have a1 : Lexes (c!"  {\n" ++ c!"    ") [.punct '{'] := fun d => by simp [Lex.next]
  have a2 : Lexes c!": " [.punct ':'] := fun d => by simp [Lex.next]
  have a3 : Lexes c!",\n" [.punct ','] := fun d => by simp [Lex.next]
  have a4 : Lexes c!"    " [] := fun d => by simp [Lex.next]
  have a5 : Lexes c!": [\n" [.punct ':', .punct '['] := fun d => by simp [Lex.next]
  have a6 : Lexes c!", " [.punct ','] := fun d => by simp [Lex.next]
  have a7 : Lexes c!"     ],\n" [.punct ']', .punct ','] := fun d => by simp [Lex.next]
  have a8 : Lexes c!"     " [] := fun d => by simp [Lex.next]
  have a9 : Lexes c!"\n" [] := fun d => by simp [Lex.next]
  have a10 : Lexes c!"  },\n" [.punct '}', .punct ','] := fun d => by simp [Lex.next]
  have b1 : Lexes (commonOptions.flatMap (fun o => c!"      " ++ q o ++ c!",\n")) (commonOptions.flatMap item) :=
    .flatMap _ fun o hm => lexes_item lexes_indent (by
      have : ∀ o ∈ commonOptions, o.all (fun c => c ≠ '"' && c ≠ '\\' && decide (32 ≤ c.toNat)) = true := by decide
      exact plain_lit o (this o hm))
  have hq : Lexes (q src) [.str src] := Lexes.quoted hs
  have hw : Lexes (q cwd) [.str cwd] := Lexes.quoted hc
  have := (((((((((((((((((((((((a1.append (lit c!"file")).append a2).append hq).append a3).append a4).append
    (lit c!"arguments")).append a5).append lexes_indent).append (lit c!"gcc")).append a3).append
    b1).append (lexes_flags ho hd)).append lexes_indent).append (lit c!"-c")).append a6).append
    hq).append a3).append a7).append a8).append (lit c!"directory")).append a2).append hw).append
    a9).append a10
  have e : ∀ {x : Str} {s t : List Tok}, Lexes x s → s = t → Lexes x t := fun h e => e ▸ h
  unfold entry
  refine e this ?_
  simp only [entryToks, command, commonOptions, item, List.flatMap_cons, List.flatMap_append, List.flatMap_nil,
    List.append_assoc, List.cons_append, List.nil_append, List.append_nil]

theorem parse_entry (cwd : Str) (opts dirs : List Str) (src : Str) (vs : List Value) (r : Option Value) :
    (entryToks cwd opts dirs src).foldlM (Parse.step true) ⟨[.arr vs], .valueOrEnd, r⟩ =
      some ⟨[.arr (vs ++ [entryOf cwd opts dirs src])], .valueOrEnd, none⟩ := by
  unfold entryToks
  rw [foldlM_append_some]
  have h1 : List.foldlM (Parse.step true) ⟨[.arr vs], .valueOrEnd, r⟩
      [.punct '{', .str c!"file", .punct ':', .str src, .punct ',', .str c!"arguments", .punct ':', .punct '['] =
    some ⟨[.arr [], .member [(c!"file", .str src)] c!"arguments", .arr vs], .valueOrEnd, none⟩ := rfl
  rw [h1, Option.bind_some, foldlM_append_some]
  have e : item = fun x => [Tok.str x, .punct ','] := rfl
  rw [e]
  rw [items, Option.bind_some]
  rfl

theorem parse_entries (cwd : Str) (opts dirs : List Str) (srcs : List Str) : ∀ (vs : List Value) (r : Option Value),
    ∃ r', (srcs.flatMap (entryToks cwd opts dirs)).foldlM (Parse.step true) ⟨[.arr vs], .valueOrEnd, r⟩ =
      some ⟨[.arr (vs ++ srcs.map (entryOf cwd opts dirs))], .valueOrEnd, r'⟩ := by
  induction srcs with
  | nil => intro vs r; exact ⟨r, by simp⟩
  | cons x l ih =>
    intro vs r
    obtain ⟨r', h⟩ := ih (vs ++ [entryOf cwd opts dirs x]) none
    refine ⟨r', ?_⟩
    rw [List.flatMap_cons, foldlM_append_some, parse_entry, Option.bind_some, h]
    simp

/-- All texts of a database are plain. -/
structure PlainDb (cwd : Str) (opts dirs srcs : List Str) : Prop where
  cwd : Plain cwd
  opts : ∀ o ∈ opts, Plain o
  dirs : ∀ d ∈ dirs, Plain d
  srcs : ∀ s ∈ srcs, Plain s

theorem lexes_db {cwd : Str} {opts dirs srcs : List Str} (h : PlainDb cwd opts dirs srcs) :
    Lexes (c!"[\n" ++ srcs.flatMap (entry cwd (flagsJson opts dirs)) ++ c!"]\n")
      ([.punct '['] ++ srcs.flatMap (entryToks cwd opts dirs) ++ [.punct ']']) := by
  have a1 : Lexes c!"[\n" [.punct '['] := fun d => by simp [Lex.next]
  have a2 : Lexes c!"]\n" [.punct ']'] := fun d => by simp [Lex.next]
  exact (a1.append (.flatMap _ fun s hs => lexes_entry h.cwd (h.srcs s hs) h.opts h.dirs)).append a2

theorem read_db {cwd : Str} {opts dirs srcs : List Str} (h : PlainDb cwd opts dirs srcs) :
    Json.read true (c!"[\n" ++ srcs.flatMap (entry cwd (flagsJson opts dirs)) ++ c!"]\n") =
      some (.arr (srcs.map (entryOf cwd opts dirs))) := by
  unfold Json.read
  rw [(lexes_db h).lex]
  simp only [Option.bind_eq_bind, Option.bind_some]
  rw [foldlM_append_some, foldlM_append_some]
  have h1 : List.foldlM (Parse.step true) {} [Tok.punct '['] = some ⟨[.arr []], .valueOrEnd, none⟩ := rfl
  rw [h1, Option.bind_some]
  obtain ⟨r', h2⟩ := parse_entries cwd opts dirs srcs [] none
  rw [h2]
  rfl

theorem read_db_strict {cwd : Str} {opts dirs srcs : List Str} (h : PlainDb cwd opts dirs srcs) (hn : srcs ≠ []) :
    Json.read false (c!"[\n" ++ srcs.flatMap (entry cwd (flagsJson opts dirs)) ++ c!"]\n") = none := by
  unfold Json.read
  rw [(lexes_db h).lex]
  simp only [Option.bind_eq_bind, Option.bind_some]
  obtain ⟨x, l, rfl⟩ := List.exists_cons_of_ne_nil hn
  rw [strict_none (.inl rfl) (c := ']')
    (a := [.punct '['] ++ [.punct '{', .str c!"file", .punct ':', .str x, .punct ',', .str c!"arguments", .punct ':', .punct '['] ++
      ([c!"gcc", c!"-xc++", c!"-U_FORTIFY_SOURCE", c!"-O2", c!"-DNDEBUG"] ++ opts ++
        dirs.flatMap (fun d => [c!"-iquote", d]) ++ [c!"-c"]).flatMap item ++ [.str x])
    (b := [.punct ',', .str c!"directory", .punct ':', .str cwd, .punct '}', .punct ','] ++
      l.flatMap (entryToks cwd opts dirs) ++ [.punct ']'])]
  · rfl
  · simp only [entryToks, command, item, List.flatMap_cons, List.flatMap_append, List.flatMap_nil,
      List.append_assoc, List.cons_append, List.nil_append, List.append_nil]

end CompDb
end Bant
