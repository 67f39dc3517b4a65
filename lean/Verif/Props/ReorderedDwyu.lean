import Verif.Lemmas.ReorderedDwyu
import Verif.Props.Reordered

/-! The order of the rules in BUILD files, for `dwyu` (C127). -/
namespace Bant
namespace Props
open Parser Commands CommandSpec Cli Query Rules Headers GraphSpec RulesSpec StableSpec Stable

section
variable {m m' : Machine} {flags : Flags} {pattern : BazelPattern} {ws : Workspace.Map} {found : List Str}
  {files : Loaded} {now : Files}

/-- **C127**, full statement: `dwyu` prints the same edits, in whatever order. -/
def C127_statement : Prop :=
  ∀ (m m' : Machine) (flags : Flags) (pattern : BazelPattern) (ws : Workspace.Map) (found : List Str)
    (files : Loaded) (now : Files), Reordered (evaluates flags .dwyu) m m' → Healthy m → Healthy m' →
    Starts m flags .dwyu pattern ws found files → Grown m ws pattern (limit flags) files now →
    (∀ files' now', Starts m' flags .dwyu pattern ws found files' → Grown m' ws pattern (limit flags) files' now' →
      CommentsMove (sourcesFor m ws flags) (sourcesFor m' ws flags) now now') →
    NoBuildSources ws now →
    ∃ edits edits', Suggests m flags .dwyu pattern (note found) edits ∧
      Suggests m' flags .dwyu pattern (note found) edits' ∧ edits'.Perm edits

theorem grown_exists (hh : Healthy m) (hs : Starts m flags .dwyu pattern ws found files) :
    ∃ now, Grown m ws pattern (limit flags) files now := by
  have ho := starts_opened hh hs (by simp [needsProject])
  obtain ⟨hd1, hd2, _⟩ := dwyu_depth flags
  obtain ⟨l, now, g, hf, hfo⟩ := follow_spec hh ho (by rfl) hd1
  have hg := hfo.grown
  rw [hd2] at hg
  exact ⟨now, hg⟩

/-- **C127** if there are no two C++ libraries for the same protocol buffer in a file. (If there are, the first one
is suggested.) -/
theorem C127_dwyu_partial (h : Reordered (evaluates flags .dwyu) m m') (hh : Healthy m) (hh' : Healthy m')
    (hs : Starts m flags .dwyu pattern ws found files) (hg : Grown m ws pattern (limit flags) files now)
    (hc : ∀ files' now', Starts m' flags .dwyu pattern ws found files' →
      Grown m' ws pattern (limit flags) files' now' →
      CommentsMove (sourcesFor m ws flags) (sourcesFor m' ws flags) now now')
    (hb : NoBuildSources ws now) (ho : ProtoOnce now) :
    ∃ edits edits', Suggests m flags .dwyu pattern (note found) edits ∧
      Suggests m' flags .dwyu pattern (note found) edits' ∧ edits'.Perm edits := by
  obtain ⟨files', hs', hl⟩ := h.starts hh' hs (by simp [needsProject])
  obtain ⟨now', hg'⟩ := grown_exists hh' hs'
  obtain ⟨h1, edits, h2, h3⟩ := C93_dwyu hh hs hg
  obtain ⟨g1, edits', g2, g3⟩ := C93_dwyu hh' hs' hg'
  have hread : SourcesStay (sourcesFor m ws flags) (sourcesFor m' ws flags) now :=
    fun pkg r t hr src hsrc dir hdir => h.others _ (hb pkg r t hr src hsrc dir hdir)
  obtain ⟨es, es', k1, k2, k3⟩ := dwyu_reordered (h.grown hl hg hg') ho (Ascending.nodup hg.order) h1 g1 (env := sourcesFor m ws flags)
    (env' := sourcesFor m' ws flags) rfl rfl (hc _ _ hs' hg') hread pattern
  rw [k1] at h2
  rw [k2] at g2
  cases h2
  cases g2
  exact ⟨_, _, h3, g3, k3⟩

end

/-- What is printed has the same characters. -/
theorem script_perm {es es' : List Edit} (h : es'.Perm es) : (buildozerScript es').Perm (buildozerScript es) := by
  unfold buildozerScript
  exact (h.map _).flatten

/-! ### Examples -/

/-- What can be computed of the assumptions. -/
def sourcesB (now : Files) : Bool :=
  now.all fun f => (rulesOf [c!"cc_library", c!"cc_binary", c!"cc_test"] f.2).all fun r =>
    (DwyuSpec.sourcesOf r).all fun src => DwyuSpec.directories.all fun dir =>
      [c!"BUILD", c!"BUILD.bazel"].all fun n =>
        dir ++ f.1.fullyQualifiedFile [] src ≠ n && !('/' :: n).isSuffixOf (dir ++ f.1.fullyQualifiedFile [] src)

theorem sourcesB_sound {now : Files} (h : sourcesB now = true) : NoBuildSources [] now := by
  simp only [sourcesB, List.all_eq_true, Bool.and_eq_true, decide_eq_true_eq, Bool.not_eq_true'] at h
  rintro pkg r t ⟨ast, h1, h2, _⟩ src hsrc dir hdir ⟨n, hn, he⟩
  obtain ⟨k1, k2⟩ := h _ h1 r h2 src hsrc dir hdir n hn
  rcases he with he | he
  · exact k1 he
  · rw [← List.isSuffixOf_iff_suffix, k2] at he
    cases he

theorem disk_grown {texts : List (Str × Str)} {flags : Flags} {pattern : BazelPattern}
    (hc : ∀ e ∈ texts, cleanText e.2 = true) (hw : workspaceOf (disk texts) = some [])
    (hf : (Collect.collectBuildFiles (disk texts).tree (disk texts).symlink [] pattern 9).isSome = true)
    {p : Files → Bool}
    (hk : ((opened (disk texts) [] flags .dwyu pattern).bind fun o =>
      (follow (disk texts) [] flags .dwyu pattern o.1).map fun r => p (trees r.1)) = some true) :
    ∃ found files now, Starts (disk texts) flags .dwyu pattern [] found files ∧
      Grown (disk texts) [] pattern (limit flags) files now ∧ p now = true := by
  obtain ⟨found, files, hs, ho⟩ := disk_starts hc hw flags .dwyu pattern hf rfl
  obtain ⟨hd1, hd2, _⟩ := dwyu_depth flags
  obtain ⟨l, now, g, hl, hfo⟩ := follow_spec (disk_healthy hc) ho (by rfl) hd1
  rw [ho] at hk
  simp only [Option.bind_some, hl, hfo.same, Option.map_some, Option.some.injEq] at hk
  have hg := hfo.grown
  rw [hd2] at hg
  exact ⟨found, files, now, hs, hg, hk⟩

theorem disk_comments {texts : List (Str × Str)} {a b : Str} {flags : Flags} {now now' : Files} :
    CommentsMove (sourcesFor (disk texts) [] flags) (sourcesFor (replaced texts a b) [] flags) now now' :=
  fun _ _ _ _ _ _ _ _ _ _ _ _ _ => Iff.rfl

def twoProtos : Str :=
  c!"proto_library(name=\"x\",srcs=[\"x.proto\"])\ncc_library(name=\"l\",srcs=[\"l.cc\"])\n" ++
    c!"cc_proto_library(name=\"a\",deps=[\":x\"])\ncc_proto_library(name=\"b\",deps=[\":x\"])"
def otherProto : Str :=
  c!"proto_library(name=\"x\",srcs=[\"x.proto\"])\ncc_library(name=\"l\",srcs=[\"l.cc\"])\n" ++
    c!"cc_proto_library(name=\"b\",deps=[\":x\"])\ncc_proto_library(name=\"a\",deps=[\":x\"])"

theorem twoProtos_tree : (parseFile twoProtos).map (·.1) = some (.list .list
    [simpleRule c!"proto_library" c!"x" c!"srcs" c!"x.proto", simpleRule c!"cc_library" c!"l" c!"srcs" c!"l.cc",
      simpleRule c!"cc_proto_library" c!"a" c!"deps" c!":x", simpleRule c!"cc_proto_library" c!"b" c!"deps" c!":x"]) := by
  decide +kernel
theorem otherProto_tree : (parseFile otherProto).map (·.1) = some (.list .list
    [simpleRule c!"proto_library" c!"x" c!"srcs" c!"x.proto", simpleRule c!"cc_library" c!"l" c!"srcs" c!"l.cc",
      simpleRule c!"cc_proto_library" c!"b" c!"deps" c!":x", simpleRule c!"cc_proto_library" c!"a" c!"deps" c!":x"]) := by
  decide +kernel

def protoFiles : List (Str × Str) := [(c!"p/BUILD", twoProtos), (c!"p/l.cc", c!"#include \"p/x.pb.h\"\n")]

theorem notBuild_source {name : Str} (h : ∀ n ∈ [c!"BUILD", c!"BUILD.bazel"], name ≠ n ∧ ¬ ('/' :: n) <:+ name) :
    ¬ IsBuild name := by
  rintro ⟨n, hn, he | he⟩
  · exact (h n hn).1 he
  · exact (h n hn).2 he

theorem protoFiles_reordered (e : Bool) : Reordered e (disk protoFiles) (replaced protoFiles twoProtos otherProto) := by
  refine replaced_reordered (kinds := [c!"cc_proto_library"]) twoProtos_tree otherProto_tree
    (.cons (by simp [simpleRule, assigned]) (.cons (by simp [simpleRule, assigned])
      (.swap ⟨c!"cc_proto_library", by simp, _, _, rfl⟩ ⟨c!"cc_proto_library", by simp, _, _, rfl⟩))) (by decide) ?_
    (by decide) e
  intro x hx
  simp only [protoFiles, List.mem_cons, List.not_mem_nil, or_false] at hx
  rcases hx with rfl | rfl
  · exact .inl ⟨by decide, _, twoProtos_tree, named_of (by unfold DistinctNames; decide +kernel) fun _ => rfl⟩
  · exact .inr ⟨notBuild_source (by decide), by decide⟩

/-- It is false: of two C++ libraries for the same protocol buffer, the first one is suggested. -/
theorem C127_counterexample : ¬ C127_statement := by
  intro h
  obtain ⟨found, files, now, hs, hg, hp⟩ := disk_grown (texts := protoFiles) (flags := {}) (pattern := everything)
    (p := sourcesB) (by decide +kernel) (by decide +kernel) (by decide +kernel) (by decide +kernel)
  obtain ⟨es, es', h1, h2, h3⟩ := h _ _ _ _ _ found files now (protoFiles_reordered _) (disk_healthy (by decide +kernel))
    (replaced_healthy (by decide +kernel) (by decide +kernel)) hs hg (fun _ _ _ _ => disk_comments) (sourcesB_sound hp)
  have k1 : (runCommand (disk protoFiles) {} .dwyu everything).map (fun o => o.out.count 'b') = some 1 := by
    decide +kernel
  have k2 : (runCommand (replaced protoFiles twoProtos otherProto) {} .dwyu everything).map
      (fun o => o.out.count 'b') = some 2 := by decide +kernel
  unfold Suggests at h1 h2
  rw [h1] at k1
  rw [h2] at k2
  simp only [Option.map_some, Option.some.injEq] at k1 k2
  rw [(script_perm h3).count_eq, k1] at k2
  cases k2

/-- Two libraries that include a header, in this order or the other. -/
def usersInOrder : Str := c!"cc_library(name=\"a\",srcs=[\"a.cc\"])\ncc_library(name=\"b\",srcs=[\"b.cc\"])"
def usersOutOfOrder : Str := c!"cc_library(name=\"b\",srcs=[\"b.cc\"])\ncc_library(name=\"a\",srcs=[\"a.cc\"])"

theorem usersInOrder_tree : (parseFile usersInOrder).map (·.1) = some (.list .list
    [simpleRule c!"cc_library" c!"a" c!"srcs" c!"a.cc", simpleRule c!"cc_library" c!"b" c!"srcs" c!"b.cc"]) := by
  decide +kernel
theorem usersOutOfOrder_tree : (parseFile usersOutOfOrder).map (·.1) = some (.list .list
    [simpleRule c!"cc_library" c!"b" c!"srcs" c!"b.cc", simpleRule c!"cc_library" c!"a" c!"srcs" c!"a.cc"]) := by
  decide +kernel

def userFiles : List (Str × Str) :=
  [(c!"p/BUILD", usersInOrder), (c!"p/a.cc", c!"#include \"q/c.h\"\n"), (c!"p/b.cc", c!"#include \"q/c.h\"\n"),
    (c!"q/BUILD", c!"cc_library(name=\"c\",hdrs=[\"c.h\"])")]

theorem userFiles_reordered (e : Bool) : Reordered e (disk userFiles) (replaced userFiles usersInOrder usersOutOfOrder) := by
  refine replaced_reordered (kinds := [c!"cc_library"]) usersInOrder_tree usersOutOfOrder_tree
    (.swap ⟨c!"cc_library", by simp, _, _, rfl⟩ ⟨c!"cc_library", by simp, _, _, rfl⟩) (by decide) ?_ (by decide) e
  intro x hx
  simp only [userFiles, List.mem_cons, List.not_mem_nil, or_false] at hx
  rcases hx with rfl | rfl | rfl | rfl
  · exact .inl ⟨by decide, _, usersInOrder_tree, named_of (by unfold DistinctNames; decide +kernel) fun _ => rfl⟩
  · exact .inr ⟨notBuild_source (by decide), by decide⟩
  · exact .inr ⟨notBuild_source (by decide), by decide⟩
  · exact .inl ⟨by decide, .list .list [simpleRule c!"cc_library" c!"c" c!"hdrs" c!"c.h"], by decide +kernel,
      named_of (by unfold DistinctNames; decide +kernel) fun _ => rfl⟩

/-- The assumptions hold; and the edits are in a different order. -/
example : (∃ found, ∃ edits edits', Suggests (disk userFiles) {} .dwyu everything (note found) edits ∧
      Suggests (replaced userFiles usersInOrder usersOutOfOrder) {} .dwyu everything (note found) edits' ∧
      edits'.Perm edits) ∧
    runCommand (disk userFiles) {} .dwyu everything =
      some ⟨3, c!"buildozer 'add deps //q:c' //p:a\nbuildozer 'add deps //q:c' //p:b\n", []⟩ ∧
    runCommand (replaced userFiles usersInOrder usersOutOfOrder) {} .dwyu everything =
      some ⟨3, c!"buildozer 'add deps //q:c' //p:b\nbuildozer 'add deps //q:c' //p:a\n", []⟩ := by
  refine ⟨?_, by decide +kernel, by decide +kernel⟩
  obtain ⟨found, files, now, hs, hg, hp⟩ := disk_grown (texts := userFiles) (flags := {}) (pattern := everything)
    (p := fun now => sourcesB now && now.all fun f => [true, false].all fun grpc =>
      (HeaderSpec.protoRules f.1 f.2 grpc).isEmpty)
    (by decide +kernel) (by decide +kernel) (by decide +kernel) (by decide +kernel)
  rw [Bool.and_eq_true] at hp
  refine ⟨found, C127_dwyu_partial (userFiles_reordered _) (disk_healthy (by decide +kernel))
    (replaced_healthy (by decide +kernel) (by decide +kernel)) hs hg (fun _ _ _ _ => disk_comments)
    (sourcesB_sound hp.1) ?_⟩
  intro f hf grpc x hx
  have := hp.2
  simp only [List.all_eq_true] at this
  have := this f hf grpc (by cases grpc <;> simp)
  rw [List.isEmpty_iff.1 this] at hx
  cases hx

end Props
end Bant
