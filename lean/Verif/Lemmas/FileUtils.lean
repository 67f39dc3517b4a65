import Verif.Lemmas.Headers
import Verif.Spec.FileUtils

/-! Helper lemmas: reading files and walking directories. -/
namespace Bant
open FileUtils FileSpec Headers

/-! ### Reading -/

theorem overwrite_spec {buf done chunk : Str} (hd : buf.take done.length = done)
    (hl : done.length + chunk.length ≤ buf.length) :
    (overwrite buf done.length chunk).take (done ++ chunk).length = done ++ chunk ∧
      (overwrite buf done.length chunk).length = buf.length := by
  unfold overwrite
  rw [hd]
  constructor
  · rw [List.take_left]
  · simp; omega

/-- The loop: what has been read is in the buffer. -/
theorem readLoop_spec (content : Str) (calls : List ReadCall) (buf : Str) (offset left : Nat)
    (hlen : buf.length = offset + left) (hc : offset ≤ content.length)
    (hbuf : buf.take offset = content.take offset) :
    ∃ got, (readLoop content calls buf offset left).1.length = buf.length ∧
      got + (readLoop content calls buf offset left).2 = buf.length ∧ got ≤ content.length ∧
      (readLoop content calls buf offset left).1.take got = content.take got := by
  induction calls generalizing buf offset left with
  | nil => exact ⟨offset, rfl, by rw [hlen]; rfl, hc, hbuf⟩
  | cons call calls ih =>
    have stop : ∃ got, buf.length = buf.length ∧ got + left = buf.length ∧ got ≤ content.length ∧
        buf.take got = content.take got := ⟨offset, rfl, hlen.symm, hc, hbuf⟩
    rw [readLoop.eq_def]
    simp only []
    by_cases hl : left = 0
    · rw [if_pos hl]; exact stop
    rw [if_neg hl]
    cases call with
    | error => exact stop
    | upTo n =>
      simp only []
      generalize hch : (content.drop offset).take (min n left) = chunk
      by_cases hz : chunk.length = 0
      · rw [if_pos hz]; exact stop
      rw [if_neg hz]
      have hle : chunk.length ≤ left := by
        rw [← hch, List.length_take]; omega
      have hle' : offset + chunk.length ≤ content.length := by
        rw [← hch, List.length_take, List.length_drop]; omega
      have hdone : (content.take offset).length = offset := by rw [List.length_take]; omega
      have hov := overwrite_spec (buf := buf) (done := content.take offset) (chunk := chunk)
        (by rw [hdone]; exact hbuf) (by rw [hdone]; omega)
      rw [hdone] at hov
      have hnext : content.take (offset + chunk.length) = content.take offset ++ chunk := by
        rw [List.take_add]
        congr 1
        rw [← hch, List.length_take, ← List.take_take, List.take_length]
      obtain ⟨got, h1, h2, h3, h4⟩ := ih (overwrite buf offset chunk) (offset + chunk.length)
        (left - chunk.length) (by rw [hov.2]; omega) hle' (by
          rw [hnext, ← hov.1]; simp [hdone])
      rw [hov.2] at h1 h2
      exact ⟨got, h1, h2, h3, h4⟩

/-- If all calls transfer something, all is read. -/
theorem readLoop_all (content : Str) (calls : List ReadCall) (buf : Str) (offset left : Nat)
    (hsize : offset + left ≤ content.length) (hcalls : left ≤ calls.length)
    (hok : ∀ c ∈ calls, ∃ n, c = .upTo n ∧ 0 < n) :
    (readLoop content calls buf offset left).2 = 0 := by
  induction calls generalizing buf offset left with
  | nil =>
    simp only [List.length_nil, Nat.le_zero] at hcalls
    subst hcalls; rfl
  | cons call calls ih =>
    rw [readLoop.eq_def]
    simp only []
    by_cases hl : left = 0
    · rw [if_pos hl]; exact hl
    rw [if_neg hl]
    obtain ⟨n, rfl, hn⟩ := hok call (by simp)
    simp only []
    generalize hch : (content.drop offset).take (min n left) = chunk
    have hlen : chunk.length = min (min n left) (content.length - offset) := by
      rw [← hch, List.length_take, List.length_drop]
    simp only [List.length_cons] at hcalls
    rw [if_neg (by omega)]
    exact ih _ _ _ (by omega) (by omega) (fun c hc => hok c (by simp [hc]))

/-! ### Walking: the parts -/

theorem in_iff {t : Tree} {dir : Str} {e : Dirent} {path : Str} :
    In t dir e path ↔ (∃ es, t.list dir = some es ∧ e ∈ es) ∧ (e.name ≠ c!"." ∧ e.name ≠ c!"..") ∧
      path = Workspace.join dir e.name := by
  constructor
  · rintro ⟨h1, h2, d, n, hd, hl, hp⟩
    refine ⟨h1, h2, ?_⟩
    rw [hp, hd, Workspace.join, stripBack_append '/' d n hl]; simp
  · rintro ⟨h1, h2, h3⟩
    obtain ⟨n, hn⟩ := stripBack_split '/' dir
    refine ⟨h1, h2, stripBack '/' dir, n, hn, ?_, ?_⟩
    · exact stripBack_last _ _
    · rw [h3, Workspace.join]; simp

theorem isDir_iff {t : Tree} {path : Str} {e : Dirent} {i : Nat} :
    IsDir t path e i ↔ directoryInode t path e = some i := by
  unfold directoryInode
  constructor
  · rintro (h | ⟨h1, h2⟩)
    · rw [if_pos h]
    · have : e.type ≠ .dir := by rcases h1 with h | h <;> simp [h]
      rw [if_neg this, if_pos h1.symm, h2]
  · intro h
    by_cases h1 : e.type = .dir
    · rw [if_pos h1] at h; cases h; exact .plain h1
    · rw [if_neg h1] at h
      by_cases h2 : e.type = .unknown ∨ e.type = .link
      · rw [if_pos h2] at h
        split at h
        · next hs => cases h; exact .link h2.symm hs
        · cases h
      · rw [if_neg h2] at h; cases h

theorem valid_iff {i : Nat} : Valid i ↔ looksLikeValidInode i = true := by
  unfold Valid looksLikeValidInode
  simp only [Bool.and_eq_true, decide_eq_true_eq]
  constructor
  · rintro ⟨h1, h2⟩
    refine ⟨h1, ?_⟩
    intro h
    exact h2 (i / 4294967296) (by omega)
  · rintro ⟨h1, h2⟩
    exact ⟨h1, fun k hk => h2 (by omega)⟩

/-- Induction over the iterations. -/
theorem walk_induct {t : Tree} {wantDir wantFile : Str → Bool} (I : Walk → Prop)
    (hstep : ∀ dir rest st, st.work = dir :: rest → I st →
      I (directory t wantDir wantFile dir { st with work := rest }))
    (n : Nat) (st : Walk) (h : I st) (out : List Str) (hw : walk t wantDir wantFile n st = some out) :
    ∃ st', I st' ∧ st'.work = [] ∧ st'.out = out := by
  induction n generalizing st with
  | zero =>
    rw [walk] at hw
    split at hw
    · next he => cases hw; exact ⟨st, h, he, rfl⟩
    · cases hw
  | succ n ih =>
    rw [walk] at hw
    cases hwork : st.work with
    | nil => rw [hwork] at hw; cases hw; exact ⟨st, h, hwork, rfl⟩
    | cons dir rest =>
      rw [hwork] at hw
      exact ih _ (hstep dir rest st hwork h) hw

/-- Induction over the entries of a directory. -/
theorem directory_induct {t : Tree} {wantDir wantFile : Str → Bool} {dir : Str}
    (I : List Dirent → Walk → Prop) (st : Walk) (h : I [] st)
    (hstep : ∀ es pre e post st, t.list dir = some es → es = pre ++ e :: post → I pre st →
      I (pre ++ [e]) (entry t wantDir wantFile dir st e)) :
    I ((t.list dir).getD []) (directory t wantDir wantFile dir st) := by
  unfold directory
  cases hl : t.list dir with
  | none => exact h
  | some es =>
    simp only [Option.getD_some]
    have key : ∀ (post pre : List Dirent) (st : Walk), es = pre ++ post → I pre st →
        I es (post.foldl (entry t wantDir wantFile dir) st) := by
      intro post
      induction post with
      | nil => intro pre st he hi; rw [he, List.append_nil]; exact hi
      | cons e post ih =>
        intro pre st he hi
        rw [List.foldl_cons]
        exact ih (pre ++ [e]) _ (by rw [he]; simp) (hstep es pre e post st hl he hi)
    exact key es [] st rfl h

/-- What one entry does. -/
inductive Did (t : Tree) (wantDir wantFile : Str → Bool) (dir : Str) (st : Walk) (e : Dirent) :
    Walk → Prop
  | dots : e.name = c!"." ∨ e.name = c!".." → Did t wantDir wantFile dir st e st
  | again {i} : e.name ≠ c!"." ∧ e.name ≠ c!".." → IsDir t (Workspace.join dir e.name) e i → Valid i →
      i ∈ st.seen → Did t wantDir wantFile dir st e st
  | skipped {i seen} : e.name ≠ c!"." ∧ e.name ≠ c!".." → IsDir t (Workspace.join dir e.name) e i →
      (Valid i ∧ i ∉ st.seen ∧ seen = i :: st.seen ∨ ¬ Valid i ∧ seen = st.seen) →
      wantDir (Workspace.join dir e.name) = false →
      Did t wantDir wantFile dir st e { st with seen := seen }
  | queued {i seen} : e.name ≠ c!"." ∧ e.name ≠ c!".." → IsDir t (Workspace.join dir e.name) e i →
      (Valid i ∧ i ∉ st.seen ∧ seen = i :: st.seen ∨ ¬ Valid i ∧ seen = st.seen) →
      wantDir (Workspace.join dir e.name) = true →
      Did t wantDir wantFile dir st e
        { st with seen := seen, work := st.work ++ [Workspace.join dir e.name] }
  | unwanted : e.name ≠ c!"." ∧ e.name ≠ c!".." → (¬ ∃ i, IsDir t (Workspace.join dir e.name) e i) →
      wantFile (Workspace.join dir e.name) = false → Did t wantDir wantFile dir st e st
  | found : e.name ≠ c!"." ∧ e.name ≠ c!".." → (¬ ∃ i, IsDir t (Workspace.join dir e.name) e i) →
      wantFile (Workspace.join dir e.name) = true →
      Did t wantDir wantFile dir st e { st with out := st.out ++ [Workspace.join dir e.name] }

theorem entry_did (t : Tree) (wantDir wantFile : Str → Bool) (dir : Str) (st : Walk) (e : Dirent) :
    Did t wantDir wantFile dir st e (entry t wantDir wantFile dir st e) := by
  unfold entry
  by_cases hn : e.name = c!"." ∨ e.name = c!".."
  · rw [if_pos hn]; exact .dots hn
  rw [if_neg hn]
  have hn' : e.name ≠ c!"." ∧ e.name ≠ c!".." := ⟨fun h => hn (.inl h), fun h => hn (.inr h)⟩
  simp only []
  cases hd : directoryInode t (Workspace.join dir e.name) e with
  | none =>
    have hno : ¬ ∃ i, IsDir t (Workspace.join dir e.name) e i := by
      rintro ⟨i, hi⟩; rw [isDir_iff, hd] at hi; cases hi
    cases hw : wantFile (Workspace.join dir e.name) with
    | true => exact .found hn' hno hw
    | false => exact .unwanted hn' hno hw
  | some i =>
    have hi := isDir_iff.2 hd
    simp only []
    by_cases hv : Valid i
    · have hv' := valid_iff.1 hv
      by_cases hs : i ∈ st.seen
      · simp only [hv', hs, Bool.true_and, decide_true, if_true]
        exact .again hn' hi hv hs
      · simp only [hv', hs, Bool.true_and, decide_false, Bool.false_eq_true, if_false, if_true]
        cases hw : wantDir (Workspace.join dir e.name) with
        | true => exact .queued hn' hi (.inl ⟨hv, hs, rfl⟩) hw
        | false => exact .skipped hn' hi (.inl ⟨hv, hs, rfl⟩) hw
    · have hv' : looksLikeValidInode i = false := by
        cases h : looksLikeValidInode i with
        | false => rfl
        | true => exact absurd (valid_iff.2 h) hv
      simp only [hv', Bool.false_and, Bool.false_eq_true, if_false]
      cases hw : wantDir (Workspace.join dir e.name) with
      | true => exact .queued hn' hi (.inr ⟨hv, rfl⟩) hw
      | false => exact .skipped hn' hi (.inr ⟨hv, rfl⟩) hw

/-! ### Walking: only what is wanted -/

structure SoundWalk (t : Tree) (wantDir wantFile : Str → Bool) (start : Str) (st : Walk) : Prop where
  work : ∀ d ∈ st.work, Entered t wantDir start d
  out : ∀ p ∈ st.out, Wanted t wantDir wantFile start p

theorem directory_sound {t : Tree} {wantDir wantFile : Str → Bool} {start dir : Str} {st : Walk}
    (hd : Entered t wantDir start dir) (h : SoundWalk t wantDir wantFile start st) :
    SoundWalk t wantDir wantFile start (directory t wantDir wantFile dir st) := by
  refine directory_induct (fun _ st => SoundWalk t wantDir wantFile start st) st h ?_
  intro es pre e post st hl he hi
  have hin : ∃ es, t.list dir = some es ∧ e ∈ es := ⟨es, hl, by simp [he]⟩
  have hdid := entry_did t wantDir wantFile dir st e
  generalize entry t wantDir wantFile dir st e = st2 at hdid ⊢
  cases hdid with
  | dots _ => exact hi
  | again => exact hi
  | unwanted => exact hi
  | skipped => exact ⟨hi.work, hi.out⟩
  | queued hn hdir _ hw =>
    refine ⟨?_, hi.out⟩
    intro d hd'
    rcases List.mem_append.1 hd' with hd' | hd'
    · exact hi.work d hd'
    · simp only [List.mem_singleton] at hd'
      subst hd'
      exact .sub hd (in_iff.2 ⟨hin, hn, rfl⟩) hdir hw
  | found hn hno hw =>
    refine ⟨hi.work, ?_⟩
    intro p hp
    rcases List.mem_append.1 hp with hp | hp
    · exact hi.out p hp
    · simp only [List.mem_singleton] at hp
      subst hp
      exact ⟨dir, e, hd, in_iff.2 ⟨hin, hn, rfl⟩, hno, hw⟩

theorem sound_step {t : Tree} {wantDir wantFile : Str → Bool} {start dir : Str} {rest : List Str} {st : Walk}
    (hw : st.work = dir :: rest) (h : SoundWalk t wantDir wantFile start st) :
    SoundWalk t wantDir wantFile start (directory t wantDir wantFile dir { st with work := rest }) :=
  directory_sound (h.work dir (by simp [hw])) ⟨fun d hd => h.work d (by simp [hw, hd]), h.out⟩

/-! ### Walking: everything once -/

theorem stripBack_join (d n : Str) (hn : n ≠ []) (hs : '/' ∉ n) :
    stripBack '/' (Workspace.join d n) = Workspace.join d n := by
  have := stripBack_append '/' (Workspace.join d n) 0 (by
    unfold Workspace.join
    rw [show stripBack '/' d ++ '/' :: n = (stripBack '/' d ++ ['/']) ++ n by simp, List.getLast?_append]
    cases hl : n.getLast? with
    | none => exact absurd (List.getLast?_eq_none_iff.1 hl) hn
    | some c =>
      simp only [Option.some_or, ne_eq, Option.some.injEq]
      rintro rfl
      exact hs (List.mem_of_getLast? hl))
  simpa using this

theorem join_inj {d d' n n' : Str} (hs : '/' ∉ n) (hs' : '/' ∉ n')
    (h : Workspace.join d n = Workspace.join d' n') : stripBack '/' d = stripBack '/' d' ∧ n = n' := by
  unfold Workspace.join at h
  have key : ∀ (a b x y : Str), '/' ∉ x → '/' ∉ y → a ++ '/' :: x = b ++ '/' :: y → a = b ∧ x = y := by
    intro a
    induction a with
    | nil =>
      intro b x y hx hy h
      cases b with
      | nil => exact ⟨rfl, by simpa using h⟩
      | cons c b =>
        simp only [List.nil_append, List.cons_append, List.cons.injEq] at h
        exact absurd (by rw [h.2]; simp) hx
    | cons c a ih =>
      intro b x y hx hy h
      cases b with
      | nil =>
        simp only [List.nil_append, List.cons_append, List.cons.injEq] at h
        exact absurd (by rw [← h.2]; simp) hy
      | cons c' b =>
        simp only [List.cons_append, List.cons.injEq] at h
        obtain ⟨h1, h2⟩ := ih b x y hx hy h.2
        exact ⟨by rw [h.1, h1], h2⟩
  exact key _ _ _ _ hs hs' h

/-- A path that is made from a directory and a name, where `ok` holds of both. -/
def From (D : List Str) (ok : Str → Str → Prop) (p : Str) : Prop :=
  ∃ d ∈ D, ∃ n : Str, n ≠ [] ∧ '/' ∉ n ∧ ok (stripBack '/' d) n ∧ p = Workspace.join d n

/-- Everything is looked at once; `D` are the directories that are or were looked at. -/
structure OnceWalk (start : Str) (D : List Str) (ok : Str → Str → Prop) (st : Walk) : Prop where
  dirs : ((D ++ st.work).map (stripBack '/')).Nodup
  made : ∀ p ∈ D ++ st.work, p = start ∨
    ((stripBack '/' start).length < p.length ∧ stripBack '/' p = p ∧ From D ok p)
  files : ∀ p ∈ st.out, From D ok p
  nodup : st.out.Nodup
  start : start ∈ D ++ st.work

theorem prefix_length {start p : Str} {D : List Str} {ok : Str → Str → Prop} {st : Walk}
    (h : OnceWalk start D ok st) (hp : p ∈ D) : (stripBack '/' start).length ≤ (stripBack '/' p).length := by
  rcases h.made p (by simp [hp]) with rfl | ⟨h1, h2, _⟩
  · exact Nat.le_refl _
  · rw [h2]; omega

theorem once_step {t : Tree} (hnamed : Named t) {wantDir wantFile : Str → Bool} {start dir : Str}
    {rest : List Str} {D : List Str} {st : Walk}
    (hw : st.work = dir :: rest) (h : OnceWalk start D (fun _ _ => True) st) :
    OnceWalk start (D ++ [dir]) (fun _ _ => True)
      (directory t wantDir wantFile dir { st with work := rest }) := by
  have hnew : ∀ d ∈ D, stripBack '/' d ≠ stripBack '/' dir := by
    intro d hd heq
    have := h.dirs
    rw [hw, List.map_append, List.nodup_append] at this
    exact this.2.2 _ (List.mem_map.2 ⟨d, hd, rfl⟩) _ (by simp) heq
  have weaken : ∀ {names p}, From D (fun _ _ => True) p → From (D ++ [dir])
      (fun d n => d = stripBack '/' dir → n ∈ (names : List Str)) p := by
    rintro names p ⟨d, hd, n, h1, h2, _, h3⟩
    exact ⟨d, by simp [hd], n, h1, h2, fun hx => absurd hx (hnew d hd), h3⟩
  have init : OnceWalk start (D ++ [dir]) (fun d n => d = stripBack '/' dir → n ∈ ([] : List Dirent).map (·.name))
      { st with work := rest } := by
    refine ⟨?_, ?_, ?_, h.nodup, ?_⟩
    · have := h.dirs; rw [hw] at this; simpa using this
    · intro p hp
      have hp' : p ∈ D ++ st.work := by rw [hw]; simpa using hp
      rcases h.made p hp' with h | ⟨h1, h2, h3⟩
      · exact .inl h
      · exact .inr ⟨h1, h2, weaken h3⟩
    · intro p hp; exact weaken (h.files p hp)
    · have := h.start; rw [hw] at this; simpa using this
  have key := directory_induct (t := t) (wantDir := wantDir) (wantFile := wantFile) (dir := dir)
    (fun pre st => OnceWalk start (D ++ [dir]) (fun d n => d = stripBack '/' dir → n ∈ pre.map (·.name)) st)
    _ init (by
      intro es pre e post st' hl he hi
      obtain ⟨hnd, hok⟩ := hnamed dir es hl
      obtain ⟨hne, hsl⟩ := hok e (by simp [he])
      have hfresh : e.name ∉ pre.map (·.name) := by
        rw [he, List.map_append, List.nodup_append] at hnd
        intro hx
        exact hnd.2.2 _ hx _ (by simp) rfl
      have hnot : ¬ From (D ++ [dir]) (fun d n => d = stripBack '/' dir → n ∈ pre.map (·.name))
          (Workspace.join dir e.name) := by
        rintro ⟨d, _, n, _, h2, h3, h4⟩
        obtain ⟨h5, h6⟩ := join_inj hsl h2 h4
        exact hfresh (h6 ▸ h3 h5.symm)
      have more : ∀ {p}, From (D ++ [dir]) (fun d n => d = stripBack '/' dir → n ∈ pre.map (·.name)) p →
          From (D ++ [dir]) (fun d n => d = stripBack '/' dir → n ∈ (pre ++ [e]).map (·.name)) p := by
        rintro p ⟨d, hd, n, h1, h2, h3, h4⟩
        exact ⟨d, hd, n, h1, h2, fun hx => by simp only [List.map_append, List.mem_append]; exact .inl (h3 hx), h4⟩
      have self : From (D ++ [dir]) (fun d n => d = stripBack '/' dir → n ∈ (pre ++ [e]).map (·.name))
          (Workspace.join dir e.name) := ⟨dir, by simp, e.name, hne, hsl, by simp, rfl⟩
      have same : ∀ seen, OnceWalk start (D ++ [dir])
          (fun d n => d = stripBack '/' dir → n ∈ (pre ++ [e]).map (·.name)) { st' with seen := seen } := by
        intro seen
        refine ⟨hi.dirs, ?_, fun p hp => more (hi.files p hp), hi.nodup, hi.start⟩
        intro p hp
        rcases hi.made p hp with h | ⟨h1, h2, h3⟩
        · exact .inl h
        · exact .inr ⟨h1, h2, more h3⟩
      have hlong : (stripBack '/' start).length < (Workspace.join dir e.name).length := by
        have := prefix_length hi (p := dir) (by simp)
        unfold Workspace.join
        simp; omega
      have hdid := entry_did t wantDir wantFile dir st' e
      generalize entry t wantDir wantFile dir st' e = st2 at hdid ⊢
      cases hdid with
      | dots _ => exact same _
      | again => exact same _
      | unwanted => exact same _
      | skipped => exact same _
      | queued _ _ _ _ =>
        have hs := stripBack_join dir e.name hne hsl
        refine ⟨?_, ?_, (same []).files, hi.nodup, ?_⟩
        · show ((D ++ [dir] ++ (st'.work ++ [Workspace.join dir e.name])).map _).Nodup
          rw [← List.append_assoc, List.map_append, List.nodup_append]
          refine ⟨hi.dirs, by simp, ?_⟩
          intro a ha b hb hab
          simp only [List.map_cons, List.map_nil, List.mem_singleton, hs] at hb
          subst hb
          obtain ⟨p, hp, hpa⟩ := List.mem_map.1 ha
          rw [hab] at hpa
          rcases hi.made p hp with h | ⟨_, h2, h3⟩
          · subst h
            rw [hpa] at hlong
            omega
          · rw [h2] at hpa
            exact hnot (hpa ▸ h3)
        · intro p hp
          rw [show D ++ [dir] ++ (st'.work ++ [Workspace.join dir e.name]) =
            (D ++ [dir] ++ st'.work) ++ [Workspace.join dir e.name] by simp] at hp
          rcases List.mem_append.1 hp with hp | hp
          · exact (same []).made p hp
          · simp only [List.mem_singleton] at hp
            subst hp
            exact .inr ⟨hlong, hs, self⟩
        · have := hi.start
          rcases List.mem_append.1 this with h | h
          · exact List.mem_append.2 (.inl h)
          · exact List.mem_append.2 (.inr (List.mem_append.2 (.inl h)))
      | found _ _ _ =>
        refine ⟨hi.dirs, (same []).made, ?_, ?_, hi.start⟩
        · intro p hp
          rcases List.mem_append.1 hp with hp | hp
          · exact more (hi.files p hp)
          · simp only [List.mem_singleton] at hp
            subst hp
            exact self
        · show (st'.out ++ [_]).Nodup
          rw [List.nodup_append]
          refine ⟨hi.nodup, by simp, ?_⟩
          intro a ha b hb hab
          simp only [List.mem_singleton] at hb
          subst hb
          exact hnot (hab ▸ hi.files a ha))
  refine ⟨key.dirs, ?_, ?_, key.nodup, key.start⟩
  · intro p hp
    rcases key.made p hp with h | ⟨h1, h2, d, hd, n, h3, h4, _, h5⟩
    · exact .inl h
    · exact .inr ⟨h1, h2, d, hd, n, h3, h4, trivial, h5⟩
  · intro p hp
    obtain ⟨d, hd, n, h3, h4, _, h5⟩ := key.files p hp
    exact ⟨d, hd, n, h3, h4, trivial, h5⟩

theorem once_init (start : Str) : OnceWalk start [] (fun _ _ => True) { work := [start] } :=
  ⟨by simp, by simp, by simp, by simp, by simp⟩

/-! ### Walking: everything that is wanted -/

/-- `D`: directories that are or were looked at; `H`: what has been looked at. -/
structure AllWalk (t : Tree) (wantDir wantFile : Str → Bool) (start : Str) (D : List Str)
    (H : List (Str × Dirent)) (st : Walk) : Prop where
  sound : SoundWalk t wantDir wantFile start st
  entered : ∀ d ∈ D, Entered t wantDir start d
  hist : ∀ d e, (d, e) ∈ H → d ∈ D ∧ ∃ es, t.list d = some es ∧ e ∈ es
  dirs : ∀ d e i, (d, e) ∈ H → e.name ≠ c!"." ∧ e.name ≠ c!".." → IsDir t (Workspace.join d e.name) e i →
    wantDir (Workspace.join d e.name) = true → Workspace.join d e.name ∈ D ++ st.work
  files : ∀ d e, (d, e) ∈ H → e.name ≠ c!"." ∧ e.name ≠ c!".." →
    (¬ ∃ i, IsDir t (Workspace.join d e.name) e i) →
    wantFile (Workspace.join d e.name) = true → Workspace.join d e.name ∈ st.out
  seen : ∀ i ∈ st.seen, Valid i ∧ ∃ d e, (d, e) ∈ H ∧ (e.name ≠ c!"." ∧ e.name ≠ c!"..") ∧
    IsDir t (Workspace.join d e.name) e i
  start : start ∈ D ++ st.work

theorem all_step {t : Tree} {wantDir wantFile : Str → Bool} {start dir : Str}
    (hdist : Distinct t wantDir start)
    {rest : List Str} {D : List Str} {H : List (Str × Dirent)} {st : Walk}
    (hw : st.work = dir :: rest) (h : AllWalk t wantDir wantFile start D H st) :
    AllWalk t wantDir wantFile start (D ++ [dir]) (H ++ ((t.list dir).getD []).map (dir, ·))
      (directory t wantDir wantFile dir { st with work := rest }) := by
  have hdir : Entered t wantDir start dir := h.sound.work dir (by simp [hw])
  have hwork : ∀ p, p ∈ D ++ st.work → p ∈ D ++ [dir] ++ rest := by
    intro p hp; rw [hw] at hp; simpa using hp
  have init : AllWalk t wantDir wantFile start (D ++ [dir]) (H ++ ([] : List Dirent).map (dir, ·))
      { st with work := rest } := by
    refine ⟨⟨fun d hd => h.sound.work d (by simp [hw, hd]), h.sound.out⟩, ?_, ?_, ?_, ?_, ?_, hwork _ h.start⟩
    · intro d hd
      rcases List.mem_append.1 hd with hd | hd
      · exact h.entered d hd
      · simp only [List.mem_singleton] at hd; subst hd; exact hdir
    · intro d e hm
      simp only [List.map_nil, List.append_nil] at hm
      exact ⟨by simp [(h.hist d e hm).1], (h.hist d e hm).2⟩
    · intro d e i hm h1 h2 h3
      simp only [List.map_nil, List.append_nil] at hm
      exact hwork _ (h.dirs d e i hm h1 h2 h3)
    · intro d e hm
      simp only [List.map_nil, List.append_nil] at hm
      exact h.files d e hm
    · simp only [List.map_nil, List.append_nil]; exact h.seen
  refine directory_induct (t := t) (wantDir := wantDir) (wantFile := wantFile) (dir := dir)
    (fun pre st => AllWalk t wantDir wantFile start (D ++ [dir]) (H ++ pre.map (dir, ·)) st) _ init ?_
  intro es pre e post st' hl he hi
  have hmem : e ∈ es := by simp [he]
  -- what is known of the entries looked at before carries over
  have old : ∀ {d e'}, (d, e') ∈ H ++ (pre ++ [e]).map (dir, ·) →
      (d, e') ∈ H ++ pre.map (dir, ·) ∨ (d = dir ∧ e' = e) := by
    intro d e' hm
    simp only [List.map_append, List.mem_append, List.map_cons, List.map_nil, List.mem_singleton,
      Prod.mk.injEq] at hm ⊢
    rcases hm with hm | hm | hm
    · exact .inl (.inl hm)
    · exact .inl (.inr hm)
    · exact .inr hm
  have new : ∀ {x}, x ∈ H ++ pre.map (dir, ·) → x ∈ H ++ (pre ++ [e]).map (dir, ·) := by
    intro x hx
    simp only [List.map_append, List.mem_append] at hx ⊢
    rcases hx with hx | hx
    · exact .inl hx
    · exact .inr (.inl hx)
  have last : (dir, e) ∈ H ++ (pre ++ [e]).map (dir, ·) := by simp
  have hist : ∀ d e', (d, e') ∈ H ++ (pre ++ [e]).map (dir, ·) → d ∈ D ++ [dir] ∧
      ∃ es, t.list d = some es ∧ e' ∈ es := by
    intro d e' hm
    rcases old hm with hm | ⟨rfl, rfl⟩
    · exact hi.hist d e' hm
    · exact ⟨by simp, es, hl, hmem⟩
  have sound : SoundWalk t wantDir wantFile start (entry t wantDir wantFile dir st' e) := by
    have hs := hi.sound
    have hin : ∃ es, t.list dir = some es ∧ e ∈ es := ⟨es, hl, hmem⟩
    have hdid := entry_did t wantDir wantFile dir st' e
    generalize entry t wantDir wantFile dir st' e = st2 at hdid ⊢
    cases hdid with
    | dots _ => exact hs
    | again => exact hs
    | unwanted => exact hs
    | skipped => exact ⟨hs.work, hs.out⟩
    | queued hn hd' _ hw =>
      refine ⟨?_, hs.out⟩
      intro d hd
      rcases List.mem_append.1 hd with hd | hd
      · exact hs.work d hd
      · simp only [List.mem_singleton] at hd
        subst hd
        exact .sub hdir (in_iff.2 ⟨hin, hn, rfl⟩) hd' hw
    | found hn hno hw =>
      refine ⟨hs.work, ?_⟩
      intro p hp
      rcases List.mem_append.1 hp with hp | hp
      · exact hs.out p hp
      · simp only [List.mem_singleton] at hp
        subst hp
        exact ⟨dir, e, hdir, in_iff.2 ⟨hin, hn, rfl⟩, hno, hw⟩
  have grow : ∀ {q : Str}, q ∈ D ++ [dir] ++ st'.work →
      q ∈ D ++ [dir] ++ (entry t wantDir wantFile dir st' e).work := by
    intro q hq
    have hdid := entry_did t wantDir wantFile dir st' e
    generalize entry t wantDir wantFile dir st' e = st2 at hdid ⊢
    cases hdid with
    | dots _ => exact hq
    | again => exact hq
    | unwanted => exact hq
    | skipped => exact hq
    | found => exact hq
    | queued =>
      rcases List.mem_append.1 hq with hq | hq
      · exact List.mem_append.2 (.inl hq)
      · exact List.mem_append.2 (.inr (List.mem_append.2 (.inl hq)))
  have growOut : ∀ {q : Str}, q ∈ st'.out → q ∈ (entry t wantDir wantFile dir st' e).out := by
    intro q hq
    have hdid := entry_did t wantDir wantFile dir st' e
    generalize entry t wantDir wantFile dir st' e = st2 at hdid ⊢
    cases hdid with
    | dots _ => exact hq
    | again => exact hq
    | unwanted => exact hq
    | skipped => exact hq
    | queued => exact hq
    | found => exact List.mem_append.2 (.inl hq)
  refine ⟨sound, hi.entered, hist, ?_, ?_, ?_, grow hi.start⟩
  · intro d e' i hm h1 h2 h3
    rcases old hm with hm | ⟨rfl, rfl⟩
    · exact grow (hi.dirs d e' i hm h1 h2 h3)
    · have hdid := entry_did t wantDir wantFile d st' e'
      generalize entry t wantDir wantFile d st' e' = st2 at hdid ⊢
      cases hdid with
      | dots h => rcases h with h | h
                  · exact absurd h h1.1
                  · exact absurd h h1.2
      | again hn hd' hv hs =>
        obtain ⟨_, d₂, e₂, hm₂, hn₂, hd₂⟩ := hi.seen _ hs
        obtain ⟨hD, hlist⟩ := hi.hist d₂ e₂ hm₂
        have := hdist d e' _ d₂ e₂ _ _ hdir (in_iff.2 ⟨⟨es, hl, hmem⟩, hn, rfl⟩) hd'
          (hi.entered d₂ hD) (in_iff.2 ⟨hlist, hn₂, rfl⟩) hd₂ hv
        rw [this] at h3 ⊢
        exact hi.dirs d₂ e₂ _ hm₂ hn₂ hd₂ h3
      | skipped _ _ _ hw => rw [hw] at h3; cases h3
      | queued => simp
      | unwanted _ hno _ => exact absurd ⟨i, h2⟩ hno
      | found _ hno _ => exact absurd ⟨i, h2⟩ hno
  · intro d e' hm h1 h2 h3
    rcases old hm with hm | ⟨rfl, rfl⟩
    · exact growOut (hi.files d e' hm h1 h2 h3)
    · have hdid := entry_did t wantDir wantFile d st' e'
      generalize entry t wantDir wantFile d st' e' = st2 at hdid ⊢
      cases hdid with
      | dots h => rcases h with h | h
                  · exact absurd h h1.1
                  · exact absurd h h1.2
      | again _ hd' => exact absurd ⟨_, hd'⟩ h2
      | skipped _ hd' => exact absurd ⟨_, hd'⟩ h2
      | queued _ hd' => exact absurd ⟨_, hd'⟩ h2
      | unwanted _ _ hw => rw [hw] at h3; cases h3
      | found => simp
  · have keep : ∀ i ∈ st'.seen, Valid i ∧ ∃ d e', (d, e') ∈ H ++ (pre ++ [e]).map (dir, ·) ∧
        (e'.name ≠ c!"." ∧ e'.name ≠ c!"..") ∧ IsDir t (Workspace.join d e'.name) e' i := by
      intro i his
      obtain ⟨h1, d, e', h2, h3⟩ := hi.seen i his
      exact ⟨h1, d, e', new h2, h3⟩
    have hdid := entry_did t wantDir wantFile dir st' e
    generalize entry t wantDir wantFile dir st' e = st2 at hdid ⊢
    cases hdid with
    | dots _ => exact keep
    | again => exact keep
    | unwanted => exact keep
    | found => exact keep
    | skipped hn hd' hs _ =>
      rcases hs with ⟨hv, _, rfl⟩ | ⟨_, rfl⟩
      · intro j hj
        rcases List.mem_cons.1 hj with rfl | hj
        · exact ⟨hv, dir, e, last, hn, hd'⟩
        · exact keep j hj
      · exact keep
    | queued hn hd' hs _ =>
      rcases hs with ⟨hv, _, rfl⟩ | ⟨_, rfl⟩
      · intro j hj
        rcases List.mem_cons.1 hj with rfl | hj
        · exact ⟨hv, dir, e, last, hn, hd'⟩
        · exact keep j hj
      · exact keep

/-! ### Walking: it ends -/

/-- The inodes that have not been seen. -/
def unseen (inodes : List Nat) (st : Walk) : Nat := (inodes.filter (· ∉ st.seen)).length

theorem filter_cons_lt {inodes seen : List Nat} {i : Nat} (hi : i ∈ inodes) (hs : i ∉ seen) :
    (inodes.filter (· ∉ i :: seen)).length + 1 ≤ (inodes.filter (· ∉ seen)).length := by
  induction inodes with
  | nil => cases hi
  | cons x xs ih =>
    rw [List.filter_cons, List.filter_cons]
    by_cases hx : x = i
    · subst hx
      simp only [List.mem_cons, true_or, not_true_eq_false, decide_false, Bool.false_eq_true, if_false,
        hs, not_false_eq_true, decide_true, if_true, List.length_cons]
      have : ∀ l : List Nat, (l.filter (· ∉ x :: seen)).length ≤ (l.filter (· ∉ seen)).length := by
        intro l
        induction l with
        | nil => exact Nat.le_refl _
        | cons y l ihl =>
          rw [List.filter_cons, List.filter_cons]
          by_cases h1 : y ∈ seen
          · simp [h1]; simpa using ihl
          · by_cases h2 : y = x
            · simp [h2, hs]; have := ihl; simp at this; omega
            · simp [h1, h2]; simpa using ihl
      have := this xs
      simp only [List.mem_cons] at this
      omega
    · have := ih ((List.mem_cons.1 hi).resolve_left (Ne.symm hx))
      by_cases h1 : x ∈ seen
      · simp [h1]; simpa using this
      · simp [h1, hx]; simpa using this

theorem directory_measure {t : Tree} {wantDir wantFile : Str → Bool} {dir : Str} {inodes : List Nat}
    (hv : ∀ e path i, In t dir e path → IsDir t path e i → Valid i ∧ i ∈ inodes) (st : Walk) :
    (directory t wantDir wantFile dir st).work.length +
      unseen inodes (directory t wantDir wantFile dir st) ≤ st.work.length + unseen inodes st := by
  refine directory_induct (t := t) (wantDir := wantDir) (wantFile := wantFile) (dir := dir)
    (fun _ st' => st'.work.length + unseen inodes st' ≤ st.work.length + unseen inodes st) st
    (Nat.le_refl _) ?_
  intro es pre e post st' hl he hi
  have hin : ∃ es, t.list dir = some es ∧ e ∈ es := ⟨es, hl, by simp [he]⟩
  refine Nat.le_trans ?_ hi
  unfold unseen
  have hdid := entry_did t wantDir wantFile dir st' e
  generalize entry t wantDir wantFile dir st' e = st2 at hdid ⊢
  cases hdid with
  | dots _ => exact Nat.le_refl _
  | again => exact Nat.le_refl _
  | unwanted => exact Nat.le_refl _
  | found => exact Nat.le_refl _
  | skipped hn hd hs _ =>
    obtain ⟨hval, hmem⟩ := hv e _ _ (in_iff.2 ⟨hin, hn, rfl⟩) hd
    rcases hs with ⟨_, hns, rfl⟩ | ⟨hnv, _⟩
    · have := filter_cons_lt hmem hns
      show st'.work.length + (inodes.filter (· ∉ _ :: st'.seen)).length ≤ _
      omega
    · exact absurd hval hnv
  | queued hn hd hs _ =>
    obtain ⟨hval, hmem⟩ := hv e _ _ (in_iff.2 ⟨hin, hn, rfl⟩) hd
    rcases hs with ⟨_, hns, rfl⟩ | ⟨hnv, _⟩
    · have := filter_cons_lt hmem hns
      show (st'.work ++ [_]).length + (inodes.filter (· ∉ _ :: st'.seen)).length ≤ _
      simp only [List.length_append, List.length_singleton]
      omega
    · exact absurd hval hnv

/-- More iterations do not matter. -/
theorem walk_more {t : Tree} {wantDir wantFile : Str → Bool} (n m : Nat) (st : Walk) (out : List Str)
    (h : walk t wantDir wantFile n st = some out) (hm : n ≤ m) :
    walk t wantDir wantFile m st = some out := by
  induction n generalizing m st with
  | zero =>
    rw [walk] at h
    split at h
    · next he =>
      cases m with
      | zero => rw [walk, if_pos he]; exact h
      | succ m => rw [walk, he]; exact h
    · cases h
  | succ n ih =>
    cases m with
    | zero => omega
    | succ m =>
      rw [walk] at h ⊢
      cases hw : st.work with
      | nil => rw [hw] at h; exact h
      | cons d rest =>
        rw [hw] at h
        exact ih m _ h (by omega)

/-- `I n st`: there are at most `n` iterations to come. -/
theorem walk_ends {t : Tree} {wantDir wantFile : Str → Bool} (I : Nat → Walk → Prop)
    (hstep : ∀ n dir rest st, st.work = dir :: rest → I n st → ∃ m, n = m + 1 ∧
      I m (directory t wantDir wantFile dir { st with work := rest }))
    (n : Nat) (st : Walk) (h : I n st) : ∃ out, walk t wantDir wantFile n st = some out := by
  induction n generalizing st with
  | zero =>
    rw [walk]
    cases hw : st.work with
    | nil => exact ⟨_, rfl⟩
    | cons d rest =>
      obtain ⟨m, hm, _⟩ := hstep 0 d rest st hw h
      omega
  | succ n ih =>
    rw [walk]
    cases hw : st.work with
    | nil => exact ⟨_, rfl⟩
    | cons d rest =>
      obtain ⟨m, hm, hi⟩ := hstep _ d rest st hw h
      cases hm
      exact ih _ hi

end Bant
