import Verif.Spec.Files
/-! # Atomic file replacement: C47 -/

namespace Sigtool

variable {perm : Nat}

/-- The calls a `SafeFile` makes before (or instead of) the rename. -/
def Sys.Safe (tmp : Path) (i : Nat) (c : Sys) : Prop :=
  (∃ perm, c = .create tmp i perm) ∨ (∃ b, c = .write i b) ∨ c = .sync i ∨ c = .remove tmp

/-- State during the safe calls, compared with the state `fs` at the beginning. -/
structure Before (fs : FS) (tmp : Path) (i : Nat) (s : FS) : Prop where
  dirs : ∀ d ∈ s.dir :: s.journal, (∃ d0 ∈ fs.dir :: fs.journal, ∀ p, p ≠ tmp → d p = d0 p)
  cur : ∀ p, p ≠ tmp → s.dir p = fs.dir p
  data : ∀ j, j ≠ i → s.data j = fs.data j
  dirty : ∀ j, j ≠ i → s.dirty j = fs.dirty j

theorem Before.refl (fs : FS) (tmp : Path) (i : Nat) : Before fs tmp i fs :=
  ⟨fun d hd => ⟨d, hd, fun _ _ => rfl⟩, fun _ _ => rfl, fun _ _ => rfl, fun _ _ => rfl⟩

theorem setAt_ne {α β : Type} [DecidableEq α] (f : α → β) (a x : α) (b : β) (h : x ≠ a) : setAt f a b x = f x := by
  simp [setAt, h]

@[simp] theorem setAt_eq {α β : Type} [DecidableEq α] (f : α → β) (a : α) (b : β) : setAt f a b a = b := by simp [setAt]

theorem Before.step {fs : FS} {tmp : Path} {i : Nat} {s : FS} (h : Before fs tmp i s) (c : Sys) (hc : c.Safe tmp i) :
    Before fs tmp i (s.step c) := by
  have hd0 := h.dirs s.dir (by simp)
  rcases hc with ⟨perm, rfl⟩ | ⟨b, rfl⟩ | rfl | rfl
  · refine ⟨?_, ?_, ?_, ?_⟩
    · intro d hd
      simp only [FS.step, List.mem_cons] at hd
      rcases hd with rfl | rfl | hd
      · obtain ⟨d0, h0, h1⟩ := hd0
        exact ⟨d0, h0, fun p hp => by rw [setAt_ne _ _ _ _ hp]; exact h1 p hp⟩
      · exact h.dirs _ (by simp)
      · exact h.dirs _ (by simp [hd])
    · intro p hp; simp only [FS.step]; rw [setAt_ne _ _ _ _ hp]; exact h.cur p hp
    · intro j hj; simp only [FS.step]; rw [setAt_ne _ _ _ _ hj]; exact h.data j hj
    · intro j hj; simp only [FS.step]; rw [setAt_ne _ _ _ _ hj]; exact h.dirty j hj
  · refine ⟨h.dirs, h.cur, ?_, ?_⟩
    · intro j hj; simp only [FS.step]; rw [setAt_ne _ _ _ _ hj]; exact h.data j hj
    · intro j hj; simp only [FS.step]; rw [setAt_ne _ _ _ _ hj]; exact h.dirty j hj
  · refine ⟨h.dirs, h.cur, h.data, ?_⟩
    intro j hj; simp only [FS.step]; rw [setAt_ne _ _ _ _ hj]; exact h.dirty j hj
  · refine ⟨?_, ?_, h.data, h.dirty⟩
    · intro d hd
      simp only [FS.step, List.mem_cons] at hd
      rcases hd with rfl | rfl | hd
      · obtain ⟨d0, h0, h1⟩ := hd0
        exact ⟨d0, h0, fun p hp => by rw [setAt_ne _ _ _ _ hp]; exact h1 p hp⟩
      · exact h.dirs _ (by simp)
      · exact h.dirs _ (by simp [hd])
    · intro p hp; simp only [FS.step]; rw [setAt_ne _ _ _ _ hp]; exact h.cur p hp

theorem Before.run {fs : FS} {tmp : Path} {i : Nat} {s : FS} (h : Before fs tmp i s) (cs : List Sys) (hc : ∀ c ∈ cs, c.Safe tmp i) :
    Before fs tmp i (s.run cs) := by
  induction cs generalizing s with
  | nil => exact h
  | cons c cs ih =>
    exact ih (h.step c (hc c (by simp))) (fun x hx => hc x (by simp [hx]))

/-- Reading another file in a crash image of such a state. -/
theorem Before.read {fs : FS} {tmp : Path} {i : Nat} {s : FS} (h : Before fs tmp i s) (hf : Spec.Fresh fs tmp i) (p : Path)
    (hp : p ≠ tmp) (hd : Spec.OnDisk fs p) (dir : Dir) (data : Nat → Bytes) (hi : Spec.CrashImage s dir data) :
    readIn dir data p = fs.read p := by
  have hdir : dir p = fs.dir p := by
    have : dir ∈ s.dir :: s.journal := by
      rcases hi.dir with h | h
      · simp [h]
      · simp [h]
    obtain ⟨d0, h0, h1⟩ := h.dirs dir this
    rw [h1 p hp]
    rcases List.mem_cons.mp h0 with rfl | h0
    · rfl
    · exact hd.1 d0 h0
  unfold FS.read readIn
  rw [hdir]
  match hm : fs.dir p with
  | none => rfl
  | some .other => rfl
  | some (.file j) =>
    have hj : j ≠ i := fun e => hf.inode fs.dir (by simp) p (by rw [hm, e])
    dsimp only
    rw [hi.data j (by rw [h.dirty j hj]; exact hd.2 j hm), h.data j hj]

/-- Reading another file in such a state. -/
theorem Before.read_now {fs : FS} {tmp : Path} {i : Nat} {s : FS} (h : Before fs tmp i s) (hf : Spec.Fresh fs tmp i) (p : Path)
    (hp : p ≠ tmp) : s.read p = fs.read p := by
  unfold FS.read readIn
  rw [h.cur p hp]
  match hm : fs.dir p with
  | none => rfl
  | some .other => rfl
  | some (.file j) =>
    have hj : j ≠ i := fun e => hf.inode fs.dir (by simp) p (by rw [hm, e])
    dsimp only
    rw [h.data j hj]

/-! ### Writing the temporary file -/

theorem run_append (fs : FS) (a b : List Sys) : fs.run (a ++ b) = (fs.run a).run b := by
  simp [FS.run]

theorem run_writes (s : FS) (i : Nat) (out : Bytes) :
    (s.run (writeCalls i out)).data i = s.data i ++ out ∧ (s.run (writeCalls i out)).dir = s.dir ∧
      (s.run (writeCalls i out)).journal = s.journal := by
  induction out generalizing s with
  | nil => simp [writeCalls, FS.run]
  | cons b out ih =>
    have e : s.run (writeCalls i (b :: out)) = (s.step (.write i [b])).run (writeCalls i out) := rfl
    obtain ⟨h1, h2, h3⟩ := ih (s.step (.write i [b]))
    rw [e]
    refine ⟨?_, h2, h3⟩
    rw [h1]
    simp [FS.step]

theorem writeCalls_safe (tmp : Path) (i : Nat) (out : Bytes) : ∀ c ∈ writeCalls i out, c.Safe tmp i := by
  intro c hc
  obtain ⟨b, _, rfl⟩ := List.mem_map.mp hc
  exact .inr (.inl ⟨_, rfl⟩)

/-- After creating the temporary file and writing to it: its content, and the rest. -/
theorem run_create_writes (fs : FS) (tmp : Path) (i : Nat) (out : Bytes) :
    (fs.run (.create tmp i perm :: writeCalls i out)).data i = out ∧
      (fs.run (.create tmp i perm :: writeCalls i out)).dir = setAt fs.dir tmp (some (.file i)) := by
  have e : fs.run (.create tmp i perm :: writeCalls i out) = (fs.step (.create tmp i perm)).run (writeCalls i out) := rfl
  obtain ⟨h1, h2, _⟩ := run_writes (fs.step (.create tmp i perm)) i out
  rw [e, h1, h2]
  simp [FS.step]

theorem preCalls_safe (tmp : Path) (i : Nat) (out : Bytes) : ∀ c ∈ preCalls tmp i perm out, c.Safe tmp i := by
  intro c hc
  rcases List.mem_cons.mp hc with rfl | hc
  · exact .inl ⟨_, rfl⟩
  · exact writeCalls_safe tmp i out c hc

/-- What a run over a `SafeFile` looks like: nothing; or the temporary file is made, written and removed; or it is made,
written, synced and renamed. -/
inductive SafeRun (env : SafeEnv) (target : Path) (content : Bytes) : Bool → List Sys → Prop
  | nothing : SafeRun env target content false []
  | failed {perm : Nat} (out : Bytes) (cl : List Sys) : (cl = [] ∨ cl = [.sync env.inode]) →
      SafeRun env target content false (preCalls env.tmp env.inode perm out ++ cl ++ abortCalls env)
  | done {perm : Nat} : SafeRun env target content true
      (preCalls env.tmp env.inode perm content ++ [.sync env.inode] ++ [.rename env.tmp target])

theorem newSafeFile_ok {fs : FS} {env : SafeEnv} {target : Path} {ov : Bool} {cs : List Sys}
    (h : newSafeFile fs env perm target ov = .ok cs) :
    cs = [.create env.tmp env.inode perm] ∧ (fs.exists target = true → ov = true) := by
  unfold newSafeFile at h
  unfold FS.exists
  split at h
  · split at h
    · cases h
    · rename_i ho
      split at h
      · cases h
      · split at h
        · cases h
        · cases h; exact ⟨rfl, fun _ => by simpa using ho⟩
  · rename_i hn
    split at h
    · cases h
    · cases h; exact ⟨rfl, by simp [hn]⟩

theorem newSafeFile_no_panic (fs : FS) (env : SafeEnv) (target : Path) (ov : Bool) (w : String) :
    newSafeFile fs env perm target ov ≠ .panic w := by
  unfold newSafeFile
  repeat' split
  all_goals (intro h; cases h)

theorem newSafeFile_exists (fs : FS) (env : SafeEnv) (target : Path) (h : fs.exists target = true) :
    newSafeFile fs env perm target false = .err (.msg "safefile: won't overwrite existing file") := by
  unfold FS.exists at h
  unfold newSafeFile
  split
  · rfl
  · rename_i hn; rw [hn] at h; cases h

theorem closeCalls_cases (env : SafeEnv) (target : Path) :
    (closeCalls env target = (none, [.sync env.inode, .rename env.tmp target])) ∨
    ∃ e, closeCalls env target = (some e, []) ∨ closeCalls env target = (some e, [.sync env.inode]) := by
  unfold closeCalls
  split
  · exact .inr ⟨_, .inl rfl⟩
  · split
    · exact .inr ⟨_, .inr rfl⟩
    · split
      · exact .inr ⟨_, .inr rfl⟩
      · exact .inl rfl

theorem writeFile_run (fs : FS) (env : SafeEnv) (target : Path) (content : Bytes) (ov : Bool) :
    ∃ ok, SafeRun env target content ok (writeFile fs env perm target content ov).2 ∧
      (ok = true ↔ (writeFile fs env perm target content ov).1 = .ok ()) ∧
      (ok = false ↔ ∃ e, (writeFile fs env perm target content ov).1 = .err e) := by
  unfold writeFile
  match hn : newSafeFile fs env perm target ov with
  | .err e => exact ⟨false, .nothing, by simp, by simp⟩
  | .panic w => exact absurd hn (newSafeFile_no_panic _ _ _ _ _)
  | .ok cs =>
    obtain ⟨rfl, _⟩ := newSafeFile_ok hn
    dsimp only
    obtain ⟨w', _, _, h3, _⟩ := fullwrite_spec content { script := env.writes }
    rcases h3 with ⟨h5, h6⟩ | ⟨e, k, h5, h6, _⟩
    · rw [h5]
      dsimp only
      rw [h6]
      dsimp only [List.nil_append]
      rcases closeCalls_cases env target with hc | ⟨e, hc | hc⟩
      · rw [hc]
        refine ⟨true, ?_, by simp, by simp⟩
        have := SafeRun.done (perm := perm) (env := env) (target := target) (content := content)
        simpa [preCalls] using this
      · rw [hc]
        refine ⟨false, ?_, by simp, by simp⟩
        simpa [preCalls] using SafeRun.failed (env := env) (target := target) (content := content) content [] (.inl rfl)
      · rw [hc]
        refine ⟨false, ?_, by simp, by simp⟩
        simpa [preCalls] using SafeRun.failed (env := env) (target := target) (content := content) content [.sync env.inode] (.inr rfl)
    · rw [h5]
      dsimp only
      refine ⟨false, ?_, by simp, by simp⟩
      simpa [preCalls] using SafeRun.failed (env := env) (target := target) (content := content) w'.out [] (.inl rfl)

/-! ### Consequences for every such run -/

theorem failed_safe (env : SafeEnv) (out : Bytes) (cl : List Sys) (h : cl = [] ∨ cl = [.sync env.inode]) :
    ∀ c ∈ preCalls env.tmp env.inode perm out ++ cl ++ abortCalls env, c.Safe env.tmp env.inode := by
  intro c hc
  simp only [List.mem_append] at hc
  rcases hc with (hc | hc) | hc
  · exact preCalls_safe _ _ _ c hc
  · rcases h with rfl | rfl
    · cases hc
    · rw [List.mem_singleton] at hc; exact .inr (.inr (.inl hc))
  · unfold abortCalls at hc
    split at hc
    · cases hc
    · rw [List.mem_singleton] at hc; exact .inr (.inr (.inr hc))

theorem done_safe (env : SafeEnv) (content : Bytes) :
    ∀ c ∈ preCalls env.tmp env.inode perm content ++ [.sync env.inode], c.Safe env.tmp env.inode := by
  intro c hc
  rcases List.mem_append.mp hc with hc | hc
  · exact preCalls_safe _ _ _ c hc
  · rw [List.mem_singleton] at hc; exact .inr (.inr (.inl hc))

/-- The state after the rename. -/
theorem done_state (fs : FS) (env : SafeEnv) (target : Path) (content : Bytes) (ht : target ≠ env.tmp)
    (hf : Spec.Fresh fs env.tmp env.inode) :
    let s := fs.run (preCalls env.tmp env.inode perm content ++ [.sync env.inode] ++ [.rename env.tmp target])
    s.dir target = some (.file env.inode) ∧ s.dir env.tmp = none ∧ s.data env.inode = content ∧ s.dirty env.inode = false ∧
      (∀ p, p ≠ target → p ≠ env.tmp → s.dir p = fs.dir p) ∧ (∀ j, j ≠ env.inode → s.data j = fs.data j ∧ s.dirty j = fs.dirty j) ∧
      (∀ d ∈ s.journal, ∃ d0 ∈ fs.dir :: fs.journal, ∀ p, p ≠ env.tmp → d p = d0 p) := by
  have hb : Before fs env.tmp env.inode (fs.run (preCalls env.tmp env.inode perm content ++ [.sync env.inode])) :=
    (Before.refl fs env.tmp env.inode).run _ (done_safe env content)
  obtain ⟨hd1, hd2⟩ := run_create_writes fs env.tmp env.inode content
  intro s
  have es : s = ((fs.run (preCalls env.tmp env.inode perm content)).step (.sync env.inode)).step (.rename env.tmp target) := by
    simp only [s, run_append]; rfl
  have eb : fs.run (preCalls env.tmp env.inode perm content ++ [.sync env.inode]) =
      (fs.run (preCalls env.tmp env.inode perm content)).step (.sync env.inode) := by
    rw [run_append]; rfl
  rw [eb] at hb
  have htmp : (fs.run (preCalls env.tmp env.inode perm content)).dir env.tmp = some (.file env.inode) := by
    unfold preCalls; rw [hd2, setAt_eq]
  refine ⟨?_, ?_, ?_, ?_, ?_, ?_, ?_⟩
  · rw [es]
    simp only [FS.step]
    rw [setAt_ne _ _ _ _ ht, setAt_eq, htmp]
  · rw [es]; simp only [FS.step]; rw [setAt_eq]
  · rw [es]; simp only [FS.step]; exact hd1
  · rw [es]; simp only [FS.step]; rw [setAt_eq]
  · intro p h1 h2
    rw [es]
    have := hb.cur p h2
    simp only [FS.step] at this ⊢
    rw [setAt_ne _ _ _ _ h2, setAt_ne _ _ _ _ h1]
    exact this
  · intro j hj
    rw [es]
    exact ⟨hb.data j hj, hb.dirty j hj⟩
  · intro d hd
    rw [es] at hd
    simp only [FS.step] at hd
    exact hb.dirs d (by simpa [FS.step] using hd)

/-- At every crash point, what a file other than the temporary one may hold is what it may have held after a crash before the
run; only the target may instead hold the complete content. -/
theorem SafeRun.image {env : SafeEnv} {target : Path} {content : Bytes} {ok : Bool} {cs : List Sys}
    (h : SafeRun env target content ok cs) (fs : FS) (hf : Spec.Fresh fs env.tmp env.inode) (ht : target ≠ env.tmp)
    (pre : List Sys) (hp : pre <+: cs) (dir : Dir) (data : Nat → Bytes) (hi : Spec.CrashImage (fs.run pre) dir data)
    (p : Path) (hpt : p ≠ env.tmp) :
    (∃ dir0 data0, Spec.CrashImage fs dir0 data0 ∧ readIn dir data p = readIn dir0 data0 p) ∨
      (ok = true ∧ p = target ∧ readIn dir data p = some content) := by
  have back : ∀ d0, d0 ∈ fs.dir :: fs.journal → dir p = d0 p →
      (∀ j, j ≠ env.inode → fs.dirty j = false → data j = fs.data j) →
      ∃ dir0 data0, Spec.CrashImage fs dir0 data0 ∧ readIn dir data p = readIn dir0 data0 p := by
    intro d0 hd0 hdp hdata
    refine ⟨d0, fun j => if j = env.inode then fs.data j else data j, ⟨by simpa using hd0, ?_⟩, ?_⟩
    · intro j hj
      split
      · rfl
      · rename_i hne; exact hdata j hne hj
    · unfold readIn
      rw [hdp]
      match hm : d0 p with
      | none => rfl
      | some .other => rfl
      | some (.file j) =>
        have hj : j ≠ env.inode := fun e => hf.inode d0 hd0 p (by rw [hm, e])
        dsimp only
        rw [if_neg hj]
  have safe : (∀ c ∈ pre, c.Safe env.tmp env.inode) →
      ∃ dir0 data0, Spec.CrashImage fs dir0 data0 ∧ readIn dir data p = readIn dir0 data0 p := by
    intro hs
    have hb := (Before.refl fs env.tmp env.inode).run pre hs
    have hmem : dir ∈ (fs.run pre).dir :: (fs.run pre).journal := by
      rcases hi.dir with h | h
      · simp [h]
      · simp [h]
    obtain ⟨d0, h0, h1⟩ := hb.dirs dir hmem
    refine back d0 h0 (h1 p hpt) ?_
    intro j hj hd
    rw [hi.data j (by rw [hb.dirty j hj]; exact hd), hb.data j hj]
  cases h with
  | nothing =>
    rw [List.prefix_nil] at hp
    subst hp
    exact .inl (safe (by simp))
  | failed out cl hcl => exact .inl (safe fun c hc => failed_safe env out cl hcl c (hp.subset hc))
  | done =>
    rcases List.prefix_concat_iff.mp hp with rfl | hp
    · obtain ⟨h1, h2, h3, h4, h5, h6, h7⟩ := done_state fs env target content ht hf
      have hdata : ∀ j, j ≠ env.inode → fs.dirty j = false → data j = fs.data j := by
        intro j hj hd
        rw [hi.data j (by rw [(h6 j hj).2]; exact hd), (h6 j hj).1]
      rcases hi.dir with hdir | hdir
      · by_cases he : p = target
        · subst he
          right
          refine ⟨rfl, rfl, ?_⟩
          unfold readIn
          rw [hdir, h1]
          dsimp only
          rw [hi.data _ h4, h3]
        · exact .inl (back fs.dir (by simp) (by rw [hdir, h5 p he hpt]) hdata)
      · obtain ⟨d0, g1, g2⟩ := h7 dir hdir
        exact .inl (back d0 g1 (g2 p hpt) hdata)
    · exact .inl (safe fun c hc => done_safe env content c (hp.subset hc))

/-- A file that is on disk is the same in every crash image. -/
theorem OnDisk_image {fs : FS} {p : Path} (h : Spec.OnDisk fs p) {dir : Dir} {data : Nat → Bytes}
    (hi : Spec.CrashImage fs dir data) : readIn dir data p = fs.read p := by
  have hdp : dir p = fs.dir p := by
    rcases hi.dir with h' | h'
    · rw [h']
    · exact h.1 dir h'
  unfold FS.read readIn
  rw [hdp]
  match hm : fs.dir p with
  | none => rfl
  | some .other => rfl
  | some (.file j) =>
    dsimp only
    rw [hi.data j (h.2 j hm)]

/-- At every crash point every file but the temporary one is as before, or it is the target and has the full content. -/
theorem SafeRun.crash {env : SafeEnv} {target : Path} {content : Bytes} {ok : Bool} {cs : List Sys}
    (h : SafeRun env target content ok cs) (fs : FS) (hf : Spec.Fresh fs env.tmp env.inode) (ht : target ≠ env.tmp)
    (pre : List Sys) (hp : pre <+: cs) (dir : Dir) (data : Nat → Bytes) (hi : Spec.CrashImage (fs.run pre) dir data)
    (p : Path) (hpt : p ≠ env.tmp) (hd : Spec.OnDisk fs p) :
    readIn dir data p = fs.read p ∨ (ok = true ∧ p = target ∧ readIn dir data p = some content) := by
  rcases h.image fs hf ht pre hp dir data hi p hpt with ⟨dir0, data0, h0, h1⟩ | h
  · exact .inl (h1.trans (OnDisk_image hd h0))
  · exact .inr h

/-- A run leaves other names and inodes unused. -/
theorem SafeRun.fresh {env : SafeEnv} {target : Path} {content : Bytes} {ok : Bool} {cs : List Sys}
    (h : SafeRun env target content ok cs) (fs : FS) (hf : Spec.Fresh fs env.tmp env.inode) (ht : target ≠ env.tmp)
    (tmp : Path) (inode : Nat) (hf2 : Spec.Fresh fs tmp inode) (h1 : tmp ≠ env.tmp) (h2 : inode ≠ env.inode) (h3 : tmp ≠ target) :
    Spec.Fresh (fs.run cs) tmp inode := by
  -- every directory of the run, entry by entry, has an old entry, the new file or nothing
  have key : ∀ (cs : List Sys) (s : FS),
      (∀ d ∈ s.dir :: s.journal, ∀ p, d p = none ∨ d p = some (.file env.inode) ∨ ∃ d0 ∈ fs.dir :: fs.journal, d p = d0 p) →
      (∀ d ∈ s.dir :: s.journal, d tmp = none) →
      (∀ c ∈ cs, c.Safe env.tmp env.inode ∨ c = .rename env.tmp target) →
      (∀ d ∈ (s.run cs).dir :: (s.run cs).journal, ∀ p,
        d p = none ∨ d p = some (.file env.inode) ∨ ∃ d0 ∈ fs.dir :: fs.journal, d p = d0 p) ∧
      (∀ d ∈ (s.run cs).dir :: (s.run cs).journal, d tmp = none) := by
    intro cs
    induction cs with
    | nil => intro s a b _; exact ⟨a, b⟩
    | cons c cs ih =>
      intro s a b hc
      refine ih (s.step c) ?_ ?_ (fun x hx => hc x (by simp [hx]))
      · rcases hc c (by simp) with (⟨perm, rfl⟩ | ⟨b', rfl⟩ | rfl | rfl) | rfl
        · intro d hd p
          simp only [FS.step, List.mem_cons] at hd
          rcases hd with rfl | rfl | hd
          · by_cases hp : p = env.tmp
            · subst hp; rw [setAt_eq]; exact .inr (.inl rfl)
            · rw [setAt_ne _ _ _ _ hp]; exact a _ (by simp) p
          · exact a _ (by simp) p
          · exact a _ (by simp [hd]) p
        · exact a
        · exact a
        · intro d hd p
          simp only [FS.step, List.mem_cons] at hd
          rcases hd with rfl | rfl | hd
          · by_cases hp : p = env.tmp
            · subst hp; rw [setAt_eq]; exact .inl rfl
            · rw [setAt_ne _ _ _ _ hp]; exact a _ (by simp) p
          · exact a _ (by simp) p
          · exact a _ (by simp [hd]) p
        · intro d hd p
          simp only [FS.step, List.mem_cons] at hd
          rcases hd with rfl | rfl | hd
          · by_cases hp : p = env.tmp
            · subst hp; rw [setAt_eq]; exact .inl rfl
            · rw [setAt_ne _ _ _ _ hp]
              by_cases hp2 : p = target
              · subst hp2; rw [setAt_eq];
                rcases a s.dir (by simp) env.tmp with x | x | ⟨d0, x1, x2⟩
                · exact .inl x
                · exact .inr (.inl x)
                · exact .inl (by rw [x2]; exact hf.name d0 x1)
              · rw [setAt_ne _ _ _ _ hp2]; exact a _ (by simp) p
          · exact a _ (by simp) p
          · exact a _ (by simp [hd]) p
      · rcases hc c (by simp) with (⟨perm, rfl⟩ | ⟨b', rfl⟩ | rfl | rfl) | rfl
        · intro d hd
          simp only [FS.step, List.mem_cons] at hd
          rcases hd with rfl | rfl | hd
          · rw [setAt_ne _ _ _ _ h1]; exact b _ (by simp)
          · exact b _ (by simp)
          · exact b _ (by simp [hd])
        · exact b
        · exact b
        · intro d hd
          simp only [FS.step, List.mem_cons] at hd
          rcases hd with rfl | rfl | hd
          · rw [setAt_ne _ _ _ _ h1]; exact b _ (by simp)
          · exact b _ (by simp)
          · exact b _ (by simp [hd])
        · intro d hd
          simp only [FS.step, List.mem_cons] at hd
          rcases hd with rfl | rfl | hd
          · rw [setAt_ne _ _ _ _ h1, setAt_ne _ _ _ _ h3]; exact b _ (by simp)
          · exact b _ (by simp)
          · exact b _ (by simp [hd])
  have hcs : ∀ c ∈ cs, c.Safe env.tmp env.inode ∨ c = .rename env.tmp target := by
    cases h with
    | nothing => simp
    | failed out cl hcl => intro c hc; exact .inl (failed_safe env out cl hcl c hc)
    | done =>
      intro c hc
      rcases List.mem_append.mp hc with hc | hc
      · exact .inl (done_safe env content c hc)
      · rw [List.mem_singleton] at hc; exact .inr hc
  obtain ⟨k1, k2⟩ := key cs fs (fun d hd p => .inr (.inr ⟨d, hd, rfl⟩)) hf2.name hcs
  refine ⟨k2, ?_⟩
  intro d hd p hdp
  rcases k1 d hd p with x | x | ⟨d0, x1, x2⟩
  · rw [x] at hdp; cases hdp
  · rw [x] at hdp; cases hdp; exact h2 rfl
  · rw [x2] at hdp; exact hf2.inode d0 x1 p hdp

/-- The final state of a failed run. -/
theorem SafeRun.failure {env : SafeEnv} {target : Path} {content : Bytes} {cs : List Sys}
    (h : SafeRun env target content false cs) (fs : FS) (hf : Spec.Fresh fs env.tmp env.inode) :
    (∀ p, p ≠ env.tmp → (fs.run cs).read p = fs.read p ∧ (fs.run cs).dir p = fs.dir p) ∧
      (env.removeErr = none → (fs.run cs).dir env.tmp = none) := by
  cases h with
  | nothing => exact ⟨fun _ _ => ⟨rfl, rfl⟩, fun _ => hf.name fs.dir (by simp)⟩
  | @failed perm out cl hcl =>
    have hb := (Before.refl fs env.tmp env.inode).run _ (failed_safe (perm := perm) env out cl hcl)
    refine ⟨fun p hp => ⟨hb.read_now hf p hp, hb.cur p hp⟩, ?_⟩
    intro hr
    have : abortCalls env = [.remove env.tmp] := by unfold abortCalls; rw [hr]
    rw [this, run_append]
    show setAt _ _ _ _ = _
    rw [setAt_eq]

/-- The final state of a successful run. -/
theorem SafeRun.success {env : SafeEnv} {target : Path} {content : Bytes} {cs : List Sys}
    (h : SafeRun env target content true cs) (fs : FS) (hf : Spec.Fresh fs env.tmp env.inode) (ht : target ≠ env.tmp) :
    (fs.run cs).read target = some content ∧ (fs.run cs).dir env.tmp = none ∧
      ∀ p, p ≠ target → p ≠ env.tmp → (fs.run cs).read p = fs.read p ∧ (fs.run cs).dir p = fs.dir p := by
  cases h with
  | done =>
    obtain ⟨h1, h2, h3, h4, h5, h6, h7⟩ := done_state fs env target content ht hf
    refine ⟨?_, h2, ?_⟩
    · unfold FS.read readIn
      rw [h1]
      dsimp only
      rw [h3]
    · intro p hp hpt
      refine ⟨?_, h5 p hp hpt⟩
      unfold FS.read readIn
      rw [h5 p hp hpt]
      match hm : fs.dir p with
      | none => rfl
      | some .other => rfl
      | some (.file j) =>
        have hj : j ≠ env.inode := fun e => hf.inode fs.dir (by simp) p (by rw [hm, e])
        dsimp only
        rw [(h6 j hj).1]

/-! ### C47 -/

/-- **C47** (atomic at every crash point).  Stop the writing of a file after any number of its file system calls, by killing the
program or by a power loss: the target then holds what it held before or the complete new content, and no other file has
changed. -/
theorem C47_atomic (fs : FS) (env : SafeEnv) (target : Path) (content : Bytes) (ov : Bool)
    (hf : Spec.Fresh fs env.tmp env.inode) (ht : target ≠ env.tmp)
    (pre : List Sys) (hp : pre <+: (writeFile fs env perm target content ov).2)
    (dir : Dir) (data : Nat → Bytes) (hi : Spec.CrashImage (fs.run pre) dir data) :
    (Spec.OnDisk fs target → readIn dir data target = fs.read target ∨ readIn dir data target = some content) ∧
    ∀ p, p ≠ target → p ≠ env.tmp → Spec.OnDisk fs p → readIn dir data p = fs.read p := by
  obtain ⟨ok, h, _, _⟩ := writeFile_run fs env target content ov
  refine ⟨fun hd => ?_, fun p h1 h2 hd => ?_⟩
  · rcases h.crash fs hf ht pre hp dir data hi target ht hd with h | ⟨_, _, h⟩
    · exact .inl h
    · exact .inr h
  · rcases h.crash fs hf ht pre hp dir data hi p h2 hd with h | ⟨_, h, _⟩
    · exact h
    · exact absurd h h1

/-- **C47** (atomic, also for files that were themselves being written when the power failed).  Whatever a file may hold after a
crash during the writing, it may also have held after a crash just before the writing began, except that the target may hold
the complete new content. -/
theorem C47_atomic_relative (fs : FS) (env : SafeEnv) (target : Path) (content : Bytes) (ov : Bool)
    (hf : Spec.Fresh fs env.tmp env.inode) (ht : target ≠ env.tmp)
    (pre : List Sys) (hp : pre <+: (writeFile fs env perm target content ov).2)
    (dir : Dir) (data : Nat → Bytes) (hi : Spec.CrashImage (fs.run pre) dir data) (p : Path) (hpt : p ≠ env.tmp) :
    (∃ dir0 data0, Spec.CrashImage fs dir0 data0 ∧ readIn dir data p = readIn dir0 data0 p) ∨
      (p = target ∧ readIn dir data p = some content) := by
  obtain ⟨ok, h, _, _⟩ := writeFile_run fs env target content ov
  rcases h.image fs hf ht pre hp dir data hi p hpt with h | ⟨_, h1, h2⟩
  · exact .inl h
  · exact .inr ⟨h1, h2⟩

/-- **C47** (success).  If writing succeeds, the target holds the content, the temporary file is gone and every other file is
unchanged. -/
theorem C47_success (fs : FS) (env : SafeEnv) (target : Path) (content : Bytes) (ov : Bool)
    (hf : Spec.Fresh fs env.tmp env.inode) (ht : target ≠ env.tmp)
    (h : (writeFile fs env perm target content ov).1 = .ok ()) :
    let s := fs.run (writeFile fs env perm target content ov).2
    s.read target = some content ∧ s.dir env.tmp = none ∧ ∀ p, p ≠ target → p ≠ env.tmp → s.read p = fs.read p := by
  obtain ⟨ok, hr, h1, _⟩ := writeFile_run fs env target content ov
  have := h1.mpr h
  subst this
  obtain ⟨a, b, c⟩ := hr.success fs hf ht
  exact ⟨a, b, fun p x y => (c p x y).1⟩

/-- **C47** (failure).  If writing fails, whichever call failed, no file has changed, and the temporary file is gone unless
removing it failed too.  Writing never crashes. -/
theorem C47_failure (fs : FS) (env : SafeEnv) (target : Path) (content : Bytes) (ov : Bool)
    (hf : Spec.Fresh fs env.tmp env.inode)
    (h : (writeFile fs env perm target content ov).1 ≠ .ok ()) :
    (∃ e, (writeFile fs env perm target content ov).1 = .err e) ∧
    (∀ p, p ≠ env.tmp → (fs.run (writeFile fs env perm target content ov).2).read p = fs.read p) ∧
    (env.removeErr = none → (fs.run (writeFile fs env perm target content ov).2).dir env.tmp = none) := by
  obtain ⟨ok, hr, h1, h2⟩ := writeFile_run fs env target content ov
  have : ok = false := by
    cases ok with
    | true => exact absurd (h1.mp rfl) h
    | false => rfl
  subst this
  obtain ⟨a, b⟩ := hr.failure fs hf
  exact ⟨h2.mp rfl, fun p hp => (a p hp).1, b⟩

/-- **C47** (no overwrite).  Without the overwrite flag, if the target exists, writing fails without a single file system
change. -/
theorem C47_no_overwrite (fs : FS) (env : SafeEnv) (target : Path) (content : Bytes) (h : fs.exists target = true) :
    (∃ e, (writeFile fs env perm target content false).1 = .err e) ∧ (writeFile fs env perm target content false).2 = [] := by
  unfold writeFile
  rw [newSafeFile_exists fs env target h]
  exact ⟨⟨_, rfl⟩, rfl⟩

/-- **C47** (which calls matter).  Writing succeeds exactly if the target may be written and no call fails. -/
theorem C47_succeeds (fs : FS) (env : SafeEnv) (target : Path) (content : Bytes) (ov : Bool)
    (hx : fs.exists target = false ∨ (ov = true ∧ ∃ i, fs.dir target = some (.file i)))
    (h1 : env.openErr = none) (h2 : ∀ k e, WEv.fail k e ∉ env.writes) (h3 : env.syncErr = none) (h4 : env.closeErr = none)
    (h5 : env.renameErr = none) : (writeFile fs env perm target content ov).1 = .ok () := by
  have hn : newSafeFile fs env perm target ov = .ok [.create env.tmp env.inode perm] := by
    unfold newSafeFile
    rcases hx with hx | ⟨rfl, i, hx⟩
    · unfold FS.exists at hx
      split
      · rename_i hd; rw [hd] at hx; cases hx
      · rw [h1]
    · rw [hx]
      simp [h1]
  obtain ⟨w', hw, _⟩ := fullwrite_noFail content { script := env.writes } h2
  unfold writeFile
  rw [hn]
  dsimp only
  rw [hw]
  dsimp only
  unfold closeCalls
  rw [h3, h4, h5]

/-- The hypotheses can be met: replace the file `a`, stop before the rename, after it, and with a failing disk. -/
def exampleFS : FS where
  dir p := if p = [97] then some (.file 1) else none
  data i := if i = 1 then [1, 2, 3] else []

def exampleEnv : SafeEnv := { tmp := [98], inode := 2, writes := [.short 1] }

example : Spec.Fresh exampleFS exampleEnv.tmp exampleEnv.inode ∧ Spec.OnDisk exampleFS [97] := by
  refine ⟨⟨?_, ?_⟩, ?_, ?_⟩
  · intro d hd
    simp only [exampleFS, List.mem_cons, List.not_mem_nil, or_false] at hd
    subst hd
    decide
  · intro d hd p
    simp only [exampleFS, List.mem_cons, List.not_mem_nil, or_false] at hd
    subst hd
    dsimp only
    split
    · decide
    · simp
  · intro d hd; cases hd
  · intro i _; rfl

example : (writeFile exampleFS exampleEnv 0o600 [97] [7, 8] true).1 = .ok () ∧
    (exampleFS.run (writeFile exampleFS exampleEnv 0o600 [97] [7, 8] true).2).read [97] = some [7, 8] ∧
    (exampleFS.run ((writeFile exampleFS exampleEnv 0o600 [97] [7, 8] true).2.take 4)).read [97] = some [1, 2, 3] ∧
    (exampleFS.run ((writeFile exampleFS exampleEnv 0o600 [97] [7, 8] true).2.take 4)).read [98] = some [7, 8] := by
  decide +kernel

example : (writeFile exampleFS { exampleEnv with writes := [.short 1, .fail 0 (.io 28)] } 0o600 [97] [7, 8] true).1 = .err (.io 28) ∧
    (exampleFS.run (writeFile exampleFS { exampleEnv with writes := [.short 1, .fail 0 (.io 28)] } 0o600 [97] [7, 8] true).2).read [97] =
      some [1, 2, 3] := by
  decide +kernel

end Sigtool
