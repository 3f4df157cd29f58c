import Verif.Props.Files
import Verif.Props.CliVerify
/-! # The generate command: C49 -/

namespace Sigtool

theorem keyName_ne_pubName (clean : Bytes) : keyName clean ≠ pubName clean := by
  unfold keyName pubName
  intro h
  exact absurd (List.append_cancel_left h) (by decide +kernel)

theorem prefix_append_cases {α : Type} {p a b : List α} (h : p <+: a ++ b) : p <+: a ∨ ∃ q, p = a ++ q ∧ q <+: b := by
  rcases Nat.le_total p.length a.length with hl | hl
  · exact .inl (List.prefix_of_prefix_length_le h (List.prefix_append a b) hl)
  · obtain ⟨q, rfl⟩ := List.prefix_of_prefix_length_le (List.prefix_append a b) h hl
    exact .inr ⟨q, rfl, (List.prefix_append_right_inj a).mp h⟩

/-- What the generate command does, in terms of the two file writes. -/
theorem genCmd_cases (D : Deps) (fs : FS) (env1 env2 : SafeEnv) (force : Bool) (clean comment : Bytes) (pw : Except Err Bytes)
    (seed salt : Bytes) :
    let o := genCmd D fs env1 env2 force clean comment pw seed salt
    (o.exit ≠ 0 ∧ o.sys = []) ∨
    ∃ pw' text, pw = .ok pw' ∧ (newPrivateKey D.P seed).marshal D.P D.Y comment pw' salt = .ok text ∧
      (force = true ∨ (fs.exists (pubName clean) = false ∧ fs.exists (keyName clean) = false)) ∧
      let cs := (writeFile fs env1 0o600 (keyName clean) text force).2
      let w2 := writeFile (fs.run cs) env2 0o644 (pubName clean) ((newPrivateKey D.P seed).pub.marshal D.Y comment) force
      (((writeFile fs env1 0o600 (keyName clean) text force).1 ≠ .ok () ∧ o.exit = 1 ∧ o.sys = cs) ∨
       ((writeFile fs env1 0o600 (keyName clean) text force).1 = .ok () ∧ o.sys = cs ++ w2.2 ∧
        (w2.1 = .ok () ∧ o.exit = 0 ∨ w2.1 ≠ .ok () ∧ o.exit = 1))) := by
  intro o
  show _
  by_cases hx : (!force && (fs.exists (pubName clean) || fs.exists (keyName clean))) = true
  · left
    have : o = { exit := 1 } := by simp only [o, genCmd]; rw [if_pos hx]
    rw [this]; simp
  · have ho : o = genCmd D fs env1 env2 force clean comment pw seed salt := rfl
    unfold genCmd at ho
    rw [if_neg hx] at ho
    match pw with
    | .error _ => left; rw [ho]; simp
    | .ok pw' =>
      dsimp only at ho
      match hm : (newPrivateKey D.P seed).marshal D.P D.Y comment pw' salt with
      | .err _ => rw [hm] at ho; left; rw [ho]; simp
      | .panic _ => rw [hm] at ho; left; rw [ho]; simp
      | .ok text =>
        rw [hm] at ho
        dsimp only at ho
        right
        refine ⟨pw', text, rfl, hm, ?_, ?_⟩
        · cases force <;> simp_all
        · intro cs w2
          obtain ⟨ok, hr, h1, h2⟩ := writeFile_run fs env1 (keyName clean) text force
          match hw : writeFile fs env1 0o600 (keyName clean) text force with
          | (.panic w, c) => rw [hw] at h1 h2; cases ok <;> simp at h1 h2
          | (.err e, c) =>
            rw [hw] at ho
            left
            rw [ho]
            exact ⟨by simp, rfl, by simp [cs, hw]⟩
          | (.ok (), c) =>
            rw [hw] at ho
            right
            have hcs : cs = c := by simp [cs, hw]
            have hw2 : w2 = writeFile (fs.run c) env2 0o644 (pubName clean) ((newPrivateKey D.P seed).pub.marshal D.Y comment) force := by
              simp [w2, hcs]
            obtain ⟨ok2, hr2, k1, k2⟩ := writeFile_run (fs.run c) env2 (pubName clean) ((newPrivateKey D.P seed).pub.marshal D.Y comment) force
            dsimp only at ho
            rw [← hw2] at ho k1 k2
            refine ⟨rfl, ?_⟩
            match hv : w2 with
            | (.panic w, c2) => cases ok2 <;> simp at k1 k2
            | (.err e, c2) => rw [hcs, ho]; simp
            | (.ok (), c2) => rw [hcs, ho]; simp

/-- **C49** (no clobbering).  Without `--overwrite`, if one of the two files exists, `generate` exits with 1 without a single
file system call. -/
theorem C49_no_clobber (D : Deps) (fs : FS) (env1 env2 : SafeEnv) (clean comment : Bytes) (pw : Except Err Bytes)
    (seed salt : Bytes) (h : fs.exists (clean ++ ".pub".toUTF8.toList) = true ∨ fs.exists (clean ++ ".key".toUTF8.toList) = true) :
    genCmd D fs env1 env2 false clean comment pw seed salt = { exit := 1 } := by
  have h' : fs.exists (pubName clean) = true ∨ fs.exists (keyName clean) = true := by
    have e1 : ascii ".pub" = ".pub".toUTF8.toList := by decide +kernel
    have e2 : ascii ".key" = ".key".toUTF8.toList := by decide +kernel
    unfold pubName keyName; rw [e1, e2]; exact h
  unfold genCmd
  rw [if_pos]
  rcases h' with h | h <;> simp [h]

/-- The environment of the two file writes: distinct unused names and inodes for the temporary files. -/
structure GenEnv (fs : FS) (env1 env2 : SafeEnv) (clean : Bytes) : Prop where
  fresh1 : Spec.Fresh fs env1.tmp env1.inode
  fresh2 : Spec.Fresh fs env2.tmp env2.inode
  tmp : env2.tmp ≠ env1.tmp
  inode : env2.inode ≠ env1.inode
  key1 : keyName clean ≠ env1.tmp
  pub1 : pubName clean ≠ env1.tmp
  key2 : keyName clean ≠ env2.tmp
  pub2 : pubName clean ≠ env2.tmp

/-- **C49** (success).  If `generate` exits with 0, the `.key` file holds the private key made from the drawn seed, encrypted
under the pass phrase, the `.pub` file holds its public key, and no other file has changed. -/
theorem C49_success (D : Deps) (fs : FS) (env1 env2 : SafeEnv) (force : Bool) (clean comment : Bytes) (pw : Except Err Bytes)
    (seed salt : Bytes) (he : GenEnv fs env1 env2 clean)
    (h : (genCmd D fs env1 env2 force clean comment pw seed salt).exit = 0) :
    let fs' := fs.run (genCmd D fs env1 env2 force clean comment pw seed salt).sys
    ∃ pw' text, pw = .ok pw' ∧ (newPrivateKey D.P seed).marshal D.P D.Y comment pw' salt = .ok text ∧
      fs'.read (keyName clean) = some text ∧
      fs'.read (pubName clean) = some ((newPrivateKey D.P seed).pub.marshal D.Y comment) ∧
      Spec.SameBut fs fs' [keyName clean, pubName clean] := by
  intro fs'
  rcases genCmd_cases D fs env1 env2 force clean comment pw seed salt with ⟨h1, _⟩ | ⟨pw', text, h1, h2, h3, h4⟩
  · exact absurd h h1
  · refine ⟨pw', text, h1, h2, ?_⟩
    dsimp only at h4
    rcases h4 with ⟨_, h5, _⟩ | ⟨h5, h6, ⟨h7, _⟩ | ⟨_, h8⟩⟩
    · omega
    · obtain ⟨ok, hr, k1, _⟩ := writeFile_run fs env1 (keyName clean) text force
      have := k1.mpr h5
      subst this
      have hf2 := hr.fresh fs he.fresh1 he.key1 env2.tmp env2.inode he.fresh2 he.tmp he.inode (Ne.symm he.key2)
      obtain ⟨a1, a2, a3⟩ := hr.success fs he.fresh1 he.key1
      obtain ⟨ok2, hr2, m1, _⟩ := writeFile_run (fs.run (writeFile fs env1 0o600 (keyName clean) text force).2) env2 (pubName clean)
        ((newPrivateKey D.P seed).pub.marshal D.Y comment) force
      have := m1.mpr h7
      subst this
      obtain ⟨b1, b2, b3⟩ := hr2.success _ hf2 he.pub2
      have hfs : fs' = (fs.run (writeFile fs env1 0o600 (keyName clean) text force).2).run
          (writeFile (fs.run (writeFile fs env1 0o600 (keyName clean) text force).2) env2 0o644 (pubName clean)
            ((newPrivateKey D.P seed).pub.marshal D.Y comment) force).2 := by
        simp only [fs']; rw [h6, run_append]
      rw [hfs]
      refine ⟨?_, b1, ?_⟩
      · rw [(b3 _ (keyName_ne_pubName clean) he.key2).1, a1]
      · intro p hp
        simp only [List.mem_cons, List.not_mem_nil, or_false, not_or] at hp
        by_cases hp2 : p = env2.tmp
        · subst hp2
          have n1 := he.fresh2.name fs.dir (by simp)
          refine ⟨?_, by rw [b2, n1]⟩
          unfold FS.read readIn
          rw [b2, n1]
        · obtain ⟨c1, c2⟩ := b3 p hp.2 hp2
          rw [c1, c2]
          by_cases hp1 : p = env1.tmp
          · subst hp1
            have n1 := he.fresh1.name fs.dir (by simp)
            refine ⟨?_, by rw [a2, n1]⟩
            unfold FS.read readIn
            rw [a2, n1]
          · exact a3 p hp.1 hp1
    · omega

/-- **C49** (the pair belongs together).  After a successful `generate` (with a comment the YAML library reads back and that
does not contain the OpenSSH marker, cf. C35) the `.key` file loads with the pass phrase, the `.pub` file loads, and the
loaded keys are the two halves of one key pair. -/
theorem C49_pair_loads (D : Deps) (L : Laws D.P) (YL : D.Y.Laws) (fs : FS) (env1 env2 : SafeEnv) (force : Bool)
    (clean comment : Bytes) (hY : D.Y.Reads comment) (hc : comment = [] ∨ ¬ Spec.marker <:+: D.Y.scalar comment)
    (pw : Except Err Bytes) (seed salt : Bytes) (hseed : seed.length = 32) (hsalt : salt.length = 32)
    (he : GenEnv fs env1 env2 clean)
    (h : (genCmd D fs env1 env2 force clean comment pw seed salt).exit = 0) :
    let fs' := fs.run (genCmd D fs env1 env2 force clean comment pw seed salt).sys
    ∃ pw' sk pk, pw = .ok pw' ∧ readPrivateKey D fs' (keyName clean) (some (.ok pw')) = .ok sk ∧
      readPublicKey D fs' (pubName clean) = .ok pk ∧
      sk.sk = seed ++ D.P.edPub seed ∧ sk.pub.pk = D.P.edPub seed ∧ pk.pk = D.P.edPub seed ∧ sk.pub.hash = pk.hash ∧
      sk.Genuine D.P := by
  intro fs'
  obtain ⟨pw', text, h1, h2, h3, h4, _⟩ := C49_success D fs env1 env2 force clean comment pw seed salt he h
  have hg := newPrivateKey_genuine D.P seed hseed
  obtain ⟨text', sk', g1, g2, g3, g4, g5⟩ := C35_roundtrip_partial D.P L D.Y YL D.pem comment hY hc (newPrivateKey D.P seed) hg pw'
    salt hsalt (some (.ok pw')) (.inl rfl)
  rw [h2] at g1
  cases g1
  have hmk : makePublicKeyFromBytes D.P [] (D.P.edPub seed) = .ok (newPrivateKey D.P seed).pub := by
    unfold makePublicKeyFromBytes
    rw [if_neg (by rw [L.ed_pub_len _ hseed]; decide)]
    rfl
  obtain ⟨pk', q1, q2, q3⟩ := C38_roundtrip D.P L D.Y YL comment [] hY _ _ hmk
  refine ⟨pw', sk', pk', h1, (readPrivateKey_ok _ _ _ _ _).mpr ⟨text, h3, g2⟩, (readPublicKey_ok _ _ _ _).mpr ⟨_, h4, q1⟩,
    g3, g4, q2, by rw [g5, q3], seed, hseed, g3, g4, ?_⟩
  rw [g5]; rfl

/-- **C49** (failure).  If `generate` exits with another status, the `.pub` file is as before, the `.key` file is as before or
holds the complete new key (when only the second write failed), and nothing else has changed but possibly a left-over temporary
file whose removal failed. -/
theorem C49_failure (D : Deps) (fs : FS) (env1 env2 : SafeEnv) (force : Bool) (clean comment : Bytes) (pw : Except Err Bytes)
    (seed salt : Bytes) (he : GenEnv fs env1 env2 clean)
    (h : (genCmd D fs env1 env2 force clean comment pw seed salt).exit ≠ 0) :
    let fs' := fs.run (genCmd D fs env1 env2 force clean comment pw seed salt).sys
    Spec.SameBut fs fs' [keyName clean, env1.tmp, env2.tmp] ∧
      (fs'.read (keyName clean) = fs.read (keyName clean) ∨ ∃ pw' text, pw = .ok pw' ∧
        (newPrivateKey D.P seed).marshal D.P D.Y comment pw' salt = .ok text ∧ fs'.read (keyName clean) = some text) := by
  intro fs'
  rcases genCmd_cases D fs env1 env2 force clean comment pw seed salt with ⟨_, h1⟩ | ⟨pw', text, h1, h2, h3, h4⟩
  · have : fs' = fs := by simp only [fs']; rw [h1]; rfl
    rw [this]
    exact ⟨fun _ _ => ⟨rfl, rfl⟩, .inl rfl⟩
  · dsimp only at h4
    rcases h4 with ⟨h5, _, h6⟩ | ⟨h5, h6, ⟨_, h8⟩ | ⟨h7, _⟩⟩
    · obtain ⟨ok, hr, k1, _⟩ := writeFile_run fs env1 (keyName clean) text force
      have : ok = false := by
        cases ok with
        | true => exact absurd (k1.mp rfl) h5
        | false => rfl
      subst this
      obtain ⟨a, _⟩ := hr.failure fs he.fresh1
      have hfs : fs' = fs.run (writeFile fs env1 0o600 (keyName clean) text force).2 := by simp only [fs']; rw [h6]
      rw [hfs]
      refine ⟨fun p hp => ?_, .inl (a _ he.key1).1⟩
      simp only [List.mem_cons, List.not_mem_nil, or_false, not_or] at hp
      exact a p hp.2.1
    · exact absurd h8 h
    · obtain ⟨ok, hr, k1, _⟩ := writeFile_run fs env1 (keyName clean) text force
      have := k1.mpr h5
      subst this
      have hf2 := hr.fresh fs he.fresh1 he.key1 env2.tmp env2.inode he.fresh2 he.tmp he.inode (Ne.symm he.key2)
      obtain ⟨a1, a2, a3⟩ := hr.success fs he.fresh1 he.key1
      obtain ⟨ok2, hr2, m1, _⟩ := writeFile_run (fs.run (writeFile fs env1 0o600 (keyName clean) text force).2) env2 (pubName clean)
        ((newPrivateKey D.P seed).pub.marshal D.Y comment) force
      have : ok2 = false := by
        cases ok2 with
        | true => exact absurd (m1.mp rfl) h7
        | false => rfl
      subst this
      obtain ⟨b, _⟩ := hr2.failure _ hf2
      have hfs : fs' = (fs.run (writeFile fs env1 0o600 (keyName clean) text force).2).run
          (writeFile (fs.run (writeFile fs env1 0o600 (keyName clean) text force).2) env2 0o644 (pubName clean)
            ((newPrivateKey D.P seed).pub.marshal D.Y comment) force).2 := by
        simp only [fs']; rw [h6, run_append]
      rw [hfs]
      refine ⟨fun p hp => ?_, .inr ⟨pw', text, h1, h2, ?_⟩⟩
      · simp only [List.mem_cons, List.not_mem_nil, or_false, not_or] at hp
        obtain ⟨c1, c2⟩ := b p hp.2.2
        rw [c1, c2]
        exact a3 p hp.1 hp.2.1
      · rw [(b _ he.key2).1, a1]

/-- **C49** (crash).  If `generate` is stopped at any point, by killing it or by a power loss, each of the two files is as
before or complete. -/
theorem C49_crash (D : Deps) (fs : FS) (env1 env2 : SafeEnv) (force : Bool) (clean comment : Bytes) (pw : Except Err Bytes)
    (seed salt : Bytes) (he : GenEnv fs env1 env2 clean)
    (hk : Spec.OnDisk fs (keyName clean)) (hp : Spec.OnDisk fs (pubName clean))
    (pre : List Sys) (hpre : pre <+: (genCmd D fs env1 env2 force clean comment pw seed salt).sys)
    (dir : Dir) (data : Nat → Bytes) (hi : Spec.CrashImage (fs.run pre) dir data) :
    (readIn dir data (keyName clean) = fs.read (keyName clean) ∨ ∃ pw' text, pw = .ok pw' ∧
      (newPrivateKey D.P seed).marshal D.P D.Y comment pw' salt = .ok text ∧ readIn dir data (keyName clean) = some text) ∧
    (readIn dir data (pubName clean) = fs.read (pubName clean) ∨
      readIn dir data (pubName clean) = some ((newPrivateKey D.P seed).pub.marshal D.Y comment)) := by
  rcases genCmd_cases D fs env1 env2 force clean comment pw seed salt with ⟨_, h1⟩ | ⟨pw', text, h1, h2, h3, h4⟩
  · rw [h1, List.prefix_nil] at hpre
    subst hpre
    exact ⟨.inl (OnDisk_image hk hi), .inl (OnDisk_image hp hi)⟩
  · dsimp only at h4
    obtain ⟨ok, hr, k1, _⟩ := writeFile_run fs env1 (keyName clean) text force
    have first : ∀ (pre : List Sys) (dir : Dir) (data : Nat → Bytes), pre <+: (writeFile fs env1 0o600 (keyName clean) text force).2 →
        Spec.CrashImage (fs.run pre) dir data →
        (readIn dir data (keyName clean) = fs.read (keyName clean) ∨ readIn dir data (keyName clean) = some text) ∧
        readIn dir data (pubName clean) = fs.read (pubName clean) := by
      intro pre dir data hpre hi
      refine ⟨?_, ?_⟩
      · rcases hr.crash fs he.fresh1 he.key1 pre hpre dir data hi _ he.key1 hk with h | ⟨_, _, h⟩
        · exact .inl h
        · exact .inr h
      · rcases hr.crash fs he.fresh1 he.key1 pre hpre dir data hi _ he.pub1 hp with h | ⟨_, h, _⟩
        · exact h
        · exact absurd h.symm (keyName_ne_pubName clean)
    have case1 : pre <+: (writeFile fs env1 0o600 (keyName clean) text force).2 → 
        (readIn dir data (keyName clean) = fs.read (keyName clean) ∨ ∃ pw' text, pw = .ok pw' ∧
          (newPrivateKey D.P seed).marshal D.P D.Y comment pw' salt = .ok text ∧ readIn dir data (keyName clean) = some text) ∧
        (readIn dir data (pubName clean) = fs.read (pubName clean) ∨
          readIn dir data (pubName clean) = some ((newPrivateKey D.P seed).pub.marshal D.Y comment)) := by
      intro hpre
      obtain ⟨a, b⟩ := first pre dir data hpre hi
      refine ⟨?_, .inl b⟩
      rcases a with a | a
      · exact .inl a
      · exact .inr ⟨pw', text, h1, h2, a⟩
    rcases h4 with ⟨_, _, h6⟩ | ⟨h5, h6, _⟩
    · rw [h6] at hpre
      exact case1 hpre
    · have := k1.mpr h5
      subst this
      have hf2 := hr.fresh fs he.fresh1 he.key1 env2.tmp env2.inode he.fresh2 he.tmp he.inode (Ne.symm he.key2)
      rw [h6] at hpre
      rcases prefix_append_cases hpre with hpre | ⟨pre2, rfl, hpre2⟩
      · exact case1 hpre
      · obtain ⟨ok2, hr2, m1, _⟩ := writeFile_run (fs.run (writeFile fs env1 0o600 (keyName clean) text force).2) env2 (pubName clean)
          ((newPrivateKey D.P seed).pub.marshal D.Y comment) force
        rw [run_append] at hi
        refine ⟨?_, ?_⟩
        · rcases hr2.image _ hf2 he.pub2 pre2 hpre2 dir data hi _ he.key2 with ⟨d0, t0, g1, g2⟩ | ⟨_, g, _⟩
          · rw [g2]
            rcases (first _ d0 t0 (List.prefix_refl _) g1).1 with a | a
            · exact .inl a
            · exact .inr ⟨pw', text, h1, h2, a⟩
          · exact absurd g (keyName_ne_pubName clean)
        · rcases hr2.image _ hf2 he.pub2 pre2 hpre2 dir data hi _ he.pub2 with ⟨d0, t0, g1, g2⟩ | ⟨_, _, g⟩
          · rw [g2]
            exact .inl (first _ d0 t0 (List.prefix_refl _) g1).2
          · exact .inr g

end Sigtool
