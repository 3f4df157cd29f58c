import Verif.Spec.Program
import Verif.Props.CliSelect
import Verif.Props.CliGen
import Verif.Props.CliSign
import Verif.Props.CliCrypt
/-!
# C66, C67, C68: the program as a whole
-/

namespace Sigtool
open Spec

theorem abbreviates_unique {a : Bytes} {v w : String} (hv : Abbreviates a v) (hw : Abbreviates a w) : v = w := by
  have h1 := (C53_selects_iff id commands (.refl _) a v).mpr hv
  have h2 := (C53_selects_iff id commands (.refl _) a w).mpr hw
  have h := h1.1.symm.trans h2.1
  have hv' := hv.1
  have hw' := hw.1
  simp only [commandNames, List.mem_cons, List.not_mem_nil, or_false] at hv' hw'
  rcases hv' with rfl | rfl | rfl | rfl | rfl | rfl <;> rcases hw' with rfl | rfl | rfl | rfl | rfl | rfl <;>
    first | rfl | exact absurd h (by decide +kernel)

/-- **C66** (dispatch).  If the first argument abbreviates a command (in any order of the command map), the program is that
command on the remaining arguments. -/
theorem C66_dispatch (W : World) (ho : W.order.Perm commands) (argv rest : List Bytes) (w : String) (h : Runs W argv w rest) :
    (w = "generate" → W.main argv = W.gen rest) ∧ (w = "sign" → W.main argv = W.sign rest) ∧
    (w = "verify" → W.main argv = W.verify rest) ∧ (w = "encrypt" → W.main argv = W.encrypt rest) ∧
    (w = "decrypt" → W.main argv = W.decrypt rest) ∧ (w = "help" → W.main argv = { exit := 0 }) := by
  obtain ⟨o, cmd, h1, h2, h3, h4⟩ := h
  have hs := ((C53_selects_iff W.lower W.order ho cmd w).mpr h4).1
  have key : W.main argv = match W.dispatch w.toUTF8.toList with
      | none => { exit := 1 }
      | some f => f rest := by
    unfold World.main
    rw [h1]
    dsimp only
    rw [h2, h3]
    simp only [Bool.false_eq_true, if_false]
    rw [hs]; rfl
  have b1 : "generate".toUTF8.toList = ascii "generate" := by decide +kernel
  have b2 : "sign".toUTF8.toList = ascii "sign" := by decide +kernel
  have b3 : "verify".toUTF8.toList = ascii "verify" := by decide +kernel
  have b4 : "encrypt".toUTF8.toList = ascii "encrypt" := by decide +kernel
  have b5 : "decrypt".toUTF8.toList = ascii "decrypt" := by decide +kernel
  have b6 : "help".toUTF8.toList = ascii "help" := by decide +kernel
  refine ⟨?_, ?_, ?_, ?_, ?_, ?_⟩ <;> rintro rfl <;> rw [key]
  · rw [b1]; unfold World.dispatch; rw [if_pos rfl]
  · rw [b2]; unfold World.dispatch; rw [if_neg (by decide +kernel), if_pos rfl]
  · rw [b3]; unfold World.dispatch; rw [if_neg (by decide +kernel), if_neg (by decide +kernel), if_pos rfl]
  · rw [b4]; unfold World.dispatch
    rw [if_neg (by decide +kernel), if_neg (by decide +kernel), if_neg (by decide +kernel), if_pos rfl]
  · rw [b5]; unfold World.dispatch
    rw [if_neg (by decide +kernel), if_neg (by decide +kernel), if_neg (by decide +kernel), if_neg (by decide +kernel), if_pos rfl]
  · rw [b6]; unfold World.dispatch
    rw [if_neg (by decide +kernel), if_neg (by decide +kernel), if_neg (by decide +kernel), if_neg (by decide +kernel),
      if_neg (by decide +kernel), if_pos rfl]

/-- **C66** (nothing selected).  If the command line selects no command, the program does nothing to the file system and exits:
with 0 if it asked for help or the version, with 2 if the global options do not parse, with 1 otherwise (no command, or one
that is not the beginning of exactly one name). -/
theorem C66_nothing (W : World) (ho : W.order.Perm commands) (argv : List Bytes) (h : ∀ w rest, ¬ Runs W argv w rest) :
    (W.main argv).sys = [] ∧ (W.main argv).stdout = [] ∧
    ((W.main argv).exit = 0 ↔ W.flags.top argv = .help ∨ ∃ o args, W.flags.top argv = .ok o args ∧ (o.version = true ∨ o.help = true)) ∧
    ((W.main argv).exit = 2 ↔ W.flags.top argv = .bad) ∧
    ((W.main argv).exit = 1 ↔ ∃ o args, W.flags.top argv = .ok o args ∧ o.version = false ∧ o.help = false) := by
  unfold World.main
  match ht : W.flags.top argv with
  | .help => simp
  | .bad => simp
  | .ok o args =>
    dsimp only
    cases hv : o.version with
    | true => simp [hv]
    | false =>
      cases hh : o.help with
      | true => simp [hv, hh]
      | false =>
        simp only [Bool.false_eq_true, if_false]
        match args, ht with
        | [], ht => simp [hv, hh]
        | cmd :: rest, ht =>
          dsimp only
          match hs : selectCommand W.lower W.order cmd with
          | none => simp [hv, hh]
          | some v =>
            exfalso
            have hc := C53_only_commands W.lower W.order ho cmd v hs
            obtain ⟨w, _, _, hw⟩ := hc
            exact h w rest ⟨o, cmd, ht, hv, hh, hw⟩

/-- Every run of the program is a run over one `SafeFile`, or a run of `generate`. -/
theorem main_shape (W : World) (L : Laws W.D.P) (argv : List Bytes) (N : Normal W argv) :
    (∃ target content ok, SafeRun W.env1 target content ok (W.main argv).sys ∧ (ok = true → Output W argv target) ∧
      (ok = true → (W.main argv).exit = 0)) ∨
    (∃ rest o bn more, Runs W argv "generate" rest ∧ W.flags.gen rest = .ok o (bn :: more) ∧
      W.main argv = genCmd W.D W.fs W.env1 W.env2 o.force (W.clean bn) o.comment (W.genpw o.nopw o.envpw) W.seed W.salt) := by
  have quiet : (W.main argv).sys = [] → (∃ target content ok, SafeRun W.env1 target content ok (W.main argv).sys ∧
      (ok = true → Output W argv target) ∧ (ok = true → (W.main argv).exit = 0)) := by
    intro h
    exact ⟨[], [], false, h ▸ .nothing, by simp, by simp⟩
  by_cases hr : ∃ w rest, Runs W argv w rest
  · obtain ⟨w, rest, hr⟩ := hr
    have hw : w ∈ commandNames := by obtain ⟨_, _, _, _, _, h⟩ := hr; exact h.1
    obtain ⟨d1, d2, d3, d4, d5, d6⟩ := C66_dispatch W N.order argv rest w hr
    simp only [commandNames, List.mem_cons, List.not_mem_nil, or_false] at hw
    rcases hw with rfl | rfl | rfl | rfl | rfl | rfl
    · rw [d1 rfl] at quiet ⊢
      unfold World.gen at quiet ⊢
      match hp : W.flags.gen rest with
      | .help => rw [hp] at quiet; exact .inl (quiet rfl)
      | .bad => rw [hp] at quiet; exact .inl (quiet rfl)
      | .ok o [] => rw [hp] at quiet; exact .inl (quiet rfl)
      | .ok o (bn :: more) => exact .inr ⟨rest, o, bn, more, hr, hp, rfl⟩
    · rw [d2 rfl] at quiet ⊢
      left
      unfold World.sign at quiet ⊢
      match hp : W.flags.sign rest with
      | .help => rw [hp] at quiet; exact quiet rfl
      | .bad => rw [hp] at quiet; exact quiet rfl
      | .ok o [] => rw [hp] at quiet; exact quiet rfl
      | .ok o [_] => rw [hp] at quiet; exact quiet rfl
      | .ok o (kn :: fn :: more) =>
        rw [hp] at quiet
        dsimp only at quiet ⊢
        by_cases hd : sigTarget o.output fn = ascii "-"
        · refine quiet ?_
          rw [signCmd_eq]
          rw [if_pos hd]
          split <;> rfl
        · obtain ⟨t, ok, g1, _, g3, _⟩ := signCmd_run W.D W.fs W.env1 W.stdout o.output o.force (W.getpw o.nopw o.envpw) W.mapErr kn fn hd
          exact ⟨_, t, ok, g1, fun _ => .sig rest o kn fn more hr hp, g3⟩
    · rw [d3 rfl] at quiet ⊢
      left
      refine quiet ?_
      unfold World.verify
      split <;> rfl
    · rw [d4 rfl] at quiet ⊢
      left
      unfold World.encrypt at quiet ⊢
      match hp : W.flags.enc rest with
      | .help => rw [hp] at quiet; exact quiet rfl
      | .bad => rw [hp] at quiet; exact quiet rfl
      | .ok o args =>
        rw [hp] at quiet
        dsimp only at quiet ⊢
        rcases encryptCmd_cases W.D W.fs W.env1 W.stdout o.outfile o.force o.sign (W.getpw o.nopw o.envpw) (W.parseSize o.blocksize)
          (W.home.map fun h => h ++ ascii "/.ssh/authorized_keys") (args.dropLast.zipIdx.map fun a => (a.1, W.rbuf a.2))
          (args.getLastD []) (W.input (args.getLastD [])) W.coins W.coin with ⟨n, hn, h1⟩ | ⟨blk, sk, auth, h1, h2, h3, h4, h5⟩
        · refine quiet ?_
          rw [h1]
        · rw [h5] at quiet ⊢
          by_cases hof : o.outfile = [] ∨ o.outfile = ascii "-"
          · refine quiet ?_
            unfold withOutput
            rw [if_pos hof]
          · obtain ⟨content, ok, g1, g2⟩ := withOutput_run W.fs W.env1 W.stdout o.outfile o.force _
              (encryptBody_ok W.D L W.fs _ sk blk W.coins ⟨N.coins.1, N.coins.2.1, N.coins.2.2⟩ _ _ W.coin N.coin) ⟨fun h => hof (.inl h), fun h => hof (.inr h)⟩
            exact ⟨_, content, ok, g1, fun _ => .enc rest o args hr hp, fun h => (g2 h).1⟩
    · rw [d5 rfl] at quiet ⊢
      left
      have main : ∀ (o : DecOpts) (args : List Bytes) (key infile : Path) (rd : Reader), W.flags.dec rest = .ok o args →
          ∃ target content ok, SafeRun W.env1 target content ok
            (decryptCmd W.D W.fs W.env1 W.stdout o.outfile o.force o.test key (W.getpw o.nopw o.envpw) o.sender infile rd).sys ∧
          (ok = true → Output W argv target) ∧ (ok = true →
            (decryptCmd W.D W.fs W.env1 W.stdout o.outfile o.force o.test key (W.getpw o.nopw o.envpw) o.sender infile rd).exit = 0) := by
        intro o args key infile rd hp
        rcases decryptCmd_cases W.D W.fs W.env1 W.stdout o.outfile o.force o.test key (W.getpw o.nopw o.envpw) o.sender infile rd with
          ⟨n, hn, h1⟩ | ⟨sk, pk, _, _, h1⟩
        · rw [h1]; exact ⟨[], [], false, .nothing, by simp, by simp⟩
        · rw [h1]
          cases htest : o.test with
          | true => exact ⟨[], [], false, .nothing, by simp, by simp⟩
          | false =>
            simp only [Bool.false_eq_true, if_false]
            by_cases hof : o.outfile = [] ∨ o.outfile = ascii "-"
            · unfold withOutput
              rw [if_pos hof]
              exact ⟨[], [], false, .nothing, by simp, by simp⟩
            · obtain ⟨content, ok, g1, g2⟩ := withOutput_run W.fs W.env1 W.stdout o.outfile o.force _
                (decryptBody_ok W.D.P rd sk pk) ⟨fun h => hof (.inl h), fun h => hof (.inr h)⟩
              exact ⟨_, content, ok, g1, fun _ => .dec rest o args hr hp htest, fun h => (g2 h).1⟩
      unfold World.decrypt at quiet ⊢
      match hp : W.flags.dec rest with
      | .help => rw [hp] at quiet; exact quiet rfl
      | .bad => rw [hp] at quiet; exact quiet rfl
      | .ok o [] => rw [hp] at quiet; exact quiet rfl
      | .ok o [key] => exact main o _ key _ _ hp
      | .ok o (key :: infile :: more) =>
        rw [hp] at quiet
        dsimp only at quiet ⊢
        by_cases hi : infile = []
        · rw [if_pos hi] at quiet ⊢
          refine quiet ?_
          split
          · rfl
          · rfl
          · split
            · rfl
            · split <;> rfl
        · rw [if_neg hi]
          exact main o _ key _ _ hp
    · rw [d6 rfl] at quiet ⊢
      exact .inl (quiet rfl)
  · left
    refine quiet (C66_nothing W N.order argv ?_).1
    intro w rest h
    exact hr ⟨w, rest, h⟩

theorem Spec.Normal.genEnv {W : World} {argv : List Bytes} (N : Normal W argv) {rest : List Bytes} {o : GenOpts} {bn : Bytes}
    {more : List Bytes} (hr : Runs W argv "generate" rest) (hp : W.flags.gen rest = .ok o (bn :: more)) :
    GenEnv W.fs W.env1 W.env2 (W.clean bn) where
  fresh1 := N.fresh1
  fresh2 := N.fresh2
  tmp := N.tmp
  inode := N.inode
  key1 := (N.out _ (.key rest o bn more hr hp)).1
  pub1 := (N.out _ (.pub rest o bn more hr hp)).1
  key2 := (N.out _ (.key rest o bn more hr hp)).2
  pub2 := (N.out _ (.pub rest o bn more hr hp)).2

/-- **C67** (frame).  Whatever the command line, the environment and the outcome, a run changes only files that the command line
names as outputs (temporary files aside). -/
theorem C67_only_outputs (W : World) (L : Laws W.D.P) (argv : List Bytes) (N : Normal W argv) (p : Path)
    (hp : ¬ Output W argv p) (h1 : p ≠ W.env1.tmp) (h2 : p ≠ W.env2.tmp) :
    (W.fs.run (W.main argv).sys).read p = W.fs.read p ∧ (W.fs.run (W.main argv).sys).dir p = W.fs.dir p := by
  rcases main_shape W L argv N with ⟨target, content, ok, g1, g2, _⟩ | ⟨rest, o, bn, more, hr, hf, hm⟩
  · cases ok with
    | false => exact (g1.failure W.fs N.fresh1).1 p h1
    | true =>
      refine g1.same W.fs N.fresh1 (N.out _ (g2 rfl)).1 p ?_
      simp only [List.mem_singleton]
      rintro rfl
      exact hp (g2 rfl)
  · have he := N.genEnv hr hf
    have hk : p ≠ keyName (W.clean bn) := by rintro rfl; exact hp (.key rest o bn more hr hf)
    have hb : p ≠ pubName (W.clean bn) := by rintro rfl; exact hp (.pub rest o bn more hr hf)
    rw [hm]
    by_cases h0 : (genCmd W.D W.fs W.env1 W.env2 o.force (W.clean bn) o.comment (W.genpw o.nopw o.envpw) W.seed W.salt).exit = 0
    · obtain ⟨_, _, _, _, _, _, h⟩ := C49_success W.D W.fs W.env1 W.env2 o.force (W.clean bn) o.comment (W.genpw o.nopw o.envpw)
        W.seed W.salt he h0
      exact h p (by simp [hk, hb])
    · exact (C49_failure W.D W.fs W.env1 W.env2 o.force (W.clean bn) o.comment (W.genpw o.nopw o.envpw) W.seed W.salt he h0).1 p
        (by simp [hk, h1, h2])

/-- **C67** (failure).  A run that exits with a status other than 0 (a crash of the Go runtime included) changes no file
(temporary files aside), with one exception: `generate` may leave a complete new private key file when it fails to write the
public key file. -/
theorem C67_failure (W : World) (L : Laws W.D.P) (argv : List Bytes) (N : Normal W argv) (h : (W.main argv).exit ≠ 0) (p : Path)
    (h1 : p ≠ W.env1.tmp) (h2 : p ≠ W.env2.tmp) :
    (W.fs.run (W.main argv).sys).read p = W.fs.read p ∨
    ∃ rest o bn more pw text, Runs W argv "generate" rest ∧ W.flags.gen rest = .ok o (bn :: more) ∧ p = W.clean bn ++ ascii ".key" ∧
      W.genpw o.nopw o.envpw = .ok pw ∧ (newPrivateKey W.D.P W.seed).marshal W.D.P W.D.Y o.comment pw W.salt = .ok text ∧
      (W.fs.run (W.main argv).sys).read p = some text := by
  rcases main_shape W L argv N with ⟨target, content, ok, g1, g2, g3⟩ | ⟨rest, o, bn, more, hr, hf, hm⟩
  · cases ok with
    | false => exact .inl ((g1.failure W.fs N.fresh1).1 p h1).1
    | true => exact absurd (g3 rfl) h
  · have he := N.genEnv hr hf
    rw [hm] at h ⊢
    obtain ⟨a, b⟩ := C49_failure W.D W.fs W.env1 W.env2 o.force (W.clean bn) o.comment (W.genpw o.nopw o.envpw) W.seed W.salt he h
    by_cases hk : p = keyName (W.clean bn)
    · subst hk
      rcases b with b | ⟨pw, text, b1, b2, b3⟩
      · exact .inl b
      · exact .inr ⟨rest, o, bn, more, pw, text, hr, hf, rfl, b1, b2, b3⟩
    · exact .inl (a p (by simp [hk, h1, h2])).1

/-- A failed run over a `SafeFile` does not depend on its target. -/
theorem SafeRun.retarget {env : SafeEnv} {target : Path} {content : Bytes} {cs : List Sys}
    (h : SafeRun env target content false cs) (target' : Path) : SafeRun env target' content false cs := by
  cases h with
  | nothing => exact .nothing
  | failed out cl hc => exact .failed out cl hc

/-- The two `SafeFile`s of `generate`. -/
theorem gen_shape (D : Deps) (fs : FS) (env1 env2 : SafeEnv) (force : Bool) (clean comment : Bytes) (pw : Except Err Bytes)
    (seed salt : Bytes) :
    ∃ text pub ok1 cs1, SafeRun env1 (keyName clean) text ok1 cs1 ∧
      ((ok1 = false ∧ (genCmd D fs env1 env2 force clean comment pw seed salt).sys = cs1) ∨
       (ok1 = true ∧ ∃ ok2 cs2, SafeRun env2 (pubName clean) pub ok2 cs2 ∧
        (genCmd D fs env1 env2 force clean comment pw seed salt).sys = cs1 ++ cs2)) := by
  rcases genCmd_cases D fs env1 env2 force clean comment pw seed salt with ⟨_, h1⟩ | ⟨pw', text, h1, h2, h3, h4⟩
  · exact ⟨[], [], false, [], .nothing, .inl ⟨rfl, h1⟩⟩
  · dsimp only at h4
    obtain ⟨ok, hr, k1, _⟩ := writeFile_run fs env1 (keyName clean) text force
    refine ⟨text, (newPrivateKey D.P seed).pub.marshal D.Y comment, ok, _, hr, ?_⟩
    rcases h4 with ⟨h5, _, h6⟩ | ⟨h5, h6, _⟩
    · left
      refine ⟨?_, h6⟩
      cases ok with
      | true => exact absurd (k1.mp rfl) h5
      | false => rfl
    · right
      obtain ⟨ok2, hr2, _, _⟩ := writeFile_run (fs.run (writeFile fs env1 0o600 (keyName clean) text force).2) env2 (pubName clean)
        ((newPrivateKey D.P seed).pub.marshal D.Y comment) force
      exact ⟨k1.mpr h5, ok2, _, hr2, h6⟩

/-- **C67** (no litter).  If removing files works, no temporary file is left by any run, whatever its outcome. -/
theorem C67_no_temporary_files (W : World) (L : Laws W.D.P) (argv : List Bytes) (N : Normal W argv)
    (hr1 : W.env1.removeErr = none) (hr2 : W.env2.removeErr = none) :
    (W.fs.run (W.main argv).sys).dir W.env1.tmp = none ∧ (W.fs.run (W.main argv).sys).dir W.env2.tmp = none := by
  have e2 : W.fs.dir W.env2.tmp = none := N.fresh2.name _ (by simp)
  rcases main_shape W L argv N with ⟨target, content, ok, g1, g2, g3⟩ | ⟨rest, o, bn, more, hr, hf, hm⟩
  · cases ok with
    | false =>
      obtain ⟨a, b⟩ := g1.failure W.fs N.fresh1
      exact ⟨b hr1, by rw [(a _ N.tmp).2, e2]⟩
    | true =>
      obtain ⟨_, b, c⟩ := g1.success W.fs N.fresh1 (N.out _ (g2 rfl)).1
      exact ⟨b, by rw [(c _ (Ne.symm (N.out _ (g2 rfl)).2) N.tmp).2, e2]⟩
  · have he := N.genEnv hr hf
    obtain ⟨text, pub, ok1, cs1, g1, g2⟩ := gen_shape W.D W.fs W.env1 W.env2 o.force (W.clean bn) o.comment (W.genpw o.nopw o.envpw)
      W.seed W.salt
    rw [hm]
    rcases g2 with ⟨rfl, h⟩ | ⟨rfl, ok2, cs2, g2, h⟩
    · rw [h]
      obtain ⟨a, b⟩ := g1.failure W.fs N.fresh1
      exact ⟨b hr1, by rw [(a _ N.tmp).2, e2]⟩
    · rw [h, run_append]
      have hf2 := g1.fresh W.fs he.fresh1 he.key1 W.env2.tmp W.env2.inode he.fresh2 he.tmp he.inode (Ne.symm he.key2)
      obtain ⟨_, b, c⟩ := g1.success W.fs N.fresh1 he.key1
      cases ok2 with
      | false =>
        obtain ⟨a2, b2⟩ := g2.failure _ hf2
        exact ⟨by rw [(a2 _ (Ne.symm N.tmp)).2, b], b2 hr2⟩
      | true =>
        obtain ⟨_, b2, c2⟩ := g2.success _ hf2 he.pub2
        exact ⟨by rw [(c2 _ (Ne.symm he.pub1) (Ne.symm N.tmp)).2, b], b2⟩

/-- **C68** Interrupt the program at any moment, by a kill or a power loss, whatever the command line: each file that was on disk
before is found as it was before the run, or as the uninterrupted run leaves it (temporary files aside). -/
theorem C68_all_or_nothing (W : World) (L : Laws W.D.P) (argv : List Bytes) (N : Normal W argv)
    (pre : List Sys) (hpre : pre <+: (W.main argv).sys) (dir : Dir) (data : Nat → Bytes) (hi : CrashImage (W.fs.run pre) dir data)
    (p : Path) (hd : OnDisk W.fs p) (h1 : p ≠ W.env1.tmp) (h2 : p ≠ W.env2.tmp) :
    readIn dir data p = W.fs.read p ∨ readIn dir data p = (W.fs.run (W.main argv).sys).read p := by
  have one : ∀ (target : Path) (content : Bytes) (ok : Bool) (cs pre : List Sys) (dir : Dir) (data : Nat → Bytes),
      SafeRun W.env1 target content ok cs → (ok = true → target ≠ W.env1.tmp) → pre <+: cs → CrashImage (W.fs.run pre) dir data →
      readIn dir data p = W.fs.read p ∨ readIn dir data p = (W.fs.run cs).read p := by
    intro target content ok cs pre dir data g1 ht hpre hi
    cases ok with
    | false =>
      rcases (g1.retarget p).crash W.fs N.fresh1 h1 pre hpre dir data hi p h1 hd with h | ⟨h, _⟩
      · exact .inl h
      · cases h
    | true =>
      rcases g1.crash W.fs N.fresh1 (ht rfl) pre hpre dir data hi p h1 hd with h | ⟨_, rfl, h⟩
      · exact .inl h
      · exact .inr (h.trans (g1.success W.fs N.fresh1 (ht rfl)).1.symm)
  rcases main_shape W L argv N with ⟨target, content, ok, g1, g2, g3⟩ | ⟨rest, o, bn, more, hr, hf, hm⟩
  · exact one target content ok _ pre dir data g1 (fun h => (N.out _ (g2 h)).1) hpre hi
  · have he := N.genEnv hr hf
    obtain ⟨text, pub, ok1, cs1, g1, g2⟩ := gen_shape W.D W.fs W.env1 W.env2 o.force (W.clean bn) o.comment (W.genpw o.nopw o.envpw)
      W.seed W.salt
    rw [hm] at hpre ⊢
    rcases g2 with ⟨rfl, h⟩ | ⟨rfl, ok2, cs2, g2, h⟩
    · rw [h] at hpre ⊢
      exact one _ _ _ _ pre dir data g1 (by simp) hpre hi
    · rw [h] at hpre ⊢
      have hf2 := g1.fresh W.fs he.fresh1 he.key1 W.env2.tmp W.env2.inode he.fresh2 he.tmp he.inode (Ne.symm he.key2)
      rw [run_append]
      -- what the second write does to `p`
      have second : (W.fs.run cs1).read p = W.fs.read p ∨ ((W.fs.run cs1).run cs2).read p = (W.fs.run cs1).read p := by
        by_cases hk : p = keyName (W.clean bn)
        · right
          have hpub : p ≠ pubName (W.clean bn) := by rw [hk]; exact keyName_ne_pubName _
          cases ok2 with
          | false => exact ((g2.failure _ hf2).1 p h2).1
          | true => exact ((g2.success _ hf2 he.pub2).2.2 p hpub h2).1
        · left
          exact ((g1.success W.fs N.fresh1 he.key1).2.2 p hk h1).1
      have first : ∀ pre dir data, pre <+: cs1 → CrashImage (W.fs.run pre) dir data →
          readIn dir data p = W.fs.read p ∨ readIn dir data p = ((W.fs.run cs1).run cs2).read p := by
        intro pre dir data hpre hi
        rcases one _ _ _ _ pre dir data g1 (fun _ => he.key1) hpre hi with h | h
        · exact .inl h
        · rcases second with s | s
          · exact .inl (h.trans s)
          · exact .inr (h.trans s.symm)
      rcases prefix_append_cases hpre with hpre | ⟨pre2, rfl, hpre2⟩
      · exact first pre dir data hpre hi
      · rw [run_append] at hi
        cases ok2 with
        | false =>
          rcases (g2.retarget p).image _ hf2 h2 pre2 hpre2 dir data hi p h2 with ⟨d0, t0, k1, k2⟩ | ⟨k, _⟩
          · rw [k2]; exact first cs1 d0 t0 (List.prefix_refl _) k1
          · cases k
        | true =>
          rcases g2.image _ hf2 he.pub2 pre2 hpre2 dir data hi p h2 with ⟨d0, t0, k1, k2⟩ | ⟨_, rfl, k⟩
          · rw [k2]; exact first cs1 d0 t0 (List.prefix_refl _) k1
          · exact .inr (k.trans (g2.success _ hf2 he.pub2).1.symm)

/-- The callback of `sign`, `encrypt`, `decrypt` yields the pass phrase of the options. -/
theorem _root_.Sigtool.Spec.PassPhrase.getpw {W : World} {nopw : Bool} {envpw pw : Bytes} (h : PassPhrase W nopw envpw pw) :
    W.getpw nopw envpw = some (.ok pw) := by
  unfold World.getpw
  cases h with
  | none h => rw [if_pos h]
  | env h1 h2 => rw [h1, if_neg (by simp), if_pos h2]
  | typed _ h1 h2 h3 => rw [h1, h2, h3]; rfl

theorem _root_.Sigtool.Spec.PassPhrase.genpw {W : World} {nopw : Bool} {envpw pw : Bytes} (h : PassPhrase W nopw envpw pw) :
    W.genpw nopw envpw = .ok pw := by
  unfold World.genpw
  cases h with
  | none h => rw [if_pos h]
  | env h1 h2 => rw [h1, if_neg (by simp), if_pos h2]
  | typed _ h1 h2 h3 => rw [h1, h2, h3]; rfl

end Sigtool
