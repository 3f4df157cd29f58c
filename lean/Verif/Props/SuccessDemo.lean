import Verif.Props.SuccessEnc
import Verif.Props.MainDemo2
import Verif.Props.SshDemo
/-!
# C92: what `decrypt` writes when it succeeds; concrete cases
-/

namespace Sigtool
open Spec

/-- A `decrypt` that exits with 0 got to the point of reading the key file. -/
theorem decrypt_cmd (W : World) (rest args : List Bytes) (o : DecOpts) (hf : W.flags.dec rest = .ok o args)
    (h : (W.decrypt rest).exit = 0) : ∃ key infile rd, DecArgs W args key rd ∧ W.decrypt rest =
      decryptCmd W.D W.fs W.env1 W.stdout o.outfile o.force o.test key (W.getpw o.nopw o.envpw) o.sender infile rd := by
  unfold World.decrypt at h ⊢
  rw [hf] at h ⊢
  dsimp only at h ⊢
  match args with
  | [] => cases h
  | [key] => exact ⟨key, ascii "-", W.stdin, .stdin key, rfl⟩
  | key :: infile :: more =>
    dsimp only at h ⊢
    by_cases hi : infile = []
    · rw [if_pos hi] at h
      split at h
      · cases h
      · cases h
      · split at h
        · cases h
        · split at h <;> cases h
    · rw [if_neg hi] at h ⊢
      refine ⟨key, infile, W.input infile, ?_, rfl⟩
      unfold World.input at h ⊢
      by_cases hdash : infile = ascii "-"
      · subst hdash; exact .dash key more
      · rw [if_neg hdash] at h ⊢
        refine .file key infile more hi hdash ?_
        cases hex : W.fs.exists infile with
        | true => rfl
        | false =>
          unfold decryptCmd at h
          split at h
          · cases h
          · cases h
          · dsimp only at h
            split at h
            · cases h
            · cases h
            · rw [if_pos ⟨hi, hdash, hex⟩] at h; cases h

/-- **C92** (`decrypt`, what is written).  A `decrypt` without `--test` that exits with 0 has found a container, and standard output has
exactly its contents and no file has changed; or — if fsync, close and rename of the output file succeed — the output file holds
exactly its contents and no other file has changed. -/
theorem C92_decrypt_output (W : World) (L : Laws W.D.P) (argv rest args : List Bytes) (hn : Normal W argv)
    (hr : Runs W argv "decrypt" rest) (o : DecOpts) (hf : W.flags.dec rest = .ok o args) (ht : o.test = false)
    (hcl : ¬ ToStdout o.outfile → Closes W.env1) (h : (W.main argv).exit = 0) :
    ∃ plain, DecryptsTo W o args plain ∧
      (ToStdout o.outfile → (W.main argv).stdout = W.stdout.out ++ plain ∧ (W.main argv).sys = []) ∧
      (¬ ToStdout o.outfile → (W.fs.run (W.main argv).sys).read o.outfile = some plain ∧
        SameBut W.fs (W.fs.run (W.main argv).sys) [o.outfile]) := by
  have hd : "-".toUTF8.toList = ascii "-" := by decide +kernel
  have hst : ToStdout o.outfile ↔ o.outfile = [] ∨ o.outfile = ascii "-" := by unfold ToStdout; rw [hd]
  have hto := (hn.out _ (Output.dec rest o args hr hf ht)).1
  rw [(C66_dispatch W hn.order argv rest "decrypt" hr).2.2.2.2.1 rfl] at h ⊢
  obtain ⟨key, infile, rd, h1, h2⟩ := decrypt_cmd W rest args o hf h
  rw [h2] at h ⊢
  rw [ht] at h ⊢
  -- an environment without errors does not change the outcome
  obtain ⟨env, e1, e2, e3, e4, e5, e6⟩ : ∃ env : SafeEnv, Spec.Fresh W.fs env.tmp env.inode ∧ o.outfile ≠ env.tmp ∧
      env.syncErr = none ∧ env.closeErr = none ∧ env.renameErr = none ∧
      decryptCmd W.D W.fs W.env1 W.stdout o.outfile o.force false key (W.getpw o.nopw o.envpw) o.sender infile rd =
      decryptCmd W.D W.fs env W.stdout o.outfile o.force false key (W.getpw o.nopw o.envpw) o.sender infile rd := by
    by_cases hs : ToStdout o.outfile
    · refine ⟨{ W.env1 with syncErr := none, closeErr := none, renameErr := none }, hn.fresh1, hto, rfl, rfl, rfl, ?_⟩
      unfold decryptCmd withOutput
      simp only [if_pos (hst.mp hs)]
    · exact ⟨W.env1, hn.fresh1, hto, (hcl hs).1, (hcl hs).2.1, (hcl hs).2.2, rfl⟩
  rw [e6] at h ⊢
  obtain ⟨sk, pk, plain, k1, k2, ⟨d, d', w, k3, k4, k5⟩, k6, k7⟩ := C51_exit_zero_partial W.D W.fs env W.stdout o.outfile o.force key
    (W.getpw o.nopw o.envpw) o.sender infile rd e1 e2 e3 e4 e5 _ rfl h
  obtain ⟨secret, h4, rfl⟩ := (privateFile_iff W o.nopw o.envpw key sk).mp k1
  have hl : secret.length = 64 := by obtain ⟨b, _, h5⟩ := h4; exact privateText_length h5
  refine ⟨plain, ⟨key, rd, secret, pk, d.auth, d'.rd.content, h1, h4, senderArg_named k2, ?_⟩, fun hs => k6 (hst.mp hs),
    fun hs => k7 (fun h => hs (hst.mpr h))⟩
  exact (C87_exact W.D.P L rd (privateOf W.D.P secret) (by unfold privateOf; dsimp only; omega) pk {} (by intro k e; simp) _ _ _).mp
    ⟨d, d', w, k3, rfl, k4, by rw [k5]; rfl, rfl⟩

end Sigtool

namespace Sigtool.SuccessDemo
open Sigtool Spec CliDemo MainDemo

/-- C92 `verify`: `sigtool v k.pub in.sig in`. -/
example : ∃ pn sn fn more key sig content, [pubName k, ascii "in.sig", ascii "in"] = pn :: sn :: fn :: more ∧ VerifyKey V pn key ∧
    SignatureFile V sn sig ((V.D.P.sha256 key).take 16) ∧ V.fs.read fn = some content ∧ V.mapErr = none ∧
    ValidFileSig V.D.P key content sig :=
  (C92_verify V commands.reverse_perm vv [pubName k, ascii "in.sig", ascii "in"] _
    ⟨{}, ascii "v", rfl, rfl, rfl, by decide +kernel, by decide +kernel, by decide +kernel⟩ rfl).mp (by decide +kernel)

/-- C92 `verify`: without the third argument, and with the signature of another file. -/
example : (V.main [ascii "v", pubName k, ascii "in.sig"]).exit ≠ 0 ∧ (V.main [ascii "v", pubName k, ascii "in.sig", keyName k]).exit ≠ 0 := by
  decide +kernel

/-- C92 `sign`: `sigtool s -E PW k.key in`. -/
example : ∃ kn fn more secret content, [keyName k, ascii "in"] = kn :: fn :: more ∧
    (sigTarget [] fn = "-".toUTF8.toList ∨ Creatable S.fs S.env1 (sigTarget [] fn) false) ∧
    PrivateFile S false (ascii "PW") kn secret ∧ S.fs.read fn = some content ∧ S.mapErr = none :=
  (C92_sign S commands.reverse_perm sv [ascii "-E", ascii "PW", keyName k, ascii "in"] _
    ⟨{}, ascii "s", rfl, rfl, rfl, by decide +kernel, by decide +kernel, by decide +kernel⟩ { envpw := ascii "PW" } rfl).mp
    (by decide +kernel)

/-- C92 `generate`: `sigtool GEN -E PW k`; it fails when `k.pub` is in the way, although `k.key` is not. -/
example : ∃ bn more pw, [k] = bn :: more ∧ PassPhrase G false (ascii "PW") pw ∧
    Creatable G.fs G.env1 (G.clean bn ++ ".key".toUTF8.toList) false ∧ Closes G.env1 ∧
    Creatable G.fs G.env2 (G.clean bn ++ ".pub".toUTF8.toList) false ∧ Closes G.env2 :=
  (C92_generate G toyLaws gv _ [k] gNormal gRuns { envpw := ascii "PW" } rfl
    (by intro a e; simp [G, world, env]) (by intro a e; simp [G, world, env])).mp (by decide +kernel)

/-- C92 `decrypt`: `sigtool dec -E PW -o plain k.key out`. -/
example : (∃ p, DecryptsTo X { envpw := ascii "PW", outfile := ascii "plain" } [keyName k, ascii "out"] p) :=
  ((C92_decrypt X toyLaws commands.reverse_perm xv
    [ascii "-E", ascii "PW", ascii "-o", ascii "plain", keyName k, ascii "out"] _
    ⟨{}, ascii "dec", rfl, rfl, rfl, by decide +kernel, by decide +kernel, by decide +kernel⟩
    { envpw := ascii "PW", outfile := ascii "plain" } rfl
    ⟨fun _ a e => by simp [X, world], fun _ a e => by simp [X, world, env]⟩).mp (by decide +kernel)).1

theorem ssh_fresh (t : String) (i : Nat) (h : ascii t ∉ [ascii "in", ascii "id", ascii "locked", ascii "id.pub", ascii "h/.ssh/authorized_keys"])
    (hi : i ∉ [0, 10, 11, 12, 13]) : Fresh SshDemo.fs (ascii t) i := by
  simp only [List.mem_cons, List.not_mem_nil, or_false, not_or] at h hi
  constructor
  · intro d hd
    simp only [SshDemo.fs, List.mem_singleton] at hd
    subst hd
    simp [h]
  · intro d hd p
    simp only [SshDemo.fs, List.mem_singleton] at hd
    subst hd
    dsimp only
    intro hp
    split at hp
    · cases hp; exact hi.1 rfl
    · split at hp
      · cases hp; exact hi.2.1 rfl
      · split at hp
        · cases hp; exact hi.2.2.1 rfl
        · split at hp
          · cases hp; exact hi.2.2.2.1 rfl
          · split at hp
            · cases hp; exact hi.2.2.2.2 rfl
            · cases hp

theorem eRuns : Runs SshDemo.E SshDemo.ev "encrypt" [ascii "-s", ascii "locked", ascii "bob@x", ascii "-"] :=
  ⟨{}, ascii "enc", rfl, rfl, rfl, by decide +kernel, by decide +kernel, by decide +kernel⟩

theorem xRuns : Runs SshDemo.X SshDemo.xv "decrypt" [ascii "-v", ascii "id.pub", ascii "id"] :=
  ⟨{}, ascii "dec", rfl, rfl, rfl, by decide +kernel, by decide +kernel, by decide +kernel⟩

theorem eNormal : Normal SshDemo.E SshDemo.ev where
  fresh1 := ssh_fresh "t5" 5 (by decide +kernel) (by decide)
  fresh2 := ssh_fresh "t6" 6 (by decide +kernel) (by decide)
  tmp := by decide +kernel
  inode := by decide
  out := by
    intro p hp
    have hf : SshDemo.E.flags.enc [ascii "-s", ascii "locked", ascii "bob@x", ascii "-"] =
      .ok { sign := ascii "locked", envpw := ascii "PW" } [ascii "bob@x", ascii "-"] := by rfl
    cases hp with
    | key _ _ _ _ hr => exact absurd (runs_unique eRuns hr).1 (by decide)
    | pub _ _ _ _ hr => exact absurd (runs_unique eRuns hr).1 (by decide)
    | sig _ _ _ _ _ hr => exact absurd (runs_unique eRuns hr).1 (by decide)
    | enc _ _ _ hr h =>
      obtain ⟨_, rfl⟩ := runs_unique eRuns hr
      rw [hf] at h; cases h
      exact ⟨by decide +kernel, by decide +kernel⟩
    | dec _ _ _ hr => exact absurd (runs_unique eRuns hr).1 (by decide)
  order := by exact commands.reverse_perm
  coins := ⟨by decide, by decide, by decide⟩
  coin := by decide

theorem xNormal : Normal SshDemo.X SshDemo.xv where
  fresh1 := ssh_fresh "t7" 7 (by decide +kernel) (by decide)
  fresh2 := ssh_fresh "t8" 8 (by decide +kernel) (by decide)
  tmp := by decide +kernel
  inode := by decide
  out := by
    intro p hp
    have hf : SshDemo.X.flags.dec [ascii "-v", ascii "id.pub", ascii "id"] =
      .ok { sender := ascii "id.pub", envpw := ascii "PW" } [ascii "id"] := by rfl
    cases hp with
    | key _ _ _ _ hr => exact absurd (runs_unique xRuns hr).1 (by decide)
    | pub _ _ _ _ hr => exact absurd (runs_unique xRuns hr).1 (by decide)
    | sig _ _ _ _ _ hr => exact absurd (runs_unique xRuns hr).1 (by decide)
    | enc _ _ _ hr => exact absurd (runs_unique xRuns hr).1 (by decide)
    | dec _ _ _ hr h =>
      obtain ⟨_, rfl⟩ := runs_unique xRuns hr
      rw [hf] at h; cases h
      exact ⟨by decide +kernel, by decide +kernel⟩
  order := by exact commands.reverse_perm
  coins := ⟨by decide, by decide, by decide⟩
  coin := by decide

/-- C92 `encrypt`: `sigtool enc -s locked bob@x -`, with a recipient from `authorized_keys` and a sender with a locked OpenSSH key. -/
example : ∃ key, RecipientKey SshDemo.E SshDemo.auth (ascii "bob@x") key ∧ ∃ secret, PrivateFile SshDemo.E false (ascii "PW") (ascii "locked") secret := by
  obtain ⟨rcpts, infile, home, rd, h1, h2, h3, h4, h5, h6, h7, h8, h9, h10, h11⟩ := (C92_encrypt SshDemo.E toyLaws SshDemo.ev _ _ eNormal eRuns
    { sign := ascii "locked", envpw := ascii "PW" } rfl ⟨fun _ a e => by simp [SshDemo.E, world], fun h => absurd (.inl rfl) h⟩).mp
    (by decide +kernel)
  cases h7
  match rcpts, h3, h10 with
  | _ :: _ :: _, h3, _ => simp at h3
  | [r], h3, h10 =>
    cases h3
    obtain ⟨key, k1, _⟩ := h10 _ (List.mem_singleton.mpr rfl)
    have ha : (SshDemo.E.fs.read (ascii "h" ++ "/.ssh/authorized_keys".toUTF8.toList)).getD [] = SshDemo.auth := by decide +kernel
    rw [ha] at k1
    exact ⟨key, k1, h2 (by decide +kernel)⟩

/-- C92, what `decrypt` writes: `sigtool dec -v id.pub id` on the output of the above. -/
example : ∃ plain, DecryptsTo SshDemo.X { sender := ascii "id.pub", envpw := ascii "PW" } [ascii "id"] plain ∧
    (SshDemo.X.main SshDemo.xv).stdout = plain := by
  obtain ⟨plain, h1, h2, _⟩ := C92_decrypt_output SshDemo.X toyLaws SshDemo.xv _ _ xNormal xRuns _ rfl rfl
    (fun h => absurd (.inl rfl) h) (by decide +kernel)
  exact ⟨plain, h1, (h2 (.inl rfl)).1⟩

end Sigtool.SuccessDemo
