import Verif.Spec.Clerk
import Verif.Props.Forge
import Verif.Props.CliSign
import Verif.Props.CliVerify
/-!
# C136: forgery, played with the commands `sign` and `verify`
-/

namespace Sigtool
open Spec

theorem newSafeFile_text (O : Clerk) (text : Bytes) (fs : FS) (env : SafeEnv) (perm : Nat) (target : Path) (force : Bool) :
    newSafeFile (O.install text fs) env perm target force = newSafeFile (O.install [] fs) env perm target force := rfl

theorem install_read (O : Clerk) (text : Bytes) (fs : FS) : (O.install text fs).read O.keyfile = some text := by
  simp [Clerk.install, FS.read, readIn]

theorem install_other (O : Clerk) (text : Bytes) (fs : FS) (p : Path) (h1 : p ≠ O.keyfile) (h2 : fs.dir p ≠ some (.file O.inode)) :
    (O.install text fs).read p = fs.read p := by
  unfold FS.read readIn Clerk.install
  dsimp only
  rw [if_neg h1]
  cases hd : fs.dir p with
  | none => rfl
  | some n =>
    cases n with
    | other => rfl
    | file i =>
      rw [hd] at h2
      dsimp only
      rw [if_neg (by rintro rfl; exact h2 rfl)]

/-- The clerk's `sign` is a report on a signature. -/
theorem clerk_signs (D : Deps) (L : Laws D.P) (O : Clerk) (hO : O.Holds D) (seed : Bytes) (hs : seed.length = 32) (r : Order)
    (hr : r.legal O) :
    signCmd D (O.install (O.text seed) r.fs) r.env r.stdout r.output r.force O.getpw r.mapErr O.keyfile r.file =
      report D O [] r (match r.fs.read r.file, r.mapErr with
        | some c, none => some (Signature.marshal D.Y ⟨useKey D.P seed (.sign c), pkhash D.P (D.P.edPub seed)⟩
            (ascii "input=" ++ r.file))
        | _, _ => none) := by
  have hk : readPrivateKey D (O.install (O.text seed) r.fs) O.keyfile O.getpw = .ok (newPrivateKey D.P seed) :=
    (readPrivateKey_ok _ _ _ _ _).mpr ⟨_, install_read _ _ _, hO seed hs⟩
  have hf := install_other O (O.text seed) r.fs r.file hr.1 hr.2
  have hl : (newPrivateKey D.P seed).sk.length = 64 := by
    unfold newPrivateKey; dsimp only; rw [List.length_append, hs, L.ed_pub_len seed hs]
  rw [signCmd_eq]
  unfold report
  rw [newSafeFile_text]
  unfold sigText
  rw [hk, Res.bind_ok]
  cases hc : r.fs.read r.file with
  | none =>
    have : ∃ e, readFile (O.install (O.text seed) r.fs) r.file = .err e := by
      unfold readFile; rw [hf, hc]; exact ⟨_, rfl⟩
    obtain ⟨e, he⟩ := this
    rw [he]
    by_cases h : sigTarget r.output r.file = ascii "-"
    · rw [if_pos h, if_pos h]; rfl
    · rw [if_neg h, if_neg h]
      cases newSafeFile (O.install [] r.fs) r.env 0o644 (sigTarget r.output r.file) r.force <;> rfl
  | some c =>
    rw [(readFile_ok _ _ _).mpr (hf.trans hc), Res.bind_ok]
    cases r.mapErr with
    | some e =>
      by_cases h : sigTarget r.output r.file = ascii "-"
      · rw [if_pos h, if_pos h]
      · rw [if_neg h, if_neg h]
        cases newSafeFile (O.install [] r.fs) r.env 0o644 (sigTarget r.output r.file) r.force <;> rfl
    | none =>
      have hsig : signFile D.P (newPrivateKey D.P seed) c =
          .ok ⟨useKey D.P seed (.sign c), pkhash D.P (D.P.edPub seed)⟩ := by
        unfold useKey
        dsimp only
        unfold signFile signMessage
        rw [if_neg (by rw [hl]; simp)]
        rfl
      rw [hsig, Res.bind_ok]
      by_cases h : sigTarget r.output r.file = ascii "-"
      · rw [if_pos h, if_pos h]
      · rw [if_neg h, if_neg h]
        cases newSafeFile (O.install [] r.fs) r.env 0o644 (sigTarget r.output r.file) r.force <;> rfl

/-- What the clerk does is an answer by one who may ask for the uses of the key. -/
theorem does_answer (D : Deps) (L : Laws D.P) (O : Clerk) (hO : O.Holds D) (seed : Bytes) (hs : seed.length = 32) (d : Demand) :
    O.does D (useKey D.P) seed d = ((d.answer D O (D.P.edPub seed)).run (useKey D.P seed)).2 := by
  cases d with
  | other u => rfl
  | sign r =>
    unfold Clerk.does Demand.answer
    dsimp only
    by_cases h : r.legal O
    · rw [if_pos h, if_pos h, clerk_signs D L O hO seed hs r h]
      cases r.fs.read r.file with
      | none => rfl
      | some c => cases r.mapErr <;> rfl
    · rw [if_neg h, if_neg h]; rfl

/-- Nothing is signed for it but what was demanded. -/
theorem answer_contents (D : Deps) (O : Clerk) (pk : Bytes) (o : Use → Bytes) (d : Demand) :
    ∀ u ∈ ((d.answer D O pk).run o).1, ∀ c, u.contents = some c → d.contents = some c := by
  cases d with
  | other u =>
    intro v hv c hc
    simp only [Demand.answer, Play.run, List.mem_singleton] at hv
    subst hv
    exact hc
  | sign r =>
    intro u hu c hc
    unfold Demand.answer at hu
    dsimp only at hu
    split at hu
    · split at hu
      · rename_i c' h1 h2
        simp only [Play.run, List.mem_singleton] at hu
        subst hu
        simp only [Use.contents] at hc
        simp only [Demand.contents, h1]
        exact hc
      · simp [Play.run] at hu
    · simp [Play.run] at hu

/-- A deceived `verify` means an accepted forgery. -/
theorem deceived_accepts (D : Deps) (pk : Bytes) (signed : List Bytes) (fs : FS) (args : List Bytes)
    (h : Deceived D pk signed fs args) :
    acceptsFile D.P pk (presented D fs args).1 (presented D fs args).2 = true ∧ (presented D fs args).1 ∉ signed := by
  obtain ⟨h0, pn, sn, fn, more, rfl, ⟨k, hk, hkp⟩, content, hc, hn⟩ := h
  obtain ⟨pn', sn', fn', more', he, _, k', sig, content', h2, h3, _, h5, h6⟩ := (C48_exit_zero_iff D fs none _).mp h0
  cases he
  have hkk : k' = k := by
    have a := (verifyKey_some D fs pn k').mpr h2
    rw [(verifyKey_some D fs pn k).mpr hk] at a
    cases a
    rfl
  subst hkk
  rw [hc] at h5
  cases h5
  have hl := KeyArg_len D fs pn k' hk
  rw [hkp] at hl h6
  have hp : presented D fs (pn :: sn :: fn :: more) = (content, sig.sig) := by
    unfold presented
    dsimp only
    rw [hc, (readSignature_ok D fs sn sig).mpr h3]
    rfl
  rw [hp]
  refine ⟨?_, hn⟩
  unfold acceptsFile verifyFile verifyMessage
  rw [if_neg (by simp [hl])]
  rw [signDigest_spec, fileCksum_spec]
  exact h6

open Classical in
/-- **C136.** For every clerk (a private key file, as `generate` or `ssh-keygen` made it, and the password that goes with it)
and every swindler, who has him run `sigtool sign` on any files, with any options, standard outputs and failures of the
file system, sees the exit status, the file system calls and the standard output of every run, and has the key used for
encrypted files too: the probability that he then makes files and arguments with which `sigtool verify` exits with 0 under the
clerk's public key, on a file whose content the clerk was never told to sign, is at most the probability that the explicit
forger made from him forges an Ed25519 signature, plus the probabilities of two SHA-512 collisions among the strings that
occur. -/
theorem C136_commands (D : Deps) (L : Laws D.P) (O : Clerk) (hO : O.Holds D) (F : Swindler) :
    F.odds D O (useKey D.P) ≤ ((F.forger D O).ed D.P).odds D.P +
      ((F.forger D O).sameFile D.P (useKey D.P) + (F.forger D O).sameMessage D.P) := by
  refine le_trans ?_ (C129_joint D.P L (F.forger D O))
  unfold Swindler.odds Forger.odds
  refine mean_mono fun t => mean_mono fun seed => ?_
  have hd : O.does D (useKey D.P) seed.bytes =
      fun d => ((d.answer D O (D.P.edPub seed.bytes)).run (useKey D.P seed.bytes)).2 :=
    funext fun d => does_answer D L O hO seed.bytes seed.length d
  have hrun : ((F.forger D O).play t (D.P.edPub seed.bytes)).run (useKey D.P seed.bytes) =
      let r := (F.play t (D.P.edPub seed.bytes)).run (O.does D (useKey D.P) seed.bytes)
      (r.1.flatMap fun d => ((d.answer D O (D.P.edPub seed.bytes)).run (useKey D.P seed.bytes)).1,
        presented D r.2.1 r.2.2) := by
    rw [hd]
    unfold Swindler.forger
    dsimp only
    rw [run_andThen, run_through]
    simp only [Play.run, List.append_nil]
  dsimp only at hrun ⊢
  rw [hrun]
  generalize (F.play t (D.P.edPub seed.bytes)).run (O.does D (useKey D.P) seed.bytes) = r
  obtain ⟨ds, fs, args⟩ := r
  dsimp only
  by_cases h : Deceived D (D.P.edPub seed.bytes) (ds.filterMap Demand.contents) fs args
  · obtain ⟨h1, h2⟩ := deceived_accepts D _ _ _ _ h
    have h3 : (presented D fs args).1 ∉ (ds.flatMap fun d =>
        ((d.answer D O (D.P.edPub seed.bytes)).run (useKey D.P seed.bytes)).1).filterMap Use.contents := by
      intro hm
      obtain ⟨u, hu, hc⟩ := List.mem_filterMap.mp hm
      obtain ⟨d, hd1, hd2⟩ := List.mem_flatMap.mp hu
      exact h2 (List.mem_filterMap.mpr ⟨d, hd1, answer_contents D O _ _ d u hd2 _ hc⟩)
    rw [h1, decide_eq_true h, decide_eq_true h3]
    exact le_refl _
  · rw [decide_eq_false h]
    have hnn : ∀ b, (0 : ℚ) ≤ yes b := fun b => by cases b <;> simp [yes]
    exact hnn _

end Sigtool
