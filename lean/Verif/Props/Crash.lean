import Verif.Spec.Crash
import Verif.Props.SuccessEnc
/-!
# C93: exactly when the program crashes
-/

namespace Sigtool
open Spec

theorem base64_text_iff (t b : Bytes) : Base64.decode t = some b ↔ Base64Text t b := C34_exact t b

theorem drop_magic (r : Bytes) : ("openssh-key-v1".toUTF8.toList ++ [0] ++ r).drop 15 = r := by
  have h : ("openssh-key-v1".toUTF8.toList ++ [0]).length = 15 := by decide +kernel
  rw [← h, List.drop_left]

theorem private_panic_iff (W : World) (nopw : Bool) (envpw : Bytes) (kn : Path) :
    (∃ w, readPrivateKey W.D W.fs kn (W.getpw nopw envpw) = .panic w) ↔ PrivateCrash W nopw envpw kn := by
  have ht : ascii "OPENSSH PRIVATE KEY" = "OPENSSH PRIVATE KEY".toUTF8.toList := by decide +kernel
  have hcbc : ascii "aes256-cbc" = "aes256-cbc".toUTF8.toList := by decide +kernel
  have hb : ascii "bcrypt" = "bcrypt".toUTF8.toList := by decide +kernel
  have hn : W.getpw nopw envpw ≠ none := by unfold World.getpw; simp
  have ssh : ∀ raw slack, SshCrash W.D.P raw slack (W.getpw nopw envpw) ↔ SshCrashes W.D.P (PassPhrase W nopw envpw) raw slack := by
    intro raw slack
    unfold SshCrash SshCrashes
    refine or_congr_right (or_congr_right ?_)
    constructor
    · rintro ⟨⟨r, hr⟩, ⟨cipher, kdf, opts, n, pub, priv⟩, h1, h2, h3, ⟨_, h4⟩ | ⟨h4, h5, pw, salt, rounds, k, h6, h7, h8⟩⟩
      · exact absurd h4 hn
      · dsimp only at h2 h3 h4 h5 h7
        subst h2 h3 h4
        obtain ⟨r1, r2, r4, r5, _, g1, g2, g3, g4, g5⟩ := (header_iff _ _ _ _ _ _ _).mp h1
        obtain ⟨h9, h10⟩ := (opts_iff _ _ _).mp h7
        have hd : raw.drop 15 = r := by
          rw [← hr, drop_magic]
        rw [hd] at g1
        rw [hcbc] at g1
        rw [hb] at g2
        exact ⟨opts, priv, salt, rounds, pw, k, ⟨pub, r, r1, r2, r4, r5, hr.symm, g1, g2, g3, g4, g5⟩, h5,
          (getpw_cases W nopw envpw pw).mp h6, h9, h10, h8⟩
    · rintro ⟨opts, ct, salt, rounds, pw, k, ⟨pub, r, r1, r2, r4, r5, hr, g1, g2, g3, g4, g5⟩, h1, h2, h3, h4, h5⟩
      have hd : raw.drop 15 = r := by
        rw [hr, drop_magic]
      refine ⟨⟨r, hr.symm⟩, ⟨_, _, opts, 1, pub, ct⟩, by
        rw [hd]; exact (header_iff _ _ _ _ _ _ _).mpr ⟨r1, r2, r4, r5, by decide, g1, g2, g3, g4, g5⟩, rfl, hb.symm, .inr ⟨hcbc.symm, h1, pw, salt,
        rounds, k, (getpw_cases W nopw envpw pw).mpr h2, (opts_iff _ _ _).mpr ⟨h3, h4⟩, h5⟩⟩
  have yml : ∀ b pw, YamlCrash W.D.P W.D.Y b pw ↔ ∃ d, W.D.Y.readPriv b = some d ∧ YamlCrashes W.D.P d pw := by
    intro b pw
    unfold YamlCrash YamlCrashes
    simp only [base64_text_iff]
    constructor
    · rintro ⟨d, salt, esk, h1, h⟩; exact ⟨d, h1, salt, esk, h⟩
    · rintro ⟨d, h1, salt, esk, h⟩; exact ⟨d, salt, esk, h1, h⟩
  have key : ∀ b, (∃ w, makePrivateKey W.D.P W.D.Y W.D.pem b (W.getpw nopw envpw) = .panic w) ↔
      ((SaysOpenSSH b ∧ ∃ blk, W.D.pem b = some blk ∧ blk.legacyEncrypted = false ∧ blk.typ = "OPENSSH PRIVATE KEY".toUTF8.toList ∧
        SshCrashes W.D.P (PassPhrase W nopw envpw) blk.bytes blk.slack) ∨
       (¬ SaysOpenSSH b ∧ ∃ pw d, PassPhrase W nopw envpw pw ∧ W.D.Y.readPriv b = some d ∧ YamlCrashes W.D.P d pw)) := by
    intro b
    rw [C44_crash_iff, looksOpenSSH_iff, ht]
    simp only [ssh, yml]
    have hf : looksOpenSSH b = false ↔ ¬ SaysOpenSSH b := by
      rw [← looksOpenSSH_iff]; simp
    rw [hf]
    refine or_congr_right (and_congr_right fun _ => ?_)
    constructor
    · rintro (⟨h, _⟩ | ⟨pw, h1, d, h2, h3⟩)
      · exact absurd h hn
      · exact ⟨pw, d, (getpw_cases W nopw envpw pw).mp h1, h2, h3⟩
    · rintro ⟨pw, d, h1, h2, h3⟩
      exact .inr ⟨pw, (getpw_cases W nopw envpw pw).mpr h1, d, h2, h3⟩
  unfold PrivateCrash
  simp only [← key]
  unfold readPrivateKey
  constructor
  · rintro ⟨w, h⟩
    rcases (bind_panic_iff _ _ _).mp h with h | ⟨b, h1, h2⟩
    · exact absurd h (readFile_no_panic _ _ _)
    · exact ⟨b, (readFile_ok _ _ _).mp h1, w, h2⟩
  · rintro ⟨b, h1, w, h2⟩
    exact ⟨w, (bind_panic_iff _ _ _).mpr (.inr ⟨b, (readFile_ok _ _ _).mpr h1, h2⟩)⟩

theorem public_panic_iff (W : World) (fn : Path) : (∃ w, readPublicKey W.D W.fs fn = .panic w) ↔ PublicCrash W fn := by
  unfold readPublicKey PublicCrash
  constructor
  · rintro ⟨w, h⟩
    rcases (bind_panic_iff _ _ _).mp h with h | ⟨b, h1, h2⟩
    · exact absurd h (readFile_no_panic _ _ _)
    · obtain ⟨f, c, h3, h4⟩ := (C90_public_crash W.D.P W.D.Y b).mp ⟨w, h2⟩
      exact ⟨b, f, c, (readFile_ok _ _ _).mp h1, h3, h4⟩
  · rintro ⟨b, f, c, h1, h2, h3⟩
    obtain ⟨w, h4⟩ := (C90_public_crash W.D.P W.D.Y b).mpr ⟨f, c, h2, h3⟩
    exact ⟨w, (bind_panic_iff _ _ _).mpr (.inr ⟨b, (readFile_ok _ _ _).mpr h1, h4⟩)⟩

/-! ### verify -/

/-- **C93** (`verify`).  With options that parse, `verify` crashes exactly if the first argument is base64 text of something that begins
like an SSH key of another type and the second names a signature file; or the first argument is not the text of a key, and names a
public key file of three fields with a key of another type. -/
theorem C93_verify (W : World) (ho : W.order.Perm commands) (argv rest args : List Bytes) (hr : Runs W argv "verify" rest)
    (hf : W.flags.verify rest = .ok () args) :
    (W.main argv).exit = 2 ↔ ∃ pn sn fn more, args = pn :: sn :: fn :: more ∧
      ((ForeignField pn ∧ ∃ sig hash, SignatureFile W sn sig hash) ∨
       (¬ ForeignField pn ∧ (¬ ∃ key, PublicArg pn key) ∧ PublicCrash W pn)) := by
  rw [(C66_dispatch W ho argv rest "verify" hr).2.2.1 rfl]
  unfold World.verify
  rw [hf]
  dsimp only
  rw [(C48_crash_iff W.D W.fs W.mapErr args).2]
  refine exists_congr fun pn => exists_congr fun sn => exists_congr fun fn => exists_congr fun more => and_congr_right fun _ => ?_
  obtain ⟨hs, hn, hp⟩ := C90_public_string W.D.P pn
  rw [hn]
  refine or_congr ?_ ?_
  · refine and_congr_right fun _ => ?_
    constructor
    · rintro ⟨s, b, h8, h9⟩
      obtain ⟨d, k1, k2, k3⟩ := (C90_signature _ _ _).mp h9
      exact ⟨_, _, b, d, h8, k1, k2, k3⟩
    · rintro ⟨sig, hash, b, d, h8, k1, k2, k3⟩
      exact ⟨⟨sig, hash⟩, b, h8, (C90_signature _ _ _).mpr ⟨d, k1, k2, k3⟩⟩
  · rw [keyArg_err, and_comm (a := ¬ ∃ k, PublicArg pn k), and_assoc]
    refine and_congr_right fun _ => and_congr_right fun _ => ?_
    unfold PublicCrash
    constructor
    · rintro ⟨b, w, h1, h2⟩
      obtain ⟨f, c, h3, h4⟩ := (C90_public_crash W.D.P W.D.Y b).mp ⟨w, h2⟩
      exact ⟨b, f, c, h1, h3, h4⟩
    · rintro ⟨b, f, c, h1, h2, h3⟩
      obtain ⟨w, h4⟩ := (C90_public_crash W.D.P W.D.Y b).mpr ⟨f, c, h2, h3⟩
      exact ⟨b, w, h1, h4⟩

/-! ### sign -/

/-- **C93** (`sign`).  With options that parse, `sign` crashes exactly if there are two arguments, the output is `-` or can be created,
and the first argument names a private key file on which it crashes. -/
theorem C93_sign (W : World) (ho : W.order.Perm commands) (argv rest args : List Bytes) (hr : Runs W argv "sign" rest)
    (o : SignOpts) (hf : W.flags.sign rest = .ok o args) :
    (W.main argv).exit = 2 ↔ ∃ kn fn more, args = kn :: fn :: more ∧
      (sigTarget o.output fn = "-".toUTF8.toList ∨ Creatable W.fs W.env1 (sigTarget o.output fn) o.force) ∧
      PrivateCrash W o.nopw o.envpw kn := by
  have hd : "-".toUTF8.toList = ascii "-" := by decide +kernel
  have hsg : ".sig".toUTF8.toList = ascii ".sig" := by decide +kernel
  rw [(C66_dispatch W ho argv rest "sign" hr).2.1 rfl, hd]
  unfold World.sign
  rw [hf]
  dsimp only
  match args with
  | [] => simp
  | [_] => simp
  | kn :: fn :: more =>
    dsimp only
    unfold signCmd
    dsimp only
    have htgt : (if o.output = [] then fn ++ ascii ".sig" else o.output) = sigTarget o.output fn := by unfold sigTarget; rw [hsg]
    rw [htgt]
    have inj : ∀ Q : Path → Path → Prop, (∃ kn' fn' more', kn :: fn :: more = kn' :: fn' :: more' ∧ Q kn' fn') ↔ Q kn fn := by
      intro Q
      constructor
      · rintro ⟨a, b, c, h, hq⟩; cases h; exact hq
      · intro h; exact ⟨kn, fn, more, rfl, h⟩
    rw [inj (fun kn fn => (sigTarget o.output fn = ascii "-" ∨ Creatable W.fs W.env1 (sigTarget o.output fn) o.force) ∧
      PrivateCrash W o.nopw o.envpw kn), ← private_panic_iff]
    have text : ∀ r, ((readPrivateKey W.D W.fs kn (W.getpw o.nopw o.envpw)).bind fun sk =>
        (readFile W.fs fn).bind fun content =>
        match W.mapErr with
        | some e => .err e
        | none => (signFile W.D.P sk content).bind fun sig => .ok (sig.marshal W.D.Y (ascii "input=" ++ fn))) = r →
        ((∃ w, r = .panic w) ↔ ∃ w, readPrivateKey W.D W.fs kn (W.getpw o.nopw o.envpw) = .panic w) := by
      rintro r rfl
      match hk : readPrivateKey W.D W.fs kn (W.getpw o.nopw o.envpw) with
      | .panic w => simp [Res.bind]
      | .err e => simp [Res.bind]
      | .ok sk =>
        obtain ⟨secret, h4, rfl⟩ := (privateFile_iff W o.nopw o.envpw kn sk).mp ((readPrivateKey_ok _ _ _ _ _).mp hk)
        have hl : secret.length = 64 := by obtain ⟨b, _, h5⟩ := h4; exact privateText_length h5
        simp only [Res.bind_ok]
        refine ⟨?_, fun ⟨w, h⟩ => (by cases h)⟩
        rintro ⟨w, h⟩
        exfalso
        rcases (bind_panic_iff _ _ _).mp h with h | ⟨c, h1, h2⟩
        · exact readFile_no_panic _ _ _ h
        · split at h2
          · cases h2
          · rcases (bind_panic_iff _ _ _).mp h2 with h | ⟨s, _, h3⟩
            · revert h
              unfold signFile signMessage
              simp [privateOf, hl]
            · cases h3
    generalize hg : ((readPrivateKey W.D W.fs kn (W.getpw o.nopw o.envpw)).bind fun sk =>
        (readFile W.fs fn).bind fun content =>
        match W.mapErr with
        | some e => .err e
        | none => (signFile W.D.P sk content).bind fun sig => .ok (sig.marshal W.D.Y (ascii "input=" ++ fn))) = r
    have ht := text r hg
    rw [← ht]
    by_cases hdash : sigTarget o.output fn = ascii "-"
    · rw [if_pos hdash]
      cases r <;> simp [hdash]
    · rw [if_neg hdash]
      have hcan := newSafeFile_ok_iff (perm := 0o644) W.fs W.env1 (sigTarget o.output fn) o.force
      match hnn : newSafeFile W.fs W.env1 0o644 (sigTarget o.output fn) o.force with
      | .panic w => exact absurd hnn (newSafeFile_no_panic _ _ _ _ _)
      | .err e =>
        dsimp only
        have : ¬ Creatable W.fs W.env1 (sigTarget o.output fn) o.force := by
          intro h
          obtain ⟨c, hc⟩ := hcan.mpr h
          rw [hnn] at hc; cases hc
        simp [this, hdash]
      | .ok cs =>
        have : Creatable W.fs W.env1 (sigTarget o.output fn) o.force := hcan.mp ⟨cs, hnn⟩
        cases r <;> simp [this]

/-! ### generate -/

theorem writeFile_no_panic (fs : FS) (env : SafeEnv) (perm : Nat) (target : Path) (content : Bytes) (ov : Bool) (w : String) (cs : List Sys) :
    writeFile fs env perm target content ov ≠ (.panic w, cs) := by
  unfold writeFile
  match h : newSafeFile fs env perm target ov with
  | .panic w => exact absurd h (newSafeFile_no_panic _ _ _ _ _)
  | .err e => simp
  | .ok c =>
    dsimp only
    intro h
    repeat' (first | split at h | cases h)

/-- **C93** (`generate`).  With options that parse, `generate` does not crash. -/
theorem C93_generate (W : World) (L : Laws W.D.P) (ho : W.order.Perm commands) (argv rest args : List Bytes)
    (hr : Runs W argv "generate" rest) (o : GenOpts) (hf : W.flags.gen rest = .ok o args) : (W.main argv).exit < 2 := by
  rw [(C66_dispatch W ho argv rest "generate" hr).1 rfl]
  unfold World.gen
  rw [hf]
  dsimp only
  match args with
  | [] => simp
  | bn :: more =>
    dsimp only
    unfold genCmd
    split
    · simp
    · split
      · simp
      · rename_i pw _
        dsimp only
        obtain ⟨k, hk⟩ := L.scrypt_ok (W.D.P.sha512 pw) W.salt
        unfold PrivateKey.marshal
        rw [hk]
        dsimp only
        split
        · simp
        · rename_i h; exact absurd h (writeFile_no_panic _ _ _ _ _ _ _ _)
        · split
          · simp
          · rename_i h; exact absurd h (writeFile_no_panic _ _ _ _ _ _ _ _)
          · simp

/-! ### decrypt -/

theorem decryptBody_no_panic (P : Prims) (L : Laws P) (rd : Reader) (sk : PrivateKey) (hl : 32 ≤ sk.sk.length) (spk : Option PublicKey)
    (hs : ∀ pk, spk = some pk → pk.pk.length = 32) (w : Writer) : exitOf (decryptBody P rd sk spk w).1 ≠ 2 := by
  unfold decryptBody
  match h : setupDecryptor P rd sk spk with
  | .err x => simp [exitOf]
  | .panic x =>
    exfalso
    unfold setupDecryptor at h
    rcases (bind_panic_iff _ _ _).mp h with h | ⟨d, h1, h2⟩
    · exact newDecryptor_noPanic P rd _ h
    · match hk : d.setPrivateKey P sk spk with
      | (.ok (), d') => rw [hk] at h2; cases h2
      | (.err x, d') => rw [hk] at h2; cases h2
      | (.panic x, d') =>
        unfold Decryptor.setPrivateKey at hk
        match hfk : d.findKey P sk d.hdr.keys with
        | .panic y => exact findKey_no_panic P d sk hl y _ hfk
        | .err y => rw [hfk] at hk; cases hk
        | .ok none => rw [hfk] at hk; cases hk
        | .ok (some key) =>
          rw [hfk] at hk
          dsimp only at hk
          split at hk
          · cases hk
          · rename_i h; exact verifySender_no_panic P _ _ _ hs _ h
          · cases hk
  | .ok d =>
    dsimp only
    rcases C26_decrypt_total P L rd sk spk d h w with ⟨d', w', g⟩ | ⟨x, d', w', g⟩
    · rw [g]; simp [exitOf]
    · rw [g]; simp [exitOf]

theorem withOutput_no_panic (fs : FS) (env : SafeEnv) (perm : Nat) (stdout : Writer) (outfile : Path) (force : Bool)
    (body : Writer → Res Nat × Writer) (h : ∀ w, exitOf (body w).1 ≠ 2) : (withOutput fs env perm stdout outfile force body).exit ≠ 2 := by
  unfold withOutput
  split
  · exact h stdout
  · match hn : newSafeFile fs env perm outfile force with
    | .panic w => exact absurd hn (newSafeFile_no_panic _ _ _ _ _)
    | .err e => simp
    | .ok c => exact h _

/-- **C93** (`decrypt`).  With options that parse, `decrypt` crashes exactly if its first argument names a private key file on which it
crashes; or that file opens, and `-v` names a public key file on which it crashes.  In particular it does not crash on any
input. -/
theorem C93_decrypt (W : World) (L : Laws W.D.P) (ho : W.order.Perm commands) (argv rest args : List Bytes)
    (hr : Runs W argv "decrypt" rest) (o : DecOpts) (hf : W.flags.dec rest = .ok o args) :
    (W.main argv).exit = 2 ↔ ∃ key more, args = key :: more ∧ (PrivateCrash W o.nopw o.envpw key ∨
      ((∃ secret, PrivateFile W o.nopw o.envpw key secret) ∧ o.sender ≠ [] ∧ PublicCrash W o.sender)) := by
  rw [(C66_dispatch W ho argv rest "decrypt" hr).2.2.2.2.1 rfl]
  have opens : ∀ key sk, readPrivateKey W.D W.fs key (W.getpw o.nopw o.envpw) = .ok sk →
      (∃ secret, PrivateFile W o.nopw o.envpw key secret) ∧ 32 ≤ sk.sk.length ∧ ¬ PrivateCrash W o.nopw o.envpw key := by
    intro key sk hk
    obtain ⟨secret, h4, h5⟩ := (privateFile_iff W o.nopw o.envpw key sk).mp ((readPrivateKey_ok _ _ _ _ _).mp hk)
    refine ⟨⟨secret, h4⟩, ?_, ?_⟩
    · have hl : secret.length = 64 := by obtain ⟨b, _, h5⟩ := h4; exact privateText_length h5
      rw [h5]; unfold privateOf; dsimp only; omega
    · intro h
      obtain ⟨w, hw⟩ := (private_panic_iff W o.nopw o.envpw key).mpr h
      rw [hk] at hw; cases hw
  have closed : ∀ key x, readPrivateKey W.D W.fs key (W.getpw o.nopw o.envpw) = .err x →
      (¬ ∃ secret, PrivateFile W o.nopw o.envpw key secret) ∧ ¬ PrivateCrash W o.nopw o.envpw key := by
    intro key x hk
    constructor
    · rintro ⟨secret, h⟩
      have := (readPrivateKey_ok _ _ _ _ _).mpr ((privateFile_iff W o.nopw o.envpw key _).mpr ⟨secret, h, rfl⟩)
      rw [hk] at this; cases this
    · intro h
      obtain ⟨w, hw⟩ := (private_panic_iff W o.nopw o.envpw key).mpr h
      rw [hk] at hw; cases hw
  have sized : ∀ pk, readPublicKey W.D W.fs o.sender = .ok pk → pk.pk.length = 32 ∧ ¬ PublicCrash W o.sender := by
    intro pk hp
    constructor
    · obtain ⟨b, _, h⟩ := (readPublicKey_ok _ _ _ _).mp hp
      rcases (public_ok h).1 with ⟨_, _, _, h⟩ | ⟨_, _, _, _, h⟩
      · exact h.1
      · exact h
    · intro h
      obtain ⟨w, hw⟩ := (public_panic_iff W o.sender).mpr h
      rw [hp] at hw; cases hw
  have cmd : ∀ (key : Path) (infile : Path) (rd : Reader),
      ((decryptCmd W.D W.fs W.env1 W.stdout o.outfile o.force o.test key (W.getpw o.nopw o.envpw) o.sender infile rd).exit = 2 ↔
        PrivateCrash W o.nopw o.envpw key ∨
          ((∃ secret, PrivateFile W o.nopw o.envpw key secret) ∧ o.sender ≠ [] ∧ PublicCrash W o.sender)) := by
    intro key infile rd
    unfold decryptCmd
    match hk : readPrivateKey W.D W.fs key (W.getpw o.nopw o.envpw) with
    | .panic w => simp [(private_panic_iff W o.nopw o.envpw key).mp ⟨w, hk⟩]
    | .err x => simp [closed key x hk]
    | .ok sk =>
      obtain ⟨h1, h2, h3⟩ := opens key sk hk
      dsimp only
      have fin : ∀ spk, (∀ pk, spk = some pk → pk.pk.length = 32) →
          (if infile ≠ [] ∧ infile ≠ ascii "-" ∧ W.fs.exists infile = false then { exit := 1 }
            else if o.test then { exit := exitOf (decryptBody W.D.P rd sk spk {}).1 }
            else withOutput W.fs W.env1 0o600 W.stdout o.outfile o.force (decryptBody W.D.P rd sk spk) : Outcome).exit ≠ 2 := by
        intro spk hs
        split
        · decide
        · split
          · exact decryptBody_no_panic W.D.P L rd sk h2 spk hs {}
          · exact withOutput_no_panic _ _ _ _ _ _ _ (fun w => decryptBody_no_panic W.D.P L rd sk h2 spk hs w)
      by_cases hse : o.sender = []
      · rw [if_pos hse]
        exact ⟨fun h => absurd h (fin none (by simp)), fun h => (by simp [h3, hse] at h)⟩
      · rw [if_neg hse]
        match hp : readPublicKey W.D W.fs o.sender with
        | .panic w =>
          simp only [Res.bind, h1, hse, ne_eq, not_false_eq_true, true_and]
          simp [(public_panic_iff W o.sender).mp ⟨w, hp⟩]
        | .err x =>
          have : ¬ PublicCrash W o.sender := by
            intro h
            obtain ⟨w, hw⟩ := (public_panic_iff W o.sender).mpr h
            rw [hp] at hw; cases hw
          simp [Res.bind, this, h3]
        | .ok pk =>
          obtain ⟨h4, h5⟩ := sized pk hp
          simp only [Res.bind_ok]
          exact ⟨fun h => absurd h (fin (some pk) (by intro q hq; cases hq; exact h4)), fun h => (by simp [h3, h5] at h)⟩
  have inj : ∀ key more (Q : Path → Prop), (∃ key' more', key :: more = key' :: more' ∧ Q key') ↔ Q key := by
    intro key more Q
    constructor
    · rintro ⟨a, c, h, hq⟩; cases h; exact hq
    · intro h; exact ⟨key, more, rfl, h⟩
  unfold World.decrypt
  rw [hf]
  dsimp only
  match args with
  | [] => simp
  | [key] =>
    dsimp only
    rw [cmd, inj key [] (fun key => PrivateCrash W o.nopw o.envpw key ∨
      ((∃ secret, PrivateFile W o.nopw o.envpw key secret) ∧ o.sender ≠ [] ∧ PublicCrash W o.sender))]
  | key :: infile :: more =>
    dsimp only
    rw [inj key (infile :: more) (fun key => PrivateCrash W o.nopw o.envpw key ∨
      ((∃ secret, PrivateFile W o.nopw o.envpw key secret) ∧ o.sender ≠ [] ∧ PublicCrash W o.sender))]
    by_cases hi : infile = []
    · rw [if_pos hi]
      match hk : readPrivateKey W.D W.fs key (W.getpw o.nopw o.envpw) with
      | .panic w => simp [(private_panic_iff W o.nopw o.envpw key).mp ⟨w, hk⟩]
      | .err x => simp [closed key x hk]
      | .ok sk =>
        obtain ⟨h1, h2, h3⟩ := opens key sk hk
        dsimp only
        by_cases hse : o.sender = []
        · rw [if_pos hse]; simp [h3, hse]
        · rw [if_neg hse]
          match hp : readPublicKey W.D W.fs o.sender with
          | .panic w =>
            simp only [h1, hse, ne_eq, not_false_eq_true, true_and]
            simp [(public_panic_iff W o.sender).mp ⟨w, hp⟩]
          | .err x =>
            have : ¬ PublicCrash W o.sender := by
              intro h
              obtain ⟨w, hw⟩ := (public_panic_iff W o.sender).mpr h
              rw [hp] at hw; cases hw
            simp [this, h3]
          | .ok pk => simp [(sized pk hp).2, h3]
    · rw [if_neg hi]
      exact cmd _ _ _

/-! ### encrypt -/

theorem addAll_panic_iff (W : World) (users csk : Bytes) : ∀ (rcpts : List (Bytes × Bytes)) (e : Encryptor) (n : Nat),
    e.started = false → e.encSK = clamp csk →
    ((∃ w, addAll W.D W.fs (parseAuthorizedKeys W.D.P users) e n rcpts = .panic w) ↔
      ∃ before arg after, rcpts.map (·.1) = before ++ arg :: after ∧ ¬ NamesUser arg ∧ PublicCrash W arg ∧
        ∀ a ∈ before, ∀ key, RecipientKey W users a key → (W.D.P.x25519 (clamp csk) (toMontgomery key)).isSome = true) := by
  intro rcpts
  induction rcpts with
  | nil =>
    intro e n _ _
    constructor
    · rintro ⟨w, h⟩; cases h
    · rintro ⟨before, arg, after, h, _⟩; simp at h
  | cons r rs ih =>
    obtain ⟨fn, rb⟩ := r
    intro e n h1 h2
    have crash : (∃ w, resolveRecipient W.D W.fs (parseAuthorizedKeys W.D.P users) fn = .panic w) ↔ ¬ NamesUser fn ∧ PublicCrash W fn := by
      unfold resolveRecipient
      by_cases hu : namesUser fn = true
      · rw [if_pos hu]
        have := (indexOf_at fn).mp hu
        simp [this]
      · rw [if_neg hu]
        have hu' : ¬ NamesUser fn := fun h => hu ((indexOf_at fn).mpr h)
        rw [← public_panic_iff]
        cases readPublicKey W.D W.fs fn <;> simp [hu']
    -- the first argument does not crash and does not end the loop
    have step : ∀ (e' : Encryptor) (n' : Nat), e'.started = false → e'.encSK = clamp csk →
        ¬ (¬ NamesUser fn ∧ PublicCrash W fn) →
        (∀ key, RecipientKey W users fn key → (W.D.P.x25519 (clamp csk) (toMontgomery key)).isSome = true) →
        ((∃ w, addAll W.D W.fs (parseAuthorizedKeys W.D.P users) e' n' rs = .panic w) ↔
          ∃ before arg after, fn :: rs.map (·.1) = before ++ arg :: after ∧ ¬ NamesUser arg ∧ PublicCrash W arg ∧
            ∀ a ∈ before, ∀ key, RecipientKey W users a key → (W.D.P.x25519 (clamp csk) (toMontgomery key)).isSome = true) := by
      intro e' n' g1 g2 g3 g4
      rw [ih e' n' g1 g2]
      constructor
      · rintro ⟨before, arg, after, k1, k2, k3, k4⟩
        refine ⟨fn :: before, arg, after, by rw [k1]; rfl, k2, k3, ?_⟩
        intro a ha
        rcases List.mem_cons.mp ha with rfl | ha
        · exact g4
        · exact k4 a ha
      · rintro ⟨before, arg, after, k1, k2, k3, k4⟩
        match before with
        | [] =>
          cases k1
          exact absurd ⟨k2, k3⟩ g3
        | b :: before =>
          rw [List.cons_append, List.cons.injEq] at k1
          exact ⟨before, arg, after, k1.2, k2, k3, fun a ha => k4 a (List.mem_cons_of_mem _ ha)⟩
    simp only [List.map_cons]
    unfold addAll
    match hres : resolveRecipient W.D W.fs (parseAuthorizedKeys W.D.P users) fn with
    | .err x => exact absurd hres (resolveRecipient_no_err _ _ _ _ _)
    | .panic w =>
      obtain ⟨k1, k2⟩ := crash.mp ⟨w, hres⟩
      exact ⟨fun _ => ⟨[], fn, _, rfl, k1, k2, by simp⟩, fun _ => ⟨w, rfl⟩⟩
    | .ok none =>
      dsimp only
      refine step e (n + 1) h1 h2 ?_ ?_
      · intro h
        obtain ⟨w, hw⟩ := crash.mpr h
        rw [hres] at hw; cases hw
      · intro key hk
        obtain ⟨pk, h3, _⟩ := recipient_denotes W users fn key hk
        rw [(resolveRecipient_some _ _ _ _ _).mpr h3] at hres; cases hres
    | .ok (some pk) =>
      dsimp only
      have hden := (resolveRecipient_some _ _ _ _ _).mp hres
      have hlen := (denotes_recipient W users fn pk hden).2
      have hnc : ¬ (¬ NamesUser fn ∧ PublicCrash W fn) := by
        intro h
        obtain ⟨w, hw⟩ := crash.mpr h
        rw [hres] at hw; cases hw
      have huniq : ∀ key, RecipientKey W users fn key → key = pk.pk := by
        intro key hk
        obtain ⟨pk', h3, rfl⟩ := recipient_denotes W users fn key hk
        rw [(resolveRecipient_some _ _ _ _ _).mpr h3] at hres; cases hres; rfl
      have hgt : ¬ pk.pk.length > 32 := by omega
      unfold Encryptor.addRecipient
      simp only [Encryptor.wrapKey, h1, h2, hgt, toCurve25519PK_eq pk.pk (by omega), Bool.false_eq_true, if_false]
      cases hx : W.D.P.x25519 (clamp csk) (toMontgomery pk.pk) with
      | none =>
        constructor
        · rintro ⟨w, h⟩; cases h
        · rintro ⟨before, arg, after, k1, k2, k3, k4⟩
          exfalso
          match before with
          | [] => cases k1; exact hnc ⟨k2, k3⟩
          | b :: before =>
            rw [List.cons_append, List.cons.injEq] at k1
            have := k4 fn (by rw [k1.1]; simp) pk.pk (denotes_recipient W users fn pk hden).1
            rw [hx] at this; cases this
      | some s =>
        dsimp only
        exact step _ n rfl rfl hnc (fun key hk => by rw [huniq key hk, hx]; rfl)

theorem encryptBody_crash_iff (W : World) (L : Laws W.D.P) (users : Bytes) (sk : Option PrivateKey) (hs : SenderSized sk) (blk : Nat)
    (c : EncCoins) (hc : c.WF) (rcpts : List (Bytes × Bytes)) (rd : Reader) (coin : Bytes) (w : Writer) :
    exitOf (encryptBody W.D W.fs (parseAuthorizedKeys W.D.P users) sk blk c rcpts rd coin w).1 = 2 ↔
      ∃ before arg after, rcpts.map (·.1) = before ++ arg :: after ∧ ¬ NamesUser arg ∧ PublicCrash W arg ∧
        ∀ a ∈ before, ∀ key, RecipientKey W users a key → (W.D.P.x25519 (clamp c.csk) (toMontgomery key)).isSome = true := by
  obtain ⟨epk, n1, n2, n3⟩ := newEncryptor_eq W.D.P L sk blk c hc hs
  unfold encryptBody
  rw [← addAll_panic_iff W users c.csk rcpts
    { hdr := { chunkSize := chooseBlock blk, salt := c.salt, pk := epk
               sender := W.D.P.aeadSeal (senderKey W.D.P c.key c.salt).1 (senderKey W.D.P c.key c.salt).2
                 (senderSig W.D.P sk epk c) [] }
      key := c.key, encSK := clamp c.csk, sender := sk, auth := sk.isSome } 0 rfl rfl]
  have hbind : ((newEncryptor W.D.P sk blk c).bind fun e => addAll W.D W.fs (parseAuthorizedKeys W.D.P users) e 0 rcpts) =
      addAll W.D W.fs (parseAuthorizedKeys W.D.P users)
        { hdr := { chunkSize := chooseBlock blk, salt := c.salt, pk := epk
                   sender := W.D.P.aeadSeal (senderKey W.D.P c.key c.salt).1 (senderKey W.D.P c.key c.salt).2
                     (senderSig W.D.P sk epk c) [] }
          key := c.key, encSK := clamp c.csk, sender := sk, auth := sk.isSome } 0 rcpts := by
    rw [n3, Res.bind_ok]
  rw [← hbind]
  match hsu : ((newEncryptor W.D.P sk blk c).bind fun e => addAll W.D W.fs (parseAuthorizedKeys W.D.P users) e 0 rcpts) with
  | .err x => simp [exitOf]
  | .panic x => simp [exitOf]
  | .ok (e, n) =>
    dsimp only
    refine ⟨fun h => ?_, fun ⟨w, h⟩ => (by cases h)⟩
    exfalso
    split at h
    · cases h
    · have hn0 : n = 0 := by omega
      subst hn0
      obtain ⟨pks, h1, h2⟩ := setup_addAll W.D W.fs _ sk blk c rcpts e hsu
      obtain ⟨epk', ws, hset⟩ := setupEncryptor_ok W.D.P L sk blk c _ e hc h2
      obtain ⟨r, e', rd', wr', k1, k2, _⟩ := encrypt_outcome W.D.P L e rd w coin (hset.fresh L)
      rw [k1] at h
      cases k2 with
      | complete _ hr =>
        subst hr
        cases hcl : w.closeErr with
        | none => rw [hcl] at h; cases h
        | some x => rw [hcl] at h; cases h
      | writeFailed _ x hr => subst hr; cases h
      | readFailed _ x hr => subst hr; cases h

/-- **C93** (`encrypt`).  With options that parse, `encrypt` crashes exactly if the block size parses, and the key file of `-s` is one on
which it crashes; or that file opens, the input exists, there is a home directory with an `authorized_keys` file that can be read
(if there is one), the output can be had, and a recipient argument names a public key file on which it crashes, and no recipient
before that has a key on which X25519 fails. -/
theorem C93_encrypt (W : World) (L : Laws W.D.P) (argv rest args : List Bytes) (hn : Normal W argv)
    (hr : Runs W argv "encrypt" rest) (o : EncOpts) (hf : W.flags.enc rest = .ok o args) :
    (W.main argv).exit = 2 ↔ (W.parseSize o.blocksize).isSome = true ∧
      ((o.sign ≠ [] ∧ PrivateCrash W o.nopw o.envpw o.sign) ∨
       ((o.sign ≠ [] → ∃ secret, PrivateFile W o.nopw o.envpw o.sign secret) ∧
        ∃ before arg after infile home, args = before ++ arg :: after ++ [infile] ∧
          (infile = "-".toUTF8.toList ∨ W.fs.exists infile = true) ∧
          W.home = some home ∧ (W.fs.exists (home ++ "/.ssh/authorized_keys".toUTF8.toList) = true →
            (W.fs.read (home ++ "/.ssh/authorized_keys".toUTF8.toList)).isSome = true) ∧
          (ToStdout o.outfile ∨ Creatable W.fs W.env1 o.outfile o.force) ∧
          ¬ (64 ∈ arg ∧ arg.head? ≠ some 64) ∧ PublicCrash W arg ∧
          ∀ a ∈ before, ∀ key, RecipientKey W ((W.fs.read (home ++ "/.ssh/authorized_keys".toUTF8.toList)).getD []) a key →
            (W.D.P.x25519 (clamp W.coins.csk) (toMontgomery key)).isSome = true)) := by
  have hd : "-".toUTF8.toList = ascii "-" := by decide +kernel
  have ha : "/.ssh/authorized_keys".toUTF8.toList = ascii "/.ssh/authorized_keys" := by decide +kernel
  have hst : ToStdout o.outfile ↔ o.outfile = [] ∨ o.outfile = ascii "-" := by unfold ToStdout; rw [hd]
  have hc : W.coins.WF := ⟨hn.coins.1, hn.coins.2.1, hn.coins.2.2⟩
  rw [(C66_dispatch W hn.order argv rest "encrypt" hr).2.2.2.1 rfl, hd, ha]
  unfold World.encrypt
  rw [hf]
  dsimp only
  unfold encryptCmd
  match hb : W.parseSize o.blocksize with
  | none => simp
  | some blk =>
    dsimp only
    simp only [Option.isSome_some, true_and]
    have hid : ∀ r : Res (Option PrivateKey), (if o.sign = [] then (.ok none : Res (Option PrivateKey)) else
        (readPrivateKey W.D W.fs o.sign (W.getpw o.nopw o.envpw)).bind fun sk => .ok (some sk)) = r →
        ((∃ w, r = .panic w) ↔ (o.sign ≠ [] ∧ PrivateCrash W o.nopw o.envpw o.sign)) ∧
        ((∃ sk, r = .ok sk) ↔ (o.sign ≠ [] → ∃ secret, PrivateFile W o.nopw o.envpw o.sign secret)) ∧
        (∀ sk, r = .ok sk → SenderSized sk) := by
      rintro r rfl
      by_cases hk : o.sign = []
      · rw [if_pos hk]
        refine ⟨by simp [hk], by simp [hk], ?_⟩
        intro sk h; cases h; intro s h; cases h
      · rw [if_neg hk, ← private_panic_iff]
        match hrd : readPrivateKey W.D W.fs o.sign (W.getpw o.nopw o.envpw) with
        | .panic w =>
          refine ⟨by simp [Res.bind, hk], ⟨fun ⟨sk, h⟩ => (by cases h), fun h => ?_⟩, by intro sk h; cases h⟩
          obtain ⟨secret, h⟩ := h hk
          have := (readPrivateKey_ok _ _ _ _ _).mpr ((privateFile_iff W o.nopw o.envpw o.sign _).mpr ⟨secret, h, rfl⟩)
          rw [hrd] at this; cases this
        | .err w =>
          refine ⟨by simp [Res.bind], ⟨fun ⟨sk, h⟩ => (by cases h), fun h => ?_⟩, by intro sk h; cases h⟩
          obtain ⟨secret, h⟩ := h hk
          have := (readPrivateKey_ok _ _ _ _ _).mpr ((privateFile_iff W o.nopw o.envpw o.sign _).mpr ⟨secret, h, rfl⟩)
          rw [hrd] at this; cases this
        | .ok sk =>
          obtain ⟨secret, h4, h5⟩ := (privateFile_iff W o.nopw o.envpw o.sign sk).mp ((readPrivateKey_ok _ _ _ _ _).mp hrd)
          refine ⟨by simp [Res.bind], ⟨fun _ _ => ⟨secret, h4⟩, fun _ => ⟨_, rfl⟩⟩, ?_⟩
          intro sk' h
          cases h
          intro s hs
          cases hs
          have hl : secret.length = 64 := by obtain ⟨b, _, h5⟩ := h4; exact privateText_length h5
          rw [h5]; exact hl
    obtain ⟨hid1, hid2, hid3⟩ := hid _ rfl
    generalize (if o.sign = [] then (.ok none : Res (Option PrivateKey)) else
        (readPrivateKey W.D W.fs o.sign (W.getpw o.nopw o.envpw)).bind fun sk => .ok (some sk)) = key at hid1 hid2 hid3
    rw [← hid1, ← hid2]
    match key, hid1, hid2, hid3 with
    | .err x, _, _, _ => simp
    | .panic x, _, _, _ => simp
    | .ok sk, _, _, hid3 =>
      have hs := hid3 sk rfl
      dsimp only
      simp only [reduceCtorEq, exists_false, false_or, Res.ok.injEq, exists_eq', true_and]
      by_cases hz : args.dropLast.zipIdx.map (fun a => (a.1, W.rbuf a.2)) = []
      · rw [if_pos hz]
        refine ⟨fun h => (by cases h), ?_⟩
        rintro ⟨before, arg, after, infile, _, h, _⟩
        rw [h] at hz
        have := congrArg List.length hz
        simp at this
      · rw [if_neg hz]
        have hne : args.dropLast ≠ [] := by
          intro h; rw [h] at hz; exact hz rfl
        have hargs : args = args.dropLast ++ [args.getLastD []] := by
          match args with
          | [] => simp at hne
          | a :: as =>
            rw [List.getLastD_cons, ← List.getLast_eq_getLastD]
            exact (List.dropLast_append_getLast (List.cons_ne_nil a as)).symm
        have hcut : ∀ l infile, args = l ++ [infile] → args.dropLast = l ∧ args.getLastD [] = infile := by
          rintro l infile rfl; simp
        have hfst : (args.dropLast.zipIdx.map (fun a => (a.1, W.rbuf a.2))).map (·.1) = args.dropLast := by
          rw [List.map_map]
          exact List.zipIdx_map_fst 0 args.dropLast
        by_cases hin : args.getLastD [] ≠ ascii "-" ∧ W.fs.exists (args.getLastD []) = false
        · rw [if_pos hin]
          refine ⟨fun h => (by cases h), ?_⟩
          rintro ⟨before, arg, after, infile, _, h0, h, _⟩
          exfalso
          rw [(hcut _ _ h0).2] at hin
          rcases h with h | h
          · exact hin.1 h
          · rw [h] at hin; cases hin.2
        · rw [if_neg hin]
          match hh : W.home with
          | none => simp
          | some home =>
            dsimp only [Option.map]
            by_cases hau : W.fs.exists (home ++ ascii "/.ssh/authorized_keys") = true ∧ W.fs.read (home ++ ascii "/.ssh/authorized_keys") = none
            · rw [if_pos hau]
              refine ⟨fun h => (by cases h), ?_⟩
              rintro ⟨_, _, _, _, home', _, _, h, h1, _⟩
              exfalso
              cases h
              have := h1 hau.1
              rw [hau.2] at this; cases this
            · rw [if_neg hau]
              have hau' : W.fs.exists (home ++ ascii "/.ssh/authorized_keys") = true →
                  (W.fs.read (home ++ ascii "/.ssh/authorized_keys")).isSome = true := by
                intro hx
                cases hy : W.fs.read (home ++ ascii "/.ssh/authorized_keys")
                · exact absurd ⟨hx, hy⟩ hau
                · rfl
              have hin' : args.getLastD [] = ascii "-" ∨ W.fs.exists (args.getLastD []) = true := by
                by_cases h : args.getLastD [] = ascii "-"
                · exact .inl h
                · right
                  cases hx : W.fs.exists (args.getLastD [])
                  · exact absurd ⟨h, hx⟩ hin
                  · rfl
              have hbody := fun wr => encryptBody_crash_iff W L ((W.fs.read (home ++ ascii "/.ssh/authorized_keys")).getD []) sk hs blk W.coins hc
                (args.dropLast.zipIdx.map (fun a => (a.1, W.rbuf a.2))) (W.input (args.getLastD [])) W.coin wr
              rw [hfst] at hbody
              have hout : (withOutput W.fs W.env1 0o600 W.stdout o.outfile o.force
                  (encryptBody W.D W.fs (parseAuthorizedKeys W.D.P ((W.fs.read (home ++ ascii "/.ssh/authorized_keys")).getD [])) sk blk W.coins
                    (args.dropLast.zipIdx.map (fun a => (a.1, W.rbuf a.2))) (W.input (args.getLastD [])) W.coin)).exit = 2 ↔
                  (ToStdout o.outfile ∨ Creatable W.fs W.env1 o.outfile o.force) ∧
                  ∃ before arg after, args.dropLast = before ++ arg :: after ∧ ¬ NamesUser arg ∧ PublicCrash W arg ∧
                    ∀ a ∈ before, ∀ key, RecipientKey W ((W.fs.read (home ++ ascii "/.ssh/authorized_keys")).getD []) a key →
                      (W.D.P.x25519 (clamp W.coins.csk) (toMontgomery key)).isSome = true := by
                unfold withOutput
                by_cases hso : ToStdout o.outfile
                · rw [if_pos (hst.mp hso)]
                  dsimp only
                  rw [hbody]
                  simp [hso]
                · rw [if_neg (fun h => hso (hst.mpr h))]
                  have hcan := newSafeFile_ok_iff (perm := 0o600) W.fs W.env1 o.outfile o.force
                  match hnn : newSafeFile W.fs W.env1 0o600 o.outfile o.force with
                  | .panic w => exact absurd hnn (newSafeFile_no_panic _ _ _ _ _)
                  | .err e =>
                    dsimp only
                    refine ⟨fun h => (by cases h), ?_⟩
                    rintro ⟨h | h, _⟩
                    · exact absurd h hso
                    · obtain ⟨c, hc⟩ := hcan.mpr h
                      rw [hnn] at hc; cases hc
                  | .ok cs =>
                    dsimp only
                    rw [hbody]
                    have h1 : Creatable W.fs W.env1 o.outfile o.force := hcan.mp ⟨cs, hnn⟩
                    simp [h1]
              rw [hout]
              constructor
              · rintro ⟨h1, before, arg, after, h2, h3⟩
                refine ⟨before, arg, after, args.getLastD [], home, ?_, hin', rfl, hau', h1, h3⟩
                rw [← h2]; exact hargs
              · rintro ⟨before, arg, after, infile, home', h0, _, hho, _, h1, h3⟩
                cases hho
                exact ⟨h1, before, arg, after, (hcut _ _ h0).1, h3⟩

end Sigtool
