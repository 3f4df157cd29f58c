import Verif.Props.Standards
import Verif.Props.CrashDemo
import Verif.Props.Agreement
/-!
# C105, C106: concrete cases; and the program on a key file without `p`
-/

namespace Sigtool
open Spec

/-- **C106** With the algorithms of the standards and whatever the pass phrase, `decrypt` crashes on a key
file with a power of two for `N` and without `p`. -/
theorem C106_missing_p (W : World) (S : Standard W.D.P) (ho : W.order.Perm commands) (argv rest : List Bytes)
    (hr : Runs W argv "decrypt" rest) (o : DecOpts) (key : Path) (more : List Bytes) (hf : W.flags.dec rest = .ok o (key :: more))
    (b pw : Bytes) (hb : W.fs.read key = some b) (hs : ¬ SaysOpenSSH b) (hpw : PassPhrase W o.nopw o.envpw pw)
    (d : PrivDoc) (hd : W.D.Y.readPriv b = some d) (hsalt : d.salt ≠ [] ∧ ∃ salt, Base64Text d.salt salt)
    (hesk : d.esk ≠ [] ∧ ∃ esk, Base64Text d.esk esk) (k : Nat) (hk : 0 < k) (hn : d.n = 2 ^ k)
    (hr' : -2^63 ≤ d.r ∧ d.r < 2^63) (hp : d.p = 0) : (W.main argv).exit = 2 := by
  rw [C93_decrypt W (C105_laws _ S) ho argv rest (key :: more) hr o hf]
  refine ⟨key, more, rfl, .inl ⟨b, hb, .inr ⟨hs, pw, d, hpw, hd, ?_⟩⟩⟩
  rw [yamlCrashes_standard _ S d pw hr' (by omega)]
  obtain ⟨h1, salt, h2⟩ := hsalt
  obtain ⟨h3, esk, h4⟩ := hesk
  exact ⟨⟨salt, esk, h1, h3, h2, h4⟩, .inl ⟨⟨k, hk, hn⟩, .inl hp⟩⟩

theorem yaml_panic_iff (P : Prims) (Y : Yaml) (pem : Bytes → Option PemBlock) (b : Bytes) (ask : GetPw) (pw : Bytes) (d : PrivDoc)
    (ho : ¬ SaysOpenSSH b) (hd : Y.readPriv b = some d) (hpw : (ask = none ∧ pw = []) ∨ ask = some (.ok pw)) :
    (∃ w, makePrivateKey P Y pem b ask = .panic w) ↔ YamlCrashes P d pw := by
  have hf : looksOpenSSH b = false := by
    rw [← looksOpenSSH_iff] at ho; simpa using ho
  have yml : ∀ pw, YamlCrash P Y b pw ↔ YamlCrashes P d pw := by
    intro pw
    unfold YamlCrash YamlCrashes
    simp only [base64_text_iff]
    constructor
    · rintro ⟨d', salt, esk, h1, h⟩
      rw [hd] at h1; cases h1
      exact ⟨salt, esk, h⟩
    · rintro ⟨salt, esk, h⟩; exact ⟨d, salt, esk, hd, h⟩
  rw [C44_crash_iff]
  simp only [yml, hf]
  rcases hpw with ⟨rfl, rfl⟩ | rfl
  · simp
  · simp

/-- **C106** The sigtool private key files on which `MakePrivateKey` crashes, with the algorithms of the standards: salt and sealed key
are base64 text, and `scrypt.Key` crashes on the parameters; or it takes them and the text of the salt is too short.  The pass
phrase plays no role. -/
theorem C106_crash (P : Prims) (S : Standard P) (Y : Yaml) (pem : Bytes → Option PemBlock) (b : Bytes) (ask : Option (Except Err Bytes))
    (pw : Bytes) (d : PrivDoc) (ho : ¬ SaysOpenSSH b) (hd : Y.readPriv b = some d)
    (hpw : (ask = none ∧ pw = []) ∨ ask = some (.ok pw)) (hr : -2^63 ≤ d.r ∧ d.r < 2^63) (hp : -2^63 ≤ d.p ∧ d.p < 2^63) :
    (∃ w, makePrivateKey P Y pem b ask = .panic w) ↔
      (∃ salt esk, d.salt ≠ [] ∧ d.esk ≠ [] ∧ Base64Text d.salt salt ∧ Base64Text d.esk esk) ∧
      (ScryptCrashes d.n d.r d.p ∨ (ScryptFits d.n d.r d.p ∧ d.salt.length / 4 * 3 < 12)) := by
  rw [yaml_panic_iff P Y pem b ask pw d ho hd hpw, yamlCrashes_standard P S d pw hr hp]

/-- **C106** The parameters `sigtool` writes are among those `scrypt.Key` works with; with them and a salt of sixteen characters or more
`MakePrivateKey` does not crash, whatever the pass phrase. -/
theorem C106_written_parameters (P : Prims) (S : Standard P) (Y : Yaml) (pem : Bytes → Option PemBlock) (b : Bytes)
    (ask : Option (Except Err Bytes)) (pw : Bytes) (d : PrivDoc) (ho : ¬ SaysOpenSSH b) (hd : Y.readPriv b = some d)
    (hpw : (ask = none ∧ pw = []) ∨ ask = some (.ok pw)) (hn : d.n = 524288) (hr : d.r = 8) (hp : d.p = 1)
    (hs : 16 ≤ d.salt.length) : ScryptFits d.n d.r d.p ∧ ∀ w, makePrivateKey P Y pem b ask ≠ .panic w := by
  have hf : ScryptFits d.n d.r d.p := by
    rw [hn, hr, hp]
    exact ⟨⟨19, by decide, by norm_num⟩, by decide, by decide, by decide, by decide⟩
  refine ⟨hf, fun w h => ?_⟩
  have h := (C106_crash P S Y pem b ask pw d ho hd hpw (by omega) (by omega)).mp ⟨w, h⟩
  rcases h.2 with h | h
  · rw [hn, hr, hp] at h
    rcases h.2 with h | h | h <;> omega
  · omega

end Sigtool

namespace Sigtool.StandardDemo
open Sigtool Spec CliDemo MainDemo

/-- The functions of the standards (and no bcrypt). -/
noncomputable def stdPrims : Prims :=
  withCurves { toyPrims with
    sha256 := Spec.sha256, sha512 := Spec.sha512, hmac256 := hmac Spec.sha256 64, hkdf512 := hkdf (hmac Spec.sha512 128) 64
    aeadSeal := gcmSeal aes256, aeadOpen := gcmOpen aes256, scrypt := scryptKey, aesCtr := ctr256, aesCbcDec := cbcDec256 }

/-- The hypothesis of C105 is met. -/
theorem standard : Standard stdPrims where
  sha256 := rfl
  sha512 := rfl
  hmac256 := rfl
  hkdf512 _ _ _ _ _ := rfl
  aeadSeal := rfl
  aeadOpen := rfl
  scrypt := rfl
  aesCtr := rfl
  aesCbcDec := rfl
  x25519 := withCurves_x25519 _
  x25519_lengths := withCurves_lengths _
  ed25519 := withCurves_ed25519 _
  bcrypt_len := toyLaws.bcrypt_len

noncomputable def W : World := { CrashDemo.W with D := { CrashDemo.W.D with P := stdPrims } }

/-- C106: the key file of `CrashDemo` without `p: 1`. -/
example : (W.main [ascii "d", ascii "-v", ascii "rsa.pub", ascii "bad.key"]).exit = 2 := by
  have hd : ∃ d, W.D.Y.readPriv CrashDemo.noP = some d ∧ d.salt = ascii "AAAAAAAAAAAAAAAAAAAA" ∧ d.esk = ascii "AAAA" ∧ d.n = 524288 ∧ d.r = 8 ∧
      d.p = 0 := by
    refine ⟨⟨[], ascii "AAAA", ascii "AAAAAAAAAAAAAAAAAAAA", ascii "scrypt-sha256", 524288, 8, 0⟩, ?_, rfl, rfl, rfl, rfl, rfl⟩
    decide +kernel
  obtain ⟨d, hd, h1, h2, h3, h4, h5⟩ := hd
  exact C106_missing_p W standard commands.reverse_perm [ascii "d", ascii "-v", ascii "rsa.pub", ascii "bad.key"]
    [ascii "-v", ascii "rsa.pub", ascii "bad.key"] ⟨{}, ascii "d", rfl, rfl, rfl, by decide +kernel, by decide +kernel, by decide +kernel⟩
    { sender := ascii "rsa.pub", envpw := ascii "PW" } (ascii "bad.key") [] rfl CrashDemo.noP pw (by decide +kernel)
    (by rw [← looksOpenSSH_iff]; decide +kernel) ((getpw_cases W _ _ _).mp (by decide +kernel)) d hd
    ⟨by rw [h1]; decide +kernel, List.replicate 15 0, by rw [h1, ← base64_text_iff]; decide +kernel⟩
    ⟨by rw [h2]; decide +kernel, List.replicate 3 0, by rw [h2, ← base64_text_iff]; decide +kernel⟩ 19 (by decide)
    (by rw [h3]; norm_num) (by omega) h5

end Sigtool.StandardDemo
