import Verif.Spec.Success
/-!
# Spec.Crash: the files on which the program crashes; independent of the parsers and of the commands
-/

namespace Sigtool.Spec

/-- The content `raw` of an OpenSSH private key file (in a buffer with `slack` spare zero bytes) on which the parser crashes: it is
shorter than the magic word, and so is the buffer; or it is the magic word without the zero byte that ends it, which the buffer
supplies; or its private section is encrypted in CBC mode and not a whole number of blocks, and there is a pass phrase. -/
def SshCrashes (P : Prims) (phrase : Bytes → Prop) (raw : Bytes) (slack : Nat) : Prop :=
  raw.length + slack < 15 ∨ (raw = "openssh-key-v1".toUTF8.toList ∧ 0 < slack) ∨
  ∃ opts ct salt rounds pw k, SshKeyBlock raw "aes256-cbc".toUTF8.toList "bcrypt".toUTF8.toList opts ct ∧ ct.length % 16 ≠ 0 ∧
    phrase pw ∧ Takes opts salt (sshUint32 rounds) ∧ rounds < 2^32 ∧ P.bcryptPbkdf pw salt rounds 48 = some k

/-- The content of a sigtool private key file on which opening it crashes: salt and sealed key are base64 text, and scrypt crashes
on the parameters or the base64 text of the salt is so short that it has no room for twelve bytes. -/
def YamlCrashes (P : Prims) (d : PrivDoc) (pw : Bytes) : Prop :=
  ∃ salt esk, d.salt ≠ [] ∧ d.esk ≠ [] ∧ Base64Text d.salt salt ∧ Base64Text d.esk esk ∧
    ((∃ w, P.scrypt (P.sha512 pw) salt d.n d.r d.p = .panic w) ∨
     ((∃ key, P.scrypt (P.sha512 pw) salt d.n d.r d.p = .ok key) ∧ d.salt.length / 4 * 3 < 12))

/-- The file is a private key file on which the program crashes. -/
def PrivateCrash (W : World) (nopw : Bool) (envpw : Bytes) (kn : Path) : Prop :=
  ∃ b, W.fs.read kn = some b ∧
    ((SaysOpenSSH b ∧ ∃ blk, W.D.pem b = some blk ∧ blk.legacyEncrypted = false ∧ blk.typ = "OPENSSH PRIVATE KEY".toUTF8.toList ∧
        SshCrashes W.D.P (PassPhrase W nopw envpw) blk.bytes blk.slack) ∨
     (¬ SaysOpenSSH b ∧ ∃ pw d, PassPhrase W nopw envpw pw ∧ W.D.Y.readPriv b = some d ∧ YamlCrashes W.D.P d pw))

/-- The file is a public key file on which the program crashes: three fields, the second of which is a key of another type. -/
def PublicCrash (W : World) (fn : Path) : Prop :=
  ∃ b field comment, W.fs.read fn = some b ∧ ThreeFields b field comment ∧ ForeignField field

end Sigtool.Spec
