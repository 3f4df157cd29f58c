import Verif.Spec.Ssh
import Verif.Spec.Cli
/-!
# Spec.SshKeys: the OpenSSH key files of a user, independent of the parsers

The Ed25519 key with a given seed, as OpenSSH stores it: `id_ed25519` (with or without a pass phrase), `id_ed25519.pub` and
`authorized_keys`.
-/

namespace Sigtool.Spec

/-- `text` is an OpenSSH private key file (PEM) for the Ed25519 key with this seed; `lock` is its pass phrase, if it has one. -/
inductive SshIdentity (D : Deps) (seed text : Bytes) : (lock : Option Bytes) → Prop
  /-- not encrypted -/
  | plain (slack : Nat) (opts pub pub2 comment pad : Bytes) (check : Nat) : marker <:+: text → ¬ marker <+: text → check < 2^32 →
      GoodPadding pad →
      (sshPrivateFile "none".toUTF8.toList "none".toUTF8.toList opts 1 pub
        (sshPrivateSection check check "ssh-ed25519".toUTF8.toList pub2 (seed ++ D.P.edPub seed) comment pad)).length < 2^32 →
      D.pem text = some { typ := ascii "OPENSSH PRIVATE KEY", slack := slack, bytes := sshPrivateFile "none".toUTF8.toList "none".toUTF8.toList opts 1 pub (sshPrivateSection check check "ssh-ed25519".toUTF8.toList pub2 (seed ++ D.P.edPub seed) comment pad) } →
      SshIdentity D seed text none
  /-- encrypted with AES under a key derived from the pass phrase by `bcrypt_pbkdf` -/
  | locked (slack : Nat) (c : SshCipher) (salt : Bytes) (rounds : Nat) (pub ct k pub2 comment pad : Bytes) (check : Nat) (pw : Bytes) :
      marker <:+: text → ¬ marker <+: text → check < 2^32 → GoodPadding pad → rounds < 2^32 →
      (sshPrivateFile c.name "bcrypt".toUTF8.toList (kdfOptions salt rounds) 1 pub ct).length < 2^32 →
      D.pem text = some { typ := ascii "OPENSSH PRIVATE KEY", slack := slack, bytes := sshPrivateFile c.name "bcrypt".toUTF8.toList (kdfOptions salt rounds) 1 pub ct } →
      D.P.bcryptPbkdf pw salt rounds 48 = some k → ct.length % 16 = 0 →
      c.dec D.P (k.take 32) (k.drop 32) ct =
        sshPrivateSection check check "ssh-ed25519".toUTF8.toList pub2 (seed ++ D.P.edPub seed) comment pad →
      (sshPrivateSection check check "ssh-ed25519".toUTF8.toList pub2 (seed ++ D.P.edPub seed) comment pad).length < 2^32 →
      SshIdentity D seed text (some pw)

/-- The `authorized_keys` file has a line `ssh-ed25519 <base64> <comment>` for this key, its comment (trimmed) is the user's name
and the name does not occur behind that line. -/
def SshUser (auth user key : Bytes) : Prop :=
  ∃ before after comment, auth = before ++ keyLine (Base64.encode (sshPublicBlob key)) comment ++ after ∧
    (before = [] ∨ ∃ x, before = x ++ [10]) ∧ (after = [] ∨ ∃ x, after = 10 :: x) ∧ OneLine comment ∧ Trims comment user ∧
    ¬ user <:+: after

/-- An OpenSSH public key file: type, key and a comment of one word. -/
def SshPubFile (text key : Bytes) : Prop :=
  ∃ comment, text = keyLine (Base64.encode (sshPublicBlob key)) comment ++ [10] ∧ comment ≠ [] ∧
    ∀ c ∈ comment, c ≠ 32 ∧ c ≠ 9

/-- A recipient argument of `encrypt` stands for this key through OpenSSH's files: a user name of `authorized_keys`, or the name
of a public key file. -/
inductive SshRecipient (fs : FS) (auth : Path) (arg key : Bytes) : Prop
  | user (text : Bytes) : NamesUser arg → fs.read auth = some text → SshUser text arg key → SshRecipient fs auth arg key
  | file (text : Bytes) : ¬ NamesUser arg → fs.read arg = some text → SshPubFile text key → SshRecipient fs auth arg key

end Sigtool.Spec
