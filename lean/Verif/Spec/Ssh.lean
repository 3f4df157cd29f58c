import Verif.Prims
/-!
# Spec: white space and the OpenSSH formats, independent of the parser

What is written here follows the OpenSSH formats (`sshd(8)` AUTHORIZED_KEYS, `PROTOCOL.key`), not the code.
-/

namespace Sigtool.Spec

/-- The UTF-8 encodings of Unicode's `White_Space` characters. -/
def whiteSpace : List Bytes :=
  ["\t", "\n", "\u000b", "\u000c", "\r", " ", "\u0085", "\u00a0", "\u1680", "\u2000", "\u2001", "\u2002", "\u2003", "\u2004",
   "\u2005", "\u2006", "\u2007", "\u2008", "\u2009", "\u200a", "\u2028", "\u2029", "\u202f", "\u205f", "\u3000"].map
    fun s => s.toUTF8.toList

/-- `y` is `x` without leading and trailing white space. -/
def Trims (x y : Bytes) : Prop :=
  ∃ before after : List Bytes, (∀ s ∈ before, s ∈ whiteSpace) ∧ (∀ s ∈ after, s ∈ whiteSpace) ∧
    x = before.flatten ++ y ++ after.flatten ∧ ∀ s ∈ whiteSpace, ¬ s <+: y ∧ ¬ s <:+ y

/-- An SSH string: a 32-bit length, most significant byte first, then the bytes. -/
def sshString (b : Bytes) : Bytes :=
  [UInt8.ofNat (b.length / 2^24), UInt8.ofNat (b.length / 2^16), UInt8.ofNat (b.length / 2^8), UInt8.ofNat b.length] ++ b

/-- An SSH `uint32`. -/
def sshUint32 (n : Nat) : Bytes :=
  [UInt8.ofNat (n / 2^24), UInt8.ofNat (n / 2^16), UInt8.ofNat (n / 2^8), UInt8.ofNat n]

/-- The wire form of an Ed25519 public key: algorithm name, key. -/
def sshPublicBlob (key : Bytes) : Bytes := sshString "ssh-ed25519".toUTF8.toList ++ sshString key

end Sigtool.Spec

namespace Sigtool.Spec

/-- The options field in front of a key (`sshd(8)`): characters other than blanks, quotes and backslashes, and quoted strings,
in which a quote is written `\"`. -/
inductive Options : Bytes → Prop
  | nil : Options []
  | bare (c : UInt8) (t : Bytes) : c ≠ 34 → c ≠ 92 → c ≠ 32 → c ≠ 9 → Options t → Options (c :: t)
  | quoted (items : List Bytes) (t : Bytes) :
      (∀ i ∈ items, i = [92, 34] ∨ (∃ c, i = [c] ∧ c ≠ 34 ∧ c ≠ 92) ∨ ∃ c, i = [92, c] ∧ c ≠ 34 ∧ c ≠ 92) → Options t →
      Options (34 :: (items.flatten ++ 34 :: t))

/-- A line of an authorized_keys file: no line feed and no carriage return inside. -/
def OneLine (b : Bytes) : Prop := ∀ c ∈ b, c ≠ 10 ∧ c ≠ 13

/-- `ssh-ed25519 <base64> <comment>`. -/
def keyLine (key64 comment : Bytes) : Bytes := "ssh-ed25519 ".toUTF8.toList ++ key64 ++ " ".toUTF8.toList ++ comment

end Sigtool.Spec

namespace Sigtool.Spec

/-- The text that makes a private key file count as an OpenSSH key. -/
def marker : Bytes := "OPENSSH PRIVATE KEY-".toUTF8.toList

/-- The content of an OpenSSH private key file (`PROTOCOL.key`): magic, cipher, KDF, KDF options, number of keys, public key,
private section. -/
def sshPrivateFile (cipher kdf kdfOpts : Bytes) (numKeys : Nat) (pub priv : Bytes) : Bytes :=
  "openssh-key-v1".toUTF8.toList ++ [0] ++ sshString cipher ++ sshString kdf ++ sshString kdfOpts ++ sshUint32 numKeys ++
    sshString pub ++ sshString priv

/-- The private section: two check words, key type, public key, secret key, comment, padding. -/
def sshPrivateSection (check1 check2 : Nat) (keyType pub secret comment pad : Bytes) : Bytes :=
  sshUint32 check1 ++ sshUint32 check2 ++ sshString keyType ++ sshString pub ++ sshString secret ++ sshString comment ++ pad

/-- The padding 1, 2, 3, ... -/
def GoodPadding (pad : Bytes) : Prop := ∀ i (h : i < pad.length), (pad[i]).toNat = i + 1

/-- KDF options: salt and number of rounds. -/
def kdfOptions (salt : Bytes) (rounds : Nat) : Bytes := sshString salt ++ sshUint32 rounds

end Sigtool.Spec

namespace Sigtool

/-- The two ciphers of encrypted OpenSSH private keys. -/
inductive SshCipher | cbc | ctr

/-- Their names. -/
def SshCipher.name : SshCipher → Bytes
  | .cbc => "aes256-cbc".toUTF8.toList
  | .ctr => "aes256-ctr".toUTF8.toList

/-- What the cipher decrypts the private section to. -/
def SshCipher.dec (P : Prims) : SshCipher → (key iv data : Bytes) → Bytes
  | .cbc => P.aesCbcDec
  | .ctr => P.aesCtr

end Sigtool
