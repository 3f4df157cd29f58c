import Verif.Spec.Ssh
import Verif.Spec.Base64
import Verif.Yaml
/-!
# Spec.KeyTexts: which texts stand for an Ed25519 public key, independent of the parsers

Base64 with its slack (line breaks, unused bits), the key field of OpenSSH files, and the lines of `authorized_keys` as sigtool
reads them.
-/

namespace Sigtool.Spec

/-- The six bits of a base64 digit, most significant first. -/
def digitBits (n : Nat) : List Bool := [5, 4, 3, 2, 1, 0].map fun i => n.testBit i

/-- `text` is base64 text of `x`: apart from line breaks, which may stand anywhere, it consists of digits whose bits are those
of `x` and fewer than six bits more, and of `=` up to a multiple of four characters. -/
def Base64Text (text x : Bytes) : Prop :=
  ∃ (digits : List Nat) (fill : List Bool), (∀ n ∈ digits, n < 64) ∧ fill.length < 6 ∧
    digits.flatMap digitBits = x.flatMap byteBits ++ fill ∧
    text.filter (fun c => c ≠ 10 ∧ c ≠ 13) =
      digits.map (fun n => alphabet[n]?.getD 0) ++ List.replicate ((4 - digits.length % 4) % 4) 61

/-- The field is base64 text of the wire form of an Ed25519 public key. -/
def KeyField (field key : Bytes) : Prop := key.length = 32 ∧ Base64Text field (sshPublicBlob key)

/-- The field is base64 text of something that begins like a key of another type.  (Lengths are compared modulo `2^32`; for a
field shorter than 4 GiB the condition on the lengths says nothing.) -/
def ForeignField (field : Bytes) : Prop :=
  ∃ algo rest, algo ≠ "ssh-ed25519".toUTF8.toList ∧ algo.length < 2^32 ∧ algo.length ≤ (algo.length + rest.length) % 2^32 ∧
    Base64Text field (sshString algo ++ rest)

/-- No blank and no tab. -/
def NoBlank (b : Bytes) : Prop := ∀ c ∈ b, c ≠ 32 ∧ c ≠ 9

/-- It begins with a blank or a tab. -/
def StartsBlank (b : Bytes) : Prop := ∃ c t, b = c :: t ∧ (c = 32 ∨ c = 9)

/-- What stands behind the key type: white space, the key field, and a comment. -/
def KeyThenComment (b key comment : Bytes) : Prop :=
  ∃ t field tail, Trims b t ∧ t = field ++ tail ∧ NoBlank field ∧ (tail = [] ∨ StartsBlank tail) ∧ KeyField field key ∧
    Trims tail comment

/-- The same for a key of another type. -/
def ForeignThenComment (b : Bytes) : Prop :=
  ∃ t field tail, Trims b t ∧ t = field ++ tail ∧ NoBlank field ∧ (tail = [] ∨ StartsBlank tail) ∧ ForeignField field

/-- The number of quotes in a text, those written `\"` excepted. -/
def quotes (b : Bytes) : Nat :=
  ((List.range b.length).filter fun i => b[i]? = some 34 ∧ (i = 0 ∨ b[i - 1]? ≠ some 92)).length

/-- An options field as the reader delimits it: every quote is closed, and blanks occur only inside quotes. -/
def OptionsField (o : Bytes) : Prop :=
  quotes o % 2 = 0 ∧ ∀ p c q, o = p ++ c :: q → c = 32 ∨ c = 9 → quotes p % 2 = 1

/-- The line (up to a carriage return, trimmed, not a comment) stands for this key with this comment: `word key comment`, whatever
the word; or, if what stands behind the first word is no key at all, `options word key comment`. -/
def LineKey (line key comment : Bytes) : Prop :=
  ∃ l w r, Trims (line.takeWhile (· ≠ 13)) l ∧ l.head? ≠ some 35 ∧ l = w ++ r ∧ NoBlank w ∧ StartsBlank r ∧
    (KeyThenComment r key comment ∨
      (¬ ∃ k c, KeyThenComment r k c) ∧ ¬ ForeignThenComment r ∧
        ∃ o blanks word r', l = o ++ blanks ++ word ++ r' ∧ OptionsField o ∧
          blanks ≠ [] ∧ (∀ c ∈ blanks, c = 32 ∨ c = 9) ∧ word ≠ [] ∧ NoBlank word ∧ StartsBlank r' ∧ KeyThenComment r' key comment)

/-- What one line of the file contributes: nothing, or a key and a comment. -/
def LineYields (line : Bytes) (o : Option (Bytes × Bytes)) : Prop := ∀ key comment, LineKey line key comment ↔ o = some (key, comment)

/-- A text of three fields separated by blanks and tabs, the second of which is `field` (not empty). -/
def ThreeFields (text field comment : Bytes) : Prop :=
  ∃ first b1 b2, text = first ++ b1 ++ field ++ b2 ++ comment ∧ NoBlank first ∧ NoBlank field ∧ NoBlank comment ∧ field ≠ [] ∧
    b1 ≠ [] ∧ b2 ≠ [] ∧ (∀ c ∈ b1, c = 32 ∨ c = 9) ∧ ∀ c ∈ b2, c = 32 ∨ c = 9

/-- The lines of a file. -/
def IsLines (b : Bytes) (lines : List Bytes) : Prop := (∀ l ∈ lines, 10 ∉ l) ∧ b = [10].intercalate lines

/-- `b` begins with the SSH string `a`, and `r` follows.  (Lengths are compared modulo `2^32`; below 4 GiB that says nothing.) -/
def Takes (b a r : Bytes) : Prop := b = sshString a ++ r ∧ a.length < 2^32 ∧ a.length ≤ (a.length + r.length) % 2^32

/-- The content of an OpenSSH private key file with one key. -/
def SshKeyBlock (raw cipher kdf opts priv : Bytes) : Prop :=
  ∃ pub r0 r1 r2 r4 r5, raw = "openssh-key-v1".toUTF8.toList ++ [0] ++ r0 ∧ Takes r0 cipher r1 ∧ Takes r1 kdf r2 ∧
    Takes r2 opts (sshUint32 1 ++ r4) ∧ Takes r4 pub r5 ∧ Takes r5 priv []

/-- Its private section (decrypted): the check word twice, the key type, the public key, 64 secret bytes, a comment, padding. -/
def SshSection (s secret : Bytes) : Prop :=
  ∃ check pub comment pad r0 r1 r2 r3, check < 2^32 ∧ s = sshUint32 check ++ sshUint32 check ++ r0 ∧
    Takes r0 "ssh-ed25519".toUTF8.toList r1 ∧ Takes r1 pub r2 ∧ Takes r2 secret r3 ∧ Takes r3 comment pad ∧
    secret.length = 64 ∧ GoodPadding pad

/-- The content of an OpenSSH private key file with these secret bytes; `ask` is the answer to the question for the pass phrase. -/
inductive SshPrivate (P : Prims) (raw : Bytes) (ask : Option (Except Err Bytes)) (secret : Bytes) : Prop
  /-- not encrypted -/
  | plain (opts priv : Bytes) : SshKeyBlock raw "none".toUTF8.toList "none".toUTF8.toList opts priv → SshSection priv secret →
      SshPrivate P raw ask secret
  /-- encrypted under a key derived from the pass phrase -/
  | locked (c : SshCipher) (pw opts ct salt k : Bytes) (rounds : Nat) : ask = some (.ok pw) →
      SshKeyBlock raw c.name "bcrypt".toUTF8.toList opts ct → Takes opts salt (sshUint32 rounds) → rounds < 2^32 →
      P.bcryptPbkdf pw salt rounds 48 = some k → (c = .cbc → ct.length % 16 = 0) →
      SshSection (c.dec P (k.take 32) (k.drop 32) ct) secret → SshPrivate P raw ask secret

/-- The content of a sigtool private key file (as the YAML library reports it) with these secret bytes: salt and sealed key are base64
text, and the key that scrypt derives from the hashed pass phrase, salt and parameters opens the sealed key, with the first twelve
bytes of the salt as nonce.  (A salt that decodes to fewer than twelve bytes is filled up with the zero bytes that the decoder's buffer
has room for.) -/
def YamlPrivate (P : Prims) (d : PrivDoc) (pw secret : Bytes) : Prop :=
  ∃ salt esk key, d.salt ≠ [] ∧ d.esk ≠ [] ∧ Base64Text d.salt salt ∧ Base64Text d.esk esk ∧
    P.scrypt (P.sha512 pw) salt d.n d.r d.p = .ok key ∧ 12 ≤ max salt.length (d.salt.length / 4 * 3) ∧
    P.aeadOpen key ((salt ++ List.replicate 12 0).take 12) esk [] = some secret ∧ secret.length = 64

/-- A text is treated as an OpenSSH key if the words of the PEM header occur in it, but not at the very beginning. -/
def SaysOpenSSH (text : Bytes) : Prop := marker <:+: text ∧ ¬ marker <+: text

end Sigtool.Spec
