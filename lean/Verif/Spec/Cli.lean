import Verif.Cli
import Verif.Spec.Sign
/-!
# Spec: what the command line arguments of `sigtool` denote

Independent of the command functions: only the library's key parsers, the file system and the primitives occur here.
-/

namespace Sigtool.Spec

/-- The key argument of `verify` denotes `pk`: the text itself is a key, or it is not and names a file that holds one. -/
def KeyArg (D : Deps) (fs : FS) (arg : Bytes) (pk : PublicKey) : Prop :=
  makePublicKeyFromString D.P arg = .ok (some pk) ∨
  ((∃ e, makePublicKeyFromString D.P arg = .err e) ∧ ∃ b, fs.read arg = some b ∧ makePublicKey D.P D.Y b = .ok pk)

/-- The file `fn` holds the signature `sig`. -/
def SigFile (D : Deps) (fs : FS) (fn : Path) (sig : Signature) : Prop := ∃ b, fs.read fn = some b ∧ unmarshalSig D.Y b = .ok sig

/-- `sig` is a valid signature on a file with this content. -/
def ValidFileSig (P : Prims) (pk : Bytes) (content sig : Bytes) : Prop :=
  P.edVerify pk (P.sha512 (messageInput (P.sha512 (fileInput content)))) sig = true

/-- A recipient argument names a user of the `authorized_keys` file: it contains `@`, and not as its first character. -/
def NamesUser (arg : Bytes) : Prop := 64 ∈ arg ∧ arg.head? ≠ some 64

/-- A recipient argument of `encrypt` denotes `pk`: the last key with that comment among the `keys` of the `authorized_keys`
file, or the key held by the named file. -/
def Denotes (D : Deps) (fs : FS) (keys : List PublicKey) (arg : Bytes) (pk : PublicKey) : Prop :=
  (NamesUser arg ∧ ∃ before after, keys = before ++ pk :: after ∧ pk.comment = arg ∧ ∀ k ∈ after, k.comment ≠ arg) ∨
  (¬ NamesUser arg ∧ ∃ b, fs.read arg = some b ∧ makePublicKey D.P D.Y b = .ok pk)

/-- No file but `except` differs between the two states. -/
def SameBut (fs fs' : FS) (except : List Path) : Prop := ∀ p, p ∉ except → fs'.read p = fs.read p ∧ fs'.dir p = fs.dir p

/-- What the `-v` option denotes: no key, or the key in the named file. -/
def SenderArg (D : Deps) (fs : FS) (pubkey : Path) (pk : Option PublicKey) : Prop :=
  (pubkey = [] ∧ pk = none) ∨ (pubkey ≠ [] ∧ ∃ b p, fs.read pubkey = some b ∧ makePublicKey D.P D.Y b = .ok p ∧ pk = some p)

/-- What the `-s` option of `encrypt` denotes: no key, or the private key in the named file. -/
def IdentityArg (D : Deps) (fs : FS) (keyfile : Path) (getpw : GetPw) (sk : Option PrivateKey) : Prop :=
  (keyfile = [] ∧ sk = none) ∨
  (keyfile ≠ [] ∧ ∃ b s, fs.read keyfile = some b ∧ makePrivateKey D.P D.Y D.pem b getpw = .ok s ∧ sk = some s)

/-- `plain` is what `Decrypt` delivers, without error, for this input, private key and sender key. -/
def Decrypts (P : Prims) (rd : Reader) (sk : PrivateKey) (pk : Option PublicKey) (plain : Bytes) : Prop :=
  ∃ d d' w, setupDecryptor P rd sk pk = .ok d ∧ d.decrypt P {} = (.ok (), d', w) ∧ w.out = plain

/-- The file that `sign` writes: the `-o` option, else the name of the signed file with `.sig`. -/
def sigTarget (output fn : Path) : Path := if output = [] then fn ++ ".sig".toUTF8.toList else output

end Sigtool.Spec
