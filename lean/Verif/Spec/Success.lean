import Verif.Spec.Program
import Verif.Spec.Accepts
import Verif.Spec.KeyTexts
/-!
# Spec.Success: what the files named on a command line have to hold; independent of the parsers and of the commands

Key files, signature files and arguments as texts (`Spec.KeyTexts`), containers as byte strings (`Spec.Accepts`).
-/

namespace Sigtool.Spec

/-- A key object with this Ed25519 public key. -/
def PublicIs (P : Prims) (key : Bytes) (pk : PublicKey) : Prop := pk.pk = key ∧ pk.hash = (P.sha256 key).take 16

/-- The private key object with these 64 secret bytes. -/
def privateOf (P : Prims) (secret : Bytes) : PrivateKey :=
  { sk := secret, pub := { pk := secret.drop 32, hash := (P.sha256 (secret.drop 32)).take 16 } }

/-- The text of a public key file: an OpenSSH public key (three fields), or else a YAML document with the base64 text of the key. -/
def PublicKeyText (Y : Yaml) (b key : Bytes) : Prop :=
  (∃ field comment, ThreeFields b field comment ∧ KeyField field key) ∨
  ((¬ ∃ field comment, ThreeFields b field comment ∧ (ForeignField field ∨ ∃ k, KeyField field k)) ∧
    ∃ d, Y.readPub b = some d ∧ Base64Text d.pk key ∧ key.length = 32)

/-- The text of a public key as a command line argument: the key field of an OpenSSH key, or base64 text of 32 bytes (which
must not begin like an OpenSSH key of another type). -/
def PublicArg (b key : Bytes) : Prop :=
  KeyField b key ∨ (¬ ForeignField b ∧ key.length = 32 ∧ Base64Text b key)

/-- The text of a private key file that can be opened with a pass phrase from `phrase`: an OpenSSH key, which may be in the clear,
or a sigtool key. -/
def PrivateText (D : Deps) (phrase : Bytes → Prop) (b secret : Bytes) : Prop :=
  (SaysOpenSSH b ∧ ∃ blk, D.pem b = some blk ∧ blk.legacyEncrypted = false ∧ blk.typ = "OPENSSH PRIVATE KEY".toUTF8.toList ∧
    (SshPrivate D.P blk.bytes none secret ∨ ∃ pw, phrase pw ∧ SshPrivate D.P blk.bytes (some (.ok pw)) secret)) ∨
  (¬ SaysOpenSSH b ∧ ∃ pw d, phrase pw ∧ D.Y.readPriv b = some d ∧ YamlPrivate D.P d pw secret)

/-- The file `kn` holds a private key. -/
def PrivateFile (W : World) (nopw : Bool) (envpw : Bytes) (kn : Path) (secret : Bytes) : Prop :=
  ∃ b, W.fs.read kn = some b ∧ PrivateText W.D (PassPhrase W nopw envpw) b secret

/-- The file `fn` holds a public key. -/
def PublicFile (W : World) (fn : Path) (key : Bytes) : Prop := ∃ b, W.fs.read fn = some b ∧ PublicKeyText W.D.Y b key

/-- What the `-v` option says: nothing, or a file with a public key. -/
def NamedSender (W : World) (fn : Path) (spk : Option PublicKey) : Prop :=
  (fn = [] ∧ spk = none) ∨ (fn ≠ [] ∧ ∃ key pk, PublicFile W fn key ∧ PublicIs W.D.P key pk ∧ spk = some pk)

/-- The first argument of `verify`: a public key as text, or else the name of a public key file. -/
def VerifyKey (W : World) (arg key : Bytes) : Prop :=
  PublicArg arg key ∨
  ((¬ ∃ k, PublicArg arg k) ∧ ¬ ForeignField arg ∧ PublicFile W arg key)

/-- The file `sn` holds a signature made with the key of this hash. -/
def SignatureFile (W : World) (sn : Path) (sig hash : Bytes) : Prop :=
  ∃ b d, W.fs.read sn = some b ∧ W.D.Y.readSig b = some d ∧ Base64Text d.signature sig ∧ Base64Text d.pkhash hash

/-- Standard output, as an output argument. -/
def ToStdout (f : Path) : Prop := f = [] ∨ f = "-".toUTF8.toList

/-- No write to the output fails. -/
def OutputWorks (W : World) (f : Path) : Prop :=
  (ToStdout f → ∀ k e, WEv.fail k e ∉ W.stdout.script) ∧ (¬ ToStdout f → ∀ k e, WEv.fail k e ∉ W.env1.writes)

/-- The file can be created: nothing is in the way, or a regular file that may be overwritten, and the system call succeeds. -/
def Creatable (fs : FS) (env : SafeEnv) (target : Path) (force : Bool) : Prop :=
  env.openErr = none ∧ (fs.dir target = none ∨ (force = true ∧ ∃ i, fs.dir target = some (.file i)))

/-- Fsync, close and rename of the output succeed. -/
def Closes (env : SafeEnv) : Prop := env.syncErr = none ∧ env.closeErr = none ∧ env.renameErr = none

/-- No write to this file fails. -/
def Writes (env : SafeEnv) : Prop := ∀ k e, WEv.fail k e ∉ env.writes

/-- What makes `decrypt` succeed, the output aside: the private key file opens, the sender file, if named, holds a public key, and the
input is a container for these keys with contents `plain`. -/
def DecryptsTo (W : World) (o : DecOpts) (args : List Bytes) (plain : Bytes) : Prop :=
  ∃ keyfile rd secret spk auth rest, DecArgs W args keyfile rd ∧ PrivateFile W o.nopw o.envpw keyfile secret ∧
    NamedSender W o.sender spk ∧ Contains W.D.P rd.content (privateOf W.D.P secret) spk auth plain rest

/-- A recipient argument of `encrypt` stands for the key: a user of the `authorized_keys` file with this content, the last one of that
name; or a public key file. -/
def RecipientKey (W : World) (users arg key : Bytes) : Prop :=
  ((64 ∈ arg ∧ arg.head? ≠ some 64) ∧ ∃ lines os before after, IsLines users lines ∧ List.Forall₂ LineYields lines os ∧
      os.filterMap id = before ++ (key, arg) :: after ∧ ∀ kc ∈ after, kc.2 ≠ arg) ∨
  (¬ (64 ∈ arg ∧ arg.head? ≠ some 64) ∧ PublicFile W arg key)

/-- The input ends in a way that `encrypt` takes for its end. -/
def InputEnds (rd : Reader) : Prop := rd.last = .eof ∨ rd.last = .unexpectedEOF ∨ rd.last = .closedPipe

end Sigtool.Spec
