import Verif.Spec.Game
import Verif.Spec.Cli
import Verif.Spec.Outsider
import Verif.Props.CliComplete
/-!
# Spec.Site: the games about files, played with the command `sigtool encrypt`

`Spec/Game.lean` and the games after it are about any program that turns a `Job` - public keys, plaintext, random bytes - into a
file.  Here the program is the command as a user runs it: the public keys lie in files or in `authorized_keys`, the recipients are
named on the command line, and what the spy gets is what lies in the output file (or was written to standard output)
when the command has exited.
-/

namespace Sigtool.Spec

/-- A run of `sigtool encrypt`, up to the public keys, the plaintext and the random bytes: the files there are before it, the
options, and how the input arrives. -/
structure Site (n : Nat) where
  fs : (pks : Fin n → Bytes) → (plain : Bytes) → FS
  env : SafeEnv
  stdout : Writer := {}
  outfile : Path := []
  force : Bool := false
  keyfile : Path := []
  getpw : GetPw := none
  blk : Nat := 0
  auth : Path
  args : Fin n → Bytes
  infile : Path
  input : Bytes → Reader

variable {n : Nat}

def Site.run (D : Deps) (Z : Site n) (J : Job n) : Outcome :=
  encryptCmd D (Z.fs J.pks J.plain) Z.env Z.stdout Z.outfile Z.force Z.keyfile Z.getpw (some Z.blk) (some Z.auth)
    (List.ofFn fun i => (Z.args i, J.nonces i)) Z.infile (Z.input J.plain) { csk := J.csk, key := J.key, salt := J.salt } J.coin

/-- The output goes to standard output. -/
def Site.piped (Z : Site n) : Bool := Z.outfile = [] || Z.outfile = [45]

/-- What the output holds after the command. -/
def Site.file (D : Deps) (Z : Site n) (J : Job n) : Bytes :=
  if Z.piped then (Z.run D J).stdout else (((Z.fs J.pks J.plain).run (Z.run D J).sys).read Z.outfile).getD []

/-- The command can do its work whatever the (genuine) public keys and the plaintext are: there is a recipient; the recipient
arguments denote the public keys; the `-s` option, if given, denotes `sender`; the input exists and is read to its end; the
`authorized_keys` file is readable or missing; the output can be created, and no write, sync, close or rename fails. -/
structure Site.Ready (D : Deps) (Z : Site n) (sender : Option PrivateKey) : Prop where
  people : 0 < n
  input : ∀ plain, (Z.input plain).content = plain ∧ (Z.input plain).last = .eof
  ident : ∀ pks plain, IdentityArg D (Z.fs pks plain) Z.keyfile Z.getpw sender
  denotes : ∀ (seeds : Fin n → Bytes) plain, (∀ i, (seeds i).length = 32) → ∀ i,
    let pks := fun i => D.P.edPub (seeds i)
    ∃ pk, Denotes D (Z.fs pks plain) (parseAuthorizedKeys D.P (((Z.fs pks plain).read Z.auth).getD [])) (Z.args i) pk ∧
      pk.pk = pks i
  exists_ : ∀ pks plain, Z.infile = [45] ∨ (Z.fs pks plain).exists Z.infile = true
  auth : ∀ pks plain, (Z.fs pks plain).dir Z.auth = none ∨ ∃ b, (Z.fs pks plain).read Z.auth = some b
  output : if Z.piped then (∀ k e, WEv.fail k e ∉ Z.stdout.script) ∧ Z.stdout.closeErr = none ∧ Z.stdout.out = []
    else NoFault Z.env ∧ Z.outfile ≠ Z.env.tmp ∧ ∀ pks plain, CanCreate (Z.fs pks plain) Z.env Z.outfile Z.force ∧
      Fresh (Z.fs pks plain) Z.env.tmp Z.env.inode

/-! ### The recipient's side -/

/-- A run of `sigtool decrypt`, up to the private key and the file that came. -/
structure Desk where
  fs : (seed file : Bytes) → FS
  env : SafeEnv
  stdout : Writer := {}
  outfile : Path := []
  force : Bool := false
  keyfile : Path
  getpw : GetPw := none
  pubkey : Path := []
  infile : Path
  input : Bytes → Reader

def Desk.run (D : Deps) (Y : Desk) (seed file : Bytes) : Outcome :=
  decryptCmd D (Y.fs seed file) Y.env Y.stdout Y.outfile Y.force false Y.keyfile Y.getpw Y.pubkey Y.infile (Y.input file)

def Desk.piped (Y : Desk) : Bool := Y.outfile = [] || Y.outfile = [45]

/-- What is read is the file that came; if a private key can be loaded at all, it is the one made from the seed; the `-v` option
denotes `spk`; the names and inode of the temporary file are fresh.  Writes, sync, close and rename may fail. -/
structure Desk.Set (D : Deps) (Y : Desk) (spk : Option PublicKey) : Prop where
  input : ∀ file, (Y.input file).content = file
  key : ∀ seed file b sk, seed.length = 32 → (Y.fs seed file).read Y.keyfile = some b →
    makePrivateKey D.P D.Y D.pem b Y.getpw = .ok sk → sk = newPrivateKey D.P seed
  sender : ∀ seed file pk, SenderArg D (Y.fs seed file) Y.pubkey pk → pk = spk
  output : Y.piped = false → Y.outfile ≠ Y.env.tmp ∧ ∀ seed file, Fresh (Y.fs seed file) Y.env.tmp Y.env.inode

/-- What `decrypt` leaves is not what it should be.  On standard output: something that is no initial part of the plaintext, or,
with exit status 0, something else than its first chunks.  In the output file: neither what was there before, nor, with exit
status 0, the first chunks of the plaintext. -/
def Desk.fooled (D : Deps) (Y : Desk) (cut : Bytes → List Bytes) (plain seed file : Bytes) : Bool :=
  let o := Y.run D seed file
  if Y.piped then wrong cut plain (o.stdout.drop Y.stdout.out.length) (o.exit == 0)
  else
    let after := ((Y.fs seed file).run o.sys).read Y.outfile
    !(after == (Y.fs seed file).read Y.outfile) &&
      !(o.exit == 0 && (List.range ((cut plain).length + 1)).any fun k => some ((cut plain).take k).flatten == after)

/-- The probability that the tamperer fools a recipient, if files are written by the command `encrypt` and read by the command
`decrypt`. -/
def Tamperer.fools (D : Deps) (Z : Site n) (Y : Fin n → Desk) (cut : Bytes → List Bytes) (A : Tamperer n) : ℚ :=
  mean fun t : A.Tape => mean fun coin : Coins 64 => mean fun key : Coins 32 =>
  mean fun seeds : Fin n → Coins 32 => mean fun csk : Coins 32 => mean fun salt : Coins 32 =>
  mean fun nonces : Fin n → Coins 12 =>
    let pks := fun i => D.P.edPub (seeds i).bytes
    let file := Z.file D
      { csk := csk.bytes, key := key.bytes, salt := salt.bytes, pks, nonces := fun i => (nonces i).bytes
        coin := coin.bytes, plain := A.plain t pks }
    let changed := A.change t pks file
    yes (decide (front changed.2 = front file) &&
      (Y changed.1).fooled D cut (A.plain t pks) (seeds changed.1).bytes changed.2)

end Sigtool.Spec
