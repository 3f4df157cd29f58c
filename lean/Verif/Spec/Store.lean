import Verif.Store
import Verif.Spec.Files
import Verif.Spec.Sign
import Verif.Spec.Ssh
/-!
# Spec: a directory of keys and signatures

A program (or several, one after the other) saves keys and signatures under names and other programs change files.  What a
reader finds under a name is decided by the last thing that happened to that name: the last save that returned no error, or
the last change by another program.
-/

namespace Sigtool.Spec

/-- Something that happened: a call of `Serialize` and what it returned; or another program gave the file `p` the content `b`
(`none`: removed it). -/
inductive StoreEvent where
  | saved (c : SaveCall) (result : Res Unit)
  | changed (p : Path) (b : Option Bytes)

/-- Another program changed the file `p` to `b` and nothing else. -/
structure Changed (s : FS) (p : Path) (b : Option Bytes) (s' : FS) : Prop where
  here : s'.read p = b
  dir : ∀ q, q ≠ p → s'.dir q = s.dir q
  data : ∀ q i, q ≠ p → s.dir q = some (.file i) → s'.data i = s.data i ∧ s'.mode i = s.mode i

/-- A history: calls of `Serialize`, each with a temporary file whose name and inode are not in use, and changes by other
programs, from one state of the file system to another. -/
inductive StoreHistory (D : Deps) (fs : FS) : List StoreEvent → FS → Prop where
  | start : StoreHistory D fs [] fs
  | save {h : List StoreEvent} {s : FS} (c : SaveCall) (past : StoreHistory D fs h s) (fresh : Fresh s c.env.tmp c.env.inode)
      (name : c.name ≠ c.env.tmp) : StoreHistory D fs (h ++ [.saved c (c.run D s).1]) (s.run (c.run D s).2)
  | change {h : List StoreEvent} {s s' : FS} (p : Path) (b : Option Bytes) (past : StoreHistory D fs h s) (now : Changed s p b s') :
      StoreHistory D fs (h ++ [.changed p b]) s'

/-- The name is not that of a temporary file. -/
def NotTemp (p : Path) (h : List StoreEvent) : Prop := ∀ c r, StoreEvent.saved c r ∈ h → c.env.tmp ≠ p

/-- What the events so far say about a name. -/
inductive Known where
  | untouched
  | holds (c : SaveCall)
  | raw (b : Option Bytes)

/-- One event: a save of this name that returned nil counts, a change of this name counts, nothing else does. -/
def Known.next (p : Path) (k : Known) : StoreEvent → Known
  | .saved c (.ok ()) => if c.name = p then .holds c else k
  | .saved _ _ => k
  | .changed q b => if q = p then .raw b else k

/-- The last event that counts. -/
def known (h : List StoreEvent) (p : Path) : Known := h.foldl (Known.next p) .untouched

/-- The caller follows the rules: keys are valid, the YAML library can write and read the comment, a private key's comment does
not pretend that the file is an OpenSSH key, and the random bytes are 32. -/
def Proper (D : Deps) (c : SaveCall) : Prop :=
  D.Y.Reads c.comment ∧
  match c.what with
  | .pub pk => ∃ x b, makePublicKeyFromBytes D.P x b = .ok pk
  | .priv sk _ => sk.Genuine D.P ∧ (c.comment = [] ∨ ¬ marker <:+: D.Y.scalar c.comment) ∧ c.salt.length = 32
  | .sig _ => True

/-- Evidence that opening the saved key with another pass phrase took a broken primitive: the two pass phrases have the same
SHA-512 hash, or different hashes the same scrypt key, or a sealed text opens under a different key. -/
def PassphraseBroken (P : Prims) (sk : PrivateKey) (salt pw pw' : Bytes) : Prop :=
  ∃ key key', P.scrypt (P.sha512 pw) salt 524288 8 1 = .ok key ∧ P.scrypt (P.sha512 pw') salt 524288 8 1 = .ok key' ∧
    (Collides P pw' pw ∨ (P.sha512 pw' ≠ P.sha512 pw ∧ key' = key) ∨
      (key' ≠ key ∧ (P.aeadOpen key' (salt.take 12) (P.aeadSeal key (salt.take 12) sk.sk []) []).isSome))

/-- A file system in which `p` is what `c` saved, as far as the readers of the package can tell: the readers return the key or
signature; a private key comes back with its pass phrase, and with another one only if a primitive is broken. -/
def Loads (D : Deps) (fs : FS) (p : Path) (c : SaveCall) : Prop :=
  match c.what with
  | .pub pk => ∃ pk', readPublicKey D fs p = .ok pk' ∧ pk'.pk = pk.pk ∧ pk'.hash = pk.hash
  | .priv sk pw =>
    (∃ sk', readPrivateKey D fs p (some (.ok pw)) = .ok sk' ∧ sk'.sk = sk.sk ∧ sk'.pub.pk = sk.pub.pk ∧ sk'.pub.hash = sk.pub.hash) ∧
    (∀ pw' sk', pw' ≠ pw → readPrivateKey D fs p (some (.ok pw')) = .ok sk' → PassphraseBroken D.P sk c.salt pw pw')
  | .sig s => readSignature D fs p = .ok s

/-- The permissions of the file `p`, if there is one. -/
def modeOf (fs : FS) (p : Path) : Option Nat :=
  match fs.dir p with
  | some (.file i) => some (fs.mode i)
  | _ => none

/-- A private key is for its owner only; the others are for everybody to read. -/
def wantedMode : Saved → Nat
  | .priv _ _ => 0o600
  | _ => 0o644

end Sigtool.Spec
