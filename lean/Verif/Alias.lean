import Verif.KeyObj
/-!
# Alias: the memory of a private key (`sign/keys.go`)

Go slices are references. `ToCurve25519SK`, `ToCurve25519PK` and `Hash` hand out the arrays the key itself works with; the functions
that make a key copy what they are given. Here the bytes of a key live in a memory shared with the caller, who may write to every
array he knows.
-/

namespace Sigtool

/-- A `PrivateKey` and its `PublicKey` (`sign/keys.go:37-59`): addresses of arrays in the memory. -/
structure KeyRef where
  sk : Nat
  ck : Option Nat
  pk : Nat
  hash : Nat
  pkCk : Option Nat
  comment : Bytes

/-- The memory, a list of arrays, and the key the caller has. -/
structure Shared where
  mem : List Bytes
  key : Option KeyRef

/-- The array at an address. -/
def Shared.at (s : Shared) (a : Nat) : Bytes := s.mem.getD a []

/-- The key object as `KeyObj.lean` has it: the arrays as they are now. -/
def Shared.priv (s : Shared) (r : KeyRef) : PrivObj :=
  { key := { sk := s.at r.sk, pub := { pk := s.at r.pk, comment := r.comment, hash := s.at r.hash } }, ck := r.ck.map s.at }

def Shared.pub (s : Shared) (r : KeyRef) : PubObj := { key := (s.priv r).key.pub, ck := r.pkCk.map s.at }

/-- A conversion that is not cached yet is put into a new array (`sign/keys.go:198-206,455-463`). -/
def Shared.cacheSK (s : Shared) (r : KeyRef) (o : PrivObj) : Shared × KeyRef :=
  match r.ck, o.ck with
  | none, some c => ({ mem := s.mem ++ [c], key := some { r with ck := some s.mem.length } }, { r with ck := some s.mem.length })
  | _, _ => (s, r)

def Shared.cachePK (s : Shared) (r : KeyRef) (o : PubObj) : Shared × KeyRef :=
  match r.pkCk, o.ck with
  | none, some c => ({ mem := s.mem ++ [c], key := some { r with pkCk := some s.mem.length } }, { r with pkCk := some s.mem.length })
  | _, _ => (s, r)

/-- What the caller does: he makes a buffer, writes to an array, makes a key from the bytes in a buffer, asks the key for its
Curve25519 secret, its Curve25519 point or its hash, or uses it. -/
inductive MemOp where
  | alloc (v : Bytes)
  | write (a : Nat) (v : Bytes)
  | load (a : Nat) (getpw : GetPw)
  | toSK
  | toPK
  | hash
  | setIn (d : Decryptor) (senderPk : Option PublicKey)
  | addTo (e : Encryptor) (rbuf : Bytes)
  | sign (ck : Bytes)

inductive MemRes where
  | slice (r : Res Nat)
  | unit (r : Res Unit)
  | setIn (r : Res Unit) (d : Decryptor)
  | addTo (r : Res Unit) (e : Encryptor)
  | sign (r : Res Signature)

/-- A call on a nil key. -/
def MemRes.nilKey : MemRes := .unit (.panic "nil pointer dereference")

/-- One step. `write` changes the array if there is one; slices do not grow, so the length is meant to remain.
- `load`: `MakePrivateKey` (`sign/keys.go:151-180`): `makePrivateKeyFromBytes` makes new arrays for `Sk`, `Pk` and the hash.
- `toSK`: `ToCurve25519SK` returns `sk.ck` itself (`sign/keys.go:197-209`); `toPK`: `sk.PublicKey().ToCurve25519PK()` returns `pk.ck`
  itself (`:432-465`); `hash`: `sk.PublicKey().Hash()` returns `pk.hash` itself (`:468-470`).
- `setIn`: `SetPrivateKey` (`sign/encrypt.go:465-517`); `addTo`: `AddRecipient(sk.PublicKey())` (`:170-181`).
- `sign`: `SignMessage` (`sign/sign.go:44-63`), which copies the hash. -/
def Shared.step (P : Prims) (Y : Yaml) (pem : Bytes → Option PemBlock) (s : Shared) : MemOp → MemRes × Shared
  | .alloc v => (.slice (.ok s.mem.length), { s with mem := s.mem ++ [v] })
  | .write a v => (.unit (.ok ()), { s with mem := s.mem.set a v })
  | .load a getpw =>
    match makePrivateKey P Y pem (s.at a) getpw with
    | .err x => (.unit (.err x), s)
    | .panic x => (.unit (.panic x), s)
    | .ok k =>
      (.unit (.ok ()), { mem := s.mem ++ [k.sk, k.pub.pk, k.pub.hash],
                         key := some { sk := s.mem.length, ck := none, pk := s.mem.length + 1, hash := s.mem.length + 2,
                                       pkCk := none, comment := k.pub.comment } })
  | .toSK =>
    match s.key with
    | none => (.nilKey, s)
    | some r =>
      match (s.priv r).convert P with
      | (.ok _, o) => let (s, r) := s.cacheSK r o; (.slice (orErr r.ck (.msg "nil")), s)
      | (.err x, _) => (.slice (.err x), s)
      | (.panic x, _) => (.slice (.panic x), s)
  | .toPK =>
    match s.key with
    | none => (.nilKey, s)
    | some r =>
      match (s.pub r).convert with
      | (.ok _, o) => let (s, r) := s.cachePK r o; (.slice (orErr r.pkCk (.msg "nil")), s)
      | (.err x, _) => (.slice (.err x), s)
      | (.panic x, _) => (.slice (.panic x), s)
  | .hash =>
    match s.key with
    | none => (.nilKey, s)
    | some r => (.slice (.ok r.hash), s)
  | .setIn d spk =>
    match s.key with
    | none => (.nilKey, s)
    | some r => let ((x, d), o) := d.setPrivateKeyObj P (s.priv r) spk; (.setIn x d, (s.cacheSK r o).1)
  | .addTo e rbuf =>
    match s.key with
    | none => (.nilKey, s)
    | some r => let ((x, e), o) := e.addRecipientObj P (s.pub r) rbuf; (.addTo x e, (s.cachePK r o).1)
  | .sign ck =>
    match s.key with
    | none => (.nilKey, s)
    | some r => (.sign (signMessage P (s.priv r).key ck), s)

/-- The state after a history. -/
def Shared.run (P : Prims) (Y : Yaml) (pem : Bytes → Option PemBlock) (s : Shared) (ops : List MemOp) : Shared :=
  ops.foldl (fun s op => (s.step P Y pem op).2) s

end Sigtool
