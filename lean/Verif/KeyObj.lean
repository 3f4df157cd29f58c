import Verif.Keys
import Verif.Encrypt
import Verif.Decrypt
/-!
# KeyObj: key objects with their cached Curve25519 conversion (`sign/keys.go`)

Elsewhere in the model keys are values and the cache field `ck` is left out. Here a key is an object with a cache, that lives
through a history of calls: `UnmarshalBinary` (again and again, on the same object), conversions, and use as a recipient or
as the key of a `Decryptor`.
-/

namespace Sigtool

/-! ### Public keys -/

/-- `PublicKey` (`sign/keys.go:48-59`) with its cache. -/
structure PubObj where
  key : PublicKey
  ck : Option Bytes := none
deriving DecidableEq, Repr

/-- `ToCurve25519PK` (`sign/keys.go:432-465`). A key longer than 32 bytes panics, if it is converted at all. -/
def PubObj.convert (o : PubObj) : Res Bytes × PubObj :=
  match o.ck with
  | some c => (.ok c, o)
  | none =>
    if o.key.pk.length > 32 then (.panic "index out of range", o)
    else (.ok (toCurve25519PK o.key.pk), { o with ck := some (toCurve25519PK o.key.pk) })

/-- `PublicKey.UnmarshalBinary` (`sign/keys.go:487-516`) on an existing object: an OpenSSH key replaces the whole object
(`*pk = *xk`); a YAML key only sets `Pk` and `hash` (`makePublicKeyFromBytes`, `:395-405`), comment and cache remain. -/
def PubObj.unmarshal (P : Prims) (Y : Yaml) (o : PubObj) (b : Bytes) : Res Unit × PubObj :=
  match parseSSHPublicKey P b with
  | .ok (some xk) => (.ok (), { key := xk, ck := none })
  | .ok none => (.panic "nil pointer dereference", o)
  | .panic w => (.panic w, o)
  | .err _ =>
    match unmarshalPubYaml P Y b with
    | .err x => (.err x, o)
    | .panic w => (.panic w, o)
    | .ok k => (.ok (), { o with key := { o.key with pk := k.pk, hash := k.hash } })

/-- `wrapKey` (`sign/encrypt.go:758-796`) with a key object: the point comes from the cache, the additional data from `Pk`. -/
def Encryptor.wrapKeyObj (P : Prims) (e : Encryptor) (o : PubObj) (rbuf : Bytes) : Res WrappedKey × PubObj :=
  match o.convert with
  | (.err x, o) => (.err x, o)
  | (.panic x, o) => (.panic x, o)
  | (.ok rxPK, o) =>
    match P.x25519 e.encSK rxPK with
    | none => (.err (.wrap "wrap" (.msg "bad input point: low order point")), o)
    | some sekrit =>
      let (kek, nonce) := kekOf P sekrit e.hdr.salt rbuf
      (.ok { dkey := P.aeadSeal kek nonce e.key o.key.pk, nonce := rbuf }, o)

/-- `AddRecipient` (`sign/encrypt.go:170-181`) with a key object. -/
def Encryptor.addRecipientObj (P : Prims) (e : Encryptor) (o : PubObj) (rbuf : Bytes) : (Res Unit × Encryptor) × PubObj :=
  if e.started then ((.err .encStarted, e), o)
  else
    match e.wrapKeyObj P o rbuf with
    | (.ok w, o) => ((.ok (), { e with hdr := { e.hdr with keys := e.hdr.keys ++ [w] } }), o)
    | (.err x, o) => ((.err x, e), o)
    | (.panic x, o) => ((.panic x, e), o)

/-! ### Private keys -/

/-- `PrivateKey` (`sign/keys.go:37-46`) with its cache. -/
structure PrivObj where
  key : PrivateKey
  ck : Option Bytes := none
deriving DecidableEq, Repr

/-- `ToCurve25519SK` (`sign/keys.go:197-209`). -/
def PrivObj.convert (P : Prims) (o : PrivObj) : Res Bytes × PrivObj :=
  match o.ck with
  | some c => (.ok c, o)
  | none =>
    match toCurve25519SK P o.key with
    | .ok c => (.ok c, { o with ck := some c })
    | .err x => (.err x, o)
    | .panic x => (.panic x, o)

/-- `PrivateKey.UnmarshalBinary` (`sign/keys.go:273-341`) on an existing object: an OpenSSH key replaces the whole object, a YAML
key only sets `Sk` and `pk` (`makePrivateKeyFromBytes`, `:162-180`). -/
def PrivObj.unmarshal (P : Prims) (Y : Yaml) (pem : Bytes → Option PemBlock) (o : PrivObj) (b : Bytes) (getpw : GetPw) : Res Unit × PrivObj :=
  if looksOpenSSH b then
    match parseSSHPrivateKey P pem b getpw with
    | .ok xk => (.ok (), { key := xk, ck := none })
    | .err x => (.err x, o)
    | .panic x => (.panic x, o)
  else
    match (optPw getpw).bind fun pw => unmarshalPrivYaml P Y b pw with
    | .ok k => (.ok (), { o with key := k })
    | .err x => (.err x, o)
    | .panic x => (.panic x, o)

/-- `unwrapKey` (`sign/encrypt.go:800-845`) with a key object. -/
def Decryptor.unwrapKeyObj (P : Prims) (d : Decryptor) (w : WrappedKey) (o : PrivObj) : Res (Option Bytes) × PrivObj :=
  match o.convert P with
  | (.err x, o) => (.err x, o)
  | (.panic x, o) => (.panic x, o)
  | (.ok ourSK, o) =>
    (match P.x25519 ourSK d.hdr.pk with
     | none => .err (.wrap "unwrap" (.msg "bad input point"))
     | some sekrit =>
       let (kek, nonce) := kekOf P sekrit d.hdr.salt w.nonce
       if w.dkey.length ≠ 32 + 16 then .err (.msg "unwrap: incorrect decrypt bytes")
       else .ok (P.aeadOpen kek nonce w.dkey o.key.pub.pk), o)

/-- The loop of `SetPrivateKey` (`sign/encrypt.go:469-481`) with a key object. -/
def Decryptor.findKeyObj (P : Prims) (d : Decryptor) (o : PrivObj) : List WrappedKey → Res (Option Bytes) × PrivObj
  | [] => (.ok none, o)
  | w :: ws =>
    match d.unwrapKeyObj P w o with
    | (.err x, o) => (.err (.wrap "decrypt: can't unwrap key" x), o)
    | (.panic x, o) => (.panic x, o)
    | (.ok (some k), o) => (.ok (some k), o)
    | (.ok none, o) => d.findKeyObj P o ws

/-- `SetPrivateKey` (`sign/encrypt.go:465-517`) with a key object. -/
def Decryptor.setPrivateKeyObj (P : Prims) (d : Decryptor) (o : PrivObj) (senderPk : Option PublicKey) :
    (Res Unit × Decryptor) × PrivObj :=
  match d.findKeyObj P o d.hdr.keys with
  | (.err x, o) => ((.err x, d), o)
  | (.panic x, o) => ((.panic x, d), o)
  | (.ok none, o) => ((.err .badKey, d), o)
  | (.ok (some key), o) =>
    let d := { d with key := some key, sender := senderPk }
    match d.verifySender P key senderPk with
    | .err x => ((.err (.wrap "decrypt" x), d), o)
    | .panic x => ((.panic x, d), o)
    | .ok auth =>
      let (nonce, dkey, hmackey) := dataKeys P key d.hdrsum
      ((.ok (), { d with auth := auth, nonce := nonce, hmac := some (hmackey, []), ae := some dkey,
                         bufLen := d.hdr.chunkSize + 16 }), o)

/-! ### Histories -/

/-- Calls on a public key object: load a serialised key into it, convert it, use it as a recipient of some encryptor. -/
inductive PubOp where
  | load (b : Bytes)
  | convert
  | addTo (e : Encryptor) (rbuf : Bytes)

/-- What a call on a public key object gives back. -/
inductive PubRes where
  | load (r : Res Unit)
  | convert (r : Res Bytes)
  | addTo (r : Res Unit) (e : Encryptor)

def PubObj.step (P : Prims) (Y : Yaml) (o : PubObj) : PubOp → PubRes × PubObj
  | .load b => let (r, o) := o.unmarshal P Y b; (.load r, o)
  | .convert => let (r, o) := o.convert; (.convert r, o)
  | .addTo e rbuf => let ((r, e), o) := e.addRecipientObj P o rbuf; (.addTo r e, o)

/-- The object after a history of calls. -/
def PubObj.run (P : Prims) (Y : Yaml) (o : PubObj) (ops : List PubOp) : PubObj := ops.foldl (fun o op => (o.step P Y op).2) o

/-- Calls on a private key object: load a serialised key into it, convert it, use it with some decryptor. -/
inductive PrivOp where
  | load (b : Bytes) (getpw : GetPw)
  | convert
  | setIn (d : Decryptor) (senderPk : Option PublicKey)

inductive PrivRes where
  | load (r : Res Unit)
  | convert (r : Res Bytes)
  | setIn (r : Res Unit) (d : Decryptor)

def PrivObj.step (P : Prims) (Y : Yaml) (pem : Bytes → Option PemBlock) (o : PrivObj) : PrivOp → PrivRes × PrivObj
  | .load b getpw => let (r, o) := o.unmarshal P Y pem b getpw; (.load r, o)
  | .convert => let (r, o) := o.convert P; (.convert r, o)
  | .setIn d spk => let ((r, d), o) := d.setPrivateKeyObj P o spk; (.setIn r d, o)

def PrivObj.run (P : Prims) (Y : Yaml) (pem : Bytes → Option PemBlock) (o : PrivObj) (ops : List PrivOp) : PrivObj :=
  ops.foldl (fun o op => (o.step P Y pem op).2) o

end Sigtool
