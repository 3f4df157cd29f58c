import Mathlib.Algebra.BigOperators.Field
import Mathlib.Data.Fintype.BigOperators
import Mathlib.Data.Rat.BigOperators
import Verif.Spec.Sender
import Verif.Spec.Recipient
/-!
# Spec.Game: what it means that a file hides its contents, independent of the code

Chosen-plaintext secrecy, as in the textbooks.  Key pairs are drawn for `n` recipients; a spy sees the public keys and picks
two plaintexts of equal length; one of them is encrypted with fresh random bytes; the spy sees the file and says 0 or 1.  The
probability that he says 1 must not depend on which plaintext it was, up to a small number.

How small is a matter of the primitives.  Four games say what is asked of them, each between one who tells the primitive
from chance and the primitive; a spy on files is turned, by the explicit constructions at the end, into players of these
games, each of whom does little more than run him once.
-/

namespace Sigtool.Spec

/-! ### Chance -/

/-- `n` random bytes. -/
abbrev Coins (n : Nat) := Fin n → Fin 256

/-- ... as a byte string. -/
def Coins.bytes {n : Nat} (v : Coins n) : Bytes := List.ofFn fun i => UInt8.ofNat (v i)

/-- The mean over all values of a finite type, all equally likely. -/
def mean {α : Type} [Fintype α] (f : α → ℚ) : ℚ := (∑ a, f a) / Fintype.card α

/-- The mean of a yes-or-no question is the probability of yes. -/
def yes (b : Bool) : ℚ := if b then 1 else 0

/-! ### The game about files -/

/-- A spy: his own random bytes, two plaintexts for given public keys, and his verdict on a file. -/
structure Spy (n : Nat) where
  Tape : Type
  [fin : Fintype Tape]
  plain : Tape → (pks : Fin n → Bytes) → Bool → Bytes
  guess : Tape → (pks : Fin n → Bytes) → (file : Bytes) → Bool

attribute [instance] Spy.fin

/-- The two plaintexts have the same length, below `limit`. -/
def Spy.Fair {n : Nat} (A : Spy n) (limit : Nat) : Prop :=
  ∀ t pks, (A.plain t pks false).length = (A.plain t pks true).length ∧ (A.plain t pks true).length < limit

/-- What a program that encrypts is given: ephemeral scalar, root key, salt, for each recipient public key and 12 random
bytes, 64 random bytes for the trailer, plaintext. -/
structure Job (n : Nat) where
  csk : Bytes
  key : Bytes
  salt : Bytes
  pks : Fin n → Bytes
  nonces : Fin n → Bytes
  coin : Bytes
  plain : Bytes

/-- The probability that the spy says 1 when plaintext `b` is encrypted by `enc`. -/
def Spy.odds {n : Nat} (P : Prims) (enc : Job n → Bytes) (A : Spy n) (b : Bool) : ℚ :=
  mean fun t : A.Tape => mean fun coin : Coins 64 => mean fun key : Coins 32 =>
  mean fun seeds : Fin n → Coins 32 => mean fun csk : Coins 32 => mean fun salt : Coins 32 =>
  mean fun nonces : Fin n → Coins 12 =>
    let pks := fun i => P.edPub (seeds i).bytes
    yes (A.guess t pks (enc
      { csk := csk.bytes, key := key.bytes, salt := salt.bytes, pks, nonces := fun i => (nonces i).bytes
        coin := coin.bytes, plain := A.plain t pks b }))

/-- How well the spy tells the two plaintexts apart. -/
def Spy.advantage {n : Nat} (P : Prims) (enc : Job n → Bytes) (A : Spy n) : ℚ := |A.odds P enc false - A.odds P enc true|

/-! ### The four games about the primitives -/

/-- One who tries to tell the keys agreed on with `n` recipients from random ones. -/
structure KdfSpy (n : Nat) where
  Tape : Type
  [fin : Fintype Tape]
  guess : Tape → (pks : Fin n → Bytes) → (epk salt : Bytes) → (nonces : Fin n → Bytes) → (keys : Fin n → Bytes × Bytes) → Bool

attribute [instance] KdfSpy.fin

/-- He is shown keys and nonces derived from the Diffie-Hellman secrets. -/
def KdfSpy.real {n : Nat} (P : Prims) (B : KdfSpy n) : ℚ :=
  mean fun t : B.Tape => mean fun seeds : Fin n → Coins 32 => mean fun csk : Coins 32 => mean fun salt : Coins 32 =>
  mean fun nonces : Fin n → Coins 12 =>
    let pks := fun i => P.edPub (seeds i).bytes
    let shared := fun i => (P.x25519 (clamp csk.bytes) (toMontgomery (pks i))).getD []
    yes (B.guess t pks ((P.x25519 (clamp csk.bytes) basepoint).getD []) salt.bytes (fun i => (nonces i).bytes)
      fun i => wrappingKey P (shared i) salt.bytes (nonces i).bytes)

/-- He is shown random keys and nonces. -/
def KdfSpy.ideal {n : Nat} (P : Prims) (B : KdfSpy n) : ℚ :=
  mean fun t : B.Tape => mean fun seeds : Fin n → Coins 32 => mean fun csk : Coins 32 => mean fun salt : Coins 32 =>
  mean fun nonces : Fin n → Coins 12 => mean fun ns : Fin n → Coins 12 => mean fun ks : Fin n → Coins 32 =>
    let pks := fun i => P.edPub (seeds i).bytes
    yes (B.guess t pks ((P.x25519 (clamp csk.bytes) basepoint).getD []) salt.bytes (fun i => (nonces i).bytes)
      fun i => ((ks i).bytes, (ns i).bytes))

def KdfSpy.advantage {n : Nat} (P : Prims) (B : KdfSpy n) : ℚ := |B.real P - B.ideal P|

/-- A question to the AEAD: nonce, additional data, two messages one of which is to be sealed. -/
structure Query where
  nonce : Bytes
  ad : Bytes
  msg : Bool → Bytes

/-- One who tries to tell which messages are sealed under `n` random keys. -/
structure AeadSpy (n : Nat) where
  Tape : Type
  [fin : Fintype Tape]
  ask : Tape → Fin n → List Query
  guess : Tape → (Fin n → List Bytes) → Bool

attribute [instance] AeadSpy.fin

/-- He plays by the rules: no nonce twice under a key, nonces of 12 bytes, two messages of equal length up to 2^30. -/
def AeadSpy.Valid {n : Nat} (B : AeadSpy n) : Prop :=
  ∀ t i, ((B.ask t i).map (·.nonce)).Nodup ∧
    ∀ q ∈ B.ask t i, q.nonce.length = 12 ∧ (q.msg false).length = (q.msg true).length ∧ (q.msg true).length ≤ 2^30

def AeadSpy.odds {n : Nat} (P : Prims) (B : AeadSpy n) (side : Bool) : ℚ :=
  mean fun t : B.Tape => mean fun keys : Fin n → Coins 32 =>
    yes (B.guess t fun i => (B.ask t i).map fun q => P.aeadSeal (keys i).bytes q.nonce (q.msg side) q.ad)

def AeadSpy.advantage {n : Nat} (P : Prims) (B : AeadSpy n) : ℚ := |B.odds P false - B.odds P true|

/-- One who tries to tell what is derived from a random root key from random bytes: key and nonce of the sender field, the
statement the sender signs, and nonce, data key and HMAC key for a checksum of his choice. -/
structure RootSpy where
  Tape : Type
  [fin : Fintype Tape]
  epk : Tape → Bytes
  salt : Tape → Bytes
  ask : Tape → (sl : Bytes × Bytes) → (statement : Bytes) → Bytes
  guess : Tape → (sl : Bytes × Bytes) → (statement : Bytes) → (keys : Bytes × Bytes × Bytes) → Bool

attribute [instance] RootSpy.fin

def RootSpy.real (P : Prims) (B : RootSpy) : ℚ :=
  mean fun t : B.Tape => mean fun key : Coins 32 =>
    let s := senderSeal P key.bytes (B.salt t)
    let d := senderStatement P (B.epk t) (B.salt t) key.bytes
    yes (B.guess t s d (sessionKeys P key.bytes (B.ask t s d)))

def RootSpy.ideal (B : RootSpy) : ℚ :=
  mean fun t : B.Tape => mean fun sk : Coins 32 => mean fun sn : Coins 12 => mean fun d : Coins 32 =>
  mean fun nonce : Coins 12 => mean fun dkey : Coins 32 => mean fun hkey : Coins 32 =>
    yes (B.guess t (sk.bytes, sn.bytes) d.bytes (nonce.bytes, dkey.bytes, hkey.bytes))

def RootSpy.advantage (P : Prims) (B : RootSpy) : ℚ := |B.real P - B.ideal|

/-- One who tries to tell the HMAC of one message of his choice, under a random key, from random bytes. -/
structure MacSpy where
  Tape : Type
  [fin : Fintype Tape]
  msg : Tape → Bytes
  guess : Tape → (tag : Bytes) → Bool

attribute [instance] MacSpy.fin

def MacSpy.real (P : Prims) (B : MacSpy) : ℚ :=
  mean fun t : B.Tape => mean fun key : Coins 32 => yes (B.guess t (P.hmac256 key.bytes (B.msg t)))

def MacSpy.ideal (B : MacSpy) : ℚ :=
  mean fun t : B.Tape => mean fun tag : Coins 32 => yes (B.guess t tag.bytes)

def MacSpy.advantage (P : Prims) (B : MacSpy) : ℚ := |B.real P - B.ideal|

/-! ### From a spy on files to players of the four games

`sender` is the sender's 64-byte secret key, if there is one: the players know it, and so may the spy.  `block` is the block
size and `cut` says how a plaintext is cut into chunks. -/

/-- The signature in the header over the statement `d`. -/
def signed (P : Prims) (sender : Option Bytes) (d : Bytes) : Bytes :=
  match sender with
  | none => unsigned
  | some sk => P.edSign sk (P.sha512 (ascii "sigtool signed message" ++ d))

/-- The trailer: a signature over the HMAC `tag`, or random bytes. -/
def trailer (P : Prims) (sender : Option Bytes) (coin tag : Bytes) : Bytes :=
  match sender with
  | none => coin
  | some sk => P.edSign sk (P.sha512 (ascii "sigtool signed message" ++ tag))

/-- The header with the wrapped keys `dkeys`; `s` seals the sender field, `d` is the statement. -/
def head {n : Nat} (P : Prims) (sender : Option Bytes) (block : Nat) (epk salt : Bytes) (s : Bytes × Bytes) (d : Bytes)
    (nonces dkeys : Fin n → Bytes) : Bytes :=
  headerPart { chunkSize := block, salt, pk := epk, sender := P.aeadSeal s.1 s.2 (signed P sender d) []
               keys := List.ofFn fun i => { dkey := dkeys i, nonce := nonces i } }

/-- Header, its checksum, the data, the trailer. -/
def file (P : Prims) (sender : Option Bytes) (coin head body tag : Bytes) : Bytes :=
  head ++ P.sha256 head ++ body ++ trailer P sender coin tag

/-- What stands for a wrapped root key once it no longer matters. -/
def blank : Bytes := List.replicate 32 0

/-- The files' setting. -/
structure Setting where
  sender : Option Bytes
  block : Nat
  cut : Bytes → List Bytes

variable {n : Nat} (P : Prims) (S : Setting) (A : Spy n)

/-- Plays against the key agreement: draws a root key, wraps it with the keys shown, and does the rest himself. -/
def Spy.kdf (b : Bool) : KdfSpy n :=
  { Tape := A.Tape × Coins 64 × Coins 32
    guess := fun (t, coin, key) pks epk salt nonces keys =>
      let key := key.bytes
      let chunks := S.cut (A.plain t pks b)
      let h := head P S.sender S.block epk salt (senderSeal P key salt) (senderStatement P epk salt key) nonces
        fun i => P.aeadSeal (keys i).1 (keys i).2 key (pks i)
      let k := sessionKeys P key (P.sha256 h)
      A.guess t pks (file P S.sender coin.bytes h (sealedBody P k.2.1 k.1 0 chunks) (P.hmac256 k.2.2 (macInput chunks))) }

/-- Plays against the AEAD with the wrapping keys: is the root key wrapped, or 32 zero bytes? -/
def Spy.wrap (b : Bool) : AeadSpy n :=
  { Tape := A.Tape × Coins 64 × Coins 32 × (Fin n → Coins 32) × Coins 32 × Coins 32 × (Fin n → Coins 12) × (Fin n → Coins 12)
    ask := fun (_, _, key, seeds, _, _, _, ns) i =>
      [{ nonce := (ns i).bytes, ad := P.edPub (seeds i).bytes, msg := fun side => if side then blank else key.bytes }]
    guess := fun (t, coin, key, seeds, csk, salt, nonces, _) cts =>
      let key := key.bytes
      let pks := fun i => P.edPub (seeds i).bytes
      let epk := (P.x25519 (clamp csk.bytes) basepoint).getD []
      let chunks := S.cut (A.plain t pks b)
      let h := head P S.sender S.block epk salt.bytes (senderSeal P key salt.bytes) (senderStatement P epk salt.bytes key)
        (fun i => (nonces i).bytes) fun i => (cts i).headD []
      let k := sessionKeys P key (P.sha256 h)
      A.guess t pks (file P S.sender coin.bytes h (sealedBody P k.2.1 k.1 0 chunks) (P.hmac256 k.2.2 (macInput chunks))) }

/-- The header when zero bytes are wrapped. -/
def blankHead (seeds : Fin n → Coins 32) (csk salt : Coins 32) (nonces ns : Fin n → Coins 12) (ks : Fin n → Coins 32)
    (s : Bytes × Bytes) (d : Bytes) : Bytes :=
  head P S.sender S.block ((P.x25519 (clamp csk.bytes) basepoint).getD []) salt.bytes s d (fun i => (nonces i).bytes)
    fun i => P.aeadSeal (ks i).bytes (ns i).bytes blank (P.edPub (seeds i).bytes)

/-- Plays against the derivations from the root key. -/
def Spy.root (b : Bool) : RootSpy :=
  { Tape := A.Tape × Coins 64 × (Fin n → Coins 32) × Coins 32 × Coins 32 × (Fin n → Coins 12) × (Fin n → Coins 12) ×
      (Fin n → Coins 32)
    epk := fun (_, _, _, csk, _, _, _, _) => (P.x25519 (clamp csk.bytes) basepoint).getD []
    salt := fun (_, _, _, _, salt, _, _, _) => salt.bytes
    ask := fun (_, _, seeds, csk, salt, nonces, ns, ks) s d => P.sha256 (blankHead P S seeds csk salt nonces ns ks s d)
    guess := fun (t, coin, seeds, csk, salt, nonces, ns, ks) s d k =>
      let pks := fun i => P.edPub (seeds i).bytes
      let chunks := S.cut (A.plain t pks b)
      A.guess t pks (file P S.sender coin.bytes (blankHead P S seeds csk salt nonces ns ks s d)
        (sealedBody P k.2.1 k.1 0 chunks) (P.hmac256 k.2.2 (macInput chunks))) }

/-- Plays against HMAC: everything is his own but the tag under the trailer. -/
def Spy.mac (b : Bool) : MacSpy :=
  { Tape := (A.Tape × Coins 64 × (Fin n → Coins 32) × Coins 32 × Coins 32 × (Fin n → Coins 12) × (Fin n → Coins 12) ×
      (Fin n → Coins 32)) × Coins 32 × Coins 12 × Coins 32 × Coins 12 × Coins 32
    msg := fun ((t, _, seeds, _), _) => macInput (S.cut (A.plain t (fun i => P.edPub (seeds i).bytes) b))
    guess := fun ((t, coin, seeds, csk, salt, nonces, ns, ks), sk, sn, d, nonce, dkey) tag =>
      let pks := fun i => P.edPub (seeds i).bytes
      A.guess t pks (file P S.sender coin.bytes
        (blankHead P S seeds csk salt nonces ns ks (sk.bytes, sn.bytes) d.bytes)
        (sealedBody P dkey.bytes nonce.bytes 0 (S.cut (A.plain t pks b))) tag) }

/-- The data of a file as questions: chunk by chunk one plaintext or the other, the length word as additional data. -/
def bodyQueries (nonce : Bytes) : Nat → List Bytes → List Bytes → List Query
  | i, c :: cs, d :: ds =>
    { nonce := be32 i ++ nonce.drop 4, ad := lengthWord c.length cs.isEmpty, msg := fun side => if side then d else c } ::
      bodyQueries nonce (i + 1) cs ds
  | _, _, _ => []

/-- Plays against the AEAD with the data key: which plaintext is it? -/
def Spy.body : AeadSpy 1 :=
  let qs (t : A.Tape) (seeds : Fin n → Coins 32) (nonce : Coins 12) :=
    let pks := fun i => P.edPub (seeds i).bytes
    bodyQueries nonce.bytes 0 (S.cut (A.plain t pks false)) (S.cut (A.plain t pks true))
  { Tape := (A.Tape × Coins 64 × (Fin n → Coins 32) × Coins 32 × Coins 32 × (Fin n → Coins 12) × (Fin n → Coins 12) ×
      (Fin n → Coins 32)) × Coins 32 × Coins 12 × Coins 32 × Coins 12 × Coins 32
    ask := fun ((t, _, seeds, _), _, _, _, nonce, _) _ => qs t seeds nonce
    guess := fun ((t, coin, seeds, csk, salt, nonces, ns, ks), sk, sn, d, nonce, tag) cts =>
      A.guess t (fun i => P.edPub (seeds i).bytes) (file P S.sender coin.bytes
        (blankHead P S seeds csk salt nonces ns ks (sk.bytes, sn.bytes) d.bytes)
        (List.zipWith (fun q ct => q.ad ++ ct) (qs t seeds nonce) (cts 0)).flatten tag.bytes) }

/-- What the four players together achieve, `mac` left out if nobody signs. -/
def Spy.bound : ℚ :=
  ((A.kdf P S false).advantage P + (A.wrap P S false).advantage P + (A.root P S false).advantage P +
    (if S.sender.isSome then (A.mac P S false).advantage P else 0)) +
  ((A.kdf P S true).advantage P + (A.wrap P S true).advantage P + (A.root P S true).advantage P +
    (if S.sender.isSome then (A.mac P S true).advantage P else 0)) +
  (A.body P S).advantage P

end Sigtool.Spec
