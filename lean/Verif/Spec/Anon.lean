import Verif.Spec.Game
/-!
# Spec.Anon: what it means that a file does not say whom it is for, independent of the code

Two groups of `n` people draw key pairs; a watcher sees all public keys, and picks a plaintext and `m` further recipients
whose secret keys he has.  The file is made for one group and these.  He may know the secret key of the sender.  He says for
which group it was.
-/

namespace Sigtool.Spec

/-- A watcher; `pks false` and `pks true` are the groups. -/
structure Watcher (n m : Nat) where
  Tape : Type
  [fin : Fintype Tape]
  /-- seeds of the recipients that are his -/
  known : Tape → (pks : Bool → Fin n → Bytes) → Fin m → Bytes
  plain : Tape → (pks : Bool → Fin n → Bytes) → Bytes
  guess : Tape → (pks : Bool → Fin n → Bytes) → (file : Bytes) → Bool

attribute [instance] Watcher.fin

/-- His seeds are seeds. -/
def Watcher.Fair {n m : Nat} (A : Watcher n m) : Prop := ∀ t pks j, (A.known t pks j).length = 32

/-- The probability that he says "the second" when the file is for group `b` and his own. -/
def Watcher.odds {n m : Nat} (P : Prims) (enc : Job (n + m) → Bytes) (A : Watcher n m) (b : Bool) : ℚ :=
  mean fun t : A.Tape => mean fun coin : Coins 64 => mean fun key : Coins 32 => mean fun mine : Fin m → Coins 12 =>
  mean fun first : Fin n → Coins 32 => mean fun second : Fin n → Coins 32 =>
  mean fun csk : Coins 32 => mean fun salt : Coins 32 => mean fun nonces : Fin n → Coins 12 =>
    let pks := fun c i => P.edPub ((if c then second else first) i).bytes
    yes (A.guess t pks (enc
      { csk := csk.bytes, key := key.bytes, salt := salt.bytes
        pks := Fin.append (pks b) fun j => P.edPub (A.known t pks j)
        nonces := Fin.append (fun i => (nonces i).bytes) fun j => (mine j).bytes
        coin := coin.bytes, plain := A.plain t pks }))

def Watcher.advantage {n m : Nat} (P : Prims) (enc : Job (n + m) → Bytes) (A : Watcher n m) : ℚ :=
  |A.odds P enc false - A.odds P enc true|

/-- One who tries to tell boxes around one 32-byte message of his choice for each of `n` random keys from 48 random bytes
each. -/
structure BoxSpy (n : Nat) where
  Tape : Type
  [fin : Fintype Tape]
  nonce : Tape → Fin n → Bytes
  ad : Tape → Fin n → Bytes
  msg : Tape → Fin n → Bytes
  guess : Tape → (Fin n → Bytes) → Bool

attribute [instance] BoxSpy.fin

def BoxSpy.Valid {n : Nat} (B : BoxSpy n) : Prop := ∀ t i, (B.nonce t i).length = 12 ∧ (B.msg t i).length = 32

def BoxSpy.real {n : Nat} (P : Prims) (B : BoxSpy n) : ℚ :=
  mean fun t : B.Tape => mean fun keys : Fin n → Coins 32 =>
    yes (B.guess t fun i => P.aeadSeal (keys i).bytes (B.nonce t i) (B.msg t i) (B.ad t i))

def BoxSpy.ideal {n : Nat} (B : BoxSpy n) : ℚ :=
  mean fun t : B.Tape => mean fun boxes : Fin n → Coins 48 => yes (B.guess t fun i => (boxes i).bytes)

def BoxSpy.advantage {n : Nat} (P : Prims) (B : BoxSpy n) : ℚ := |B.real P - B.ideal|

variable {n m : Nat} (P : Prims) (S : Setting) (A : Watcher n m)

/-- The file, made from the boxes for the hidden group; the watcher's own boxes are made with his secret keys. -/
def Watcher.file (t : A.Tape) (coin key : Bytes) (mine : Fin m → Bytes) (pks : Bool → Fin n → Bytes) (epk salt : Bytes)
    (nonces boxes : Fin n → Bytes) : Bytes :=
  let chunks := S.cut (A.plain t pks)
  let own := fun j =>
    let seed := A.known t pks j
    let k := wrappingKey P ((P.x25519 (clamp ((P.sha512 seed).take 32)) epk).getD []) salt (mine j)
    P.aeadSeal k.1 k.2 key (P.edPub seed)
  let h := head P S.sender S.block epk salt (senderSeal P key salt) (senderStatement P epk salt key)
    (Fin.append nonces mine) (Fin.append boxes own)
  let k := sessionKeys P key (P.sha256 h)
  Spec.file P S.sender coin h (sealedBody P k.2.1 k.1 0 chunks) (P.hmac256 k.2.2 (macInput chunks))

/-- The two groups, if group `b` has the public keys `theirs` and the other one the seeds `others`. -/
def twoGroups (b : Bool) (theirs : Fin n → Bytes) (others : Fin n → Coins 32) (c : Bool) (i : Fin n) : Bytes :=
  if c = b then theirs i else P.edPub (others i).bytes

/-- Plays against the key agreement with group `b`; the other group is his own. -/
def Watcher.kdf (b : Bool) : KdfSpy n :=
  { Tape := A.Tape × Coins 64 × Coins 32 × (Fin m → Coins 12) × (Fin n → Coins 32)
    guess := fun (t, coin, key, mine, others) theirs epk salt nonces keys =>
      let pks := twoGroups P b theirs others
      A.guess t pks (A.file P S t coin.bytes key.bytes (fun j => (mine j).bytes) pks epk salt nonces
        fun i => P.aeadSeal (keys i).1 (keys i).2 key.bytes (theirs i)) }

/-- Plays against the AEAD with the wrapping keys for group `b`. -/
def Watcher.box (b : Bool) : BoxSpy n :=
  { Tape := A.Tape × Coins 64 × Coins 32 × (Fin m → Coins 12) × (Fin n → Coins 32) × (Fin n → Coins 32) × Coins 32 ×
      Coins 32 × (Fin n → Coins 12) × (Fin n → Coins 12)
    nonce := fun (_, _, _, _, _, _, _, _, _, ns) i => (ns i).bytes
    ad := fun (_, _, _, _, _, seeds, _) i => P.edPub (seeds i).bytes
    msg := fun (_, _, key, _) _ => key.bytes
    guess := fun (t, coin, key, mine, others, seeds, csk, salt, nonces, _) boxes =>
      let pks := twoGroups P b (fun i => P.edPub (seeds i).bytes) others
      A.guess t pks (A.file P S t coin.bytes key.bytes (fun j => (mine j).bytes) pks
        ((P.x25519 (clamp csk.bytes) basepoint).getD []) salt.bytes (fun i => (nonces i).bytes) boxes) }

end Sigtool.Spec
