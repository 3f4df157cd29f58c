import Verif.Prims
import Verif.Spec.Curve
import Mathlib.Data.Int.GCD
/-!
# Curve: key types and the Ed25519 to Curve25519 conversion (`sign/keys.go`)
-/

namespace Sigtool

/-- `PublicKey` (`sign/keys.go:48-59`).  The cached Curve25519 point `ck` is not part of this value: it is
filled with a pure function of `pk` (`sign/keys.go:433-435,463`).  Simplification: this presumes that nobody overwrites the
exported field `Pk`, or loads a second YAML key into the object (`UnmarshalBinary`), after its first use.  `KeyObj.lean` models
objects with their cache, where this is possible (C81). -/
structure PublicKey where
  pk : Bytes
  comment : Bytes := []
  hash : Bytes := []
deriving DecidableEq, Repr

/-- `PrivateKey` (`sign/keys.go:37-46`); the cache `ck` is treated as for `PublicKey`. -/
structure PrivateKey where
  sk : Bytes
  pub : PublicKey
deriving DecidableEq, Repr

/-- `pkhash` (`sign/keys.go:111-114`). -/
def pkhash (P : Prims) (pk : Bytes) : Bytes := (P.sha256 pk).take 16

/-- `NewPrivateKey` (`sign/keys.go:117-131`), `seed` being what `ed25519.GenerateKey` drew. -/
def newPrivateKey (P : Prims) (seed : Bytes) : PrivateKey :=
  { sk := seed ++ P.edPub seed
    pub := { pk := P.edPub seed, hash := pkhash P (P.edPub seed) } }

/-- `makePrivateKeyFromBytes` (`sign/keys.go:162-180`); `edsk.Public()` is the last 32 bytes. -/
def makePrivateKeyFromBytes (P : Prims) (buf : Bytes) : Res PrivateKey :=
  if buf.length ≠ 64 then .err (.msg "private key is malformed")
  else .ok { sk := buf, pub := { pk := buf.drop 32, hash := pkhash P (buf.drop 32) } }

/-- `makePublicKeyFromBytes` (`sign/keys.go:395-405`); keeps the comment that `pk` had. -/
def makePublicKeyFromBytes (P : Prims) (comment b : Bytes) : Res PublicKey :=
  if b.length ≠ 32 then .err (.msg "public key is malformed")
  else .ok { pk := b, comment := comment, hash := pkhash P b }

/-- `ToCurve25519SK` (`sign/keys.go:197-209`).  `sk.Sk[:32]` panics on a shorter slice. -/
def toCurve25519SK (P : Prims) (sk : PrivateKey) : Res Bytes :=
  if sk.sk.length < 32 then .panic "slice bounds out of range"
  else .ok (clamp ((P.sha512 (sk.sk.take 32)).take 32))

/-- `curve25519P` (`sign/keys.go:428`). -/
def curve25519P : Nat := 57896044618658097711785492504343953926634992332820282019728792003956564819949

/-- `big.Int.SetBytes`: big-endian. -/
def beNat (b : Bytes) : Nat := b.foldl (fun a x => a * 256 + x.toNat) 0

/-- The bytes of a number, least significant first, without leading zeros; `big.Int.Bytes` is its reverse. -/
def leDigits (n : Nat) : Bytes :=
  if n = 0 then [] else UInt8.ofNat n :: leDigits (n / 256)
termination_by n

/-- `big.Int.ModInverse(g, n)` (Go `math/big`): a negative `g` is first reduced; `none` means "not coprime", in
which case Go leaves the receiver unchanged. -/
def modInverse (g : Int) (n : Nat) : Option Int :=
  let g' : Nat := (if g < 0 then g % n else g).toNat
  if Nat.gcd g' n = 1 then some (Nat.gcdA g' n % n) else none

/-- `ToCurve25519PK` (`sign/keys.go:432-465`).  Simplification: a key longer than 32 bytes would panic in Go;
keys made by this package have 32 bytes. -/
def toCurve25519PK (pk : Bytes) : Bytes :=
  let bigEndianY := ((pk ++ List.replicate (32 - pk.length) 0).reverse).modify 0 (· &&& 0x7f)
  let y : Int := beNat bigEndianY
  let denom : Int := 1 - y
  let denom := (modInverse denom curve25519P).getD denom
  let u := ((y + 1) * denom % (curve25519P : Int)).toNat
  let uBytes := (leDigits u).reverse
  -- out[n-i-1] = uBytes[i], rest zero
  uBytes.reverse ++ List.replicate (32 - uBytes.length) 0

/-- A key pair that belongs together: what `NewPrivateKey` returns, or a stored copy of it (with any comment). -/
def PrivateKey.Genuine (P : Prims) (sk : PrivateKey) : Prop :=
  ∃ seed, seed.length = 32 ∧ sk.sk = seed ++ P.edPub seed ∧ sk.pub.pk = P.edPub seed ∧
    sk.pub.hash = pkhash P (P.edPub seed)

theorem newPrivateKey_genuine (P : Prims) (seed : Bytes) (h : seed.length = 32) :
    (newPrivateKey P seed).Genuine P := ⟨seed, h, rfl, rfl, rfl⟩

/-- The laws of the primitives; Diffie-Hellman agreement is stated with the specified conversion of an Ed25519 key to a
Curve25519 point (`Spec.toMontgomery`), not with the code's. -/
abbrev Laws (P : Prims) : Prop := P.Laws Spec.toMontgomery

theorem leBytes_length : ∀ k n, (Spec.leBytes k n).length = k
  | 0, _ => rfl
  | k + 1, n => by simp [Spec.leBytes, leBytes_length k]

theorem toyLaws : Laws toyPrims := toyPrims_laws _ fun _ => leBytes_length _ _

end Sigtool
