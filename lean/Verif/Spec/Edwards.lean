import Verif.Spec.Curve
import Verif.Prims
import Verif.Prime
import Mathlib.AlgebraicGeometry.EllipticCurve.Affine.Point
/-!
# Spec.Edwards: what X25519 and Ed25519 compute, from RFC 7748 and RFC 8032

The two curves as mathematics: edwards25519 with the addition formulas of RFC 8032, and curve25519 as a Weierstrass curve with
the group of its points from Mathlib. Nothing here refers to the code.
-/

namespace Sigtool.Spec

/-- A pair of coordinates, for edwards25519. -/
structure EdPoint where
  x : ZMod fieldP
  y : ZMod fieldP

/-- `d = -121665/121666` (RFC 8032, section 5.1). -/
def edD : ZMod fieldP := -121665 / 121666

/-- `-x² + y² = 1 + d x² y²` (RFC 8032, section 5.1). -/
def EdPoint.OnCurve (p : EdPoint) : Prop := -p.x^2 + p.y^2 = 1 + edD * p.x^2 * p.y^2

/-- The sum of two points (RFC 8032, section 5.1.4, in affine coordinates). -/
def EdPoint.add (p q : EdPoint) : EdPoint :=
  ⟨(p.x * q.y + q.x * p.y) / (1 + edD * p.x * q.x * p.y * q.y), (p.y * q.y + p.x * q.x) / (1 - edD * p.x * q.x * p.y * q.y)⟩

/-- `[n]p`: the neutral element `(0, 1)` plus `n` times `p`. -/
def EdPoint.mul : Nat → EdPoint → EdPoint
  | 0, _ => ⟨0, 1⟩
  | n + 1, p => (EdPoint.mul n p).add p

/-- The base point `B` (RFC 8032, section 5.1). -/
def edBase : EdPoint :=
  ⟨15112221349535400772501151409588531511454012693041857206046113283949847762202,
   46316835694926478169428394003475163141307993866256225615783033603165251855960⟩

/-- 32 bytes: `y`, little-endian, with the lowest bit of `x` in the highest bit (RFC 8032, section 5.1.2). -/
def EdPoint.encode (p : EdPoint) : Bytes := leBytes 32 (p.y.val + 2^255 * (p.x.val % 2))

/-- `v² = u³ + 486662 u² + u` (RFC 7748, section 4.1). -/
def curve25519 : WeierstrassCurve.Affine (ZMod fieldP) := ⟨0, 486662, 0, 1, 0⟩

/-- The `u` coordinate; 0 for the point at infinity (RFC 7748, section 5: the result of the ladder is `x_2 / z_2` as
`x_2 * z_2^(p - 2)`, so 0 for infinity). -/
def uOf : curve25519.Point → ZMod fieldP
  | .zero => 0
  | .some u _ _ => u

/-- 32 bytes, little-endian (RFC 7748, section 5). -/
def encodeU (u : ZMod fieldP) : Bytes := leBytes 32 u.val

/-- `decodeScalar25519` (RFC 7748, section 5), also the "pruning" of RFC 8032, section 5.1.5: bits 0, 1, 2 and 255 cleared,
bit 254 set. -/
def scalarOf (s : Bytes) : Nat := 2^254 + 8 * (leNat s % 2^254 / 8)

/-- The order of the base point (RFC 8032, section 5.1). -/
def edOrder : Nat := 2^252 + 27742317777372353535851937790883648493

/-- `-(x, y) = (-x, y)`. -/
def EdPoint.neg (p : EdPoint) : EdPoint := ⟨-p.x, p.y⟩

/-- `P` computes X25519 as RFC 7748 says (section 5), for points of the curve itself, not of its twist; a result of zero is
reported as an error (section 6.1, `golang.org/x/crypto/curve25519`). -/
def RealX25519 (P : Prims) : Prop := ∀ s (Q : curve25519.Point), s.length = 32 → Q ≠ 0 →
  P.x25519 s (encodeU (uOf Q)) = if uOf (scalarOf s • Q) = 0 then none else some (encodeU (uOf (scalarOf s • Q)))

/-- `P` computes Ed25519 as RFC 8032 says. -/
structure RealEd25519 (P : Prims) : Prop where
  /-- Section 5.1.5. -/
  edPub : ∀ seed, seed.length = 32 → P.edPub seed = (edBase.mul (scalarOf ((P.sha512 seed).take 32))).encode
  /-- Section 5.1.6; the private key of `crypto/ed25519` is the seed followed by the public key. -/
  edSign : ∀ seed pk m r R k, seed.length = 32 → pk.length = 32 →
    r = leNat (P.sha512 ((P.sha512 seed).drop 32 ++ m)) % edOrder →
    R = (edBase.mul r).encode →
    k = leNat (P.sha512 (R ++ pk ++ m)) % edOrder →
    P.edSign (seed ++ pk) m = R ++ leBytes 32 ((r + k * scalarOf ((P.sha512 seed).take 32)) % edOrder)
  /-- Section 5.1.7, as `crypto/ed25519` does it: `S` must be below the order, and the encoding of `[S]B - [k]A` is compared
  with the first half of the signature. -/
  edVerify : ∀ (A : EdPoint) m R S k, A.OnCurve → R.length = 32 → S.length = 32 →
    k = leNat (P.sha512 (R ++ A.encode ++ m)) % edOrder →
    (P.edVerify A.encode m (R ++ S) = true ↔
      leNat S < edOrder ∧ ((edBase.mul (leNat S)).add (A.neg.mul k)).encode = R)

end Sigtool.Spec
