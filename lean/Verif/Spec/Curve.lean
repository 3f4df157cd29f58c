import Verif.Base
import Mathlib.Data.ZMod.Basic
/-!
# Spec.Curve: the birational map between edwards25519 and curve25519, independent of the code

RFC 7748, section 4.1: `u = (1 + y) / (1 - y)` modulo `2^255 - 19`; RFC 8032, section 5.1.2: an Ed25519 public key is the
little-endian `y` with the sign of `x` in the top bit; RFC 7748, section 5: a Curve25519 point is the little-endian `u`.
-/

namespace Sigtool.Spec

/-- The field prime. -/
def fieldP : Nat := 2^255 - 19

/-- Little-endian value of a byte string. -/
def leNat : Bytes → Nat
  | [] => 0
  | b :: bs => b.toNat + 256 * leNat bs

/-- The `k` low bytes of `n`, least significant first. -/
def leBytes : Nat → Nat → Bytes
  | 0, _ => []
  | k + 1, n => UInt8.ofNat (n % 256) :: leBytes k (n / 256)

/-- The `y` coordinate encoded in an Ed25519 public key (the sign bit of `x` removed). -/
def edY (pk : Bytes) : ZMod fieldP := ((leNat pk % 2^255 : Nat) : ZMod fieldP)

/-- The Montgomery `u` coordinate of the point with Edwards coordinate `y`; 0 for `y = 1`, where the fraction is not
defined (in `ZMod`, `0⁻¹ = 0`). -/
def montU (y : ZMod fieldP) : ZMod fieldP := (1 + y) * (1 - y)⁻¹

/-- The Curve25519 point for an Ed25519 public key. -/
def toMontgomery (pk : Bytes) : Bytes := leBytes 32 (montU (edY pk)).val

end Sigtool.Spec
