import Verif.Spec.Edwards
/-!
# Specification for C120: one signature, two files
-/

namespace Sigtool.Spec

/-- The encoding of the neutral element of edwards25519: 1, then 31 zeros.  It is a public key that nobody generates: no seed
has it. -/
def weakKey : Bytes := 1 :: List.replicate 31 0

/-- `R` = the neutral element, `S` = 0. -/
def weakSig : Bytes := weakKey ++ List.replicate 32 0

/-- Two different messages for which Ed25519 computes the same number `k = SHA-512(R ‖ A ‖ M) mod ℓ` for the signature `sig`
and the public key `pk`. -/
def ScalarClash (P : Prims) (pk sig m m' : Bytes) : Prop :=
  m ≠ m' ∧ leNat (P.sha512 (sig.take 32 ++ pk ++ m)) % edOrder = leNat (P.sha512 (sig.take 32 ++ pk ++ m')) % edOrder

end Sigtool.Spec
