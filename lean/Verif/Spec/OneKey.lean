import Verif.Spec.OneFile
/-!
# Specification for C123: one signature, two public keys
-/

namespace Sigtool.Spec

/-- The encoding of the point (0, -1) of edwards25519, which has order two: the number `2^255 - 20`, least significant byte
first. -/
def weakKey2 : Bytes := 236 :: List.replicate 30 255 ++ [127]

/-- Two different public keys whose SHA-256 hashes agree in the first sixteen bytes. -/
def KeyHashClash (P : Prims) (a b : Bytes) : Prop := a ≠ b ∧ (P.sha256 a).take 16 = (P.sha256 b).take 16

/-- Two different generated public keys `[a]B` and `[a']B` and numbers `k = SHA-512(R ‖ A ‖ M)`, `k' = SHA-512(R ‖ A' ‖ M')`
with `k a = k' a'` modulo the order of the base point: to make two such keys for one signature is to find a hash value with a
prescribed remainder. -/
def SecretClash (P : Prims) (seed seed' sig m m' : Bytes) : Prop :=
  P.edPub seed ≠ P.edPub seed' ∧
  leNat (P.sha512 (sig.take 32 ++ P.edPub seed ++ m)) * scalarOf ((P.sha512 seed).take 32) % edOrder =
    leNat (P.sha512 (sig.take 32 ++ P.edPub seed' ++ m')) * scalarOf ((P.sha512 seed').take 32) % edOrder

end Sigtool.Spec
