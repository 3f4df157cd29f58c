import Verif.Spec.Sha2
import Verif.Spec.Aes
import Verif.Spec.Scrypt
import Verif.Spec.Edwards
/-!
# Spec.Standard: the primitives are the functions of their standards
-/

namespace Sigtool.Spec

/-- The primitives are those of FIPS 180-4, RFC 2104, RFC 5869, FIPS 197, SP 800-38A, SP 800-38D, RFC 7914, RFC 7748 and RFC 8032. Of
bcrypt_pbkdf only the length of its result is said. -/
structure Standard (P : Prims) : Prop where
  sha256 : P.sha256 = Spec.sha256
  sha512 : P.sha512 = Spec.sha512
  hmac256 : P.hmac256 = hmac Spec.sha256 64
  hkdf512 : ∀ ikm salt info n, n ≤ 255 * 64 → P.hkdf512 ikm salt info n = hkdf (hmac Spec.sha512 128) 64 ikm salt info n
  aeadSeal : P.aeadSeal = gcmSeal aes256
  aeadOpen : P.aeadOpen = gcmOpen aes256
  scrypt : P.scrypt = scryptKey
  aesCtr : P.aesCtr = ctr256
  aesCbcDec : P.aesCbcDec = cbcDec256
  x25519 : RealX25519 P
  x25519_lengths : ∀ s p k, P.x25519 s p = some k → k.length = 32 ∧ p.length = 32 ∧ s.length = 32
  ed25519 : RealEd25519 P
  bcrypt_len : ∀ pw salt rounds n k, P.bcryptPbkdf pw salt rounds n = some k → k.length = n

/-- The parameters `scrypt.Key` works with: `N` a power of two above 1, `r` and `p` positive, `r * p` below `2^30`, and a table of at
most `2^48` bytes. -/
def ScryptFits (n r p : Int) : Prop :=
  (∃ k : Nat, 0 < k ∧ n = 2 ^ k) ∧ 0 < r ∧ 0 < p ∧ r * p < 2^30 ∧ 128 * (n * r) ≤ 2^48

/-- The parameters `scrypt.Key` crashes on: `N` is a power of two above 1, and `p` is 0, or `r` is 0 and `p` is positive or at most
`-2^56`, or they pass the checks and the table is larger than `2^48` bytes. -/
def ScryptCrashes (n r p : Int) : Prop :=
  (∃ k : Nat, 0 < k ∧ n = 2 ^ k) ∧
    (p = 0 ∨ (r = 0 ∧ (0 < p ∨ p ≤ -2^56)) ∨ (0 < r ∧ 0 < p ∧ r * p < 2^30 ∧ 2^48 < 128 * (n * r) ∧ n * r ≤ 2^56 - 1))

end Sigtool.Spec
