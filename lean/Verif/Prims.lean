import Verif.Base
/-!
# Prims: the cryptographic primitives sigtool calls

The primitives belong to Go's standard library and `golang.org/x/crypto`, not to `/repo`; the model takes them as
the parameter `P : Prims`, and what is assumed about them is the structure `Prims.Laws`, a hypothesis of each
theorem that needs it.  The laws are statements that hold of the real algorithms for every input (functional
correctness); no law says that something is computationally hard.  Security statements name the forgery or
collision explicitly instead.
-/

namespace Sigtool

/-- The primitives. -/
structure Prims where
  /-- `crypto/sha256` -/
  sha256 : Bytes → Bytes
  /-- `crypto/sha512` -/
  sha512 : Bytes → Bytes
  /-- `hmac.New(sha256.New, key)`, the tag of all bytes written -/
  hmac256 : (key data : Bytes) → Bytes
  /-- `hkdf.New(sha512.New, ikm, salt, info)`, the first `n` bytes -/
  hkdf512 : (ikm salt info : Bytes) → (n : Nat) → Bytes
  /-- AES-256-GCM `Seal(nil, nonce, pt, ad)`: ciphertext and tag -/
  aeadSeal : (key nonce pt ad : Bytes) → Bytes
  /-- AES-256-GCM `Open(nil, nonce, ct, ad)` -/
  aeadOpen : (key nonce ct ad : Bytes) → Option Bytes
  /-- `curve25519.X25519(scalar, point)`; `none` is the error for a point that is not 32 bytes long or of low order -/
  x25519 : (scalar point : Bytes) → Option Bytes
  /-- the public key of a 32-byte Ed25519 seed -/
  edPub : (seed : Bytes) → Bytes
  /-- `ed25519.Sign(sk, msg)` for a 64-byte `sk` -/
  edSign : (sk msg : Bytes) → Bytes
  /-- `ed25519.Verify(pk, msg, sig)` for a 32-byte `pk` -/
  edVerify : (pk msg sig : Bytes) → Bool
  /-- `scrypt.Key(pass, salt, N, r, p, 32)`; it returns an error for bad parameters, and may crash for some (it divides by
  `p` and allocates `128*N*r` bytes) -/
  scrypt : (pass salt : Bytes) → (n r p : Int) → Res Bytes
  /-- `bcrypt_pbkdf` key derivation of the SSH private key format (`none` is its error) -/
  bcryptPbkdf : (pw salt : Bytes) → (rounds n : Nat) → Option Bytes
  /-- AES-256-CTR key stream application -/
  aesCtr : (key iv data : Bytes) → Bytes
  /-- AES-256-CBC decryption of a whole number of blocks -/
  aesCbcDec : (key iv data : Bytes) → Bytes

/-- `clamp` (`sign/keys.go:520-525`): clear the low three bits of byte 0, clear bit 7 and set bit 6 of byte 31. -/
def clamp (k : Bytes) : Bytes :=
  (k.modify 0 (· &&& 248)).modify 31 (fun b => (b &&& 127) ||| 64)

@[simp] theorem clamp_length (k : Bytes) : (clamp k).length = k.length := by simp [clamp]

/-- `curve25519.Basepoint`: 9 in little-endian. -/
def basepoint : Bytes := 9 :: List.replicate 31 0

/-- Functional correctness of the primitives.  `toMont` is the conversion of an Ed25519 public key to a
Curve25519 point (a parameter here; the theorems use `Spec.toMontgomery`). -/
structure Prims.Laws (P : Prims) (toMont : Bytes → Bytes) : Prop where
  sha256_len : ∀ x, (P.sha256 x).length = 32
  sha512_len : ∀ x, (P.sha512 x).length = 64
  hmac_len : ∀ k x, (P.hmac256 k x).length = 32
  /-- RFC 5869 allows up to 255 hash lengths. -/
  hkdf_len : ∀ a b c n, n ≤ 255 * 64 → (P.hkdf512 a b c n).length = n
  seal_len : ∀ k n p a, k.length = 32 → n.length = 12 → p.length ≤ 2^30 →
    (P.aeadSeal k n p a).length = p.length + 16
  open_seal : ∀ k n p a, k.length = 32 → n.length = 12 → p.length ≤ 2^30 →
    P.aeadOpen k n (P.aeadSeal k n p a) a = some p
  /-- Decryption is deterministic and the tag is a function of the rest: what opens to `p` is the sealing of
  `p`. -/
  seal_open : ∀ k n c p a, k.length = 32 → n.length = 12 → P.aeadOpen k n c a = some p → c = P.aeadSeal k n p a
  /-- Opening returns everything but the 16-byte tag. -/
  open_len : ∀ k n c p a, P.aeadOpen k n c a = some p → c.length = p.length + 16
  ed_pub_len : ∀ s, s.length = 32 → (P.edPub s).length = 32
  ed_sign_len : ∀ k m, k.length = 64 → (P.edSign k m).length = 64
  ed_verify_sign : ∀ s m, s.length = 32 → P.edVerify (P.edPub s) m (P.edSign (s ++ P.edPub s) m) = true
  /-- The first 32 bytes of a signature encode the point `r*B`, of prime order; 32 zero bytes encode a point of
  order 4. -/
  ed_sign_ne_zero : ∀ k m, k.length = 64 → P.edSign k m ≠ List.replicate 64 0
  /-- Diffie-Hellman agreement between an ephemeral scalar `s` and the Ed25519 key with seed `seed`, including
  that neither side hits the low-order error. -/
  dh : ∀ s seed, s.length = 32 → seed.length = 32 → ∃ epk k,
    P.x25519 (clamp s) basepoint = some epk ∧ epk.length = 32 ∧ k.length = 32 ∧
    P.x25519 (clamp s) (toMont (P.edPub seed)) = some k ∧
    P.x25519 (clamp ((P.sha512 seed).take 32)) epk = some k
  x25519_len : ∀ s p k, P.x25519 s p = some k → k.length = 32
  /-- `X25519` checks the length of the point. -/
  x25519_point : ∀ s p k, P.x25519 s p = some k → p.length = 32
  /-- ... and of the scalar. -/
  x25519_scalar : ∀ s p k, P.x25519 s p = some k → s.length = 32
  scrypt_len : ∀ pass salt n r p k, P.scrypt pass salt n r p = .ok k → k.length = 32
  /-- The parameters sigtool writes are accepted. -/
  scrypt_ok : ∀ pass salt, ∃ k, P.scrypt pass salt 524288 8 1 = .ok k
  bcrypt_len : ∀ pw salt rounds n k, P.bcryptPbkdf pw salt rounds n = some k → k.length = n

/-! ### A concrete instance

Not secure, but it obeys every law and it can be evaluated, so it serves as the concrete case that shows the
hypotheses of the theorems can be met. -/

/-- A position-weighted checksum in one byte (the low byte of a polynomial hash modulo a prime). -/
def toySum (x : Bytes) : UInt8 := UInt8.ofNat (x.foldl (fun a b => (a * 31 + b.toNat + 1) % 65521) 7)

/-- Spread a checksum over `n` bytes. -/
def toyHash (n : Nat) (x : Bytes) : Bytes := (List.range n).map fun i => toySum (UInt8.ofNat i :: x)

def toyTag (k n p a : Bytes) : Bytes := toyHash 16 (k ++ n ++ a ++ p)

/-- A toy AEAD: the plaintext followed by a keyed checksum. -/
def toyOpen (k n c a : Bytes) : Option Bytes :=
  if c.length < 16 then none
  else if c = c.take (c.length - 16) ++ toyTag k n (c.take (c.length - 16)) a then some (c.take (c.length - 16))
  else none

/-- The instance. -/
def toyPrims : Prims where
  sha256 := toyHash 32
  sha512 := toyHash 64
  hmac256 k x := toyHash 32 (k ++ x)
  hkdf512 a b c n := toyHash n (a ++ b ++ c)
  aeadSeal k n p a := p ++ toyTag k n p a
  aeadOpen := toyOpen
  x25519 s p := if s.length = 32 ∧ p.length = 32 then some (List.replicate 32 5) else none
  edPub s := toyHash 32 s
  edSign k m := 1 :: toyHash 63 (k.drop 32 ++ m)
  edVerify pk m sig := sig == 1 :: toyHash 63 (pk ++ m)
  scrypt pass salt n r p :=
    if p = 0 then .panic "integer divide by zero"
    else if n > 1 ∧ r > 0 ∧ p > 0 then .ok (toyHash 32 (pass ++ salt)) else .err (.msg "scrypt: bad parameters")
  bcryptPbkdf pw salt rounds n := if rounds < 1 ∨ pw = [] ∨ salt = [] then none else some (toyHash n (pw ++ salt))
  aesCtr key iv data := data.map (· + toySum (key ++ iv))
  aesCbcDec key iv data := data.map (· - toySum (key ++ iv))

@[simp] theorem toyHash_length (n : Nat) (x : Bytes) : (toyHash n x).length = n := by simp [toyHash]

theorem toyPrims_laws (toMont : Bytes → Bytes) (hm : ∀ b, (toMont b).length = 32) : toyPrims.Laws toMont where
  sha256_len _ := by simp [toyPrims]
  sha512_len _ := by simp [toyPrims]
  hmac_len _ _ := by simp [toyPrims]
  hkdf_len _ _ _ _ _ := by simp [toyPrims]
  seal_len _ _ _ _ _ _ _ := by simp [toyPrims, toyTag]
  open_seal k n p a _ _ _ := by
    simp [toyPrims, toyOpen, toyTag]
  seal_open k n c p a _ _ h := by
    simp only [toyPrims, toyOpen] at h ⊢
    split at h
    · cases h
    · split at h
      · rename_i h1 h2
        cases h; exact h2
      · cases h
  open_len k n c p a h := by
    simp only [toyPrims, toyOpen] at h
    split at h
    · cases h
    · split at h
      · cases h; simp; omega
      · cases h
  ed_pub_len _ _ := by simp [toyPrims]
  ed_sign_len _ _ _ := by simp [toyPrims]
  ed_verify_sign s m hs := by
    simp [toyPrims, ← hs]
  ed_sign_ne_zero k m _ h := by
    simp only [toyPrims, List.replicate_succ] at h
    exact absurd (List.cons.inj h).1 (by decide)
  dh s seed hs _ := ⟨List.replicate 32 5, List.replicate 32 5, by simp [toyPrims, basepoint, hs], by simp, by simp,
    by simp [toyPrims, hm, hs], by simp [toyPrims]⟩
  x25519_len s p k h := by
    simp only [toyPrims] at h
    split at h <;> cases h
    simp
  x25519_point s p k h := by
    simp only [toyPrims] at h
    split at h
    · next h' => exact h'.2
    · cases h
  x25519_scalar s p k h := by
    simp only [toyPrims] at h
    split at h
    · next h' => exact h'.1
    · cases h
  scrypt_len pass salt n r p k h := by
    simp only [toyPrims] at h
    split at h
    · cases h
    · split at h <;> cases h
      simp
  scrypt_ok pass salt := ⟨_, by simp only [toyPrims]; rw [if_neg (by decide), if_pos (by decide)]⟩
  bcrypt_len pw salt rounds n k h := by
    simp only [toyPrims] at h
    split at h <;> cases h
    simp

end Sigtool
