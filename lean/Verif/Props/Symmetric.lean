import Verif.Spec.Gcm
import Verif.Props.Agreement
/-!
# C101: what is assumed about encryption, HMAC and HKDF, from their standards
-/

namespace Sigtool
open Spec

theorem beOut_length : ∀ k n, (beOut k n).length = k
  | 0, _ => rfl
  | k + 1, n => by simp [beOut, beOut_length k]

theorem gctrStream_length (aes : Bytes → Bytes → Bytes) (h : ∀ k b, (aes k b).length = 16) (key : Bytes) :
    ∀ n cb, (gctrStream aes key n cb).length = 16 * n
  | 0, _ => rfl
  | n + 1, cb => by simp [gctrStream, gctrStream_length aes h key n, h]; omega

theorem gctr_length (aes : Bytes → Bytes → Bytes) (h : ∀ k b, (aes k b).length = 16) (key icb data : Bytes) :
    (gctr aes key icb data).length = data.length := by
  simp [gctr, xorBytes, gctrStream_length aes h]; omega

theorem xor_xor : ∀ (a b : Bytes), a.length ≤ b.length → xorBytes (xorBytes a b) b = a
  | [], _, _ => by simp [xorBytes]
  | x :: a, [], h => by simp at h
  | x :: a, y :: b, h => by
    have := xor_xor a b (by simpa using h)
    simp only [xorBytes] at this ⊢
    simp [this, UInt8.xor_assoc]

theorem gctr_gctr (aes : Bytes → Bytes → Bytes) (h : ∀ k b, (aes k b).length = 16) (key icb data : Bytes) :
    gctr aes key icb (gctr aes key icb data) = data := by
  have hl := gctr_length aes h key icb data
  rw [gctr, hl, gctr]
  refine xor_xor _ _ ?_
  rw [gctrStream_length aes h]; omega

theorem gcmTag_length (aes : Bytes → Bytes → Bytes) (h : ∀ k b, (aes k b).length = 16) (key nonce ct ad : Bytes) :
    (gcmTag aes key nonce ct ad).length = 16 := by
  simp [gcmTag, xorBytes, beOut_length, h]

theorem hkdfBlocks_length (mac : Bytes → Bytes → Bytes) (h : Nat) (hm : ∀ k x, (mac k x).length = h) (prk info : Bytes) :
    ∀ n i prev, (hkdfBlocks mac prk info i prev n).length = h * n
  | 0, _, _ => rfl
  | n + 1, i, prev => by
    simp only [hkdfBlocks, List.length_append, hm, hkdfBlocks_length mac h hm prk info n]
    rw [Nat.mul_succ, Nat.add_comm]

theorem hkdf_length (mac : Bytes → Bytes → Bytes) (h : Nat) (h0 : 0 < h) (hm : ∀ k x, (mac k x).length = h)
    (ikm salt info : Bytes) (n : Nat) : (hkdf mac h ikm salt info n).length = n := by
  simp only [hkdf, List.length_take, hkdfBlocks_length mac h hm]
  have : n ≤ h * ((n + h - 1) / h) := by
    have := Nat.div_add_mod (n + h - 1) h
    have := Nat.mod_lt (n + h - 1) h0
    omega
  omega

/-- **C101** GCM with any block cipher of 16-byte blocks: what was sealed opens to the same bytes with the same key, nonce and
associated data; what opens is what would be sealed; 16 bytes are added. -/
theorem C101_gcm (P : Prims) (S : RealSymmetric P) (k n a : Bytes) :
    (∀ p, P.aeadOpen k n (P.aeadSeal k n p a) a = some p) ∧
    (∀ c p, P.aeadOpen k n c a = some p → c = P.aeadSeal k n p a) ∧
    (∀ p, (P.aeadSeal k n p a).length = p.length + 16) ∧
    (∀ c p, P.aeadOpen k n c a = some p → c.length = p.length + 16) := by
  obtain ⟨aes, hl, hs, ho⟩ := S.gcm
  have len : ∀ p, (gcmSeal aes k n p a).length = p.length + 16 := fun p => by
    simp [gcmSeal, gctr_length aes hl, gcmTag_length aes hl]
  have op : ∀ c p, gcmOpen aes k n c a = some p → c = gcmSeal aes k n p a := by
    intro c p h
    unfold gcmOpen at h
    split at h
    · cases h
    · dsimp only at h
      split at h
      · rename_i ht
        injection h with h
        subst h
        simp only [gcmSeal, gctr_gctr aes hl, ht, List.take_append_drop]
      · cases h
  refine ⟨fun p => ?_, fun c p h => ?_, fun p => ?_, fun c p h => ?_⟩
  · rw [hs, ho, gcmOpen, len, if_neg (by omega)]
    have hc := gctr_length aes hl k (inc32 (j0 n)) p
    have e1 : (gcmSeal aes k n p a).take (p.length + 16 - 16) = gctr aes k (inc32 (j0 n)) p := by
      simp only [gcmSeal]
      rw [show p.length + 16 - 16 = (gctr aes k (inc32 (j0 n)) p).length by omega, List.take_left]
    have e2 : (gcmSeal aes k n p a).drop (p.length + 16 - 16) = gcmTag aes k n (gctr aes k (inc32 (j0 n)) p) a := by
      simp only [gcmSeal]
      rw [show p.length + 16 - 16 = (gctr aes k (inc32 (j0 n)) p).length by omega, List.drop_left]
    dsimp only
    rw [e1, e2, if_pos rfl, gctr_gctr aes hl]
  · rw [ho] at h; rw [hs]; exact op c p h
  · rw [hs]; exact len p
  · rw [ho] at h; rw [op c p h]; exact len p

/-- `GHASH` of the specification on test case 2 of the GCM submission (McGrew and Viega, appendix B). -/
example : ghash 0x66e94bd4ef8a2c3b884cfa59ca342b2e#128 0 2
    (beOut 16 0x0388dace60b6a392f328c2b971b2fe78 ++ beOut 8 0 ++ beOut 8 128) =
    0xf38cbb1ad69223dcc3457ae5b6b0f885#128 := by decide +kernel

/-- What is left to assume when X25519, Ed25519, GCM, HMAC and HKDF are the standards' functions: lengths of hashes and of what
the password functions return, and that X25519 checks the lengths of its arguments. -/
structure Prims.Lengths (P : Prims) : Prop where
  sha256_len : ∀ x, (P.sha256 x).length = 32
  sha512_len : ∀ x, (P.sha512 x).length = 64
  x25519_len : ∀ s p k, P.x25519 s p = some k → k.length = 32 ∧ p.length = 32 ∧ s.length = 32
  scrypt_len : ∀ pass salt n r p k, P.scrypt pass salt n r p = .ok k → k.length = 32
  scrypt_ok : ∀ pass salt, ∃ k, P.scrypt pass salt 524288 8 1 = .ok k
  bcrypt_len : ∀ pw salt rounds n k, P.bcryptPbkdf pw salt rounds n = some k → k.length = n

/-- **C101** Every hypothesis about primitives made by the theorems of this development holds of primitives that are the
functions of RFC 7748, RFC 8032, SP 800-38D, RFC 2104 and RFC 5869 and whose results have the right lengths. -/
theorem C101_laws (P : Prims) (N : P.Lengths) (S : RealSymmetric P) (R : RealX25519 P) (E : RealEd25519 P) : Laws P := by
  refine C100_laws P ?_ R E
  have hm512 : ∀ k x, (hmac P.sha512 128 k x).length = 64 := fun k x => N.sha512_len _
  exact
    { sha256_len := N.sha256_len
      sha512_len := N.sha512_len
      hmac_len := fun k x => by rw [S.hmac256]; exact N.sha256_len _
      hkdf_len := fun a b c n hn => by
        rw [S.hkdf512 _ _ _ _ hn]; exact hkdf_length _ 64 (by norm_num) hm512 _ _ _ _
      seal_len := fun k n p a _ _ _ => (C101_gcm P S k n a).2.2.1 p
      open_seal := fun k n p a _ _ _ => (C101_gcm P S k n a).1 p
      seal_open := fun k n c p a _ _ h => (C101_gcm P S k n a).2.1 c p h
      open_len := fun k n c p a h => (C101_gcm P S k n a).2.2.2 c p h
      x25519_len := fun s p k h => (N.x25519_len s p k h).1
      x25519_point := fun s p k h => (N.x25519_len s p k h).2.1
      x25519_scalar := fun s p k h => (N.x25519_len s p k h).2.2
      scrypt_len := N.scrypt_len
      scrypt_ok := N.scrypt_ok
      bcrypt_len := N.bcrypt_len }

/-! ### The hypotheses can be met -/

/-- The standards' functions, with a toy block cipher and toy hash functions. -/
noncomputable def standardPrims : Prims :=
  { curvePrims with
    hmac256 := hmac toyPrims.sha256 64
    hkdf512 := hkdf (hmac toyPrims.sha512 128) 64
    aeadSeal := gcmSeal fun k b => toyHash 16 (k ++ b)
    aeadOpen := gcmOpen fun k b => toyHash 16 (k ++ b) }

theorem standardPrims_ed25519 : RealEd25519 standardPrims where
  edPub := curvePrims_ed25519.edPub
  edSign := curvePrims_ed25519.edSign
  edVerify := curvePrims_ed25519.edVerify

/-- The hypotheses of C101 are met. -/
example : standardPrims.Lengths ∧ RealSymmetric standardPrims ∧ RealX25519 standardPrims ∧ RealEd25519 standardPrims :=
  ⟨{ sha256_len := curvePrims_basic.sha256_len
     sha512_len := curvePrims_basic.sha512_len
     x25519_len := fun s p k h => ⟨curvePrims_basic.x25519_len s p k h, curvePrims_basic.x25519_point s p k h,
       curvePrims_basic.x25519_scalar s p k h⟩
     scrypt_len := curvePrims_basic.scrypt_len
     scrypt_ok := curvePrims_basic.scrypt_ok
     bcrypt_len := curvePrims_basic.bcrypt_len },
   { gcm := ⟨_, fun k b => toyHash_length 16 (k ++ b), fun _ _ _ _ => rfl, fun _ _ _ _ => rfl⟩
     hmac256 := fun _ _ => rfl
     hkdf512 := fun _ _ _ _ _ => rfl },
   curvePrims_x25519, standardPrims_ed25519⟩

end Sigtool
