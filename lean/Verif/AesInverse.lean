import Verif.Spec.Aes
/-!
# The inverse cipher of AES-256 undoes the cipher
-/

namespace Sigtool
open Spec

theorem UInt8.all_of {p : UInt8 → Prop} (h : ∀ n < 256, p (UInt8.ofNat n)) (a : UInt8) : p a := by
  have := h a.toNat a.toNat_lt
  rwa [UInt8.ofNat_toNat] at this

theorem top_bit (a : UInt8) : (a >>> 7 = 0 ∨ a >>> 7 = 1) ∧ (a ≥ 128 ↔ a >>> 7 = 1) :=
  UInt8.all_of (p := fun a => (a >>> 7 = 0 ∨ a >>> 7 = 1) ∧ (a ≥ 128 ↔ a >>> 7 = 1)) (by decide +kernel) a

theorem xtime_xor (a b : UInt8) : xtime (a ^^^ b) = xtime a ^^^ xtime b := by
  have h : (if a ^^^ b ≥ 128 then (0x1b : UInt8) else 0) = (if a ≥ 128 then 0x1b else 0) ^^^ (if b ≥ 128 then 0x1b else 0) := by
    simp only [(top_bit (a ^^^ b)).2, (top_bit a).2, (top_bit b).2, UInt8.shiftRight_xor]
    rcases (top_bit a).1 with h | h <;> rcases (top_bit b).1 with h' | h' <;> rw [h, h'] <;> decide
  unfold xtime
  rw [h, UInt8.shiftLeft_xor]
  ac_rfl

theorem gmulBits_xor (n : Nat) (a b c : UInt8) : gmulBits n a (b ^^^ c) = gmulBits n a b ^^^ gmulBits n a c := by
  induction n generalizing a b c with
  | zero => simp [gmulBits]
  | succ n ih =>
    simp only [gmulBits]
    split
    · rfl
    · rw [xtime_xor, ih]
      split
      · generalize gmulBits n (a / 2) (xtime b) = x
        generalize gmulBits n (a / 2) (xtime c) = y
        ac_rfl
      · simp only [UInt8.zero_xor]

theorem gmul_xor (a b c : UInt8) : gmul a (b ^^^ c) = gmul a b ^^^ gmul a c := gmulBits_xor _ _ _ _

theorem col_a (a : UInt8) : gmul 14 (gmul 2 a) ^^^ gmul 9 (gmul 3 a) ^^^ gmul 13 (gmul 1 a) ^^^ gmul 11 (gmul 1 a) = a :=
  UInt8.all_of (p := fun a => gmul 14 (gmul 2 a) ^^^ gmul 9 (gmul 3 a) ^^^ gmul 13 (gmul 1 a) ^^^ gmul 11 (gmul 1 a) = a) (by decide +kernel) a
theorem col_b (a : UInt8) : gmul 14 (gmul 3 a) ^^^ gmul 9 (gmul 1 a) ^^^ gmul 13 (gmul 1 a) ^^^ gmul 11 (gmul 2 a) = 0 :=
  UInt8.all_of (p := fun a => gmul 14 (gmul 3 a) ^^^ gmul 9 (gmul 1 a) ^^^ gmul 13 (gmul 1 a) ^^^ gmul 11 (gmul 2 a) = 0) (by decide +kernel) a
theorem col_c (a : UInt8) : gmul 14 (gmul 1 a) ^^^ gmul 9 (gmul 1 a) ^^^ gmul 13 (gmul 2 a) ^^^ gmul 11 (gmul 3 a) = 0 :=
  UInt8.all_of (p := fun a => gmul 14 (gmul 1 a) ^^^ gmul 9 (gmul 1 a) ^^^ gmul 13 (gmul 2 a) ^^^ gmul 11 (gmul 3 a) = 0) (by decide +kernel) a
theorem col_d (a : UInt8) : gmul 14 (gmul 1 a) ^^^ gmul 9 (gmul 2 a) ^^^ gmul 13 (gmul 3 a) ^^^ gmul 11 (gmul 1 a) = 0 :=
  UInt8.all_of (p := fun a => gmul 14 (gmul 1 a) ^^^ gmul 9 (gmul 2 a) ^^^ gmul 13 (gmul 3 a) ^^^ gmul 11 (gmul 1 a) = 0) (by decide +kernel) a

theorem xor_regroup (a1 a2 a3 a4 b1 b2 b3 b4 c1 c2 c3 c4 d1 d2 d3 d4 : UInt8) :
    a1 ^^^ d1 ^^^ c1 ^^^ b1 ^^^ (d2 ^^^ c2 ^^^ b2 ^^^ a2) ^^^ (c3 ^^^ b3 ^^^ a3 ^^^ d3) ^^^ (b4 ^^^ a4 ^^^ d4 ^^^ c4) =
      (a1 ^^^ a2 ^^^ a3 ^^^ a4) ^^^ (b1 ^^^ b2 ^^^ b3 ^^^ b4) ^^^ (c1 ^^^ c2 ^^^ c3 ^^^ c4) ^^^ (d1 ^^^ d2 ^^^ d3 ^^^ d4) := by
  ac_rfl

theorem xor_cancel (a b : UInt8) : a ^^^ (a ^^^ b) = b := by rw [← UInt8.xor_assoc, UInt8.xor_self, UInt8.zero_xor]

/-- One column. -/
theorem mix_column (a b c d : UInt8) :
    gmul 14 (gmul 2 a ^^^ gmul 1 d ^^^ gmul 1 c ^^^ gmul 3 b) ^^^ gmul 9 (gmul 2 d ^^^ gmul 1 c ^^^ gmul 1 b ^^^ gmul 3 a) ^^^
      gmul 13 (gmul 2 c ^^^ gmul 1 b ^^^ gmul 1 a ^^^ gmul 3 d) ^^^ gmul 11 (gmul 2 b ^^^ gmul 1 a ^^^ gmul 1 d ^^^ gmul 3 c) = a := by
  simp only [gmul_xor]
  rw [xor_regroup, col_a, col_b, col_c, col_d]
  simp only [UInt8.xor_zero]

theorem state16 (s : Bytes) (h : s.length = 16) : ∃ a b c d e f g i j k l m n o p q : UInt8, s = [a, b, c, d, e, f, g, i, j, k, l, m, n, o, p, q] := by
  match s, h with
  | [a, b, c, d, e, f, g, i, j, k, l, m, n, o, p, q], _ => exact ⟨a, b, c, d, e, f, g, i, j, k, l, m, n, o, p, q, rfl⟩

theorem invMix_mix (s : Bytes) (h : s.length = 16) : invMixColumns (mixColumns s) = s := by
  obtain ⟨a, b, c, d, e, f, g, i, j, k, l, m, n, o, p, q, rfl⟩ := state16 s h
  simp only [invMixColumns, mixColumns, mixWith, byteAt, List.range, List.range.loop, List.map_cons, List.map_nil, Nat.reduceDiv, Nat.reduceMul,
    Nat.reduceMod, Nat.reduceAdd, List.getD_cons_zero, List.getD_cons_succ]
  simp only [mix_column]

theorem invShift_shift (s : Bytes) (h : s.length = 16) : invShiftRows (shiftRows s) = s := by
  obtain ⟨a, b, c, d, e, f, g, i, j, k, l, m, n, o, p, q, rfl⟩ := state16 s h
  rfl

theorem ark_ark (k s : Bytes) (h : s.length = 16) : addRoundKey k (addRoundKey k s) = s := by
  obtain ⟨a, b, c, d, e, f, g, i, j, k', l, m, n, o, p, q, rfl⟩ := state16 s h
  simp only [addRoundKey, byteAt, List.range, List.range.loop, List.map_cons, List.map_nil, List.getD_cons_zero, List.getD_cons_succ, xor_cancel]

theorem invSub_sub (s : Bytes) : (s.map sbox).map invSbox = s := by
  rw [List.map_map]
  conv => rhs; rw [← List.map_id s]
  refine List.map_congr_left fun a _ => ?_
  exact UInt8.all_of (p := fun a => invSbox (sbox a) = a) invSbox_sbox a

def decFrom (s : Bytes) : List Bytes → Bytes
  | [] => []
  | k :: ks => invRounds (addRoundKey k s) ks

theorem ark_length (k s : Bytes) : (addRoundKey k s).length = 16 := by simp [addRoundKey]
theorem shift_length (s : Bytes) : (shiftRows s).length = 16 := by simp [shiftRows]
theorem mix_length (s : Bytes) : (mixColumns s).length = 16 := by simp [mixColumns, mixWith]

theorem decFrom_rounds (ks : List Bytes) (hk : ks ≠ []) : ∀ (s : Bytes) (rs : List Bytes), s.length = 16 → rs ≠ [] →
    decFrom (aesRounds s ks) (ks.reverse ++ rs) = invRounds (shiftRows (s.map sbox)) rs := by
  induction ks with
  | nil => exact absurd rfl hk
  | cons k ks ih =>
    intro s rs hs hr
    cases ks with
    | nil =>
      show invRounds (addRoundKey k (addRoundKey k _)) rs = _
      rw [ark_ark _ _ (shift_length _)]
    | cons k' ks' =>
      rw [aesRounds, List.reverse_cons, List.append_assoc]
      · rw [ih (by simp) _ ([k] ++ rs) (ark_length _ _) (by simp)]
        cases rs with
        | nil => exact absurd rfl hr
        | cons r rs' =>
          show invRounds (invMixColumns (addRoundKey k ((invShiftRows (shiftRows _)).map invSbox))) (r :: rs') = _
          rw [invShift_shift _ (by simp [addRoundKey]), invSub_sub, ark_ark _ _ (mix_length _), invMix_mix _ (shift_length _)]
      · simp

/-- AES-256 decryption undoes encryption, for every key and block. -/
theorem invAes_aes (key block : Bytes) (h : block.length = 16) : invAes256 key (aes256 key block) = block := by
  have hl := pieces_length 16 15 (expandKey 52 8 (pieces 4 8 key).reverse).reverse.flatten
  have e : invAes256 key (aes256 key block) = decFrom (aes256 key block) (roundKeys key).reverse := by
    unfold invAes256 decFrom; rfl
  rw [e]
  rw [show pieces 16 15 (expandKey 52 8 (pieces 4 8 key).reverse).reverse.flatten = roundKeys key from rfl] at hl
  unfold aes256
  revert hl
  generalize roundKeys key = ks
  intro hl
  match ks, hl with
  | k :: k' :: ks', _ =>
    show decFrom (aesRounds (addRoundKey k block) (k' :: ks')) (k :: k' :: ks').reverse = _
    rw [List.reverse_cons, decFrom_rounds _ (by simp) _ [k] (ark_length _ _) (by simp)]
    show addRoundKey k ((invShiftRows (shiftRows _)).map invSbox) = _
    rw [invShift_shift _ (by simp [addRoundKey]), invSub_sub, ark_ark _ _ h]

end Sigtool
