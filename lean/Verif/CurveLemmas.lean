import Verif.Curve
import Verif.Prime
/-!
# CurveLemmas: the code's big-integer arithmetic computes the specified field division
-/

namespace Sigtool
open Spec (fieldP leNat leBytes edY montU toMontgomery)

theorem curve25519P_eq : curve25519P = fieldP := by norm_num [curve25519P, fieldP]

theorem leNat_append (a b : Bytes) : leNat (a ++ b) = leNat a + 256 ^ a.length * leNat b := by
  induction a with
  | nil => simp [leNat]
  | cons x a ih => simp only [List.cons_append, leNat, ih, List.length_cons, pow_succ]; ring

theorem leNat_zeros (k : Nat) : leNat (List.replicate k 0) = 0 := by
  induction k with
  | zero => rfl
  | succ k ih => simp [List.replicate_succ, leNat, ih]

theorem leNat_lt (a : Bytes) : leNat a < 256 ^ a.length := by
  induction a with
  | nil => simp [leNat]
  | cons x a ih =>
    have := x.toNat_lt
    simp only [leNat, List.length_cons, pow_succ]; omega

theorem beNat_append (a : Bytes) (x : UInt8) : beNat (a ++ [x]) = beNat a * 256 + x.toNat := by
  simp [beNat, List.foldl_append]

theorem beNat_reverse (a : Bytes) : beNat a.reverse = leNat a := by
  induction a with
  | nil => rfl
  | cons x a ih => rw [List.reverse_cons, beNat_append, ih, leNat]; omega

/-- Reversing and clearing the top bit of 32 bytes gives the low 255 bits. -/
theorem beNat_masked (a : Bytes) (h : a.length = 32) :
    beNat (a.reverse.modify 0 (· &&& 0x7f)) = leNat a % 2 ^ 255 := by
  obtain ⟨i, b, rfl⟩ : ∃ i b, a = i ++ [b] := by
    rcases List.eq_nil_or_concat a with rfl | ⟨i, b, rfl⟩
    · simp at h
    · exact ⟨i, b, by simp⟩
  have hi : i.length = 31 := by simpa using h
  have e : ((i ++ [b]).reverse.modify 0 (· &&& 0x7f)) = (i ++ [b &&& 0x7f]).reverse := by
    simp
  rw [e, beNat_reverse, leNat_append, leNat_append, hi]
  have hlt := leNat_lt i
  rw [hi] at hlt
  have hb : (b &&& 0x7f).toNat = b.toNat % 128 := by
    rw [UInt8.toNat_and]
    exact Nat.and_two_pow_sub_one_eq_mod b.toNat 7
  simp only [leNat, hb]
  norm_num at hlt ⊢
  omega

theorem leDigits_pad (k : Nat) : ∀ n, n < 256 ^ k →
    (leDigits n).length ≤ k ∧ leDigits n ++ List.replicate (k - (leDigits n).length) 0 = leBytes k n := by
  induction k with
  | zero =>
    intro n h
    have : n = 0 := by simpa using h
    subst this
    unfold leDigits; simp [leBytes]
  | succ k ih =>
    intro n h
    unfold leDigits
    split
    · rename_i h0
      subst h0
      refine ⟨by simp, ?_⟩
      have := (ih 0 (by positivity)).2
      unfold leDigits at this
      simp only [if_true, List.length_nil, List.nil_append, Nat.sub_zero] at this ⊢
      simp [leBytes, List.replicate_succ, this]
    · have h2 : n / 256 < 256 ^ k := by rw [pow_succ] at h; omega
      obtain ⟨h3, h4⟩ := ih _ h2
      refine ⟨by simp; omega, ?_⟩
      simp only [List.length_cons, List.cons_append, Nat.add_sub_add_right, leBytes, h4]
      congr 1
      apply UInt8.toNat_inj.mp; simp

/-- The result of `ModInverse`, or the untouched receiver if there is none, is the field inverse up to a factor that does
not matter: `a * modInverse x = a / x` in the field, when `x ≡ 0` both sides are 0. -/
theorem modInverse_field (g : Int) (a : ZMod fieldP) :
    a * (((modInverse g fieldP).getD g : Int) : ZMod fieldP) = a * ((g : Int) : ZMod fieldP)⁻¹ := by
  unfold modInverse
  dsimp only
  generalize hg' : (if g < 0 then g % (fieldP : Int) else g).toNat = g'
  have hp : (0 : Int) < (fieldP : Int) := by norm_num [fieldP]
  have hcast : ((g' : Nat) : ZMod fieldP) = ((g : Int) : ZMod fieldP) := by
    rw [← hg']
    split
    · have h0 : 0 ≤ g % (fieldP : Int) := Int.emod_nonneg _ (by omega)
      have : (((g % (fieldP : Int)).toNat : Int) : ZMod fieldP) = ((g % (fieldP : Int) : Int) : ZMod fieldP) := by
        rw [Int.toNat_of_nonneg h0]
      rw [Int.cast_natCast] at this
      rw [this]
      exact ZMod.intCast_mod g fieldP
    · rename_i h0
      have : ((g.toNat : Int) : ZMod fieldP) = ((g : Int) : ZMod fieldP) := by
        rw [Int.toNat_of_nonneg (by omega)]
      rw [Int.cast_natCast] at this
      exact this
  split
  · rename_i hgcd
    simp only [Option.getD_some]
    have h1 : ((g' : Nat) : ZMod fieldP) * ((Nat.gcdA g' fieldP : Int) : ZMod fieldP) = 1 := by
      have := Nat.gcd_eq_gcd_ab g' fieldP
      rw [hgcd] at this
      have h2 := congrArg (fun z : Int => (z : ZMod fieldP)) this
      simp only [Int.cast_add, Int.cast_mul, Int.cast_natCast, CharP.cast_eq_zero, zero_mul, add_zero,
        Nat.cast_one, Int.cast_one] at h2
      exact h2.symm
    rw [ZMod.intCast_mod, ← hcast]
    congr 1
    exact (inv_eq_of_mul_eq_one_right h1).symm
  · rename_i hgcd
    simp only [Option.getD_none]
    have hz : ((g : Int) : ZMod fieldP) = 0 := by
      rw [← hcast, ZMod.natCast_eq_zero_iff]
      rcases (Nat.coprime_or_dvd_of_prime Prime.fieldP_prime g') with h | h
      · exact absurd (Nat.gcd_comm _ _ ▸ h) hgcd
      · exact h
    rw [hz]; simp

/-- `ToCurve25519PK` is the specified conversion. -/
theorem toCurve25519PK_eq (pk : Bytes) (h : pk.length ≤ 32) : toCurve25519PK pk = toMontgomery pk := by
  unfold toCurve25519PK
  dsimp only
  rw [beNat_masked _ (by simp; omega), leNat_append, leNat_zeros, Nat.mul_zero, Nat.add_zero, curve25519P_eq]
  generalize hy : leNat pk % 2 ^ 255 = y
  generalize hu : (((y : Int) + 1) * (modInverse (1 - (y : Int)) fieldP).getD (1 - (y : Int)) % (fieldP : Int)).toNat = u
  have hp : (0 : Int) < (fieldP : Int) := by norm_num [fieldP]
  have hlt : u < fieldP := by
    have := Int.emod_lt_of_pos (((y : Int) + 1) * (modInverse (1 - (y : Int)) fieldP).getD (1 - (y : Int))) hp
    omega
  have hval : ((u : Nat) : ZMod fieldP) = montU (edY pk) := by
    have h0 := Int.emod_nonneg (((y : Int) + 1) * (modInverse (1 - (y : Int)) fieldP).getD (1 - (y : Int)))
      (show (fieldP : Int) ≠ 0 by omega)
    have : ((u : Int) : ZMod fieldP) = ((((y : Int) + 1) * (modInverse (1 - (y : Int)) fieldP).getD (1 - (y : Int)) %
        (fieldP : Int) : Int) : ZMod fieldP) := by
      rw [← hu, Int.toNat_of_nonneg h0]
    rw [Int.cast_natCast, ZMod.intCast_mod, Int.cast_mul, modInverse_field] at this
    rw [this]
    simp only [montU, edY, hy, Int.cast_add, Int.cast_natCast, Int.cast_one, Int.cast_sub]
    ring
  have hu2 : u = (montU (edY pk)).val := by
    rw [← hval, ZMod.val_natCast, Nat.mod_eq_of_lt hlt]
  have hb : u < 256 ^ 32 := lt_trans hlt (by norm_num [fieldP])
  rw [List.reverse_reverse, List.length_reverse, (leDigits_pad 32 u hb).2, hu2]
  rfl

end Sigtool
