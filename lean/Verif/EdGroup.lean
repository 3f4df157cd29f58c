import Verif.EdwardsBase
import Verif.CurveLemmas
/-!
# EdGroup: multiples of points of edwards25519 and of curve25519

Not part of the model: what the proofs about key agreement and signatures need.
-/

namespace Sigtool.Ed
open Spec Sigtool.Prime

/-- A point of edwards25519 and its image on curve25519. -/
def Img (p : EdPoint) (Q : curve25519.Point) : Prop :=
  p.OnCurve ∧ Rel (486662 : ZMod fieldP) (cN : ZMod fieldP) p.x p.y Q

theorem img_zero : Img ⟨0, 1⟩ 0 := by
  refine ⟨?_, .inl ⟨rfl, rfl, rfl⟩⟩
  unfold EdPoint.OnCurve; ring

theorem img_base : Img edBase montBase := ⟨base_on, base_rel⟩

theorem img_add {p q : EdPoint} {P Q : curve25519.Point} (hp : Img p P) (hq : Img q Q) : Img (p.add q) (P + Q) := by
  have e1 := (onCurve_iff p).mp hp.1
  have e2 := (onCurve_iff q).mp hq.1
  obtain ⟨hm, hq'⟩ := complete edD (iN : ZMod fieldP) consts.two i_sq d_not_square _ _ _ _ e1 e2
  have a : (p.add q).x = (p.x * q.y + q.x * p.y) / (1 + edD * (p.x * q.x) * (p.y * q.y)) := by
    rw [EdPoint.add]; ring
  have b : (p.add q).y = (p.y * q.y + p.x * q.x) / (1 - edD * (p.x * q.x) * (p.y * q.y)) := by
    rw [EdPoint.add]; ring
  refine ⟨?_, ?_⟩
  · rw [onCurve_iff, a, b]
    exact sum_on _ _ _ _ _ _ _ e1 e2 rfl rfl hm hq'
  · rw [a, b]
    exact rel_add consts _ _ _ _ _ _ e1 e2 rfl rfl hm hq' P Q hp.2 hq.2

theorem img_mul {p : EdPoint} {P : curve25519.Point} (hp : Img p P) : ∀ n : Nat, Img (p.mul n) (n • P)
  | 0 => by rw [zero_nsmul]; exact img_zero
  | n + 1 => by rw [succ_nsmul]; exact img_add (img_mul hp n) hp

theorem img_neg {p : EdPoint} {P : curve25519.Point} (hp : Img p P) : Img p.neg (-P) := by
  obtain ⟨h1, h2⟩ := hp
  refine ⟨?_, ?_⟩
  · unfold EdPoint.OnCurve EdPoint.neg at *
    dsimp only
    linear_combination h1
  · rcases h2 with ⟨a, b, rfl⟩ | ⟨a, h, rfl⟩
    · exact .inl ⟨by simp [EdPoint.neg, a], b, rfl⟩
    · refine .inr ⟨a, ?_⟩
      have hu : p.neg.y = p.y := rfl
      rw [hu]
      refine (some_congr (h := (WeierstrassCurve.Affine.nonsingular_neg ..).mpr h) rfl ?_ :
        ∃ h', (-.some _ _ h : (mont (486662 : ZMod fieldP)).Point) = .some _ _ h')
      simp only [WeierstrassCurve.Affine.negY, mont, EdPoint.neg]
      rw [div_neg]; ring

theorem x_ne {p : EdPoint} (h : p.OnCurve) (h1 : p.y ≠ 1) (h2 : p.y ≠ -1) : p.x ≠ 0 := by
  intro e
  have := (onCurve_iff p).mp h
  rw [e] at this
  have : (p.y - 1) * (p.y + 1) = 0 := by linear_combination -this
  rcases mul_eq_zero.mp this with h | h
  · exact h1 (by linear_combination h)
  · exact h2 (by linear_combination h)

theorem x_zero {p : EdPoint} (h : p.OnCurve) (h2 : p.y = -1) : p.x = 0 := by
  have := (onCurve_iff p).mp h
  rw [h2] at this
  have : p.x^2 * (1 + edD) = 0 := by linear_combination this
  rcases mul_eq_zero.mp this with h | h
  · exact pow_eq_zero_iff (by norm_num) |>.mp h
  · exact absurd h consts.d1

theorem two_torsion_nonsingular : curve25519.Nonsingular (0 : ZMod fieldP) 0 := by
  rw [WeierstrassCurve.Affine.nonsingular_iff, WeierstrassCurve.Affine.equation_iff]
  simp [curve25519]

/-- Every point of edwards25519 has an image. -/
theorem img_exists {p : EdPoint} (h : p.OnCurve) : ∃ Q, Img p Q := by
  by_cases h1 : p.y = 1
  · have E := (onCurve_iff p).mp h
    rw [h1] at E
    have : p.x^2 * (1 + edD) = 0 := by linear_combination E
    refine ⟨0, h, .inl ⟨?_, h1, rfl⟩⟩
    rcases mul_eq_zero.mp this with t | t
    · exact pow_eq_zero_iff (by norm_num) |>.mp t
    · exact absurd t consts.d1
  have a1 : 1 - p.y ≠ 0 := fun t => h1 (by linear_combination -t)
  by_cases hm : p.y = -1
  · refine ⟨.some 0 0 two_torsion_nonsingular, h, .inr ⟨h1, ?_⟩⟩
    refine some_congr (h := two_torsion_nonsingular) ?_ ?_ <;> rw [hm] <;> simp
  · have hx := x_ne h h1 hm
    have b1 : 1 + p.y ≠ 0 := fun t => hm (by linear_combination t)
    have hn : curve25519.Nonsingular ((1 + p.y) / (1 - p.y)) (cN * ((1 + p.y) / (1 - p.y)) / p.x) := by
      rw [WeierstrassCurve.Affine.nonsingular_iff, WeierstrassCurve.Affine.equation_iff]
      constructor
      · have hc := consts.hc
        have hA := consts.hA
        have E := (onCurve_iff p).mp h
        have hd := consts.d1
        simp only [curve25519]
        generalize p.x = x at *
        generalize p.y = y at *
        generalize (cN : ZMod fieldP) = c at *
        generalize (486662 : ZMod fieldP) = A at *
        generalize edD = d at *
        field_simp
        grind
      · right
        simp only [curve25519]
        have : (cN : ZMod fieldP) * ((1 + p.y) / (1 - p.y)) / p.x ≠ 0 :=
          div_ne_zero (mul_ne_zero consts.c0 (div_ne_zero b1 a1)) hx
        intro e
        exact mul_ne_zero consts.two this (by linear_combination e)
    exact ⟨.some _ _ hn, h, .inr ⟨h1, hn, rfl⟩⟩

/-- A point is determined by its image. -/
theorem img_inj {p q : EdPoint} {Q : curve25519.Point} (hp : Img p Q) (hq : Img q Q) : p = q := by
  obtain ⟨hp1, hp2⟩ := hp
  obtain ⟨hq1, hq2⟩ := hq
  obtain ⟨px, py⟩ := p
  obtain ⟨qx, qy⟩ := q
  dsimp only at hp2 hq2
  rcases hp2 with ⟨rfl, rfl, rfl⟩ | ⟨a, h, rfl⟩
  · rcases hq2 with ⟨rfl, rfl, _⟩ | ⟨a, h, e⟩
    · rfl
    · cases e
  · rcases hq2 with ⟨rfl, rfl, e⟩ | ⟨b, h', e⟩
    · cases e
    · rw [WeierstrassCurve.Affine.Point.some.injEq] at e
      obtain ⟨e1, e2⟩ := e
      have a1 : 1 - py ≠ 0 := fun t => a (by linear_combination -t)
      have b1 : 1 - qy ≠ 0 := fun t => b (by linear_combination -t)
      have hy : py = qy := by
        rw [div_eq_div_iff a1 b1] at e1
        have : 2 * (py - qy) = 0 := by linear_combination e1
        rcases mul_eq_zero.mp this with t | t
        · exact absurd t consts.two
        · linear_combination t
      subst hy
      by_cases hm : py = -1
      · have t1 : px = 0 := x_zero hp1 hm
        have t2 : qx = 0 := x_zero hq1 hm
        rw [t1, t2]
      · have hx := x_ne hp1 a hm
        have hx' := x_ne hq1 a hm
        dsimp only at hx hx'
        have hu : (1 + py) / (1 - py) ≠ 0 := div_ne_zero (fun t => hm (by linear_combination t)) a1
        rw [div_eq_div_iff hx hx'] at e2
        have := mul_left_cancel₀ (mul_ne_zero consts.c0 hu) e2
        rw [this]

theorem img_u {p : EdPoint} {Q : curve25519.Point} (hp : Img p Q) (hQ : Q ≠ 0) : uOf Q = montU p.y := by
  rcases hp.2 with ⟨_, _, e⟩ | ⟨_, h, rfl⟩
  · exact absurd e hQ
  · rw [montU, ← div_eq_mul_inv]; rfl

/-! ### Encodings -/

theorem leNat_leBytes (k : Nat) : ∀ n, leNat (leBytes k n) = n % 256 ^ k := by
  induction k with
  | zero => intro n; simp [leBytes, leNat, Nat.mod_one]
  | succ k ih =>
    intro n
    simp only [leBytes, leNat, ih, UInt8.toNat_ofNat']
    rw [show (256 : Nat) ^ (k + 1) = 256 * 256 ^ k from by rw [pow_succ, Nat.mul_comm], Nat.mod_mul]
    omega

theorem val_lt (y : ZMod fieldP) : y.val < 2^255 := lt_trans (ZMod.val_lt y) (by decide +kernel)

theorem leNat_encode (p : EdPoint) : leNat p.encode = p.y.val + 2^255 * (p.x.val % 2) := by
  rw [EdPoint.encode, leNat_leBytes, Nat.mod_eq_of_lt]
  have := val_lt p.y
  have h2 : p.x.val % 2 < 2 := Nat.mod_lt _ (by norm_num)
  norm_num at this ⊢
  omega

theorem encode_length (p : EdPoint) : p.encode.length = 32 := leBytes_length _ _

theorem edY_encode (p : EdPoint) : edY p.encode = p.y := by
  rw [edY, leNat_encode, Nat.add_mul_mod_self_left, Nat.mod_eq_of_lt (val_lt _)]
  simp

theorem toMontgomery_encode {p : EdPoint} {Q : curve25519.Point} (hp : Img p Q) (hQ : Q ≠ 0) :
    toMontgomery p.encode = encodeU (uOf Q) := by
  rw [toMontgomery, edY_encode, ← img_u hp hQ]; rfl

theorem basepoint_eq : basepoint = encodeU (uOf montBase) := by
  have : uOf montBase = ((9 : Nat) : ZMod fieldP) := rfl
  rw [this, encodeU, ZMod.val_natCast_of_lt (by decide +kernel)]
  decide +kernel

/-- Points of order at most 2. -/
theorem two_torsion {Q : curve25519.Point} (h : uOf Q = 0) : 2 • Q = 0 := by
  cases Q with
  | zero => exact nsmul_zero 2
  | some u v hn =>
    change u = 0 at h
    subst h
    have he := (WeierstrassCurve.Affine.equation_iff ..).mp hn.1
    simp only [curve25519] at he
    have hv : v = 0 := pow_eq_zero_iff (n := 2) (by norm_num) |>.mp (by linear_combination he)
    subst hv
    rw [two_nsmul]
    exact WeierstrassCurve.Affine.Point.add_self_of_Y_eq (by simp [WeierstrassCurve.Affine.negY, curve25519])

theorem mul_base_zero (n : Nat) : n • montBase = 0 ↔ order ∣ n := by
  rw [← base_order]; exact addOrderOf_dvd_iff_nsmul_eq_zero.symm

theorem u_mul_base {n : Nat} (h : ¬ order ∣ n) : n • montBase ≠ 0 ∧ uOf (n • montBase) ≠ 0 := by
  have h2 : ¬ order ∣ 2 := fun d => absurd (Nat.le_of_dvd (by norm_num) d) (by decide +kernel)
  have key : uOf (n • montBase) ≠ 0 := by
    intro e
    have := two_torsion e
    rw [smul_smul, mul_base_zero] at this
    rcases (Nat.Prime.dvd_mul order_prime).mp this with d | d
    · exact h2 d
    · exact h d
  exact ⟨fun e => key (by rw [e]; rfl), key⟩

/-- The image of the neutral element. -/
theorem img_neutral {Q : curve25519.Point} (h : Img ⟨0, 1⟩ Q) : Q = 0 := by
  rcases h.2 with ⟨_, _, e⟩ | ⟨e, _⟩
  · exact e
  · exact absurd rfl e

/-- Points with `y = 0` have order 4. -/
theorem four_torsion {p : EdPoint} {Q : curve25519.Point} (hp : Img p Q) (hy : p.y = 0) : 4 • Q = 0 := by
  have h2 := img_add hp hp
  have E := (onCurve_iff p).mp hp.1
  rw [hy] at E
  have e : p.add p = ⟨0, -1⟩ := by
    rw [EdPoint.add, hy]
    congr 1
    · simp
    · rw [mul_zero, mul_zero, sub_zero, div_one]; linear_combination E
  rw [e] at h2
  have h4 := img_add h2 h2
  have e4 : (⟨0, -1⟩ : EdPoint).add ⟨0, -1⟩ = ⟨0, 1⟩ := by
    rw [EdPoint.add]; congr 1 <;> simp
  rw [e4] at h4
  have := img_neutral h4
  rw [← this, show (4 : Nat) = 2 + 2 from rfl, add_nsmul, two_nsmul]

/-- The encoding determines the point. -/
theorem encode_inj {p q : EdPoint} (hp : p.OnCurve) (hq : q.OnCurve) (h : p.encode = q.encode) : p = q := by
  have e := congrArg leNat h
  rw [leNat_encode, leNat_encode] at e
  have h1 := val_lt p.y
  have h2 := val_lt q.y
  have hy : p.y.val = q.y.val := by omega
  have hx : p.x.val % 2 = q.x.val % 2 := by omega
  have hy' : p.y = q.y := ZMod.val_injective _ hy
  have E1 := (onCurve_iff p).mp hp
  have E2 := (onCurve_iff q).mp hq
  rw [← hy'] at E2
  have hd : 1 + edD * p.y^2 ≠ 0 := by
    intro t
    have hy0 : p.y ≠ 0 := by
      intro z; rw [z] at t; simp at t
    refine d_not_square ((iN : ZMod fieldP) / p.y) ?_
    rw [div_pow, i_sq, div_eq_iff (pow_ne_zero 2 hy0)]
    linear_combination -t
  have hsq : (p.x - q.x) * (p.x + q.x) = 0 := by
    have : p.x^2 = q.x^2 := mul_right_cancel₀ hd (E1.trans E2.symm)
    linear_combination this
  have hxx : p.x = q.x := by
    rcases mul_eq_zero.mp hsq with t | t
    · linear_combination t
    · have hn : p.x = -q.x := by linear_combination t
      by_cases h0 : q.x = 0
      · rw [hn, h0, neg_zero]
      · exfalso
        have : NeZero q.x := ⟨h0⟩
        rw [hn, ZMod.val_neg_of_ne_zero] at hx
        have hlt := ZMod.val_lt q.x
        have : fieldP % 2 = 1 := by decide +kernel
        omega
  cases p; cases q
  dsimp only at hxx hy'
  rw [hxx, hy']

/-- Two points with the same `u`. -/
theorem u_inj {P Q : curve25519.Point} (hP : P ≠ 0) (hQ : Q ≠ 0) (h : uOf P = uOf Q) : P = Q ∨ P = -Q := by
  cases P with
  | zero => exact absurd rfl hP
  | some u v hn =>
    cases Q with
    | zero => exact absurd rfl hQ
    | some u' v' hn' =>
      change u = u' at h
      subst h
      have e1 := (WeierstrassCurve.Affine.equation_iff ..).mp hn.1
      have e2 := (WeierstrassCurve.Affine.equation_iff ..).mp hn'.1
      simp only [curve25519] at e1 e2
      have : (v - v') * (v + v') = 0 := by linear_combination e1 - e2
      rcases mul_eq_zero.mp this with t | t
      · left
        have : v = v' := by linear_combination t
        subst this; rfl
      · right
        have : v = -v' := by linear_combination t
        subst this
        rw [WeierstrassCurve.Affine.Point.neg_some, WeierstrassCurve.Affine.Point.some.injEq]
        exact ⟨rfl, by simp [WeierstrassCurve.Affine.negY, curve25519]⟩

theorem u_neg (P : curve25519.Point) : uOf (-P) = uOf P := by
  cases P with
  | zero => rfl
  | some u v hn => rfl

/-- The order does not divide a clamped scalar. -/
theorem order_scalar (s : Bytes) : ¬ order ∣ scalarOf s := by
  unfold scalarOf
  have hr : leNat s % 2^254 < 2^254 := Nat.mod_lt _ (by positivity)
  generalize leNat s % 2^254 = r at *
  intro d
  have e : 2^254 + 8 * (r / 8) = 8 * (2^251 + r / 8) := by norm_num; omega
  rw [e] at d
  rcases (Nat.Prime.dvd_mul order_prime).mp d with d | d
  · exact absurd (Nat.le_of_dvd (by norm_num) d) (by decide +kernel)
  · have := Nat.le_of_dvd (by positivity) d
    unfold order at this
    norm_num at *
    omega

end Sigtool.Ed
