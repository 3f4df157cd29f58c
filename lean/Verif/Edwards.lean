import Mathlib.AlgebraicGeometry.EllipticCurve.Affine.Point
import Mathlib.Tactic.FieldSimp
import Mathlib.Tactic.LinearCombination
import Mathlib.Tactic.Ring
/-!
# Edwards: twisted Edwards curves with `a = -1` and Montgomery curves, over any field

Not part of the model. The map `(x, y) ↦ ((1 + y)/(1 - y), c (1 + y)/((1 - y) x))` from `-x² + y² = 1 + d x² y²` to
`v² = u³ + A u² + u` takes sums to sums (`rel_add`), and the addition formulas have no exceptional cases if -1 is a square and
`d` is not (`complete`). The curve equation is used in the form `x² (1 + d y²) = y² - 1`.
-/

namespace Sigtool.Ed
variable {K : Type*} [Field K]

theorem hM (d x1 x2 y1 y2 : K) (E1 : x1^2*(1+d*y1^2) = y1^2-1) (E2 : x2^2*(1+d*y2^2) = y2^2-1) :
    ((1+y2)*(1-y1)*x1 - (1+y1)*(1-y2)*x2)^2 * ((1-y1)*(1-y2)) =
    (x1*x2)^2 * (-(1+y2)*(1-y1)^3*(1+d*y2^2) - (1+y1)*(1-y2)^3*(1+d*y1^2) - 2*(x1*x2)*(1+d*y1^2)*(1+d*y2^2)*((1-y1)*(1-y2))) := by
  linear_combination (x1^2*(1+y2)*(1-y1)^3) * E2 + (x2^2*(1+y1)*(1-y2)^3) * E1 + 2*(x1*x2)*((1-y1)*(1-y2)) * (x2^2*(1+d*y2^2)* E1 + (y1^2-1)*E2)

theorem hX (d x1 x2 y1 y2 : K) (E1 : x1^2*(1+d*y1^2) = y1^2-1) (E2 : x2^2*(1+d*y2^2) = y2^2-1) (S M Δ De : K)
    (hS : S = (1-y1)*(1-y2)) (hΔ : Δ = y2 - y1) (hDe : De = 1 - d*(x1*x2)*(y1*y2) - y1*y2 - x1*x2)
    (hM : M = (-(1+y2)*(1-y1)^3*(1+d*y2^2) - (1+y1)*(1-y2)^3*(1+d*y1^2) - 2*(x1*x2)*(1+d*y1^2)*(1+d*y2^2)*((1-y1)*(1-y2)))) :
    (-M + (4*d + (1+d)) * Δ^2 * S - 2*(1+d)*Δ^2*(2-y1-y2)) * De = 2*(1+d)*(1-d*(x1*x2)*(y1*y2))*Δ^2*S := by
  subst hS hΔ hDe hM
  linear_combination (-2*(1+d*y1*y2)*((1-y1)*(1-y2))) * (x2^2*(1+d*y2^2)* E1 + (y1^2-1)*E2)

theorem hY (d x1 x2 y1 y2 : K) (E1 : x1^2*(1+d*y1^2) = y1^2-1) (E2 : x2^2*(1+d*y2^2) = y2^2-1) (De N : K)
   (hDe : De = 1 - d*(x1*x2)*(y1*y2) - y1*y2 - x1*x2) (hN : N = (1+y2)*(1-y1)*x1 - (1+y1)*(1-y2)*x2):
  -(N * (2*(1-d*(x1*x2)*(y1*y2))*(1-y1) - 2*De) + 2*x2*(y2-y1)*(1+y1)*De)*(x1*y2+x2*y1) =
   2*(x1*x2)*(y2-y1)*(1-y1)*(1-d*(x1*x2)*(y1*y2) + y1*y2 + x1*x2)*(1+d*(x1*x2)*(y1*y2)) := by
  subst hDe hN
  grind

/-- The Montgomery curve `v² = u³ + A u² + u`. -/
def mont (A : K) : WeierstrassCurve.Affine K := ⟨0, A, 0, 1, 0⟩

/-- The constants fit together. -/
structure Consts (d A c : K) : Prop where
  two : (2 : K) ≠ 0
  hA : (1 + d) * (A + 2) = 4
  hc : c^2 = -(A + 2)

theorem Consts.d1 {d A c : K} (h : Consts d A c) : 1 + d ≠ 0 := by
  intro e
  have := h.hA
  rw [e, zero_mul] at this
  exact h.two (by
    have h4 : (2:K) * 2 = 0 := by rw [this]; norm_num
    rcases mul_eq_zero.mp h4 with h | h <;> exact h)

theorem Consts.A2 {d A c : K} (h : Consts d A c) : A + 2 ≠ 0 := by
  intro e
  have := h.hA
  rw [e, mul_zero] at this
  exact h.two (by
    have h4 : (2:K) * 2 = 0 := by rw [this]; norm_num
    rcases mul_eq_zero.mp h4 with h | h <;> exact h)

theorem Consts.A2' {d A c : K} (h : Consts d A c) : A + 2 = 4 / (1 + d) := by
  rw [eq_div_iff h.d1, mul_comm]; exact h.hA

theorem Consts.c0 {d A c : K} (h : Consts d A c) : c ≠ 0 := by
  intro e
  have := h.hc
  rw [e] at this
  exact h.A2 (by linear_combination this)

theorem ne_one {d A c x y : K} (h : Consts d A c) (E : x^2*(1+d*y^2) = y^2-1) (hx : x ≠ 0) : 1 - y ≠ 0 ∧ 1 + y ≠ 0 := by
  have key : y^2 ≠ 1 := by
    intro e
    rw [e, mul_one, sub_self] at E
    rcases mul_eq_zero.mp E with h1 | h1
    · exact hx (pow_eq_zero_iff (by norm_num) |>.mp h1)
    · exact h.d1 h1
  constructor
  · intro e; exact key (by linear_combination (-(1+y))*e)
  · intro e; exact key (by linear_combination (y-1)*e)

/-- The sum of two points, generic case. -/
theorem chord {d A c : K} (h : Consts d A c) (x1 x2 y1 y2 : K) (E1 : x1^2*(1+d*y1^2) = y1^2-1) (E2 : x2^2*(1+d*y2^2) = y2^2-1)
    (hx1 : x1 ≠ 0) (hx2 : x2 ≠ 0) (hy : y1 ≠ y2) (m q : K) (hmd : m = 1 - d*(x1*x2)*(y1*y2)) (hqd : q = 1 + d*(x1*x2)*(y1*y2)) (hm : m ≠ 0) (hp : q ≠ 0)
    (u1 u2 v1 v2 x3 y3 l : K) (hu1 : u1 = (1+y1)/(1-y1)) (hu2 : u2 = (1+y2)/(1-y2)) (hv1 : v1 = c*u1/x1) (hv2 : v2 = c*u2/x2)
    (hx3 : x3 = (x1*y2+x2*y1)/q) (hy3 : y3 = (y1*y2+x1*x2)/m)
    (hl : l = (v1-v2)/(u1-u2)) :
    u1 ≠ u2 ∧ 1 - y3 ≠ 0 ∧ l^2 - A - u1 - u2 = (1+y3)/(1-y3) ∧
      (x3 ≠ 0 → -(l*((1+y3)/(1-y3)-u1)+v1) = c*((1+y3)/(1-y3))/x3) ∧ (x3 = 0 → (1+y3)/(1-y3) = 0) := by
  obtain ⟨a1, b1⟩ := ne_one h E1 hx1
  obtain ⟨a2, b2⟩ := ne_one h E2 hx2
  have hΔ : y2 - y1 ≠ 0 := sub_ne_zero.mpr (Ne.symm hy)
  have h2 := h.two
  have hd := h.d1
  have hu : u1 - u2 = -2*(y2-y1)/((1-y1)*(1-y2)) := by rw [hu1, hu2]; field_simp; ring
  have hune : u1 - u2 ≠ 0 := by
    rw [hu]; exact div_ne_zero (mul_ne_zero (neg_ne_zero.mpr h2) hΔ) (mul_ne_zero a1 a2)
  obtain ⟨N, hN⟩ : ∃ N, N = (1+y2)*(1-y1)*x1 - (1+y1)*(1-y2)*x2 := ⟨_, rfl⟩
  obtain ⟨M, hMd⟩ : ∃ M, M = (-(1+y2)*(1-y1)^3*(1+d*y2^2) - (1+y1)*(1-y2)^3*(1+d*y1^2) - 2*(x1*x2)*(1+d*y1^2)*(1+d*y2^2)*((1-y1)*(1-y2))) := ⟨_, rfl⟩
  obtain ⟨De, hDe⟩ : ∃ De, De = m - y1*y2 - x1*x2 := ⟨_, rfl⟩
  have kM := hM d x1 x2 y1 y2 E1 E2
  rw [← hN, ← hMd] at kM
  have kX := hX d x1 x2 y1 y2 E1 E2 _ M _ De rfl rfl (by rw [hDe, hmd]) hMd
  rw [← hmd] at kX
  have kY := hY d x1 x2 y1 y2 E1 E2 De N (by rw [hDe, hmd]) hN
  rw [← hmd, ← hqd] at kY
  have hDe0 : De ≠ 0 := by
    intro e
    rw [e, mul_zero] at kX
    exact (mul_ne_zero (mul_ne_zero (mul_ne_zero (mul_ne_zero h2 hd) hm) (pow_ne_zero 2 hΔ)) (mul_ne_zero a1 a2)) kX.symm
  have hl' : l = c*N/(2*(x1*x2)*(y2-y1)) := by
    rw [hl, div_eq_iff hune, hu, hv1, hv2, hu1, hu2, hN]
    field_simp
    ring
  have hs : 1 - y3 = De/m := by rw [hy3, hDe]; field_simp; ring
  have hsum : (1+y3)/(1-y3) = (2*m - De)/De := by
    rw [hs, hy3]
    field_simp
    rw [hDe]
    ring
  have h4 : (4:K) ≠ 0 := by
    have : (4:K) = 2*2 := by norm_num
    rw [this]; exact mul_ne_zero h2 h2
  have hl2 : l^2 = -M/((1+d)*((1-y1)*(1-y2))*(y2-y1)^2) := by
    rw [hl', div_pow, mul_pow, h.hc, h.A2', div_eq_div_iff (pow_ne_zero 2 (mul_ne_zero (mul_ne_zero h2 (mul_ne_zero hx1 hx2)) hΔ))
      (mul_ne_zero (mul_ne_zero hd (mul_ne_zero a1 a2)) (pow_ne_zero 2 hΔ))]
    have : (1+d) * (4/(1+d)) = 4 := by field_simp
    linear_combination (-4*(y2-y1)^2) * kM - N^2*((1-y1)*(1-y2))*(y2-y1)^2 * this
  refine ⟨sub_ne_zero.mp hune, ?_, ?_, ?_, ?_⟩
  · rw [hs]; exact div_ne_zero hDe0 hm
  · have hA' : A = 4/(1+d) - 2 := by rw [← h.A2']; ring
    rw [hsum, hl2, hA', hu1, hu2, eq_div_iff hDe0]
    field_simp
    linear_combination kX
  · intro h3
    have hn3 : x1*y2+x2*y1 ≠ 0 := by
      intro e; exact h3 (by rw [hx3, e, zero_div])
    rw [hsum, hl', hv1, hu1, hx3]
    field_simp
    linear_combination c*kY + (c*2*(x1*x2)*(y2-y1)*(1-y1)*q)*hDe
  · intro h3
    have hn3 : x1*y2+x2*y1 = 0 := by
      rw [hx3] at h3
      rcases div_eq_zero_iff.mp h3 with e | e
      · exact e
      · exact absurd e hp
    rw [hn3, mul_zero] at kY
    have : (m + y1*y2 + x1*x2) = 0 := by
      rcases mul_eq_zero.mp kY.symm with e | e
      · rcases mul_eq_zero.mp e with e | e
        · exact absurd e (mul_ne_zero (mul_ne_zero (mul_ne_zero h2 (mul_ne_zero hx1 hx2)) hΔ) a1)
        · exact e
      · exact absurd e hp
    rw [hsum]
    have : (2*m - De) = 0 := by rw [hDe]; linear_combination this
    rw [this, zero_div]

/-- Doubling. -/
theorem tangent {d A c : K} (h : Consts d A c) (x y : K) (E : x^2*(1+d*y^2) = y^2-1)
    (hx : x ≠ 0) (m q : K) (hmd : m = 1 - d*(x*x)*(y*y)) (hqd : q = 1 + d*(x*x)*(y*y)) (hm : m ≠ 0) (hp : q ≠ 0)
    (u v x3 y3 l : K) (hu : u = (1+y)/(1-y)) (hv : v = c*u/x)
    (hx3 : x3 = (x*y+x*y)/q) (hy3 : y3 = (y*y+x*x)/m)
    (hl : l = (3*u^2+2*A*u+1)/(2*v)) :
    v ≠ 0 ∧ 1 - y3 ≠ 0 ∧ l^2 - A - u - u = (1+y3)/(1-y3) ∧
      (x3 ≠ 0 → -(l*((1+y3)/(1-y3)-u)+v) = c*((1+y3)/(1-y3))/x3) ∧ (x3 = 0 → (1+y3)/(1-y3) = 0) := by
  obtain ⟨a1, b1⟩ := ne_one h E hx
  have h2 := h.two
  have hd := h.d1
  have hc0 := h.c0
  have hA0 := h.A2
  have hu0 : u ≠ 0 := by rw [hu]; exact div_ne_zero b1 a1
  have hv0 : v ≠ 0 := by rw [hv]; exact div_ne_zero (mul_ne_zero hc0 hu0) hx
  have hy1 : 1 - y^2 ≠ 0 := by
    have : 1 - y^2 = (1-y)*(1+y) := by ring
    rw [this]; exact mul_ne_zero a1 b1
  have hs : 1 - y3 = 2*(1-y^2)/m := by
    rw [hy3]; field_simp; linear_combination hmd - E
  have hsum : (1+y3)/(1-y3) = (1+x^2)/(1-y^2) := by
    rw [hs, hy3]
    field_simp
    linear_combination hmd - E
  have h4 : (4:K) ≠ 0 := by
    have : (4:K) = 2*2 := by norm_num
    rw [this]; exact mul_ne_zero h2 h2
  have hu1 : u + 1 ≠ 0 := by
    have : u + 1 = 2/(1-y) := by rw [hu]; field_simp; ring
    rw [this]; exact div_ne_zero h2 a1
  have hyu : y = (u-1)/(u+1) := by
    rw [eq_div_iff hu1, hu]; field_simp; ring
  have hxu : x^2*(u^2+A*u+1) = -(A+2)*u := by
    have hd' : d = 4/(A+2) - 1 := by rw [eq_sub_iff_add_eq, eq_div_iff hA0]; linear_combination h.hA
    rw [hyu, hd'] at E
    field_simp at E
    have h4' : (4:K) * (x^2*(u^2+A*u+1)) = 4 * (-(A+2)*u) := by linear_combination E
    exact mul_left_cancel₀ h4 h4'
  have hw : u^2+A*u+1 ≠ 0 := by
    intro e
    rw [e, mul_zero] at hxu
    exact mul_ne_zero (neg_ne_zero.mpr hA0) hu0 hxu.symm
  obtain ⟨w, hwd⟩ : ∃ w, w = u^2+A*u+1 := ⟨_, rfl⟩
  rw [← hwd] at hxu hw
  have hx2 : x^2 = -(A+2)*u/w := by rw [eq_div_iff hw]; exact hxu
  have hu3 : (1+y3)/(1-y3) = (u^2-1)^2/(4*u*w) := by
    have : 1 - y^2 = 4*u/(u+1)^2 := by rw [hyu]; field_simp; ring
    rw [hsum, hx2, this]
    field_simp
    rw [hwd]
    ring
  refine ⟨hv0, ?_, ?_, ?_, ?_⟩
  · rw [hs]; exact div_ne_zero (mul_ne_zero h2 hy1) hm
  · have hv2 : v^2 = u*w := by
      rw [hv, div_pow, mul_pow, h.hc, div_eq_iff (pow_ne_zero 2 hx)]
      linear_combination (-u)*hxu
    rw [hu3, hl, div_pow, mul_pow, hv2]
    field_simp
    rw [hwd]
    ring
  · intro h3
    have hxy : x*y+x*y ≠ 0 := by
      intro e; exact h3 (by rw [hx3, e, zero_div])
    have hy0 : y ≠ 0 := by
      intro e; exact hxy (by rw [e]; ring)
    have hum : u - 1 ≠ 0 := by
      intro e; exact hy0 (by rw [hyu, e, zero_div])
    have hq : q = y^2 - x^2 := by rw [hqd]; linear_combination E
    have h3' : (c*((1+y3)/(1-y3))/x3) = c/x * (((1+y3)/(1-y3)) * ((y^2-x^2)/(2*y))) := by
      rw [hx3, hq]
      rw [hq] at hp
      have : x*y+x*y = 2*(x*y) := by ring
      rw [this]
      field_simp
    have hl2 : l = c/x * ((3*u^2+2*A*u+1)/(2*w)) := by
      rw [hl, hv]
      field_simp
      rw [h.hc]
      linear_combination (3*u^2+2*A*u+1)*hxu
    rw [h3', hl2, hv, hu3, hx2, hyu]
    have : -(c/x*((3*u^2+2*A*u+1)/(2*w))*((u^2-1)^2/(4*u*w)-u)+c*u/x) =
      c/x * (-((3*u^2+2*A*u+1)/(2*w))*((u^2-1)^2/(4*u*w)-u)-u) := by ring
    rw [this]
    congr 1
    field_simp
    rw [hwd]
    ring
  · intro h3
    have hy0 : y = 0 := by
      rw [hx3] at h3
      rcases div_eq_zero_iff.mp h3 with e | e
      · have : 2*(x*y) = 0 := by linear_combination e
        rcases mul_eq_zero.mp this with e | e
        · exact absurd e h2
        · rcases mul_eq_zero.mp e with e | e
          · exact absurd e hx
          · exact e
      · exact absurd e hp
    have : (1+x^2) = 0 := by rw [hy0] at E; linear_combination E
    rw [hsum, this, zero_div]
theorem closure (d x1 x2 y1 y2 : K) (E1 : x1^2*(1+d*y1^2) = y1^2-1) (E2 : x2^2*(1+d*y2^2) = y2^2-1) :
    (x1*y2+x2*y1)^2*((1-d*(x1*x2)*(y1*y2))^2+d*(y1*y2+x1*x2)^2) =
      (1+d*(x1*x2)*(y1*y2))^2*((y1*y2+x1*x2)^2-(1-d*(x1*x2)*(y1*y2))^2) := by
  grind

/-- The sum of two points of the Edwards curve lies on it. -/
theorem sum_on (d x1 x2 y1 y2 m q : K) (E1 : x1^2*(1+d*y1^2) = y1^2-1) (E2 : x2^2*(1+d*y2^2) = y2^2-1)
    (hmd : m = 1 - d*(x1*x2)*(y1*y2)) (hqd : q = 1 + d*(x1*x2)*(y1*y2)) (hm : m ≠ 0) (hq : q ≠ 0) :
    ((x1*y2+x2*y1)/q)^2*(1+d*((y1*y2+x1*x2)/m)^2) = ((y1*y2+x1*x2)/m)^2-1 := by
  have h := closure d x1 x2 y1 y2 E1 E2
  rw [← hmd, ← hqd] at h
  field_simp
  linear_combination h

/-- A point of the Edwards curve and its image on the Montgomery curve. The neutral element goes to the point at infinity; the
point `(0, -1)` to `(0, 0)` (here `0 / 0 = 0`). -/
def Rel (A c x y : K) (Q : (mont A).Point) : Prop :=
  (x = 0 ∧ y = 1 ∧ Q = 0) ∨ (y ≠ 1 ∧ ∃ h, Q = .some ((1+y)/(1-y)) (c*((1+y)/(1-y))/x) h)

theorem mont_eq (A u v : K) : (mont A).Equation u v ↔ v^2 = u^3 + A*u^2 + u := by
  rw [WeierstrassCurve.Affine.equation_iff]
  simp [mont]

section
variable [DecidableEq K]

theorem some_congr {A u v u' v' : K} {h : (mont A).Nonsingular u v} (hu : u = u') (hv : v = v') :
    ∃ h', WeierstrassCurve.Affine.Point.some u v h = (.some u' v' h' : (mont A).Point) := by
  subst hu hv; exact ⟨h, rfl⟩

theorem negY_mont (A u v : K) : (mont A).negY u v = -v := by simp [WeierstrassCurve.Affine.negY, mont]

/-- What is left to show about the coordinates of a sum. -/
theorem some_image {A c x3 y3 : K} {u v : K} {h : (mont A).Nonsingular u v} (hy : 1 - y3 ≠ 0) (hu : u = (1+y3)/(1-y3))
    (hv : x3 ≠ 0 → v = c*((1+y3)/(1-y3))/x3) (h0 : x3 = 0 → (1+y3)/(1-y3) = 0) :
    Rel A c x3 y3 (.some u v h) := by
  refine .inr ⟨fun e => hy (by rw [e, sub_self]), ?_⟩
  apply some_congr hu
  by_cases hx : x3 = 0
  · have hu0 : u = 0 := by rw [hu]; exact h0 hx
    have he := (mont_eq A u v).mp h.1
    rw [hu0] at he
    have : v = 0 := by
      apply pow_eq_zero_iff (n := 2) (by norm_num) |>.mp
      rw [he]; ring
    rw [this, hx, div_zero]
  · exact hv hx

/-- The image of a sum is the sum of the images: neither point is exceptional. -/
theorem rel_generic {d A c : K} (h : Consts d A c) (x1 x2 y1 y2 m q : K) (E1 : x1^2*(1+d*y1^2) = y1^2-1)
    (E2 : x2^2*(1+d*y2^2) = y2^2-1) (hx1 : x1 ≠ 0) (hx2 : x2 ≠ 0)
    (hmd : m = 1 - d*(x1*x2)*(y1*y2)) (hqd : q = 1 + d*(x1*x2)*(y1*y2)) (hm : m ≠ 0) (hq : q ≠ 0)
    (n1 : (mont A).Nonsingular ((1+y1)/(1-y1)) (c*((1+y1)/(1-y1))/x1))
    (n2 : (mont A).Nonsingular ((1+y2)/(1-y2)) (c*((1+y2)/(1-y2))/x2)) :
    Rel A c ((x1*y2+x2*y1)/q) ((y1*y2+x1*x2)/m) (.some _ _ n1 + .some _ _ n2) := by
  obtain ⟨a1, b1⟩ := ne_one h E1 hx1
  by_cases hy : y1 = y2
  · subst hy
    have hsq : (x1-x2)*(x1+x2) = 0 := by
      have h1 : (1+d*y1^2) ≠ 0 := by
        intro e
        rw [e, mul_zero] at E1
        exact mul_ne_zero a1 b1 (by linear_combination E1)
      have : (1+d*y1^2)*((x1-x2)*(x1+x2)) = 0 := by linear_combination E1 - E2
      rcases mul_eq_zero.mp this with e | e
      · exact absurd e h1
      · exact e
    rcases mul_eq_zero.mp hsq with e | e
    · have e : x2 = x1 := by linear_combination -e
      subst e
      obtain ⟨k1, k2, k3, k4, k5⟩ := tangent h x2 y1 E1 hx1 m q hmd hqd hm hq _ _ _ _ _ rfl rfl rfl rfl rfl
      have hne : c*((1+y1)/(1-y1))/x2 ≠ (mont A).negY ((1+y1)/(1-y1)) (c*((1+y1)/(1-y1))/x2) := by
        rw [negY_mont]
        intro e
        have : 2 * (c*((1+y1)/(1-y1))/x2) = 0 := by linear_combination e
        rcases mul_eq_zero.mp this with e | e
        · exact h.two e
        · exact k1 e
      rw [WeierstrassCurve.Affine.Point.add_of_Y_ne hne]
      have hsl : (mont A).slope ((1+y1)/(1-y1)) ((1+y1)/(1-y1)) (c*((1+y1)/(1-y1))/x2) (c*((1+y1)/(1-y1))/x2) =
          (3*((1+y1)/(1-y1))^2+2*A*((1+y1)/(1-y1))+1)/(2*(c*((1+y1)/(1-y1))/x2)) := by
        rw [WeierstrassCurve.Affine.slope_of_Y_ne rfl hne, negY_mont]
        simp only [mont]
        congr 1 <;> ring
      have hX3 : (mont A).addX ((1+y1)/(1-y1)) ((1+y1)/(1-y1)) ((mont A).slope ((1+y1)/(1-y1)) ((1+y1)/(1-y1)) (c*((1+y1)/(1-y1))/x2) (c*((1+y1)/(1-y1))/x2)) =
          (1+(y1*y1+x2*x2)/m)/(1-(y1*y1+x2*x2)/m) := by
        rw [← k3, hsl]
        simp only [WeierstrassCurve.Affine.addX, mont]
        ring
      refine some_image k2 hX3 ?_ k5
      intro h3
      rw [WeierstrassCurve.Affine.addY, WeierstrassCurve.Affine.negAddY, negY_mont, hX3, hsl]
      exact k4 h3
    · have e : x2 = -x1 := by linear_combination e
      left
      refine ⟨?_, ?_, ?_⟩
      · rw [e]; ring_nf
      · rw [div_eq_iff hm, hmd, e]; linear_combination -E1
      · apply WeierstrassCurve.Affine.Point.add_of_Y_eq rfl
        rw [negY_mont, e]; rw [div_neg, neg_neg]
  · obtain ⟨k1, k2, k3, k4, k5⟩ := chord h x1 x2 y1 y2 E1 E2 hx1 hx2 hy m q hmd hqd hm hq _ _ _ _ _ _ _ rfl rfl rfl rfl rfl rfl rfl
    rw [WeierstrassCurve.Affine.Point.add_of_X_ne k1]
    have hsl := WeierstrassCurve.Affine.slope_of_X_ne (W := mont A) (y₁ := c*((1+y1)/(1-y1))/x1) (y₂ := c*((1+y2)/(1-y2))/x2) k1
    have hX3 : (mont A).addX ((1+y1)/(1-y1)) ((1+y2)/(1-y2)) ((mont A).slope ((1+y1)/(1-y1)) ((1+y2)/(1-y2)) (c*((1+y1)/(1-y1))/x1) (c*((1+y2)/(1-y2))/x2)) =
        (1+(y1*y2+x1*x2)/m)/(1-(y1*y2+x1*x2)/m) := by
      rw [← k3, hsl]
      simp only [WeierstrassCurve.Affine.addX, mont]
      ring
    refine some_image k2 hX3 ?_ k5
    intro h3
    rw [WeierstrassCurve.Affine.addY, WeierstrassCurve.Affine.negAddY, negY_mont, hX3, hsl]
    exact k4 h3

/-- One summand is the point of order two. -/
theorem rel_two {d A c : K} (h : Consts d A c) (x2 y2 : K) (E2 : x2^2*(1+d*y2^2) = y2^2-1) (hx2 : x2 ≠ 0)
    (n1 : (mont A).Nonsingular 0 0) (n2 : (mont A).Nonsingular ((1+y2)/(1-y2)) (c*((1+y2)/(1-y2))/x2)) :
    Rel A c (-x2) (-y2) (.some _ _ n1 + .some _ _ n2) := by
  obtain ⟨a, b⟩ := ne_one h E2 hx2
  have hu : (0:K) ≠ (1+y2)/(1-y2) := (div_ne_zero b a).symm
  rw [WeierstrassCurve.Affine.Point.add_of_X_ne hu]
  have hsl : (mont A).slope 0 ((1+y2)/(1-y2)) 0 (c*((1+y2)/(1-y2))/x2) = c/x2 := by
    rw [WeierstrassCurve.Affine.slope_of_X_ne hu, zero_sub, zero_sub, neg_div_neg_eq]
    field_simp
  have hd := h.d1
  have hsq : c^2/x2^2 = 4*(1+d*y2^2)/((1+d)*(1-y2)*(1+y2)) := by
    rw [h.hc, h.A2', div_eq_div_iff (pow_ne_zero 2 hx2) (mul_ne_zero (mul_ne_zero hd a) b)]
    field_simp
    linear_combination -4*E2
  have hX3 : (mont A).addX 0 ((1+y2)/(1-y2)) ((mont A).slope 0 ((1+y2)/(1-y2)) 0 (c*((1+y2)/(1-y2))/x2)) = (1+(-y2))/(1-(-y2)) := by
    rw [hsl]
    simp only [WeierstrassCurve.Affine.addX, mont]
    have hA' : A = 4/(1+d) - 2 := by rw [← h.A2']; ring
    have : (c/x2)^2 + 0*(c/x2) - A - 0 - (1+y2)/(1-y2) = c^2/x2^2 - A - (1+y2)/(1-y2) := by ring
    rw [this, hsq, hA', sub_neg_eq_add]
    field_simp
    ring
  refine some_image (by rw [sub_neg_eq_add]; exact b) hX3 ?_ ?_
  · intro _
    rw [WeierstrassCurve.Affine.addY, WeierstrassCurve.Affine.negAddY, negY_mont, hX3, hsl, sub_neg_eq_add]
    field_simp
    ring
  · intro e; exact absurd (neg_eq_zero.mp e) hx2

/-- **The birational map is a homomorphism.** -/
theorem rel_add {d A c : K} (h : Consts d A c) (x1 x2 y1 y2 m q : K) (E1 : x1^2*(1+d*y1^2) = y1^2-1)
    (E2 : x2^2*(1+d*y2^2) = y2^2-1)
    (hmd : m = 1 - d*(x1*x2)*(y1*y2)) (hqd : q = 1 + d*(x1*x2)*(y1*y2)) (hm : m ≠ 0) (hq : q ≠ 0)
    (P Q : (mont A).Point) (hP : Rel A c x1 y1 P) (hQ : Rel A c x2 y2 Q) :
    Rel A c ((x1*y2+x2*y1)/q) ((y1*y2+x1*x2)/m) (P + Q) := by
  have flat : ∀ {x y : K}, x^2*(1+d*y^2) = y^2-1 → x = 0 → y ≠ 1 → y = -1 := by
    intro x y E hx hy
    rw [hx] at E
    have : (y-1)*(y+1) = 0 := by linear_combination -E
    rcases mul_eq_zero.mp this with e | e
    · exact absurd (by linear_combination e) hy
    · linear_combination e
  rcases hP with ⟨rfl, rfl, rfl⟩ | ⟨g1, n1, rfl⟩
  · have hm1 : m = 1 := by rw [hmd]; ring
    have hq1 : q = 1 := by rw [hqd]; ring
    rw [hm1, hq1, zero_add]
    simpa using hQ
  · rcases hQ with ⟨rfl, rfl, rfl⟩ | ⟨g2, n2, rfl⟩
    · have hm1 : m = 1 := by rw [hmd]; ring
      have hq1 : q = 1 := by rw [hqd]; ring
      rw [hm1, hq1, add_zero]
      have t : Rel A c x1 y1 (.some _ _ n1) := Or.inr ⟨g1, n1, rfl⟩
      simpa using t
    · by_cases hx1 : x1 = 0
      · have hy1 := flat E1 hx1 g1
        subst hx1 hy1
        have hm1 : m = 1 := by rw [hmd]; ring
        have hq1 : q = 1 := by rw [hqd]; ring
        obtain ⟨n1', e1⟩ := some_congr (h := n1) (u' := 0) (v' := 0) (by simp) (by simp)
        rw [e1]
        by_cases hx2 : x2 = 0
        · have hy2 := flat E2 hx2 g2
          subst hx2 hy2
          obtain ⟨n2', e2⟩ := some_congr (h := n2) (u' := 0) (v' := 0) (by simp) (by simp)
          rw [e2]
          left
          refine ⟨by simp, by rw [hm1]; simp, ?_⟩
          exact WeierstrassCurve.Affine.Point.add_of_Y_eq rfl (by rw [negY_mont, neg_zero])
        · have := rel_two h x2 y2 E2 hx2 n1' n2
          rw [hm1, hq1]
          simpa using this
      · by_cases hx2 : x2 = 0
        · have hy2 := flat E2 hx2 g2
          subst hx2 hy2
          have hm1 : m = 1 := by rw [hmd]; ring
          have hq1 : q = 1 := by rw [hqd]; ring
          obtain ⟨n2', e2⟩ := some_congr (h := n2) (u' := 0) (v' := 0) (by simp) (by simp)
          rw [e2, add_comm (WeierstrassCurve.Affine.Point.some _ _ n1)]
          have := rel_two h x1 y1 E1 hx1 n2' n1
          rw [hm1, hq1]
          simpa using this
        · exact rel_generic h x1 x2 y1 y2 m q E1 E2 hx1 hx2 hmd hqd hm hq n1 n2

end

/-- The Edwards addition law is complete: `e` is a square root of -1, `d` has no square root. -/
theorem complete (d e : K) (h2 : (2:K) ≠ 0) (he : e^2 = -1) (hd : ∀ r : K, r^2 ≠ d) (x1 x2 y1 y2 : K)
    (E1 : x1^2*(1+d*y1^2) = y1^2-1) (E2 : x2^2*(1+d*y2^2) = y2^2-1) :
    1 - d*(x1*x2)*(y1*y2) ≠ 0 ∧ 1 + d*(x1*x2)*(y1*y2) ≠ 0 := by
  have key : ∀ s : K, s^2 = 1 → d*(x1*x2)*(y1*y2) ≠ s := by
    intro s hs hh
    have hs0 : s ≠ 0 := by intro e; rw [e] at hs; norm_num at hs
    have hxy : x1*y1 ≠ 0 := by
      intro e0
      exact hs0 (by rw [← hh]; linear_combination (d*x2*y2)*e0)
    have ident : ∀ t : K, t^2 = 1 → (e*x1 + t*s*y1)^2 = d*(x1*y1)^2*(e*x2 + t*y2)^2 := by
      intro t ht
      grind
    have no : ∀ t : K, t^2 = 1 → e*x2 + t*y2 = 0 := by
      intro t ht
      by_contra hne
      apply hd ((e*x1 + t*s*y1)/((x1*y1)*(e*x2 + t*y2)))
      rw [div_pow, ident t ht, div_eq_iff (pow_ne_zero 2 (mul_ne_zero hxy hne))]
      ring
    have p1 := no 1 (by norm_num)
    have p2 := no (-1) (by norm_num)
    have hy2 : 2*y2 = 0 := by linear_combination p1 - p2
    rcases mul_eq_zero.mp hy2 with e0 | e0
    · exact h2 e0
    · exact hs0 (by rw [← hh, e0]; ring)
  constructor
  · intro e0; exact key 1 (by norm_num) (by linear_combination -e0)
  · intro e0; exact key (-1) (by norm_num) (by linear_combination e0)
end Sigtool.Ed
