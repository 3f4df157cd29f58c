import Verif.Spec.Curve
import Mathlib.NumberTheory.LucasPrimality
import Mathlib.Tactic.NormNum.Prime
/-!
# Prime: 2^255 - 19 is prime

Not part of the model: a Pratt certificate, so that division modulo `2^255 - 19` is division in a field.
-/

namespace Sigtool.Prime

/-- `a ^ k % m` by repeated squaring; `fuel` is at least the number of bits of `k`. -/
def powMod (m : Nat) : Nat → Nat → Nat → Nat
  | 0, _, _ => 1 % m
  | f + 1, a, k =>
    let h := powMod m f (a * a % m) (k / 2)
    if k % 2 = 1 then a * h % m else h

theorem powMod_eq (m : Nat) : ∀ (f a k : Nat), k < 2 ^ f → powMod m f a k = a ^ k % m
  | 0, a, k, h => by
    have : k = 0 := by simpa using h
    subst this; simp [powMod]
  | f + 1, a, k, h => by
    have hk : k / 2 < 2 ^ f := by rw [pow_succ] at h; omega
    simp only [powMod]
    rw [powMod_eq m f _ _ hk]
    have e : a ^ k = a ^ (k % 2) * (a * a) ^ (k / 2) := by
      rw [← pow_two, ← pow_mul, ← pow_add, Nat.mod_add_div]
    split
    · rename_i h1
      rw [e, h1, pow_one, Nat.mul_mod, Nat.mod_mod, ← Nat.pow_mod, ← Nat.mul_mod]
    · rename_i h1
      have : k % 2 = 0 := by omega
      rw [e, this, pow_zero, one_mul, ← Nat.pow_mod]

/-- A checkable certificate: `a` generates the units modulo `p`, `qs` being the primes in `p - 1`. -/
def cert (p a f : Nat) (qs : List Nat) : Bool :=
  decide (1 < p) && decide (p - 1 < 2 ^ f) && decide (powMod p f a (p - 1) = 1) &&
    qs.all fun q => decide (powMod p f a ((p - 1) / q) ≠ 1)

theorem prime_of_cert (p a f : Nat) (qs es : List Nat) (hq : ∀ q ∈ qs, q.Prime)
    (hprod : ((qs.zip es).map fun x => x.1 ^ x.2).prod = p - 1) (h : cert p a f qs = true) : p.Prime := by
  simp only [cert, Bool.and_eq_true, decide_eq_true_eq, List.all_eq_true] at h
  obtain ⟨⟨⟨h1, h2⟩, h3⟩, h4⟩ := h
  have key : ∀ k, k ≤ p - 1 → (((a : ZMod p)) ^ k = 1 ↔ powMod p f a k = 1) := by
    intro k hk
    rw [powMod_eq p f a k (by omega)]
    constructor
    · intro e
      have e2 : ((a ^ k : Nat) : ZMod p) = ((1 : Nat) : ZMod p) := by push_cast; exact e
      have := (ZMod.natCast_eq_natCast_iff' _ _ _).mp e2
      rw [this, Nat.mod_eq_of_lt h1]
    · intro e
      have e2 : ((a ^ k : Nat) : ZMod p) = ((1 : Nat) : ZMod p) := by
        rw [ZMod.natCast_eq_natCast_iff', e, Nat.mod_eq_of_lt h1]
      push_cast at e2; exact e2
  refine lucas_primality p (a : ZMod p) ((key _ le_rfl).mpr h3) ?_
  intro q hqp hqd e
  rw [← hprod] at hqd
  obtain ⟨x, hx, hd⟩ := (Prime.dvd_prod_iff hqp.prime).mp hqd
  obtain ⟨⟨r, k⟩, hr, rfl⟩ := List.mem_map.mp hx
  have hrq : r ∈ qs := (List.of_mem_zip hr).1
  have : q = r := (Nat.prime_dvd_prime_iff_eq hqp (hq r hrq)).mp (hqp.dvd_of_dvd_pow hd)
  subst this
  exact h4 q hrq ((key _ (Nat.div_le_self _ _)).mp e)

theorem p2 : Nat.Prime 2 := by norm_num

theorem p3 : Nat.Prime 3 := by norm_num

theorem p65147 : Nat.Prime 65147 := by norm_num

theorem p353 : Nat.Prime 353 := by norm_num

theorem p57467 : Nat.Prime 57467 := by norm_num

theorem p132049 : Nat.Prime 132049 := by norm_num

theorem p1923133 : Nat.Prime 1923133 := by norm_num

theorem p31 : Nat.Prime 31 := by norm_num

theorem p107 : Nat.Prime 107 := by norm_num

theorem p223 : Nat.Prime 223 := by norm_num

theorem p4153 : Nat.Prime 4153 := by norm_num

theorem p430751 : Nat.Prime 430751 := by norm_num

theorem p31757755568855353 :
    Nat.Prime 31757755568855353 := by
  refine prime_of_cert _ 10 55 [2, 3, 31, 107, 223, 4153, 430751] [3, 1, 1, 1, 1, 1, 1] ?_ (by norm_num) (by decide +kernel)
  simp only [List.mem_cons, List.not_mem_nil, or_false]
  rintro q (rfl | rfl | rfl | rfl | rfl | rfl | rfl)
  · exact p2
  · exact p3
  · exact p31
  · exact p107
  · exact p223
  · exact p4153
  · exact p430751

theorem p5 : Nat.Prime 5 := by norm_num

theorem p75707 : Nat.Prime 75707 := by norm_num

theorem p13 : Nat.Prime 13 := by norm_num

theorem p2437 : Nat.Prime 2437 := by norm_num

theorem p569003 : Nat.Prime 569003 := by norm_num

theorem p2773320623 :
    Nat.Prime 2773320623 := by
  refine prime_of_cert _ 5 32 [2, 2437, 569003] [1, 1, 1] ?_ (by norm_num) (by decide +kernel)
  simp only [List.mem_cons, List.not_mem_nil, or_false]
  rintro q (rfl | rfl | rfl)
  · exact p2
  · exact p2437
  · exact p569003

theorem p72106336199 :
    Nat.Prime 72106336199 := by
  refine prime_of_cert _ 7 37 [2, 13, 2773320623] [1, 1, 1] ?_ (by norm_num) (by decide +kernel)
  simp only [List.mem_cons, List.not_mem_nil, or_false]
  rintro q (rfl | rfl | rfl)
  · exact p2
  · exact p13
  · exact p2773320623

theorem p7 : Nat.Prime 7 := by norm_num

theorem p19 : Nat.Prime 19 := by norm_num

theorem p47 : Nat.Prime 47 := by norm_num

theorem p127 : Nat.Prime 127 := by norm_num

theorem p8574133 : Nat.Prime 8574133 := by norm_num

theorem p1919519569386763 :
    Nat.Prime 1919519569386763 := by
  refine prime_of_cert _ 2 51 [2, 3, 7, 19, 47, 127, 8574133] [1, 1, 1, 1, 2, 1, 1] ?_ (by norm_num) (by decide +kernel)
  simp only [List.mem_cons, List.not_mem_nil, or_false]
  rintro q (rfl | rfl | rfl | rfl | rfl | rfl | rfl)
  · exact p2
  · exact p3
  · exact p7
  · exact p19
  · exact p47
  · exact p127
  · exact p8574133

theorem p75445702479781427272750846543864801 :
    Nat.Prime 75445702479781427272750846543864801 := by
  refine prime_of_cert _ 7 116 [2, 3, 5, 75707, 72106336199, 1919519569386763] [5, 2, 2, 1, 1, 1] ?_ (by norm_num) (by decide +kernel)
  simp only [List.mem_cons, List.not_mem_nil, or_false]
  rintro q (rfl | rfl | rfl | rfl | rfl | rfl)
  · exact p2
  · exact p3
  · exact p5
  · exact p75707
  · exact p72106336199
  · exact p1919519569386763

theorem p74058212732561358302231226437062788676166966415465897661863160754340907 :
    Nat.Prime 74058212732561358302231226437062788676166966415465897661863160754340907 := by
  refine prime_of_cert _ 2 236 [2, 3, 353, 57467, 132049, 1923133, 31757755568855353, 75445702479781427272750846543864801] [1, 1, 1, 1, 1, 1, 1, 1] ?_ (by norm_num) (by decide +kernel)
  simp only [List.mem_cons, List.not_mem_nil, or_false]
  rintro q (rfl | rfl | rfl | rfl | rfl | rfl | rfl | rfl)
  · exact p2
  · exact p3
  · exact p353
  · exact p57467
  · exact p132049
  · exact p1923133
  · exact p31757755568855353
  · exact p75445702479781427272750846543864801

theorem p57896044618658097711785492504343953926634992332820282019728792003956564819949 :
    Nat.Prime 57896044618658097711785492504343953926634992332820282019728792003956564819949 := by
  refine prime_of_cert _ 2 255 [2, 3, 65147, 74058212732561358302231226437062788676166966415465897661863160754340907] [2, 1, 1, 1] ?_ (by norm_num) (by decide +kernel)
  simp only [List.mem_cons, List.not_mem_nil, or_false]
  rintro q (rfl | rfl | rfl | rfl)
  · exact p2
  · exact p3
  · exact p65147
  · exact p74058212732561358302231226437062788676166966415465897661863160754340907

/-- `2^255 - 19` is prime. -/
theorem fieldP_prime : Nat.Prime Spec.fieldP := by
  have : Spec.fieldP = 57896044618658097711785492504343953926634992332820282019728792003956564819949 := by norm_num [Spec.fieldP]
  rw [this]; exact p57896044618658097711785492504343953926634992332820282019728792003956564819949

instance : Fact (Nat.Prime Spec.fieldP) := ⟨fieldP_prime⟩

end Sigtool.Prime
