import Verif.CurveLemmas
import Mathlib.Tactic.FieldSimp
import Mathlib.Tactic.LinearCombination
/-!
# C45, C46: conversion of Ed25519 keys to Curve25519 keys
-/

namespace Sigtool
open Spec (fieldP leNat leBytes edY montU toMontgomery)

/-! ### C45: the secret scalar -/

/-- Bits 0..2 cleared, bit 255 cleared, bit 254 set, every other bit kept (RFC 7748, section 5, `decodeScalar25519`). -/
theorem clamp_value (k : Bytes) (h : k.length = 32) :
    leNat (clamp k) = 2 ^ 254 + 8 * (leNat k % 2 ^ 254 / 8) := by
  obtain ⟨a, m, b, rfl, hm⟩ : ∃ (a : UInt8) (m : Bytes) (b : UInt8), k = a :: (m ++ [b]) ∧ m.length = 30 := by
    cases k with
    | nil => simp at h
    | cons a t =>
      rcases List.eq_nil_or_concat t with rfl | ⟨i, b, rfl⟩
      · simp at h
      · exact ⟨a, i, b, by simp, by simpa using h⟩
  have e : clamp (a :: (m ++ [b])) = (a &&& 248) :: (m ++ [(b &&& 127) ||| 64]) := by
    unfold clamp
    have hmod : ∀ (m : Bytes) (b : UInt8) (f : UInt8 → UInt8), (m ++ [b]).modify m.length f = m ++ [f b] := by
      intro m b f
      induction m with
      | nil => rfl
      | cons x m ih => simp [ih]
    have := hmod m b (fun b => b &&& 127 ||| 64)
    rw [hm] at this
    simp [this]
  rw [e]
  simp only [leNat, leNat_append, hm]
  have ha : (a &&& 248).toNat = a.toNat / 8 * 8 := by
    have : ∀ x : UInt8, (x &&& 248).toNat = x.toNat / 8 * 8 := by
      intro x
      have : ∀ n : Fin 256, (UInt8.ofNat n.val &&& 248).toNat = n.val / 8 * 8 := by decide +kernel
      have := this ⟨x.toNat, x.toNat_lt⟩
      simpa using this
    exact this a
  have hb : ((b &&& 127) ||| 64).toNat = 64 + b.toNat % 64 := by
    have : ∀ n : Fin 256, ((UInt8.ofNat n.val &&& 127) ||| 64).toNat = 64 + n.val % 64 := by decide +kernel
    have := this ⟨b.toNat, b.toNat_lt⟩
    simpa using this
  rw [ha, hb]
  have hl := leNat_lt m
  rw [hm] at hl
  have ht : a.toNat + 256 * (leNat m + 256 ^ 30 * (b.toNat + 256 * 0)) =
      (a.toNat + 256 * (leNat m + 256 ^ 30 * (b.toNat % 64))) + 2 ^ 254 * (b.toNat / 64) := by
    norm_num; omega
  have hr : a.toNat + 256 * (leNat m + 256 ^ 30 * (b.toNat % 64)) < 2 ^ 254 := by
    have := a.toNat_lt
    norm_num at hl ⊢; omega
  rw [ht, Nat.add_mul_mod_self_left, Nat.mod_eq_of_lt hr]
  norm_num at hl ⊢
  omega

/-- **C45**: for every private key with its 64 secret bytes, `ToCurve25519SK` succeeds and returns 32 bytes whose
little-endian value is the first half of SHA-512 of the seed with bits 0, 1, 2 and 255 cleared and bit 254 set, everything
else unchanged.  So the scalar is a multiple of 8 in `[2^254, 2^255)`. -/
theorem C45_scalar (P : Prims) (L : Laws P) (sk : PrivateKey) (h : sk.sk.length = 64) :
    ∃ k, toCurve25519SK P sk = .ok k ∧ k.length = 32 ∧
      leNat k = 2 ^ 254 + 8 * (leNat ((P.sha512 (sk.sk.take 32)).take 32) % 2 ^ 254 / 8) ∧
      leNat k % 8 = 0 ∧ 2 ^ 254 ≤ leNat k ∧ leNat k < 2 ^ 255 := by
  have hl : ((P.sha512 (sk.sk.take 32)).take 32).length = 32 := by simp [L.sha512_len]
  have hv := clamp_value _ hl
  refine ⟨clamp ((P.sha512 (sk.sk.take 32)).take 32), ?_, by simp [L.sha512_len], hv, ?_, ?_, ?_⟩
  · unfold toCurve25519SK
    rw [if_neg (by omega)]
  all_goals
    rw [hv]
    generalize leNat ((P.sha512 (sk.sk.take 32)).take 32) = n
    have : n % 2 ^ 254 < 2 ^ 254 := Nat.mod_lt _ (by positivity)
    generalize n % 2 ^ 254 = r at *
    omega

theorem leNat_inj : ∀ (a b : Bytes), a.length = b.length → leNat a = leNat b → a = b
  | [], [], _, _ => rfl
  | x :: a, y :: b, h, e => by
    simp only [leNat] at e
    have := x.toNat_lt; have := y.toNat_lt
    have h1 : x.toNat = y.toNat := by omega
    rw [UInt8.toNat_inj.mp h1, leNat_inj a b (by simpa using h) (by omega)]

/-- **C45**: clamping a scalar again changes nothing (`X25519` clamps its scalar once more). -/
theorem C45_clamp_idempotent (k : Bytes) (h : k.length = 32) : clamp (clamp k) = clamp k := by
  apply leNat_inj _ _ (by simp)
  rw [clamp_value _ (by simpa using h), clamp_value _ h]
  generalize leNat k = n
  have : n % 2 ^ 254 < 2 ^ 254 := Nat.mod_lt _ (by positivity)
  generalize n % 2 ^ 254 = r at *
  omega

/-- A private key together with its cache `ck` (`sign/keys.go:37-46`). -/
structure CachedSK where
  key : PrivateKey
  ck : Option Bytes := none

/-- `ToCurve25519SK` with the cache (`sign/keys.go:197-209`). -/
def CachedSK.toCurve (P : Prims) (s : CachedSK) : Res Bytes × CachedSK :=
  match s.ck with
  | some c => (.ok c, s)
  | none =>
    match toCurve25519SK P s.key with
    | .ok c => (.ok c, { s with ck := some c })
    | r => (r, s)

/-- A public key together with its cache `ck` (`sign/keys.go:48-59`). -/
structure CachedPK where
  key : PublicKey
  ck : Option Bytes := none

/-- `ToCurve25519PK` with the cache (`sign/keys.go:432-465`). -/
def CachedPK.toCurve (p : CachedPK) : Bytes × CachedPK :=
  match p.ck with
  | some c => (c, p)
  | none => (toCurve25519PK p.key.pk, { p with ck := some (toCurve25519PK p.key.pk) })

/-- Results of `n` calls in a row. -/
def CachedSK.calls (P : Prims) : Nat → CachedSK → List (Res Bytes)
  | 0, _ => []
  | n + 1, s => (s.toCurve P).1 :: CachedSK.calls P n (s.toCurve P).2

/-- Results of `n` calls in a row. -/
def CachedPK.calls : Nat → CachedPK → List Bytes
  | 0, _ => []
  | n + 1, p => p.toCurve.1 :: CachedPK.calls n p.toCurve.2

/-- **C45**: on a fresh key every one of any number of calls returns the same scalar, the one `C45_scalar` describes. -/
theorem C45_cache (P : Prims) (key : PrivateKey) (n : Nat) :
    CachedSK.calls P n ⟨key, none⟩ = List.replicate n (toCurve25519SK P key) := by
  have h1 : ∀ n c, CachedSK.calls P n ⟨key, some c⟩ = List.replicate n (.ok c) := by
    intro n c
    induction n with
    | zero => rfl
    | succ n ih => simp [CachedSK.calls, CachedSK.toCurve, List.replicate_succ, ih]
  induction n with
  | zero => rfl
  | succ n ih =>
    rw [List.replicate_succ, CachedSK.calls]
    cases h : toCurve25519SK P key with
    | ok c => simp [CachedSK.toCurve, h, h1]
    | err e => rw [h] at ih; simp [CachedSK.toCurve, h, ih]
    | panic w => rw [h] at ih; simp [CachedSK.toCurve, h, ih]

/-- Non-vacuity of `C45_scalar`: a key made by `NewPrivateKey`. -/
example : ∃ k, toCurve25519SK toyPrims (newPrivateKey toyPrims (List.replicate 32 1)) = .ok k ∧ k.length = 32 := by
  obtain ⟨k, h1, h2, _⟩ := C45_scalar toyPrims toyLaws (newPrivateKey toyPrims (List.replicate 32 1)) (by decide +kernel)
  exact ⟨k, h1, h2⟩

/-! ### C46: the public point -/

/-- **C46**: for every 32-byte Ed25519 public key the result of `ToCurve25519PK` is the 32-byte little-endian encoding of
`u = (1 + y) / (1 - y)` in the field of `2^255 - 19` elements (0 for `y = 1`), `y` being the key's low 255 bits; in
particular `u` is fully reduced. -/
theorem C46_conversion (pk : Bytes) (h : pk.length = 32) :
    toCurve25519PK pk = leBytes 32 ((1 + edY pk) / (1 - edY pk)).val ∧
      (toCurve25519PK pk).length = 32 ∧ leNat (toCurve25519PK pk) = ((1 + edY pk) / (1 - edY pk)).val ∧
      leNat (toCurve25519PK pk) < 2 ^ 255 - 19 ∧ (edY pk = 1 → toCurve25519PK pk = List.replicate 32 0) := by
  have hb : ∀ k n, (leBytes k n).length = k ∧ leNat (leBytes k n) = n % 256 ^ k := by
    intro k
    induction k with
    | zero => intro n; simp [leBytes, leNat, Nat.mod_one]
    | succ k ih =>
      intro n
      obtain ⟨h1, h2⟩ := ih (n / 256)
      refine ⟨by simp [leBytes, h1], ?_⟩
      simp only [leBytes, leNat, h2, UInt8.toNat_ofNat']
      rw [show (256 : Nat) ^ (k + 1) = 256 * 256 ^ k from by rw [pow_succ, Nat.mul_comm], Nat.mod_mul]
      omega
  have e : toCurve25519PK pk = leBytes 32 ((1 + edY pk) / (1 - edY pk)).val := by
    rw [toCurve25519PK_eq pk (by omega), toMontgomery, montU, div_eq_mul_inv]
  have hv : ((1 + edY pk) / (1 - edY pk)).val < fieldP := ZMod.val_lt _
  have hf : fieldP = 2 ^ 255 - 19 := rfl
  have e2 : leNat (toCurve25519PK pk) = ((1 + edY pk) / (1 - edY pk)).val := by
    rw [e, (hb _ _).2, Nat.mod_eq_of_lt]
    exact lt_trans hv (by norm_num [fieldP])
  refine ⟨e, ?_, e2, ?_, ?_⟩
  · rw [e]; exact (hb _ _).1
  · rw [e2]; exact hv
  · intro h1
    rw [e, h1, sub_self, div_zero, ZMod.val_zero]
    decide

/-- **C46**: the sign bit of the Ed25519 key does not matter. -/
theorem C46_sign_bit (pk pk' : Bytes) (h : pk.length = 32) (h' : pk'.length = 32)
    (e : leNat pk % 2 ^ 255 = leNat pk' % 2 ^ 255) : toCurve25519PK pk = toCurve25519PK pk' := by
  rw [toCurve25519PK_eq pk (by omega), toCurve25519PK_eq pk' (by omega), toMontgomery, toMontgomery, edY, edY, e]

/-- The constant `d` of edwards25519 (RFC 8032, section 5.1). -/
def edwardsD : ZMod fieldP := -121665 / 121666

/-- A square root of `-486664`. -/
def sqrtM486664 : ZMod fieldP := 6853475219497561581579357271197624642482790079785650197046958215289687604742

theorem small_ne_zero (n : Nat) (h0 : 0 < n) (h : n < fieldP) : ((n : Nat) : ZMod fieldP) ≠ 0 := by
  rw [Ne, ZMod.natCast_eq_zero_iff]
  exact fun hd => absurd (Nat.le_of_dvd h0 hd) (by omega)

theorem sqrtM_sq : sqrtM486664 ^ 2 = -486664 := by
  have h : ((6853475219497561581579357271197624642482790079785650197046958215289687604742 ^ 2 + 486664 : Nat) : ZMod fieldP) = 0 := by
    rw [ZMod.natCast_eq_zero_iff]; norm_num [fieldP]
  push_cast at h
  unfold sqrtM486664
  linear_combination h

/-- **C46**: for every point `(x, y)` of edwards25519 with `x ≠ 0` (which excludes only `(0, 1)` and `(0, -1)`), the `u`
computed from `y` is the coordinate of a point of curve25519: `v² = u³ + 486662 u² + u` for some `v`. -/
theorem C46_on_curve (x y : ZMod fieldP) (hx : x ≠ 0) (h : -x ^ 2 + y ^ 2 = 1 + edwardsD * x ^ 2 * y ^ 2) :
    ∃ v, v ^ 2 = montU y ^ 3 + 486662 * montU y ^ 2 + montU y := by
  have c1 : (121666 : ZMod fieldP) ≠ 0 := by
    have := small_ne_zero 121666 (by norm_num) (by norm_num [fieldP]); exact_mod_cast this
  have hy : 1 - y ≠ 0 := by
    intro hy
    have : y = 1 := by linear_combination -hy
    subst this
    have h2 : x ^ 2 * (1 + edwardsD) = 0 := by linear_combination -h
    have h3 : (1 + edwardsD) = 1 / 121666 := by unfold edwardsD; field_simp; ring
    rw [h3] at h2
    rcases mul_eq_zero.mp h2 with h4 | h4
    · exact hx (pow_eq_zero_iff (two_ne_zero)|>.mp h4)
    · exact c1 (by simpa using h4)
  refine ⟨sqrtM486664 * montU y / x, ?_⟩
  have e : (sqrtM486664 * montU y / x) ^ 2 = -486664 * (montU y / x) ^ 2 := by
    rw [← sqrtM_sq]; ring
  rw [e]
  unfold edwardsD at h
  unfold montU
  field_simp at h ⊢
  linear_combination (4 * (1 + y)) * h

/-- Non-vacuity of `C46_on_curve`: the base point of edwards25519. -/
example : ∃ x y : ZMod fieldP, x ≠ 0 ∧ -x ^ 2 + y ^ 2 = 1 + edwardsD * x ^ 2 * y ^ 2 := by
  refine ⟨((15112221349535400772501151409588531511454012693041857206046113283949847762202 : Nat) : ZMod fieldP),
    ((46316835694926478169428394003475163141307993866256225615783033603165251855960 : Nat) : ZMod fieldP),
    small_ne_zero _ (by norm_num) (by norm_num [fieldP]), ?_⟩
  have c1 : (121666 : ZMod fieldP) ≠ 0 := by
    have := small_ne_zero 121666 (by norm_num) (by norm_num [fieldP]); exact_mod_cast this
  have key : ∀ X Y : Nat, (121666 * Y ^ 2 + 121665 * X ^ 2 * Y ^ 2) % fieldP = (121666 + 121666 * X ^ 2) % fieldP →
      -((X : Nat) : ZMod fieldP) ^ 2 + ((Y : Nat) : ZMod fieldP) ^ 2 =
        1 + edwardsD * ((X : Nat) : ZMod fieldP) ^ 2 * ((Y : Nat) : ZMod fieldP) ^ 2 := by
    intro X Y h
    have h := (ZMod.natCast_eq_natCast_iff' _ _ _).mpr h
    push_cast at h
    unfold edwardsD
    field_simp
    linear_combination h
  exact key _ _ (by norm_num [fieldP])

/-- **C46**: two Ed25519 keys give the same Curve25519 point only if they encode the same `y`, except that the two points of
order at most two (`y = 1`, `y = -1`) both give 0. -/
theorem C46_injective (pk pk' : Bytes) (h : pk.length = 32) (h' : pk'.length = 32)
    (e : toCurve25519PK pk = toCurve25519PK pk') :
    edY pk = edY pk' ∨ (toCurve25519PK pk = List.replicate 32 0 ∧ edY pk ∈ [1, -1] ∧ edY pk' ∈ [1, -1]) := by
  have h1 := (C46_conversion pk h).2.2.1
  have h2 := (C46_conversion pk' h').2.2.1
  rw [e, h2] at h1
  have h3 : (1 + edY pk') / (1 - edY pk') = (1 + edY pk) / (1 - edY pk) := ZMod.val_injective _ h1
  have key : ∀ z : ZMod fieldP, (1 + z) / (1 - z) = 0 → z ∈ ([1, -1] : List (ZMod fieldP)) := by
    intro z hz
    rcases div_eq_zero_iff.mp hz with hz | hz
    · have : z = -1 := by linear_combination hz
      simp [this]
    · have : z = 1 := by linear_combination -hz
      simp [this]
  by_cases hz : (1 + edY pk) / (1 - edY pk) = 0
  · right
    refine ⟨?_, key _ hz, key _ (h3.trans hz)⟩
    rw [(C46_conversion pk h).1, hz, ZMod.val_zero]
    decide
  · left
    have hz' : (1 + edY pk') / (1 - edY pk') ≠ 0 := by rw [h3]; exact hz
    have n1 : 1 - edY pk ≠ 0 := fun h => hz (by rw [h, div_zero])
    have n2 : 1 - edY pk' ≠ 0 := fun h => hz' (by rw [h, div_zero])
    rw [div_eq_div_iff n2 n1] at h3
    have two : (2 : ZMod fieldP) ≠ 0 := by
      have := small_ne_zero 2 (by norm_num) (by norm_num [fieldP]); exact_mod_cast this
    have : 2 * (edY pk - edY pk') = 0 := by linear_combination -h3
    rcases mul_eq_zero.mp this with h | h
    · exact absurd h two
    · exact sub_eq_zero.mp h

/-- Non-vacuity of `C46_sign_bit` and `C46_injective`: two different keys that differ in the sign bit. -/
example : toCurve25519PK (5 :: List.replicate 31 0) = toCurve25519PK (5 :: List.replicate 30 0 ++ [0x80]) ∧
    edY (5 :: List.replicate 31 0) = edY (5 :: List.replicate 30 0 ++ [0x80]) := by
  have h := C46_sign_bit (5 :: List.replicate 31 0) (5 :: List.replicate 30 0 ++ [0x80]) (by simp) (by simp) (by decide)
  refine ⟨h, ?_⟩
  rw [edY, edY, show leNat (5 :: List.replicate 31 0) % 2 ^ 255 = leNat (5 :: List.replicate 30 0 ++ [0x80]) % 2 ^ 255 from by decide]

end Sigtool
