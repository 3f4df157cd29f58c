import Verif.Spec.Grammar
import Verif.ProtoLemmas
import Mathlib.Tactic.Ring
import Mathlib.Tactic.ByContra
/-! # The decoder and the grammar -/

namespace Sigtool
open Spec (groups Continued Varint Tag Element Elements Unknown DecodesKey Decodes)

theorem or_add {acc x s : Nat} (h : acc < 2^s) : acc ||| (x * 2^s) = acc + x * 2^s := by
  have := Nat.two_pow_add_eq_or_of_lt h x
  rw [Nat.or_comm, Nat.mul_comm, ← this]; omega

/-- One byte of a varint. -/
theorem varint_byte (w s acc g : Nat) (h1 : acc < 2^s) (h2 : acc < 2^w) :
    acc ||| ((g <<< s) % 2^w) = acc + (g * 2^s) % 2^w := by
  rw [Nat.shiftLeft_eq]
  by_cases h : s ≤ w
  · have : (g * 2^s) % 2^w = (g % 2^(w-s)) * 2^s := by
      have e : (2:Nat)^w = 2^(w-s) * 2^s := by rw [← Nat.pow_add]; congr 1; omega
      rw [e, Nat.mul_mod_mul_right]
    rw [this, or_add h1]
  · have : (g * 2^s) % 2^w = 0 := by
      have e : (2:Nat)^s = 2^(s-w) * 2^w := by rw [← Nat.pow_add]; congr 1; omega
      rw [e, ← Nat.mul_assoc, Nat.mul_mod_left]
    rw [this]; simp

theorem drop_cons {d : Bytes} {i : Nat} (h : i < d.length) : d.drop i = d[i] :: d.drop (i + 1) := List.drop_eq_getElem_cons h

theorem varint_acc (w s acc g : Nat) (hg : g < 128) (h1 : acc < 2^s) (h2 : acc < 2^w) :
    acc + (g * 2^s) % 2^w < 2^(s+7) ∧ acc + (g * 2^s) % 2^w < 2^w := by
  constructor
  · have := Nat.mod_le (g * 2^s) (2^w)
    have : g * 2^s ≤ 127 * 2^s := Nat.mul_le_mul_right _ (by omega)
    rw [Nat.pow_add]; omega
  · rw [← varint_byte w s acc g h1 h2]
    exact Nat.or_lt_two_pow h2 (Nat.mod_lt _ (Nat.two_pow_pos w))

theorem varint_value (w s acc g r : Nat) :
    (acc + (g * 2^s) % 2^w + r * 2^(s+7)) % 2^w = (acc + (g + 128 * r) * 2^s) % 2^w := by
  have : acc + (g + 128 * r) * 2^s = acc + r * 2^(s+7) + g * 2^s := by rw [Nat.pow_add]; ring
  rw [this, show acc + (g * 2^s) % 2^w + r * 2^(s+7) = acc + r * 2^(s+7) + (g * 2^s) % 2^w by omega, Nat.add_mod_mod]

theorem low7 (b : UInt8) : b.toNat &&& 0x7f = b.toNat % 128 := by
  have := Nat.and_two_pow_sub_one_eq_mod b.toNat 7
  simpa using this

theorem lt_80 (b : UInt8) : b < 0x80 ↔ b.toNat < 128 := by
  rw [UInt8.lt_iff_toNat_lt]; rfl

theorem varint_sound (d : Bytes) (w : Nat) : ∀ (n i k acc v j : Nat), d.length - i ≤ n → acc < 2^(7*k) → acc < 2^w →
    Proto.varintLoop d w i (7*k) acc = .ok (v, j) →
    ∃ bs, d.drop i = bs ++ d.drop j ∧ j = i + bs.length ∧ Continued bs ∧ bs.length + k ≤ 10 ∧
      v = (acc + groups bs * 2^(7*k)) % 2^w := by
  intro n
  induction n with
  | zero =>
    intro i k acc v j hn _ _ h
    unfold Proto.varintLoop at h
    split at h
    · cases h
    · split at h
      · cases h
      · omega
  | succ n ih =>
    intro i k acc v j hn h1 h2 h
    unfold Proto.varintLoop at h
    split at h
    · cases h
    · rename_i hs
      split at h
      · cases h
      · rename_i hi
        have hi' : i < d.length := by omega
        dsimp only at h
        have hg : d[i].toNat % 128 < 128 := Nat.mod_lt _ (by decide)
        rw [low7, varint_byte w _ acc _ h1 h2] at h
        obtain ⟨a1, a2⟩ := varint_acc w (7*k) acc _ hg h1 h2
        split at h
        · rename_i hb
          cases h
          refine ⟨[d[i]], by rw [drop_cons hi']; rfl, rfl, (lt_80 _).mp hb, by simp; omega, ?_⟩
          simp only [groups, Nat.mul_zero, Nat.add_zero]
          rw [← Nat.add_mod_mod, Nat.mod_eq_of_lt a2]
        · rename_i hb
          rw [show 7*k+7 = 7*(k+1) by ring] at h a1
          obtain ⟨bs, g1, g2, g3, g4, g5⟩ := ih (i+1) (k+1) _ v j (by omega) a1 a2 h
          refine ⟨d[i] :: bs, by rw [drop_cons hi', g1]; rfl, by simp; omega, ?_, by simp; omega, ?_⟩
          · cases bs with
            | nil => exact absurd g3 (by simp [Continued])
            | cons c cs => exact ⟨by rw [lt_80] at hb; omega, g3⟩
          · rw [g5]
            simp only [groups]
            rw [show 7*(k+1) = 7*k+7 by ring]
            exact varint_value w (7*k) acc _ _

theorem varint_complete (d post : Bytes) (w : Nat) : ∀ (bs : Bytes) (i k acc : Nat), d.drop i = bs ++ post → Continued bs →
    bs.length + k ≤ 10 → acc < 2^(7*k) → acc < 2^w →
    Proto.varintLoop d w i (7*k) acc = .ok ((acc + groups bs * 2^(7*k)) % 2^w, i + bs.length) := by
  intro bs
  induction bs with
  | nil => intro i k acc _ h; exact absurd h (by simp [Continued])
  | cons b bs ih =>
    intro i k acc hd hc hl h1 h2
    have hi : i < d.length := by
      by_contra hge
      rw [List.drop_eq_nil_of_le (by omega)] at hd; cases hd
    rw [drop_cons hi] at hd
    simp only [List.cons_append, List.cons.injEq] at hd
    obtain ⟨hb, hrest⟩ := hd
    have hg : b.toNat % 128 < 128 := Nat.mod_lt _ (by decide)
    obtain ⟨a1, a2⟩ := varint_acc w (7*k) acc _ hg h1 h2
    simp only [List.length_cons] at hl
    unfold Proto.varintLoop
    rw [if_neg (by omega), dif_neg (by omega)]
    dsimp only
    rw [hb, low7, varint_byte w _ acc _ h1 h2]
    cases bs with
    | nil =>
      simp only [Continued] at hc
      rw [if_pos (by rw [lt_80]; exact hc)]
      simp only [groups, Nat.mul_zero, Nat.add_zero, List.length_cons, List.length_nil]
      rw [← Nat.add_mod_mod, Nat.mod_eq_of_lt a2]
    | cons c cs =>
      have hc' : 128 ≤ b.toNat ∧ Continued (c :: cs) := hc
      rw [if_neg (by rw [lt_80]; omega)]
      rw [show 7*k+7 = 7*(k+1) by ring] at a1 ⊢
      rw [ih (i+1) (k+1) _ hrest hc'.2 (by simp only [List.length_cons] at hl ⊢; omega) a1 a2]
      congr 2
      · rw [show 7*(k+1) = 7*k+7 by ring]
        exact varint_value w (7*k) acc _ _
      · simp; omega

/-- The varint at index `i`. -/
theorem varint_sound0 {d : Bytes} {w i v j : Nat} (h : Proto.varintLoop d w i 0 0 = .ok (v, j)) :
    ∃ bs, d.drop i = bs ++ d.drop j ∧ j = i + bs.length ∧ Varint bs (groups bs % 2^64) ∧ v = groups bs % 2^w := by
  obtain ⟨bs, h1, h2, h3, h4, h5⟩ := varint_sound d w _ i 0 0 v j (Nat.le_refl _) (by decide) (Nat.two_pow_pos w) h
  exact ⟨bs, h1, h2, ⟨h3, by omega, rfl⟩, by simpa using h5⟩

theorem varint_complete0 {d bs post : Bytes} {i v : Nat} (w : Nat) (h : d.drop i = bs ++ post) (hv : Varint bs v) :
    Proto.varintLoop d w i 0 0 = .ok (groups bs % 2^w, i + bs.length) := by
  have := varint_complete d post w bs i 0 0 h hv.shape (by have := hv.short; omega) (by decide) (Nat.two_pow_pos w)
  simpa using this

theorem drop_add {d a post : Bytes} {i : Nat} (h : d.drop i = a ++ post) : d.drop (i + a.length) = post := by
  rw [← List.drop_drop, h]; simp

theorem drop_le {d a post : Bytes} {i : Nat} (h : d.drop i = a ++ post) (ha : a ≠ []) : i + a.length ≤ d.length := by
  have := congrArg List.length h
  simp at this
  have : 0 < a.length := List.length_pos_iff.mpr ha
  omega

theorem Spec.Continued.ne_nil {bs : Bytes} (h : Continued bs) : bs ≠ [] := by rintro rfl; exact h

theorem Spec.Tag.ne_nil {bs : Bytes} {a b : Nat} (h : Tag bs a b) : bs ≠ [] := by
  obtain ⟨v, hv, _⟩ := h; exact hv.shape.ne_nil

theorem Spec.Element.ne_nil {n : Nat} {e : Bytes} (h : Element n e) : e ≠ [] := by
  cases h <;> simp_all [Spec.Tag.ne_nil (by assumption)]

/-! ## Length-delimited values -/

theorem lenDelim_sound {d : Bytes} {i k : Nat} {x : Bytes} (h : Proto.lenDelim d i = .ok (x, k)) :
    ∃ l, Varint l x.length ∧ d.drop i = l ++ x ++ d.drop k ∧ k = i + (l ++ x).length := by
  unfold Proto.lenDelim at h
  obtain ⟨⟨n, j⟩, h1, h2⟩ := Proto.bind_eq_ok h
  obtain ⟨l, g1, g2, g3, g4⟩ := varint_sound0 h1
  dsimp only at h2
  split at h2
  · cases h2
  · split at h2
    · cases h2
    · split at h2
      · cases h2
      · obtain ⟨s, h3, h4⟩ := Proto.bind_eq_ok h2
        cases h4
        unfold Proto.goSlice at h3
        rw [if_pos (by omega)] at h3
        cases h3
        have hx : ((d.drop j).take (j + n - j)).length = n := by simp; omega
        refine ⟨l, ?_, ?_, ?_⟩
        · rw [hx, g4]; exact g3
        · rw [g1, List.append_assoc]
          congr 1
          rw [show j + n - j = n by omega, ← List.drop_drop, List.take_append_drop]
        · simp only [List.length_append, hx]; omega

theorem lenDelim_complete {d l x post : Bytes} {i : Nat} (hd : d.length < 2^63) (h : d.drop i = l ++ x ++ post)
    (hl : Varint l x.length) : Proto.lenDelim d i = .ok (x, i + (l ++ x).length) := by
  have h' : d.drop i = l ++ (x ++ post) := by rw [h, List.append_assoc]
  have hle := drop_le h (by simp [hl.shape.ne_nil])
  unfold Proto.lenDelim
  rw [varint_complete0 64 h' hl, ← hl.value]
  simp only [Res.bind_ok, List.length_append] at hle ⊢
  rw [if_neg (by omega), if_neg (by omega), if_neg (by omega)]
  unfold Proto.goSlice
  rw [if_pos (by omega)]
  simp only [Res.bind_ok]
  congr 2
  · rw [drop_add h']; simp
  · omega

/-! ## Tags -/

theorem fieldTag_sound {d : Bytes} {i num typ j : Nat} (h : Proto.fieldTag d i = .ok (num, typ, j)) :
    ∃ t, Tag t num typ ∧ d.drop i = t ++ d.drop j ∧ j = i + t.length ∧ 0 < num ∧ num < 2^31 ∧ typ ≠ 4 := by
  unfold Proto.fieldTag at h
  obtain ⟨⟨v, j'⟩, h1, h2⟩ := Proto.bind_eq_ok h
  obtain ⟨t, g1, g2, g3, g4⟩ := varint_sound0 h1
  dsimp only at h2
  split at h2
  · cases h2
  · split at h2
    · cases h2
    · rename_i n4 hn
      cases h2
      refine ⟨t, ⟨v, by rw [g4]; exact g3, ?_, ?_⟩, g1, g2, by omega, by omega, n4⟩
      · rw [Nat.shiftRight_eq_div_pow]
      · exact Nat.and_two_pow_sub_one_eq_mod v 3

theorem fieldTag_complete {d t post : Bytes} {i num typ : Nat} (h : d.drop i = t ++ post) (ht : Tag t num typ)
    (h0 : 0 < num) (h1 : num < 2^31) (h4 : typ ≠ 4) : Proto.fieldTag d i = .ok (num, typ, i + t.length) := by
  obtain ⟨v, hv, hn, htt⟩ := ht
  unfold Proto.fieldTag
  rw [varint_complete0 64 h hv, ← hv.value]
  simp only [Res.bind_ok]
  have e1 : (v >>> 3) % 2^32 = num := by rw [hn, Nat.shiftRight_eq_div_pow]
  have e2 : v &&& 0x7 = typ := by rw [htt]; exact Nat.and_two_pow_sub_one_eq_mod v 3
  rw [e1, e2, if_neg h4, if_neg (by omega)]

/-! ## Unknown fields -/

theorem skipLoop_fuel (d : Bytes) : ∀ (f g i depth : Nat), d.length - i < f → d.length - i < g →
    Proto.skipLoop d f i depth = Proto.skipLoop d g i depth := by
  intro f
  induction f with
  | zero => intro g i depth h; omega
  | succ f ih =>
    intro g i depth hf hg
    cases g with
    | zero => omega
    | succ g =>
      unfold Proto.skipLoop
      split
      · rfl
      · rename_i hi
        cases hv : Proto.varintLoop d 64 i 0 0 with
        | err x => rfl
        | panic x => rfl
        | ok p =>
          obtain ⟨wire, j⟩ := p
          have hp := Proto.varintLoop_progress _ _ _ _ _ _ _ hv
          have fin : ∀ k dep, j ≤ k → (if k ≥ 2^63 then (.err .invalidLength : Res Nat) else if dep = 0 then .ok k else Proto.skipLoop d f k dep) =
              (if k ≥ 2^63 then (.err .invalidLength : Res Nat) else if dep = 0 then .ok k else Proto.skipLoop d g k dep) := by
            intro k dep hk
            rw [ih g k dep (by omega) (by omega)]
          simp only [Res.bind_ok]
          split
          · cases hv2 : Proto.varintLoop d 64 j 0 0 with
            | err x => rfl
            | panic x => rfl
            | ok p =>
              have hp2 := Proto.varintLoop_progress _ _ _ _ _ _ _ hv2
              simp only [Res.bind_ok]
              exact fin _ _ (by omega)
          · exact fin _ _ (by omega)
          · cases hv2 : Proto.varintLoop d 64 j 0 0 with
            | err x => rfl
            | panic x => rfl
            | ok p =>
              have hp2 := Proto.varintLoop_progress _ _ _ _ _ _ _ hv2
              simp only [Res.bind_ok]
              split
              · rfl
              · exact fin _ _ (by omega)
          · exact fin _ _ (by omega)
          · split
            · rfl
            · exact fin _ _ (by omega)
          · exact fin _ _ (by omega)
          · rfl

/-- `skipLoop` with the fuel of `Skip`. -/
def srun (d : Bytes) (i depth : Nat) : Res Nat := Proto.skipLoop d (d.length + 1) i depth

/-- What follows after an element: the end, or the next element. -/
def snext (d : Bytes) (i depth : Nat) : Res Nat := if depth = 0 then .ok i else srun d i depth

/-- One round of `Skip`. -/
theorem srun_unfold (d : Bytes) (i depth : Nat) (hi : i < d.length) :
    srun d i depth = (Proto.varintLoop d 64 i 0 0).bind fun (wire, i) =>
      let finish (i depth : Nat) : Res Nat := if i ≥ 2^63 then .err .invalidLength else snext d i depth
      match wire &&& 0x7 with
      | 0 => (Proto.varintLoop d 64 i 0 0).bind fun (_, i) => finish i depth
      | 1 => finish (i + 8) depth
      | 2 => (Proto.varintLoop d 64 i 0 0).bind fun (len, i) =>
          if len ≥ 2^63 then .err .invalidLength else finish (i + len) depth
      | 3 => finish i (depth + 1)
      | 4 => if depth = 0 then .err .endOfGroup else finish i (depth - 1)
      | 5 => finish (i + 4) depth
      | _ => .err (.msg "proto: illegal wireType") := by
  unfold srun
  rw [Proto.skipLoop, if_neg (by omega)]
  cases hv : Proto.varintLoop d 64 i 0 0 with
  | err x => rfl
  | panic x => rfl
  | ok p =>
    obtain ⟨wire, j⟩ := p
    have hp := Proto.varintLoop_progress _ _ _ _ _ _ _ hv
    have fin : ∀ k dep, j ≤ k → (if k ≥ 2^63 then (.err .invalidLength : Res Nat) else if dep = 0 then .ok k
        else Proto.skipLoop d d.length k dep) = (if k ≥ 2^63 then (.err .invalidLength : Res Nat) else snext d k dep) := by
      intro k dep hk
      unfold snext srun
      rw [skipLoop_fuel d d.length (d.length + 1) k dep (by omega) (by omega)]
    simp only [Res.bind_ok]
    generalize wire &&& 7 = ty
    rcases ty with _ | _ | _ | _ | _ | _ | ty
    · cases hv2 : Proto.varintLoop d 64 j 0 0 with
      | err x => rfl
      | panic x => rfl
      | ok p =>
        have hp2 := Proto.varintLoop_progress _ _ _ _ _ _ _ hv2
        simp only [Res.bind_ok]
        exact fin _ _ (by omega)
    · exact fin _ _ (by omega)
    · cases hv2 : Proto.varintLoop d 64 j 0 0 with
      | err x => rfl
      | panic x => rfl
      | ok p =>
        have hp2 := Proto.varintLoop_progress _ _ _ _ _ _ _ hv2
        simp only [Res.bind_ok]
        split
        · rfl
        · exact fin _ _ (by omega)
    · exact fin _ _ (by omega)
    · by_cases hdep : depth = 0
      · subst hdep; rfl
      · show (if depth = 0 then _ else _) = (if depth = 0 then _ else _)
        rw [if_neg hdep, if_neg hdep]
        exact fin _ _ (by omega)
    · exact fin _ _ (by omega)
    · rfl

/-- The open groups that remain to be closed, innermost first: for each its remaining elements and its end tag. -/
inductive Closing : Nat → Bytes → Prop where
  | done : Closing 0 []
  | next {n : Nat} {b e r : Bytes} {any : Nat} (hb : Elements b) (he : Tag e any 4) (hr : Closing n r) :
      Closing (n + 1) (b ++ (e ++ r))

theorem Closing.element {n : Nat} {a r : Bytes} {num : Nat} (ha : Element num a) (h : Closing (n + 1) r) :
    Closing (n + 1) (a ++ r) := by
  cases h with
  | next hb he hr => rw [← List.append_assoc]; exact .next (.cons ha hb) he hr

theorem Closing.open {n : Nat} {t r : Bytes} {num : Nat} (ht : Tag t num 3) (h : Closing (n + 2) r) :
    Closing (n + 1) (t ++ r) := by
  cases h with
  | next hb he hr =>
    have := Closing.element (.group ht hb he) hr
    simpa using this

theorem Closing.open0 {t r : Bytes} {num : Nat} (ht : Tag t num 3) (h : Closing 1 r) : Element num (t ++ r) := by
  cases h with
  | next hb he hr =>
    cases hr
    have := Element.group ht hb he
    simpa using this

theorem Closing.close {n : Nat} {e r : Bytes} {any : Nat} (he : Tag e any 4) (h : Closing n r) : Closing (n + 1) (e ++ r) :=
  .next (b := []) .nil he h

theorem tag_of {i j v : Nat} {d : Bytes} (h : Proto.varintLoop d 64 i 0 0 = .ok (v, j)) {typ : Nat}
    (ht : v &&& 0x7 = typ) : ∃ t, Tag t (v / 8 % 2^32) typ ∧ d.drop i = t ++ d.drop j ∧ j = i + t.length := by
  obtain ⟨t, g1, g2, g3, g4⟩ := varint_sound0 h
  exact ⟨t, ⟨v, by rw [g4]; exact g3, rfl, by rw [← ht]; exact Nat.and_two_pow_sub_one_eq_mod v 3⟩, g1, g2⟩

/-- `Skip` started at depth `depth` only ends after everything open was closed (if it stays inside the input). -/
theorem srun_sound (d : Bytes) : ∀ (n i depth k : Nat), d.length - i ≤ n → srun d i depth = .ok k → k ≤ d.length →
    ∃ bs, d.drop i = bs ++ d.drop k ∧ k = i + bs.length ∧ (depth = 0 → ∃ num, Element num bs) ∧
      (0 < depth → Closing depth bs) := by
  intro n
  induction n with
  | zero =>
    intro i depth k hn h hk
    unfold srun at h
    rw [Proto.skipLoop, if_pos (by omega)] at h
    cases h
  | succ n ih =>
    intro i depth k hn h hk
    have hi : i < d.length := by
      by_contra hge
      unfold srun at h
      rw [Proto.skipLoop, if_pos (by omega)] at h
      cases h
    rw [srun_unfold d i depth hi] at h
    obtain ⟨⟨v, j⟩, h1, h2⟩ := Proto.bind_eq_ok h
    have hp := Proto.varintLoop_progress _ _ _ _ _ _ _ h1
    dsimp only at h2
    -- a scalar element `a` (tag included) that ends at `j2`
    have scalar : ∀ (num : Nat) (a : Bytes) (j2 : Nat), Element num a → (j2 ≤ d.length → d.drop i = a ++ d.drop j2) →
        j2 = i + a.length →
        (if j2 ≥ 2^63 then (.err .invalidLength : Res Nat) else snext d j2 depth) = .ok k →
        ∃ bs, d.drop i = bs ++ d.drop k ∧ k = i + bs.length ∧ (depth = 0 → ∃ num, Element num bs) ∧
          (0 < depth → Closing depth bs) := by
      intro num a j2 ha hd hj hf
      split at hf
      · cases hf
      · unfold snext at hf
        split at hf
        · cases hf
          exact ⟨a, hd hk, hj, fun _ => ⟨num, ha⟩, fun hpos => by omega⟩
        · have hj2 : j2 < d.length := by
            by_contra hge
            unfold srun at hf
            rw [Proto.skipLoop, if_pos (by omega)] at hf
            cases hf
          have hane : 0 < a.length := List.length_pos_iff.mpr ha.ne_nil
          obtain ⟨bs, g1, g2, g3, g4⟩ := ih j2 depth k (by omega) hf hk
          refine ⟨a ++ bs, by rw [hd (by omega), g1, List.append_assoc], by simp; omega, fun h0 => by omega, fun hpos => ?_⟩
          obtain ⟨m, rfl⟩ := Nat.exists_eq_succ_of_ne_zero (n := depth) (by omega)
          exact (g4 hpos).element ha
    split at h2
    · rename_i ht
      obtain ⟨t, t1, t2, t3⟩ := tag_of h1 ht
      obtain ⟨⟨v2, j2⟩, h3, h4⟩ := Proto.bind_eq_ok h2
      obtain ⟨b, b1, b2, b3, b4⟩ := varint_sound0 h3
      exact scalar _ (t ++ b) j2 (.varint t1 b3) (fun _ => by rw [t2, b1, List.append_assoc]) (by simp; omega) h4
    · rename_i ht
      obtain ⟨t, t1, t2, t3⟩ := tag_of h1 ht
      by_cases hj : j + 8 ≤ d.length
      · have hl : ((d.drop j).take 8).length = 8 := by simp; omega
        exact scalar _ (t ++ (d.drop j).take 8) (j + 8) (.fixed64 t1 hl)
          (fun _ => by rw [t2, List.append_assoc, ← List.drop_drop, List.take_append_drop]) (by simp only [List.length_append, hl]; omega) h2
      · exfalso
        split at h2
        · cases h2
        · unfold snext at h2
          split at h2
          · cases h2; omega
          · unfold srun at h2
            rw [Proto.skipLoop, if_pos (by omega)] at h2
            cases h2
    · rename_i ht
      obtain ⟨t, t1, t2, t3⟩ := tag_of h1 ht
      obtain ⟨⟨v2, j2⟩, h3, h4⟩ := Proto.bind_eq_ok h2
      obtain ⟨b, b1, b2, b3, b4⟩ := varint_sound0 h3
      dsimp only at h4
      split at h4
      · cases h4
      · by_cases hj : j2 + v2 ≤ d.length
        · have hl : ((d.drop j2).take v2).length = v2 := by simp; omega
          exact scalar _ (t ++ b ++ (d.drop j2).take v2) (j2 + v2) (.bytes t1 (by rw [hl, b4]; exact b3))
            (fun _ => by rw [t2, b1, List.append_assoc, List.append_assoc, ← List.drop_drop, List.take_append_drop])
            (by simp only [List.length_append, hl]; omega) h4
        · exfalso
          split at h4
          · cases h4
          · unfold snext at h4
            split at h4
            · cases h4; omega
            · unfold srun at h4
              rw [Proto.skipLoop, if_pos (by omega)] at h4
              cases h4
    · rename_i ht
      obtain ⟨t, t1, t2, t3⟩ := tag_of h1 ht
      split at h2
      · cases h2
      · unfold snext at h2
        rw [if_neg (by omega)] at h2
        obtain ⟨bs, g1, g2, g3, g4⟩ := ih j (depth + 1) k (by omega) h2 hk
        have hc := g4 (by omega)
        refine ⟨t ++ bs, by rw [t2, g1, List.append_assoc], by simp; omega, fun h0 => ?_, fun hpos => ?_⟩
        · subst h0; exact ⟨_, Closing.open0 t1 hc⟩
        · obtain ⟨m, rfl⟩ := Nat.exists_eq_succ_of_ne_zero (n := depth) (by omega)
          exact Closing.open t1 hc
    · rename_i ht
      obtain ⟨t, t1, t2, t3⟩ := tag_of h1 ht
      split at h2
      · cases h2
      · rename_i hdep
        obtain ⟨m, rfl⟩ := Nat.exists_eq_succ_of_ne_zero (n := depth) hdep
        split at h2
        · cases h2
        · unfold snext at h2
          simp only [Nat.succ_eq_add_one, Nat.add_sub_cancel] at h2
          split at h2
          · rename_i hm
            subst hm
            cases h2
            exact ⟨t, t2, t3, fun h0 => by omega, fun _ => by
              have := Closing.close t1 .done
              simpa using this⟩
          · obtain ⟨bs, g1, g2, g3, g4⟩ := ih j m k (by omega) h2 hk
            exact ⟨t ++ bs, by rw [t2, g1, List.append_assoc], by simp; omega, fun h0 => by omega,
              fun _ => Closing.close t1 (g4 (by omega))⟩
    · rename_i ht
      obtain ⟨t, t1, t2, t3⟩ := tag_of h1 ht
      by_cases hj : j + 4 ≤ d.length
      · have hl : ((d.drop j).take 4).length = 4 := by simp; omega
        exact scalar _ (t ++ (d.drop j).take 4) (j + 4) (.fixed32 t1 hl)
          (fun _ => by rw [t2, List.append_assoc, ← List.drop_drop, List.take_append_drop]) (by simp only [List.length_append, hl]; omega) h2
      · exfalso
        split at h2
        · cases h2
        · unfold snext at h2
          split at h2
          · cases h2; omega
          · unfold srun at h2
            rw [Proto.skipLoop, if_pos (by omega)] at h2
            cases h2
    · cases h2

theorem tag_at {d t post : Bytes} {i num typ : Nat} (h : d.drop i = t ++ post) (ht : Tag t num typ) :
    ∃ v, Proto.varintLoop d 64 i 0 0 = .ok (v, i + t.length) ∧ v &&& 0x7 = typ := by
  obtain ⟨v, hv, _, htt⟩ := ht
  refine ⟨v, by rw [varint_complete0 64 h hv, ← hv.value], ?_⟩
  rw [htt]; exact Nat.and_two_pow_sub_one_eq_mod v 3

/-- `Skip` at the start of an element arrives behind it. -/
theorem srun_element (d : Bytes) (hd : d.length < 2^63) {num : Nat} {a : Bytes} (ha : Element num a) :
    ∀ (i depth : Nat) (post : Bytes), d.drop i = a ++ post → srun d i depth = snext d (i + a.length) depth := by
  refine Element.rec (motive_1 := fun num a _ => ∀ (i depth : Nat) (post : Bytes), d.drop i = a ++ post →
      srun d i depth = snext d (i + a.length) depth)
    (motive_2 := fun a _ => ∀ (i depth : Nat) (post : Bytes), d.drop i = a ++ post → 0 < depth →
      srun d i depth = srun d (i + a.length) depth) ?_ ?_ ?_ ?_ ?_ ?_ ?_ ha
  · intro t b num v ht hb i depth post h
    have hle := drop_le h (by simp [ht.ne_nil])
    have hpos : 0 < t.length := List.length_pos_iff.mpr ht.ne_nil
    rw [List.append_assoc] at h
    obtain ⟨v, h1, h2⟩ := tag_at h ht
    simp only [List.length_append] at hle ⊢
    rw [srun_unfold d i depth (by omega), h1]
    simp only [Res.bind_ok, h2]
    rw [varint_complete0 64 (drop_add h) hb]
    simp only [Res.bind_ok]
    rw [if_neg (by omega), Nat.add_assoc]
  · intro t b num ht hb i depth post h
    have hle := drop_le h (by simp [ht.ne_nil])
    have hpos : 0 < t.length := List.length_pos_iff.mpr ht.ne_nil
    rw [List.append_assoc] at h
    obtain ⟨v, h1, h2⟩ := tag_at h ht
    simp only [List.length_append] at hle ⊢
    rw [srun_unfold d i depth (by omega), h1]
    simp only [Res.bind_ok, h2]
    rw [if_neg (by omega), hb, Nat.add_assoc]
  · intro t l b num ht hl i depth post h
    have hle := drop_le h (by simp [ht.ne_nil])
    have hpos : 0 < t.length := List.length_pos_iff.mpr ht.ne_nil
    rw [List.append_assoc, List.append_assoc] at h
    obtain ⟨v, h1, h2⟩ := tag_at h ht
    simp only [List.length_append] at hle ⊢
    rw [srun_unfold d i depth (by omega), h1]
    simp only [Res.bind_ok, h2]
    rw [varint_complete0 64 (drop_add h) hl, ← hl.value]
    simp only [Res.bind_ok]
    rw [if_neg (by omega), if_neg (by omega), Nat.add_assoc, Nat.add_assoc]
    congr 1; omega
  · intro t b e num any ht hb he ihb i depth post h
    have hle := drop_le h (by simp [ht.ne_nil])
    have hpos : 0 < t.length := List.length_pos_iff.mpr ht.ne_nil
    have hpos2 : 0 < e.length := List.length_pos_iff.mpr he.ne_nil
    rw [List.append_assoc, List.append_assoc] at h
    obtain ⟨v, h1, h2⟩ := tag_at h ht
    simp only [List.length_append] at hle ⊢
    rw [srun_unfold d i depth (by omega), h1]
    simp only [Res.bind_ok, h2]
    rw [if_neg (by omega)]
    have hn : snext d (i + t.length) (depth + 1) = srun d (i + t.length) (depth + 1) := if_neg (by omega)
    have h3 := drop_add h
    rw [hn, ihb _ (depth + 1) _ h3 (by omega)]
    have h4 := drop_add h3
    obtain ⟨v, k1, k2⟩ := tag_at h4 he
    rw [srun_unfold d _ _ (by omega), k1]
    simp only [Res.bind_ok, k2]
    rw [if_neg (by omega), if_neg (by omega), Nat.add_sub_cancel]
    congr 1; omega
  · intro t b num ht hb i depth post h
    have hle := drop_le h (by simp [ht.ne_nil])
    have hpos : 0 < t.length := List.length_pos_iff.mpr ht.ne_nil
    rw [List.append_assoc] at h
    obtain ⟨v, h1, h2⟩ := tag_at h ht
    simp only [List.length_append] at hle ⊢
    rw [srun_unfold d i depth (by omega), h1]
    simp only [Res.bind_ok, h2]
    rw [if_neg (by omega), hb, Nat.add_assoc]
  · intro i depth post h hpos; rfl
  · intro a b num ha hb iha ihb i depth post h hpos
    rw [List.append_assoc] at h
    rw [iha i depth _ h]
    have : snext d (i + a.length) depth = srun d (i + a.length) depth := if_neg (by omega)
    rw [this, ihb _ depth _ (drop_add h) hpos]
    congr 1; simp; omega

theorem skip_eq (d : Bytes) : Proto.skip d = srun d 0 0 := rfl

/-! ## One field of either message -/

theorem unknown_sound {d : Bytes} {i k : Nat} {e : Bytes} (h : Proto.unknownField d i = .ok (e, k)) :
    ∃ num, Element num e ∧ d.drop i = e ++ d.drop k ∧ k = i + e.length := by
  unfold Proto.unknownField at h
  obtain ⟨n, h1, h2⟩ := Proto.bind_eq_ok h
  split at h2
  · cases h2
  · split at h2
    · cases h2
    · obtain ⟨s, h3, h4⟩ := Proto.bind_eq_ok h2
      cases h4
      unfold Proto.goSlice at h3
      rw [if_pos (by omega)] at h3
      cases h3
      obtain ⟨bs, g1, g2, g3, _⟩ := srun_sound (d.drop i) _ 0 0 n (Nat.le_refl _) h1 (by simp; omega)
      obtain ⟨num, hnum⟩ := g3 rfl
      have hbs : (d.drop i).take (i + n - i) = bs := by
        rw [List.drop_zero] at g1
        rw [g1]
        rw [show i + n - i = bs.length by omega]; simp
      rw [hbs]
      refine ⟨num, hnum, ?_, by omega⟩
      rw [List.drop_zero] at g1
      rw [← List.drop_drop]; exact g1

theorem unknown_complete {d e post : Bytes} {i num : Nat} (hd : d.length < 2^63) (h : d.drop i = e ++ post)
    (he : Element num e) : Proto.unknownField d i = .ok (e, i + e.length) := by
  have hle := drop_le h he.ne_nil
  unfold Proto.unknownField
  rw [skip_eq, srun_element (d.drop i) (by simp; omega) he 0 0 post (by rw [List.drop_zero]; exact h)]
  simp only [snext, if_true, Res.bind_ok, Nat.zero_add]
  rw [if_neg (by omega), if_neg (by omega)]
  unfold Proto.goSlice
  rw [if_pos (by omega)]
  simp only [Res.bind_ok]
  rw [h, show i + e.length - i = e.length by omega]; simp

/-- The field number of an element is that of its tag. -/
theorem element_tag {num : Nat} {e : Bytes} (he : Element num e) : ∃ t r typ, e = t ++ r ∧ Tag t num typ ∧ typ ≠ 4 := by
  cases he with
  | varint ht _ => exact ⟨_, _, 0, rfl, ht, by decide⟩
  | fixed64 ht _ => exact ⟨_, _, 1, rfl, ht, by decide⟩
  | bytes ht _ => exact ⟨_, _, 2, List.append_assoc _ _ _, ht, by decide⟩
  | group ht _ _ => exact ⟨_, _, 3, List.append_assoc _ _ _, ht, by decide⟩
  | fixed32 ht _ => exact ⟨_, _, 5, rfl, ht, by decide⟩

theorem element_num {d e post : Bytes} {i num n typ j : Nat} (he : Element num e) (h : d.drop i = e ++ post)
    (ht : Proto.fieldTag d i = .ok (n, typ, j)) : num = n := by
  obtain ⟨t, r, typ', rfl, h1, h2⟩ := element_tag he
  obtain ⟨v, hv, hn, htt⟩ := h1
  unfold Proto.fieldTag at ht
  rw [List.append_assoc] at h
  rw [varint_complete0 64 h hv, ← hv.value] at ht
  simp only [Res.bind_ok] at ht
  split at ht
  · cases ht
  · split at ht
    · cases ht
    · cases ht
      rw [hn, Nat.shiftRight_eq_div_pow]

end Sigtool
