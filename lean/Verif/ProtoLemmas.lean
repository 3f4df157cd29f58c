import Verif.Proto
import Verif.Spec.Wire
/-! # Lemmas about the header codec -/

namespace Sigtool.Proto
open Spec (varint delimited field wrappedKeyBytes headerBytes)

theorem encVarint_eq (v : Nat) : encVarint v = varint v := by
  induction v using Nat.strongRecOn with
  | _ v ih =>
    unfold encVarint varint
    by_cases h : v < 128
    · have h1 : ¬ v ≥ 1 <<< 7 := by simp; omega
      simp only [h, h1, if_true, if_false]
    · have h1 : ¬ v < 128 := h
      simp only [h1, if_false]
      have h2 : v ≥ 1 <<< 7 := by simp; omega
      simp only [h2, if_true]
      rw [ih (v >>> 7) (by rw [Nat.shiftRight_eq_div_pow]; omega), Nat.shiftRight_eq_div_pow]
      have : (v &&& 0x7f) ||| 0x80 = v % 128 + 128 := by
        rw [show (0x7f : Nat) = 2^7 - 1 from rfl, Nat.and_two_pow_sub_one_eq_mod]
        rw [Nat.or_comm, show (0x80 : Nat) = 2^7 * 1 from rfl,
          ← Nat.two_pow_add_eq_or_of_lt (Nat.mod_lt v (by decide : 2^7 > 0))]
        omega
      rw [this]

theorem log2_or_one (x : Nat) (h : 1 ≤ x) : Nat.log2 (x ||| 1) = Nat.log2 x := by
  have hx : x ≠ 0 := by omega
  rw [Nat.log2_eq_iff (by have := Nat.left_le_or (n := x) (m := 1); omega)]
  constructor
  · exact Nat.le_trans (Nat.log2_self_le hx) Nat.left_le_or
  · apply Nat.or_lt_two_pow Nat.lt_log2_self
    exact Nat.one_lt_two_pow (by omega)

theorem log2_div128 (v : Nat) (h : 128 ≤ v) : Nat.log2 v = Nat.log2 (v / 128) + 7 := by
  rw [Nat.log2_eq_iff (by omega)]
  have h1 := Nat.log2_self_le (n := v / 128) (by omega)
  have h2 := Nat.lt_log2_self (n := v / 128)
  generalize Nat.log2 (v / 128) = k at *
  rw [show k + 7 + 1 = (k + 1) + 7 from by omega, Nat.pow_add, Nat.pow_add 2 (k+1) 7]
  generalize 2^(k+1) = a at *
  generalize 2^k = b at *
  omega

theorem sizeOfVarint_eq (v : Nat) : sizeOfVarint v = (varint v).length := by
  induction v using Nat.strongRecOn with
  | _ v ih =>
    unfold varint
    by_cases h : v < 128
    · simp only [h, if_true, List.length_singleton]
      unfold sizeOfVarint
      have hlt : (v ||| 1) < 2^7 := Nat.or_lt_two_pow h (by decide)
      have h0 : v ||| 1 ≠ 0 := by have := Nat.right_le_or (n := v) (m := 1); omega
      have : Nat.log2 (v ||| 1) < 7 := (Nat.log2_lt h0).2 hlt
      omega
    · simp only [h, if_false, List.length_cons]
      rw [← ih (v / 128) (by omega)]
      unfold sizeOfVarint
      rw [log2_or_one v (by omega), log2_or_one (v / 128) (by omega), log2_div128 v (by omega)]
      omega

theorem varint_ne_nil (v : Nat) : varint v ≠ [] := by
  unfold varint; split <;> simp

theorem varint_length_pos (v : Nat) : 0 < (varint v).length :=
  List.length_pos_iff.mpr (varint_ne_nil v)

/-! ### Marshalling -/

/-- Writing `x` in front of what is already there. -/
theorem put_spec (n : Nat) (x acc : Bytes) (h : x.length ≤ n) :
    Buf.put ⟨List.replicate n 0 ++ acc, n⟩ x =
      .ok ⟨List.replicate (n - x.length) 0 ++ (x ++ acc), n - x.length⟩ := by
  unfold Buf.put poke
  simp only [h, if_true]
  have h1 : n - x.length + x.length = n := by omega
  rw [h1]
  have h2 : n ≤ (List.replicate n (0 : UInt8) ++ acc).length := by simp
  simp only [h2, if_true, Res.bind_ok]
  have h3 : (List.replicate n (0:UInt8) ++ acc).take (n - x.length) = List.replicate (n - x.length) 0 := by
    rw [List.take_append_of_le_length (by simp)]
    simp
  have h4 : (List.replicate n (0:UInt8) ++ acc).drop n = acc := by
    rw [List.drop_append_of_le_length (by simp)]; simp
  rw [h3, h4, List.append_assoc]

theorem putVarint_spec (n v : Nat) (acc : Bytes) (h : (varint v).length ≤ n) :
    Buf.putVarint ⟨List.replicate n 0 ++ acc, n⟩ v =
      .ok ⟨List.replicate (n - (varint v).length) 0 ++ (varint v ++ acc), n - (varint v).length⟩ := by
  have := put_spec n (varint v) acc h
  unfold Buf.put at this
  unfold Buf.putVarint
  rw [sizeOfVarint_eq, encVarint_eq]
  simp only [h, if_true] at this ⊢
  exact this

theorem field_length (tag : UInt8) (x : Bytes) :
    (field tag x).length = if x.length > 0 then 1 + x.length + (varint x.length).length else 0 := by
  unfold field delimited
  cases x with
  | nil => simp
  | cons a t => simp; omega

theorem putField_spec (n : Nat) (tag : UInt8) (x acc : Bytes) (h : (field tag x).length ≤ n) :
    Buf.putField ⟨List.replicate n 0 ++ acc, n⟩ tag x =
      .ok ⟨List.replicate (n - (field tag x).length) 0 ++ (field tag x ++ acc), n - (field tag x).length⟩ := by
  have hl := field_length tag x
  unfold Buf.putField
  cases x with
  | nil => simp [field]
  | cons a t =>
    simp only [List.length_cons, gt_iff_lt, Nat.zero_lt_succ, if_true] at hl ⊢
    rw [put_spec _ _ _ (by simp; omega), Res.bind_ok, putVarint_spec _ _ _ (by simp; omega), Res.bind_ok,
      put_spec _ _ _ (by simp; omega)]
    simp only [field, delimited, reduceCtorEq, if_false, List.length_cons, List.length_append,
      List.length_nil, List.cons_append, List.nil_append, List.append_assoc]
    have : n - (t.length + 1) - (varint (t.length + 1)).length - (0 + 1) =
        n - ((varint (t.length + 1)).length + (t.length + 1) + 1) := by omega
    rw [this]

theorem wrapped_marshal_spec (n : Nat) (k : WrappedKey) (acc : Bytes) (hu : k.unknown = [])
    (h : (wrappedKeyBytes k).length ≤ n) :
    WrappedKey.marshalTo k ⟨List.replicate n 0 ++ acc, n⟩ =
      .ok ⟨List.replicate (n - (wrappedKeyBytes k).length) 0 ++ (wrappedKeyBytes k ++ acc),
        n - (wrappedKeyBytes k).length⟩ := by
  unfold WrappedKey.marshalTo
  simp only [wrappedKeyBytes, List.length_append] at h ⊢
  rw [hu, put_spec _ _ _ (by simp), Res.bind_ok]
  simp only [List.length_nil, Nat.sub_zero, List.nil_append]
  rw [putField_spec _ _ _ _ (by omega), Res.bind_ok, putField_spec _ _ _ _ (by omega)]
  simp only [List.append_assoc]
  have : n - (field 18 k.nonce).length - (field 10 k.dkey).length =
    n - ((field 10 k.dkey).length + (field 18 k.nonce).length) := by omega
  rw [this]

theorem wrapped_size_eq (k : WrappedKey) (hu : k.unknown = []) :
    WrappedKey.size k = (wrappedKeyBytes k).length := by
  unfold WrappedKey.size wrappedKeyBytes
  simp only [sizeOfVarint_eq, List.length_append, field_length, hu, List.length_nil, Nat.add_zero]

def keysBytes (ks : List WrappedKey) : Bytes := ks.flatMap fun k => delimited 0x2a (wrappedKeyBytes k)

theorem delimited_length (tag : UInt8) (x : Bytes) :
    (delimited tag x).length = 1 + x.length + (varint x.length).length := by
  simp [delimited]; omega

theorem marshalKeys_spec (ks : List WrappedKey) : ∀ (n : Nat) (acc : Bytes),
    (∀ k ∈ ks, k.unknown = []) → (keysBytes ks).length ≤ n →
    marshalKeys ks.reverse ⟨List.replicate n 0 ++ acc, n⟩ =
      .ok ⟨List.replicate (n - (keysBytes ks).length) 0 ++ (keysBytes ks ++ acc), n - (keysBytes ks).length⟩ := by
  -- process from the last key: induct on the reversed list
  have key : ∀ (rs : List WrappedKey) (n : Nat) (acc : Bytes),
      (∀ k ∈ rs, k.unknown = []) → (keysBytes rs.reverse).length ≤ n →
      marshalKeys rs ⟨List.replicate n 0 ++ acc, n⟩ =
        .ok ⟨List.replicate (n - (keysBytes rs.reverse).length) 0 ++ (keysBytes rs.reverse ++ acc),
          n - (keysBytes rs.reverse).length⟩ := by
    intro rs
    induction rs with
    | nil => intro n acc _ _; simp [marshalKeys, keysBytes]
    | cons k rs ih =>
      intro n acc hu hn
      have hsplit : keysBytes (k :: rs).reverse = keysBytes rs.reverse ++ delimited 0x2a (wrappedKeyBytes k) := by
        simp [keysBytes]
      have hk : k.unknown = [] := hu k (by simp)
      rw [hsplit] at hn ⊢
      rw [List.length_append, delimited_length] at hn
      unfold marshalKeys
      rw [wrapped_marshal_spec n k acc hk (by omega), Res.bind_ok]
      have hsz : n - (n - (wrappedKeyBytes k).length) = (wrappedKeyBytes k).length := by omega
      simp only [hsz]
      rw [putVarint_spec _ _ _ (by omega), Res.bind_ok, put_spec _ _ _ (by simp; omega), Res.bind_ok,
        ih _ _ (fun x hx => hu x (by simp [hx])) (by simp; omega)]
      simp only [List.length_append, List.length_cons, List.length_nil, delimited,
        List.append_assoc, List.cons_append, List.nil_append]
      have : n - (wrappedKeyBytes k).length - (varint (wrappedKeyBytes k).length).length - (0 + 1) -
          (keysBytes rs.reverse).length =
          n - ((keysBytes rs.reverse).length + ((varint (wrappedKeyBytes k).length).length +
            (wrappedKeyBytes k).length + 1)) := by omega
      rw [this]
  intro n acc hu hn
  have := key ks.reverse n acc (by simpa using hu) (by simpa using hn)
  simpa using this

theorem headerBytes_eq (h : Header) : headerBytes h =
    (if h.chunkSize = 0 then [] else 0x08 :: varint h.chunkSize) ++
      (field 0x12 h.salt ++ (field 0x1a h.pk ++ (field 0x22 h.sender ++ keysBytes h.keys))) := by
  simp [headerBytes, keysBytes]

theorem keysBytes_length (ks : List WrappedKey) :
    (keysBytes ks).length =
      (ks.map fun e => 1 + (wrappedKeyBytes e).length + (varint (wrappedKeyBytes e).length).length).sum := by
  simp [keysBytes, List.length_flatMap, delimited_length]

/-- No unknown fields anywhere: what an `Encryptor` builds. -/
def Clean (h : Header) : Prop := h.unknown = [] ∧ ∀ k ∈ h.keys, k.unknown = []

theorem header_size_eq (h : Header) (hc : Clean h) : Header.size h = (headerBytes h).length := by
  rw [headerBytes_eq]
  unfold Header.size
  simp only [sizeOfVarint_eq, List.length_append, field_length, hc.1, List.length_nil, Nat.add_zero,
    keysBytes_length]
  have : (h.keys.map fun e => 1 + WrappedKey.size e + (varint (WrappedKey.size e)).length) =
      h.keys.map fun e => 1 + (wrappedKeyBytes e).length + (varint (wrappedKeyBytes e).length).length := by
    apply List.map_congr_left
    intro k hk
    rw [wrapped_size_eq k (hc.2 k hk)]
  rw [this]
  by_cases h0 : h.chunkSize = 0
  · simp [h0]; omega
  · simp [h0]; omega

theorem header_marshal_eq (h : Header) (hc : Clean h) : Header.marshal h = .ok (headerBytes h) := by
  unfold Header.marshal Header.marshalToSized
  have hsz := header_size_eq h hc
  rw [hsz]
  have hb := headerBytes_eq h
  have hlen := congrArg List.length hb
  simp only [List.length_append] at hlen
  have e0 : List.replicate (headerBytes h).length (0 : UInt8) =
    List.replicate (headerBytes h).length 0 ++ [] := by simp
  rw [e0, hc.1, put_spec _ _ _ (by simp), Res.bind_ok]
  simp only [List.length_nil, Nat.sub_zero, List.nil_append]
  rw [marshalKeys_spec _ _ _ hc.2 (by omega), Res.bind_ok, putField_spec _ _ _ _ (by omega), Res.bind_ok,
    putField_spec _ _ _ _ (by omega), Res.bind_ok, putField_spec _ _ _ _ (by omega), Res.bind_ok]
  by_cases h0 : h.chunkSize = 0
  · simp only [h0, ne_eq, not_true_eq_false, if_false, Res.bind_ok, Res.ok.injEq]
    rw [hb]
    simp only [h0, if_true, List.nil_append, List.append_nil]
    simp only [h0, if_true, List.length_nil, Nat.zero_add] at hlen
    have : ∀ a b c d e : Nat, a = b + (c + (d + e)) → a - e - d - c - b = 0 := by omega
    simp only [List.length_append]
    rw [this _ _ _ _ _ rfl]
    simp
  · simp only [h0, ne_eq, not_false_eq_true, if_true]
    simp only [h0, if_false, List.length_cons] at hlen
    rw [putVarint_spec _ _ _ (by omega), Res.bind_ok, put_spec _ _ _ (by simp; omega), Res.bind_ok]
    congr 1
    rw [hb]
    simp only [h0, if_false, List.append_nil, List.length_append, List.length_cons, List.length_nil]
    have : ∀ v a b c d : Nat, v + 1 + (a + (b + (c + d))) - d - c - b - a - v - (0 + 1) = 0 := by omega
    rw [this]
    simp

/-! ### Unmarshalling -/

/-- The varint loop on a well-formed varint starting at `pre.length`. -/
theorem varintLoop_spec (w : Nat) (rest : Bytes) : ∀ (v : Nat) (pre : Bytes) (shift acc : Nat),
    v * 2^shift < 2^64 → shift < 64 →
    varintLoop (pre ++ (varint v ++ rest)) w pre.length shift acc =
      .ok (acc ||| ((v <<< shift) % 2^w), pre.length + (varint v).length) := by
  intro v
  induction v using Nat.strongRecOn with
  | _ v ih =>
    intro pre shift acc hv hs
    unfold varintLoop
    have h1 : ¬ shift ≥ 64 := by omega
    have hpos := varint_length_pos v
    have h2 : ¬ pre.length ≥ (pre ++ (varint v ++ rest)).length := by simp; omega
    simp only [h1, if_false, h2, dite_false]
    by_cases hlt : v < 128
    · have hvar : varint v = [UInt8.ofNat v] := by unfold varint; simp [hlt]
      have hget : (pre ++ (varint v ++ rest))[pre.length]'(by simp; omega) = UInt8.ofNat v := by
        simp [hvar]
      have hb : (UInt8.ofNat v) < 0x80 := by
        rw [UInt8.lt_iff_toNat_lt, UInt8.toNat_ofNat']; simp; omega
      have hn : (UInt8.ofNat v).toNat = v := by rw [UInt8.toNat_ofNat']; omega
      have ha : v &&& 0x7f = v := by
        rw [show (0x7f : Nat) = 2^7 - 1 from rfl, Nat.and_two_pow_sub_one_eq_mod]; omega
      simp only [hget, hb, if_true, hn, ha]
      simp only [hvar, List.length_singleton]
    · have hvar : varint v = UInt8.ofNat (v % 128 + 128) :: varint (v / 128) := by
        conv => lhs; unfold varint
        simp [hlt]
      have hget : (pre ++ (varint v ++ rest))[pre.length]'(by simp; omega) = UInt8.ofNat (v % 128 + 128) := by
        simp [hvar]
      have hn : (UInt8.ofNat (v % 128 + 128)).toNat = v % 128 + 128 := by rw [UInt8.toNat_ofNat']; omega
      have hb : ¬ (UInt8.ofNat (v % 128 + 128)) < 0x80 := by
        rw [UInt8.lt_iff_toNat_lt, hn]; simp
      have ha : (v % 128 + 128) &&& 0x7f = v % 128 := by
        rw [show (0x7f : Nat) = 2^7 - 1 from rfl, Nat.and_two_pow_sub_one_eq_mod]; omega
      simp only [hget, hb, if_false, hn, ha]
      have hpow : 2^(shift+7) = 2^shift * 128 := by rw [Nat.pow_add]
      have hshift : shift + 7 < 64 := by
        apply Nat.lt_of_not_le
        intro hge
        have h64 : 2^64 ≤ 2^(shift+7) := Nat.pow_le_pow_right (by decide) hge
        have : 128 * 2^shift ≤ v * 2^shift := Nat.mul_le_mul_right _ (by omega)
        omega
      have := ih (v / 128) (by omega) (pre ++ [UInt8.ofNat (v % 128 + 128)]) (shift + 7)
        (acc ||| ((v % 128) <<< shift) % 2^w) (by
          rw [hpow]
          have : v / 128 * 128 ≤ v := Nat.div_mul_le_self v 128
          calc v / 128 * (2^shift * 128) = (v / 128 * 128) * 2^shift := by
                rw [Nat.mul_comm (2^shift) 128, Nat.mul_assoc]
            _ ≤ v * 2^shift := Nat.mul_le_mul_right _ this
            _ < 2^64 := hv) hshift
      rw [hvar]
      simp only [List.length_append, List.length_singleton, List.append_assoc, List.cons_append,
        List.nil_append] at this ⊢
      rw [this]
      simp only [List.length_cons, Res.ok.injEq, Prod.mk.injEq]
      refine ⟨?_, by omega⟩
      rw [Nat.or_assoc]
      congr 1
      apply Nat.eq_of_testBit_eq
      intro j
      simp only [Nat.testBit_or, Nat.testBit_mod_two_pow, Nat.testBit_shiftLeft]
      by_cases hj : j < w
      · simp only [hj, decide_true, Bool.true_and]
        have e1 : v % 128 = v % 2^7 := rfl
        have e2 : v / 128 = v >>> 7 := by rw [Nat.shiftRight_eq_div_pow]
        rw [e1, e2, Nat.testBit_mod_two_pow, Nat.testBit_shiftRight]
        by_cases hj1 : shift ≤ j
        · by_cases hj2 : shift + 7 ≤ j
          · have : ¬ (j - shift < 7) := by omega
            have e3 : 7 + (j - (shift + 7)) = j - shift := by omega
            simp [hj1, hj2, this, e3]
          · have : j - shift < 7 := by omega
            simp [hj1, hj2, this]
        · have : ¬ (shift + 7 ≤ j) := by omega
          simp [hj1, this]
      · simp [hj]

theorem varintLoop_zero (w v : Nat) (pre rest : Bytes) (hv : v < 2^64) (hw : v < 2^w) :
    varintLoop (pre ++ (varint v ++ rest)) w pre.length 0 0 = .ok (v, pre.length + (varint v).length) := by
  rw [varintLoop_spec w rest v pre 0 0 (by simpa using hv) (by decide)]
  simp [Nat.mod_eq_of_lt hw]

theorem goSlice_mid (pre x rest : Bytes) :
    goSlice (pre ++ (x ++ rest)) pre.length (pre.length + x.length) = .ok x := by
  unfold goSlice
  have : pre.length ≤ pre.length + x.length ∧ pre.length + x.length ≤ (pre ++ (x ++ rest)).length := by
    simp
  simp [this]

theorem lenDelim_spec (pre x rest : Bytes) (h : pre.length + (varint x.length).length + x.length < 2^63) :
    lenDelim (pre ++ (varint x.length ++ (x ++ rest))) pre.length =
      .ok (x, pre.length + ((varint x.length).length + x.length)) := by
  unfold lenDelim
  rw [varintLoop_zero 64 _ _ _ (by omega) (by omega), Res.bind_ok]
  have h1 : ¬ x.length ≥ 2^63 := by omega
  have h2 : ¬ pre.length + (varint x.length).length + x.length ≥ 2^63 := by omega
  have h3 : ¬ pre.length + (varint x.length).length + x.length >
      (pre ++ (varint x.length ++ (x ++ rest))).length := by simp; omega
  simp only [h1, h2, h3, if_false]
  have := goSlice_mid (pre ++ varint x.length) x rest
  rw [List.append_assoc, List.length_append] at this
  rw [this]
  simp [Nat.add_assoc]

theorem fieldTag_small (tag : UInt8) (pre rest : Bytes) (h : tag.toNat < 128) :
    varintLoop (pre ++ tag :: rest) 64 pre.length 0 0 = .ok (tag.toNat, pre.length + 1) := by
  have := varintLoop_zero 64 tag.toNat pre rest (by omega) (by omega)
  have hv : varint tag.toNat = [tag] := by
    unfold varint
    simp only [h, if_true, List.cons.injEq, and_true]
    apply UInt8.toNat_inj.mp
    simp
  rw [hv] at this
  simpa using this

/-- A length-delimited record in the middle of the input, split off by tag and length. -/
theorem delimited_at (tag : UInt8) (pre x rest : Bytes) :
    pre ++ (delimited tag x ++ rest) = (pre ++ [tag]) ++ (varint x.length ++ (x ++ rest)) := by
  simp [delimited]

theorem lenDelim_at (tag : UInt8) (pre x rest : Bytes)
    (h : (pre ++ (delimited tag x ++ rest)).length < 2^63) :
    lenDelim (pre ++ (delimited tag x ++ rest)) (pre.length + 1) =
      .ok (x, pre.length + (delimited tag x).length) := by
  rw [delimited_at] at *
  have := lenDelim_spec (pre ++ [tag]) x rest (by simp at h ⊢; omega)
  simp only [List.length_append, List.length_singleton] at this
  rw [this, delimited_length]
  simp only [Res.ok.injEq, Prod.mk.injEq, true_and]; omega

theorem fieldTag_at (tag : UInt8) (pre rest : Bytes) (fn wt : Nat) (h : tag.toNat < 128)
    (hfn : tag.toNat / 8 = fn) (hwt : tag.toNat % 8 = wt) (h0 : fn ≠ 0) (h4 : wt ≠ 4) :
    fieldTag (pre ++ tag :: rest) pre.length = .ok (fn, wt, pre.length + 1) := by
  unfold fieldTag
  rw [fieldTag_small tag pre rest h, Res.bind_ok]
  have e1 : tag.toNat &&& 0x7 = wt := by
    rw [show (0x7 : Nat) = 2^3 - 1 from rfl, Nat.and_two_pow_sub_one_eq_mod]; exact hwt
  have e2 : (tag.toNat >>> 3) % 2^32 = fn := by
    rw [Nat.shiftRight_eq_div_pow]; omega
  simp only [e1, e2, h4, if_false]
  have : ¬ (fn = 0 ∨ fn ≥ 2^31) := by omega
  simp only [this, if_false]

theorem wstep_dkey (m : WrappedKey) (pre x rest : Bytes)
    (h : (pre ++ (delimited 0x0a x ++ rest)).length < 2^63) :
    WrappedKey.step (pre ++ (delimited 0x0a x ++ rest)) m pre.length =
      .ok ({ m with dkey := x }, pre.length + (delimited 0x0a x).length) := by
  unfold WrappedKey.step
  have e : pre ++ (delimited 0x0a x ++ rest) = pre ++ 0x0a :: ((varint x.length ++ x) ++ rest) := by
    simp [delimited]
  rw [show fieldTag (pre ++ (delimited 0x0a x ++ rest)) pre.length = .ok (1, 2, pre.length + 1) by
    rw [e]; exact fieldTag_at 0x0a pre _ 1 2 (by decide) (by decide) (by decide) (by decide) (by decide)]
  simp only [Res.bind_ok, ne_eq, not_true_eq_false, if_false]
  rw [lenDelim_at _ _ _ _ h]
  simp

theorem wstep_nonce (m : WrappedKey) (pre x rest : Bytes)
    (h : (pre ++ (delimited 0x12 x ++ rest)).length < 2^63) :
    WrappedKey.step (pre ++ (delimited 0x12 x ++ rest)) m pre.length =
      .ok ({ m with nonce := x }, pre.length + (delimited 0x12 x).length) := by
  unfold WrappedKey.step
  have e : pre ++ (delimited 0x12 x ++ rest) = pre ++ 0x12 :: ((varint x.length ++ x) ++ rest) := by
    simp [delimited]
  rw [show fieldTag (pre ++ (delimited 0x12 x ++ rest)) pre.length = .ok (2, 2, pre.length + 1) by
    rw [e]; exact fieldTag_at 0x12 pre _ 2 2 (by decide) (by decide) (by decide) (by decide) (by decide)]
  simp only [Res.bind_ok, ne_eq, not_true_eq_false, if_false]
  rw [lenDelim_at _ _ _ _ h]
  simp


/-! ### Progress and termination -/

theorem varintLoop_progress (d : Bytes) (w : Nat) : ∀ (i shift acc v j : Nat),
    varintLoop d w i shift acc = .ok (v, j) → i < j ∧ j ≤ d.length := by
  intro i
  induction hn : d.length - i using Nat.strongRecOn generalizing i with
  | _ n ih =>
    intro shift acc v j h
    unfold varintLoop at h
    split at h
    · cases h
    · split at h
      · cases h
      · rename_i h1 h2
        simp only at h
        split at h
        · cases h; omega
        · have := ih (d.length - (i+1)) (by omega) (i+1) rfl _ _ _ _ h
          omega

theorem varintLoop_noPanic (d : Bytes) (w : Nat) : ∀ (i shift acc : Nat),
    (varintLoop d w i shift acc).isPanic = false := by
  intro i
  induction hn : d.length - i using Nat.strongRecOn generalizing i with
  | _ n ih =>
    intro shift acc
    unfold varintLoop
    split
    · rfl
    · split
      · rfl
      · rename_i h1 h2
        simp only
        split
        · rfl
        · exact ih (d.length - (i+1)) (by omega) (i+1) rfl _ _

theorem varintLoop_lt (d : Bytes) (w : Nat) : ∀ (i shift acc v j : Nat), acc < 2^w →
    varintLoop d w i shift acc = .ok (v, j) → v < 2^w := by
  intro i
  induction hn : d.length - i using Nat.strongRecOn generalizing i with
  | _ n ih =>
    intro shift acc v j hacc h
    unfold varintLoop at h
    split at h
    · cases h
    · split at h
      · cases h
      · rename_i h1 h2
        simp only at h
        split at h
        · cases h
          exact Nat.or_lt_two_pow hacc (Nat.mod_lt _ (Nat.two_pow_pos w))
        · exact ih (d.length - (i+1)) (by omega) (i+1) rfl _ _ _ _
            (Nat.or_lt_two_pow hacc (Nat.mod_lt _ (Nat.two_pow_pos w))) h

theorem goSlice_noPanic (d : Bytes) (lo hi : Nat) (h : lo ≤ hi ∧ hi ≤ d.length) :
    goSlice d lo hi = .ok ((d.drop lo).take (hi - lo)) := by
  unfold goSlice; simp [h]

/-- Case analysis on a `Res` sequencing step that is known not to panic. -/
theorem bind_noPanic {α β : Type} {r : Res α} {f : α → Res β} (h : r.isPanic = false)
    (hf : ∀ a, r = .ok a → (f a).isPanic = false) : (r.bind f).isPanic = false := by
  cases r with
  | ok a => exact hf a rfl
  | err e => rfl
  | panic w => simp [Res.isPanic] at h

theorem bind_eq_ok {α β : Type} {r : Res α} {f : α → Res β} {b : β} (h : r.bind f = .ok b) :
    ∃ a, r = .ok a ∧ f a = .ok b := by
  cases r with
  | ok a => exact ⟨a, rfl, h⟩
  | err e => cases h
  | panic w => cases h

theorem lenDelim_noPanic (d : Bytes) (i : Nat) : (lenDelim d i).isPanic = false := by
  unfold lenDelim
  refine bind_noPanic (varintLoop_noPanic _ _ _ _ _) ?_
  rintro ⟨n, j⟩ h
  have hp := varintLoop_progress _ _ _ _ _ _ _ h
  simp only
  split
  · rfl
  · split
    · rfl
    · split
      · rfl
      · rw [goSlice_noPanic _ _ _ (by omega)]; rfl

theorem lenDelim_progress (d : Bytes) (i : Nat) (s : Bytes) (k : Nat) (h : lenDelim d i = .ok (s, k)) :
    i < k ∧ k ≤ d.length := by
  unfold lenDelim at h
  obtain ⟨⟨n, j⟩, h1, h2⟩ := bind_eq_ok h
  have hp := varintLoop_progress _ _ _ _ _ _ _ h1
  simp only at h2
  split at h2
  · cases h2
  · split at h2
    · cases h2
    · split at h2
      · cases h2
      · obtain ⟨x, h3, h4⟩ := bind_eq_ok h2
        cases h4; omega

theorem skipLoop_noPanic (d : Bytes) : ∀ (fuel i depth : Nat), d.length - i < fuel →
    (skipLoop d fuel i depth).isPanic = false := by
  intro fuel
  induction fuel with
  | zero => intro i depth h; omega
  | succ fuel ih =>
    intro i depth hf
    unfold skipLoop
    split
    · rfl
    · rename_i hi
      refine bind_noPanic (varintLoop_noPanic _ _ _ _ _) ?_
      rintro ⟨wire, j⟩ h
      have hp := varintLoop_progress _ _ _ _ _ _ _ h
      have fin : ∀ k dep, i < k →
          (if k ≥ 2^63 then Res.err .invalidLength
            else if dep = 0 then Res.ok k else skipLoop d fuel k dep : Res Nat).isPanic = false := by
        intro k dep hk
        split
        · rfl
        · split
          · rfl
          · exact ih k dep (by omega)
      simp only
      split
      · refine bind_noPanic (varintLoop_noPanic _ _ _ _ _) ?_
        rintro ⟨x, k⟩ hk
        have hp2 := varintLoop_progress _ _ _ _ _ _ _ hk
        exact fin k depth (by omega)
      · exact fin _ _ (by omega)
      · refine bind_noPanic (varintLoop_noPanic _ _ _ _ _) ?_
        rintro ⟨x, k⟩ hk
        have hp2 := varintLoop_progress _ _ _ _ _ _ _ hk
        simp only
        split
        · rfl
        · exact fin _ _ (by omega)
      · exact fin _ _ (by omega)
      · split
        · rfl
        · exact fin _ _ (by omega)
      · exact fin _ _ (by omega)
      · rfl

theorem skipLoop_progress (d : Bytes) : ∀ (fuel i depth k : Nat),
    skipLoop d fuel i depth = .ok k → i < k := by
  intro fuel
  induction fuel with
  | zero => intro i depth k h; simp [skipLoop] at h
  | succ fuel ih =>
    intro i depth k h
    unfold skipLoop at h
    split at h
    · cases h
    · rename_i hi
      obtain ⟨⟨wire, j⟩, h1, h2⟩ := bind_eq_ok h
      have hp := varintLoop_progress _ _ _ _ _ _ _ h1
      have fin : ∀ a dep, i < a →
          (if a ≥ 2^63 then Res.err .invalidLength
            else if dep = 0 then Res.ok a else skipLoop d fuel a dep : Res Nat) = .ok k → i < k := by
        intro a dep ha hh
        split at hh
        · cases hh
        · split at hh
          · cases hh; omega
          · have := ih a dep k hh; omega
      simp only at h2
      split at h2
      · obtain ⟨⟨x, a⟩, h3, h4⟩ := bind_eq_ok h2
        have hp2 := varintLoop_progress _ _ _ _ _ _ _ h3
        exact fin a depth (by omega) h4
      · exact fin _ _ (by omega) h2
      · obtain ⟨⟨x, a⟩, h3, h4⟩ := bind_eq_ok h2
        have hp2 := varintLoop_progress _ _ _ _ _ _ _ h3
        simp only at h4
        split at h4
        · cases h4
        · exact fin _ _ (by omega) h4
      · exact fin _ _ (by omega) h2
      · split at h2
        · cases h2
        · exact fin _ _ (by omega) h2
      · exact fin _ _ (by omega) h2
      · cases h2

theorem unknownField_noPanic (d : Bytes) (i : Nat) : (unknownField d i).isPanic = false := by
  unfold unknownField skip
  refine bind_noPanic (skipLoop_noPanic _ _ _ _ (by omega)) ?_
  intro k hk
  split
  · rfl
  · split
    · rfl
    · rw [goSlice_noPanic _ _ _ (by omega)]; rfl

theorem unknownField_progress (d : Bytes) (i : Nat) (s : Bytes) (k : Nat)
    (h : unknownField d i = .ok (s, k)) : i < k ∧ k ≤ d.length := by
  unfold unknownField skip at h
  obtain ⟨n, h1, h2⟩ := bind_eq_ok h
  have := skipLoop_progress _ _ _ _ _ h1
  split at h2
  · cases h2
  · split at h2
    · cases h2
    · obtain ⟨x, h3, h4⟩ := bind_eq_ok h2
      cases h4; omega

theorem fieldTag_noPanic (d : Bytes) (i : Nat) : (fieldTag d i).isPanic = false := by
  unfold fieldTag
  refine bind_noPanic (varintLoop_noPanic _ _ _ _ _) ?_
  rintro ⟨n, j⟩ _
  simp only
  split
  · rfl
  · split <;> rfl

theorem fieldTag_progress (d : Bytes) (i a b j : Nat) (h : fieldTag d i = .ok (a, b, j)) :
    i < j ∧ j ≤ d.length := by
  unfold fieldTag at h
  obtain ⟨⟨n, j⟩, h1, h2⟩ := bind_eq_ok h
  have := varintLoop_progress _ _ _ _ _ _ _ h1
  simp only at h2
  split at h2
  · cases h2
  · split at h2
    · cases h2
    · cases h2; omega

theorem wstep_noPanic (d : Bytes) (m : WrappedKey) (i : Nat) : (WrappedKey.step d m i).isPanic = false := by
  unfold WrappedKey.step
  refine bind_noPanic (fieldTag_noPanic _ _) ?_
  rintro ⟨fn, wt, j⟩ _
  simp only
  split
  · split
    · rfl
    · exact bind_noPanic (lenDelim_noPanic _ _) (fun _ _ => rfl)
  · split
    · rfl
    · exact bind_noPanic (lenDelim_noPanic _ _) (fun _ _ => rfl)
  · exact bind_noPanic (unknownField_noPanic _ _) (fun _ _ => rfl)

theorem wstep_progress (d : Bytes) (m : WrappedKey) (i : Nat) (m' : WrappedKey) (k : Nat)
    (h : WrappedKey.step d m i = .ok (m', k)) : i < k ∧ k ≤ d.length := by
  unfold WrappedKey.step at h
  obtain ⟨⟨fn, wt, j⟩, h1, h2⟩ := bind_eq_ok h
  have hp := fieldTag_progress _ _ _ _ _ h1
  simp only at h2
  split at h2
  · split at h2
    · cases h2
    · obtain ⟨⟨s, a⟩, h3, h4⟩ := bind_eq_ok h2
      have := lenDelim_progress _ _ _ _ h3
      cases h4; omega
  · split at h2
    · cases h2
    · obtain ⟨⟨s, a⟩, h3, h4⟩ := bind_eq_ok h2
      have := lenDelim_progress _ _ _ _ h3
      cases h4; omega
  · obtain ⟨⟨s, a⟩, h3, h4⟩ := bind_eq_ok h2
    have := unknownField_progress _ _ _ _ h3
    cases h4; omega

theorem wloop_noPanic (d : Bytes) : ∀ (fuel : Nat) (m : WrappedKey) (i : Nat), d.length - i < fuel →
    (WrappedKey.loop d fuel m i).isPanic = false := by
  intro fuel
  induction fuel with
  | zero => intro m i h; omega
  | succ fuel ih =>
    intro m i hf
    unfold WrappedKey.loop
    split
    · refine bind_noPanic (wstep_noPanic _ _ _) ?_
      rintro ⟨m', k⟩ h
      have := wstep_progress _ _ _ _ _ h
      exact ih m' k (by omega)
    · split <;> rfl

theorem wrapped_unmarshal_noPanic (d : Bytes) : (WrappedKey.unmarshal d).isPanic = false :=
  wloop_noPanic d _ _ _ (by omega)

theorem hstep_noPanic (d : Bytes) (m : Header) (i : Nat) : (Header.step d m i).isPanic = false := by
  unfold Header.step
  refine bind_noPanic (fieldTag_noPanic _ _) ?_
  rintro ⟨fn, wt, j⟩ _
  simp only
  split
  · split
    · rfl
    · exact bind_noPanic (varintLoop_noPanic _ _ _ _ _) (fun _ _ => rfl)
  · split
    · rfl
    · exact bind_noPanic (lenDelim_noPanic _ _) (fun _ _ => rfl)
  · split
    · rfl
    · exact bind_noPanic (lenDelim_noPanic _ _) (fun _ _ => rfl)
  · split
    · rfl
    · exact bind_noPanic (lenDelim_noPanic _ _) (fun _ _ => rfl)
  · split
    · rfl
    · exact bind_noPanic (lenDelim_noPanic _ _) (fun _ _ =>
        bind_noPanic (wrapped_unmarshal_noPanic _) (fun _ _ => rfl))
  · exact bind_noPanic (unknownField_noPanic _ _) (fun _ _ => rfl)

theorem hstep_progress (d : Bytes) (m : Header) (i : Nat) (m' : Header) (k : Nat)
    (h : Header.step d m i = .ok (m', k)) : i < k ∧ k ≤ d.length := by
  unfold Header.step at h
  obtain ⟨⟨fn, wt, j⟩, h1, h2⟩ := bind_eq_ok h
  have hp := fieldTag_progress _ _ _ _ _ h1
  simp only at h2
  split at h2
  · split at h2
    · cases h2
    · obtain ⟨⟨s, a⟩, h3, h4⟩ := bind_eq_ok h2
      have := varintLoop_progress _ _ _ _ _ _ _ h3
      cases h4; omega
  iterate 3
    · split at h2
      · cases h2
      · obtain ⟨⟨s, a⟩, h3, h4⟩ := bind_eq_ok h2
        have := lenDelim_progress _ _ _ _ h3
        cases h4; omega
  · split at h2
    · cases h2
    · obtain ⟨⟨s, a⟩, h3, h4⟩ := bind_eq_ok h2
      have := lenDelim_progress _ _ _ _ h3
      obtain ⟨w, h5, h6⟩ := bind_eq_ok h4
      cases h6; omega
  · obtain ⟨⟨s, a⟩, h3, h4⟩ := bind_eq_ok h2
    have := unknownField_progress _ _ _ _ h3
    cases h4; omega

theorem hloop_noPanic (d : Bytes) : ∀ (fuel : Nat) (m : Header) (i : Nat), d.length - i < fuel →
    (Header.loop d fuel m i).isPanic = false := by
  intro fuel
  induction fuel with
  | zero => intro m i h; omega
  | succ fuel ih =>
    intro m i hf
    unfold Header.loop
    split
    · refine bind_noPanic (hstep_noPanic _ _ _) ?_
      rintro ⟨m', k⟩ h
      have := hstep_progress _ _ _ _ _ h
      exact ih m' k (by omega)
    · split <;> rfl

/-- The header decoder ends without a crash on every input. -/
theorem header_unmarshal_noPanic (d : Bytes) : (Header.unmarshal d).isPanic = false :=
  hloop_noPanic d _ _ _ (by omega)

/-- Enough fuel is enough: the result does not depend on it. -/
theorem wloop_fuel (d : Bytes) : ∀ (f g : Nat) (m : WrappedKey) (i : Nat), d.length - i < f →
    d.length - i < g → WrappedKey.loop d f m i = WrappedKey.loop d g m i := by
  intro f
  induction f with
  | zero => intro g m i h; omega
  | succ f ih =>
    intro g m i hf hg
    cases g with
    | zero => omega
    | succ g =>
      unfold WrappedKey.loop
      split
      · cases hs : WrappedKey.step d m i with
        | err e => rfl
        | panic w => rfl
        | ok a =>
          obtain ⟨m', k⟩ := a
          have := wstep_progress _ _ _ _ _ hs
          exact ih g m' k (by omega) (by omega)
      · rfl

theorem hloop_fuel (d : Bytes) : ∀ (f g : Nat) (m : Header) (i : Nat), d.length - i < f →
    d.length - i < g → Header.loop d f m i = Header.loop d g m i := by
  intro f
  induction f with
  | zero => intro g m i h; omega
  | succ f ih =>
    intro g m i hf hg
    cases g with
    | zero => omega
    | succ g =>
      unfold Header.loop
      split
      · cases hs : Header.step d m i with
        | err e => rfl
        | panic w => rfl
        | ok a =>
          obtain ⟨m', k⟩ := a
          have := hstep_progress _ _ _ _ _ hs
          exact ih g m' k (by omega) (by omega)
      · rfl

/-! ### Round trip -/

/-- The wrapped-key decoder from index `i`, with enough fuel. -/
def wrun (d : Bytes) (m : WrappedKey) (i : Nat) : Res WrappedKey := WrappedKey.loop d (d.length + 1) m i

theorem wrun_step (d : Bytes) (m m' : WrappedKey) (i k : Nat) (h : WrappedKey.step d m i = .ok (m', k))
    (hi : i < d.length) : wrun d m i = wrun d m' k := by
  have hp := wstep_progress _ _ _ _ _ h
  unfold wrun
  conv => lhs; unfold WrappedKey.loop
  simp only [hi, if_true, h, Res.bind_ok]
  exact wloop_fuel d _ _ _ _ (by omega) (by omega)

theorem wrun_end (d : Bytes) (m : WrappedKey) : wrun d m d.length = .ok m := by
  unfold wrun WrappedKey.loop; simp

def hrun (d : Bytes) (m : Header) (i : Nat) : Res Header := Header.loop d (d.length + 1) m i

theorem hrun_step (d : Bytes) (m m' : Header) (i k : Nat) (h : Header.step d m i = .ok (m', k))
    (hi : i < d.length) : hrun d m i = hrun d m' k := by
  have hp := hstep_progress _ _ _ _ _ h
  unfold hrun
  conv => lhs; unfold Header.loop
  simp only [hi, if_true, h, Res.bind_ok]
  exact hloop_fuel d _ _ _ _ (by omega) (by omega)

theorem hrun_end (d : Bytes) (m : Header) : hrun d m d.length = .ok m := by
  unfold hrun Header.loop; simp

theorem wrun_dkey (m : WrappedKey) (pre x rest : Bytes) (hm : m.dkey = [])
    (h : (pre ++ (field 0x0a x ++ rest)).length < 2^63) :
    wrun (pre ++ (field 0x0a x ++ rest)) m pre.length =
      wrun (pre ++ (field 0x0a x ++ rest)) { m with dkey := x } (pre ++ field 0x0a x).length := by
  unfold field at *
  by_cases hx : x = []
  · subst hx
    simp only [if_true, List.append_nil]
    rw [← hm]
  · simp only [hx, if_false] at h ⊢
    rw [wrun_step _ _ _ _ _ (wstep_dkey m pre x rest h) (by simp [delimited]), List.length_append]

theorem wrun_nonce (m : WrappedKey) (pre x rest : Bytes) (hm : m.nonce = [])
    (h : (pre ++ (field 0x12 x ++ rest)).length < 2^63) :
    wrun (pre ++ (field 0x12 x ++ rest)) m pre.length =
      wrun (pre ++ (field 0x12 x ++ rest)) { m with nonce := x } (pre ++ field 0x12 x).length := by
  unfold field at *
  by_cases hx : x = []
  · subst hx
    simp only [if_true, List.append_nil]
    rw [← hm]
  · simp only [hx, if_false] at h ⊢
    rw [wrun_step _ _ _ _ _ (wstep_nonce m pre x rest h) (by simp [delimited]), List.length_append]

theorem wrapped_unmarshal (k : WrappedKey) (hu : k.unknown = [])
    (h : (wrappedKeyBytes k).length < 2^63) :
    WrappedKey.unmarshal (wrappedKeyBytes k) = .ok k := by
  show wrun (wrappedKeyBytes k) {} 0 = _
  unfold wrappedKeyBytes at *
  have e1 := wrun_dkey {} [] k.dkey (field 0x12 k.nonce) rfl (by simpa using h)
  have e2 := wrun_nonce { dkey := k.dkey } (field 0x0a k.dkey) k.nonce [] rfl (by simpa using h)
  have e3 := wrun_end (field 0x0a k.dkey ++ field 0x12 k.nonce) { dkey := k.dkey, nonce := k.nonce }
  simp only [List.nil_append, List.append_nil, List.length_nil] at e1 e2
  rw [e1, e2, e3]
  cases k; simp_all

theorem hstep_delim (m : Header) (tag : UInt8) (fn : Nat) (pre x rest : Bytes) (m' : Header)
    (h : (pre ++ (delimited tag x ++ rest)).length < 2^63) (ht : tag.toNat < 128)
    (hfn : tag.toNat / 8 = fn) (hwt : tag.toNat % 8 = 2) (hfn2 : fn = 2 ∨ fn = 3 ∨ fn = 4)
    (hm' : m' = if fn = 2 then { m with salt := x } else if fn = 3 then { m with pk := x }
      else { m with sender := x }) :
    Header.step (pre ++ (delimited tag x ++ rest)) m pre.length =
      .ok (m', pre.length + (delimited tag x).length) := by
  unfold Header.step
  have e : pre ++ (delimited tag x ++ rest) = pre ++ tag :: ((varint x.length ++ x) ++ rest) := by
    simp [delimited]
  rw [show fieldTag (pre ++ (delimited tag x ++ rest)) pre.length = .ok (fn, 2, pre.length + 1) by
    rw [e]; exact fieldTag_at tag pre _ fn 2 ht hfn hwt (by omega) (by decide)]
  rcases hfn2 with h2 | h2 | h2 <;> subst h2 <;>
    simp only [Res.bind_ok, ne_eq, not_true_eq_false, if_false] <;> rw [lenDelim_at _ _ _ _ h] <;>
    simp [hm']

theorem hrun_field (m : Header) (tag : UInt8) (fn : Nat) (pre x rest : Bytes) (m' : Header)
    (h : (pre ++ (field tag x ++ rest)).length < 2^63) (ht : tag.toNat < 128)
    (hfn : tag.toNat / 8 = fn) (hwt : tag.toNat % 8 = 2) (hfn2 : fn = 2 ∨ fn = 3 ∨ fn = 4)
    (hm' : m' = if fn = 2 then { m with salt := x } else if fn = 3 then { m with pk := x }
      else { m with sender := x })
    (hm : x = [] → m' = m) :
    hrun (pre ++ (field tag x ++ rest)) m pre.length =
      hrun (pre ++ (field tag x ++ rest)) m' (pre ++ field tag x).length := by
  unfold field at *
  by_cases hx : x = []
  · simp only [hx, if_true, List.append_nil]
    rw [hm hx]
  · simp only [hx, if_false] at h ⊢
    rw [hrun_step _ _ _ _ _ (hstep_delim m tag fn pre x rest m' h ht hfn hwt hfn2 hm') (by simp [delimited]),
      List.length_append]

theorem hstep_key (m : Header) (pre rest : Bytes) (k : WrappedKey) (hu : k.unknown = [])
    (h : (pre ++ (delimited 0x2a (wrappedKeyBytes k) ++ rest)).length < 2^63) :
    Header.step (pre ++ (delimited 0x2a (wrappedKeyBytes k) ++ rest)) m pre.length =
      .ok ({ m with keys := m.keys ++ [k] }, pre.length + (delimited 0x2a (wrappedKeyBytes k)).length) := by
  unfold Header.step
  have e : pre ++ (delimited 0x2a (wrappedKeyBytes k) ++ rest) =
      pre ++ 0x2a :: ((varint (wrappedKeyBytes k).length ++ wrappedKeyBytes k) ++ rest) := by
    simp [delimited]
  rw [show fieldTag (pre ++ (delimited 0x2a (wrappedKeyBytes k) ++ rest)) pre.length
      = .ok (5, 2, pre.length + 1) by
    rw [e]; exact fieldTag_at 0x2a pre _ 5 2 (by decide) (by decide) (by decide) (by decide) (by decide)]
  simp only [Res.bind_ok, ne_eq, not_true_eq_false, if_false]
  rw [lenDelim_at _ _ _ _ h, Res.bind_ok]
  simp only
  rw [wrapped_unmarshal k hu (by simp [delimited] at h; omega), Res.bind_ok]

theorem hrun_keys (ks : List WrappedKey) : ∀ (m : Header) (pre : Bytes), (∀ k ∈ ks, k.unknown = []) →
    (pre ++ keysBytes ks).length < 2^63 →
    hrun (pre ++ keysBytes ks) m pre.length = .ok { m with keys := m.keys ++ ks } := by
  induction ks with
  | nil =>
    intro m pre _ _
    have := hrun_end (pre ++ keysBytes []) m
    simp only [keysBytes, List.flatMap_nil, List.append_nil] at this ⊢
    exact this
  | cons k ks ih =>
    intro m pre hu h
    have hs : keysBytes (k :: ks) = delimited 0x2a (wrappedKeyBytes k) ++ keysBytes ks := by
      simp [keysBytes]
    rw [hs] at h ⊢
    rw [hrun_step _ _ _ _ _ (hstep_key m pre (keysBytes ks) k (hu k (by simp)) h) (by simp [delimited])]
    have := ih { m with keys := m.keys ++ [k] } (pre ++ delimited 0x2a (wrappedKeyBytes k))
      (fun x hx => hu x (by simp [hx])) (by simpa [Nat.add_assoc] using h)
    simp only [List.append_assoc, List.length_append, List.cons_append, List.nil_append] at this ⊢
    exact this

theorem hstep_chunk (m : Header) (pre rest : Bytes) (v : Nat) (hv : v < 2^32) :
    Header.step (pre ++ (0x08 :: varint v ++ rest)) m pre.length =
      .ok ({ m with chunkSize := v }, pre.length + (0x08 :: varint v).length) := by
  unfold Header.step
  rw [show fieldTag (pre ++ (0x08 :: varint v ++ rest)) pre.length
      = .ok (1, 0, pre.length + 1) by
    exact fieldTag_at 0x08 pre _ 1 0 (by decide) (by decide) (by decide) (by decide) (by decide)]
  simp only [Res.bind_ok, ne_eq, not_true_eq_false, if_false]
  have := varintLoop_zero 32 v (pre ++ [0x08]) rest (by omega) hv
  simp only [List.append_assoc, List.cons_append, List.nil_append, List.length_append,
    List.length_singleton] at this
  rw [List.cons_append, this]
  simp; omega

/-- **Decoding inverts encoding** for every header an encryptor can build. -/
theorem header_unmarshal (h : Header) (hc : Clean h) (hcs : h.chunkSize < 2^32)
    (hl : (headerBytes h).length < 2^63) : Header.unmarshal (headerBytes h) = .ok h := by
  show hrun (headerBytes h) {} 0 = _
  rw [headerBytes_eq] at *
  obtain ⟨cs, salt, pk, sender, keys, unk⟩ := h
  simp only at *
  obtain ⟨hc1, hc2⟩ := hc
  simp only at hc1 hc2
  subst hc1
  generalize hA : (if cs = 0 then ([] : Bytes) else 0x08 :: varint cs) = A at *
  have e0 : hrun (A ++ (field 0x12 salt ++ (field 0x1a pk ++ (field 0x22 sender ++ keysBytes keys)))) {} 0 =
      hrun (A ++ (field 0x12 salt ++ (field 0x1a pk ++ (field 0x22 sender ++ keysBytes keys))))
        { chunkSize := cs } A.length := by
    by_cases h0 : cs = 0
    · subst h0; simp at hA; subst hA; rfl
    · simp only [h0, if_false] at hA
      subst hA
      have := hrun_step _ _ _ _ _ (hstep_chunk {} []
        (field 0x12 salt ++ (field 0x1a pk ++ (field 0x22 sender ++ keysBytes keys))) cs hcs) (by simp)
      simpa using this
  have e1 := hrun_field { chunkSize := cs } 0x12 2 A salt (field 0x1a pk ++ (field 0x22 sender ++ keysBytes keys))
    { chunkSize := cs, salt := salt } hl (by decide) (by decide) (by decide) (by decide) (by simp)
    (by rintro rfl; rfl)
  have e2 := hrun_field { chunkSize := cs, salt := salt } 0x1a 3 (A ++ field 0x12 salt) pk
    (field 0x22 sender ++ keysBytes keys)
    { chunkSize := cs, salt := salt, pk := pk } (by simpa [Nat.add_assoc] using hl) (by decide) (by decide) (by decide)
    (by decide) (by simp) (by rintro rfl; rfl)
  have e3 := hrun_field { chunkSize := cs, salt := salt, pk := pk } 0x22 4 (A ++ field 0x12 salt ++ field 0x1a pk)
    sender (keysBytes keys)
    { chunkSize := cs, salt := salt, pk := pk, sender := sender } (by simpa [Nat.add_assoc] using hl) (by decide)
    (by decide) (by decide) (by decide) (by simp) (by rintro rfl; rfl)
  have e4 := hrun_keys keys { chunkSize := cs, salt := salt, pk := pk, sender := sender }
    (A ++ field 0x12 salt ++ field 0x1a pk ++ field 0x22 sender) hc2 (by simpa [Nat.add_assoc] using hl)
  simp only [List.append_assoc] at e1 e2 e3 e4
  rw [e0, e1, e2, e3, e4]
  simp

/-- The decoder only produces 32-bit chunk sizes. -/
theorem hstep_chunkSize (d : Bytes) (m : Header) (i : Nat) (m' : Header) (k : Nat)
    (hm : m.chunkSize < 2^32) (h : Header.step d m i = .ok (m', k)) : m'.chunkSize < 2^32 := by
  unfold Header.step at h
  obtain ⟨⟨fn, wt, j⟩, h1, h2⟩ := bind_eq_ok h
  simp only at h2
  split at h2
  · split at h2
    · cases h2
    · obtain ⟨⟨s, a⟩, h3, h4⟩ := bind_eq_ok h2
      have := varintLoop_lt d 32 _ _ _ _ _ (by decide) h3
      cases h4; exact this
  iterate 3
    · split at h2
      · cases h2
      · obtain ⟨⟨s, a⟩, h3, h4⟩ := bind_eq_ok h2
        cases h4; exact hm
  · split at h2
    · cases h2
    · obtain ⟨⟨s, a⟩, h3, h4⟩ := bind_eq_ok h2
      obtain ⟨w, h5, h6⟩ := bind_eq_ok h4
      cases h6; exact hm
  · obtain ⟨⟨s, a⟩, h3, h4⟩ := bind_eq_ok h2
    cases h4; exact hm

end Sigtool.Proto
