import Verif.Base64
import Verif.Spec.Base64
/-! # Props.Base64: C34 -/

namespace Sigtool
open Base64

theorem alphabet_char : ∀ n < 64, Spec.alphabet[n]?.getD 0 = Base64.char n := by decide +kernel

/-- Two bytes determine sextets; checked byte by byte. -/
theorem bits_hi : ∀ a : UInt8, ∃ b7 b6 b5 b4 b3 b2 b1 b0, Spec.byteBits a = [b7, b6, b5, b4, b3, b2, b1, b0] ∧
    Spec.bitsVal [b7, b6, b5, b4, b3, b2] = a.toNat / 4 ∧ b1.toNat * 2 + b0.toNat = a.toNat % 4 ∧
    Spec.bitsVal [b7, b6, b5, b4] = a.toNat / 16 ∧ Spec.bitsVal [b3, b2, b1, b0] = a.toNat % 16 ∧
    Spec.bitsVal [b7, b6] = a.toNat / 64 ∧ Spec.bitsVal [b5, b4, b3, b2, b1, b0] = a.toNat % 64 := by
  intro a
  refine ⟨_, _, _, _, _, _, _, _, rfl, ?_⟩
  exact forall_byte (p := fun a => Spec.bitsVal [a.toNat.testBit 7, a.toNat.testBit 6, a.toNat.testBit 5, a.toNat.testBit 4,
      a.toNat.testBit 3, a.toNat.testBit 2] = a.toNat / 4 ∧ (a.toNat.testBit 1).toNat * 2 + (a.toNat.testBit 0).toNat = a.toNat % 4 ∧
    Spec.bitsVal [a.toNat.testBit 7, a.toNat.testBit 6, a.toNat.testBit 5, a.toNat.testBit 4] = a.toNat / 16 ∧
    Spec.bitsVal [a.toNat.testBit 3, a.toNat.testBit 2, a.toNat.testBit 1, a.toNat.testBit 0] = a.toNat % 16 ∧
    Spec.bitsVal [a.toNat.testBit 7, a.toNat.testBit 6] = a.toNat / 64 ∧
    Spec.bitsVal [a.toNat.testBit 5, a.toNat.testBit 4, a.toNat.testBit 3, a.toNat.testBit 2, a.toNat.testBit 1,
      a.toNat.testBit 0] = a.toNat % 64) (by decide +kernel) a

theorem sextets_encode : ∀ x : Bytes, encode x =
    (Spec.sextets (x.flatMap Spec.byteBits)).map (fun n => Spec.alphabet[n]?.getD 0) ++
      List.replicate ((4 - (Spec.sextets (x.flatMap Spec.byteBits)).length % 4) % 4) 61 := by
  intro x
  induction x using encode.induct with
  | case1 => rfl
  | case2 a =>
    obtain ⟨b7, b6, b5, b4, b3, b2, b1, b0, h1, h2, h3, h4, h5, h6, h7⟩ := bits_hi a
    have := a.toNat_lt
    simp only [List.flatMap_cons, List.flatMap_nil, List.append_nil, h1, Spec.sextets, h2, encode, List.length_cons,
      List.length_nil, List.map_cons, List.map_nil, List.cons_append, List.nil_append, List.replicate]
    have e : Spec.bitsVal [b1, b0, false, false, false, false] = a.toNat % 4 * 16 := by
      rw [← h3]; simp [Spec.bitsVal]; omega
    rw [e, alphabet_char _ (by omega), alphabet_char _ (by omega)]
    rfl
  | case3 a b =>
    obtain ⟨b7, b6, b5, b4, b3, b2, b1, b0, h1, h2, h3, h4, h5, h6, h7⟩ := bits_hi a
    obtain ⟨c7, c6, c5, c4, c3, c2, c1, c0, g1, g2, g3, g4, g5, g6, g7⟩ := bits_hi b
    have := a.toNat_lt
    have := b.toNat_lt
    simp only [List.flatMap_cons, List.flatMap_nil, List.append_nil, h1, g1, Spec.sextets, h2, encode, List.length_cons,
      List.length_nil, List.map_cons, List.map_nil, List.cons_append, List.nil_append, List.replicate]
    have e : Spec.bitsVal [b1, b0, c7, c6, c5, c4] = a.toNat % 4 * 16 + b.toNat / 16 := by
      rw [← h3, ← g4]; simp [Spec.bitsVal]; omega
    have e2 : Spec.bitsVal [c3, c2, c1, c0, false, false] = b.toNat % 16 * 4 := by
      rw [← g5]; simp [Spec.bitsVal]; omega
    rw [e, e2, alphabet_char _ (by omega), alphabet_char _ (by omega), alphabet_char _ (by omega)]
    rfl
  | case4 a b c t ih =>
    obtain ⟨b7, b6, b5, b4, b3, b2, b1, b0, h1, h2, h3, h4, h5, h6, h7⟩ := bits_hi a
    obtain ⟨c7, c6, c5, c4, c3, c2, c1, c0, g1, g2, g3, g4, g5, g6, g7⟩ := bits_hi b
    obtain ⟨d7, d6, d5, d4, d3, d2, d1, d0, k1, k2, k3, k4, k5, k6, k7⟩ := bits_hi c
    have := a.toNat_lt
    have := b.toNat_lt
    have := c.toNat_lt
    simp only [List.flatMap_cons, h1, g1, k1, List.cons_append, List.nil_append, Spec.sextets, h2, k7, encode, List.map_cons]
    have e : Spec.bitsVal [b1, b0, c7, c6, c5, c4] = a.toNat % 4 * 16 + b.toNat / 16 := by
      rw [← h3, ← g4]; simp [Spec.bitsVal]; omega
    have e2 : Spec.bitsVal [c3, c2, c1, c0, d7, d6] = b.toNat % 16 * 4 + c.toNat / 64 := by
      rw [← g5, ← k6]; simp [Spec.bitsVal]; omega
    rw [e, e2, alphabet_char _ (by omega), alphabet_char _ (by omega), alphabet_char _ (by omega), alphabet_char _ (by omega), ih]
    have : ∀ n, (4 - (n + 1 + 1 + 1 + 1) % 4) % 4 = (4 - n % 4) % 4 := by omega
    simp only [List.length_cons, this]

/-- **C34**, encoding: the text the library writes is the base64 text of RFC 4648. -/
theorem C34_standard (x : Bytes) : encode x = Spec.base64 x := by
  rw [sextets_encode]; simp [Spec.base64]

/-- **C34**, round trip: reading the base64 text of any bytes gives these bytes. -/
theorem C34_roundtrip (x : Bytes) : decode (Spec.base64 x) = some x := by
  rw [← C34_standard, decode_encode]

/-- **C34**, line breaks: inserting `\r` and `\n` anywhere does not change what is read. -/
theorem C34_linebreaks (s t : Bytes) (h : s.filter (fun c => c ≠ 10 ∧ c ≠ 13) = t.filter (fun c => c ≠ 10 ∧ c ≠ 13)) :
    decode s = decode t := by
  have e : ∀ u : Bytes, u.filter (fun c => !isBreak c) = u.filter (fun c => c ≠ 10 ∧ c ≠ 13) := by
    intro u
    congr 1
    funext c
    simp only [isBreak, ne_eq, Bool.not_or, Bool.decide_and, decide_not]
    rfl
  rw [decode, decode, e, e, h]

theorem decodeQ_pad_tail : ∀ (s : Bytes) (j : Bytes), j ≠ [] → pad ∈ s → s.length % 4 = 0 → decodeQ (s ++ j) = none
  | [], j, _, hp, _ => by cases hp
  | [_], j, _, _, h => by simp at h
  | [_, _], j, _, _, h => by simp at h
  | [_, _, _], j, _, _, h => by simp at h
  | c1 :: c2 :: c3 :: c4 :: t, j, hj, hp, hl => by
    have ih := decodeQ_pad_tail t j hj
    simp only [List.cons_append, decodeQ]
    have hne : ¬ (t ++ j = []) := by simp [hj]
    have v : val pad = none := by decide
    split
    · rename_i v1 v2 h1 h2
      split
      · rw [if_neg (by simp [hj])]
      · rename_i hc3
        split
        · rfl
        · rename_i v3 h3
          split
          · first | rfl | rw [if_neg hne]
          · rename_i hc4
            have : pad ∈ t := by
              simp only [List.mem_cons] at hp
              rcases hp with hp | hp | hp | hp | hp
              · rw [← hp, v] at h1; cases h1
              · rw [← hp, v] at h2; cases h2
              · exact absurd hp.symm hc3
              · exact absurd hp.symm hc4
              · exact hp
            rw [ih this (by simp only [List.length_cons] at hl; omega)]
            split <;> simp_all
    · rfl

/-- **C34**, nothing after the padding: a complete text with padding, followed by anything but line breaks, is rejected. -/
theorem C34_trailing_junk (x junk : Bytes) (hx : x.length % 3 ≠ 0) (hj : ∃ c ∈ junk, c ≠ 10 ∧ c ≠ 13) :
    decode (Spec.base64 x ++ junk) = none := by
  rw [← C34_standard, decode, List.filter_append, filter_b64 _ (encode_alphabet x)]
  refine decodeQ_pad_tail _ _ ?_ ?_ ?_
  · obtain ⟨c, hc, h1, h2⟩ := hj
    intro hn
    rw [List.filter_eq_nil_iff] at hn
    have := hn c hc
    simp [isBreak, h1, h2] at this
  · clear hj
    induction x using encode.induct with
    | case1 => simp at hx
    | case2 a => simp [encode]
    | case3 a b => simp [encode]
    | case4 a b c t ih =>
      simp only [encode, List.mem_cons]
      right; right; right; right
      exact ih (by simp only [List.length_cons] at hx; omega)
  · rw [encode_length]; omega

/-- What is read determines the text up to line breaks and the unused bits before the padding: re-encoding agrees with the
text everywhere else. In particular a text without padding is the encoding of what it decodes to. -/
theorem C34_canonical (s x : Bytes) (h : decode s = some x) (h3 : x.length % 3 = 0) :
    Spec.base64 x = s.filter (fun c => c ≠ 10 ∧ c ≠ 13) := by
  have e : s.filter (fun c => !isBreak c) = s.filter (fun c => c ≠ 10 ∧ c ≠ 13) := by
    congr 1
    funext c
    simp only [isBreak, ne_eq, Bool.not_or, Bool.decide_and, decide_not]
    rfl
  rw [← C34_standard, ← e]
  rw [decode] at h
  generalize s.filter (fun c => !isBreak c) = u at h
  clear e
  have hv : ∀ c n, val c = some n → char n = c ∧ n < 64 := by
    intro c n
    refine forall_byte (p := fun c => val c = some n → char n = c ∧ n < 64) ?_ c
    intro m hm hn
    have : ∀ m < 256, ∀ v ∈ val (UInt8.ofNat m), char v = UInt8.ofNat m ∧ v < 64 := by decide +kernel
    exact this m hm n hn
  have main : ∀ (u x : Bytes), decodeQ u = some x → x.length % 3 = 0 → encode x = u := by
    intro u
    induction hn : u.length using Nat.strongRecOn generalizing u with
    | _ n ih =>
      intro x h h3
      match u, h with
      | [], h => cases h; rfl
      | c1 :: c2 :: c3 :: c4 :: t, h =>
        simp only [decodeQ] at h
        split at h
        · rename_i v1 v2 h1 h2
          split at h
          · split at h
            · cases h; simp at h3
            · cases h
          · split at h
            · cases h
            · rename_i v3 g3
              split at h
              · split at h
                · cases h; simp at h3
                · cases h
              · split at h
                · rename_i v4 bs g4 gb
                  cases h
                  obtain ⟨a1, a2⟩ := hv _ _ h1
                  obtain ⟨b1, b2⟩ := hv _ _ h2
                  obtain ⟨d1, d2⟩ := hv _ _ g3
                  obtain ⟨e1, e2⟩ := hv _ _ g4
                  have ht := ih t.length (by rw [← hn]; simp only [List.length_cons]; omega) t rfl bs gb
                    (by simp only [List.length_cons] at h3; omega)
                  simp only [encode, UInt8.toNat_ofNat', ht]
                  have q1 : (v1 * 4 + v2 / 16) % 2 ^ 8 / 4 = v1 := by omega
                  have q2 : (v1 * 4 + v2 / 16) % 2 ^ 8 % 4 * 16 + (v2 % 16 * 16 + v3 / 4) % 2 ^ 8 / 16 = v2 := by omega
                  have q3 : (v2 % 16 * 16 + v3 / 4) % 2 ^ 8 % 16 * 4 + (v3 % 4 * 64 + v4) % 2 ^ 8 / 64 = v3 := by omega
                  have q4 : (v3 % 4 * 64 + v4) % 2 ^ 8 % 64 = v4 := by omega
                  rw [q1, q2, q3, q4, a1, b1, d1, e1]
                · cases h
        · cases h
  exact main u x h h3

/-- A text with line breaks inside and junk behind it. -/
example : decode (ascii "Zm9v\r\nYmE=\n") = some (ascii "fooba") ∧ decode (ascii "Zm9vYmE=x") = none ∧
    (ascii "fooba").length % 3 ≠ 0 := by decide +kernel

end Sigtool
