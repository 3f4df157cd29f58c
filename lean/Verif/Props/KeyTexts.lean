import Verif.Spec.KeyTexts
import Verif.Props.Base64
import Verif.Props.AuthKeys
import Verif.Props.PublicKeys
import Verif.Props.Sign
/-! # Exactly which texts are read as public keys: C90 (and C34, exact) -/

namespace Sigtool

open Spec (Base64Text digitBits byteBits KeyField ForeignField NoBlank StartsBlank KeyThenComment ForeignThenComment quotes
  OptionsField LineKey LineYields ThreeFields)

/-! ### Base64 -/

theorem quad1 : ∀ v < 64, ∀ w < 64, byteBits (UInt8.ofNat (v * 4 + w / 16)) = digitBits v ++ (digitBits w).take 2 := by
  decide +kernel

theorem quad2 : ∀ v < 64, ∀ w < 64, byteBits (UInt8.ofNat (v % 16 * 16 + w / 4)) = (digitBits v).drop 2 ++ (digitBits w).take 4 := by
  decide +kernel

theorem quad3 : ∀ v < 64, ∀ w < 64, byteBits (UInt8.ofNat (v % 4 * 64 + w)) = (digitBits v).drop 4 ++ digitBits w := by
  decide +kernel

theorem byteBits_inj (a b : UInt8) (h : byteBits a = byteBits b) : a = b := by
  have key : ∀ c : UInt8, UInt8.ofNat (Spec.bitsVal (byteBits c)) = c :=
    Base64.forall_byte (p := fun c => UInt8.ofNat (Spec.bitsVal (byteBits c)) = c) (by decide +kernel)
  rw [← key a, ← key b, h]

@[simp] theorem byteBits_length (a : UInt8) : (byteBits a).length = 8 := rfl
@[simp] theorem digitBits_length (a : Nat) : (digitBits a).length = 6 := rfl

theorem flatMap_byteBits_length (x : Bytes) : (x.flatMap byteBits).length = 8 * x.length := by
  induction x with
  | nil => rfl
  | cons a x ih => rw [List.flatMap_cons, List.length_append, ih, byteBits_length, List.length_cons]; omega

theorem flatMap_digitBits_length (x : List Nat) : (x.flatMap digitBits).length = 6 * x.length := by
  induction x with
  | nil => rfl
  | cons a x ih => rw [List.flatMap_cons, List.length_append, ih, digitBits_length, List.length_cons]; omega

theorem val_some (c : UInt8) (n : Nat) : Base64.val c = some n → Base64.char n = c ∧ n < 64 := by
  refine Base64.forall_byte (p := fun c => Base64.val c = some n → Base64.char n = c ∧ n < 64) ?_ c
  intro m hm hn
  have : ∀ m < 256, ∀ v ∈ Base64.val (UInt8.ofNat m), Base64.char v = UInt8.ofNat m ∧ v < 64 := by decide +kernel
  exact this m hm n hn

/-- Base64 text without line breaks. -/
def Quads (u x : Bytes) : Prop :=
  ∃ (digits : List Nat) (fill : List Bool), (∀ n ∈ digits, n < 64) ∧ fill.length < 6 ∧
    digits.flatMap digitBits = x.flatMap byteBits ++ fill ∧
    u = digits.map Base64.char ++ List.replicate ((4 - digits.length % 4) % 4) 61

theorem decodeQ_quads : ∀ (u x : Bytes), Base64.decodeQ u = some x → Quads u x
  | [], x, h => by cases h; exact ⟨[], [], by simp, by simp, rfl, rfl⟩
  | [_], x, h => by cases h
  | [_, _], x, h => by cases h
  | [_, _, _], x, h => by cases h
  | c1 :: c2 :: c3 :: c4 :: t, x, h => by
    have ih := decodeQ_quads t
    simp only [Base64.decodeQ] at h
    split at h
    · rename_i v1 v2 h1 h2
      obtain ⟨a1, a2⟩ := val_some _ _ h1
      obtain ⟨b1, b2⟩ := val_some _ _ h2
      split at h
      · rename_i hc3
        split at h
        · rename_i hc4
          cases h
          refine ⟨[v1, v2], (digitBits v2).drop 2, by simp [a2, b2], by simp, ?_, ?_⟩
          · simp only [List.flatMap_cons, List.flatMap_nil, List.append_nil, quad1 _ a2 _ b2, List.append_assoc, List.take_append_drop]
          · rw [hc3, hc4.1, hc4.2, ← a1, ← b1]; rfl
        · cases h
      · split at h
        · cases h
        · rename_i v3 g3
          obtain ⟨d1, d2⟩ := val_some _ _ g3
          split at h
          · rename_i hc4
            split at h
            · rename_i ht
              cases h
              refine ⟨[v1, v2, v3], (digitBits v3).drop 4, by simp [a2, b2, d2], by simp, ?_, ?_⟩
              · simp only [List.flatMap_cons, List.flatMap_nil, List.append_nil, quad1 _ a2 _ b2, quad2 _ b2 _ d2]
                rw [List.append_assoc, List.append_assoc, List.append_assoc, List.take_append_drop,
                  ← List.append_assoc ((digitBits v2).take 2), List.take_append_drop]
              · rw [hc4, ht, ← a1, ← b1, ← d1]; rfl
            · cases h
          · split at h
            · rename_i v4 bs g4 gb
              cases h
              obtain ⟨e1, e2⟩ := val_some _ _ g4
              obtain ⟨ds, fill, k1, k2, k3, k4⟩ := ih bs gb
              refine ⟨v1 :: v2 :: v3 :: v4 :: ds, fill, ?_, k2, ?_, ?_⟩
              · intro n hn
                simp only [List.mem_cons] at hn
                rcases hn with rfl | rfl | rfl | rfl | hn
                · exact a2
                · exact b2
                · exact d2
                · exact e2
                · exact k1 n hn
              · simp only [List.flatMap_cons, quad1 _ a2 _ b2, quad2 _ b2 _ d2, quad3 _ d2 _ e2, k3, List.append_assoc]
                rw [← List.append_assoc ((digitBits v2).take 2), List.take_append_drop,
                  ← List.append_assoc ((digitBits v3).take 4), List.take_append_drop]
              · rw [← a1, ← b1, ← d1, ← e1, k4]
                have : ∀ n, (4 - (n + 1 + 1 + 1 + 1) % 4) % 4 = (4 - n % 4) % 4 := by omega
                simp only [List.length_cons, this, List.map_cons, List.cons_append]
            · cases h
    · cases h

theorem quads_decodeQ : ∀ (x u : Bytes), Quads u x → Base64.decodeQ u = some x := by
  intro x
  induction x using Base64.encode.induct with
  | case1 =>
    rintro u ⟨ds, fill, h1, h2, h3, rfl⟩
    have hl := congrArg List.length h3
    simp only [flatMap_digitBits_length, List.flatMap_nil, List.nil_append] at hl
    match ds with
    | [] => rfl
    | _ :: _ => simp only [List.length_cons] at hl; omega
  | case2 a =>
    rintro u ⟨ds, fill, h1, h2, h3, rfl⟩
    have hl := congrArg List.length h3
    rw [flatMap_digitBits_length, List.length_append, flatMap_byteBits_length] at hl
    simp only [List.length_cons, List.length_nil] at hl
    match ds with
    | [] => simp only [List.length_nil] at hl; omega
    | [_] => simp only [List.length_cons, List.length_nil] at hl; omega
    | [v1, v2] =>
      have a1 : v1 < 64 := h1 v1 (by simp)
      have a2 : v2 < 64 := h1 v2 (by simp)
      simp only [List.map_cons, List.map_nil, List.length_cons, List.length_nil, List.cons_append, List.nil_append]
      show Base64.decodeQ [Base64.char v1, Base64.char v2, 61, 61] = _
      simp only [Base64.decodeQ, Base64.val_char _ a1, Base64.val_char _ a2, Base64.pad, and_self, if_true]
      simp only [List.flatMap_cons, List.flatMap_nil, List.append_nil] at h3
      have := (List.append_inj (s₁ := digitBits v1 ++ (digitBits v2).take 2) (t₁ := (digitBits v2).drop 2) (s₂ := byteBits a) (t₂ := fill)
        (by rw [List.append_assoc, List.take_append_drop, h3]) (by simp)).1
      rw [← quad1 _ a1 _ a2] at this
      rw [byteBits_inj _ _ this]
    | _ :: _ :: _ :: _ => simp only [List.length_cons] at hl; omega
  | case3 a b =>
    rintro u ⟨ds, fill, h1, h2, h3, rfl⟩
    have hl := congrArg List.length h3
    rw [flatMap_digitBits_length, List.length_append, flatMap_byteBits_length] at hl
    simp only [List.length_cons, List.length_nil] at hl
    match ds with
    | [] => simp only [List.length_nil] at hl; omega
    | [_] => simp only [List.length_cons, List.length_nil] at hl; omega
    | [_, _] => simp only [List.length_cons, List.length_nil] at hl; omega
    | [v1, v2, v3] =>
      have a1 : v1 < 64 := h1 v1 (by simp)
      have a2 : v2 < 64 := h1 v2 (by simp)
      have a3 : v3 < 64 := h1 v3 (by simp)
      simp only [List.map_cons, List.map_nil, List.length_cons, List.length_nil, List.cons_append, List.nil_append]
      show Base64.decodeQ [Base64.char v1, Base64.char v2, Base64.char v3, 61] = _
      have hne := Base64.char_ne_pad v3 a3
      simp only [Base64.decodeQ, Base64.val_char _ a1, Base64.val_char _ a2, Base64.val_char _ a3, if_neg hne]
      rw [if_pos (by rfl)]
      simp only [List.flatMap_cons, List.flatMap_nil, List.append_nil] at h3
      have e : (digitBits v1 ++ (digitBits v2).take 2) ++ (((digitBits v2).drop 2 ++ (digitBits v3).take 4) ++ (digitBits v3).drop 4) =
          byteBits a ++ (byteBits b ++ fill) := by
        rw [← List.append_assoc (byteBits a), ← h3]
        simp only [List.append_assoc, List.take_append_drop]
        rw [← List.append_assoc ((digitBits v2).take 2), List.take_append_drop]
      obtain ⟨e1, e2⟩ := List.append_inj e (by simp)
      obtain ⟨e2, e3⟩ := List.append_inj e2 (by simp)
      rw [← quad1 _ a1 _ a2] at e1
      rw [← quad2 _ a2 _ a3] at e2
      rw [byteBits_inj _ _ e1, byteBits_inj _ _ e2]
      rfl
    | _ :: _ :: _ :: _ :: _ => simp only [List.length_cons] at hl; omega
  | case4 a b c t ih =>
    rintro u ⟨ds, fill, h1, h2, h3, rfl⟩
    have hl := congrArg List.length h3
    rw [flatMap_digitBits_length, List.length_append, flatMap_byteBits_length] at hl
    simp only [List.length_cons] at hl
    match ds with
    | [] => simp only [List.length_nil] at hl; omega
    | [_] => simp only [List.length_cons, List.length_nil] at hl; omega
    | [_, _] => simp only [List.length_cons, List.length_nil] at hl; omega
    | [_, _, _] => simp only [List.length_cons, List.length_nil] at hl; omega
    | v1 :: v2 :: v3 :: v4 :: ds =>
      have a1 : v1 < 64 := h1 v1 (by simp)
      have a2 : v2 < 64 := h1 v2 (by simp)
      have a3 : v3 < 64 := h1 v3 (by simp)
      have a4 : v4 < 64 := h1 v4 (by simp)
      simp only [List.flatMap_cons] at h3
      have e : (digitBits v1 ++ (digitBits v2).take 2) ++ (((digitBits v2).drop 2 ++ (digitBits v3).take 4) ++
          (((digitBits v3).drop 4 ++ digitBits v4) ++ ds.flatMap digitBits)) =
          byteBits a ++ (byteBits b ++ (byteBits c ++ (t.flatMap byteBits ++ fill))) := by
        rw [← List.append_assoc (byteBits c), ← List.append_assoc (byteBits b), ← List.append_assoc (byteBits a), ← h3]
        simp only [List.append_assoc]
        rw [← List.append_assoc ((digitBits v2).take 2), List.take_append_drop,
                  ← List.append_assoc ((digitBits v3).take 4), List.take_append_drop]
      obtain ⟨e1, e2⟩ := List.append_inj e (by simp)
      obtain ⟨e2, e3⟩ := List.append_inj e2 (by simp)
      obtain ⟨e3, e4⟩ := List.append_inj e3 (by simp)
      rw [← quad1 _ a1 _ a2] at e1
      rw [← quad2 _ a2 _ a3] at e2
      rw [← quad3 _ a3 _ a4] at e3
      have := ih (ds.map Base64.char ++ List.replicate ((4 - ds.length % 4) % 4) 61)
        ⟨ds, fill, fun n hn => h1 n (by simp [hn]), h2, e4, rfl⟩
      have hm : ∀ n, (4 - (n + 1 + 1 + 1 + 1) % 4) % 4 = (4 - n % 4) % 4 := by omega
      simp only [List.length_cons, hm, List.map_cons, List.cons_append]
      have hne3 := Base64.char_ne_pad v3 a3
      have hne4 := Base64.char_ne_pad v4 a4
      simp only [Base64.decodeQ, Base64.val_char _ a1, Base64.val_char _ a2, Base64.val_char _ a3, Base64.val_char _ a4, if_neg hne3,
        if_neg hne4, this]
      rw [byteBits_inj _ _ e1, byteBits_inj _ _ e2, byteBits_inj _ _ e3]

theorem digits_chars (ds : List Nat) (h : ∀ n ∈ ds, n < 64) : ds.map (fun n => Spec.alphabet[n]?.getD 0) = ds.map Base64.char :=
  List.map_congr_left fun n hn => alphabet_char n (h n hn)

/-- **C34** (exactly what is base64).  A text is read as `x` exactly if it is base64 text of `x`: line breaks anywhere, any value of
the unused bits, padding required, nothing behind it. -/
theorem C34_exact (text x : Bytes) : Base64.decode text = some x ↔ Base64Text text x := by
  have e : text.filter (fun c => !Base64.isBreak c) = text.filter (fun c => c ≠ 10 ∧ c ≠ 13) := by
    congr 1
    funext c
    simp only [Base64.isBreak, ne_eq, Bool.not_or, Bool.decide_and, decide_not]
    rfl
  constructor
  · intro h
    obtain ⟨ds, fill, h1, h2, h3, h4⟩ := decodeQ_quads _ _ h
    exact ⟨ds, fill, h1, h2, h3, by rw [digits_chars ds h1, ← h4, e]⟩
  · rintro ⟨ds, fill, h1, h2, h3, h4⟩
    refine quads_decodeQ _ _ ⟨ds, fill, h1, h2, h3, ?_⟩
    rw [e, h4, digits_chars ds h1]

/-- Two texts of the same byte: with the unused bits zero, and one. -/
example : Base64Text (ascii "Zg==") (ascii "f") ∧ Base64Text (ascii "Z\nh==") (ascii "f") ∧ ¬ Base64Text (ascii "Zg=") (ascii "f") := by
  rw [← C34_exact, ← C34_exact, ← C34_exact]
  decide +kernel

/-! ### The key field -/

theorem be32_take4 (x : Bytes) (h : 4 ≤ x.length) : be32 (be32dec x) = x.take 4 := by
  match x, h with
  | a :: b :: c :: d :: t, _ => exact be32_be32dec [a, b, c, d] rfl

/-- What `parseString` reads, exactly. -/
theorem parseString_iff (raw a r : Bytes) : parseString raw = some (a, r) ↔
    raw = Spec.sshString a ++ r ∧ a.length < 2^32 ∧ a.length ≤ (a.length + r.length) % 2^32 := by
  constructor
  · intro h
    unfold parseString at h
    split at h
    · cases h
    · rename_i h4
      dsimp only at h
      split at h
      · cases h
      · rename_i hn
        simp only [Option.some.injEq, Prod.mk.injEq] at h
        obtain ⟨e1, e2⟩ := h
        have hlt := be32dec_lt raw
        have hmod := Nat.mod_le (raw.drop 4).length (2^32)
        have hlen : a.length = be32dec raw := by rw [← e1, List.length_take]; omega
        have hd : raw.drop 4 = a ++ r := by rw [← e1, ← e2, List.take_append_drop]
        refine ⟨?_, by omega, ?_⟩
        · rw [sshString_be32, hlen, be32_take4 raw (by omega), List.append_assoc, ← hd, List.take_append_drop]
        · rw [← List.length_append, ← hd, hlen]; omega
  · rintro ⟨rfl, h1, h2⟩
    rw [sshString_be32]
    unfold parseString
    have e : (be32 a.length ++ a ++ r).drop 4 = a ++ r := by rw [List.append_assoc]; rfl
    have hb : be32dec (be32 a.length ++ a ++ r) = a.length := by
      rw [List.append_assoc, be32dec_be32, Nat.mod_eq_of_lt h1]
    have hl : ¬ (be32 a.length ++ a ++ r).length < 4 := by simp only [List.length_append, be32_length]; omega
    rw [if_neg hl]
    dsimp only
    rw [e, hb, if_neg]
    · rw [List.take_left, List.drop_left]
    · rw [List.length_append]; omega

/-- The field readers, exactly: a key, ... -/
theorem parseEncPubKey_iff (P : Prims) (b comment : Bytes) (pk : PublicKey) :
    parseEncPubKey P b comment = .ok (some pk) ↔
      ∃ key, KeyField b key ∧ pk = { pk := key, comment := trimSpace comment, hash := (P.sha256 key).take 16 } := by
  constructor
  · intro h
    have h' := h
    unfold parseEncPubKey at h
    split at h
    · cases h
    · rename_i raw hraw
      split at h
      · cases h
      · rename_i algo r hp
        split at h
        · cases h
        · rename_i halgo
          split at h
          · cases h
          · split at h
            · cases h
            · rename_i key rest hk
              split at h
              · cases h
              · rename_i hrest
                have hrest : rest = [] := List.length_eq_zero_iff.mp (by omega)
                subst hrest
                have halgo : algo = algoEd25519 := not_not.mp halgo
                subst halgo
                obtain ⟨e1, _⟩ := (parseString_iff _ _ _).mp hp
                obtain ⟨e2, _⟩ := (parseString_iff _ _ _).mp hk
                obtain ⟨k1, k2, k3⟩ := parseEncPubKey_ok P _ _ _ h'
                unfold makePublicKeyFromBytes at h
                split at h
                · rename_i hm
                  cases h
                  split at hm
                  · cases hm
                  · cases hm
                    refine ⟨key, ⟨k1, ?_⟩, rfl⟩
                    rw [← C34_exact, hraw, e1, e2, List.append_nil, algo_spec]
                    rfl
                · cases h
                · cases h
  · rintro ⟨key, ⟨hl, ht⟩, rfl⟩
    have hd := (C34_exact _ _).mpr ht
    have hg := parseEncPubKey_good P key comment hl
    unfold parseEncPubKey at hg ⊢
    rw [hd]
    rw [Base64.decode_encode] at hg
    exact hg

/-- ... nothing at all, ... -/
theorem parseEncPubKey_foreign (P : Prims) (b comment : Bytes) : parseEncPubKey P b comment = .ok none ↔ ForeignField b := by
  rw [parseEncPubKey_nil]
  constructor
  · rintro ⟨raw, algo, rest, h1, h2, h3⟩
    obtain ⟨e1, e2, e3⟩ := (parseString_iff _ _ _).mp h2
    subst e1
    exact ⟨algo, rest, by rwa [← algo_spec], e2, e3, (C34_exact _ _).mp h1⟩
  · rintro ⟨algo, rest, h1, h2, h3, h4⟩
    exact ⟨_, algo, rest, (C34_exact _ _).mpr h4, (parseString_iff _ _ _).mpr ⟨rfl, h2, h3⟩, by rwa [algo_spec]⟩

/-! ### Blanks -/

theorem isBlank_iff (c : UInt8) : isBlank c = true ↔ c = 32 ∨ c = 9 := by simp [isBlank]

theorem noBlank_iff (w : Bytes) : NoBlank w ↔ ∀ c ∈ w, isBlank c = false := by
  unfold NoBlank isBlank
  refine forall_congr' fun c => forall_congr' fun _ => ?_
  simp

theorem startsBlank_iff (r : Bytes) : StartsBlank r ↔ ∃ c t, r = c :: t ∧ isBlank c = true := by
  unfold StartsBlank
  simp only [isBlank_iff]

/-- The first blank: either there is none, or it cuts the text in two. -/
theorem blank_cut (s : Bytes) : (NoBlank s ∧ indexBlank s = none) ∨
    ∃ w r, s = w ++ r ∧ NoBlank w ∧ StartsBlank r ∧ indexBlank s = some w.length := by
  by_cases h : ∀ c ∈ s, isBlank c = false
  · exact .inl ⟨(noBlank_iff s).mpr h, findIdx_none s h⟩
  · right
    have : ∃ w x t, s = w ++ x :: t ∧ (∀ c ∈ w, isBlank c = false) ∧ isBlank x = true := by
      induction s with
      | nil => exact absurd (by simp) h
      | cons c s ih =>
        by_cases hc : isBlank c = true
        · exact ⟨[], c, s, rfl, by simp, hc⟩
        · have hc : isBlank c = false := by simpa using hc
          obtain ⟨w, x, t, e, h1, h2⟩ := ih (fun hs => h (by intro d hd; rcases List.mem_cons.mp hd with rfl | hd; exacts [hc, hs d hd]))
          exact ⟨c :: w, x, t, by rw [e]; rfl, by intro d hd; rcases List.mem_cons.mp hd with rfl | hd; exacts [hc, h1 d hd], h2⟩
    obtain ⟨w, x, t, e, h1, h2⟩ := this
    exact ⟨w, x :: t, e, (noBlank_iff w).mpr h1, (startsBlank_iff _).mpr ⟨x, t, rfl, h2⟩, by rw [e]; exact findIdx_append_blank w x t h1 h2⟩

/-- That cut is unique, also if the second part may be empty. -/
theorem cut_unique (w w' r r' : Bytes) (hw : NoBlank w) (hw' : NoBlank w') (hr : r = [] ∨ StartsBlank r) (hr' : r' = [] ∨ StartsBlank r')
    (e : w ++ r = w' ++ r') : w = w' ∧ r = r' := by
  induction w generalizing w' with
  | nil =>
    cases w' with
    | nil => exact ⟨rfl, e⟩
    | cons c w' =>
      exfalso
      have hc := hw' c (by simp)
      rcases hr with rfl | ⟨d, t, rfl, hd⟩
      · simp at e
      · simp only [List.nil_append, List.cons_append, List.cons.injEq] at e
        rw [e.1] at hd
        rcases hd with hd | hd
        · exact hc.1 hd
        · exact hc.2 hd
  | cons c w ih =>
    have hc := hw c (by simp)
    cases w' with
    | nil =>
      exfalso
      rcases hr' with rfl | ⟨d, t, rfl, hd⟩
      · simp at e
      · simp only [List.nil_append, List.cons_append, List.cons.injEq] at e
        rw [← e.1] at hd
        rcases hd with hd | hd
        · exact hc.1 hd
        · exact hc.2 hd
    | cons c' w' =>
      simp only [List.cons_append, List.cons.injEq] at e
      obtain ⟨h1, h2⟩ := ih w' (fun d hd => hw d (by simp [hd])) (fun d hd => hw' d (by simp [hd])) e.2
      exact ⟨by rw [e.1, h1], h2⟩

/-- How `parseAuthorizedKey` cuts its input. -/
theorem parseAuthorizedKey_cut (P : Prims) (b : Bytes) : ∃ t field tail, Spec.Trims b t ∧ t = field ++ tail ∧ NoBlank field ∧
    (tail = [] ∨ StartsBlank tail) ∧ parseAuthorizedKey P b = parseEncPubKey P field tail := by
  unfold parseAuthorizedKey
  rcases blank_cut (trimSpace b) with ⟨h1, h2⟩ | ⟨w, r, h1, h2, h3, h4⟩
  · refine ⟨trimSpace b, trimSpace b, [], trimSpace_trims b, by simp, h1, .inl rfl, ?_⟩
    dsimp only
    rw [h2]
    simp
  · refine ⟨trimSpace b, w, r, trimSpace_trims b, h1, h2, .inr h3, ?_⟩
    dsimp only
    rw [h4, Option.getD_some, h1, List.take_left, List.drop_left]

theorem parseAuthorizedKey_iff (P : Prims) (b : Bytes) (pk : PublicKey) :
    parseAuthorizedKey P b = .ok (some pk) ↔ ∃ key comment, KeyThenComment b key comment ∧
      pk = { pk := key, comment := comment, hash := (P.sha256 key).take 16 } := by
  obtain ⟨t, field, tail, h1, h2, h3, h4, h5⟩ := parseAuthorizedKey_cut P b
  rw [h5, parseEncPubKey_iff]
  constructor
  · rintro ⟨key, hk, rfl⟩
    exact ⟨key, trimSpace tail, ⟨t, field, tail, h1, h2, h3, h4, hk, trimSpace_trims tail⟩, rfl⟩
  · rintro ⟨key, comment, ⟨t', field', tail', g1, g2, g3, g4, g5, g6⟩, rfl⟩
    have : t = t' := by rw [← trimSpace_eq _ _ h1, trimSpace_eq _ _ g1]
    subst this
    obtain ⟨e1, e2⟩ := cut_unique _ _ _ _ h3 g3 h4 g4 (h2.symm.trans g2)
    subst e1 e2
    exact ⟨key, g5, by rw [trimSpace_eq _ _ g6]⟩

theorem parseAuthorizedKey_foreign (P : Prims) (b : Bytes) : parseAuthorizedKey P b = .ok none ↔ ForeignThenComment b := by
  obtain ⟨t, field, tail, h1, h2, h3, h4, h5⟩ := parseAuthorizedKey_cut P b
  rw [h5, parseEncPubKey_foreign]
  constructor
  · intro h
    exact ⟨t, field, tail, h1, h2, h3, h4, h⟩
  · rintro ⟨t', field', tail', g1, g2, g3, g4, g5⟩
    have : t = t' := by rw [← trimSpace_eq _ _ h1, trimSpace_eq _ _ g1]
    subst this
    obtain ⟨e1, e2⟩ := cut_unique _ _ _ _ h3 g3 h4 g4 (h2.symm.trans g2)
    subst e1 e2
    exact g5

/-! ### The options field -/

theorem quotes_snoc (pre : Bytes) (c : UInt8) :
    quotes (pre ++ [c]) = quotes pre + if c = 34 ∧ pre.getLast? ≠ some 92 then 1 else 0 := by
  unfold quotes
  rw [List.length_append, List.length_singleton, List.range_succ, List.filter_append, List.length_append]
  have e1 : (List.range pre.length).filter (fun i => (pre ++ [c])[i]? = some 34 ∧ (i = 0 ∨ (pre ++ [c])[i - 1]? ≠ some 92)) =
      (List.range pre.length).filter (fun i => pre[i]? = some 34 ∧ (i = 0 ∨ pre[i - 1]? ≠ some 92)) := by
    apply List.filter_congr
    intro i hi
    have hi := List.mem_range.mp hi
    rw [List.getElem?_append_left hi, List.getElem?_append_left (by omega)]
  rw [e1]
  congr 1
  rw [List.filter_singleton]
  have e2 : (pre ++ [c])[pre.length]? = some c := by simp
  have e3 : pre.length = 0 ∨ (pre ++ [c])[pre.length - 1]? ≠ some 92 ↔ pre.getLast? ≠ some 92 := by
    by_cases h : pre = []
    · subst h; simp
    · have : 0 < pre.length := List.length_pos_iff.mpr h
      rw [List.getElem?_append_left (by omega), List.getLast?_eq_getElem?]
      constructor
      · rintro (h | h)
        · omega
        · exact h
      · exact .inr
  simp only [e2, e3, Option.some.injEq]
  by_cases hc : c = 34 ∧ pre.getLast? ≠ some 92
  · rw [if_pos hc]; simp [hc]
  · rw [if_neg hc]; simp [hc]

theorem optScan_cut (l : Bytes) : ∀ (b pre : Bytes), l = pre ++ b →
    (∀ p c q, pre = p ++ c :: q → c = 32 ∨ c = 9 → quotes p % 2 = 1) →
    (∃ o r, l = o ++ r ∧ OptionsField o ∧ StartsBlank r ∧ optScan b pre.length pre.getLast? (quotes pre % 2 = 1) = o.length) ∨
    ((∀ p c q, l = p ++ c :: q → c = 32 ∨ c = 9 → quotes p % 2 = 1) ∧
      optScan b pre.length pre.getLast? (quotes pre % 2 = 1) = l.length - 1) := by
  intro b
  induction b with
  | nil =>
    intro pre hl h
    rw [List.append_nil] at hl
    subst hl
    exact .inr ⟨h, rfl⟩
  | cons c t ih =>
    intro pre hl h
    unfold optScan
    by_cases hb : isBlank c = true
    · by_cases hq : quotes pre % 2 = 1
      · rw [if_neg (by simp [hq])]
        have := ih (pre ++ [c]) (by rw [hl]; simp) ?_
        · have e : decide (quotes (pre ++ [c]) % 2 = 1) = (if c = 34 ∧ pre.getLast? ≠ some 92 then !decide (quotes pre % 2 = 1) else decide (quotes pre % 2 = 1)) := by
            have hc : c ≠ 34 := by rintro rfl; revert hb; decide
            rw [quotes_snoc, if_neg (fun h => hc h.1), if_neg (fun h => hc h.1), Nat.add_zero]
          rw [e] at this
          simpa using this
        · intro p d q hp hd
          rcases List.eq_nil_or_concat q with rfl | ⟨q', x, rfl⟩
          · have := List.append_inj' hp rfl
            rw [← this.1]; exact hq
          · have : pre ++ [c] = (p ++ d :: q') ++ [x] := by rw [hp]; simp
            have := List.append_inj' this rfl
            exact h p d q' this.1 hd
      · rw [if_pos (by simp [hq, hb])]
        exact .inl ⟨pre, c :: t, hl, ⟨by omega, h⟩, (startsBlank_iff _).mpr ⟨c, t, rfl, hb⟩, rfl⟩
    · rw [if_neg (by simp [hb])]
      have := ih (pre ++ [c]) (by rw [hl]; simp) ?_
      · have e : decide (quotes (pre ++ [c]) % 2 = 1) = (if c = 34 ∧ pre.getLast? ≠ some 92 then !decide (quotes pre % 2 = 1) else decide (quotes pre % 2 = 1)) := by
          rw [quotes_snoc]
          by_cases hc : c = 34 ∧ pre.getLast? ≠ some 92
          · rw [if_pos hc, if_pos hc]
            rcases Nat.mod_two_eq_zero_or_one (quotes pre) with h0 | h0
            · have : (quotes pre + 1) % 2 = 1 := by omega
              simp [h0, this]
            · have : (quotes pre + 1) % 2 = 0 := by omega
              simp [h0, this]
          · rw [if_neg hc, if_neg hc, Nat.add_zero]
        rw [e] at this
        simpa using this
      · intro p d q hp hd
        rcases List.eq_nil_or_concat q with rfl | ⟨q', x, rfl⟩
        · have := List.append_inj' hp rfl
          have e : c = d := by simpa using this.2
          rw [e] at hb
          exact absurd ((isBlank_iff d).mpr hd) hb
        · have : pre ++ [c] = (p ++ d :: q') ++ [x] := by rw [hp]; simp
          have := List.append_inj' this rfl
          exact h p d q' this.1 hd

/-- The options field in front of a blank is unique. -/
theorem options_unique (o o' r r' : Bytes) (h : OptionsField o) (h' : OptionsField o') (hr : StartsBlank r) (hr' : StartsBlank r')
    (e : o ++ r = o' ++ r') : o = o' ∧ r = r' := by
  have key : ∀ (o o' r r' : Bytes), OptionsField o → OptionsField o' → StartsBlank r → o ++ r = o' ++ r' → ¬ o.length < o'.length := by
    intro o o' r r' h h' hr e hlt
    obtain ⟨c, t, rfl, hc⟩ := hr
    have ho : o' = o ++ c :: (o'.drop (o.length + 1)) := by
      have h1 : o'.take o.length = o := by
        have := congrArg (List.take o.length) e
        rw [List.take_left, List.take_append_of_le_length (by omega)] at this
        exact this.symm
      have h2 : o'.drop o.length = c :: o'.drop (o.length + 1) := by
        have := congrArg (List.drop o.length) e
        rw [List.drop_left, List.drop_append_of_le_length (by omega)] at this
        match hd : o'.drop o.length with
        | [] => rw [List.drop_eq_nil_iff] at hd; omega
        | d :: u =>
          rw [hd] at this
          simp only [List.cons_append, List.cons.injEq] at this
          rw [← this.1, ← List.drop_drop, hd]
          rfl
      rw [← h2]
      conv_lhs => rw [← List.take_append_drop o.length o', h1]
    have := h'.2 o c _ ho hc
    have := h.1
    omega
  have hl : o.length = o'.length := by
    have h1 := key o o' r r' h h' hr e
    have h2 := key o' o r' r h' h hr' e.symm
    omega
  exact List.append_inj e hl

theorem blanks_cut (r : Bytes) (h : StartsBlank r) : ∃ bl, r = bl ++ r.dropWhile isBlank ∧ bl ≠ [] ∧ ∀ c ∈ bl, c = 32 ∨ c = 9 := by
  obtain ⟨c, t, e, hc⟩ := (startsBlank_iff r).mp h
  refine ⟨r.takeWhile isBlank, (List.takeWhile_append_dropWhile).symm, ?_, ?_⟩
  · rw [e, List.takeWhile_cons_of_pos hc]; simp
  · intro d hd
    exact (isBlank_iff d).mp (List.all_eq_true.mp List.all_takeWhile d hd)

theorem dropWhile_blanks (bl t : Bytes) (h : ∀ c ∈ bl, c = 32 ∨ c = 9) : (bl ++ t).dropWhile isBlank = t.dropWhile isBlank := by
  induction bl with
  | nil => rfl
  | cons c bl ih =>
    rw [List.cons_append, List.dropWhile_cons_of_pos ((isBlank_iff c).mpr (h c (by simp))), ih (fun d hd => h d (by simp [hd]))]

theorem dropWhile_word (w t : Bytes) (hw : NoBlank w) (h0 : w ≠ []) : (w ++ t).dropWhile isBlank = w ++ t := by
  obtain ⟨c, m, rfl⟩ := List.exists_cons_of_ne_nil h0
  rw [List.cons_append, List.dropWhile_cons_of_neg]
  have := (noBlank_iff _).mp hw c (by simp)
  simp [this]

/-- One trimmed line, exactly. -/
theorem authLine_iff (P : Prims) (l : Bytes) (pk : PublicKey) : authLine P l = some pk ↔
    ∃ key comment, pk = { pk := key, comment := comment, hash := (P.sha256 key).take 16 } ∧ ∃ w r, l.head? ≠ some 35 ∧ l = w ++ r ∧
      NoBlank w ∧ StartsBlank r ∧ (KeyThenComment r key comment ∨
      (¬ ∃ k c, KeyThenComment r k c) ∧ ¬ ForeignThenComment r ∧
        ∃ o blanks word r', l = o ++ blanks ++ word ++ r' ∧ OptionsField o ∧
          blanks ≠ [] ∧ (∀ c ∈ blanks, c = 32 ∨ c = 9) ∧ word ≠ [] ∧ NoBlank word ∧ StartsBlank r' ∧ KeyThenComment r' key comment) := by
  by_cases h0 : l = [] ∨ l.head? = some 35
  · unfold authLine
    rw [if_pos h0]
    constructor
    · intro h; cases h
    · rintro ⟨key, comment, _, w, r, h1, h2, h3, h4, _⟩
      rcases h0 with h0 | h0
      · obtain ⟨c, t, rfl, _⟩ := h4
        rw [h0] at h2
        simp at h2
      · exact absurd h0 h1
  · have h35 : l.head? ≠ some 35 := fun h => h0 (.inr h)
    unfold authLine
    rw [if_neg h0]
    rcases blank_cut l with ⟨h1, h2⟩ | ⟨w, r, h1, h2, h3, h4⟩
    · rw [h2]
      dsimp only
      constructor
      · intro h; cases h
      · rintro ⟨key, comment, _, w, r, _, g2, g3, g4, _⟩
        obtain ⟨c, t, rfl, hc⟩ := g4
        have := h1 c (by rw [g2]; simp)
        rcases hc with hc | hc
        · exact absurd hc this.1
        · exact absurd hc this.2
    · rw [h4]
      dsimp only
      have hd : l.drop w.length = r := by rw [h1, List.drop_left]
      rw [hd]
      -- the cut is the only one
      have huniq : ∀ w' r', l = w' ++ r' → NoBlank w' → StartsBlank r' → r' = r := by
        intro w' r' e g1 g2
        exact (cut_unique _ _ _ _ h2 g1 (.inr h3) (.inr g2) (h1.symm.trans e)).2.symm
      match hp : parseAuthorizedKey P r with
      | .ok (some pk') =>
        dsimp only
        obtain ⟨key, comment, hk, hpk⟩ := (parseAuthorizedKey_iff P r pk').mp hp
        constructor
        · intro h
          cases h
          exact ⟨key, comment, hpk, w, r, h35, h1, h2, h3, .inl hk⟩
        · rintro ⟨key', comment', rfl, w', r', _, g2, g3, g4, g5⟩
          have := huniq w' r' g2 g3 g4
          subst this
          rcases g5 with g5 | ⟨g5, _⟩
          · have := (parseAuthorizedKey_iff P r' _).mpr ⟨key', comment', g5, rfl⟩
            rw [hp] at this
            simpa using this
          · exact absurd ⟨key, comment, hk⟩ g5
      | .ok none =>
        dsimp only
        have hf := (parseAuthorizedKey_foreign P r).mp hp
        constructor
        · intro h; cases h
        · rintro ⟨key', comment', rfl, w', r', _, g2, g3, g4, g5⟩
          have := huniq w' r' g2 g3 g4
          subst this
          rcases g5 with g5 | ⟨_, g5, _⟩
          · have := (parseAuthorizedKey_iff P r' _).mpr ⟨key', comment', g5, rfl⟩
            rw [hp] at this
            cases this
          · exact absurd hf g5
      | .panic _ =>
        exfalso
        obtain ⟨_, f, tl, _, _, _, _, e⟩ := parseAuthorizedKey_cut P r
        rw [e] at hp
        exact parseEncPubKey_no_panic P _ _ _ hp
      | .err _ =>
        dsimp only
        have hnk : ¬ ∃ k c, KeyThenComment r k c := by
          rintro ⟨k, c, hk⟩
          have := (parseAuthorizedKey_iff P r _).mpr ⟨k, c, hk, rfl⟩
          rw [hp] at this
          cases this
        have hnf : ¬ ForeignThenComment r := by
          intro hf
          have := (parseAuthorizedKey_foreign P r).mpr hf
          rw [hp] at this
          cases this
        have hscan := optScan_cut l l [] rfl (by intro p c q h; simp at h)
        have e0 : optScan l ([] : Bytes).length ([] : Bytes).getLast? (decide (quotes [] % 2 = 1)) = optScan l 0 none false := rfl
        rw [e0] at hscan
        -- the right-hand side without the first attempt
        have hrhs : (∃ key comment, pk = { pk := key, comment := comment, hash := (P.sha256 key).take 16 } ∧ ∃ w r, l.head? ≠ some 35 ∧ l = w ++ r ∧
            NoBlank w ∧ StartsBlank r ∧ (KeyThenComment r key comment ∨
            (¬ ∃ k c, KeyThenComment r k c) ∧ ¬ ForeignThenComment r ∧
              ∃ o blanks word r', l = o ++ blanks ++ word ++ r' ∧ OptionsField o ∧
                blanks ≠ [] ∧ (∀ c ∈ blanks, c = 32 ∨ c = 9) ∧ word ≠ [] ∧ NoBlank word ∧ StartsBlank r' ∧ KeyThenComment r' key comment)) ↔
            ∃ key comment, pk = { pk := key, comment := comment, hash := (P.sha256 key).take 16 } ∧
              ∃ o blanks word r', l = o ++ blanks ++ word ++ r' ∧ OptionsField o ∧
                blanks ≠ [] ∧ (∀ c ∈ blanks, c = 32 ∨ c = 9) ∧ word ≠ [] ∧ NoBlank word ∧ StartsBlank r' ∧ KeyThenComment r' key comment := by
          constructor
          · rintro ⟨key, comment, hpk, w', r', _, g2, g3, g4, g5⟩
            have := huniq w' r' g2 g3 g4
            subst this
            rcases g5 with g5 | ⟨_, _, g5⟩
            · exact absurd ⟨_, _, g5⟩ hnk
            · exact ⟨key, comment, hpk, g5⟩
          · rintro ⟨key, comment, hpk, g5⟩
            exact ⟨key, comment, hpk, w, r, h35, h1, h2, h3, .inr ⟨hnk, hnf, g5⟩⟩
        rw [hrhs]
        rcases hscan with ⟨o, ro, g1, g2, g3, g4⟩ | ⟨g1, g2⟩
        · rw [g4]
          have hdo : l.drop o.length = ro := by rw [g1, List.drop_left]
          rw [hdo]
          obtain ⟨bl, k1, k2, k3⟩ := blanks_cut ro g3
          -- any other options field is this one
          have hou : ∀ o' bl' wd' r', l = o' ++ bl' ++ wd' ++ r' → OptionsField o' → bl' ≠ [] → (∀ c ∈ bl', c = 32 ∨ c = 9) → wd' ≠ [] →
              NoBlank wd' → ro.dropWhile isBlank = wd' ++ r' := by
            intro o' bl' wd' r' e q1 q2 q3 q4 q5
            obtain ⟨c, m, hbl⟩ := List.exists_cons_of_ne_nil q2
            have hs : StartsBlank (bl' ++ wd' ++ r') := ⟨c, m ++ wd' ++ r', by rw [hbl]; rfl, q3 c (by rw [hbl]; simp)⟩
            have := (options_unique o o' ro (bl' ++ wd' ++ r') g2 q1 g3 hs (by rw [← g1, e]; simp)).2
            rw [this, List.append_assoc, dropWhile_blanks bl' _ q3, dropWhile_word wd' _ q5 q4]
          by_cases ht : ro.dropWhile isBlank = []
          · rw [if_pos ht]
            constructor
            · intro h; cases h
            · rintro ⟨key, comment, rfl, o', bl', wd', r', q1, q2, q3, q4, q5, q6, q7, _⟩
              have := hou o' bl' wd' r' q1 q2 q3 q4 q5 q6
              rw [ht] at this
              obtain ⟨c, t, rfl, _⟩ := q7
              simp at this
          · rw [if_neg ht]
            rcases blank_cut (ro.dropWhile isBlank) with ⟨j1, j2⟩ | ⟨wd, r2, j1, j2, j3, j4⟩
            · rw [j2]
              dsimp only
              constructor
              · intro h; cases h
              · rintro ⟨key, comment, rfl, o', bl', wd', r', q1, q2, q3, q4, q5, q6, q7, _⟩
                have := hou o' bl' wd' r' q1 q2 q3 q4 q5 q6
                rw [this] at j1
                obtain ⟨c, t, rfl, hc⟩ := q7
                have := j1 c (by simp)
                rcases hc with hc | hc
                · exact absurd hc this.1
                · exact absurd hc this.2
            · rw [j4]
              dsimp only
              have hd2 : (ro.dropWhile isBlank).drop wd.length = r2 := by rw [j1, List.drop_left]
              rw [hd2]
              have hwd : wd ≠ [] := by
                rintro rfl
                obtain ⟨c, t, rfl, hc⟩ := (startsBlank_iff _).mp j3
                have := List.head?_dropWhile_not isBlank ro
                rw [j1] at this
                simp [hc] at this
              have hkey : keyOf (parseAuthorizedKey P r2) = some pk ↔ parseAuthorizedKey P r2 = .ok (some pk) := by
                cases parseAuthorizedKey P r2 <;> simp [keyOf]
              rw [hkey, parseAuthorizedKey_iff]
              constructor
              · rintro ⟨key, comment, hk, rfl⟩
                refine ⟨key, comment, rfl, o, bl, wd, r2, ?_, g2, k2, k3, hwd, j2, j3, hk⟩
                rw [g1, List.append_assoc, List.append_assoc, ← j1, ← k1]
              · rintro ⟨key, comment, rfl, o', bl', wd', r', q1, q2, q3, q4, q5, q6, q7, q8⟩
                have := hou o' bl' wd' r' q1 q2 q3 q4 q5 q6
                have := (cut_unique wd wd' r2 r' j2 q6 (.inr j3) (.inr q7) (j1.symm.trans this)).2
                subst this
                exact ⟨key, comment, q8, rfl⟩
        · rw [g2]
          refine ⟨fun h => ?_, ?_⟩
          · exfalso
            have hlen : (l.drop (l.length - 1)).length = 1 := by
              have : 0 < l.length := List.length_pos_iff.mpr (fun h => h0 (.inl h))
              rw [List.length_drop]; omega
            obtain ⟨x, hx⟩ := List.length_eq_one_iff.mp hlen
            rw [hx] at h
            by_cases hxb : isBlank x = true
            · rw [List.dropWhile_cons_of_pos hxb] at h; cases h
            · rw [List.dropWhile_cons_of_neg hxb, if_neg (by simp), findIdx_none [x] (by simpa using hxb)] at h
              cases h
          · rintro ⟨key, comment, rfl, o', bl', wd', r', q1, q2, q3, q4, q5, q6, q7, q8⟩
            obtain ⟨c, m, hbl⟩ := List.exists_cons_of_ne_nil q3
            have := g1 o' c (m ++ wd' ++ r') (by rw [q1, hbl]; simp) (q4 c (by rw [hbl]; simp))
            have := q2.1
            omega

theorem parse_line (P : Prims) (line : Bytes) (h : 10 ∉ line) :
    parseAuthorizedKeys P line = (authLine P (trimSpace (line.takeWhile (· ≠ 13)))).toList := by
  by_cases h0 : line = []
  · subst h0
    have : trimSpace [] = [] := by decide
    simp [parseAuthorizedKeys_nil, this, authLine_nil]
  · rw [parseAuthorizedKeys_step P line h0, takeWhile_all line 10 (fun c hc hn => h (hn ▸ hc)),
      List.drop_of_length_le (by omega), parseAuthorizedKeys_nil, List.append_nil]

theorem lineKey_iff (P : Prims) (line : Bytes) (pk : PublicKey) :
    authLine P (trimSpace (line.takeWhile (· ≠ 13))) = some pk ↔
      ∃ key comment, LineKey line key comment ∧ pk = { pk := key, comment := comment, hash := (P.sha256 key).take 16 } := by
  rw [authLine_iff]
  constructor
  · rintro ⟨key, comment, rfl, w, r, h1, h2, h3, h4, h5⟩
    exact ⟨key, comment, ⟨_, w, r, trimSpace_trims _, h1, h2, h3, h4, h5⟩, rfl⟩
  · rintro ⟨key, comment, ⟨l, w, r, h0, h1, h2, h3, h4, h5⟩, rfl⟩
    rw [trimSpace_eq _ _ h0]
    exact ⟨key, comment, rfl, w, r, h1, h2, h3, h4, h5⟩

theorem isLines_exists (b : Bytes) : ∃ lines, Spec.IsLines b lines := by
  generalize hn : b.length = n
  induction n using Nat.strongRecOn generalizing b with
  | _ n ih =>
    by_cases h : ∀ c ∈ b, c ≠ 10
    · exact ⟨[b], by intro l hl; simp only [List.mem_singleton] at hl; subst hl; exact fun hm => h 10 hm rfl, by simp⟩
    · obtain ⟨x, y, rfl, hx⟩ := cut_first b h
      obtain ⟨ls, h1, h2⟩ := ih y.length (by rw [← hn]; simp only [List.length_append, List.length_cons]; omega) y rfl
      have hls : ls ≠ [] ∨ ls = [] := by by_cases h : ls = [] <;> simp [h]
      rcases hls with hne | rfl
      · refine ⟨x :: ls, ?_, ?_⟩
        · intro l hl
          rcases List.mem_cons.mp hl with rfl | hl
          · exact fun hm => hx 10 hm rfl
          · exact h1 l hl
        · obtain ⟨m, ms, rfl⟩ := List.exists_cons_of_ne_nil hne
          rw [h2]
          simp [List.intercalate]
      · refine ⟨[x, []], ?_, ?_⟩
        · intro l hl
          simp only [List.mem_cons, List.not_mem_nil, or_false] at hl
          rcases hl with rfl | rfl
          · exact fun hm => hx 10 hm rfl
          · simp
        · simp only [List.intercalate, List.intersperse_nil, List.flatten_nil] at h2
          subst h2
          simp [List.intercalate]

/-- **C90** (authorized_keys).  Every file is a sequence of lines, and however it is cut into lines (without line feeds),
`ParseAuthorizedKeys` returns, in order, the keys that these lines stand for. -/
theorem C90_authorized_keys (P : Prims) (b : Bytes) : (∃ lines, Spec.IsLines b lines) ∧
    ∀ lines, Spec.IsLines b lines → ∃ os, List.Forall₂ LineYields lines os ∧
      parseAuthorizedKeys P b = (os.filterMap id).map fun kc => { pk := kc.1, comment := kc.2, hash := (P.sha256 kc.1).take 16 } := by
  refine ⟨isLines_exists b, ?_⟩
  rintro lines ⟨h, rfl⟩
  have one : ∀ line : Bytes, 10 ∉ line → ∃ o, LineYields line o ∧ parseAuthorizedKeys P line = o.toList.map fun kc => { pk := kc.1, comment := kc.2, hash := (P.sha256 kc.1).take 16 } := by
    intro line hl
    rw [parse_line P line hl]
    match ha : authLine P (trimSpace (line.takeWhile (· ≠ 13))) with
    | none =>
      refine ⟨none, ?_, rfl⟩
      intro key comment
      constructor
      · intro hk
        have := (lineKey_iff P line _).mpr ⟨key, comment, hk, rfl⟩
        rw [ha] at this
        cases this
      · intro hk; cases hk
    | some pk =>
      obtain ⟨key, comment, hk, rfl⟩ := (lineKey_iff P line pk).mp ha
      refine ⟨some (key, comment), ?_, rfl⟩
      intro key' comment'
      constructor
      · intro hk'
        have := (lineKey_iff P line _).mpr ⟨key', comment', hk', rfl⟩
        rw [ha] at this
        simp only [Option.some.injEq, PublicKey.mk.injEq] at this
        simp [this.1, this.2.1]
      · intro he
        simp only [Option.some.injEq, Prod.mk.injEq] at he
        rw [← he.1, ← he.2]
        exact hk
  induction lines with
  | nil => exact ⟨[], .nil, rfl⟩
  | cons l ls ih =>
    obtain ⟨o, ho1, ho2⟩ := one l (h l (by simp))
    obtain ⟨os, h1, h2⟩ := ih (fun m hm => h m (by simp [hm]))
    refine ⟨o :: os, .cons ho1 h1, ?_⟩
    cases ls with
    | nil =>
      cases h1
      have : [10].intercalate [l] = l := by simp
      rw [this, ho2]
      cases o <;> rfl
    | cons m ms =>
      have : [10].intercalate (l :: m :: ms) = l ++ [10] ++ [10].intercalate (m :: ms) := by simp [List.intercalate]
      rw [this, C42_concat, ho2, h2]
      cases o <;> rfl

/-! ### Public key files -/

theorem splitBlanks_step (w bl t : Bytes) (hw : NoBlank w) (hbl : bl ≠ []) (hb : ∀ c ∈ bl, c = 32 ∨ c = 9) (ht : ¬ StartsBlank t) :
    splitBlanks (w ++ bl ++ t) = w :: splitBlanks t := by
  induction w with
  | nil =>
    induction bl with
    | nil => exact absurd rfl hbl
    | cons c bl ih =>
      have hc := (isBlank_iff c).mpr (hb c (by simp))
      cases bl with
      | nil =>
        cases t with
        | nil => simp [splitBlanks, hc]
        | cons d t =>
          have hd : ¬ isBlank d = true := fun hd => ht ((startsBlank_iff _).mpr ⟨d, t, rfl, hd⟩)
          show splitBlanks (c :: d :: t) = _
          rw [splitBlanks.eq_def (c :: d :: t)]
          dsimp only
          rw [if_pos hc, if_neg hd]
      | cons d bl =>
        have hd := (isBlank_iff d).mpr (hb d (by simp))
        have := ih (by simp) (fun c hc => hb c (by simp [hc]))
        show splitBlanks (c :: d :: (bl ++ t)) = _
        rw [splitBlanks.eq_def (c :: d :: (bl ++ t))]
        dsimp only
        rw [if_pos hc, if_pos hd]
        exact this
  | cons c w ih =>
    have hc := (noBlank_iff _).mp hw c (by simp)
    have := ih (fun d hd => hw d (by simp [hd]))
    show splitBlanks (c :: (w ++ bl ++ t)) = _
    rw [splitBlanks.eq_def (c :: (w ++ bl ++ t))]
    dsimp only
    rw [if_neg (by simp [hc]), this]

/-- A text is one field, or a field, blanks and a rest that does not begin with a blank. -/
theorem fields_cut (b : Bytes) : NoBlank b ∨ ∃ w bl t, b = w ++ bl ++ t ∧ NoBlank w ∧ bl ≠ [] ∧ (∀ c ∈ bl, c = 32 ∨ c = 9) ∧ ¬ StartsBlank t := by
  rcases blank_cut b with ⟨h, _⟩ | ⟨w, r, h1, h2, h3, _⟩
  · exact .inl h
  · obtain ⟨bl, k1, k2, k3⟩ := blanks_cut r h3
    refine .inr ⟨w, bl, r.dropWhile isBlank, by rw [List.append_assoc, ← k1, h1], h2, k2, k3, ?_⟩
    intro hs
    obtain ⟨c, t, e, hc⟩ := (startsBlank_iff _).mp hs
    have := List.head?_dropWhile_not isBlank r
    rw [e] at this
    simp [hc] at this

theorem splitBlanks_three (b field comment : Bytes) : (∃ f, splitBlanks b = [f, field, comment]) ↔ ThreeFields b field comment := by
  constructor
  · rintro ⟨f, h⟩
    rcases fields_cut b with h1 | ⟨w, bl, t, rfl, h1, h2, h3, h4⟩
    · rw [splitBlanks_solid b ((noBlank_iff b).mp h1)] at h; simp at h
    · rw [splitBlanks_step w bl t h1 h2 h3 h4] at h
      simp only [List.cons.injEq] at h
      obtain ⟨rfl, h⟩ := h
      rcases fields_cut t with g1 | ⟨w2, bl2, t2, rfl, g1, g2, g3, g4⟩
      · rw [splitBlanks_solid t ((noBlank_iff t).mp g1)] at h; simp at h
      · rw [splitBlanks_step w2 bl2 t2 g1 g2 g3 g4] at h
        simp only [List.cons.injEq] at h
        obtain ⟨rfl, h⟩ := h
        rcases fields_cut t2 with k1 | ⟨w3, bl3, t3, rfl, k1, k2, k3, k4⟩
        · rw [splitBlanks_solid t2 ((noBlank_iff t2).mp k1)] at h
          simp only [List.cons.injEq, and_true] at h
          subst h
          refine ⟨w, bl, bl2, by simp, h1, g1, k1, ?_, h2, g2, h3, g3⟩
          rintro rfl
          obtain ⟨c, m, rfl⟩ := List.exists_cons_of_ne_nil g2
          exact h4 ⟨c, m ++ t2, rfl, g3 c (by simp)⟩
        · rw [splitBlanks_step w3 bl3 t3 k1 k2 k3 k4] at h
          simp only [List.cons.injEq] at h
          exact absurd h.2 (splitBlanks_ne t3)
  · rintro ⟨f, b1, b2, rfl, h1, h2, h3, h4, h5, h6, h7, h8⟩
    refine ⟨f, ?_⟩
    have e : f ++ b1 ++ field ++ b2 ++ comment = f ++ b1 ++ (field ++ b2 ++ comment) := by simp
    have n1 : ¬ StartsBlank (field ++ b2 ++ comment) := by
      rintro ⟨c, t, e, hc⟩
      obtain ⟨d, m, rfl⟩ := List.exists_cons_of_ne_nil h4
      simp only [List.cons_append, List.cons.injEq] at e
      have := h2 d (by simp)
      rw [e.1] at this
      rcases hc with hc | hc
      · exact this.1 hc
      · exact this.2 hc
    have n2 : ¬ StartsBlank comment := by
      rintro ⟨c, t, rfl, hc⟩
      have := h3 c (by simp)
      rcases hc with hc | hc
      · exact this.1 hc
      · exact this.2 hc
    rw [e, splitBlanks_step f b1 _ h1 h5 h7 n1, splitBlanks_step field b2 _ h2 h6 h8 n2, splitBlanks_solid comment ((noBlank_iff _).mp h3)]

/-- What the SSH attempt of `MakePublicKey` makes of a text. -/
theorem parseSSHPublicKey_three (P : Prims) (b field comment : Bytes) (h : ThreeFields b field comment) :
    parseSSHPublicKey P b = parseEncPubKey P field comment := by
  obtain ⟨f, hf⟩ := (splitBlanks_three b field comment).mpr h
  unfold parseSSHPublicKey
  rw [hf]

theorem parseSSHPublicKey_other (P : Prims) (b : Bytes) (h : ¬ ∃ field comment, ThreeFields b field comment) :
    parseSSHPublicKey P b = .err .badPublicKey := by
  unfold parseSSHPublicKey
  split
  · rename_i f k c hs
    exact absurd ⟨k, c, (splitBlanks_three b k c).mp ⟨f, hs⟩⟩ h
  · rfl

theorem parseSSHPublicKey_iff (P : Prims) (b : Bytes) (pk : PublicKey) : parseSSHPublicKey P b = .ok (some pk) ↔
    ∃ field comment key c, ThreeFields b field comment ∧ KeyField field key ∧ Spec.Trims comment c ∧
        pk = { pk := key, comment := c, hash := (P.sha256 key).take 16 } := by
  by_cases h : ∃ field comment, ThreeFields b field comment
  · obtain ⟨field, comment, h⟩ := h
    rw [parseSSHPublicKey_three P b _ _ h, parseEncPubKey_iff]
    constructor
    · rintro ⟨key, hk, rfl⟩
      exact ⟨field, comment, key, _, h, hk, trimSpace_trims _, rfl⟩
    · rintro ⟨field', comment', key, c, h', hk, ht, rfl⟩
      obtain ⟨f, e1⟩ := (splitBlanks_three b field comment).mpr h
      obtain ⟨f', e2⟩ := (splitBlanks_three b field' comment').mpr h'
      rw [e1] at e2
      simp only [List.cons.injEq, and_true] at e2
      obtain ⟨_, rfl, rfl⟩ := e2
      exact ⟨key, hk, by rw [trimSpace_eq _ _ ht]⟩
  · rw [parseSSHPublicKey_other P b h]
    constructor
    · intro hh; cases hh
    · rintro ⟨field, comment, _, _, h', _⟩
      exact absurd ⟨field, comment, h'⟩ h

theorem parseSSHPublicKey_nil (P : Prims) (b : Bytes) : parseSSHPublicKey P b = .ok none ↔
    ∃ field comment, ThreeFields b field comment ∧ ForeignField field := by
  by_cases h : ∃ field comment, ThreeFields b field comment
  · obtain ⟨field, comment, h⟩ := h
    rw [parseSSHPublicKey_three P b _ _ h, parseEncPubKey_foreign]
    constructor
    · intro hf
      exact ⟨field, comment, h, hf⟩
    · rintro ⟨field', comment', h', hf⟩
      obtain ⟨f, e1⟩ := (splitBlanks_three b field comment).mpr h
      obtain ⟨f', e2⟩ := (splitBlanks_three b field' comment').mpr h'
      rw [e1] at e2
      simp only [List.cons.injEq, and_true] at e2
      obtain ⟨_, rfl, rfl⟩ := e2
      exact hf
  · rw [parseSSHPublicKey_other P b h]
    constructor
    · intro hh; cases hh
    · rintro ⟨field, comment, h', _⟩
      exact absurd ⟨field, comment, h'⟩ h

theorem parseSSHPublicKey_no_panic (P : Prims) (b : Bytes) (w : String) : parseSSHPublicKey P b ≠ .panic w := by
  unfold parseSSHPublicKey
  split
  · exact parseEncPubKey_no_panic P _ _ _
  · intro h; cases h

theorem makePublicKeyFromBytes_iff (P : Prims) (c b : Bytes) (pk : PublicKey) : makePublicKeyFromBytes P c b = .ok pk ↔
    b.length = 32 ∧ pk = { pk := b, comment := c, hash := (P.sha256 b).take 16 } := by
  unfold makePublicKeyFromBytes
  split
  · rename_i h
    constructor
    · intro hh; cases hh
    · rintro ⟨hh, _⟩; exact absurd hh h
  · rename_i h
    constructor
    · intro hh; cases hh; exact ⟨not_not.mp h, rfl⟩
    · rintro ⟨_, rfl⟩; rfl

theorem unmarshalPubYaml_iff (P : Prims) (Y : Yaml) (b : Bytes) (pk : PublicKey) : unmarshalPubYaml P Y b = .ok pk ↔
    ∃ d key, Y.readPub b = some d ∧ Base64Text d.pk key ∧ key.length = 32 ∧ pk = { pk := key, comment := [], hash := (P.sha256 key).take 16 } := by
  unfold unmarshalPubYaml
  match hr : Y.readPub b with
  | none =>
    simp only [orErr, Res.bind]
    constructor
    · intro h; cases h
    · rintro ⟨d, _, h, _⟩; cases h
  | some d =>
    simp only [orErr, Res.bind, Option.some.injEq, exists_and_left, exists_eq_left']
    by_cases h0 : d.pk = []
    · rw [if_pos h0]
      constructor
      · intro h; cases h
      · rintro ⟨key, h1, h2, _⟩
        rw [h0, ← C34_exact] at h1
        have : Base64.decode [] = some [] := rfl
        rw [this] at h1
        cases h1
        simp at h2
    · rw [if_neg h0]
      match hd : Base64.decode d.pk with
      | none =>
        dsimp only
        constructor
        · intro h; cases h
        · rintro ⟨key, h1, _⟩
          rw [← C34_exact, hd] at h1
          cases h1
      | some raw =>
        dsimp only
        rw [makePublicKeyFromBytes_iff]
        constructor
        · rintro ⟨h1, rfl⟩
          exact ⟨raw, (C34_exact _ _).mp hd, h1, rfl⟩
        · rintro ⟨key, h1, h2, rfl⟩
          rw [← C34_exact, hd] at h1
          cases h1
          exact ⟨h2, rfl⟩

/-- **C90** (public key files).  `MakePublicKey` returns a key exactly for: a text of three fields, the second of which is the
base64 text of an Ed25519 key in OpenSSH's form (the third, trimmed, is the comment); any text without three such fields (whose
second field is not a key of another type either), if the YAML library finds a `pk` entry in it that is base64 text of 32
bytes. -/
theorem C90_public_file (P : Prims) (Y : Yaml) (b : Bytes) (pk : PublicKey) : makePublicKey P Y b = .ok pk ↔
    (∃ field comment key c, ThreeFields b field comment ∧ KeyField field key ∧ Spec.Trims comment c ∧
        pk = { pk := key, comment := c, hash := (P.sha256 key).take 16 }) ∨
    (¬ ∃ field comment, ThreeFields b field comment ∧ (ForeignField field ∨ ∃ key, KeyField field key)) ∧
      ∃ d key, Y.readPub b = some d ∧ Base64Text d.pk key ∧ key.length = 32 ∧
        pk = { pk := key, comment := [], hash := (P.sha256 key).take 16 } := by
  unfold makePublicKey
  match hp : parseSSHPublicKey P b with
  | .ok (some pk') =>
    dsimp only
    constructor
    · intro h
      cases h
      exact .inl ((parseSSHPublicKey_iff P b pk).mp hp)
    · rintro (h | ⟨h, _⟩)
      · have := (parseSSHPublicKey_iff P b pk).mpr h
        rw [hp] at this
        simpa using this
      · obtain ⟨f, c, k, _, h1, h2, _⟩ := (parseSSHPublicKey_iff P b pk').mp hp
        exact absurd ⟨f, c, h1, .inr ⟨k, h2⟩⟩ h
  | .ok none =>
    dsimp only
    constructor
    · intro h; cases h
    · rintro (h | ⟨h, _⟩)
      · have := (parseSSHPublicKey_iff P b pk).mpr h
        rw [hp] at this
        cases this
      · obtain ⟨f, c, h1, h2⟩ := (parseSSHPublicKey_nil P b).mp hp
        exact absurd ⟨f, c, h1, .inl h2⟩ h
  | .panic w => exact absurd hp (parseSSHPublicKey_no_panic P b w)
  | .err e =>
    dsimp only
    rw [unmarshalPubYaml_iff]
    constructor
    · intro h
      refine .inr ⟨?_, h⟩
      rintro ⟨f, c, h1, h2 | ⟨k, h2⟩⟩
      · have := (parseSSHPublicKey_nil P b).mpr ⟨f, c, h1, h2⟩
        rw [hp] at this
        cases this
      · have := (parseSSHPublicKey_iff P b _).mpr ⟨f, c, k, _, h1, h2, trimSpace_trims c, rfl⟩
        rw [hp] at this
        cases this
    · rintro (h | ⟨_, h⟩)
      · have := (parseSSHPublicKey_iff P b pk).mpr h
        rw [hp] at this
        cases this
      · exact h

/-- **C90** (public key files, crashes).  `MakePublicKey` crashes exactly on three fields with a key of another type in the second. -/
theorem C90_public_crash (P : Prims) (Y : Yaml) (b : Bytes) : (∃ w, makePublicKey P Y b = .panic w) ↔
    ∃ field comment, ThreeFields b field comment ∧ ForeignField field := by
  rw [C40_crash_iff, ← parseSSHPublicKey_nil P b]
  constructor
  · rintro ⟨f, k, c, raw, algo, rest, h1, h2, h3, h4⟩
    unfold parseSSHPublicKey
    rw [h1]
    dsimp only
    rw [parseEncPubKey_nil]
    exact ⟨raw, algo, rest, h2, h3, by rwa [algo_spec]⟩
  · intro h
    unfold parseSSHPublicKey at h
    split at h
    · rename_i f k c hs
      obtain ⟨raw, algo, rest, e1, e2, e3⟩ := (parseEncPubKey_nil P _ _).mp h
      exact ⟨f, k, c, raw, algo, rest, hs, e1, e2, by rwa [← algo_spec]⟩
    · cases h

/-- **C90** (public keys on the command line).  `MakePublicKeyFromString` returns a key exactly for base64 text of an Ed25519 key in
OpenSSH's form (with a fixed comment), and for base64 text of 32 bytes that do not happen to look like a key of another type; for
these it returns nil without an error; everything else is an error. -/
theorem C90_public_string (P : Prims) (s : Bytes) :
    (∀ pk, makePublicKeyFromString P s = .ok (some pk) ↔
      (∃ key, KeyField s key ∧ pk = { pk := key, comment := ascii "command-line-pk", hash := (P.sha256 key).take 16 }) ∨
      ¬ ForeignField s ∧ ∃ key, key.length = 32 ∧ Base64Text s key ∧ pk = { pk := key, comment := [], hash := (P.sha256 key).take 16 }) ∧
    (makePublicKeyFromString P s = .ok none ↔ ForeignField s) ∧ ∀ w, makePublicKeyFromString P s ≠ .panic w := by
  have htrim : trimSpace (ascii "command-line-pk") = ascii "command-line-pk" := by decide +kernel
  unfold makePublicKeyFromString
  match hp : parseEncPubKey P s (ascii "command-line-pk") with
  | .ok (some pk') =>
    dsimp only
    obtain ⟨key', hk', rfl⟩ := (parseEncPubKey_iff P _ _ _).mp hp
    rw [htrim] at hp ⊢
    have nf : ¬ ForeignField s := by
      intro hf
      rw [(parseEncPubKey_foreign P s _).mpr hf] at hp
      cases hp
    refine ⟨?_, ?_, by intro w h; cases h⟩
    · intro pk
      constructor
      · intro h; cases h; exact .inl ⟨key', hk', rfl⟩
      · rintro (⟨key, h1, rfl⟩ | ⟨_, key, h1, h2, rfl⟩)
        · have := (parseEncPubKey_iff P s (ascii "command-line-pk") _).mpr ⟨key, h1, rfl⟩
          rw [hp, htrim] at this
          exact this
        · have e1 := (C34_exact _ _).mpr h2
          have e2 := (C34_exact _ _).mpr hk'.2
          rw [e1] at e2
          cases e2
          have := hk'.1
          simp only [Spec.sshPublicBlob, List.length_append, sshString_length, this] at h1
          omega
    · constructor
      · intro h; cases h
      · intro h; exact absurd h nf
  | .ok none =>
    dsimp only
    have hf := (parseEncPubKey_foreign P s _).mp hp
    refine ⟨?_, ⟨fun _ => hf, fun _ => rfl⟩, by intro w h; cases h⟩
    intro pk
    constructor
    · intro h; cases h
    · rintro (⟨key, h1, rfl⟩ | ⟨h, _⟩)
      · have := (parseEncPubKey_iff P s (ascii "command-line-pk") _).mpr ⟨key, h1, rfl⟩
        rw [hp] at this
        cases this
      · exact absurd hf h
  | .panic w => exact absurd hp (parseEncPubKey_no_panic P _ _ _)
  | .err e =>
    dsimp only
    have nf : ¬ ForeignField s := by
      intro hf
      rw [(parseEncPubKey_foreign P s _).mpr hf] at hp
      cases hp
    have nk : ¬ ∃ key, KeyField s key := by
      rintro ⟨key, hk⟩
      rw [(parseEncPubKey_iff P s _ _).mpr ⟨key, hk, rfl⟩] at hp
      cases hp
    match hd : Base64.decode s with
    | none =>
      simp only [orErr, Res.bind]
      refine ⟨?_, ⟨fun h => (by cases h), fun h => absurd h nf⟩, by intro w h; cases h⟩
      intro pk
      constructor
      · intro h; cases h
      · rintro (⟨key, h, _⟩ | ⟨_, key, _, h, _⟩)
        · exact absurd ⟨key, h⟩ nk
        · rw [← C34_exact, hd] at h; cases h
    | some raw =>
      simp only [orErr, Res.bind]
      unfold makePublicKeyFromBytes
      by_cases hl : raw.length = 32
      · rw [if_neg (not_not.mpr hl)]
        dsimp only
        refine ⟨?_, ⟨fun h => (by cases h), fun h => absurd h nf⟩, by intro w h; cases h⟩
        intro pk
        constructor
        · intro h; cases h; exact .inr ⟨nf, raw, hl, (C34_exact _ _).mp hd, rfl⟩
        · rintro (⟨key, h, _⟩ | ⟨_, key, h1, h, rfl⟩)
          · exact absurd ⟨key, h⟩ nk
          · rw [← C34_exact, hd] at h; cases h; rfl
      · rw [if_pos hl]
        dsimp only
        refine ⟨?_, ⟨fun h => (by cases h), fun h => absurd h nf⟩, by intro w h; cases h⟩
        intro pk
        constructor
        · intro h; cases h
        · rintro (⟨key, h, _⟩ | ⟨_, key, h1, h, _⟩)
          · exact absurd ⟨key, h⟩ nk
          · rw [← C34_exact, hd] at h; cases h; exact absurd h1 hl

/-- **C90** (signature files).  A text is read as a signature exactly if the YAML library finds in it entries `signature` and `pkhash`
that are base64 text of its two parts. -/
theorem C90_signature (Y : Yaml) (b : Bytes) (s : Signature) : unmarshalSig Y b = .ok s ↔
    ∃ d, Y.readSig b = some d ∧ Base64Text d.signature s.sig ∧ Base64Text d.pkhash s.pkhash := by
  rw [C33_reads_only_fields]
  simp only [C34_exact]

/-! ### Concrete cases -/

/-- A line with a quoted option that contains blanks, and a comment of two words. -/
example : LineKey (ascii "command=\"echo hi there\",no-pty " ++ Spec.keyLine (Base64.encode (Spec.sshPublicBlob (List.replicate 32 6))) (ascii "you and me \r"))
    (List.replicate 32 6) (ascii "you and me") := by
  have h : authLine toyPrims (trimSpace ((ascii "command=\"echo hi there\",no-pty " ++ Spec.keyLine (Base64.encode (Spec.sshPublicBlob (List.replicate 32 6))) (ascii "you and me \r")).takeWhile (· ≠ 13))) =
      some { pk := List.replicate 32 6, comment := ascii "you and me", hash := (toyPrims.sha256 (List.replicate 32 6)).take 16 } := by
    decide +kernel
  obtain ⟨k, c, h1, h2⟩ := (lineKey_iff toyPrims _ _).mp h
  simp only [PublicKey.mk.injEq] at h2
  obtain ⟨e1, e2, _⟩ := h2
  rw [← e1, ← e2] at h1
  exact h1

/-- A file of two lines. -/
example : Spec.IsLines (ascii "# a\n# b") [ascii "# a", ascii "# b"] := ⟨by decide +kernel, by decide +kernel⟩

/-- A public key file with a tab, and one for a key of another type. -/
example : ThreeFields (ascii "x\t Zg== me\n") (ascii "Zg==") (ascii "me\n") :=
  ⟨ascii "x", ascii "\t ", ascii " ", by decide +kernel, by unfold NoBlank; decide +kernel, by unfold NoBlank; decide +kernel,
    by unfold NoBlank; decide +kernel, by decide +kernel, by decide +kernel, by decide +kernel, by decide +kernel, by decide +kernel⟩

example : ForeignField (ascii "AAAAB3NzaC1yc2EAAAAA") := by
  rw [← parseEncPubKey_foreign toyPrims _ []]
  decide +kernel

end Sigtool
