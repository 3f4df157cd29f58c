import Verif.GrammarLemmas
import Verif.Spec.Wire
/-!
# C86: which byte strings are read as a header, and as which

`Spec.Decodes` is the protobuf wire format as a grammar. The decoder of the code accepts exactly the strings of this grammar,
and reads each of them as the grammar says.
-/

namespace Sigtool
open Spec

/-- Cutting one field off. -/
theorem take_snoc {d e : Bytes} {i k : Nat} (hi : i ≤ d.length) (h : d.drop i = e ++ d.drop k) (hk : k = i + e.length) :
    d.take k = d.take i ++ e := by
  subst hk
  rw [List.take_add]
  congr 1
  rw [h]; simp

/-! ## wrapped_key -/

theorem wstep_sound {d : Bytes} {m m' : WrappedKey} {i k : Nat} (h : Proto.WrappedKey.step d m i = .ok (m', k)) :
    ∃ e, d.drop i = e ++ d.drop k ∧ k = i + e.length ∧ ∀ p, DecodesKey p m → DecodesKey (p ++ e) m' := by
  unfold Proto.WrappedKey.step at h
  obtain ⟨⟨num, typ, j⟩, h1, h2⟩ := Proto.bind_eq_ok h
  obtain ⟨t, t1, t2, t3, t4, t5, t6⟩ := fieldTag_sound h1
  dsimp only at h2
  split at h2
  · split at h2
    · cases h2
    · rename_i hty
      obtain ⟨⟨x, k'⟩, h3, h4⟩ := Proto.bind_eq_ok h2
      cases h4
      obtain ⟨l, l1, l2, l3⟩ := lenDelim_sound h3
      have hty : typ = 2 := by omega
      subst hty
      refine ⟨t ++ l ++ x, by rw [t2, l2]; simp, by simp at l3 ⊢; omega, fun p hp => .dkey hp t1 l1⟩
  · split at h2
    · cases h2
    · rename_i hty
      obtain ⟨⟨x, k'⟩, h3, h4⟩ := Proto.bind_eq_ok h2
      cases h4
      obtain ⟨l, l1, l2, l3⟩ := lenDelim_sound h3
      have hty : typ = 2 := by omega
      subst hty
      refine ⟨t ++ l ++ x, by rw [t2, l2]; simp, by simp at l3 ⊢; omega, fun p hp => .nonce hp t1 l1⟩
  · rename_i n1 n2
    obtain ⟨⟨e, k'⟩, h3, h4⟩ := Proto.bind_eq_ok h2
    cases h4
    obtain ⟨num', u1, u2, u3⟩ := unknown_sound h3
    have := element_num u1 u2 h1
    subst this
    refine ⟨e, u2, u3, fun p hp => .other hp ⟨_, u1, t4, t5, ?_⟩⟩
    simp only [List.mem_cons, List.not_mem_nil, or_false, not_or]
    exact ⟨n1, n2⟩

theorem wrun_sound (d : Bytes) : ∀ (n i : Nat) (m m' : WrappedKey), d.length - i ≤ n → i ≤ d.length →
    DecodesKey (d.take i) m → Proto.wrun d m i = .ok m' → DecodesKey d m' := by
  intro n
  induction n with
  | zero =>
    intro i m m' hn hi hm h
    have : i = d.length := by omega
    subst this
    rw [Proto.wrun_end] at h
    cases h
    rw [List.take_length] at hm; exact hm
  | succ n ih =>
    intro i m m' hn hi hm h
    by_cases hlt : i < d.length
    · cases hs : Proto.WrappedKey.step d m i with
      | err e => unfold Proto.wrun Proto.WrappedKey.loop at h; simp only [hlt, if_true, hs] at h; cases h
      | panic e => unfold Proto.wrun Proto.WrappedKey.loop at h; simp only [hlt, if_true, hs] at h; cases h
      | ok a =>
        obtain ⟨m1, k⟩ := a
        have hp := Proto.wstep_progress _ _ _ _ _ hs
        rw [Proto.wrun_step d m m1 i k hs hlt] at h
        obtain ⟨e, e1, e2, e3⟩ := wstep_sound hs
        refine ih k m1 m' (by omega) (by omega) ?_ h
        rw [take_snoc hi e1 e2]
        exact e3 _ hm
    · exact ih i m m' (by omega) hi hm h

theorem wstep_dkey_at {d t l x post : Bytes} {i : Nat} (m : WrappedKey) (hd : d.length < 2^63)
    (h : d.drop i = t ++ l ++ x ++ post) (ht : Tag t 1 2) (hl : Varint l x.length) :
    Proto.WrappedKey.step d m i = .ok ({ m with dkey := x }, i + (t ++ l ++ x).length) := by
  have h' : d.drop i = t ++ (l ++ x ++ post) := by rw [h]; simp
  unfold Proto.WrappedKey.step
  rw [fieldTag_complete h' ht (by decide) (by decide) (by decide)]
  simp only [Res.bind_ok]
  rw [if_neg (by simp), lenDelim_complete hd (drop_add h') hl]
  simp [Nat.add_assoc]

theorem wstep_nonce_at {d t l x post : Bytes} {i : Nat} (m : WrappedKey) (hd : d.length < 2^63)
    (h : d.drop i = t ++ l ++ x ++ post) (ht : Tag t 2 2) (hl : Varint l x.length) :
    Proto.WrappedKey.step d m i = .ok ({ m with nonce := x }, i + (t ++ l ++ x).length) := by
  have h' : d.drop i = t ++ (l ++ x ++ post) := by rw [h]; simp
  unfold Proto.WrappedKey.step
  rw [fieldTag_complete h' ht (by decide) (by decide) (by decide)]
  simp only [Res.bind_ok]
  rw [if_neg (by simp), lenDelim_complete hd (drop_add h') hl]
  simp [Nat.add_assoc]

/-- The tag of an unknown field at position `i`. -/
theorem unknown_tag_at {d e post : Bytes} {i num : Nat} (h : d.drop i = e ++ post) (he : Element num e) (h0 : 0 < num)
    (h1 : num < 2^31) : ∃ typ j, Proto.fieldTag d i = .ok (num, typ, j) := by
  obtain ⟨t, r, typ, rfl, ht, h4⟩ := element_tag he
  rw [List.append_assoc] at h
  exact ⟨typ, _, fieldTag_complete h ht h0 h1 h4⟩

theorem wstep_other_at {d e post : Bytes} {i : Nat} (m : WrappedKey) (hd : d.length < 2^63)
    (h : d.drop i = e ++ post) (he : Unknown [1, 2] e) :
    Proto.WrappedKey.step d m i = .ok ({ m with unknown := m.unknown ++ e }, i + e.length) := by
  obtain ⟨num, he, h0, h1, hn⟩ := he
  obtain ⟨typ, j, ht⟩ := unknown_tag_at h he h0 h1
  unfold Proto.WrappedKey.step
  rw [ht]
  simp only [Res.bind_ok]
  simp only [List.mem_cons, List.not_mem_nil, or_false, not_or] at hn
  split
  · omega
  · omega
  · rw [unknown_complete hd h he]; rfl

theorem wrun_complete {p : Bytes} {w : WrappedKey} (h : DecodesKey p w) : ∀ (d post : Bytes), d = p ++ post → d.length < 2^63 →
    Proto.wrun d {} 0 = Proto.wrun d w p.length := by
  induction h with
  | empty => intro d post _ _; rfl
  | @dkey p t l x w h ht hl ih =>
    intro d post hd hlen
    have hdrop : d.drop p.length = t ++ l ++ x ++ post := by rw [hd]; simp
    have hpos : 0 < t.length := List.length_pos_iff.mpr ht.ne_nil
    rw [ih d _ (by rw [hd, List.append_assoc]) hlen,
      Proto.wrun_step d _ _ _ _ (wstep_dkey_at w hlen hdrop ht hl) (by rw [hd]; simp; omega)]
    simp
  | @nonce p t l x w h ht hl ih =>
    intro d post hd hlen
    have hdrop : d.drop p.length = t ++ l ++ x ++ post := by rw [hd]; simp
    have hpos : 0 < t.length := List.length_pos_iff.mpr ht.ne_nil
    rw [ih d _ (by rw [hd, List.append_assoc]) hlen,
      Proto.wrun_step d _ _ _ _ (wstep_nonce_at w hlen hdrop ht hl) (by rw [hd]; simp; omega)]
    simp
  | @other p e w h he ih =>
    intro d post hd hlen
    have hdrop : d.drop p.length = e ++ post := by rw [hd]; simp
    have hpos : 0 < e.length := by obtain ⟨num, he, _⟩ := he; exact List.length_pos_iff.mpr he.ne_nil
    rw [ih d _ (by rw [hd, List.append_assoc]) hlen,
      Proto.wrun_step d _ _ _ _ (wstep_other_at w hlen hdrop he) (by rw [hd]; simp; omega)]
    simp

theorem wrapped_iff (d : Bytes) (hd : d.length < 2^63) (w : WrappedKey) :
    Proto.WrappedKey.unmarshal d = .ok w ↔ DecodesKey d w := by
  constructor
  · intro h
    exact wrun_sound d _ 0 {} w (Nat.le_refl _) (Nat.zero_le _) (by rw [List.take_zero]; exact .empty) h
  · intro h
    show Proto.wrun d {} 0 = _
    rw [wrun_complete h d [] (by simp) hd, Proto.wrun_end]

/-! ## header -/

theorem varint32 {bs : Bytes} {v : Nat} (h : Varint bs v) : groups bs % 2^32 = v % 2^32 := by
  rw [h.value, Nat.mod_mod_of_dvd _ (by decide)]

theorem hstep_sound {d : Bytes} {m m' : Header} {i k : Nat} (hd : d.length < 2^63)
    (h : Proto.Header.step d m i = .ok (m', k)) :
    ∃ e, d.drop i = e ++ d.drop k ∧ k = i + e.length ∧ ∀ p, Decodes p m → Decodes (p ++ e) m' := by
  unfold Proto.Header.step at h
  obtain ⟨⟨num, typ, j⟩, h1, h2⟩ := Proto.bind_eq_ok h
  obtain ⟨t, t1, t2, t3, t4, t5, t6⟩ := fieldTag_sound h1
  dsimp only at h2
  split at h2
  · split at h2
    · cases h2
    · rename_i hty
      have hty : typ = 0 := by omega
      subst hty
      obtain ⟨⟨v, k'⟩, h3, h4⟩ := Proto.bind_eq_ok h2
      cases h4
      obtain ⟨b, b1, b2, b3, b4⟩ := varint_sound0 h3
      refine ⟨t ++ b, by rw [t2, b1]; simp, by simp; omega, fun p hp => ?_⟩
      have := Decodes.chunkSize hp t1 b3
      rw [← varint32 b3, ← b4] at this
      exact this
  · split at h2
    · cases h2
    · rename_i hty
      obtain ⟨⟨x, k'⟩, h3, h4⟩ := Proto.bind_eq_ok h2
      cases h4
      obtain ⟨l, l1, l2, l3⟩ := lenDelim_sound h3
      have hty : typ = 2 := by omega
      subst hty
      exact ⟨t ++ l ++ x, by rw [t2, l2]; simp, by simp at l3 ⊢; omega, fun p hp => .salt hp t1 l1⟩
  · split at h2
    · cases h2
    · rename_i hty
      obtain ⟨⟨x, k'⟩, h3, h4⟩ := Proto.bind_eq_ok h2
      cases h4
      obtain ⟨l, l1, l2, l3⟩ := lenDelim_sound h3
      have hty : typ = 2 := by omega
      subst hty
      exact ⟨t ++ l ++ x, by rw [t2, l2]; simp, by simp at l3 ⊢; omega, fun p hp => .pk hp t1 l1⟩
  · split at h2
    · cases h2
    · rename_i hty
      obtain ⟨⟨x, k'⟩, h3, h4⟩ := Proto.bind_eq_ok h2
      cases h4
      obtain ⟨l, l1, l2, l3⟩ := lenDelim_sound h3
      have hty : typ = 2 := by omega
      subst hty
      exact ⟨t ++ l ++ x, by rw [t2, l2]; simp, by simp at l3 ⊢; omega, fun p hp => .sender hp t1 l1⟩
  · split at h2
    · cases h2
    · rename_i hty
      obtain ⟨⟨x, k'⟩, h3, h4⟩ := Proto.bind_eq_ok h2
      obtain ⟨w, h5, h6⟩ := Proto.bind_eq_ok h4
      cases h6
      obtain ⟨l, l1, l2, l3⟩ := lenDelim_sound h3
      have hty : typ = 2 := by omega
      subst hty
      have hx : x.length < 2^63 := by
        have := congrArg List.length l2
        simp at this; omega
      exact ⟨t ++ l ++ x, by rw [t2, l2]; simp, by simp at l3 ⊢; omega,
        fun p hp => .key hp t1 l1 ((wrapped_iff x hx w).mp h5)⟩
  · rename_i n1 n2 n3 n4 n5
    obtain ⟨⟨e, k'⟩, h3, h4⟩ := Proto.bind_eq_ok h2
    cases h4
    obtain ⟨num', u1, u2, u3⟩ := unknown_sound h3
    have := element_num u1 u2 h1
    subst this
    refine ⟨e, u2, u3, fun p hp => .other hp ⟨_, u1, t4, t5, ?_⟩⟩
    simp only [List.mem_cons, List.not_mem_nil, or_false, not_or]
    exact ⟨n1, n2, n3, n4, n5⟩

theorem hrun_sound (d : Bytes) (hd : d.length < 2^63) : ∀ (n i : Nat) (m m' : Header), d.length - i ≤ n → i ≤ d.length →
    Decodes (d.take i) m → Proto.hrun d m i = .ok m' → Decodes d m' := by
  intro n
  induction n with
  | zero =>
    intro i m m' hn hi hm h
    have : i = d.length := by omega
    subst this
    rw [Proto.hrun_end] at h
    cases h
    rw [List.take_length] at hm; exact hm
  | succ n ih =>
    intro i m m' hn hi hm h
    by_cases hlt : i < d.length
    · cases hs : Proto.Header.step d m i with
      | err e => unfold Proto.hrun Proto.Header.loop at h; simp only [hlt, if_true, hs] at h; cases h
      | panic e => unfold Proto.hrun Proto.Header.loop at h; simp only [hlt, if_true, hs] at h; cases h
      | ok a =>
        obtain ⟨m1, k⟩ := a
        have hp := Proto.hstep_progress _ _ _ _ _ hs
        rw [Proto.hrun_step d m m1 i k hs hlt] at h
        obtain ⟨e, e1, e2, e3⟩ := hstep_sound hd hs
        refine ih k m1 m' (by omega) (by omega) ?_ h
        rw [take_snoc hi e1 e2]
        exact e3 _ hm
    · exact ih i m m' (by omega) hi hm h

theorem hstep_chunk_at {d t b post : Bytes} {i v : Nat} (m : Header)
    (h : d.drop i = t ++ b ++ post) (ht : Tag t 1 0) (hb : Varint b v) :
    Proto.Header.step d m i = .ok ({ m with chunkSize := v % 2^32 }, i + (t ++ b).length) := by
  have h' : d.drop i = t ++ (b ++ post) := by rw [h]; simp
  unfold Proto.Header.step
  rw [fieldTag_complete h' ht (by decide) (by decide) (by decide)]
  simp only [Res.bind_ok]
  rw [if_neg (by simp), varint_complete0 32 (drop_add h') hb, varint32 hb]
  simp [Nat.add_assoc]

theorem hstep_salt_at {d t l x post : Bytes} {i : Nat} (m : Header) (hd : d.length < 2^63)
    (h : d.drop i = t ++ l ++ x ++ post) (ht : Tag t 2 2) (hl : Varint l x.length) :
    Proto.Header.step d m i = .ok ({ m with salt := x }, i + (t ++ l ++ x).length) := by
  have h' : d.drop i = t ++ (l ++ x ++ post) := by rw [h]; simp
  unfold Proto.Header.step
  rw [fieldTag_complete h' ht (by decide) (by decide) (by decide)]
  simp only [Res.bind_ok]
  rw [if_neg (by simp), lenDelim_complete hd (drop_add h') hl]
  simp [Nat.add_assoc]

theorem hstep_pk_at {d t l x post : Bytes} {i : Nat} (m : Header) (hd : d.length < 2^63)
    (h : d.drop i = t ++ l ++ x ++ post) (ht : Tag t 3 2) (hl : Varint l x.length) :
    Proto.Header.step d m i = .ok ({ m with pk := x }, i + (t ++ l ++ x).length) := by
  have h' : d.drop i = t ++ (l ++ x ++ post) := by rw [h]; simp
  unfold Proto.Header.step
  rw [fieldTag_complete h' ht (by decide) (by decide) (by decide)]
  simp only [Res.bind_ok]
  rw [if_neg (by simp), lenDelim_complete hd (drop_add h') hl]
  simp [Nat.add_assoc]

theorem hstep_sender_at {d t l x post : Bytes} {i : Nat} (m : Header) (hd : d.length < 2^63)
    (h : d.drop i = t ++ l ++ x ++ post) (ht : Tag t 4 2) (hl : Varint l x.length) :
    Proto.Header.step d m i = .ok ({ m with sender := x }, i + (t ++ l ++ x).length) := by
  have h' : d.drop i = t ++ (l ++ x ++ post) := by rw [h]; simp
  unfold Proto.Header.step
  rw [fieldTag_complete h' ht (by decide) (by decide) (by decide)]
  simp only [Res.bind_ok]
  rw [if_neg (by simp), lenDelim_complete hd (drop_add h') hl]
  simp [Nat.add_assoc]

theorem hstep_key_at {d t l x post : Bytes} {i : Nat} {w : WrappedKey} (m : Header) (hd : d.length < 2^63)
    (h : d.drop i = t ++ l ++ x ++ post) (ht : Tag t 5 2) (hl : Varint l x.length) (hw : DecodesKey x w) :
    Proto.Header.step d m i = .ok ({ m with keys := m.keys ++ [w] }, i + (t ++ l ++ x).length) := by
  have h' : d.drop i = t ++ (l ++ x ++ post) := by rw [h]; simp
  have hx : x.length < 2^63 := by
    have := congrArg List.length h
    simp at this; omega
  unfold Proto.Header.step
  rw [fieldTag_complete h' ht (by decide) (by decide) (by decide)]
  simp only [Res.bind_ok]
  rw [if_neg (by simp), lenDelim_complete hd (drop_add h') hl]
  simp only [Res.bind_ok]
  rw [(wrapped_iff x hx w).mpr hw]
  simp [Nat.add_assoc]

theorem hstep_other_at {d e post : Bytes} {i : Nat} (m : Header) (hd : d.length < 2^63)
    (h : d.drop i = e ++ post) (he : Unknown [1, 2, 3, 4, 5] e) :
    Proto.Header.step d m i = .ok ({ m with unknown := m.unknown ++ e }, i + e.length) := by
  obtain ⟨num, he, h0, h1, hn⟩ := he
  obtain ⟨typ, j, ht⟩ := unknown_tag_at h he h0 h1
  unfold Proto.Header.step
  rw [ht]
  simp only [Res.bind_ok]
  simp only [List.mem_cons, List.not_mem_nil, or_false, not_or] at hn
  split
  · omega
  · omega
  · omega
  · omega
  · omega
  · rw [unknown_complete hd h he]; rfl

theorem hrun_complete {p : Bytes} {w : Header} (h : Decodes p w) : ∀ (d post : Bytes), d = p ++ post → d.length < 2^63 →
    Proto.hrun d {} 0 = Proto.hrun d w p.length := by
  have one : ∀ (p e : Bytes) (m m' : Header) (d post : Bytes),
      (∀ (d post : Bytes), d = p ++ post → d.length < 2^63 → Proto.hrun d {} 0 = Proto.hrun d m p.length) →
      d = p ++ e ++ post → d.length < 2^63 → 0 < e.length →
      Proto.Header.step d m p.length = .ok (m', p.length + e.length) →
      Proto.hrun d {} 0 = Proto.hrun d m' (p ++ e).length := by
    intro p e m m' d post ih hd hlen hpos hs
    rw [ih d _ (by rw [hd, List.append_assoc]) hlen, Proto.hrun_step d _ _ _ _ hs (by rw [hd]; simp; omega)]
    simp
  have dr : ∀ (p e d post : Bytes), d = p ++ e ++ post → d.drop p.length = e ++ post := by
    intro p e d post hd; rw [hd]; simp
  induction h with
  | empty => intro d post _ _; rfl
  | chunkSize h ht hb ih =>
    intro d post hd hlen
    have hpos := List.length_pos_iff.mpr ht.ne_nil
    exact one _ _ _ _ d post ih hd hlen (by simp; omega) (hstep_chunk_at _ (dr _ _ _ _ hd) ht hb)
  | salt h ht hl ih =>
    intro d post hd hlen
    have hpos := List.length_pos_iff.mpr ht.ne_nil
    exact one _ _ _ _ d post ih hd hlen (by simp; omega) (hstep_salt_at _ hlen (dr _ _ _ _ hd) ht hl)
  | pk h ht hl ih =>
    intro d post hd hlen
    have hpos := List.length_pos_iff.mpr ht.ne_nil
    exact one _ _ _ _ d post ih hd hlen (by simp; omega) (hstep_pk_at _ hlen (dr _ _ _ _ hd) ht hl)
  | sender h ht hl ih =>
    intro d post hd hlen
    have hpos := List.length_pos_iff.mpr ht.ne_nil
    exact one _ _ _ _ d post ih hd hlen (by simp; omega) (hstep_sender_at _ hlen (dr _ _ _ _ hd) ht hl)
  | key h ht hl hw ih =>
    intro d post hd hlen
    have hpos := List.length_pos_iff.mpr ht.ne_nil
    exact one _ _ _ _ d post ih hd hlen (by simp; omega) (hstep_key_at _ hlen (dr _ _ _ _ hd) ht hl hw)
  | other h he ih =>
    intro d post hd hlen
    exact one _ _ _ _ d post ih hd hlen (by obtain ⟨num, he, _⟩ := he; exact List.length_pos_iff.mpr he.ne_nil) (hstep_other_at _ hlen (dr _ _ _ _ hd) he)

/-- **C86**. The decoder accepts a byte string, as header `h`, if and only if the grammar derives it with meaning `h`
(strings of at least 2^63 bytes do not exist). -/
theorem C86_header (d : Bytes) (hd : d.length < 2^63) (h : Header) : Proto.Header.unmarshal d = .ok h ↔ Decodes d h := by
  constructor
  · intro hh
    exact hrun_sound d hd _ 0 {} h (Nat.le_refl _) (Nat.zero_le _) (by rw [List.take_zero]; exact .empty) hh
  · intro hh
    show Proto.hrun d {} 0 = _
    rw [hrun_complete hh d [] (by simp) hd, Proto.hrun_end]

/-- The grammar gives every string at most one meaning. -/
theorem C86_unambiguous (d : Bytes) (hd : d.length < 2^63) (h h' : Header) (h1 : Decodes d h) (h2 : Decodes d h') : h = h' := by
  have g1 := (C86_header d hd h).mpr h1
  have g2 := (C86_header d hd h').mpr h2
  rw [g1] at g2
  injection g2

/-- Everything that is no string of the grammar is refused with an error, never with a panic. -/
theorem C86_refused (d : Bytes) (hd : d.length < 2^63) (hn : ∀ h, ¬ Decodes d h) : ∃ e, Proto.Header.unmarshal d = .err e := by
  cases hu : Proto.Header.unmarshal d with
  | ok h => exact absurd ((C86_header d hd h).mp hu) (hn h)
  | err e => exact ⟨e, rfl⟩
  | panic w => have := Proto.header_unmarshal_noPanic d; rw [hu] at this; cases this

/-- Two encoded headers one after the other are an encoded header: the wrapped keys of both in order, the unknown fields of
both, and of each scalar field the value of the second or of the first. -/
theorem Decodes.concat {d1 d2 : Bytes} {h1 h2 : Header} (g1 : Decodes d1 h1) (g2 : Decodes d2 h2) :
    ∃ h, Decodes (d1 ++ d2) h ∧ h.keys = h1.keys ++ h2.keys ∧ h.unknown = h1.unknown ++ h2.unknown ∧
      (h.chunkSize = h2.chunkSize ∨ h.chunkSize = h1.chunkSize ∧ h2.chunkSize = 0) ∧
      (h.salt = h2.salt ∨ h.salt = h1.salt ∧ h2.salt = []) ∧ (h.pk = h2.pk ∨ h.pk = h1.pk ∧ h2.pk = []) ∧
      (h.sender = h2.sender ∨ h.sender = h1.sender ∧ h2.sender = []) := by
  induction g2 with
  | empty => exact ⟨h1, by simpa using g1, by simp, by simp, .inr ⟨rfl, rfl⟩, .inr ⟨rfl, rfl⟩, .inr ⟨rfl, rfl⟩, .inr ⟨rfl, rfl⟩⟩
  | chunkSize h ht hb ih =>
    obtain ⟨h', a, b, c, e1, e2, e3, e4⟩ := ih
    have hc := Decodes.chunkSize a ht hb
    rw [List.append_assoc] at hc
    exact ⟨_, hc, b, c, .inl rfl, e2, e3, e4⟩
  | salt h ht hl ih =>
    obtain ⟨h', a, b, c, e1, e2, e3, e4⟩ := ih
    have hc := Decodes.salt a ht hl
    rw [List.append_assoc] at hc
    exact ⟨_, hc, b, c, e1, .inl rfl, e3, e4⟩
  | pk h ht hl ih =>
    obtain ⟨h', a, b, c, e1, e2, e3, e4⟩ := ih
    have hc := Decodes.pk a ht hl
    rw [List.append_assoc] at hc
    exact ⟨_, hc, b, c, e1, e2, .inl rfl, e4⟩
  | sender h ht hl ih =>
    obtain ⟨h', a, b, c, e1, e2, e3, e4⟩ := ih
    have hc := Decodes.sender a ht hl
    rw [List.append_assoc] at hc
    exact ⟨_, hc, b, c, e1, e2, e3, .inl rfl⟩
  | key h ht hl hw ih =>
    obtain ⟨h', a, b, c, e1, e2, e3, e4⟩ := ih
    have hc := Decodes.key a ht hl hw
    rw [List.append_assoc] at hc
    exact ⟨_, hc, by simp [b], c, e1, e2, e3, e4⟩
  | other h he ih =>
    obtain ⟨h', a, b, c, e1, e2, e3, e4⟩ := ih
    have hc := Decodes.other a he
    rw [List.append_assoc] at hc
    exact ⟨_, hc, b, by simp [c], e1, e2, e3, e4⟩

/-- **C86** (concatenation).  If the decoder accepts two strings, it accepts the one followed by the other, as the header with the
wrapped keys of both in order, the unknown fields of both, and of each scalar field the value of the second or of the first. -/
theorem C86_concat (d1 d2 : Bytes) (hd : (d1 ++ d2).length < 2^63) (h1 h2 : Header) (g1 : Proto.Header.unmarshal d1 = .ok h1)
    (g2 : Proto.Header.unmarshal d2 = .ok h2) :
    ∃ h, Proto.Header.unmarshal (d1 ++ d2) = .ok h ∧ h.keys = h1.keys ++ h2.keys ∧ h.unknown = h1.unknown ++ h2.unknown ∧
      (h.chunkSize = h2.chunkSize ∨ h.chunkSize = h1.chunkSize ∧ h2.chunkSize = 0) ∧
      (h.salt = h2.salt ∨ h.salt = h1.salt ∧ h2.salt = []) ∧ (h.pk = h2.pk ∨ h.pk = h1.pk ∧ h2.pk = []) ∧
      (h.sender = h2.sender ∨ h.sender = h1.sender ∧ h2.sender = []) := by
  rw [List.length_append] at hd
  obtain ⟨h, a, b⟩ := Decodes.concat ((C86_header d1 (by omega) h1).mp g1) ((C86_header d2 (by omega) h2).mp g2)
  exact ⟨h, (C86_header _ (by rw [List.length_append]; omega) h).mpr a, b⟩


/-! Non-vacuity: a string with an overlong tag, a field written twice, a nested group of unknown fields whose end tags do not
match, and a wrapped key with an unknown field is accepted, so the grammar derives it; and strings that are refused. -/

/-- `chunk_size` = 5 with an overlong tag, then again = 3; unknown group 6 { group 7 {} closed as 8; varint field 1 } closed as 1;
wrapped key { dkey = [9], unknown field 3 = 0 }. -/
def grammarDemo : Bytes :=
  [0x88, 0x80, 0x00, 0x05, 0x08, 0x03, 0x33, 0x3b, 0x44, 0x08, 0x01, 0x0c, 0x2a, 0x05, 0x0a, 0x01, 0x09, 0x18, 0x00]

example : Decodes grammarDemo
    { chunkSize := 3, keys := [{ dkey := [9], unknown := [0x18, 0x00] }], unknown := [0x33, 0x3b, 0x44, 0x08, 0x01, 0x0c] } :=
  (C86_header grammarDemo (by decide) _).mp (by decide +kernel)

-- an end tag without a start tag, a group left open, a length past the end, a varint of eleven bytes, field number 0
example : ∀ d ∈ ([[0x34], [0x33, 0x08, 0x01], [0x12, 0x02, 0x00],
    [0x08, 0x80, 0x80, 0x80, 0x80, 0x80, 0x80, 0x80, 0x80, 0x80, 0x80, 0x00], [0x00, 0x00]] : List Bytes), ∀ h, ¬ Decodes d h := by
  have hb : ∀ d : Bytes, (match Proto.Header.unmarshal d with | .ok _ => true | _ => false) = false → d.length < 2^63 →
      ∀ h, ¬ Decodes d h := by
    intro d hf hl h hh
    rw [(C86_header d hl h).mpr hh] at hf
    cases hf
  intro d hd
  simp only [List.mem_cons, List.not_mem_nil, or_false] at hd
  rcases hd with rfl | rfl | rfl | rfl | rfl <;> exact hb _ (by decide +kernel) (by decide)

end Sigtool
