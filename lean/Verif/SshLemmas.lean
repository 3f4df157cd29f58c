import Verif.Ssh
import Verif.Spec.Ssh
/-! # Lemmas about the SSH parsers -/

namespace Sigtool

/-! ### Stripping a prefix-free set of words -/

/-- What stripping yields: some words of the set, then a rest that does not begin with any of them. -/
def Stripped (sp : List Bytes) (b r : Bytes) : Prop :=
  ∃ ss : List Bytes, (∀ s ∈ ss, s ∈ sp) ∧ b = ss.flatten ++ r ∧ ∀ s ∈ sp, ¬ s <+: r

theorem stripLeading_spec (sp : List Bytes) (hne : ∀ s ∈ sp, s ≠ []) :
    ∀ (n : Nat) (b : Bytes), b.length ≤ n → Stripped sp b (stripLeading sp n b) := by
  intro n
  induction n with
  | zero =>
    intro b hb
    have : b = [] := List.length_eq_zero_iff.mp (by omega)
    subst this
    refine ⟨[], by simp, rfl, ?_⟩
    intro s hs hp
    exact hne s hs (List.prefix_nil.mp hp)
  | succ n ih =>
    intro b hb
    unfold stripLeading
    split
    · rename_i hf
      refine ⟨[], by simp, rfl, ?_⟩
      intro s hs hp
      have := List.find?_eq_none.mp hf s hs
      exact this (List.isPrefixOf_iff_prefix.mpr hp)
    · rename_i s hf
      have hm := List.mem_of_find?_eq_some hf
      have hp : s <+: b := List.isPrefixOf_iff_prefix.mp (by simpa using List.find?_some hf)
      have hl : 0 < s.length := List.length_pos_iff.mpr (hne s hm)
      obtain ⟨ss, h1, h2, h3⟩ := ih (b.drop s.length) (by rw [List.length_drop]; omega)
      refine ⟨s :: ss, by simpa using ⟨hm, h1⟩, ?_, h3⟩
      obtain ⟨t, ht⟩ := hp
      rw [List.flatten_cons, List.append_assoc, ← h2, ← ht, List.drop_left]

/-- Stripping is unique for a prefix-free set. -/
theorem stripped_unique (sp : List Bytes) (hpf : ∀ s ∈ sp, ∀ t ∈ sp, s <+: t → s = t) :
    ∀ (ss : List Bytes) (b r r' : Bytes), (∀ s ∈ ss, s ∈ sp) → b = ss.flatten ++ r → (∀ s ∈ sp, ¬ s <+: r) →
      Stripped sp b r' → r' = r := by
  intro ss
  induction ss with
  | nil =>
    intro b r r' _ hb hr h
    simp only [List.flatten_nil, List.nil_append] at hb
    subst hb
    obtain ⟨ts, h1, h2, h3⟩ := h
    cases ts with
    | nil => simpa using h2.symm
    | cons t ts =>
      exact absurd ⟨ts.flatten ++ r', by rw [h2]; simp⟩ (hr t (h1 t (by simp)))
  | cons s ss ih =>
    intro b r r' hs hb hr h
    obtain ⟨ts, h1, h2, h3⟩ := h
    have hsm := hs s (by simp)
    cases ts with
    | nil =>
      simp only [List.flatten_nil, List.nil_append] at h2
      exact absurd ⟨ss.flatten ++ r, by rw [← h2, hb]; simp⟩ (h3 s hsm)
    | cons t ts =>
      have htm := h1 t (by simp)
      have e : s ++ (ss.flatten ++ r) = t ++ (ts.flatten ++ r') := by
        rw [← List.append_assoc, ← List.append_assoc]
        simpa using hb.symm.trans h2
      have hst : s = t := by
        rcases Nat.le_total s.length t.length with hl | hl
        · exact hpf s hsm t htm (List.prefix_of_prefix_length_le ⟨_, rfl⟩ ⟨_, e.symm⟩ hl)
        · exact (hpf t htm s hsm (List.prefix_of_prefix_length_le ⟨_, rfl⟩ ⟨_, e⟩ hl)).symm
      subst hst
      exact ih (ss.flatten ++ r) r r' (fun x hx => hs x (by simp [hx])) rfl hr
        ⟨ts, fun x hx => h1 x (by simp [hx]), List.append_cancel_left e, h3⟩

/-! ### `trimSpace` -/

theorem spaces_spec : spaces = Spec.whiteSpace := by decide +kernel

theorem spaces_ne : ∀ s ∈ spaces, s ≠ [] := by decide +kernel

theorem spaces_prefixfree : ∀ s ∈ spaces, ∀ t ∈ spaces, s <+: t → s = t := by decide +kernel

theorem spacesR_ne : ∀ s ∈ spaces.map List.reverse, s ≠ [] := by decide +kernel

theorem spacesR_prefixfree : ∀ s ∈ spaces.map List.reverse, ∀ t ∈ spaces.map List.reverse, s <+: t → s = t := by
  decide +kernel

/-- A proper tail of a space character is not the beginning of one. -/
theorem spaces_nostraddle : ∀ p ∈ spaces, ∀ k ∈ [1, 2], k < p.length → ∀ q ∈ spaces, ¬ p.drop k <+: q ∧ ¬ q <+: p.drop k := by
  decide +kernel

theorem spaces_short : ∀ p ∈ spaces, p.length ≤ 3 := by decide +kernel

theorem spaces_nostraddleR : ∀ p ∈ spaces, ∀ k ∈ [1, 2], k < p.length → ∀ q ∈ spaces, ¬ p.take k <:+ q ∧ ¬ q <:+ p.take k := by
  decide +kernel

/-- No space character straddles the boundary between a non-empty text and white space. -/
theorem no_straddle (u : Bytes) (hu : u ≠ []) (after : List Bytes) (ha : ∀ s ∈ after, s ∈ spaces)
    (h : ∀ s ∈ spaces, ¬ s <+: u) : ∀ s ∈ spaces, ¬ s <+: u ++ after.flatten := by
  intro p hp hpre
  cases after with
  | nil => simp only [List.flatten_nil, List.append_nil] at hpre; exact h p hp hpre
  | cons q qs =>
    have hq := ha q (by simp)
    rcases Nat.lt_or_ge u.length p.length with hl | hl
    · have hup : u <+: p := List.prefix_of_prefix_length_le ⟨_, rfl⟩ hpre (by omega)
      obtain ⟨v, hv⟩ := hup
      have hk : u.length = 1 ∨ u.length = 2 := by
        have := spaces_short p hp
        have : 0 < u.length := List.length_pos_iff.mpr hu
        omega
      have hd : p.drop u.length = v := by rw [← hv, List.drop_left]
      have hvpre : v <+: (q ++ qs.flatten) := by
        obtain ⟨w, hw⟩ := hpre
        refine ⟨w, ?_⟩
        rw [← hv, List.append_assoc] at hw
        simpa using List.append_cancel_left hw
      have := spaces_nostraddle p hp u.length (by rcases hk with hk | hk <;> simp [hk]) hl q hq
      rw [hd] at this
      rcases Nat.le_total v.length q.length with hl2 | hl2
      · exact this.1 (List.prefix_of_prefix_length_le hvpre ⟨_, rfl⟩ hl2)
      · exact this.2 (List.prefix_of_prefix_length_le ⟨_, rfl⟩ hvpre hl2)
    · exact h p hp (List.prefix_of_prefix_length_le hpre ⟨_, rfl⟩ (by simpa using hl))

/-- Likewise at the other end, also when other text without trailing incomplete characters precedes. -/
theorem no_straddleR (u : Bytes) (hu : u ≠ []) (before : List Bytes) (hb : ∀ s ∈ before, s ∈ spaces) (hne : before ≠ []) (x : Bytes)
    (h : ∀ s ∈ spaces, ¬ s <:+ u) : ∀ s ∈ spaces, ¬ s <:+ x ++ before.flatten ++ u := by
  intro p hp hsuf
  rcases Nat.lt_or_ge u.length p.length with hl | hl
  · have hup : u <:+ p := List.suffix_of_suffix_length_le ⟨_, rfl⟩ hsuf (by omega)
    obtain ⟨v, hv⟩ := hup
    have hul : 0 < u.length := List.length_pos_iff.mpr hu
    have hvl : v.length + u.length = p.length := by rw [← hv]; simp
    have hk : v.length = 1 ∨ v.length = 2 := by
      have := spaces_short p hp
      omega
    have hd : p.take v.length = v := by rw [← hv, List.take_left]
    have hvsuf : v <:+ x ++ before.flatten := by
      obtain ⟨w, hw⟩ := hsuf
      refine ⟨w, ?_⟩
      rw [← hv, ← List.append_assoc] at hw
      exact List.append_cancel_right hw
    obtain ⟨bs, q, rfl⟩ : ∃ bs q, before = bs ++ [q] := ⟨before.dropLast, before.getLast hne, (List.dropLast_append_getLast hne).symm⟩
    have hq := hb q (by simp)
    have hqs : q <:+ x ++ (bs ++ [q]).flatten := ⟨x ++ bs.flatten, by simp⟩
    have := spaces_nostraddleR p hp v.length (by rcases hk with hk | hk <;> simp [hk]) (by omega) q hq
    rw [hd] at this
    rcases Nat.le_total v.length q.length with hl2 | hl2
    · exact this.1 (List.suffix_of_suffix_length_le hvsuf hqs hl2)
    · exact this.2 (List.suffix_of_suffix_length_le hqs hvsuf hl2)
  · exact h p hp (List.suffix_of_suffix_length_le hsuf ⟨_, rfl⟩ hl)

theorem trimSpace_trims (x : Bytes) : Spec.Trims x (trimSpace x) := by
  unfold Spec.Trims
  rw [← spaces_spec]
  unfold trimSpace
  dsimp only
  obtain ⟨ss, h1, h2, h3⟩ := stripLeading_spec spaces spaces_ne x.length x (Nat.le_refl _)
  revert h2 h3
  generalize stripLeading spaces x.length x = l
  intro h2 h3
  obtain ⟨ts, g1, g2, g3⟩ := stripLeading_spec (spaces.map List.reverse) spacesR_ne l.length l.reverse (by simp)
  revert g2 g3
  generalize stripLeading (spaces.map List.reverse) l.length l.reverse = r
  intro g2 g3
  have hl : l = r.reverse ++ (ts.map List.reverse).reverse.flatten := by
    have := congrArg List.reverse g2
    rw [List.reverse_reverse, List.reverse_append, List.reverse_flatten] at this
    exact this
  have hts : ∀ s ∈ (ts.map List.reverse).reverse, s ∈ spaces := by
    intro s hs
    rw [List.mem_reverse, List.mem_map] at hs
    obtain ⟨t, ht, rfl⟩ := hs
    obtain ⟨w, hw, rfl⟩ := List.mem_map.mp (g1 t ht)
    rwa [List.reverse_reverse]
  refine ⟨ss, (ts.map List.reverse).reverse, h1, hts, ?_, ?_⟩
  · rw [List.append_assoc, ← hl]; exact h2
  · intro s hs
    refine ⟨?_, ?_⟩
    · intro hp
      apply h3 s hs
      rw [hl]
      exact hp.trans ⟨_, rfl⟩
    · intro hp
      apply g3 s.reverse (List.mem_map_of_mem hs)
      have := List.reverse_prefix.mpr hp
      rwa [List.reverse_reverse] at this

theorem trimSpace_eq (x y : Bytes) (h : Spec.Trims x y) : trimSpace x = y := by
  unfold Spec.Trims at h
  rw [← spaces_spec] at h
  obtain ⟨bs, as, hb, ha, hx, hn⟩ := h
  unfold trimSpace
  have s1 := stripLeading_spec spaces spaces_ne x.length x (Nat.le_refl _)
  by_cases hy : y = []
  · subst hy
    have e : stripLeading spaces x.length x = [] := by
      refine stripped_unique spaces spaces_prefixfree (bs ++ as) x [] _ ?_ ?_ ?_ s1
      · intro s hs
        rcases List.mem_append.mp hs with hs | hs
        · exact hb s hs
        · exact ha s hs
      · rw [hx]; simp
      · intro s hs hp; exact spaces_ne s hs (List.prefix_nil.mp hp)
    rw [e]
    rfl
  · have e : stripLeading spaces x.length x = y ++ as.flatten := by
      refine stripped_unique spaces spaces_prefixfree bs x _ _ hb ?_ ?_ s1
      · rw [hx, List.append_assoc]
      · exact no_straddle y hy as ha fun s hs => (hn s hs).1
    rw [e]
    have s2 := stripLeading_spec (spaces.map List.reverse) spacesR_ne (y ++ as.flatten).length (y ++ as.flatten).reverse (by rw [List.length_reverse])
    have e2 : stripLeading (spaces.map List.reverse) (y ++ as.flatten).length (y ++ as.flatten).reverse = y.reverse := by
      refine stripped_unique _ spacesR_prefixfree (as.reverse.map List.reverse) _ _ _ ?_ ?_ ?_ s2
      · intro s hs
        obtain ⟨t, ht, rfl⟩ := List.mem_map.mp hs
        exact List.mem_map_of_mem (ha t (List.mem_reverse.mp ht))
      · rw [List.reverse_append, List.reverse_flatten]
        simp
      · intro s hs hp
        obtain ⟨t, ht, rfl⟩ := List.mem_map.mp hs
        exact (hn t ht).2 (List.reverse_prefix.mp hp)
    dsimp only
    rw [e2, List.reverse_reverse]

/-- Trimming, exactly. -/
theorem trimSpace_iff (x y : Bytes) : trimSpace x = y ↔ Spec.Trims x y :=
  ⟨fun h => h ▸ trimSpace_trims x, trimSpace_eq x y⟩

theorem trimSpace_append_left (s x : Bytes) (hs : s ∈ spaces) : trimSpace (s ++ x) = trimSpace x := by
  apply trimSpace_eq
  obtain ⟨bs, as, hb, ha, hx, hn⟩ := trimSpace_trims x
  refine ⟨s :: bs, as, ?_, ha, ?_, hn⟩
  · simpa using ⟨spaces_spec ▸ hs, hb⟩
  · rw [List.flatten_cons, List.append_assoc, List.append_assoc, ← List.append_assoc bs.flatten, ← hx]

theorem trimSpace_append_right (s x : Bytes) (hs : s ∈ spaces) : trimSpace (x ++ s) = trimSpace x := by
  apply trimSpace_eq
  obtain ⟨bs, as, hb, ha, hx, hn⟩ := trimSpace_trims x
  refine ⟨bs, as ++ [s], hb, ?_, ?_, hn⟩
  · intro t ht
    rcases List.mem_append.mp ht with ht | ht
    · exact ha t ht
    · simp only [List.mem_singleton] at ht; subst ht; exact spaces_spec ▸ hs
  · rw [List.flatten_append, ← List.append_assoc, ← hx]; simp

/-- An ASCII byte that is not white space. -/
def solid (c : UInt8) : Bool := c < 128 && c ≠ 9 && c ≠ 10 && c ≠ 11 && c ≠ 12 && c ≠ 13 && c ≠ 32

theorem solid_not_in (c : UInt8) (hc : solid c = true) : ∀ s ∈ spaces, c ∉ s := by
  have : ∀ s ∈ spaces, ∀ d ∈ s, solid d = false := by decide +kernel
  intro s hs hm
  rw [this s hs c hm] at hc
  cases hc

theorem not_prefix_solid (c : UInt8) (t : Bytes) (hc : solid c = true) : ∀ s ∈ spaces, ¬ s <+: c :: t := by
  intro s hs hp
  match s, spaces_ne s hs with
  | d :: s', _ =>
    have : d = c := (List.cons_prefix_cons.mp hp).1
    subst this
    exact solid_not_in d hc _ hs (by simp)

theorem not_suffix_solid (c : UInt8) (t : Bytes) (hc : solid c = true) : ∀ s ∈ spaces, ¬ s <:+ t ++ [c] := by
  intro s hs hp
  have hr : s.reverse <+: c :: t.reverse := by
    have := List.reverse_prefix.mpr hp
    simpa using this
  match h : s.reverse with
  | [] => exact spaces_ne s hs (List.reverse_eq_nil_iff.mp h)
  | d :: s' =>
    rw [h] at hr
    have : d = c := (List.cons_prefix_cons.mp hr).1
    subst this
    refine solid_not_in d hc s hs ?_
    rw [← List.mem_reverse, h]; simp

/-- A text that begins and ends with solid characters is not changed. -/
theorem trimSpace_solid (c d : UInt8) (t : Bytes) (hc : solid c = true) (hd : solid d = true) :
    trimSpace (c :: (t ++ [d])) = c :: (t ++ [d]) := by
  apply trimSpace_eq
  refine ⟨[], [], by simp, by simp, by simp, ?_⟩
  rw [← spaces_spec]
  intro s hs
  refine ⟨not_prefix_solid c _ hc s hs, ?_⟩
  have := not_suffix_solid d (c :: t) hd s hs
  simpa using this

/-- Trimming `a comment` where `a` begins and ends with solid characters: what is left of the right part trims to the same
as the right part. -/
theorem trimSpace_two (a : Bytes) (c d : UInt8) (m : Bytes) (ha : a = c :: m) (hc : solid c = true)
    (hd : ∃ m', a = m' ++ [d]) (hds : solid d = true) (x : Bytes) :
    ∃ y, trimSpace (a ++ 32 :: x) = a ++ y ∧ trimSpace y = trimSpace x ∧ (y = [] ∨ ∃ z, y = 32 :: z) := by
  obtain ⟨bs, as, hb, has, hx, hn⟩ := trimSpace_trims x
  obtain ⟨m', hm'⟩ := hd
  rw [← spaces_spec] at hn hb has
  have h32 : ([32] : Bytes) ∈ spaces := by decide
  by_cases hy : trimSpace x = []
  · refine ⟨[], ?_, ?_, .inl rfl⟩
    · apply trimSpace_eq
      refine ⟨[], [32] :: (bs ++ as), by simp, ?_, ?_, ?_⟩
      · rw [← spaces_spec]
        intro s hs
        simp only [List.mem_cons, List.mem_append] at hs
        rcases hs with rfl | hs | hs
        · exact h32
        · exact hb s hs
        · exact has s hs
      · rw [hy] at hx
        simp only [List.flatten_nil, List.nil_append, List.append_nil, List.flatten_cons, List.flatten_append,
          List.cons_append]
        simp only [List.append_nil] at hx
        rw [hx]
      · rw [← spaces_spec]
        intro s hs
        rw [List.append_nil]
        refine ⟨?_, ?_⟩
        · rw [ha]; exact not_prefix_solid c m hc s hs
        · rw [hm']; exact not_suffix_solid d m' hds s hs
    · rw [hy]; rfl
  · refine ⟨32 :: (bs.flatten ++ trimSpace x), ?_, ?_, .inr ⟨_, rfl⟩⟩
    · apply trimSpace_eq
      refine ⟨[], as, by simp, by rw [← spaces_spec]; exact has, ?_, ?_⟩
      · have : a ++ 32 :: x = a ++ 32 :: (bs.flatten ++ trimSpace x ++ as.flatten) := by rw [← hx]
        rw [this]
        simp
      · rw [← spaces_spec]
        intro s hs
        refine ⟨?_, ?_⟩
        · rw [ha, List.cons_append]; exact not_prefix_solid c _ hc s hs
        · have := no_straddleR (trimSpace x) hy ([32] :: bs) (by simpa using ⟨h32, hb⟩) (by simp) a
            (fun s hs => (hn s hs).2) s hs
          simpa using this
    · apply trimSpace_eq
      refine ⟨[32] :: bs, [], ?_, by simp, by simp, by rw [← spaces_spec]; exact hn⟩
      rw [← spaces_spec]
      simpa using ⟨h32, hb⟩

/-! ### The wire format -/

theorem sshString_be32 (b : Bytes) : Spec.sshString b = be32 b.length ++ b := rfl

theorem sshUint32_be32 (n : Nat) : Spec.sshUint32 n = be32 n := rfl

theorem parseString_sshString (b t : Bytes) (h : (b ++ t).length < 2^32) :
    parseString (Spec.sshString b ++ t) = some (b, t) := by
  rw [sshString_be32]
  unfold parseString
  have e : (be32 b.length ++ b ++ t).drop 4 = b ++ t := by rw [List.append_assoc]; rfl
  have hb : be32dec (be32 b.length ++ b ++ t) = b.length := by
    rw [List.append_assoc, be32dec_be32]
    simp only [List.length_append] at h
    omega
  have hl : ¬ (be32 b.length ++ b ++ t).length < 4 := by simp only [List.length_append, be32_length]; omega
  rw [if_neg hl]
  dsimp only
  rw [e, hb, if_neg]
  · rw [List.take_left, List.drop_left]
  · rw [Nat.mod_eq_of_lt h, List.length_append]; omega

theorem parseUint32_sshUint32 (n : Nat) (t : Bytes) (h : n < 2^32) : parseUint32 (Spec.sshUint32 n ++ t) = some (n, t) := by
  rw [sshUint32_be32]
  unfold parseUint32
  rw [if_neg (by simp only [List.length_append, be32_length]; omega), be32dec_be32, Nat.mod_eq_of_lt h]
  rfl

theorem sshString_ne (b : Bytes) : Spec.sshString b ≠ [] := by simp [Spec.sshString]

@[simp] theorem sshString_length (b : Bytes) : (Spec.sshString b).length = b.length + 4 := by
  simp [Spec.sshString]

@[simp] theorem sshUint32_length (n : Nat) : (Spec.sshUint32 n).length = 4 := rfl

theorem algo_spec : algoEd25519 = "ssh-ed25519".toUTF8.toList := by decide +kernel

theorem parseEncPubKey_good (P : Prims) (key comment : Bytes) (hk : key.length = 32) :
    parseEncPubKey P (Base64.encode (Spec.sshPublicBlob key)) comment =
      .ok (some { pk := key, comment := trimSpace comment, hash := pkhash P key }) := by
  unfold parseEncPubKey Spec.sshPublicBlob
  rw [Base64.decode_encode]
  dsimp only
  rw [parseString_sshString _ _ (by rw [List.length_append, sshString_length, hk]; decide +kernel)]
  dsimp only
  rw [if_neg (by rw [algo_spec]; simp), if_neg (sshString_ne _)]
  have := parseString_sshString key [] (by simp [hk])
  rw [List.append_nil] at this
  rw [this]
  dsimp only
  rw [if_neg (by simp)]
  unfold makePublicKeyFromBytes
  rw [if_neg (by omega)]

/-- What the result of `parseEncPubKey` can be. -/
theorem parseEncPubKey_ok (P : Prims) (b comment : Bytes) (pk : PublicKey)
    (h : parseEncPubKey P b comment = .ok (some pk)) :
    pk.pk.length = 32 ∧ pk.hash = pkhash P pk.pk ∧ pk.comment = trimSpace comment := by
  unfold parseEncPubKey at h
  split at h
  · cases h
  · split at h
    · cases h
    · split at h
      · cases h
      · split at h
        · cases h
        · split at h
          · cases h
          · split at h
            · cases h
            · split at h
              · rename_i hm
                cases h
                unfold makePublicKeyFromBytes at hm
                split at hm
                · cases hm
                · rename_i hl
                  cases hm
                  exact ⟨by dsimp only; omega, rfl, rfl⟩
              · cases h
              · cases h

theorem parseEncPubKey_no_panic (P : Prims) (b comment : Bytes) (w : String) : parseEncPubKey P b comment ≠ .panic w := by
  unfold parseEncPubKey makePublicKeyFromBytes
  repeat' split
  all_goals first | (intro hh; cases hh; done) | (rename_i h; split at h <;> cases h)

/-- `parseEncPubKey` returns no key and no error exactly for a well-formed key of another type. -/
theorem parseEncPubKey_nil (P : Prims) (b comment : Bytes) :
    parseEncPubKey P b comment = .ok none ↔
      ∃ raw algo rest, Base64.decode b = some raw ∧ parseString raw = some (algo, rest) ∧ algo ≠ algoEd25519 := by
  constructor
  · intro h
    unfold parseEncPubKey at h
    split at h
    · cases h
    · rename_i raw hd
      split at h
      · cases h
      · rename_i algo r hp
        split at h
        · rename_i hne
          exact ⟨raw, algo, r, hd, hp, hne⟩
        · exfalso
          split at h
          · cases h
          · split at h
            · cases h
            · split at h
              · cases h
              · split at h <;> cases h
  · rintro ⟨raw, algo, rest, h1, h2, h3⟩
    unfold parseEncPubKey
    rw [h1]; dsimp only
    rw [h2]; dsimp only
    rw [if_pos h3]

/-! ### Splitting at blanks -/

theorem splitBlanks_ne (b : Bytes) : splitBlanks b ≠ [] := by
  induction b with
  | nil => simp [splitBlanks]
  | cons c t ih =>
    unfold splitBlanks
    split
    · split
      · simp
      · split
        · exact ih
        · simp
    · split <;> simp

theorem splitBlanks_solid (b : Bytes) (h : ∀ c ∈ b, isBlank c = false) : splitBlanks b = [b] := by
  induction b with
  | nil => rfl
  | cons c t ih =>
    unfold splitBlanks
    rw [if_neg (by simp [h c (by simp)]), ih (fun d hd => h d (by simp [hd]))]

/-- A blank between two non-blanks separates. -/
theorem splitBlanks_append (a : Bytes) (l : UInt8) (x : UInt8) (d : UInt8) (t : Bytes) (hl : isBlank l = false)
    (hx : isBlank x = true) (hd : isBlank d = false) :
    splitBlanks (a ++ [l] ++ x :: d :: t) = splitBlanks (a ++ [l]) ++ splitBlanks (d :: t) := by
  induction a with
  | nil =>
    simp only [List.nil_append, List.cons_append]
    unfold splitBlanks
    rw [if_neg (by simp [hl]), if_neg (by simp [hl])]
    have e : splitBlanks (x :: d :: t) = [] :: splitBlanks (d :: t) := by
      rw [splitBlanks, if_pos hx]; simp [hd]
    rw [e]
    simp [splitBlanks]
  | cons c a ih =>
    have e1 : (c :: a ++ [l] ++ x :: d :: t) = c :: (a ++ [l] ++ x :: d :: t) := rfl
    rw [e1]
    have hn := splitBlanks_ne (a ++ [l])
    by_cases hc : isBlank c = true
    · match ha : a ++ [l] with
      | [] => simp at ha
      | y :: ys =>
        rw [ha] at ih hn
        have e2 : (c :: a ++ [l]) = c :: y :: ys := by rw [← ha]; rfl
        rw [e2]
        simp only [List.cons_append] at ih ⊢
        rw [splitBlanks.eq_def (c :: y :: (ys ++ x :: d :: t)), splitBlanks.eq_def (c :: y :: ys)]
        dsimp only
        rw [if_pos hc, if_pos hc]
        split
        · exact ih
        · rw [ih]; rfl
    · have e2 : (c :: a ++ [l]) = c :: (a ++ [l]) := rfl
      rw [e2, splitBlanks.eq_def (c :: (a ++ [l] ++ x :: d :: t)), splitBlanks.eq_def (c :: (a ++ [l]))]
      dsimp only
      rw [if_neg hc, if_neg hc, ih]
      match hs : splitBlanks (a ++ [l]) with
      | [] => exact absurd hs hn
      | p :: ps => rfl

theorem splitBlanks_two (b : Bytes) (h : ∃ c ∈ b, isBlank c = true) : 2 ≤ (splitBlanks b).length := by
  induction b with
  | nil => obtain ⟨c, hc, _⟩ := h; cases hc
  | cons c t ih =>
    unfold splitBlanks
    split
    · split
      · simp
      · rename_i d t'
        split
        · rename_i hd
          exact ih ⟨d, by simp, hd⟩
        · have : 0 < (splitBlanks (d :: t')).length := List.length_pos_iff.mpr (splitBlanks_ne _)
          simp only [List.length_cons]
          omega
    · rename_i hc
      obtain ⟨e, he, hb⟩ := h
      have : e ∈ t := by
        rcases List.mem_cons.mp he with rfl | h
        · exact absurd hb hc
        · exact h
      have := ih ⟨e, this, hb⟩
      split
      · rename_i hs; rw [hs] at this; simp at this
      · rename_i p ps hs
        rw [hs] at this
        simpa using this

theorem b64_not_blank (x : Bytes) : ∀ c ∈ Base64.encode x, isBlank c = false := by
  intro c hc
  have := Base64.encode_alphabet x c hc
  revert this
  exact Base64.forall_byte (p := fun c => Base64.isB64 c = true → isBlank c = false) (by decide +kernel) c

end Sigtool
