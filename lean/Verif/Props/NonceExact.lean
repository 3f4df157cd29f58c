import Verif.Props.History
/-!
# C85: exactly when a nonce repeats

C09 (partial) shows that nonces repeat. Here: which chunks share a nonce, and which histories are free of repetition.
A *source* is one `Encrypt` call, or one stream writer (all `Write` and `Close` calls on it).
-/

namespace Sigtool

/-- The data sealed by one source: one `Encrypt` call of the history, or all calls on one stream writer. -/
def IsSource (evs : List EncEvent) (recs : List SealRec) : Prop :=
  (∃ ev ∈ evs, (∃ rd wr coin, ev.op = .encrypt rd wr coin) ∧ recs = ev.sealed) ∨
  ∃ k, recs = (evs.filter fun ev => (match ev.op with | .write j _ => j == k | .close j _ => j == k | _ => false)).flatMap
    (·.sealed)

theorem sealedBy_eq (k : Nat) (evs : List EncEvent) :
    sealedBy k evs = (evs.filter fun ev => (match ev.op with | .write j _ => j == k | .close j _ => j == k | _ => false)).flatMap
      (·.sealed) := by
  unfold sealedBy
  congr 2

theorem sources_consecutive {evs : List EncEvent} {s : EncState} (inv : NonceInv evs s) : ∃ dkey, ∀ r, IsSource evs r → Consecutive dkey s.enc.nonce 0 r := by
  cases hst : s.enc.started with
  | false =>
    refine ⟨[], fun r hr => ?_⟩
    have : r = [] := by
      rcases hr with ⟨ev, hev, _, rfl⟩ | ⟨k, rfl⟩
      · exact inv.idle hst ev hev
      · simp only [List.flatMap_eq_nil_iff, List.mem_filter, and_imp]
        intro v hv _; exact inv.idle hst v hv
    rw [this]; exact Consecutive.nil _ _ _
  | true =>
    obtain ⟨dkey, hd⟩ := inv.ae hst
    refine ⟨dkey, fun r hr => ?_⟩
    rcases hr with ⟨ev, hev, hop, rfl⟩ | ⟨k, rfl⟩
    · exact inv.encs dkey hd hst ev hev hop
    · rw [← sealedBy_eq]; exact inv.recs dkey hd hst k

theorem be32_inj_mod {a b : Nat} (h : be32 a = be32 b) : a % 2^32 = b % 2^32 := by
  have h1 := be32dec_be32 a []
  rw [h, be32dec_be32] at h1
  exact h1.symm

/-- **C85**, pairs. In every history of calls on an encryptor: chunk number `i` of one source and chunk number `j` of another
(or the same) source are sealed under the same key and nonce if and only if `i` and `j` agree modulo 2^32. Nothing else
matters: not the data, not the destination, not the failures in between. -/
theorem C85_pairs (P : Prims) (sender : Option PrivateKey) (blk : Nat) (c : EncCoins) (e0 : Encryptor)
    (he : newEncryptor P sender blk c = .ok e0) (evs : List EncEvent) (s : EncState) (h : History P e0 evs s)
    (recs1 recs2 : List SealRec) (h1 : IsSource evs recs1) (h2 : IsSource evs recs2)
    (i j : Nat) (a b : SealRec) (ha : recs1[i]? = some a) (hb : recs2[j]? = some b) :
    (a.key = b.key ∧ a.nonce = b.nonce) ↔ i % 2^32 = j % 2^32 := by
  obtain ⟨h0, hs0⟩ := newEncryptor_unstarted he
  have inv := h.nonceInv h0 hs0
  obtain ⟨dkey, hk⟩ := sources_consecutive inv
  have g1 := hk _ h1 i a ha
  have g2 := hk _ h2 j b hb
  constructor
  · rintro ⟨_, hn⟩
    rw [g1.2, g2.2] at hn
    have := be32_inj_mod (List.append_cancel_right hn)
    simpa using this
  · intro hm
    exact ⟨by rw [g1.1, g2.1], by rw [g1.2, g2.2, be32_congr (0 + i) (0 + j) (by omega)]⟩

theorem noReuse_append {as bs : List SealRec} (h : NoReuse (as ++ bs)) {a b : SealRec} (ha : a ∈ as) (hb : b ∈ bs) :
    ¬ (a.key = b.key ∧ a.nonce = b.nonce) := by
  unfold NoReuse at h
  rw [List.map_append, List.nodup_append] at h
  intro ⟨h1, h2⟩
  exact h.2.2 (a.key, a.nonce) (List.mem_map.mpr ⟨a, ha, rfl⟩) (b.key, b.nonce) (List.mem_map.mpr ⟨b, hb, rfl⟩) (by rw [h1, h2])

/-- The first event that sealed something. -/
theorem first_sealed : ∀ evs : List EncEvent, (∀ v ∈ evs, v.sealed = []) ∨
    ∃ pre ev post, evs = pre ++ ev :: post ∧ (∀ v ∈ pre, v.sealed = []) ∧ ev.sealed ≠ [] := by
  intro evs
  induction evs with
  | nil => exact Or.inl (by simp)
  | cons v vs ih =>
    by_cases hv : v.sealed = []
    · rcases ih with h | ⟨pre, ev, post, h1, h2, h3⟩
      · exact Or.inl (by simpa [hv] using h)
      · exact Or.inr ⟨v :: pre, ev, post, by rw [h1]; rfl, by simpa [hv] using h2, h3⟩
    · exact Or.inr ⟨[], v, vs, rfl, by simp, hv⟩

/-- **C85**, whole histories. Over every history of calls on an encryptor, no two chunks are sealed under the same key and
nonce IF AND ONLY IF all the data were sealed by a single `Encrypt` call, or all by a single stream writer, and there are at
most 2^32 chunks. -/
theorem C85_exact (P : Prims) (sender : Option PrivateKey) (blk : Nat) (c : EncCoins) (e0 : Encryptor)
    (he : newEncryptor P sender blk c = .ok e0) (evs : List EncEvent) (s : EncState) (h : History P e0 evs s) :
    NoReuse (evs.flatMap (·.sealed)) ↔
      ((∃ pre ev post, evs = pre ++ ev :: post ∧ (∃ rd wr coin, ev.op = .encrypt rd wr coin) ∧
        ∀ v ∈ pre ++ post, v.sealed = []) ∨
      (∃ k, ∀ v ∈ evs, v.sealed ≠ [] → (∃ b, v.op = .write k b) ∨ ∃ coin, v.op = .close k coin)) ∧
      (evs.flatMap (·.sealed)).length ≤ 2^32 := by
  constructor
  swap
  · rintro ⟨hone, hl⟩
    exact C09_single_use_partial P sender blk c e0 he evs s h hone hl
  intro hn
  obtain ⟨h0, hs0⟩ := newEncryptor_unstarted he
  have inv := h.nonceInv h0 hs0
  rcases first_sealed evs with hnone | ⟨pre, ev, post, hevs, hpre, hev⟩
  · refine ⟨Or.inr ⟨0, fun v hv hne => absurd (hnone v hv) hne⟩, ?_⟩
    rw [List.flatMap_eq_nil_iff.mpr hnone]; simp
  have hmem : ev ∈ evs := by rw [hevs]; simp
  have hpre0 : pre.flatMap (·.sealed) = [] := List.flatMap_eq_nil_iff.mpr hpre
  have hpref : ∀ p : EncEvent → Bool, (pre.filter p).flatMap (·.sealed) = [] := fun p =>
    List.flatMap_eq_nil_iff.mpr fun v hv => hpre v (List.mem_of_mem_filter hv)
  have hall : evs.flatMap (·.sealed) = ev.sealed ++ post.flatMap (·.sealed) := by rw [hevs]; simp [hpre0]
  rw [hall] at hn
  -- a source whose first chunk is the first chunk of `ev`, and one whose first chunk comes later, collide
  have collide : ∀ r1 r2, IsSource evs r1 → IsSource evs r2 → (∃ t, r1 = ev.sealed ++ t) → r2 ≠ [] →
      (∀ x ∈ r2, x ∈ post.flatMap (·.sealed)) → False := by
    intro r1 r2 s1 s2 ⟨t, ht⟩ hne hin
    obtain ⟨a, ta, hata⟩ := List.exists_cons_of_ne_nil hev
    obtain ⟨b, tb, hbtb⟩ := List.exists_cons_of_ne_nil hne
    have := (C85_pairs P sender blk c e0 he evs s h r1 r2 s1 s2 0 0 a b (by rw [ht, hata]; rfl) (by rw [hbtb]; rfl)).mpr rfl
    exact noReuse_append hn (by rw [hata]; simp) (hin b (by rw [hbtb]; simp)) this
  have onOp : ∀ (v : EncEvent) k, v.op.on k = true → (∃ b, v.op = .write k b) ∨ ∃ coin, v.op = .close k coin := by
    intro v k hk
    cases ho : v.op with
    | write j b => rw [ho] at hk; simp [EncOp.on] at hk; subst hk; exact Or.inl ⟨b, rfl⟩
    | close j b => rw [ho] at hk; simp [EncOp.on] at hk; subst hk; exact Or.inr ⟨b, rfl⟩
    | _ => rw [ho] at hk; cases hk
  have later : ∀ v ∈ evs, v.sealed ≠ [] → v = ev ∨ v ∈ post := by
    intro v hv hne
    rw [hevs] at hv
    rcases List.mem_append.mp hv with hv | hv
    · exact absurd (hpre v hv) hne
    · simpa using hv
  have srcK : ∀ k, IsSource evs (sealedBy k evs) := fun k => Or.inr ⟨k, sealedBy_eq k evs⟩
  have hone : (∃ pre ev post, evs = pre ++ ev :: post ∧ (∃ rd wr coin, ev.op = .encrypt rd wr coin) ∧
        ∀ v ∈ pre ++ post, v.sealed = []) ∨
      (∃ k, ∀ v ∈ evs, v.sealed ≠ [] → (∃ b, v.op = .write k b) ∨ ∃ coin, v.op = .close k coin) := by
    rcases inv.only ev hmem hev with hop | ⟨k, hk⟩
    · left
      refine ⟨pre, ev, post, hevs, hop, ?_⟩
      intro v hv
      rcases List.mem_append.mp hv with hv | hv
      · exact hpre v hv
      · by_contra hne
        have hve : v ∈ evs := by rw [hevs]; simp [hv]
        have s1 : IsSource evs ev.sealed := Or.inl ⟨ev, hmem, hop, rfl⟩
        rcases inv.only v hve hne with hvo | ⟨k, hk⟩
        · exact collide _ v.sealed s1 (Or.inl ⟨v, hve, hvo, rfl⟩) ⟨[], by simp⟩ hne
            (fun x hx => List.mem_flatMap.mpr ⟨v, hv, hx⟩)
        · have hnk : ev.op.on k = false := by obtain ⟨rd, wr, coin, ho⟩ := hop; rw [ho]; rfl
          have heq : sealedBy k evs = (post.filter fun e => e.op.on k).flatMap (·.sealed) := by
            unfold sealedBy
            rw [hevs, List.filter_append, List.flatMap_append, hpref, List.filter_cons, hnk]; simp
          refine collide _ _ s1 (srcK k) ⟨[], by simp⟩ ?_ ?_
          · rw [heq]
            intro hnil
            exact hne (List.flatMap_eq_nil_iff.mp hnil v (List.mem_filter.mpr ⟨hv, hk⟩))
          · intro x hx
            rw [heq] at hx
            obtain ⟨w, hw, hxw⟩ := List.mem_flatMap.mp hx
            exact List.mem_flatMap.mpr ⟨w, List.mem_of_mem_filter hw, hxw⟩
    · right
      have heq : sealedBy k evs = ev.sealed ++ (post.filter fun e => e.op.on k).flatMap (·.sealed) := by
        unfold sealedBy
        rw [hevs, List.filter_append, List.flatMap_append, hpref, List.filter_cons, hk]; simp
      refine ⟨k, fun v hve hne => ?_⟩
      rcases later v hve hne with rfl | hv
      · exact onOp _ k hk
      · rcases inv.only v hve hne with hvo | ⟨j, hj⟩
        · exact (collide _ v.sealed (srcK k) (Or.inl ⟨v, hve, hvo, rfl⟩) ⟨_, heq⟩ hne
            (fun x hx => List.mem_flatMap.mpr ⟨v, hv, hx⟩)).elim
        · by_cases hjk : j = k
          · subst hjk; exact onOp v j hj
          · have hnj : ev.op.on j = false := by
              rcases onOp ev k hk with ⟨b, ho⟩ | ⟨b, ho⟩ <;> rw [ho] <;> simp [EncOp.on, Ne.symm hjk]
            have heqj : sealedBy j evs = (post.filter fun e => e.op.on j).flatMap (·.sealed) := by
              unfold sealedBy
              rw [hevs, List.filter_append, List.flatMap_append, hpref, List.filter_cons, hnj]; simp
            refine (collide _ _ (srcK k) (srcK j) ⟨_, heq⟩ ?_ ?_).elim
            · rw [heqj]
              intro hnil
              exact hne (List.flatMap_eq_nil_iff.mp hnil v (List.mem_filter.mpr ⟨hv, hj⟩))
            · intro x hx
              rw [heqj] at hx
              obtain ⟨w, hw, hxw⟩ := List.mem_flatMap.mp hx
              exact List.mem_flatMap.mpr ⟨w, List.mem_of_mem_filter hw, hxw⟩
  refine ⟨hone, ?_⟩
  have hsrc : IsSource evs (evs.flatMap (·.sealed)) := by
    rcases hone with ⟨pre, ev, post, h1, h2, h3⟩ | ⟨k, hk⟩
    · refine Or.inl ⟨ev, by rw [h1]; simp, h2, ?_⟩
      have h4 : pre.flatMap (·.sealed) = [] := List.flatMap_eq_nil_iff.mpr fun v hv => h3 v (by simp [hv])
      have h5 : post.flatMap (·.sealed) = [] := List.flatMap_eq_nil_iff.mpr fun v hv => h3 v (by simp [hv])
      rw [h1]; simp [h4, h5]
    · refine Or.inr ⟨k, ?_⟩
      rw [← sealedBy_eq]
      have ha : ∀ l : List EncEvent, (∀ v ∈ l, v.sealed ≠ [] → (∃ b, v.op = .write k b) ∨ ∃ coin, v.op = .close k coin) →
          l.flatMap (·.sealed) = sealedBy k l := by
        intro l
        induction l with
        | nil => intro _; rfl
        | cons v vs ih =>
          intro hk
          have h1 := ih (fun w hw => hk w (by simp [hw]))
          simp only [sealedBy, List.filter_cons, List.flatMap_cons] at h1 ⊢
          rw [h1]
          by_cases hon : v.op.on k = true
          · simp [hon]
          · have : v.sealed = [] := by
              by_contra hne
              rcases hk v (by simp) hne with ⟨b, hb⟩ | ⟨cn, hb⟩ <;> rw [hb] at hon <;> simp [EncOp.on] at hon
            simp [hon, this]
      exact ha evs hk
  by_contra hgt
  have e1 : (evs.flatMap (·.sealed))[0]? = some ((evs.flatMap (·.sealed))[0]'(by omega)) := List.getElem?_eq_getElem _
  have e2 : (evs.flatMap (·.sealed))[2^32]? = some ((evs.flatMap (·.sealed))[2^32]'(by omega)) := List.getElem?_eq_getElem _
  have hp := (C85_pairs P sender blk c e0 he evs s h _ _ hsrc hsrc 0 (2^32) _ _ e1 e2).mpr (by decide)
  rw [← hall] at hn
  unfold NoReuse at hn
  rw [List.nodup_iff_getElem?_ne_getElem?] at hn
  refine hn 0 (2^32) (by decide) (by rw [List.length_map]; omega) ?_
  rw [List.getElem?_map, List.getElem?_map, e1, e2]
  simp only [Option.map_some, hp.1, hp.2]

/-- Both sides of `C85_exact` occur: the history of the two interleaved stream writers reuses nonces, ... -/
example : History toyPrims Demo.newEnc Demo.evs Demo.final ∧ ¬ NoReuse (Demo.evs.flatMap (·.sealed)) ∧
    IsSource Demo.evs (sealedBy 0 Demo.evs) ∧ IsSource Demo.evs (sealedBy 1 Demo.evs) ∧
    (sealedBy 0 Demo.evs).length = 2 ∧ (sealedBy 1 Demo.evs).length = 2 := by
  refine ⟨Demo.history, ?_, Or.inr ⟨0, sealedBy_eq _ _⟩, Or.inr ⟨1, sealedBy_eq _ _⟩, by decide +kernel, by decide +kernel⟩
  unfold NoReuse
  decide +kernel

/-- ... and one stream writer with three chunks does not. -/
example : ∃ evs s, History toyPrims Demo.newEnc evs s ∧ NoReuse (evs.flatMap (·.sealed)) ∧
    (evs.flatMap (·.sealed)).length = 3 := by
  refine ⟨_, _, History.run [.add Demo.bob.pub (List.replicate 12 4), .openStream Demo.dest,
    .write 0 [1, 2, 3, 4, 5, 6, 7, 8, 9], .close 0 Demo.coin] [] { enc := Demo.newEnc }
    (.start (P := toyPrims) (e0 := Demo.newEnc)) (by simp), ?_, by decide +kernel⟩
  unfold NoReuse
  decide +kernel

end Sigtool
