import Verif.StreamLemmas
/-! # Nonce: which nonces the writing side uses, for every state, reader and destination -/

namespace Sigtool

/-- The fields no call after the header changes; the HMAC keeps its key. -/
structure Encryptor.Frame (e e' : Encryptor) : Prop where
  hdr : e'.hdr = e.hdr
  key : e'.key = e.key
  encSK : e'.encSK = e.encSK
  sender : e'.sender = e.sender
  auth : e'.auth = e.auth
  nonce : e'.nonce = e.nonce
  ae : e'.ae = e.ae
  bufLen : e'.bufLen = e.bufLen
  started : e'.started = e.started
  stream : e'.stream = e.stream
  hmac : e'.hmac.map (·.1) = e.hmac.map (·.1)

theorem Encryptor.Frame.refl (e : Encryptor) : e.Frame e := ⟨rfl, rfl, rfl, rfl, rfl, rfl, rfl, rfl, rfl, rfl, rfl⟩

theorem Encryptor.Frame.trans {a b c : Encryptor} (h : a.Frame b) (g : b.Frame c) : a.Frame c :=
  ⟨g.hdr.trans h.hdr, g.key.trans h.key, g.encSK.trans h.encSK, g.sender.trans h.sender, g.auth.trans h.auth,
    g.nonce.trans h.nonce, g.ae.trans h.ae, g.bufLen.trans h.bufLen, g.started.trans h.started,
    g.stream.trans h.stream, g.hmac.trans h.hmac⟩

/-- One block: at most one `Seal`, with the block's own number in the nonce. -/
theorem encryptBlock_frame (P : Prims) (e : Encryptor) (pt : Bytes) (wr : Writer) (i : Nat) (eof : Bool) (coin : Bytes)
    (r : Res Unit) (e' : Encryptor) (wr' : Writer) (h : e.encryptBlock P pt wr i eof coin = (r, e', wr')) :
    e.Frame e' ∧
    ((e.ae = none ∧ e'.seals = e.seals ∧ r.isPanic = true) ∨
     ∃ dkey ad, e.ae = some dkey ∧ e'.seals = e.seals ++ [⟨dkey, be32 i ++ e.nonce.drop 4, ad, pt⟩]) := by
  unfold Encryptor.encryptBlock at h
  cases ha : e.ae with
  | none =>
    rw [ha] at h
    cases h
    exact ⟨Encryptor.Frame.refl _, Or.inl ⟨rfl, rfl, rfl⟩⟩
  | some dkey =>
    rw [ha] at h
    dsimp only at h
    split at h
    · cases h
      exact ⟨⟨rfl, rfl, rfl, rfl, rfl, rfl, ha.symm ▸ rfl, rfl, rfl, rfl, rfl⟩, Or.inr ⟨_, _, rfl, rfl⟩⟩
    · split at h
      · cases h
        exact ⟨⟨rfl, rfl, rfl, rfl, rfl, rfl, ha.symm ▸ rfl, rfl, rfl, rfl, rfl⟩, Or.inr ⟨_, _, rfl, rfl⟩⟩
      · split at h
        · cases h
          exact ⟨⟨rfl, rfl, rfl, rfl, rfl, rfl, ha.symm ▸ rfl, rfl, rfl, rfl, rfl⟩, Or.inr ⟨_, _, rfl, rfl⟩⟩
        · rename_i hm
          split at h
          · cases h
            exact ⟨⟨rfl, rfl, rfl, rfl, rfl, rfl, ha.symm ▸ rfl, rfl, rfl, rfl, by simp [hm]⟩, Or.inr ⟨_, _, rfl, rfl⟩⟩
          · cases h
            exact ⟨⟨rfl, rfl, rfl, rfl, rfl, rfl, ha.symm ▸ rfl, rfl, rfl, rfl, by simp [hm]⟩, Or.inr ⟨_, _, rfl, rfl⟩⟩

/-- `recs` are `Seal` calls under `key` with consecutive block numbers from `i` in the nonce. -/
def Consecutive (key nonce : Bytes) (i : Nat) (recs : List SealRec) : Prop :=
  ∀ j s, recs[j]? = some s → s.key = key ∧ s.nonce = be32 (i + j) ++ nonce.drop 4

theorem Consecutive.nil (key nonce : Bytes) (i : Nat) : Consecutive key nonce i [] := by
  intro j s h; simp at h

theorem Consecutive.cons {key nonce : Bytes} {i k : Nat} {s : SealRec} {recs : List SealRec} (h1 : s.key = key)
    (h2 : s.nonce = be32 i ++ nonce.drop 4) (hk : k % 2^32 = (i + 1) % 2^32) (h : Consecutive key nonce k recs) :
    Consecutive key nonce i (s :: recs) := by
  intro j t hj
  cases j with
  | zero => simp at hj; subst hj; exact ⟨h1, h2⟩
  | succ j =>
    have := h j t (by simpa using hj)
    refine ⟨this.1, ?_⟩
    rw [this.2, be32_congr (k + j) (i + (j + 1)) (by omega)]

theorem Consecutive.snoc {key nonce : Bytes} {i k : Nat} {s : SealRec} {recs : List SealRec} (h1 : s.key = key)
    (h2 : s.nonce = be32 k ++ nonce.drop 4) (hk : k % 2^32 = (i + recs.length) % 2^32)
    (h : Consecutive key nonce i recs) : Consecutive key nonce i (recs ++ [s]) := by
  intro j t hj
  rw [List.getElem?_append] at hj
  split at hj
  · exact h j t hj
  · rename_i hlt
    have : j = recs.length := by
      by_contra hne
      rw [List.getElem?_eq_none (by simp; omega)] at hj
      cases hj
    subst this
    simp at hj
    subst hj
    exact ⟨h1, by rw [h2, be32_congr _ _ hk]⟩

/-- The block loop of `Encrypt`. -/
theorem encryptLoop_frame (P : Prims) (coin : Bytes) : ∀ (fuel : Nat) (e : Encryptor) (rd : Reader) (wr : Writer) (i : Nat)
    (r : Res Unit) (e' : Encryptor) (rd' : Reader) (wr' : Writer),
    Encryptor.encryptLoop P coin fuel e rd wr i = (r, e', rd', wr') →
    e.Frame e' ∧ ∃ recs, e'.seals = e.seals ++ recs ∧
      ∀ dkey, e.ae = some dkey → Consecutive dkey e.nonce i recs := by
  intro fuel
  induction fuel with
  | zero =>
    intro e rd wr i r e' rd' wr' h
    cases h
    exact ⟨Encryptor.Frame.refl _, [], by simp, fun _ _ => Consecutive.nil _ _ _⟩
  | succ fuel ih =>
    intro e rd wr i r e' rd' wr' h
    unfold Encryptor.encryptLoop at h
    split at h
    rename_i buf err rd1 hrd
    have key : ∀ eof : Bool, (match e.encryptBlock P buf wr i eof coin with
      | (.ok (), e, wr) =>
        if eof then (.ok (), e, rd1, wr)
        else Encryptor.encryptLoop P coin fuel e rd1 wr ((i + 1) % 2^32)
      | (.err x, e, wr) => (.err x, e, rd1, wr)
      | (.panic x, e, wr) => (.panic x, e, rd1, wr)) = (r, e', rd', wr') →
      e.Frame e' ∧ ∃ recs, e'.seals = e.seals ++ recs ∧
        ∀ dkey, e.ae = some dkey → Consecutive dkey e.nonce i recs := by
      clear h
      intro eof h
      rcases hb : e.encryptBlock P buf wr i eof coin with ⟨r1, e1, wr1⟩
      obtain ⟨hf, hs⟩ := encryptBlock_frame P e buf wr i eof coin r1 e1 wr1 hb
      have hone : ∃ recs, e1.seals = e.seals ++ recs ∧ ∀ dkey, e.ae = some dkey → Consecutive dkey e.nonce i recs := by
        rcases hs with ⟨h1, h2, _⟩ | ⟨dk, ad, h1, h2⟩
        · exact ⟨[], by simp [h2], fun _ _ => Consecutive.nil _ _ _⟩
        · refine ⟨_, h2, ?_⟩
          intro dkey hd
          rw [h1] at hd; cases hd
          exact Consecutive.cons rfl rfl rfl (Consecutive.nil _ _ (i + 1))
      rw [hb] at h
      split at h
      · rename_i hx
        cases hx
        split at h
        · cases h; exact ⟨hf, hone⟩
        · obtain ⟨g1, recs, g2, g3⟩ := ih _ _ _ _ _ _ _ _ h
          refine ⟨hf.trans g1, ?_⟩
          rcases hs with ⟨h1, h2, h4⟩ | ⟨dk, ad, h1, h2⟩
          · cases h4
          · refine ⟨_, by rw [g2, h2, List.append_assoc], ?_⟩
            intro dkey hd
            rw [h1] at hd; cases hd
            have := g3 dk (by rw [hf.ae, h1])
            rw [hf.nonce] at this
            exact Consecutive.cons rfl rfl (by omega) this
      · rename_i hx; cases hx; cases h; exact ⟨hf, hone⟩
      · rename_i hx; cases hx; cases h; exact ⟨hf, hone⟩
    cases err with
    | none => exact key false h
    | some x =>
      dsimp only at h
      split at h
      · rename_i hx
        split at hx
        · cases hx
        · cases h
          exact ⟨Encryptor.Frame.refl _, [], by simp, fun _ _ => Consecutive.nil _ _ _⟩
      · cases h
        exact ⟨Encryptor.Frame.refl _, [], by simp, fun _ _ => Consecutive.nil _ _ _⟩
      · exact key _ h

/-- The loop of the stream writer's `Write`. -/
theorem writeLoop_frame (P : Prims) : ∀ (fuel : Nat) (e : Encryptor) (w : EncWriter) (b : Bytes)
    (r : Res Unit) (e' : Encryptor) (w' : EncWriter),
    EncWriter.writeLoop P fuel e w b = (r, e', w') →
    e.Frame e' ∧ ∃ recs, e'.seals = e.seals ++ recs ∧
      (∀ dkey, e.ae = some dkey → Consecutive dkey e.nonce w.blk recs) ∧
      (r = .ok () → w'.err = w.err ∧ w'.blk % 2^32 = (w.blk + recs.length) % 2^32 ∧
        (w.buf.length ≤ e.hdr.chunkSize → w'.buf.length ≤ e.hdr.chunkSize)) := by
  intro fuel
  induction fuel with
  | zero =>
    intro e w b r e' w' h
    cases h
    exact ⟨Encryptor.Frame.refl _, [], by simp, fun _ _ => Consecutive.nil _ _ _, by simp⟩
  | succ fuel ih =>
    intro e w b r e' w' h
    unfold EncWriter.writeLoop at h
    split at h
    · cases h
      exact ⟨Encryptor.Frame.refl _, [], by simp, fun _ _ => Consecutive.nil _ _ _, by simp⟩
    · dsimp only at h
      have hbuf : w.buf.length ≤ e.hdr.chunkSize →
          (w.buf ++ b.take (min (e.hdr.chunkSize - w.buf.length) b.length)).length ≤ e.hdr.chunkSize := by
        intro hl; simp only [List.length_append, List.length_take]; omega
      split at h
      · rcases hb : e.encryptBlock P (w.buf ++ b.take (min (e.hdr.chunkSize - w.buf.length) b.length)) w.wr w.blk false []
          with ⟨r1, e1, wr1⟩
        obtain ⟨hf, hs⟩ := encryptBlock_frame P e _ _ _ _ _ r1 e1 wr1 hb
        have hone : ∃ recs, e1.seals = e.seals ++ recs ∧ ∀ dkey, e.ae = some dkey → Consecutive dkey e.nonce w.blk recs := by
          rcases hs with ⟨h1, h2, _⟩ | ⟨dk, ad, h1, h2⟩
          · exact ⟨[], by simp [h2], fun _ _ => Consecutive.nil _ _ _⟩
          · refine ⟨_, h2, ?_⟩
            intro dkey hd
            rw [h1] at hd; cases hd
            exact Consecutive.cons rfl rfl rfl (Consecutive.nil _ _ (w.blk + 1))
        rw [hb] at h
        split at h
        · rename_i hx
          cases hx
          obtain ⟨g1, recs, g2, g3, g4⟩ := ih _ _ _ _ _ _ h
          refine ⟨hf.trans g1, ?_⟩
          rcases hs with ⟨h1, h2, h4⟩ | ⟨dk, ad, h1, h2⟩
          · cases h4
          · refine ⟨_, by rw [g2, h2, List.append_assoc], ?_, ?_⟩
            · intro dkey hd
              rw [h1] at hd; cases hd
              have := g3 dk (by rw [hf.ae, h1])
              rw [hf.nonce] at this
              exact Consecutive.cons rfl rfl (by dsimp only; omega) this
            · intro hr
              obtain ⟨k1, k2, k3⟩ := g4 hr
              refine ⟨k1, ?_, ?_⟩
              · rw [k2]; simp only [List.singleton_append, List.length_cons]; omega
              · intro _; rw [hf.hdr] at k3; exact k3 (by simp)
        · rename_i hx; cases hx; cases h
          obtain ⟨recs, k1, k2⟩ := hone
          exact ⟨hf, recs, k1, k2, by simp⟩
        · rename_i hx; cases hx; cases h
          obtain ⟨recs, k1, k2⟩ := hone
          exact ⟨hf, recs, k1, k2, by simp⟩
      · obtain ⟨g1, recs, g2, g3, g4⟩ := ih _ _ _ _ _ _ h
        refine ⟨g1, recs, g2, g3, ?_⟩
        intro hr
        obtain ⟨k1, k2, k3⟩ := g4 hr
        exact ⟨k1, k2, fun hl => k3 (hbuf hl)⟩

/-- `Write`. -/
theorem write_frame (P : Prims) (e : Encryptor) (w : EncWriter) (b : Bytes) (r : Res Nat) (e' : Encryptor)
    (w' : EncWriter) (h : w.write P e b = (r, e', w')) :
    e.Frame e' ∧ ∃ recs, e'.seals = e.seals ++ recs ∧
      (∀ dkey, e.ae = some dkey → Consecutive dkey e.nonce w.blk recs) ∧
      (r.isPanic = false → w'.err = none → w.err = none ∧ w'.blk % 2^32 = (w.blk + recs.length) % 2^32 ∧
        (w.buf.length ≤ e.hdr.chunkSize → w'.buf.length ≤ e.hdr.chunkSize)) ∧ (w.err ≠ none → e' = e ∧ w' = w) := by
  unfold EncWriter.write at h
  cases hw : w.err with
  | some x =>
    rw [hw] at h
    cases h
    exact ⟨Encryptor.Frame.refl _, [], by simp, fun _ _ => Consecutive.nil _ _ _, by simp [hw], by simp⟩
  | none =>
    rw [hw] at h
    dsimp only at h
    split at h
    · cases h
      exact ⟨Encryptor.Frame.refl _, [], by simp, fun _ _ => Consecutive.nil _ _ _, by simp, by simp⟩
    · rcases hl : EncWriter.writeLoop P (b.length + 2) e w b with ⟨r1, e1, w1⟩
      obtain ⟨g1, recs, g2, g3, g4⟩ := writeLoop_frame P _ _ _ _ _ _ _ hl
      rw [hl] at h
      match r1, h with
      | .ok (), h =>
        cases h
        obtain ⟨k1, k2, k3⟩ := g4 rfl
        exact ⟨g1, recs, g2, g3, fun _ _ => ⟨rfl, k2, k3⟩, by simp⟩
      | .err x, h =>
        cases h
        refine ⟨g1, recs, g2, g3, ?_, by simp⟩
        intro _ hn
        rw [writeLoop_err P _ _ _ _ _ _ _ hl] at hn
        cases hn
      | .panic x, h =>
        cases h
        exact ⟨g1, recs, g2, g3, by simp [Res.isPanic], by simp⟩

/-- `Close`. -/
theorem close_frame (P : Prims) (e : Encryptor) (w : EncWriter) (coin : Bytes) (r : Res Unit) (e' : Encryptor)
    (w' : EncWriter) (h : w.close P e coin = (r, e', w')) :
    e.Frame e' ∧ ∃ recs, e'.seals = e.seals ++ recs ∧
      (∀ dkey, e.ae = some dkey → Consecutive dkey e.nonce w.blk recs) ∧
      (r.isPanic = false → w'.err ≠ none) ∧ (w.err ≠ none → e' = e ∧ w' = w) := by
  unfold EncWriter.close at h
  cases hw : w.err with
  | some x =>
    rw [hw] at h
    cases h
    exact ⟨Encryptor.Frame.refl _, [], by simp, fun _ _ => Consecutive.nil _ _ _, by simp [hw], by simp⟩
  | none =>
    rw [hw] at h
    dsimp only at h
    rcases hb : e.encryptBlock P w.buf w.wr w.blk true coin with ⟨r1, e1, wr1⟩
    obtain ⟨hf, hs⟩ := encryptBlock_frame P e _ _ _ _ _ r1 e1 wr1 hb
    have hone : ∃ recs, e1.seals = e.seals ++ recs ∧ ∀ dkey, e.ae = some dkey → Consecutive dkey e.nonce w.blk recs := by
      rcases hs with ⟨h1, h2, _⟩ | ⟨dk, ad, h1, h2⟩
      · exact ⟨[], by simp [h2], fun _ _ => Consecutive.nil _ _ _⟩
      · refine ⟨_, h2, ?_⟩
        intro dkey hd
        rw [h1] at hd; cases hd
        exact Consecutive.cons rfl rfl rfl (Consecutive.nil _ _ (w.blk + 1))
    obtain ⟨recs, k1, k2⟩ := hone
    rw [hb] at h
    match r1, h with
    | .err x, h => cases h; exact ⟨hf, recs, k1, k2, by simp, by simp⟩
    | .panic x, h => cases h; exact ⟨hf, recs, k1, k2, by simp [Res.isPanic], by simp⟩
    | .ok (), h =>
      dsimp only at h
      split at h <;> cases h <;> exact ⟨hf, recs, k1, k2, by simp, by simp⟩

end Sigtool
