import Verif.History
/-! # Nonces over a history of calls -/

namespace Sigtool

/-- The header step: it either starts the encryptor or leaves it unstarted; no data are sealed. -/
theorem start_frame (P : Prims) (e : Encryptor) (wr : Writer) (r : Res Unit) (e' : Encryptor) (wr' : Writer)
    (h : e.start P wr = (r, e', wr')) :
    e'.seals = e.seals ∧ e'.stream = e.stream ∧
    ((r = .ok () ∧ e'.started = true ∧ ∃ dkey, e'.ae = some dkey) ∨ (r ≠ .ok () ∧ e'.started = e.started)) := by
  unfold Encryptor.start at h
  split at h
  · cases h; exact ⟨rfl, rfl, Or.inr ⟨by simp, rfl⟩⟩
  · cases h; exact ⟨rfl, rfl, Or.inr ⟨by simp, rfl⟩⟩
  · dsimp only at h
    split at h
    · cases h; exact ⟨rfl, rfl, Or.inr ⟨by simp, rfl⟩⟩
    · cases h; exact ⟨rfl, rfl, Or.inl ⟨rfl, rfl, _, rfl⟩⟩

/-- `Encrypt` in any state. -/
theorem encrypt_frame (P : Prims) (e : Encryptor) (rd : Reader) (wr : Writer) (coin : Bytes)
    (r : Res Unit) (e' : Encryptor) (rd' : Reader) (wr' : Writer) (h : e.encrypt P rd wr coin = (r, e', rd', wr')) :
    e'.stream = e.stream ∧ (e.started = true → e.Frame e') ∧ (e'.started = false → e'.seals = e.seals) ∧
    ∃ recs, e'.seals = e.seals ++ recs ∧
      ∀ dkey, e'.ae = some dkey → e'.started = true → Consecutive dkey e'.nonce 0 recs ∧
        (e.started = false → ∃ dkey, e'.ae = some dkey) := by
  unfold Encryptor.encrypt at h
  split at h
  · cases h
    exact ⟨rfl, fun _ => Encryptor.Frame.refl _, fun _ => rfl, [], by simp,
      fun d hd _ => ⟨Consecutive.nil _ _ _, fun _ => ⟨d, hd⟩⟩⟩
  · dsimp only at h
    have body : ∀ (e1 : Encryptor) (wr1 : Writer),
        (match Encryptor.encryptLoop P coin (rd.content.length + 1) e1 rd wr1 0 with
        | (.ok (), e, rd, wr) =>
          match wr.close with
          | (some x, wr) => ((.err x : Res Unit), e, rd, wr)
          | (none, wr) => (.ok (), e, rd, wr)
        | r => r) = (r, e', rd', wr') →
        e1.Frame e' ∧ ∃ recs, e'.seals = e1.seals ++ recs ∧ ∀ dkey, e1.ae = some dkey → Consecutive dkey e1.nonce 0 recs := by
      intro e1 wr1 hb
      rcases hl : Encryptor.encryptLoop P coin (rd.content.length + 1) e1 rd wr1 0 with ⟨r2, e2, rd2, wr2⟩
      have := encryptLoop_frame P coin _ _ _ _ _ _ _ _ _ hl
      rw [hl] at hb
      cases r2 with
      | ok u =>
        dsimp only at hb
        split at hb <;> cases hb <;> exact this
      | err x => cases hb; exact this
      | panic x => cases hb; exact this
    split at h
    · rename_i hst
      obtain ⟨g1, recs, g2, g3⟩ := body e wr h
      refine ⟨g1.stream, fun _ => g1, ?_, recs, g2, ?_⟩
      · intro hn; rw [g1.started, hst] at hn; cases hn
      · intro d hd _
        rw [g1.nonce]
        exact ⟨g3 d (by rw [← g1.ae]; exact hd), fun _ => ⟨d, hd⟩⟩
    · rename_i hst
      rcases hs : e.start P wr with ⟨r1, e1, wr1⟩
      obtain ⟨k1, k2, k3⟩ := start_frame P e wr r1 e1 wr1 hs
      rw [hs] at h
      cases r1 with
      | ok u =>
        dsimp only at h
        obtain ⟨g1, recs, g2, g3⟩ := body e1 wr1 h
        have hs1 : e1.started = true := by
          rcases k3 with ⟨_, h2, _⟩ | ⟨h2, _⟩
          · exact h2
          · exact absurd rfl h2
        refine ⟨g1.stream.trans k2, fun hq => absurd hq hst, ?_, recs, by rw [g2, k1], ?_⟩
        · intro hn; rw [g1.started, hs1] at hn; cases hn
        · intro d hd _
          rw [g1.nonce]
          exact ⟨g3 d (by rw [← g1.ae]; exact hd), fun _ => ⟨d, hd⟩⟩
      | err x =>
        cases h
        have hn : e'.started = e.started := by
          rcases k3 with ⟨h2, _⟩ | ⟨_, h2⟩
          · cases h2
          · exact h2
        exact ⟨k2, fun hq => absurd hq hst, fun _ => k1, [], by simp [k1],
          fun d hd _ => ⟨Consecutive.nil _ _ _, fun _ => ⟨d, hd⟩⟩⟩
      | panic x =>
        cases h
        exact ⟨k2, fun hq => absurd hq hst, fun _ => k1, [], by simp [k1],
          fun d hd _ => ⟨Consecutive.nil _ _ _, fun _ => ⟨d, hd⟩⟩⟩

/-- `Encrypt` on an unstarted encryptor: if it is started afterwards, the cipher is in place. -/
theorem encrypt_ae (P : Prims) (e : Encryptor) (rd : Reader) (wr : Writer) (coin : Bytes)
    (r : Res Unit) (e' : Encryptor) (rd' : Reader) (wr' : Writer) (h : e.encrypt P rd wr coin = (r, e', rd', wr'))
    (h0 : e.started = false) (h1 : e'.started = true) : ∃ dkey, e'.ae = some dkey := by
  unfold Encryptor.encrypt at h
  split at h
  · cases h; rw [h0] at h1; cases h1
  · simp only [h0, Bool.false_eq_true, if_false] at h
    rcases hs : e.start P wr with ⟨r1, e1, wr1⟩
    obtain ⟨k1, k2, k3⟩ := start_frame P e wr r1 e1 wr1 hs
    rw [hs] at h
    rcases k3 with ⟨rfl, _, d, hd⟩ | ⟨hne, hst⟩
    · dsimp only at h
      rcases hl : Encryptor.encryptLoop P coin (rd.content.length + 1) e1 rd wr1 0 with ⟨r2, e2, rd2, wr2⟩
      have := (encryptLoop_frame P coin _ _ _ _ _ _ _ _ _ hl).1
      rw [hl] at h
      have he : e2.ae = some d := by rw [this.ae, hd]
      cases r2 with
      | ok u => dsimp only at h; split at h <;> cases h <;> exact ⟨d, he⟩
      | err x => cases h; exact ⟨d, he⟩
      | panic x => cases h; exact ⟨d, he⟩
    · cases r1 with
      | ok u => exact absurd rfl hne
      | err x => cases h; rw [hst, h0] at h1; cases h1
      | panic x => cases h; rw [hst, h0] at h1; cases h1

/-- `NewStreamWriter` in any state. -/
theorem newStreamWriter_frame (P : Prims) (e : Encryptor) (wr : Writer) (r : Res EncWriter) (e' : Encryptor) (wr' : Writer)
    (h : e.newStreamWriter P wr = (r, e', wr')) :
    e'.seals = e.seals ∧
    (e.started = true → e' = { e with stream := true } ∧ r = .ok { wr := wr } ∧ wr' = wr) ∧
    (∀ w, r = .ok w → w = { wr := wr' } ∧ e'.started = true ∧ e'.stream = true ∧ (e.started = false → ∃ dkey, e'.ae = some dkey)) ∧
    (e.started = false → (∀ w, r ≠ .ok w) → e'.started = false ∧ e'.stream = e.stream) := by
  unfold Encryptor.newStreamWriter at h
  dsimp only at h
  split at h
  · rename_i hst
    cases h
    refine ⟨rfl, fun _ => ⟨rfl, rfl, rfl⟩, ?_, ?_⟩
    · intro w hw; cases hw; exact ⟨rfl, hst, rfl, fun h => by rw [hst] at h; cases h⟩
    · intro h; rw [hst] at h; cases h
  · rename_i hst
    rcases hs : e.start P wr with ⟨r1, e1, wr1⟩
    obtain ⟨k1, k2, k3⟩ := start_frame P e wr r1 e1 wr1 hs
    rw [hs] at h
    cases r1 with
    | ok u =>
      cases h
      rcases k3 with ⟨_, h2, d, h3⟩ | ⟨h2, _⟩
      · refine ⟨k1, fun h => absurd h hst, ?_, ?_⟩
        · intro w hw; cases hw; exact ⟨rfl, h2, rfl, fun _ => ⟨d, h3⟩⟩
        · intro _ hn; exact absurd rfl (hn _)
      · exact absurd rfl h2
    | err x =>
      cases h
      rcases k3 with ⟨h2, _⟩ | ⟨_, h2⟩
      · cases h2
      · exact ⟨k1, fun h => absurd h hst, by simp, fun hh _ => ⟨by rw [h2, hh], k2⟩⟩
    | panic x =>
      cases h
      rcases k3 with ⟨h2, _⟩ | ⟨_, h2⟩
      · cases h2
      · exact ⟨k1, fun h => absurd h hst, by simp, fun hh _ => ⟨by rw [h2, hh], k2⟩⟩

/-- `AddRecipient` touches nothing but the header. -/
theorem add_frame (P : Prims) (e : Encryptor) (pk : PublicKey) (rbuf : Bytes) (r : Res Unit) (e' : Encryptor)
    (h : e.addRecipient P pk rbuf = (r, e')) :
    e'.seals = e.seals ∧ e'.started = e.started ∧ e'.stream = e.stream ∧ e'.ae = e.ae ∧ e'.nonce = e.nonce ∧
      (e.started = true → e' = e ∧ r = .err .encStarted) := by
  unfold Encryptor.addRecipient at h
  split at h
  · cases h; exact ⟨rfl, rfl, rfl, rfl, rfl, fun _ => ⟨rfl, rfl⟩⟩
  · rename_i hst
    split at h <;> cases h <;> exact ⟨rfl, rfl, rfl, rfl, rfl, fun h => absurd h hst⟩

/-- Is this a call on stream writer `k`? -/
def EncOp.on (k : Nat) : EncOp → Bool
  | .write j _ => j == k
  | .close j _ => j == k
  | _ => false

/-- The data sealed by the calls on stream writer `k`. -/
def sealedBy (k : Nat) (evs : List EncEvent) : List SealRec := (evs.filter fun ev => ev.op.on k).flatMap (·.sealed)

theorem sealedBy_snoc (k : Nat) (evs : List EncEvent) (ev : EncEvent) :
    sealedBy k (evs ++ [ev]) = sealedBy k evs ++ (if ev.op.on k then ev.sealed else []) := by
  simp only [sealedBy, List.filter_append, List.flatMap_append]
  congr 1
  by_cases h : ev.op.on k = true <;> simp [h]

structure NonceInv (evs : List EncEvent) (s : EncState) : Prop where
  streams : s.streams ≠ [] → s.enc.started = true
  ae : s.enc.started = true → ∃ dkey, s.enc.ae = some dkey
  recs : ∀ dkey, s.enc.ae = some dkey → s.enc.started = true → ∀ k, Consecutive dkey s.enc.nonce 0 (sealedBy k evs)
  encs : ∀ dkey, s.enc.ae = some dkey → s.enc.started = true → ∀ ev ∈ evs,
    (∃ rd wr coin, ev.op = .encrypt rd wr coin) → Consecutive dkey s.enc.nonce 0 ev.sealed
  absent : ∀ k, s.streams.length ≤ k → sealedBy k evs = []
  idle : s.enc.started = false → ∀ ev ∈ evs, ev.sealed = []
  only : ∀ ev ∈ evs, ev.sealed ≠ [] → (∃ rd wr coin, ev.op = .encrypt rd wr coin) ∨ ∃ k, ev.op.on k = true
  all : s.enc.seals = evs.flatMap (·.sealed)
  blk : (∀ v ∈ evs, v.res.isPanic = false) → ∀ k w, s.streams[k]? = some w → w.err = none →
    w.blk % 2^32 = (sealedBy k evs).length % 2^32

theorem Res.unit_isPanic {α : Type} (r : Res α) : r.unit.isPanic = r.isPanic := by cases r <;> rfl

theorem drop_seals {a b c : List SealRec} (h : b = a ++ c) : b.drop a.length = c := by rw [h]; simp

theorem NonceInv.step {P : Prims} {evs : List EncEvent} {s s' : EncState} {op : EncOp} {ev : EncEvent}
    (inv : NonceInv evs s) (live : ∀ v ∈ evs, v.res.isPanic = false) (h : s.step P op = some (ev, s')) :
    NonceInv (evs ++ [ev]) s' := by
  have hop := step_op h
  -- a call on stream writer `k` that leaves the encryptor framed
  have onStream : ∀ (k : Nat) (w w' : EncWriter) (e' : Encryptor) (recs : List SealRec), op.on k = true →
      (∀ j, op.on j = true → j = k) → s.streams[k]? = some w → ev.sealed = recs →
      s' = { enc := e', streams := s.streams.set k w' } → s.enc.Frame e' → e'.seals = s.enc.seals ++ recs →
      (∀ dkey, s.enc.ae = some dkey → Consecutive dkey s.enc.nonce w.blk recs) →
      (w.err ≠ none → recs = []) →
      (ev.res.isPanic = false → w'.err = none → w.err = none ∧ w'.blk % 2^32 = (w.blk + recs.length) % 2^32) →
      NonceInv (evs ++ [ev]) s' := by
    intro k w w' e' recs hk huniq hw hsd hs' hf hseals hcons herr hblk
    have hstream : s.enc.started = true := inv.streams (by rintro hnil; rw [hnil] at hw; simp at hw)
    have hkl : k < s.streams.length := by
      by_contra hge; rw [List.getElem?_eq_none (by omega)] at hw; cases hw
    subst hs'
    have hon : ∀ j, (ev.op.on j = true) ↔ j = k := by
      intro j; rw [hop]
      exact ⟨huniq j, by rintro rfl; exact hk⟩
    refine ⟨fun _ => by rw [hf.started]; exact hstream, fun _ => by rw [hf.ae]; exact inv.ae hstream, ?_, ?_, ?_, ?_, ?_, ?_, ?_⟩
    · intro dkey hd hst j
      rw [hf.ae] at hd
      rw [hf.nonce, sealedBy_snoc]
      by_cases hj : j = k
      · subst hj
        rw [if_pos ((hon j).mpr rfl), hsd]
        by_cases he : w.err = none
        · have hb := inv.blk live j w hw he
          have hc := hcons dkey hd
          have hr := inv.recs dkey hd hstream j
          intro i t hi
          rw [List.getElem?_append] at hi
          split at hi
          · exact hr i t hi
          · rename_i hge
            have := hc _ _ hi
            refine ⟨this.1, ?_⟩
            rw [this.2, be32_congr (w.blk + (i - (sealedBy j evs).length)) (0 + i) (by omega)]
        · rw [herr he]; simpa using inv.recs dkey hd hstream j
      · rw [if_neg (by rw [hon]; exact hj)]
        simpa using inv.recs dkey hd hstream j
    · intro dkey hd hst v hv ⟨rd, wr, coin, hvo⟩
      rw [hf.ae] at hd; rw [hf.nonce]
      rcases List.mem_append.mp hv with hv | hv
      · exact inv.encs dkey hd hstream v hv ⟨rd, wr, coin, hvo⟩
      · simp only [List.mem_singleton] at hv
        subst hv
        have := (hon k).mpr rfl
        rw [hvo] at this; cases this
    · intro j hj
      simp only [List.length_set] at hj
      rw [sealedBy_snoc, inv.absent j hj, if_neg (by rw [hon]; omega)]; rfl
    · intro hn; rw [hf.started, hstream] at hn; cases hn
    · intro v hv hne
      rcases List.mem_append.mp hv with hv | hv
      · exact inv.only v hv hne
      · simp only [List.mem_singleton] at hv
        subst hv
        exact Or.inr ⟨k, (hon k).mpr rfl⟩
    · simp only [List.flatMap_append, ← inv.all]
      rw [hseals]; simp [hsd]
    · intro hp j v hv he
      have hpev : ev.res.isPanic = false := hp ev (by simp)
      rw [sealedBy_snoc, List.length_append]
      simp only [List.getElem?_set] at hv
      by_cases hj : k = j
      · subst hj
        rw [if_pos rfl, if_pos hkl] at hv
        cases hv
        rw [if_pos ((hon k).mpr rfl), hsd]
        obtain ⟨h1, h2⟩ := hblk hpev he
        have := inv.blk live k w hw h1
        omega
      · rw [if_neg hj] at hv
        rw [if_neg (by rw [hon]; exact fun hh => hj hh.symm)]
        simpa using inv.blk live j v hv he
  -- a call that seals nothing
  have quiet : ev.sealed = [] → (∀ k, op.on k = false) → (∀ rd wr coin, op ≠ .encrypt rd wr coin) →
      s'.enc.seals = s.enc.seals →
      (s'.streams ≠ [] → s'.enc.started = true) → (s'.enc.started = true → ∃ dkey, s'.enc.ae = some dkey) →
      (s.enc.started = true → s'.enc.started = true ∧ s'.enc.ae = s.enc.ae ∧ s'.enc.nonce = s.enc.nonce) →
      (∀ k w, s'.streams[k]? = some w → s.streams[k]? = some w ∨ (k = s.streams.length ∧ w.blk = 0)) →
      s.streams.length ≤ s'.streams.length →
      NonceInv (evs ++ [ev]) s' := by
    intro hsd hnk hne hse h1 h2 h3 h4 h5
    have hby : ∀ k, sealedBy k (evs ++ [ev]) = sealedBy k evs := by
      intro k; rw [sealedBy_snoc, hop, hnk k]; simp
    have hidle : s.enc.started = false → ∀ k, sealedBy k evs = [] := by
      intro hs0 k
      simp only [sealedBy, List.flatMap_eq_nil_iff]
      intro v hv
      exact inv.idle hs0 v (List.mem_of_mem_filter hv)
    refine ⟨h1, h2, ?_, ?_, ?_, ?_, ?_, ?_, ?_⟩
    · intro dkey hd hst k
      rw [hby k]
      cases hs0 : s.enc.started with
      | true =>
        obtain ⟨_, a, b⟩ := h3 hs0
        rw [b]; exact inv.recs dkey (by rw [← a]; exact hd) hs0 k
      | false => rw [hidle hs0 k]; exact Consecutive.nil _ _ _
    · intro dkey hd hst v hv hvo
      rcases List.mem_append.mp hv with hv | hv
      · cases hs0 : s.enc.started with
        | true =>
          obtain ⟨_, a, b⟩ := h3 hs0
          rw [b]; exact inv.encs dkey (by rw [← a]; exact hd) hs0 v hv hvo
        | false => rw [inv.idle hs0 v hv]; exact Consecutive.nil _ _ _
      · simp only [List.mem_singleton] at hv
        subst hv; rw [hsd]; exact Consecutive.nil _ _ _
    · intro k hk; rw [hby k]; exact inv.absent k (by omega)
    · intro hn v hv
      rcases List.mem_append.mp hv with hv | hv
      · refine inv.idle ?_ v hv
        cases hs0 : s.enc.started with
        | true => rw [(h3 hs0).1] at hn; cases hn
        | false => rfl
      · simp only [List.mem_singleton] at hv; subst hv; exact hsd
    · intro v hv hvne
      rcases List.mem_append.mp hv with hv | hv
      · exact inv.only v hv hvne
      · simp only [List.mem_singleton] at hv; subst hv; exact absurd hsd hvne
    · simp only [List.flatMap_append, ← inv.all, hse]; simp [hsd]
    · intro hp k w hw he
      rw [hby k]
      rcases h4 k w hw with h6 | ⟨h6, h7⟩
      · exact inv.blk live k w h6 he
      · rw [inv.absent k (by omega), h7]; rfl
  unfold EncState.step at h
  split at h
  · -- AddRecipient
    rename_i pk rbuf
    rcases ha : s.enc.addRecipient P pk rbuf with ⟨r, e⟩
    rw [ha] at h
    cases h
    obtain ⟨a1, a2, a3, a4, a5, a6⟩ := add_frame P _ _ _ _ _ ha
    refine quiet (by simp [a1]) (fun _ => rfl) (by simp) a1 ?_ ?_ ?_ ?_ (by simp)
    · intro hne; rw [a2]; exact inv.streams hne
    · intro hh; rw [a2] at hh; rw [a4]; exact inv.ae hh
    · intro hh; exact ⟨by rw [a2]; exact hh, a4, a5⟩
    · intro k w hw; exact Or.inl hw
  · -- Encrypt
    rename_i rd wr coin
    rcases ha : s.enc.encrypt P rd wr coin with ⟨r, e, rd', wr'⟩
    rw [ha] at h
    cases h
    obtain ⟨a1, a2, a3, recs, a4, a5⟩ := encrypt_frame P _ _ _ _ _ _ _ _ ha
    have hby : ∀ k ev0, ev0.op = EncOp.encrypt rd wr coin → sealedBy k (evs ++ [ev0]) = sealedBy k evs := by
      intro k ev0 h0; rw [sealedBy_snoc, h0]; simp [EncOp.on]
    have hkeep : s.enc.started = true → e.started = true ∧ e.ae = s.enc.ae ∧ e.nonce = s.enc.nonce := by
      intro hh; have := a2 hh; exact ⟨by rw [this.started]; exact hh, this.ae, this.nonce⟩
    have hidle : s.enc.started = false → ∀ k, sealedBy k evs = [] := by
      intro hs0 k
      simp only [sealedBy, List.flatMap_eq_nil_iff]
      intro v hv
      exact inv.idle hs0 v (List.mem_of_mem_filter hv)
    refine ⟨?_, ?_, ?_, ?_, ?_, ?_, ?_, ?_, ?_⟩
    · intro hne; exact (hkeep (inv.streams hne)).1
    · intro hh
      cases hs0 : s.enc.started with
      | true => obtain ⟨_, b, _⟩ := hkeep hs0; rw [b]; exact inv.ae hs0
      | false => exact encrypt_ae P _ _ _ _ _ _ _ _ ha hs0 hh
    · intro dkey hd hst k
      rw [hby k _ rfl]
      cases hs0 : s.enc.started with
      | true =>
        obtain ⟨_, a, b⟩ := hkeep hs0
        dsimp only; rw [b]; exact inv.recs dkey (by rw [← a]; exact hd) hs0 k
      | false => rw [hidle hs0 k]; exact Consecutive.nil _ _ _
    · intro dkey hd hst v hv hvo
      rcases List.mem_append.mp hv with hv | hv
      · cases hs0 : s.enc.started with
        | true =>
          obtain ⟨_, a, b⟩ := hkeep hs0
          dsimp only; rw [b]; exact inv.encs dkey (by rw [← a]; exact hd) hs0 v hv hvo
        | false => rw [inv.idle hs0 v hv]; exact Consecutive.nil _ _ _
      · simp only [List.mem_singleton] at hv
        subst hv
        dsimp only
        rw [drop_seals a4]
        exact (a5 dkey hd hst).1
    · intro k hk; rw [hby k _ rfl]; exact inv.absent k hk
    · intro hn v hv
      rcases List.mem_append.mp hv with hv | hv
      · refine inv.idle ?_ v hv
        cases hs0 : s.enc.started with
        | true => dsimp only at hn; rw [(hkeep hs0).1] at hn; cases hn
        | false => rfl
      · simp only [List.mem_singleton] at hv; subst hv
        dsimp only
        rw [a3 hn]; simp
    · intro v hv hvne
      rcases List.mem_append.mp hv with hv | hv
      · exact inv.only v hv hvne
      · simp only [List.mem_singleton] at hv; subst hv; exact Or.inl ⟨_, _, _, rfl⟩
    · simp only [List.flatMap_append, ← inv.all]
      rw [a4]; simp
    · intro hp k w hw he
      rw [hby k _ rfl]; exact inv.blk live k w hw he
  · -- NewStreamWriter
    rename_i wr
    rcases ha : s.enc.newStreamWriter P wr with ⟨r, e, wr'⟩
    rw [ha] at h
    cases h
    obtain ⟨a1, a2, a3, a4⟩ := newStreamWriter_frame P _ _ _ _ _ ha
    refine quiet (by simp [a1]) (fun _ => rfl) (by simp) a1 ?_ ?_ ?_ ?_ ?_
    · intro hne
      cases hs0 : s.enc.started with
      | true => rw [(a2 hs0).1]; exact hs0
      | false =>
        cases r with
        | ok w => exact (a3 w rfl).2.1
        | err x => exact absurd (inv.streams hne) (by rw [hs0]; simp)
        | panic x => exact absurd (inv.streams hne) (by rw [hs0]; simp)
    · intro hh
      cases hs0 : s.enc.started with
      | true => rw [(a2 hs0).1]; exact inv.ae hs0
      | false =>
        cases r with
        | ok w => exact (a3 w rfl).2.2.2 hs0
        | err x => dsimp only at hh; rw [(a4 hs0 (by simp)).1] at hh; cases hh
        | panic x => dsimp only at hh; rw [(a4 hs0 (by simp)).1] at hh; cases hh
    · intro hs0; dsimp only; rw [(a2 hs0).1]; exact ⟨hs0, rfl, rfl⟩
    · intro k w hw
      cases r with
      | ok w0 =>
        dsimp only at hw
        rw [List.getElem?_append] at hw
        split at hw
        · exact Or.inl hw
        · rename_i hge
          have hk : k = s.streams.length := by
            by_contra hne2
            rw [List.getElem?_eq_none (by simp; omega)] at hw; cases hw
          subst hk
          simp at hw
          subst hw
          exact Or.inr ⟨rfl, by rw [(a3 w0 rfl).1]⟩
      | err x => exact Or.inl hw
      | panic x => exact Or.inl hw
    · cases r <;> simp
  · -- Write
    rename_i k b
    split at h
    · cases h
    · rename_i w hw
      rcases ha : w.write P s.enc b with ⟨r, e, w'⟩
      rw [ha] at h
      cases h
      obtain ⟨a1, recs, a2, a3, a4, a5⟩ := write_frame P _ _ _ _ _ _ ha
      refine onStream k w w' e recs (by simp [EncOp.on]) (by intro j hj; simpa [EncOp.on] using Eq.symm (by simpa [EncOp.on] using hj))
        hw (drop_seals a2) rfl a1 a2 a3 ?_ ?_
      · intro he
        have := (a5 he).1
        rw [this] at a2
        exact List.append_cancel_left (a2.symm.trans (List.append_nil _).symm)
      · intro hp he
        rw [Res.unit_isPanic] at hp
        obtain ⟨h1, h2, _⟩ := a4 hp he
        exact ⟨h1, h2⟩
  · -- Close
    rename_i k coin
    split at h
    · cases h
    · rename_i w hw
      rcases ha : w.close P s.enc coin with ⟨r, e, w'⟩
      rw [ha] at h
      cases h
      obtain ⟨a1, recs, a2, a3, a4, a5⟩ := close_frame P _ _ _ _ _ _ ha
      refine onStream k w w' e recs (by simp [EncOp.on]) (by intro j hj; simpa [EncOp.on] using Eq.symm (by simpa [EncOp.on] using hj))
        hw (drop_seals a2) rfl a1 a2 a3 ?_ ?_
      · intro he
        have := (a5 he).1
        rw [this] at a2
        exact List.append_cancel_left (a2.symm.trans (List.append_nil _).symm)
      · intro hp he
        exact absurd he (a4 hp)

theorem History.nonceInv {P : Prims} {e0 : Encryptor} (h0 : e0.started = false) (hs : e0.seals = [])
    {evs : List EncEvent} {s : EncState} (h : History P e0 evs s) : NonceInv evs s := by
  induction h with
  | start =>
    refine ⟨by simp, by simp [h0], by simp [h0], by simp, by simp [sealedBy], by simp, by simp, by simp [hs], by simp⟩
  | call h live hstep ih => exact ih.step live hstep

end Sigtool
