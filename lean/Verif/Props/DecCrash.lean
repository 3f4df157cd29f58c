import Verif.Props.DecHistory
/-!
# C63: what can make a `Decryptor` crash
-/

namespace Sigtool
open Spec (lengthWord sessionKeys unwrapAs senderSeal senderStatement ValidSignature unsigned OpensFor SenderProof)

/-- The rules a program has to keep: every private key has at least 32 bytes, every named sender key exactly 32; either all
`SetPrivateKey` calls name a sender or none does; and no sender check fails before some `SetPrivateKey` has returned nil.
All are conditions on arguments and results of the calls. -/
structure Careful (evs : List DecEvent) : Prop where
  priv : ∀ v ∈ evs, ∀ sk spk, v.op = .setKey sk spk → 32 ≤ sk.sk.length
  pub : ∀ v ∈ evs, ∀ sk pk, v.op = .setKey sk (some pk) → pk.pk.length = 32
  naming : (∀ v ∈ evs, ∀ sk spk, v.op = .setKey sk spk → spk ≠ none) ∨ (∀ v ∈ evs, ∀ sk spk, v.op = .setKey sk spk → spk = none)
  heeds : ∀ (pre : List DecEvent) (v : DecEvent) (post : List DecEvent) (sk : PrivateKey) (spk : Option PublicKey) (x : Err),
    evs = pre ++ v :: post → v.op = .setKey sk spk → v.res = .err (.wrap "decrypt" x) →
    ∃ u ∈ pre, (∃ sk spk, u.op = .setKey sk spk) ∧ u.res = .ok ()

theorem Careful.init {evs : List DecEvent} {ev : DecEvent} (h : Careful (evs ++ [ev])) : Careful evs where
  priv := fun v hv => h.priv v (by simp [hv])
  pub := fun v hv => h.pub v (by simp [hv])
  naming := by
    rcases h.naming with g | g
    · exact Or.inl fun v hv => g v (by simp [hv])
    · exact Or.inr fun v hv => g v (by simp [hv])
  heeds := fun pre v post sk spk x he => h.heeds pre v (post ++ [ev]) sk spk x (by simp [he])

/-- Cipher, running HMAC and buffer are there. -/
structure Armed (d : Decryptor) (dkey hk hd : Bytes) : Prop where
  ae : d.ae = some dkey
  hmac : d.hmac = some (hk, hd)
  buf : d.bufLen = d.hdr.chunkSize + 16
  chunk : d.hdr.chunkSize < 2^30
  key : dkey.length = 32
  nonce : d.nonce.length = 12

theorem Armed.same {d d' : Decryptor} {dkey hk hd hd' : Bytes} (h : Armed d dkey hk hd) (hs : d.Same d')
    (hh : d'.hmac = some (hk, hd')) : Armed d' dkey hk hd' :=
  ⟨by rw [hs.ae, h.ae], hh, by rw [hs.bufLen, hs.hdr, h.buf], by rw [hs.hdr]; exact h.chunk, h.key,
    by rw [hs.nonce]; exact h.nonce⟩

structure CrashInv (evs : List DecEvent) (s : DecState) : Prop where
  quiet : ∀ v ∈ evs, v.res.isPanic = false
  chunk : s.dec.hdr.chunkSize < 2^30
  armed : s.dec.key ≠ none → ∃ dkey hk hd, Armed s.dec dkey hk hd
  snd : s.dec.key ≠ none → ∃ v ∈ evs, ∃ sk, v.op = .setKey sk s.dec.sender
  set : (∃ u ∈ evs, (∃ sk spk, u.op = .setKey sk spk) ∧ u.res = .ok ()) → s.dec.key ≠ none

theorem CrashInv.keep {evs : List DecEvent} {s s' : DecState} {ev : DecEvent} (h : CrashInv evs s)
    (hs : s.dec.Same s'.dec) (hh : ∀ hk hd, s.dec.hmac = some (hk, hd) → ∃ hd', s'.dec.hmac = some (hk, hd'))
    (hop : ∀ sk spk, ev.op ≠ .setKey sk spk) (hq : ev.res.isPanic = false) : CrashInv (evs ++ [ev]) s' where
  quiet := by
    intro v hv
    rcases List.mem_append.mp hv with hv | hv
    · exact h.quiet v hv
    · simp only [List.mem_singleton] at hv; subst hv; exact hq
  chunk := by rw [hs.hdr]; exact h.chunk
  armed := by
    intro hk
    rw [hs.key] at hk
    obtain ⟨dkey, hk', hd, a⟩ := h.armed hk
    obtain ⟨hd', b⟩ := hh _ _ a.hmac
    exact ⟨dkey, hk', hd', a.same hs b⟩
  snd := by
    intro hk
    rw [hs.key] at hk
    obtain ⟨v, hv, sk, h1⟩ := h.snd hk
    exact ⟨v, by simp [hv], sk, by rw [hs.sender]; exact h1⟩
  set := by
    rintro ⟨u, hu, ⟨sk, spk, h1⟩, h2⟩
    rw [hs.key]
    rcases List.mem_append.mp hu with hu | hu
    · exact h.set ⟨u, hu, ⟨sk, spk, h1⟩, h2⟩
    · simp only [List.mem_singleton] at hu; subst hu; exact absurd h1 (hop _ _)

/-- With the rules kept, the decryptor is in order as soon as it has a key. -/
theorem CrashInv.ready {P : Prims} {d0 : Decryptor} {evs : List DecEvent} {s : DecState} (inv : DecInv P d0 evs s)
    (h : CrashInv evs s) (hc : Careful evs) (hk : s.dec.key ≠ none) : ∃ dkey hk hd, s.dec.Ready dkey hk hd := by
  obtain ⟨dkey, hk', hd, a⟩ := h.armed hk
  refine ⟨dkey, hk', hd, a.ae, a.hmac, a.buf, a.chunk, a.key, a.nonce, ?_⟩
  intro hau
  obtain ⟨v, hv, sk, pk, key, h1, _⟩ := inv.auth hau
  obtain ⟨u, hu, sk', h2⟩ := h.snd hk
  rcases hc.naming with g | g
  · cases hsn : s.dec.sender with
    | none => rw [hsn] at h2; exact absurd rfl (g u hu _ _ h2)
    | some q => rw [hsn] at h2; exact ⟨q, rfl, hc.pub u hu _ _ h2⟩
  · have := g v hv _ _ h1
    cases this

theorem crash_step {P : Prims} (L : Laws P) {d0 : Decryptor} {evs : List DecEvent} {s s' : DecState} {ev : DecEvent}
    {op : DecOp} (inv : DecInv P d0 evs s) (h : CrashInv evs s) (hc : Careful (evs ++ [ev]))
    (hstep : s.step P op = some (ev, s')) : CrashInv (evs ++ [ev]) s' := by
  have hop := decStep_op hstep
  have hrdy := h.ready inv hc.init
  cases op with
  | setKey sk spk =>
    obtain ⟨r, d, more, g1, g2, g3, _⟩ := step_setKey hstep
    have hsk := hc.priv ev (by simp) sk spk hop
    have hres : ev.res = r := by rw [g2]
    have hquiet : r.isPanic = false → ∀ v ∈ evs ++ [ev], v.res.isPanic = false := by
      intro hr v hv
      rcases List.mem_append.mp hv with hv | hv
      · exact h.quiet v hv
      · simp only [List.mem_singleton] at hv; subst hv; rw [hres]; exact hr
    have unchanged : d = s.dec → r.isPanic = false → r ≠ .ok () → CrashInv (evs ++ [ev]) s' := by
      intro hd hr hno
      refine ⟨hquiet hr, by rw [g3, hd]; exact h.chunk, by rw [g3, hd]; exact h.armed, ?_, ?_⟩
      · rw [g3, hd]
        intro hk
        obtain ⟨v, hv, q⟩ := h.snd hk
        exact ⟨v, by simp [hv], q⟩
      · rw [g3, hd]
        rintro ⟨u, hu, h1, h2⟩
        rcases List.mem_append.mp hu with hu | hu
        · exact h.set ⟨u, hu, h1, h2⟩
        · simp only [List.mem_singleton] at hu; subst hu; rw [hres] at h2; exact absurd h2 hno
    rcases setPrivateKey_cases P s.dec sk spk with ⟨x, h1, h2⟩ | ⟨x, h1, h2⟩ | ⟨h1, h2⟩ | ⟨key, h1, h2⟩
    · rw [g1] at h2; cases h2; exact unchanged rfl rfl (by simp)
    · exact absurd h1 (findKey_no_panic P _ sk hsk x _)
    · rw [g1] at h2; cases h2; exact unchanged rfl rfl (by simp)
    · rw [g1] at h2
      cases hv : ({ s.dec with key := some key, sender := spk } : Decryptor).verifySender P key spk with
      | err x =>
        rw [hv] at h2; cases h2
        have hset : s.dec.key ≠ none := h.set (hc.heeds evs ev [] sk spk x rfl hop hres)
        obtain ⟨dkey, hk', hd, a⟩ := h.armed hset
        refine ⟨hquiet rfl, by rw [g3]; exact h.chunk, ?_, ?_, by rw [g3]; simp⟩
        · rw [g3]; intro _
          exact ⟨dkey, hk', hd, a.ae, a.hmac, a.buf, a.chunk, a.key, a.nonce⟩
        · rw [g3]; intro _
          exact ⟨ev, by simp, sk, hop⟩
      | panic x =>
        exact absurd hv (verifySender_no_panic P _ _ _ (fun pk hpk => by
          subst hpk; exact hc.pub ev (by simp) sk pk hop) x)
      | ok a =>
        rw [hv] at h2
        dsimp only at h2
        cases h2
        obtain ⟨l1, l2, l3⟩ := sessionKeys_len P L key s.dec.hdrsum
        refine ⟨hquiet rfl, by rw [g3]; exact h.chunk, ?_, ?_, by rw [g3]; simp⟩
        · rw [g3]; intro _
          exact ⟨_, _, _, rfl, rfl, rfl, h.chunk, l2, l1⟩
        · rw [g3]; intro _
          exact ⟨ev, by simp, sk, hop⟩
  | decrypt wr =>
    obtain ⟨r, d, wr', buf, g1, g2, g3, _⟩ := step_decrypt hstep
    obtain ⟨b1, _⟩ := decrypt_only P _ _ _ _ _ g1
    subst g3
    have both : (∀ hk hd, s.dec.hmac = some (hk, hd) → ∃ hd', d.hmac = some (hk, hd')) ∧ r.isPanic = false := by
      unfold Decryptor.decrypt at g1
      cases hk : s.dec.key with
      | none => rw [hk] at g1; cases g1; exact ⟨fun _ hd hh => ⟨hd, hh⟩, rfl⟩
      | some k =>
        rw [hk] at g1
        dsimp only at g1
        split at g1
        · cases g1; exact ⟨fun _ hd hh => ⟨hd, hh⟩, rfl⟩
        · split at g1
          · cases g1; exact ⟨fun _ hd hh => ⟨hd, hh⟩, rfl⟩
          · obtain ⟨dkey, hk', hd, hr⟩ := hrdy (by rw [hk]; simp)
            obtain ⟨r1, d1, wr1, c1, c2⟩ := decryptLoop_outcome P L dkey hk' _ s.dec wr 0 hd hr (Nat.lt_succ_self _)
            refine ⟨fun a b hh => decryptLoop_hmac P a _ _ _ _ _ _ _ b hh g1, ?_⟩
            rw [g1] at c1
            cases c1
            cases c2 <;> rfl
    exact h.keep b1 both.1 (by rw [hop]; simp) (by rw [g2]; exact both.2)
  | openReader =>
    rcases step_open hstep with ⟨_, a2, a3⟩ | ⟨_, _, a2, a3⟩ | ⟨_, _, a2, a3⟩
    · rw [a3]; exact h.keep (.refl _) (fun _ hd hh => ⟨hd, hh⟩) (by rw [hop]; simp) (by rw [a2]; rfl)
    · rw [a3]; exact h.keep (.refl _) (fun _ hd hh => ⟨hd, hh⟩) (by rw [hop]; simp) (by rw [a2]; rfl)
    · have := h.keep (ev := ev) (.refl _) (fun _ hd hh => ⟨hd, hh⟩) (by rw [hop]; simp) (by rw [a2]; rfl)
      rw [a3]
      refine ⟨this.quiet, this.chunk, ?_, this.snd, this.set⟩
      intro hk
      obtain ⟨dkey, hk', hd, a⟩ := this.armed hk
      exact ⟨dkey, hk', hd, a.ae, a.hmac, a.buf, a.chunk, a.key, a.nonce⟩
  | read k cap =>
    obtain ⟨r, res, g1, rc, g2⟩ := step_read hstep
    have hkey : s.dec.key ≠ none := by
      intro hk
      have := (inv.keyed hk).2
      rw [this] at g1; simp at g1
    obtain ⟨dkey, hk', hd, hr⟩ := hrdy hkey
    have hb := decryptBlock_only P s.dec r.blk
    have hm := fun a b hh => decryptBlock_hmac P s.dec r.blk a b hh
    have nop : ∀ sk spk, ev.op ≠ .setKey sk spk := by rw [hop]; simp
    have resq : (∀ x, res ≠ .panic x) → ev.res.isPanic = false := by
      intro hx; rw [g2]; cases res with
      | ok b => rfl
      | err x => rfl
      | panic x => exact absurd rfl (hx x)
    cases rc with
    | stuck x hx => exact h.keep (.refl _) (fun _ hd hh => ⟨hd, hh⟩) nop (resq (by simp))
    | buffered he hu => exact h.keep (.refl _) (fun _ hd hh => ⟨hd, hh⟩) nop (resq (by simp))
    | ended he hu heof => exact h.keep (.refl _) (fun _ hd hh => ⟨hd, hh⟩) nop (resq (by simp))
    | failed x d he hu heof hbb =>
      rw [hbb] at hb hm; exact h.keep hb.1 hm nop (resq (by simp))
    | crashed x d he hu heof hbb =>
      obtain ⟨r1, d1, c1, c2⟩ := decryptBlock_outcome P L s.dec r.blk dkey hk' hd hr
      rw [hbb] at c1; cases c1; cases c2
    | empty eof d he hu heof hbb =>
      rw [hbb] at hb hm
      have := hb.1
      exact h.keep ⟨this.hdr, this.hdrsum, this.ae, this.sender, this.bufLen, this.nonce, this.key, this.auth,
          this.stream⟩ hm nop (resq (by simp))
    | fresh pt eof d he hu heof hpt hbb =>
      rw [hbb] at hb hm
      have := hb.1
      exact h.keep ⟨this.hdr, this.hdrsum, this.ae, this.sender, this.bufLen, this.nonce, this.key, this.auth,
          this.stream⟩ hm nop (resq (by simp))
  | more rd =>
    obtain ⟨_, a2, a3⟩ := step_more hstep
    subst a3
    exact h.keep ⟨rfl, rfl, rfl, rfl, rfl, rfl, rfl, rfl, rfl⟩ (fun _ hd hh => ⟨hd, hh⟩) (by rw [hop]; simp) (by rw [a2]; rfl)

/-- **C63** For every input `NewDecryptor` accepts - any bytes at all after the header, delivered in any way, with errors that may
be final or go away - and every history of calls in which the program keeps to the rules `Careful`, no call crashes. -/
theorem C63_careful_no_crash (P : Prims) (L : Laws P) (rd rd' : Reader) (d0 : Decryptor)
    (h0 : newDecryptor P rd = (.ok d0, rd')) (evs : List DecEvent) (s : DecState) (h : DecHistory P d0 evs s)
    (hc : Careful evs) : ∀ v ∈ evs, v.res.isPanic = false := by
  have key : CrashInv evs s := by
    induction h with
    | start =>
      obtain ⟨h1, _⟩ := newDecryptor_fresh P rd rd' d0 h0
      obtain ⟨hb, ha⟩ := newDecryptor_ok P rd d0 rd' h0
      have hcs : d0.hdr.chunkSize < 2^30 := by
        have hc := ha.checked
        unfold checkHeader at hc
        split at hc
        · cases hc
        · rename_i h; rw [maxChunk_eq] at h; omega
      exact ⟨by simp, hcs, fun hk => absurd h1 hk, fun hk => absurd h1 hk, by simp⟩
    | @call evs s s' op ev h live hstep ih => exact crash_step L (h.inv h0) (ih hc.init) hc hstep
  exact key.quiet

end Sigtool
