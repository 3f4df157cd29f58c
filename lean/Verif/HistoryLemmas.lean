import Verif.HistoryNonce
import Verif.Roundtrip
import Verif.Spec.Session
/-! # The state of an encryptor after an arbitrary history of calls -/

namespace Sigtool
open Spec (encryptChunks streamChunks lengthWord sealedChunk sealedBody macInput headerPart sessionKeys
  wrapFor SessionHeader headerWithSum)

theorem Encryptor.Ready.frame {e e' : Encryptor} {dkey hk hd : Bytes} (h : e.Ready dkey hk hd) (hf : e.Frame e') :
    ∃ hd', e'.Ready dkey hk hd' := by
  have hm := hf.hmac
  rw [h.hmac] at hm
  cases hh : e'.hmac with
  | none => rw [hh] at hm; cases hm
  | some x =>
    obtain ⟨k, d⟩ := x
    rw [hh] at hm
    simp at hm
    subst hm
    exact ⟨d, by rw [hf.ae, h.ae], hh, by rw [hf.bufLen, hf.hdr, h.buf], by rw [hf.hdr]; exact h.chunk, h.key,
      by rw [hf.nonce]; exact h.nonce⟩

/-- The byte `S` that a header begins with never begins a chunk. -/
theorem lengthWord_head (n : Nat) (l : Bool) (h : n ≤ 2^30) : ∃ b t, lengthWord n l = b :: t ∧ b ≠ 0x53 := by
  refine ⟨_, _, rfl, ?_⟩
  intro hb
  have := congrArg UInt8.toNat hb
  rw [UInt8.toNat_ofNat'] at this
  cases l <;> simp at this <;> omega

theorem not_magic_of_chunk {p t : Bytes} {n : Nat} {l : Bool} (hn : n ≤ 2^30) (hp : p <+: lengthWord n l ++ t) :
    ¬ ascii "SigTool" <+: p := by
  obtain ⟨b, t', h1, h2⟩ := lengthWord_head n l hn
  rw [h1] at hp
  intro hm
  have := hm.trans hp
  have e : ascii "SigTool" = 0x53 :: (ascii "SigTool").tail := by decide
  rw [e, List.cons_append] at this
  exact h2 (List.cons_prefix_cons.mp this).1.symm

theorem not_magic_nil : ¬ ascii "SigTool" <+: ([] : Bytes) := by decide

theorem not_magic_mid (P : Prims) (key nonce : Bytes) (i : Nat) (cs : List Bytes) (p : Bytes)
    (hc : ∀ c ∈ cs.head?, c.length ≤ 2^30) (hp : p <+: sealedMid P key nonce i cs) : ¬ ascii "SigTool" <+: p := by
  cases cs with
  | nil =>
    simp only [sealedMid, List.prefix_nil] at hp
    subst hp; exact not_magic_nil
  | cons c cs =>
    simp only [sealedMid, sealedChunk, List.append_assoc] at hp
    exact not_magic_of_chunk (hc c (by simp)) hp

theorem not_magic_body (P : Prims) (key nonce : Bytes) (i : Nat) (cs : List Bytes) (t p : Bytes) (hne : cs ≠ [])
    (hc : ∀ c ∈ cs.head?, c.length ≤ 2^30) (hp : p <+: sealedBody P key nonce i cs ++ t) : ¬ ascii "SigTool" <+: p := by
  match cs, hne with
  | [c], _ =>
    simp only [sealedBody, sealedChunk, List.append_assoc] at hp
    exact not_magic_of_chunk (hc c (by simp)) hp
  | c :: d :: cs, _ =>
    simp only [sealedBody, sealedChunk, List.append_assoc] at hp
    exact not_magic_of_chunk (hc c (by simp)) hp

theorem encryptChunks_head (bs : Nat) (pt : Bytes) (hb : 0 < bs) (hb2 : bs ≤ 2^30) :
    ∀ c ∈ (encryptChunks bs pt).head?, c.length ≤ 2^30 := by
  by_cases h : pt.length < bs
  · rw [encryptChunks_small _ _ h]; simp; omega
  · rw [encryptChunks_big _ _ hb (by omega)]; simp; omega

theorem dropLast_head {l : List Bytes} {c : Bytes} (h : c ∈ l.dropLast.head?) : c ∈ l.head? := by
  match l with
  | [] => simp at h
  | [a] => simp at h
  | a :: b :: l => simpa using h

theorem midChunks_head (bs : Nat) (pt : Bytes) (hb : 0 < bs) (hb2 : bs ≤ 2^30) :
    ∀ c ∈ (midChunks bs pt).head?, c.length ≤ 2^30 := by
  by_cases h : pt.length ≤ bs
  · rw [midChunks_small _ _ h]; simp
  · rw [midChunks_big _ _ hb (by omega)]; simp; omega

/-- Appended bytes, as an event records them. -/
theorem Writer.Step.wrote {w w' : Writer} {p : Bytes} (h : w.Step w' p) : w'.out.drop w.out.length = p := by
  rw [h.out]; simp

/-- `Encrypt` on a started encryptor without stream writers. -/
theorem encrypt_started (P : Prims) (L : Laws P) (e : Encryptor) (rd : Reader) (wr : Writer) (coin dkey hk hd : Bytes)
    (hst : e.started = true) (hns : e.stream = false) (hr : e.Ready dkey hk hd) (hs : e.SenderOk)
    (hc : 0 < e.hdr.chunkSize) :
    ∃ r e' rd' wr' p, e.encrypt P rd wr coin = (r, e', rd', wr') ∧ wr'.out = wr.out ++ p ∧ e.Frame e' ∧
      r.isPanic = false ∧ ¬ ascii "SigTool" <+: p := by
  unfold Encryptor.encrypt
  simp only [hns, hst, Bool.false_eq_true, if_false, if_true]
  obtain ⟨r, e2, rd2, wr2, k1, k2⟩ := encryptLoop_outcome P L coin (rd.content.length + 1) e rd wr 0 _ _ _ hr hs hc (by omega)
  have hf := (encryptLoop_frame P coin _ _ _ _ _ _ _ _ _ k1).1
  rw [k1]
  have hhead := encryptChunks_head e.hdr.chunkSize rd.content hc hr.chunk
  match r, k2 with
  | .panic x, k2 => exact absurd rfl (k2.noPanic x)
  | .err x, k2 =>
    obtain ⟨p, m1, m2⟩ := k2.failed x rfl
    refine ⟨_, _, _, _, p, rfl, m1.out, hf, rfl, ?_⟩
    rcases m2 with ⟨_, _, n4⟩ | ⟨_, ⟨_, n4⟩ | ⟨_, n4⟩⟩
    · exact not_magic_body P _ _ _ _ _ _ (encryptChunks_ne_nil _ _) hhead n4
    · exact not_magic_mid P _ _ _ _ _ (fun c hc => hhead c (dropLast_head hc)) n4
    · exact not_magic_mid P _ _ _ _ _ (fun c hc => hhead c (dropLast_head hc)) (by rw [n4])
  | .ok (), k2 =>
    obtain ⟨m1, m2, m3, m4⟩ := k2.done rfl
    have hm := not_magic_body P _ _ _ _ _ _ (encryptChunks_ne_nil _ _) hhead (List.prefix_refl
      (sealedBody P dkey e.nonce 0 (encryptChunks e.hdr.chunkSize rd.content) ++
      e.trailerOf P hk (hd ++ macInput (encryptChunks e.hdr.chunkSize rd.content)) coin))
    simp only [Writer.close]
    cases wr2.closeErr with
    | none => exact ⟨_, _, _, _, _, rfl, m2.out, hf, rfl, hm⟩
    | some x => exact ⟨_, _, _, _, _, rfl, m2.out, hf, rfl, hm⟩

/-- An unstarted `Encrypt` whose header could be written continues as a started one. -/
theorem encrypt_start_ok (P : Prims) (e e1 : Encryptor) (rd : Reader) (wr wr1 : Writer) (coin : Bytes)
    (hst : e.started = false) (hns : e.stream = false) (hs : e.start P wr = (.ok (), e1, wr1))
    (h1 : e1.started = true) (h2 : e1.stream = false) : e.encrypt P rd wr coin = e1.encrypt P rd wr1 coin := by
  unfold Encryptor.encrypt
  simp only [hst, hns, h1, h2, Bool.false_eq_true, if_false, if_true, hs]

/-- `Write` on a started encryptor. -/
theorem write_started (P : Prims) (L : Laws P) (e : Encryptor) (w : EncWriter) (b dkey hk hd : Bytes)
    (hr : e.Ready dkey hk hd) (hs : e.SenderOk) (hc : 0 < e.hdr.chunkSize)
    (hbuf : w.err = none → w.buf.length ≤ e.hdr.chunkSize) :
    ∃ r e' w' p, w.write P e b = (r, e', w') ∧ w'.wr.out = w.wr.out ++ p ∧ r.isPanic = false ∧
      ¬ ascii "SigTool" <+: p := by
  unfold EncWriter.write
  cases he : w.err with
  | some x => exact ⟨_, _, _, [], rfl, by simp, rfl, not_magic_nil⟩
  | none =>
    dsimp only
    split
    · exact ⟨_, _, _, [], rfl, by simp, rfl, not_magic_nil⟩
    · have hb := hbuf he
      have hmid := midChunks_head e.hdr.chunkSize (w.buf ++ b) hc hr.chunk
      rcases writeLoop_step P L (b.length + 2) e w b dkey hk hd hr hs hc hb (by split <;> omega) with
        ⟨wr', g1, g2⟩ | ⟨x, e', w', p, g1, g2, g3, g4, g5, g7, g8⟩
      · rw [g1]; exact ⟨_, _, _, _, rfl, g2.out, rfl, not_magic_mid P _ _ _ _ _ hmid (List.prefix_refl _)⟩
      · rw [g1]; exact ⟨_, _, _, _, rfl, g3.out, rfl, not_magic_mid P _ _ _ _ _ hmid g4⟩

/-- `Close` on a started encryptor. -/
theorem close_started (P : Prims) (L : Laws P) (e : Encryptor) (w : EncWriter) (coin dkey hk hd : Bytes)
    (hr : e.Ready dkey hk hd) (hs : e.SenderOk)
    (hbuf : w.err = none → w.buf.length ≤ e.hdr.chunkSize) :
    ∃ r e' w' p, w.close P e coin = (r, e', w') ∧ w'.wr.out = w.wr.out ++ p ∧ r.isPanic = false ∧
      ¬ ascii "SigTool" <+: p := by
  unfold EncWriter.close
  cases he : w.err with
  | some x => exact ⟨_, _, _, [], rfl, by simp, rfl, not_magic_nil⟩
  | none =>
    dsimp only
    have hb := hbuf he
    have hb2 : w.buf.length ≤ 2^30 := by have := hr.chunk; omega
    rcases encryptBlock_step P L e dkey hk hd w.buf w.wr w.blk true coin hr hs hb with
      ⟨wr', g1, g2⟩ | ⟨x, e', wr', p, g1, g2, g3, g4, g5, g6⟩
    · rw [g1]
      dsimp only
      have hm : ¬ ascii "SigTool" <+: (sealedChunk P dkey e.nonce w.blk true w.buf ++
          if true = true then e.trailerOf P hk (hd ++ lengthWord w.buf.length true ++ w.buf) coin else []) := by
        rw [sealedChunk, List.append_assoc]
        exact not_magic_of_chunk hb2 (List.prefix_refl _)
      simp only [Writer.close]
      cases wr'.closeErr with
      | none => exact ⟨_, _, _, _, rfl, g2.out, rfl, hm⟩
      | some x => exact ⟨_, _, _, _, rfl, g2.out, rfl, hm⟩
    · rw [g1]
      refine ⟨_, _, _, _, rfl, g2.out, rfl, ?_⟩
      rw [sealedChunk, List.append_assoc] at g3
      exact not_magic_of_chunk hb2 g3

/-- What every history establishes. -/
structure HistInv (P : Prims) (sender : Option PrivateKey) (blk : Nat) (c : EncCoins) (evs : List EncEvent)
    (s : EncState) : Prop where
  hdr : SessionHeader P sender blk c (addedIn evs) s.enc.hdr
  key : s.enc.key = c.key
  encSK : s.enc.encSK = clamp c.csk
  senderOk : s.enc.SenderOk
  ready : s.enc.started = true → ∃ hd, s.enc.Ready (s.enc.keys P).2.1 (s.enc.keys P).2.2 hd
  out : s.enc.started = true → ∃ ev ∈ evs, ev.op.begins = true ∧ headerWithSum P s.enc.hdr <+: ev.wrote
  notyet : s.enc.started = false → ∀ ev ∈ evs, ev.op.begins = true → ev.res ≠ .ok () ∧
    ∃ rs h, SessionHeader P sender blk c rs h ∧ ev.wrote <+: headerWithSum P h
  stream : s.enc.stream = true ↔ ∃ ev ∈ evs, (∃ wr, ev.op = .openStream wr) ∧ ev.res = .ok ()
  streamStarted : s.enc.stream = true → s.enc.started = true
  streams : s.streams ≠ [] → s.enc.started = true
  buf : ∀ w ∈ s.streams, w.err = none → w.buf.length ≤ s.enc.hdr.chunkSize
  panics : ∀ ev ∈ evs, ev.res.isPanic = true → ∃ pk rbuf, ev.op = .add pk rbuf ∧ 32 < pk.pk.length

theorem HistInv.chunkPos {P : Prims} {sender : Option PrivateKey} {blk : Nat} {c : EncCoins} {evs : List EncEvent}
    {s : EncState} (h : HistInv P sender blk c evs s) : 0 < s.enc.hdr.chunkSize ∧ s.enc.hdr.chunkSize ≤ 2^30 := by
  rw [h.hdr.chunkSize]; split <;> omega

theorem HistInv.clean {P : Prims} {sender : Option PrivateKey} {blk : Nat} {c : EncCoins} {evs : List EncEvent}
    {s : EncState} (h : HistInv P sender blk c evs s) : Proto.Clean s.enc.hdr :=
  ⟨h.hdr.plain, forall₂_right h.hdr.keys (fun _ _ _ hab => (wrapFor_unknown hab).1)⟩

theorem addedIn_snoc (evs : List EncEvent) (ev : EncEvent) : addedIn (evs ++ [ev]) = addedIn evs ++ addedIn [ev] := by
  simp [addedIn]

theorem addedIn_other (ev : EncEvent) (h : ∀ pk r, ev.op ≠ .add pk r) : addedIn [ev] = [] := by
  unfold addedIn
  simp only [List.filterMap_cons, List.filterMap_nil]
  split
  · rfl
  · rename_i hx
    split at hx
    · rename_i h1 h2; exact absurd h1 (h _ _)
    · cases hx

theorem addedIn_fail (ev : EncEvent) (h : ev.res ≠ .ok ()) : addedIn [ev] = [] := by
  unfold addedIn
  simp only [List.filterMap_cons, List.filterMap_nil]
  split
  · rfl
  · rename_i hx
    split at hx
    · rename_i h1 h2; exact absurd h2 h
    · cases hx

/-- What one call does to the destination and the header, given the history before it. -/
structure StepFacts (P : Prims) (sender : Option PrivateKey) (blk : Nat) (c : EncCoins) (evs : List EncEvent)
    (s : EncState) (op : EncOp) (ev : EncEvent) (s' : EncState) : Prop where
  inv : HistInv P sender blk c (evs ++ [ev]) s'
  /-- once started, no header -/
  later : s.enc.started = true → ¬ ascii "SigTool" <+: ev.wrote
  /-- before that, the header comes first -/
  first : s.enc.started = false → op.begins = true → s.enc.stream = false →
    ev.wrote <+: headerWithSum P s.enc.hdr ∨ headerWithSum P s.enc.hdr <+: ev.wrote
  firstOk : s.enc.started = false → op.begins = true → ev.res = .ok () → headerWithSum P s.enc.hdr <+: ev.wrote
  begun : op.begins = true → ev.res = .ok () → s'.enc.started = true
  kept : s.enc.started = true → s'.enc.started = true ∧ s'.enc.hdr = s.enc.hdr
  starts : s.enc.started = false → s'.enc.started = true →
    op.begins = true ∧ headerWithSum P s.enc.hdr <+: ev.wrote ∧ s'.enc.hdr = s.enc.hdr

theorem step_facts (P : Prims) (L : Laws P) {sender : Option PrivateKey} {blk : Nat} {c : EncCoins}
    {evs : List EncEvent} {s s' : EncState} {op : EncOp} {ev : EncEvent} (inv : HistInv P sender blk c evs s)
    (h : s.step P op = some (ev, s')) : StepFacts P sender blk c evs s op ev s' := by
  have hop := step_op h
  obtain ⟨hc0, hc1⟩ := inv.chunkPos
  -- a call in a started state that leaves the encryptor framed
  have framed : ∀ (e' : Encryptor) (p : Bytes), s.enc.started = true → s.enc.Frame e' → s'.enc = e' →
      (∀ pk r, op ≠ .add pk r) → (∀ wr, op ≠ .openStream wr) → ev.wrote = p → ¬ ascii "SigTool" <+: p →
      ev.res.isPanic = false → (∀ w ∈ s'.streams, w.err = none → w.buf.length ≤ s.enc.hdr.chunkSize) →
      StepFacts P sender blk c evs s op ev s' := by
    intro e' p hst hf he hna hno hw hm hpn hb
    have hadd : addedIn (evs ++ [ev]) = addedIn evs := by
      rw [addedIn_snoc, addedIn_other ev (by rw [hop]; exact hna), List.append_nil]
    subst he
    refine ⟨⟨?_, ?_, ?_, ?_, ?_, ?_, ?_, ?_, ?_, ?_, ?_, ?_⟩, ?_, ?_, ?_, ?_, ?_, ?_⟩
    · rw [hadd, hf.hdr]; exact inv.hdr
    · rw [hf.key]; exact inv.key
    · rw [hf.encSK]; exact inv.encSK
    · intro ha; rw [hf.auth] at ha; rw [hf.sender]; exact inv.senderOk ha
    · intro _
      obtain ⟨hd, hr⟩ := inv.ready hst
      obtain ⟨hd', hr'⟩ := hr.frame hf
      refine ⟨hd', ?_⟩
      simp only [Encryptor.keys, hf.hdr, hf.key]
      exact hr'
    · intro _
      obtain ⟨v, hv, h1, h2⟩ := inv.out hst
      exact ⟨v, by simp [hv], h1, by rw [hf.hdr]; exact h2⟩
    · intro hn; rw [hf.started, hst] at hn; cases hn
    · rw [hf.stream, inv.stream]
      constructor
      · rintro ⟨v, hv, h1⟩; exact ⟨v, by simp [hv], h1⟩
      · rintro ⟨v, hv, ⟨wr, h1⟩, h2⟩
        rcases List.mem_append.mp hv with hv | hv
        · exact ⟨v, hv, ⟨wr, h1⟩, h2⟩
        · simp only [List.mem_singleton] at hv; subst hv
          exact absurd (hop.symm.trans h1) (hno wr)
    · intro _; rw [hf.started]; exact hst
    · intro _; rw [hf.started]; exact hst
    · rw [hf.hdr]; exact hb
    · intro v hv hp
      rcases List.mem_append.mp hv with hv | hv
      · exact inv.panics v hv hp
      · simp only [List.mem_singleton] at hv; subst hv; rw [hpn] at hp; cases hp
    · intro _; rw [hw]; exact hm
    · intro hn; rw [hst] at hn; cases hn
    · intro hn; rw [hst] at hn; cases hn
    · intro _ _; rw [hf.started]; exact hst
    · intro _; exact ⟨by rw [hf.started]; exact hst, hf.hdr⟩
    · intro hn; rw [hst] at hn; cases hn
  -- the header could not be written
  have failed : ∀ (e' : Encryptor) (x : Err) (p : Bytes), s.enc.started = false → e'.started = s.enc.started →
      e'.hdr = s.enc.hdr → e'.key = s.enc.key → e'.stream = s.enc.stream → e'.encSK = s.enc.encSK →
      e'.sender = s.enc.sender → e'.auth = s.enc.auth → s' = { s with enc := e' } → (∀ pk r, op ≠ .add pk r) →
      ev.res = .err x → ev.wrote = p → p <+: headerWithSum P s.enc.hdr →
      StepFacts P sender blk c evs s op ev s' := by
    intro e' x p hst k1 k2 k3 k4 k5 k6 k7 hs' hna hres hw hp
    have hadd : addedIn (evs ++ [ev]) = addedIn evs := by
      rw [addedIn_snoc, addedIn_other ev (by rw [hop]; exact hna), List.append_nil]
    have hstr : s.streams = [] := by
      by_contra hne; have := inv.streams hne; rw [hst] at this; cases this
    subst hs'
    have hst' : e'.started = false := by rw [k1, hst]
    refine ⟨⟨?_, ?_, ?_, ?_, ?_, ?_, ?_, ?_, ?_, ?_, ?_, ?_⟩, ?_, ?_, ?_, ?_, ?_, ?_⟩
    · rw [hadd]; dsimp only; rw [k2]; exact inv.hdr
    · dsimp only; rw [k3]; exact inv.key
    · dsimp only; rw [k5]; exact inv.encSK
    · dsimp only; intro ha; rw [k7] at ha; rw [k6]; exact inv.senderOk ha
    · intro hh; dsimp only at hh; rw [hst'] at hh; cases hh
    · intro hh; dsimp only at hh; rw [hst'] at hh; cases hh
    · intro _ v hv hb
      rcases List.mem_append.mp hv with hv | hv
      · exact inv.notyet hst v hv hb
      · simp only [List.mem_singleton] at hv; subst hv
        exact ⟨by rw [hres]; simp, _, _, inv.hdr, by rw [hw]; exact hp⟩
    · dsimp only
      rw [k4, inv.stream]
      constructor
      · rintro ⟨v, hv, h1⟩; exact ⟨v, by simp [hv], h1⟩
      · rintro ⟨v, hv, ⟨wr, h1⟩, h2⟩
        rcases List.mem_append.mp hv with hv | hv
        · exact ⟨v, hv, ⟨wr, h1⟩, h2⟩
        · simp only [List.mem_singleton] at hv; subst hv
          rw [hres] at h2; cases h2
    · intro hh; dsimp only at hh; rw [k4] at hh; have := inv.streamStarted hh; rw [hst] at this; cases this
    · intro hh; dsimp only at hh; exact absurd hstr hh
    · intro w hw'; dsimp only at hw'; rw [hstr] at hw'; cases hw'
    · intro v hv hpp
      rcases List.mem_append.mp hv with hv | hv
      · exact inv.panics v hv hpp
      · simp only [List.mem_singleton] at hv; subst hv; rw [hres] at hpp; cases hpp
    · intro hn; rw [hst] at hn; cases hn
    · intro _ _ _; left; rw [hw]; exact hp
    · intro _ _ hr; rw [hres] at hr; cases hr
    · intro _ hr; rw [hres] at hr; cases hr
    · intro hn; rw [hst] at hn; cases hn
    · intro _ hn; dsimp only at hn; rw [hst'] at hn; cases hn
  -- the header was written
  have begun : ∀ (e' : Encryptor) (p : Bytes) (b : Bool), s.enc.started = false →
      ({ s.enc.afterStart P with stream := b } : Encryptor).Frame e' → s'.enc = e' →
      (b = true ↔ s.enc.stream = true ∨ ((∃ wr, op = .openStream wr) ∧ ev.res = .ok ())) →
      ((∃ wr, op = .openStream wr) → ev.res = .ok ()) →
      op.begins = true → ev.wrote = headerWithSum P s.enc.hdr ++ p → ev.res.isPanic = false →
      (∀ w ∈ s'.streams, w.err = none → w.buf.length ≤ s.enc.hdr.chunkSize) →
      StepFacts P sender blk c evs s op ev s' := by
    intro e' p b hst hf he hb hos hbeg hw hpn hbuf
    have hna : ∀ pk r, op ≠ .add pk r := by rintro pk r rfl; cases hbeg
    have hadd : addedIn (evs ++ [ev]) = addedIn evs := by
      rw [addedIn_snoc, addedIn_other ev (by rw [hop]; exact hna), List.append_nil]
    subst he
    have f1 := hf.hdr; have f2 := hf.key; have f3 := hf.encSK; have f4 := hf.started; have f5 := hf.stream
    have f6 := hf.auth; have f7 := hf.sender
    simp only [Encryptor.afterStart] at f1 f2 f3 f4 f5 f6 f7
    refine ⟨⟨?_, ?_, ?_, ?_, ?_, ?_, ?_, ?_, ?_, ?_, ?_, ?_⟩, ?_, ?_, ?_, ?_, ?_, ?_⟩
    · rw [hadd, f1]; exact inv.hdr
    · rw [f2]; exact inv.key
    · rw [f3]; exact inv.encSK
    · intro ha; rw [f6] at ha; rw [f7]; exact inv.senderOk ha
    · intro _
      have hr := afterStart_ready P L s.enc hc1
      have hr2 : ({ s.enc.afterStart P with stream := b } : Encryptor).Ready _ _ [] :=
        ⟨hr.ae, hr.hmac, hr.buf, hr.chunk, hr.key, hr.nonce⟩
      obtain ⟨hd', hr'⟩ := hr2.frame hf
      refine ⟨hd', ?_⟩
      simp only [Encryptor.keys, f1, f2]
      exact hr'
    · intro _
      refine ⟨ev, by simp, by rw [hop]; exact hbeg, ?_⟩
      rw [hw, f1]; exact List.prefix_append _ _
    · intro hn; rw [f4] at hn; cases hn
    · rw [f5, hb, inv.stream]
      constructor
      · rintro (⟨v, hv, h1⟩ | ⟨h1, h2⟩)
        · exact ⟨v, by simp [hv], h1⟩
        · exact ⟨ev, by simp, by rw [hop]; exact h1, h2⟩
      · rintro ⟨v, hv, h1, h2⟩
        rcases List.mem_append.mp hv with hv | hv
        · exact Or.inl ⟨v, hv, h1, h2⟩
        · simp only [List.mem_singleton] at hv; subst hv
          rw [hop] at h1
          exact Or.inr ⟨h1, h2⟩
    · intro _; exact f4
    · intro _; exact f4
    · rw [f1]; exact hbuf
    · intro v hv hpp
      rcases List.mem_append.mp hv with hv | hv
      · exact inv.panics v hv hpp
      · simp only [List.mem_singleton] at hv; subst hv; rw [hpn] at hpp; cases hpp
    · intro hn; rw [hst] at hn; cases hn
    · intro _ _ _; right; rw [hw]; exact List.prefix_append _ _
    · intro _ _ _; rw [hw]; exact List.prefix_append _ _
    · intro _ _; exact f4
    · intro hn; rw [hst] at hn; cases hn
    · intro _ _; exact ⟨hbeg, by rw [hw]; exact List.prefix_append _ _, f1⟩
  unfold EncState.step at h
  split at h
  · -- AddRecipient
    rename_i pk rbuf
    rcases ha : s.enc.addRecipient P pk rbuf with ⟨r, e⟩
    rw [ha] at h
    cases h
    obtain ⟨a1, a2, a3, a4, a5, a6⟩ := add_frame P _ _ _ _ _ ha
    -- results other than ok leave the encryptor as it was
    have hcases : (r = .ok () ∧ s.enc.started = false ∧ ∃ w, wrapFor P s.enc.encSK s.enc.hdr.salt s.enc.key pk.pk rbuf = some w ∧
        e = { s.enc with hdr := { s.enc.hdr with keys := s.enc.hdr.keys ++ [w] } }) ∨
        (r ≠ .ok () ∧ e = s.enc ∧ (r.isPanic = true → 32 < pk.pk.length)) := by
      cases hr : r with
      | ok u =>
        subst hr
        obtain ⟨b1, w, b2, b3⟩ := addRecipient_ok P _ _ _ _ ha
        exact Or.inl ⟨rfl, b1, w, b2, b3⟩
      | err x =>
        subst hr
        right
        refine ⟨by simp, ?_, by simp [Res.isPanic]⟩
        unfold Encryptor.addRecipient at ha
        split at ha
        · cases ha; rfl
        · split at ha <;> cases ha; rfl
      | panic x =>
        subst hr
        right
        unfold Encryptor.addRecipient at ha
        split at ha
        · cases ha
        · split at ha <;> cases ha
          rename_i hw
          refine ⟨by simp, rfl, fun _ => ?_⟩
          unfold Encryptor.wrapKey at hw
          split at hw
          · omega
          · split at hw <;> cases hw
    rcases hcases with ⟨rfl, hst, w, hw, rfl⟩ | ⟨hne, rfl, hpan⟩
    · have hstr : s.streams = [] := by
        by_contra hne; have := inv.streams hne; rw [hst] at this; cases this
      refine ⟨⟨?_, inv.key, inv.encSK, inv.senderOk, ?_, ?_, ?_, ?_, ?_, ?_, ?_, ?_⟩, ?_, ?_, ?_, ?_, ?_, ?_⟩
      · rw [addedIn_snoc]
        refine ⟨inv.hdr.chunkSize, inv.hdr.salt, inv.hdr.pk, inv.hdr.sender, ?_, inv.hdr.plain⟩
        refine List.rel_append inv.hdr.keys ?_
        refine List.Forall₂.cons ?_ List.Forall₂.nil
        rw [← inv.encSK, ← inv.hdr.salt, ← inv.key]
        exact hw
      · intro hh; dsimp only at hh; rw [hst] at hh; cases hh
      · intro hh; dsimp only at hh; rw [hst] at hh; cases hh
      · intro _ v hv hb
        rcases List.mem_append.mp hv with hv | hv
        · exact inv.notyet hst v hv hb
        · simp only [List.mem_singleton] at hv; subst hv; cases hb
      · dsimp only
        rw [inv.stream]
        constructor
        · rintro ⟨v, hv, h1⟩; exact ⟨v, by simp [hv], h1⟩
        · rintro ⟨v, hv, ⟨wr, h1⟩, h2⟩
          rcases List.mem_append.mp hv with hv | hv
          · exact ⟨v, hv, ⟨wr, h1⟩, h2⟩
          · simp only [List.mem_singleton] at hv; subst hv; cases h1
      · exact inv.streamStarted
      · exact inv.streams
      · intro v hv; dsimp only at hv; rw [hstr] at hv; cases hv
      · intro v hv hpp
        rcases List.mem_append.mp hv with hv | hv
        · exact inv.panics v hv hpp
        · simp only [List.mem_singleton] at hv; subst hv; cases hpp
      · intro hn; rw [hst] at hn; cases hn
      · intro _ hb; cases hb
      · intro _ hb; cases hb
      · intro hb; cases hb
      · intro hn; rw [hst] at hn; cases hn
      · intro _ hn; dsimp only at hn; rw [hst] at hn; cases hn
    · refine ⟨⟨?_, inv.key, inv.encSK, inv.senderOk, inv.ready, ?_, ?_, ?_, inv.streamStarted, inv.streams, inv.buf, ?_⟩,
        ?_, ?_, ?_, ?_, ?_, ?_⟩
      · rw [addedIn_snoc, addedIn_fail _ hne, List.append_nil]; exact inv.hdr
      · intro hh
        obtain ⟨v, hv, h1⟩ := inv.out hh
        exact ⟨v, by simp [hv], h1⟩
      · intro hh v hv hb
        rcases List.mem_append.mp hv with hv | hv
        · exact inv.notyet hh v hv hb
        · simp only [List.mem_singleton] at hv; subst hv; cases hb
      · dsimp only
        rw [inv.stream]
        constructor
        · rintro ⟨v, hv, h1⟩; exact ⟨v, by simp [hv], h1⟩
        · rintro ⟨v, hv, ⟨wr, h1⟩, h2⟩
          rcases List.mem_append.mp hv with hv | hv
          · exact ⟨v, hv, ⟨wr, h1⟩, h2⟩
          · simp only [List.mem_singleton] at hv; subst hv; cases h1
      · intro v hv hpp
        rcases List.mem_append.mp hv with hv | hv
        · exact inv.panics v hv hpp
        · simp only [List.mem_singleton] at hv; subst hv; exact ⟨pk, rbuf, rfl, hpan hpp⟩
      · intro _; exact not_magic_nil
      · intro _ hb; cases hb
      · intro _ hb; cases hb
      · intro hb; cases hb
      · intro hn; exact ⟨hn, rfl⟩
      · intro h1 h2; dsimp only at h2; rw [h1] at h2; cases h2
  · -- Encrypt
    rename_i rd wr coin
    cases hstm : s.enc.stream with
    | true =>
      have hst := inv.streamStarted hstm
      have ha : s.enc.encrypt P rd wr coin = (.err .encIsStream, s.enc, rd, wr) := by
        unfold Encryptor.encrypt; simp [hstm]
      rw [ha] at h
      cases h
      exact framed s.enc [] hst (Encryptor.Frame.refl _) rfl (by simp) (by simp) (by simp) not_magic_nil rfl inv.buf
    | false =>
      cases hst : s.enc.started with
      | true =>
        obtain ⟨hd, hr⟩ := inv.ready hst
        obtain ⟨r, e', rd', wr', p, g1, g2, g3, g4, g5⟩ := encrypt_started P L s.enc rd wr coin _ _ _ hst hstm hr inv.senderOk hc0
        rw [g1] at h
        cases h
        exact framed e' p hst g3 rfl (by simp) (by simp) (by rw [g2]; simp) g5 g4 inv.buf
      | false =>
        have hstr : s.streams = [] := by
          by_contra hne; have := inv.streams hne; rw [hst] at this; cases this
        rcases start_step P s.enc wr inv.clean with ⟨wr1, k1, k2⟩ | ⟨x, e1, wr1, p, k1, k2, k3, k4, k5, k6, k7, k8, k9, k10, k11, k12⟩
        · have hr := afterStart_ready P L s.enc hc1
          obtain ⟨r, e', rd', wr', p, g1, g2, g3, g4, g5⟩ := encrypt_started P L (s.enc.afterStart P) rd wr1 coin _ _ _
            rfl hstm hr inv.senderOk hc0
          rw [encrypt_start_ok P s.enc _ rd wr wr1 coin hst hstm k1 rfl hstm, g1] at h
          cases h
          refine begun e' p false hst ?_ rfl ?_ ?_ rfl ?_ g4 ?_
          · have : ({ s.enc.afterStart P with stream := false } : Encryptor) = s.enc.afterStart P := by
              rw [← hstm]; rfl
            rw [this]; exact g3
          · simp [hstm]
          · rintro ⟨w, hw⟩; cases hw
          · dsimp only; rw [g2, k2.out]; simp [headerWithSum]
          · intro w hw; dsimp only at hw; rw [hstr] at hw; cases hw
        · have ha : s.enc.encrypt P rd wr coin = (.err x, e1, rd, wr1) := by
            unfold Encryptor.encrypt; simp [hstm, hst, k1]
          rw [ha] at h
          cases h
          exact failed e1 x p hst k5 k7 k8 k9 k10 k11 k12 rfl (by simp) rfl k2.wrote k3
  · -- NewStreamWriter
    rename_i wr
    cases hst : s.enc.started with
    | true =>
      have ha : s.enc.newStreamWriter P wr = (.ok { wr := wr }, { s.enc with stream := true }, wr) := by
        unfold Encryptor.newStreamWriter; simp [hst]
      rw [ha] at h
      cases h
      have hadd : ∀ ev0 : EncEvent, ev0.op = .openStream wr → addedIn (evs ++ [ev0]) = addedIn evs := by
        intro ev0 h0; rw [addedIn_snoc, addedIn_other ev0 (by rw [h0]; simp), List.append_nil]
      refine ⟨⟨?_, inv.key, inv.encSK, inv.senderOk, ?_, ?_, ?_, ?_, ?_, ?_, ?_, ?_⟩, ?_, ?_, ?_, ?_, ?_, ?_⟩
      · rw [hadd _ rfl]; exact inv.hdr
      · intro _
        obtain ⟨hd, hr⟩ := inv.ready hst
        exact ⟨hd, hr.ae, hr.hmac, hr.buf, hr.chunk, hr.key, hr.nonce⟩
      · intro _
        obtain ⟨v, hv, h1⟩ := inv.out hst
        exact ⟨v, by simp [hv], h1⟩
      · intro hn; dsimp only at hn; rw [hst] at hn; cases hn
      · simp only [true_iff]
        exact ⟨_, List.mem_append_right _ (List.mem_singleton.mpr rfl), ⟨wr, rfl⟩, rfl⟩
      · intro _; exact hst
      · intro _; exact hst
      · intro w hw he
        dsimp only at hw
        rcases List.mem_append.mp hw with hw | hw
        · exact inv.buf w hw he
        · simp only [List.mem_singleton] at hw; subst hw; simp
      · intro v hv hpp
        rcases List.mem_append.mp hv with hv | hv
        · exact inv.panics v hv hpp
        · simp only [List.mem_singleton] at hv; subst hv; cases hpp
      · intro _; simp only [List.drop_length]; exact not_magic_nil
      · intro hn; rw [hst] at hn; cases hn
      · intro hn; rw [hst] at hn; cases hn
      · intro _ _; exact hst
      · intro _; exact ⟨hst, rfl⟩
      · intro hn; rw [hst] at hn; cases hn
    | false =>
      have hstr : s.streams = [] := by
        by_contra hne; have := inv.streams hne; rw [hst] at this; cases this
      rcases start_step P s.enc wr inv.clean with ⟨wr1, k1, k2⟩ | ⟨x, e1, wr1, p, k1, k2, k3, k4, k5, k6, k7, k8, k9, k10, k11, k12⟩
      · have ha : s.enc.newStreamWriter P wr = (.ok { wr := wr1 }, { s.enc.afterStart P with stream := true }, wr1) := by
          unfold Encryptor.newStreamWriter; simp [hst, k1]
        rw [ha] at h
        cases h
        refine begun _ [] true hst (Encryptor.Frame.refl _) rfl ?_ ?_ rfl ?_ rfl ?_
        · simp [Res.unit]
        · intro _; rfl
        · dsimp only; rw [k2.wrote]; simp [headerWithSum]
        · intro w hw _
          dsimp only at hw
          rw [hstr] at hw
          simp only [List.nil_append, List.mem_singleton] at hw
          subst hw; simp
      · have ha : s.enc.newStreamWriter P wr = (.err x, e1, wr1) := by
          unfold Encryptor.newStreamWriter; simp [hst, k1]
        rw [ha] at h
        cases h
        exact failed e1 x p hst k5 k7 k8 k9 k10 k11 k12 rfl (by simp) rfl k2.wrote k3
  · -- Write
    rename_i k b
    split at h
    · cases h
    · rename_i w hw
      have hmem : w ∈ s.streams := List.mem_of_getElem? hw
      have hst : s.enc.started = true := inv.streams (by rintro hnil; rw [hnil] at hw; simp at hw)
      obtain ⟨hd, hr⟩ := inv.ready hst
      obtain ⟨r, e', w', p, g1, g2, g3, g4⟩ := write_started P L s.enc w b _ _ _ hr inv.senderOk hc0 (inv.buf w hmem)
      obtain ⟨f1, recs, f2, f3, f4, f5⟩ := write_frame P _ _ _ _ _ _ g1
      rw [g1] at h
      cases h
      refine framed e' p hst f1 rfl (by simp) (by simp) (by rw [g2]; simp) g4 (by rw [Res.unit_isPanic]; exact g3) ?_
      intro v hv he
      dsimp only at hv
      rcases List.mem_or_eq_of_mem_set hv with hv | hv
      · exact inv.buf v hv he
      · subst hv
        obtain ⟨h1, _, h2⟩ := f4 g3 he
        exact h2 (inv.buf w hmem h1)
  · -- Close
    rename_i k coin
    split at h
    · cases h
    · rename_i w hw
      have hmem : w ∈ s.streams := List.mem_of_getElem? hw
      have hst : s.enc.started = true := inv.streams (by rintro hnil; rw [hnil] at hw; simp at hw)
      obtain ⟨hd, hr⟩ := inv.ready hst
      obtain ⟨r, e', w', p, g1, g2, g3, g4⟩ := close_started P L s.enc w coin _ _ _ hr inv.senderOk (inv.buf w hmem)
      obtain ⟨f1, recs, f2, f3, f4, f5⟩ := close_frame P _ _ _ _ _ _ g1
      rw [g1] at h
      cases h
      refine framed e' p hst f1 rfl (by simp) (by simp) (by rw [g2]; simp) g4 g3 ?_
      intro v hv he
      dsimp only at hv
      rcases List.mem_or_eq_of_mem_set hv with hv | hv
      · exact inv.buf v hv he
      · subst hv; exact absurd he (f4 g3)

theorem History.inv {P : Prims} (L : Laws P) {sender : Option PrivateKey} {blk : Nat} {c : EncCoins} (hc : c.WF)
    {e0 : Encryptor} (he : newEncryptor P sender blk c = .ok e0)
    {evs : List EncEvent} {s : EncState} (h : History P e0 evs s) : HistInv P sender blk c evs s := by
  induction h with
  | start =>
    have hz := newEncryptor_sized he
    obtain ⟨epk, h1, h2, h3⟩ := newEncryptor_eq P L sender blk c hc hz
    rw [h3] at he
    cases he
    refine ⟨⟨?_, rfl, h1, ?_, List.Forall₂.nil, rfl⟩, rfl, rfl, ?_, by simp, by simp, by simp, by simp, by simp, by simp,
      by simp, by simp⟩
    · simp only [chooseBlock, defaultChunk, maxChunk_eq]
      split
      · rfl
      · split <;> omega
    · dsimp only
      cases sender <;> rfl
    · intro ha
      cases sender with
      | none => cases ha
      | some s => exact ⟨s, rfl, hz s rfl⟩
  | call h live hstep ih => exact (step_facts P L ih hstep).inv

end Sigtool
