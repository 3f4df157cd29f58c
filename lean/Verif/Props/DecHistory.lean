import Verif.DecInv
/-!
# Props.DecHistory: C61-C65 — arbitrary call histories on one `Decryptor`

`DecHistory P d0 evs s` ranges over every finite sequence of `SetPrivateKey`, `Decrypt`, `NewStreamReader` calls and `Read`
calls on any of the stream readers, with any arguments, any (failing) destinations and any input.
-/

namespace Sigtool
open Spec (lengthWord sessionKeys unwrapAs senderSeal senderStatement ValidSignature unsigned OpensFor SenderProof)

/-! ## C61: only authenticated bytes are delivered -/

theorem Frame.Valid.congr {P : Prims} {key nonce : Bytes} {max i j : Nat} {f : Frame} (h : i % 2^32 = j % 2^32)
    (hf : f.Valid P key nonce max i) : f.Valid P key nonce max j := by
  unfold Frame.Valid at *
  rw [← be32_congr i j h]; exact hf

theorem fullwrite_delivers (b : Bytes) (wr : Writer) : ∃ o wr' p,
    fullwrite b wr = (o, wr') ∧ wr'.out = wr.out ++ p ∧ p <+: b ∧ (o = none → p = b) := by
  rcases fullwrite_step b wr with ⟨wr1, g1, g2⟩ | ⟨x, wr1, p, g1, g2, g3, _⟩
  · exact ⟨_, _, b, g1, g2.out, List.prefix_refl _, fun _ => rfl⟩
  · exact ⟨_, _, p, g1, g2.out, g3, by simp⟩

/-- What the loop of `Decrypt` delivers, in any state of the decryptor. -/
theorem decryptLoop_delivers (P : Prims) (L : Laws P) (dkey : Bytes) : ∀ (fuel : Nat) (d : Decryptor) (wr : Writer) (i : Nat)
    (r : Res Unit) (d' : Decryptor) (wr' : Writer), d.ae = some dkey → Decryptor.decryptLoop P fuel d wr i = (r, d', wr') →
    ∃ (frames : List Frame) (rest p : Bytes), d.rd.content = frames.flatMap (fun f => f.word ++ f.ct) ++ rest ∧
      (∀ (j : Nat) (f : Frame), frames[j]? = some f → f.Valid P dkey d.nonce d.hdr.chunkSize (i + j)) ∧
      wr'.out = wr.out ++ p ∧ p <+: (frames.map Frame.pt).flatten := by
  intro fuel
  induction fuel with
  | zero => intro d wr i r d' wr' _ h; cases h; exact ⟨[], _, [], rfl, by simp, by simp, by simp⟩
  | succ fuel ih =>
    intro d wr i r d' wr' hae h
    have none_ : ∃ (frames : List Frame) (rest p : Bytes), d.rd.content = frames.flatMap (fun f => f.word ++ f.ct) ++ rest ∧
        (∀ (j : Nat) (f : Frame), frames[j]? = some f → f.Valid P dkey d.nonce d.hdr.chunkSize (i + j)) ∧
        wr.out = wr.out ++ p ∧ p <+: (frames.map Frame.pt).flatten := ⟨[], _, [], rfl, by simp, by simp, by simp⟩
    have hsame := decryptBlock_only P d i
    unfold Decryptor.decryptLoop at h
    rcases hb : d.decryptBlock P i with ⟨r, d1⟩
    rw [hb] at h hsame
    cases r with
    | err x => cases h; exact none_
    | panic x => cases h; exact none_
    | ok ce =>
      obtain ⟨c, eof⟩ := ce
      obtain ⟨dkey', a1, a2⟩ := decryptBlock_accepted P L _ _ _ _ _ hb
      rw [hae] at a1; cases a1
      dsimp only at h
      rcases a2 with ⟨rfl, rfl⟩ | ⟨w, ct, rest, b1, b2, b3, b4, b5, b6, b7, _⟩
      · simp only [List.length_nil, gt_iff_lt, Nat.lt_irrefl, if_false, if_true] at h
        cases h; exact none_
      · obtain ⟨o, wr1, p, c1, c2, c3, c4⟩ := fullwrite_delivers c wr
        have hv : (⟨w, ct, c⟩ : Frame).Valid P dkey d.nonce d.hdr.chunkSize i := ⟨b1, b3, b4, b5⟩
        have one : ∃ (frames : List Frame) (rest p : Bytes),
            d.rd.content = frames.flatMap (fun f => f.word ++ f.ct) ++ rest ∧
            (∀ (j : Nat) (f : Frame), frames[j]? = some f → f.Valid P dkey d.nonce d.hdr.chunkSize (i + j)) ∧
            wr1.out = wr.out ++ p ∧ p <+: (frames.map Frame.pt).flatten := by
          refine ⟨[⟨w, ct, c⟩], rest, p, by simpa using b2, ?_, c2, by simpa using c3⟩
          intro j f hj
          cases j with
          | zero => simp only [List.getElem?_cons_zero, Option.some.injEq] at hj; subst hj; exact hv
          | succ j => simp at hj
        rw [if_pos b4, c1] at h
        cases o with
        | some x => cases h; exact one
        | none =>
          dsimp only at h
          cases eof with
          | true => simp only [if_true] at h; cases h; exact one
          | false =>
            simp only [Bool.false_eq_true, if_false] at h
            obtain ⟨fs, rest', q, e1, e2, e3, e4⟩ := ih d1 wr1 _ _ _ _ (hsame.1.ae.trans hae) h
            refine ⟨⟨w, ct, c⟩ :: fs, rest', c ++ q, ?_, ?_, ?_, ?_⟩
            · rw [b2, ← b7 rfl, e1]; simp
            · intro j f hj
              cases j with
              | zero => simp only [List.getElem?_cons_zero, Option.some.injEq] at hj; subst hj; exact hv
              | succ j =>
                have := e2 j f (by simpa using hj)
                rw [hsame.1.nonce, hsame.1.hdr] at this
                exact this.congr (by omega)
            · rw [e3, c2, c4 rfl, List.append_assoc]
            · simp only [List.map_cons, List.flatten_cons]
              exact prefix_append_left e4

/-- `rd'` is where the input stands after `NewDecryptor`. -/
theorem newDecryptor_rd {P : Prims} {rd rd' : Reader} {d0 : Decryptor} (h0 : newDecryptor P rd = (.ok d0, rd')) :
    d0.rd = rd' := by
  obtain ⟨hb, ha⟩ := newDecryptor_ok P rd d0 rd' h0
  rw [ha.state]

/-- **C61** for `Decrypt`: after any history of calls, whatever the input and the destination do, a call of `Decrypt`
delivers an initial part of the plaintexts of consecutive frames of the input (possibly none), each of which opens with its
own position as nonce under the data key of a root key that some earlier, successful `SetPrivateKey` got out of the
header.  (The input: what `rd'` held after the header, and whatever became readable after an error.) -/
theorem C61_decrypt_authentic (P : Prims) (L : Laws P) (rd rd' : Reader) (d0 : Decryptor)
    (h0 : newDecryptor P rd = (.ok d0, rd')) (evs : List DecEvent) (s : DecState) (h : DecHistory P d0 evs s)
    (wr : Writer) (ev : DecEvent) (s' : DecState) (hstep : s.step P (.decrypt wr) = some (ev, s')) :
    ev.delivered = [] ∨ ∃ v ∈ evs, ∃ sk spk key, v.op = .setKey sk spk ∧ v.res = .ok () ∧ OpensFor P d0.hdr sk key ∧
      ∃ frames : List Frame, frames.flatMap (fun f => f.word ++ f.ct) <:+: inputOf rd' evs ∧
        (∀ (j : Nat) (f : Frame), frames[j]? = some f →
          f.Valid P (sessionKeys P key d0.hdrsum).2.1 (sessionKeys P key d0.hdrsum).1 d0.hdr.chunkSize j) ∧
        ev.delivered <+: (frames.map Frame.pt).flatten := by
  have inv := h.inv h0
  have hrd' := newDecryptor_rd h0
  unfold DecState.step at hstep
  dsimp only at hstep
  rcases hd : s.dec.decrypt P wr with ⟨r, d, wr'⟩
  rw [hd] at hstep
  cases hstep
  dsimp only
  unfold Decryptor.decrypt at hd
  have nil_ : ∀ w : Bytes, w.drop w.length = [] := fun w => by simp
  cases hk : s.dec.key with
  | none => rw [hk] at hd; cases hd; exact Or.inl (nil_ _)
  | some k =>
    rw [hk] at hd
    dsimp only at hd
    split at hd
    · cases hd; exact Or.inl (nil_ _)
    · split at hd
      · cases hd; exact Or.inl (nil_ _)
      · rcases inv.cipher with hae | ⟨v, hv, sk, spk, key, k1, k2, k3, k4, k5, k6, k7⟩
        · left
          unfold Decryptor.decryptLoop Decryptor.decryptBlock at hd
          rw [hae] at hd
          cases hd; exact nil_ _
        · right
          obtain ⟨fs, rest, p, e1, e2, e3, e4⟩ := decryptLoop_delivers P L _ _ _ _ _ _ _ _ k4 hd
          refine ⟨v, hv, sk, spk, key, k1, k2, k3, fs, ?_, ?_, ?_⟩
          · obtain ⟨t, ht⟩ := inv.rd
            exact ⟨t, rest, by rw [← hrd', ← ht, e1]; simp⟩
          · intro j f hj
            have := e2 j f hj
            rw [k5, inv.hdr, Nat.zero_add] at this
            exact this
          · rw [e3]; simpa using e4

/-- Everything that the `Read` calls of a history delivered, in order. -/
def readsOf (evs : List DecEvent) : Bytes :=
  evs.flatMap fun v => match v.op with
    | .read _ _ => v.delivered
    | _ => []

/-- How many stream readers were handed out. -/
def readersIn (evs : List DecEvent) : Nat :=
  evs.countP fun v => decide (v.op = .openReader ∧ v.res = .ok ())

theorem readsOf_snoc (evs : List DecEvent) (v : DecEvent) : readsOf (evs ++ [v]) = readsOf evs ++ readsOf [v] := by
  simp [readsOf]

theorem readers_count {P : Prims} {d0 : Decryptor} {evs : List DecEvent} {s : DecState} (h : DecHistory P d0 evs s) :
    s.readers.length = readersIn evs := by
  induction h with
  | start => rfl
  | @call evs s s' op ev h live hstep ih =>
    have hop := decStep_op hstep
    have hcount : readersIn (evs ++ [ev]) = readersIn evs + if ev.op = .openReader ∧ ev.res = .ok () then 1 else 0 := by
      simp [readersIn, List.countP_append, List.countP_cons]
    rw [hcount, ← ih]
    cases op with
    | setKey sk spk =>
      rw [hop]; simp only [reduceCtorEq, false_and, if_false]
      obtain ⟨r, d, more, _, _, _, h4, _⟩ := step_setKey hstep
      rw [h4, Nat.add_zero]
    | decrypt wr =>
      rw [hop]; simp only [reduceCtorEq, false_and, if_false]
      obtain ⟨r, d, wr', buf, _, _, h3, _⟩ := step_decrypt hstep
      rw [h3, Nat.add_zero]
    | openReader =>
      rcases step_open hstep with ⟨_, h2, h3⟩ | ⟨_, _, h2, h3⟩ | ⟨_, _, h2, h3⟩
      · rw [h2, h3]; simp
      · rw [h2, h3]; simp
      · rw [h2, h3]; simp
    | read k cap =>
      rw [hop]; simp only [reduceCtorEq, false_and, if_false]
      obtain ⟨r, res, _, rc, _⟩ := step_read hstep
      cases rc <;> simp
    | more rd =>
      rw [hop]; simp only [reduceCtorEq, false_and, if_false]
      obtain ⟨_, _, h3⟩ := step_more hstep
      rw [h3, Nat.add_zero]

theorem Slice.bytes_append (u : Slice) (heap more : List Bytes) (h : (u.bytes heap).length = u.len) :
    u.bytes (heap ++ more) = u.bytes heap := by
  unfold Slice.bytes at *
  by_cases hb : u.buf < heap.length
  · rw [List.getElem?_append_left hb]
  · rw [List.getElem?_eq_none (by omega)] at h
    have : u.len = 0 := by simpa using h.symm
    simp [this]

/-- The state of the only stream reader. -/
structure OneReader (P : Prims) (d0 : Decryptor) (evs : List DecEvent) (s : DecState) (r : MemReader) : Prop where
  len : (r.unread.bytes s.heap).length = r.unread.len
  run : ∃ (start : Bytes) (frames : List Frame) (rest : Bytes),
    inputOf d0.rd evs = start ++ frames.flatMap (fun f => f.word ++ f.ct) ++ rest ∧
    (∀ (j : Nat) (f : Frame), frames[j]? = some f → ∃ v ∈ evs, ∃ sk spk key, v.op = .setKey sk spk ∧ v.res = .ok () ∧
      OpensFor P d0.hdr sk key ∧
      f.Valid P (sessionKeys P key d0.hdrsum).2.1 (sessionKeys P key d0.hdrsum).1 d0.hdr.chunkSize j) ∧
    readsOf evs <+: (frames.map Frame.pt).flatten ∧
    (r.err = none → (∀ v ∈ evs, v.res.isPanic = false) → readsOf evs ++ r.unread.bytes s.heap = (frames.map Frame.pt).flatten ∧
      frames.length % 2^32 = r.blk % 2^32 ∧ (s.dec.eof = false → s.dec.rd.content = rest))

theorem OneReader.grow {P : Prims} {d0 : Decryptor} {evs : List DecEvent} {s s' : DecState} {r : MemReader} {ev : DecEvent}
    (h : OneReader P d0 evs s r) (hb : r.unread.bytes s'.heap = r.unread.bytes s.heap) (hr : readsOf [ev] = [])
    (hrd : s'.dec.rd = s.dec.rd) (heof : s'.dec.eof = s.dec.eof) (hop : ∀ r, ev.op ≠ .more r) : OneReader P d0 (evs ++ [ev]) s' r := by
  obtain ⟨start, fs, rest, g1, g2, g3, g4⟩ := h.run
  refine ⟨by rw [hb]; exact h.len, start, fs, rest, by rw [inputOf_call _ _ _ hop]; exact g1, ?_, ?_, ?_⟩
  · intro j f hj
    obtain ⟨v, hv, k⟩ := g2 j f hj
    exact ⟨v, by simp [hv], k⟩
  · rw [readsOf_snoc, hr, List.append_nil]; exact g3
  · rw [readsOf_snoc, hr, List.append_nil, hb, hrd, heof]
    exact fun h1 h2 => g4 h1 (fun v hv => h2 v (by simp [hv]))

theorem heap_same (s : DecState) (u : Slice) : u.bytes (s.heap.set s.cur s.buf) = u.bytes s.heap := by
  have : s.heap.set s.cur s.buf = s.heap := by
    unfold DecState.buf
    by_cases h : s.cur < s.heap.length
    · rw [List.getElem?_eq_getElem h]
      simp
    · exact List.set_eq_of_length_le (by omega)
  rw [this]

theorem oneReader_step {P : Prims} (L : Laws P) {d0 : Decryptor} {evs : List DecEvent} {s s' : DecState} {ev : DecEvent}
    {op : DecOp} (inv : DecInv P d0 evs s) (live : ∀ v ∈ evs, v.res.isPanic = false)
    (hstep : s.step P op = some (ev, s')) (hlen : s'.readers.length ≤ 1)
    (h0 : s.readers = [] → readsOf evs = []) (h1 : ∀ r, s.readers = [r] → OneReader P d0 evs s r) :
    (s'.readers = [] → readsOf (evs ++ [ev]) = []) ∧ (∀ r, s'.readers = [r] → OneReader P d0 (evs ++ [ev]) s' r) := by
  have hop := decStep_op hstep
  cases op with
  | setKey sk spk =>
    have hr : readsOf [ev] = [] := by simp [readsOf, hop]
    obtain ⟨r, d, more, g1, g2, g3, g4, g5, g6, g7, g8, _⟩ := step_setKey hstep
    rw [g4]
    refine ⟨fun h => by rw [readsOf_snoc, hr, h0 h]; rfl, fun r hrr => ?_⟩
    exact (h1 r hrr).grow (by rw [g5, Slice.bytes_append _ _ _ (h1 r hrr).len]) hr (by rw [g3, g6]) (by rw [g3, g7])
      (by rw [hop]; simp)
  | decrypt wr =>
    have hr : readsOf [ev] = [] := by simp [readsOf, hop]
    obtain ⟨r, d, wr', buf, g1, g2, g3, g4⟩ := step_decrypt hstep
    subst g3
    refine ⟨fun h => by rw [readsOf_snoc, hr, h0 h]; rfl, fun r hrr => ?_⟩
    dsimp only at hrr
    have hst := inv.stream (by rw [hrr]; simp)
    have hk : s.dec.key ≠ none := fun hk => by
      have := (inv.keyed hk).2; rw [hrr] at this; cases this
    have hd : s.dec.decrypt P wr = (.err .decStarted, s.dec, wr) := (C19_guards P s.dec wr).2.1 hk hst
    rw [hd] at g1; cases g1
    exact (h1 r hrr).grow (by rw [g4 hst]; exact heap_same s _) hr rfl rfl (by rw [hop]; simp)
  | openReader =>
    have hr : readsOf [ev] = [] := by simp [readsOf, hop]
    rcases step_open hstep with ⟨_, g2, g3⟩ | ⟨_, _, g2, g3⟩ | ⟨_, _, g2, g3⟩
    · subst g3
      exact ⟨fun h => by rw [readsOf_snoc, hr, h0 h]; rfl, fun r hrr => (h1 r hrr).grow rfl hr rfl rfl (by rw [hop]; simp)⟩
    · subst g3
      exact ⟨fun h => by rw [readsOf_snoc, hr, h0 h]; rfl, fun r hrr => (h1 r hrr).grow rfl hr rfl rfl (by rw [hop]; simp)⟩
    · subst g3
      dsimp only at hlen ⊢
      have hnil : s.readers = [] := by
        rw [List.length_append] at hlen
        exact List.length_eq_zero_iff.mp (by simpa using hlen)
      rw [hnil]
      refine ⟨by simp, fun r hrr => ?_⟩
      cases hrr
      obtain ⟨t, ht⟩ := inv.rd
      refine ⟨rfl, t, [], s.dec.rd.content, by rw [inputOf_call _ _ _ (by rw [hop]; simp)]; simp [ht], by simp, ?_, ?_⟩
      · rw [readsOf_snoc, hr, h0 hnil]; simp
      · intro _ _
        rw [readsOf_snoc, hr, h0 hnil]
        exact ⟨by simp [Slice.bytes], rfl, fun _ => rfl⟩
  | read k cap =>
    obtain ⟨r, res, g1, rc, g2⟩ := step_read hstep
    have hk : k < s.readers.length := by
      rw [List.getElem?_eq_some_iff] at g1; exact g1.1
    have hone : s.readers = [r] ∧ k = 0 := by
      have hl : s.readers.length ≤ 1 := by
        cases rc <;> simpa using hlen
      have hk0 : k = 0 := by omega
      subst hk0
      refine ⟨?_, rfl⟩
      match hs : s.readers, hl, g1 with
      | [x], _, g1 => simpa using g1
    obtain ⟨hrs, rfl⟩ := hone
    have nomore : ∀ r, ev.op ≠ .more r := by rw [hop]; simp
    have hin := inputOf_call d0.rd evs ev nomore
    have one := h1 r hrs
    have hreads : ∀ b, res = .ok b → readsOf [ev] = b := by
      intro b hb; subst hb; rw [g2]; simp [readsOf]
    have hreads0 : (∀ b, res ≠ .ok b) → readsOf [ev] = [] := by
      intro hb; rw [g2]; cases res with
      | ok b => exact absurd rfl (hb b)
      | err x => simp [readsOf]
      | panic x => simp [readsOf]
    have dead : ∀ (s' : DecState) (r' : MemReader), r'.err ≠ none → readsOf [ev] = [] →
        (r'.unread.bytes s'.heap).length = r'.unread.len → OneReader P d0 (evs ++ [ev]) s' r' := by
      intro s' r' he hr hl
      obtain ⟨start, fs, rest, q1, q2, q3, _⟩ := one.run
      refine ⟨hl, start, fs, rest, hin ▸ q1, ?_, by rw [readsOf_snoc, hr, List.append_nil]; exact q3, fun h => absurd h he⟩
      intro j f hj
      obtain ⟨v, hv, rest⟩ := q2 j f hj
      exact ⟨v, by simp [hv], rest⟩
    cases rc with
    | stuck x hx =>
      have hr := hreads0 (by simp)
      exact ⟨fun h => (by rw [hrs] at h; cases h), fun r' hr' => (h1 r' hr').grow rfl hr rfl rfl nomore⟩
    | buffered he hu =>
      have hr := hreads _ rfl
      rw [hrs]
      refine ⟨by simp, fun r' hr' => ?_⟩
      cases hr'
      obtain ⟨start, fs, rest, q1, q2, q3, q4⟩ := one.run
      obtain ⟨q5, q6, q7⟩ := q4 he live
      have hsplit : (⟨r.unread.buf, r.unread.off + min cap r.unread.len, r.unread.len - min cap r.unread.len⟩ : Slice).bytes
          s.heap = (r.unread.bytes s.heap).drop cap := by
        have hl := one.len
        unfold Slice.bytes at hl ⊢
        dsimp only
        generalize (s.heap[r.unread.buf]?).getD [] = B at hl ⊢
        rw [List.length_take, List.length_drop] at hl
        rw [List.drop_take, List.drop_drop]
        by_cases hc : cap ≤ r.unread.len
        · rw [Nat.min_eq_left hc]
        · rw [Nat.min_eq_right (by omega)]
          have : r.unread.len - cap = 0 := by omega
          rw [this, Nat.sub_self]; simp
      refine ⟨?_, start, fs, rest, hin ▸ q1, ?_, ?_, ?_⟩
      · rw [hsplit, List.length_drop, one.len]
        dsimp only
        omega
      · intro j f hj
        obtain ⟨v, hv, rest⟩ := q2 j f hj
        exact ⟨v, by simp [hv], rest⟩
      · rw [readsOf_snoc, hr, ← q5]
        exact prefix_append_left (List.take_prefix _ _)
      · intro _ _
        rw [hsplit, readsOf_snoc, hr, List.append_assoc, List.take_append_drop]
        exact ⟨q5, q6, q7⟩
    | ended he hu heof =>
      have hr := hreads0 (by simp)
      rw [hrs]
      refine ⟨by simp, fun r' hr' => ?_⟩
      cases hr'
      exact dead _ _ (by simp) hr one.len
    | failed x d he hu heof hb =>
      have hr := hreads0 (by simp)
      rw [hrs]
      refine ⟨by simp, fun r' hr' => ?_⟩
      cases hr'
      exact dead _ _ (by simp) hr (by unfold Slice.bytes; rw [hu]; simp)
    | crashed x d he hu heof hb =>
      have hr := hreads0 (by simp)
      refine ⟨fun h => (by rw [hrs] at h; cases h), fun r' hr' => ?_⟩
      dsimp only at hr'
      rw [hrs] at hr'
      cases hr'
      obtain ⟨start, fs, rest, q1, q2, q3, q4⟩ := one.run
      refine ⟨by unfold Slice.bytes; rw [hu]; simp, start, fs, rest, hin ▸ q1, ?_, ?_, ?_⟩
      · intro j f hj
        obtain ⟨v, hv, rest⟩ := q2 j f hj
        exact ⟨v, by simp [hv], rest⟩
      · rw [readsOf_snoc, hr, List.append_nil]; exact q3
      · intro _ hl
        have := hl ev (by simp)
        rw [g2] at this
        cases this
    | empty eof d he hu heof hb =>
      have hr := hreads0 (by simp)
      rw [hrs]
      refine ⟨by simp, fun r' hr' => ?_⟩
      cases hr'
      exact dead _ _ (by simp) hr (by unfold Slice.bytes; simp)
    | fresh pt eof d he hu heof hpt hb =>
      have hr := hreads _ rfl
      rw [hrs]
      refine ⟨by simp, fun r' hr' => ?_⟩
      cases hr'
      obtain ⟨start, fs, rest, q1, q2, q3, q4⟩ := one.run
      obtain ⟨q5, q6, q7⟩ := q4 he live
      have hempty : r.unread.bytes s.heap = [] := by unfold Slice.bytes; rw [hu]; simp
      rw [hempty, List.append_nil] at q5
      obtain ⟨dkey, a1, a2⟩ := decryptBlock_accepted P L _ _ _ _ _ hb
      rcases a2 with ⟨rfl, _⟩ | ⟨w, ct, rest', b1, b2, b3, b4, b5, b6, b7, b8⟩
      · simp at hpt
      · rcases inv.cipher with hae | ⟨v, hv, sk, spk, key, k1, k2, k3, k4, k5, k6, k7⟩
        · rw [hae] at a1; cases a1
        · rw [k4] at a1; cases a1
          have hbytes : ∀ off len, (⟨s.cur, off, len⟩ : Slice).bytes (s.heap.set s.cur (s.dec.bufAfter P r.blk s.buf)) =
              ((s.dec.bufAfter P r.blk s.buf).drop off).take len := by
            intro off len
            unfold Slice.bytes
            dsimp only
            rw [List.getElem?_set_self k7]; rfl
          have hpt0 : (⟨s.cur, 0, pt.length⟩ : Slice).bytes (s.heap.set s.cur (s.dec.bufAfter P r.blk s.buf)) = pt := by
            rw [hbytes]; exact b8 _
          rw [hpt0] at hr
          have hsplit : (⟨s.cur, 0 + min cap pt.length, pt.length - min cap pt.length⟩ : Slice).bytes
              (s.heap.set s.cur (s.dec.bufAfter P r.blk s.buf)) = pt.drop cap := by
            rw [hbytes, Nat.zero_add, ← List.drop_take, b8]
            by_cases hc : cap ≤ pt.length
            · rw [Nat.min_eq_left hc]
            · rw [Nat.min_eq_right (by omega), List.drop_length, List.drop_eq_nil_of_le (by omega)]
          have hrest : s.dec.rd.content = rest := q7 heof
          refine ⟨?_, start, fs ++ [⟨w, ct, pt⟩], rest', ?_, ?_, ?_, ?_⟩
          · dsimp only
            rw [hsplit, List.length_drop]; omega
          · rw [hin, q1, ← hrest, b2]; simp
          · intro j f hj
            rcases getElem?_snoc_frame hj with hj | ⟨hjl, rfl⟩
            · obtain ⟨v, hv, rest⟩ := q2 j f hj
              exact ⟨v, by simp [hv], rest⟩
            · refine ⟨v, by simp [hv], sk, spk, key, k1, k2, k3, ?_⟩
              have : (⟨w, ct, pt⟩ : Frame).Valid P (sessionKeys P key d0.hdrsum).2.1 (sessionKeys P key d0.hdrsum).1
                  d0.hdr.chunkSize r.blk := by
                rw [← k5, ← inv.hdr]; exact ⟨b1, b3, b4, b5⟩
              exact this.congr (by rw [hjl]; exact q6.symm)
          · rw [readsOf_snoc, hr, q5, List.map_append, List.flatten_append]
            have := prefix_append_left (a := (fs.map Frame.pt).flatten) (List.take_prefix cap pt)
            simpa using this
          · intro _ _
            refine ⟨?_, ?_, ?_⟩
            · dsimp only
              rw [hsplit, readsOf_snoc, hr, q5, List.append_assoc, List.take_append_drop]
              simp
            · simp only [List.length_append, List.length_singleton]; omega
            · intro he'
              exact b7 he'
  | more rd =>
    have hr : readsOf [ev] = [] := by simp [readsOf, hop]
    obtain ⟨g1, g2, g3⟩ := step_more hstep
    subst g3
    refine ⟨fun h => by rw [readsOf_snoc, hr, h0 h]; rfl, fun r hrr => ?_⟩
    have one := h1 r hrr
    obtain ⟨start, fs, rest, q1, q2, q3, q4⟩ := one.run
    refine ⟨one.len, start, fs, rest ++ rd.content, ?_, ?_, ?_, ?_⟩
    · rw [inputOf_snoc, hop, q1]; simp
    · intro j f hj
      obtain ⟨v, hv, k⟩ := q2 j f hj
      exact ⟨v, by simp [hv], k⟩
    · rw [readsOf_snoc, hr, List.append_nil]; exact q3
    · rw [readsOf_snoc, hr, List.append_nil]
      intro e1 _
      obtain ⟨q5, q6, q7⟩ := q4 e1 live
      refine ⟨q5, q6, fun he => ?_⟩
      dsimp only at he ⊢
      rw [← q7 he, g1]; rfl

/-- **C61** for a stream reader: in any history in which at most one stream reader was handed out, everything the `Read`
calls delivered, taken together, is an initial part of the plaintexts of consecutive frames of the input; frame number `j`
opens with `j` as nonce under the data key of a root key that some successful `SetPrivateKey` got out of the header.
Missing, and false of the code: histories with two stream readers (`C61_two_readers_refuted`). -/
theorem C61_reader_authentic_partial (P : Prims) (L : Laws P) (rd rd' : Reader) (d0 : Decryptor)
    (h0 : newDecryptor P rd = (.ok d0, rd')) (evs : List DecEvent) (s : DecState) (h : DecHistory P d0 evs s)
    (hone : readersIn evs ≤ 1) :
    ∃ frames : List Frame, frames.flatMap (fun f => f.word ++ f.ct) <:+: inputOf rd' evs ∧
      (∀ (j : Nat) (f : Frame), frames[j]? = some f → ∃ v ∈ evs, ∃ sk spk key, v.op = .setKey sk spk ∧ v.res = .ok () ∧
        OpensFor P d0.hdr sk key ∧
        f.Valid P (sessionKeys P key d0.hdrsum).2.1 (sessionKeys P key d0.hdrsum).1 d0.hdr.chunkSize j) ∧
      readsOf evs <+: (frames.map Frame.pt).flatten := by
  have key : (s.readers = [] → readsOf evs = []) ∧ (∀ r, s.readers = [r] → OneReader P d0 evs s r) := by
    induction h with
    | start => exact ⟨fun _ => rfl, by simp⟩
    | @call evs s s' op ev h live hstep ih =>
      have hc := readers_count (DecHistory.call h live hstep)
      have hle : readersIn evs ≤ 1 := by
        have : readersIn evs ≤ readersIn (evs ++ [ev]) := by simp [readersIn, List.countP_append]
        omega
      obtain ⟨i1, i2⟩ := ih hle
      exact oneReader_step L (h.inv h0) live hstep (by omega) i1 i2
  have hc := readers_count h
  match hs : s.readers with
  | [] =>
    exact ⟨[], by simp, by simp, by rw [key.1 hs]; simp⟩
  | [r] =>
    obtain ⟨start, fs, rest, q1, q2, q3, _⟩ := (key.2 r hs).run
    exact ⟨fs, ⟨start, rest, by rw [← newDecryptor_rd h0, q1]⟩, q2, q3⟩
  | _ :: _ :: _ => rw [hs] at hc; simp at hc; omega

/-! ## C62: `AuthenticatedSender()` -/

theorem step_auth {P : Prims} {s s' : DecState} {ev : DecEvent} {op : DecOp} (h : s.step P op = some (ev, s')) :
    ev.auth = s'.dec.auth := by
  cases op with
  | setKey sk spk =>
    obtain ⟨r, d, more, _, h2, h3, _⟩ := step_setKey h
    rw [h2, h3]
  | decrypt wr =>
    obtain ⟨r, d, wr', buf, _, h2, h3, _⟩ := step_decrypt h
    rw [h2, h3]
  | openReader =>
    rcases step_open h with ⟨_, h2, h3⟩ | ⟨_, _, h2, h3⟩ | ⟨_, _, h2, h3⟩ <;> rw [h2, h3]
  | more rd => obtain ⟨_, h2, h3⟩ := step_more h; rw [h2, h3]
  | read k cap =>
    obtain ⟨r, res, _, _, h3⟩ := step_read h
    rw [h3]

/-- **C62**, the part that holds: whenever in any history `AuthenticatedSender()` is true, some `SetPrivateKey` up to then
named a sender key, returned nil, and the header's sender field is a signature by that key over this header.  Missing, and
false of the code: that this was the latest `SetPrivateKey` call (`C62_stale_refuted`). -/
theorem C62_authenticated_partial (P : Prims) (rd rd' : Reader) (d0 : Decryptor)
    (h0 : newDecryptor P rd = (.ok d0, rd')) (evs : List DecEvent) (ev : DecEvent) (s : DecState)
    (h : DecHistory P d0 (evs ++ [ev]) s) (ha : ev.auth = true) :
    ∃ v ∈ evs ++ [ev], ∃ sk pk key, v.op = .setKey sk (some pk) ∧ v.res = .ok () ∧ OpensFor P d0.hdr sk key ∧
      SenderProof P d0.hdr key pk := by
  have inv := h.inv h0
  obtain ⟨s1, s2, op, g1, g2, g3, g4⟩ := h.split evs ev [] rfl
  have : s2.dec.auth = true := by rw [← step_auth g3, ha]
  exact (g4.inv h0).auth this

/-! ## C64: order of use -/

/-- What the guards rest on. -/
structure GuardInv (evs : List DecEvent) (s : DecState) : Prop where
  opened : (∃ v ∈ evs, v.op = .openReader ∧ v.res = .ok ()) → s.dec.stream = true ∧ s.dec.key ≠ none
  ended : (∃ v ∈ evs, (∃ wr, v.op = .decrypt wr) ∧ v.res = .ok ()) ∨
    (∃ v ∈ evs, (∃ k cap, v.op = .read k cap) ∧ v.res = .err .eof) → s.dec.eof = true ∧ s.dec.key ≠ none
  stuck : ∀ v ∈ evs, ∀ k cap x, v.op = .read k cap → v.res = .err x → ∃ r, s.readers[k]? = some r ∧ r.err = some x
  eofs : ∀ (k : Nat) (r : MemReader), s.readers[k]? = some r → r.err = some .eof → s.dec.eof = true
  keyed : s.readers ≠ [] → s.dec.key ≠ none

theorem decryptBlock_not_eof (P : Prims) (d d' : Decryptor) (i : Nat) : d.decryptBlock P i ≠ (.err .eof, d') := by
  intro h
  unfold Decryptor.decryptBlock Decryptor.processTrailer at h
  repeat' (first | (split at h) | (dsimp only at h; split at h))
  all_goals first
    | (cases h; done)
    | (rename_i hv; unfold verifyMessage at hv; split at hv <;> cases hv)

theorem GuardInv.same {evs : List DecEvent} {s s' : DecState} {ev : DecEvent} (g : GuardInv evs s)
    (hstream : s'.dec.stream = s.dec.stream) (hkey : s.dec.key ≠ none → s'.dec.key ≠ none)
    (heof : s.dec.eof = true → s'.dec.eof = true) (hrs : s'.readers = s.readers)
    (h1 : ¬ (ev.op = .openReader ∧ ev.res = .ok ()))
    (h2 : (∃ wr, ev.op = .decrypt wr) ∧ ev.res = .ok () → s'.dec.eof = true ∧ s'.dec.key ≠ none)
    (h3 : ∀ k cap, ev.op ≠ .read k cap) : GuardInv (evs ++ [ev]) s' where
  opened := by
    rintro ⟨v, hv, h4, h5⟩
    rcases List.mem_append.mp hv with hv | hv
    · obtain ⟨a, b⟩ := g.opened ⟨v, hv, h4, h5⟩
      exact ⟨by rw [hstream, a], hkey b⟩
    · simp only [List.mem_singleton] at hv; subst hv; exact absurd ⟨h4, h5⟩ h1
  ended := by
    rintro (⟨v, hv, h4, h5⟩ | ⟨v, hv, h4, h5⟩)
    · rcases List.mem_append.mp hv with hv | hv
      · obtain ⟨a, b⟩ := g.ended (Or.inl ⟨v, hv, h4, h5⟩)
        exact ⟨heof a, hkey b⟩
      · simp only [List.mem_singleton] at hv; subst hv; exact h2 ⟨h4, h5⟩
    · rcases List.mem_append.mp hv with hv | hv
      · obtain ⟨a, b⟩ := g.ended (Or.inr ⟨v, hv, h4, h5⟩)
        exact ⟨heof a, hkey b⟩
      · simp only [List.mem_singleton] at hv; subst hv
        obtain ⟨k, cap, h4⟩ := h4
        exact absurd h4 (h3 k cap)
  stuck := by
    intro v hv k cap x h4 h5
    rw [hrs]
    rcases List.mem_append.mp hv with hv | hv
    · exact g.stuck v hv k cap x h4 h5
    · simp only [List.mem_singleton] at hv; subst hv; exact absurd h4 (h3 k cap)
  eofs := by
    intro k r hk he
    rw [hrs] at hk
    exact heof (g.eofs k r hk he)
  keyed := by
    intro hr
    rw [hrs] at hr
    exact hkey (g.keyed hr)

theorem guard_read {P : Prims} {evs : List DecEvent} {s s' : DecState} {ev : DecEvent} {k cap : Nat} (g : GuardInv evs s)
    (hstep : s.step P (.read k cap) = some (ev, s')) : GuardInv (evs ++ [ev]) s' := by
  obtain ⟨r, res, hr, rc, hev⟩ := step_read hstep
  have hkl : k < s.readers.length := (List.getElem?_eq_some_iff.mp hr).1
  have hkey : s.dec.key ≠ none := g.keyed (fun h => by rw [h] at hkl; simp at hkl)
  -- what the decryptor keeps
  have keep : s'.dec.stream = s.dec.stream ∧ s'.dec.key = s.dec.key ∧ (s.dec.eof = true → s'.dec.eof = true) := by
    have hb := decryptBlock_only P s.dec r.blk
    cases rc with
    | stuck x hx => exact ⟨rfl, rfl, id⟩
    | buffered he hu => exact ⟨rfl, rfl, id⟩
    | ended he hu heof => exact ⟨rfl, rfl, id⟩
    | failed x d he hu heof hbb => rw [hbb] at hb; exact ⟨hb.1.stream, hb.1.key, fun h => (by rw [heof] at h; cases h)⟩
    | crashed x d he hu heof hbb => rw [hbb] at hb; exact ⟨hb.1.stream, hb.1.key, fun h => (by rw [heof] at h; cases h)⟩
    | empty eof d he hu heof hbb => rw [hbb] at hb; exact ⟨hb.1.stream, hb.1.key, fun h => (by rw [heof] at h; cases h)⟩
    | fresh pt eof d he hu heof hpt hbb =>
      rw [hbb] at hb; exact ⟨hb.1.stream, hb.1.key, fun h => (by rw [heof] at h; cases h)⟩
  -- the other readers are untouched, this one remembers an error
  have rds : ∃ r', s'.readers = s.readers.set k r' ∧ (∀ x, r.err = some x → r' = r) ∧
      (∀ x, ev.res = .err x → r'.err = some x) ∧ (r'.err = some .eof → r.err = none → s'.dec.eof = true) := by
    have hself : s.readers = s.readers.set k r := by
      have h2 := (List.getElem?_eq_some_iff.mp hr).2
      rw [← h2]; simp
    cases rc with
    | stuck x hx =>
      exact ⟨r, hself, fun _ _ => rfl, fun y hy => (by rw [hev] at hy; cases hy; exact hx),
        fun _ h => (by rw [hx] at h; cases h)⟩
    | buffered he hu =>
      exact ⟨_, rfl, fun x hx => (by rw [he] at hx; cases hx), fun y hy => (by rw [hev] at hy; cases hy),
        fun h => (by rw [he] at h; cases h)⟩
    | ended he hu heof =>
      exact ⟨_, rfl, fun x hx => (by rw [he] at hx; cases hx), fun y hy => (by rw [hev] at hy; cases hy; rfl), fun _ _ => heof⟩
    | failed x d he hu heof hbb =>
      refine ⟨_, rfl, fun x hx => (by rw [he] at hx; cases hx), fun y hy => (by rw [hev] at hy; cases hy; rfl), ?_⟩
      intro h _
      cases h
      exact absurd hbb (decryptBlock_not_eof P _ _ _)
    | crashed x d he hu heof hbb =>
      exact ⟨r, hself, fun _ _ => rfl, fun y hy => (by rw [hev] at hy; cases hy), fun h => (by rw [he] at h; cases h)⟩
    | empty eof d he hu heof hbb =>
      refine ⟨_, rfl, fun x hx => (by rw [he] at hx; cases hx), fun y hy => (by rw [hev] at hy; cases hy; rfl), ?_⟩
      intro _ _
      cases eof with
      | true => rfl
      | false => exact absurd hbb (decryptBlock_nonempty P _ _ _)
    | fresh pt eof d he hu heof hpt hbb =>
      exact ⟨_, rfl, fun x hx => (by rw [he] at hx; cases hx), fun y hy => (by rw [hev] at hy; cases hy),
        fun h => (by cases h)⟩
  obtain ⟨k1, k2, k3⟩ := keep
  obtain ⟨r', q1, q2, q3, q4⟩ := rds
  have eofs' : ∀ (j : Nat) (x : MemReader), s'.readers[j]? = some x → x.err = some .eof → s'.dec.eof = true := by
    intro j x hj hx
    rw [q1] at hj
    by_cases hjk : j = k
    · subst hjk
      rw [List.getElem?_set_self hkl] at hj
      cases hj
      cases he : r.err with
      | none => exact q4 hx he
      | some y =>
        have := q2 y he
        subst this
        exact k3 (g.eofs _ _ hr hx)
    · rw [List.getElem?_set_ne (fun h => hjk h.symm)] at hj
      exact k3 (g.eofs _ _ hj hx)
  have hop : ev.op = .read k cap := by rw [hev]
  refine ⟨?_, ?_, ?_, eofs', fun _ => by rw [k2]; exact hkey⟩
  · rintro ⟨v, hv, h4, h5⟩
    rcases List.mem_append.mp hv with hv | hv
    · obtain ⟨a, b⟩ := g.opened ⟨v, hv, h4, h5⟩
      exact ⟨by rw [k1, a], by rw [k2]; exact b⟩
    · simp only [List.mem_singleton] at hv; subst hv; rw [hop] at h4; cases h4
  · rintro (⟨v, hv, h4, h5⟩ | ⟨v, hv, h4, h5⟩)
    · rcases List.mem_append.mp hv with hv | hv
      · obtain ⟨a, b⟩ := g.ended (Or.inl ⟨v, hv, h4, h5⟩)
        exact ⟨k3 a, by rw [k2]; exact b⟩
      · simp only [List.mem_singleton] at hv; subst hv; obtain ⟨wr, h4⟩ := h4; rw [hop] at h4; cases h4
    · rcases List.mem_append.mp hv with hv | hv
      · obtain ⟨a, b⟩ := g.ended (Or.inr ⟨v, hv, h4, h5⟩)
        exact ⟨k3 a, by rw [k2]; exact b⟩
      · simp only [List.mem_singleton] at hv; subst hv
        refine ⟨eofs' k r' (by rw [q1, List.getElem?_set_self hkl]) (q3 _ h5), by rw [k2]; exact hkey⟩
  · intro v hv j cap' x h4 h5
    rcases List.mem_append.mp hv with hv | hv
    · obtain ⟨y, hy1, hy2⟩ := g.stuck v hv j cap' x h4 h5
      rw [q1]
      by_cases hjk : j = k
      · subst hjk
        rw [hr] at hy1; cases hy1
        exact ⟨r', List.getElem?_set_self hkl, by rw [q2 x hy2]; exact hy2⟩
      · exact ⟨y, by rw [List.getElem?_set_ne (fun h => hjk h.symm)]; exact hy1, hy2⟩
    · simp only [List.mem_singleton] at hv; subst hv
      rw [hop] at h4; cases h4
      exact ⟨r', by rw [q1, List.getElem?_set_self hkl], q3 x h5⟩

theorem DecHistory.guard {P : Prims} {rd rd' : Reader} {d0 : Decryptor} (h0 : newDecryptor P rd = (.ok d0, rd'))
    {evs : List DecEvent} {s : DecState} (h : DecHistory P d0 evs s) : GuardInv evs s := by
  induction h with
  | start => exact ⟨by simp, by simp, by simp, by simp, by simp⟩
  | @call evs s s' op ev h live hstep g =>
    have hop := decStep_op hstep
    cases op with
    | setKey sk spk =>
      obtain ⟨r, d, more, a1, a2, a3, a4, a5, a6, a7, a8, a9, a10, a11⟩ := step_setKey hstep
      exact g.same (by rw [a3, a8]) (by rw [a3]; exact a11) (by rw [a3, a7]; exact id) a4 (by rw [hop]; simp)
        (by rw [hop]; simp) (by rw [hop]; simp)
    | decrypt wr =>
      obtain ⟨r, d, wr', buf, a1, a2, a3, _⟩ := step_decrypt hstep
      obtain ⟨b1, b2, b3, b4⟩ := decrypt_only P _ _ _ _ _ a1
      subst a3
      refine g.same b1.stream (by rw [b1.key]; exact id) b3 rfl (by rw [hop]; simp) ?_ (by rw [hop]; simp)
      rintro ⟨_, hok⟩
      rw [a2] at hok
      dsimp only at hok
      refine ⟨b4 hok, ?_⟩
      dsimp only
      rw [b1.key]
      intro hk
      have := (C19_guards P s.dec wr).1 hk
      rw [this.1] at a1
      cases a1; cases hok
    | openReader =>
      rcases step_open hstep with ⟨_, a2, a3⟩ | ⟨_, _, a2, a3⟩ | ⟨a1, a0, a2, a3⟩
      · rw [a3]; exact g.same rfl id id rfl (by rw [a2]; simp) (by rw [a2]; simp) (by rw [a2]; simp)
      · rw [a3]; exact g.same rfl id id rfl (by rw [a2]; simp) (by rw [a2]; simp) (by rw [a2]; simp)
      · subst a3
        refine ⟨fun _ => ⟨rfl, a1⟩, ?_, ?_, ?_, fun _ => a1⟩
        · rintro (⟨v, hv, h4, h5⟩ | ⟨v, hv, h4, h5⟩)
          · rcases List.mem_append.mp hv with hv | hv
            · exact g.ended (Or.inl ⟨v, hv, h4, h5⟩)
            · simp only [List.mem_singleton] at hv; subst hv; obtain ⟨wr, h4⟩ := h4; rw [hop] at h4; cases h4
          · rcases List.mem_append.mp hv with hv | hv
            · exact g.ended (Or.inr ⟨v, hv, h4, h5⟩)
            · simp only [List.mem_singleton] at hv; subst hv; obtain ⟨k, c, h4⟩ := h4; rw [hop] at h4; cases h4
        · intro v hv k cap x h4 h5
          rcases List.mem_append.mp hv with hv | hv
          · obtain ⟨r, b1, b2⟩ := g.stuck v hv k cap x h4 h5
            have hkl := (List.getElem?_eq_some_iff.mp b1).1
            exact ⟨r, by rw [List.getElem?_append_left hkl]; exact b1, b2⟩
          · simp only [List.mem_singleton] at hv; subst hv; rw [hop] at h4; cases h4
        · intro k r hk he
          dsimp only at hk
          by_cases hkl : k < s.readers.length
          · rw [List.getElem?_append_left hkl] at hk
            exact g.eofs k r hk he
          · rw [List.getElem?_append_right (by omega)] at hk
            have : r = {} := by
              rcases List.getElem?_eq_some_iff.mp hk with ⟨hl, h2⟩
              simp at hl
              have : k - s.readers.length = 0 := by omega
              simpa [this] using h2.symm
            subst this; cases he
    | read k cap => exact guard_read g hstep
    | more rd =>
      obtain ⟨_, a2, a3⟩ := step_more hstep
      subst a3
      exact g.same rfl id id rfl (by rw [hop]; simp) (by rw [hop]; simp) (by rw [hop]; simp)

/-- **C64** Order of use, over any history (including further `SetPrivateKey` calls): once `NewStreamReader` has returned a
reader, every `Decrypt` returns ErrDecStarted; once a `Decrypt` has returned nil or a `Read` has returned io.EOF, every
`NewStreamReader` returns io.EOF and every `Decrypt` returns io.EOF or ErrDecStarted.  In each case nothing is delivered
and the state is unchanged. -/
theorem C64_order (P : Prims) (rd rd' : Reader) (d0 : Decryptor)
    (h0 : newDecryptor P rd = (.ok d0, rd')) (evs : List DecEvent) (s : DecState) (h : DecHistory P d0 evs s) :
    ((∃ v ∈ evs, v.op = .openReader ∧ v.res = .ok ()) → ∀ wr, ∃ s', s.step P (.decrypt wr) =
      some ({ op := .decrypt wr, res := .err .decStarted, delivered := [], auth := s.dec.auth }, s') ∧ s'.dec = s.dec ∧
        s'.readers = s.readers) ∧
    (((∃ v ∈ evs, (∃ wr, v.op = .decrypt wr) ∧ v.res = .ok ()) ∨
      (∃ v ∈ evs, (∃ k cap, v.op = .read k cap) ∧ v.res = .err .eof)) →
      s.step P .openReader = some ({ op := .openReader, res := .err .eof, delivered := [], auth := s.dec.auth }, s) ∧
      ∀ wr, ∃ x s', (x = .eof ∨ x = .decStarted) ∧ s.step P (.decrypt wr) =
        some ({ op := .decrypt wr, res := .err x, delivered := [], auth := s.dec.auth }, s') ∧ s'.dec = s.dec ∧
          s'.readers = s.readers) := by
  have g := h.guard h0
  have noop : ∀ wr x, s.dec.decrypt P wr = (.err x, s.dec, wr) → ∃ s', s.step P (.decrypt wr) =
      some ({ op := .decrypt wr, res := .err x, delivered := [], auth := s.dec.auth }, s') ∧ s'.dec = s.dec ∧
        s'.readers = s.readers := by
    intro wr x hd
    unfold DecState.step
    simp only [hd, Option.some.injEq, Prod.mk.injEq, List.drop_length, true_and]
    exact ⟨_, rfl, rfl, rfl⟩
  refine ⟨?_, ?_⟩
  · intro ho wr
    obtain ⟨a, b⟩ := g.opened ho
    exact noop wr _ ((C19_guards P s.dec wr).2.1 b a)
  · intro he
    obtain ⟨a, b⟩ := g.ended he
    refine ⟨?_, ?_⟩
    · have := (C19_guards P s.dec {}).2.2.2.1 b a
      unfold DecState.step
      rw [this]; rfl
    · intro wr
      cases hs : s.dec.stream with
      | true =>
        obtain ⟨s', q⟩ := noop wr _ ((C19_guards P s.dec wr).2.1 b hs)
        exact ⟨_, s', Or.inr rfl, q⟩
      | false =>
        obtain ⟨s', q⟩ := noop wr _ ((C19_guards P s.dec wr).2.2.1 b hs a)
        exact ⟨_, s', Or.inl rfl, q⟩

/-- **C65** Errors of a stream reader are final, over any history and any interleaving with other readers and calls: once a
`Read` on a reader has returned an error, every later `Read` on it returns that error, delivers nothing and changes
nothing. -/
theorem C65_reader_error_final (P : Prims) (rd rd' : Reader) (d0 : Decryptor)
    (h0 : newDecryptor P rd = (.ok d0, rd')) (evs : List DecEvent) (s : DecState) (h : DecHistory P d0 evs s)
    (v : DecEvent) (hv : v ∈ evs) (k cap : Nat) (x : Err) (hop : v.op = .read k cap) (hres : v.res = .err x) (cap' : Nat) :
    s.step P (.read k cap') = some ({ op := .read k cap', res := .err x, delivered := [], auth := s.dec.auth }, s) := by
  obtain ⟨r, h1, h2⟩ := (h.guard h0).stuck v hv k cap x hop hres
  unfold DecState.step
  simp only [h1]
  unfold DecState.read
  simp only [h2, Res.unit]

end Sigtool
