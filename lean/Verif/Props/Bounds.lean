import Verif.Props.DecHistory
import Verif.Props.Grammar
import Verif.Props.Header
import Verif.Props.DecWitness
/-!
# C98: what an untrusted container can make the reader use

How much of the input each call takes and how much memory is kept for it, for every input and every history of calls.
-/

namespace Sigtool

open Spec (Decodes DecodesKey Varint Tag Continued Element Elements Unknown)

/-! ## The header -/

theorem Varint.pos {bs : Bytes} {v : Nat} (h : Varint bs v) : 0 < bs.length := by
  have := h.shape
  cases bs with
  | nil => exact absurd this (by simp [Continued])
  | cons b bs => simp

theorem Tag.pos {bs : Bytes} {n t : Nat} (h : Tag bs n t) : 0 < bs.length := by
  obtain ⟨v, hv, _⟩ := h; exact Varint.pos hv

theorem DecodesKey.size {d : Bytes} {w : WrappedKey} (h : DecodesKey d w) :
    w.dkey.length + w.nonce.length + w.unknown.length + (if w.dkey = [] then 0 else 2) ≤ d.length := by
  induction h with
  | empty => simp
  | @dkey d t l x w h ht hl ih =>
    have h1 := Tag.pos ht; have h2 := Varint.pos hl
    simp only [List.length_append]
    split <;> split at ih <;> omega
  | @nonce d t l x w h ht hl ih =>
    simp only [List.length_append]
    omega
  | @other d e w h he ih =>
    simp only [List.length_append]
    omega

/-- Lower bound on the bytes spent on a list of wrapped keys. -/
def keyBytes (ks : List WrappedKey) : Nat :=
  (ks.map fun w => 2 + (w.dkey.length + w.nonce.length + w.unknown.length + (if w.dkey = [] then 0 else 2))).sum

theorem Decodes.size {d : Bytes} {h : Header} (hd : Decodes d h) :
    h.salt.length + h.pk.length + h.sender.length + h.unknown.length + keyBytes h.keys ≤ d.length := by
  induction hd with
  | empty => simp [keyBytes]
  | chunkSize hd ht hb ih => simp only [List.length_append]; omega
  | salt hd ht hl ih => simp only [List.length_append]; omega
  | pk hd ht hl ih => simp only [List.length_append]; omega
  | sender hd ht hl ih => simp only [List.length_append]; omega
  | @key d t l x h w hd ht hl hw ih =>
    have h1 := Tag.pos ht; have h2 := Varint.pos hl
    have h3 := DecodesKey.size hw
    have : keyBytes (h.keys ++ [w]) = keyBytes h.keys +
        (2 + (w.dkey.length + w.nonce.length + w.unknown.length + (if w.dkey = [] then 0 else 2))) := by
      simp [keyBytes]
    simp only [List.length_append]
    omega
  | other hd he ih => simp only [List.length_append]; omega

theorem keyBytes_ge : ∀ ks : List WrappedKey, (∀ w ∈ ks, 32 < w.dkey.length) →
    37 * ks.length ≤ keyBytes ks ∧ (ks.map fun w => w.dkey.length + w.nonce.length + w.unknown.length).sum ≤ keyBytes ks := by
  intro ks
  induction ks with
  | nil => intro _; simp [keyBytes]
  | cons w ks ih =>
    intro h
    obtain ⟨h1, h2⟩ := ih (fun v hv => h v (by simp [hv]))
    have h3 := h w (by simp)
    have hne : w.dkey ≠ [] := by intro e; rw [e] at h3; simp at h3
    simp only [keyBytes, List.map_cons, List.sum_cons, List.length_cons, if_neg hne] at *
    omega

/-- **C98**: whatever the input, an accepted header takes up at most 2^20 bytes in memory in all its fields together, holds at
most 28339 wrapped keys, and announces chunks of less than 2^30 bytes; and at most 12 + 2^20 + 32 bytes of the input were
taken to find this out, or to find that the header is not acceptable. -/
theorem C98_header (P : Prims) (rd : Reader) :
    (∃ used, rd.content = used ++ (newDecryptor P rd).2.content ∧ used.length ≤ 12 + 2^20 + 32) ∧
    ∀ d rd', newDecryptor P rd = (.ok d, rd') →
      d.hdr.salt.length + d.hdr.pk.length + d.hdr.sender.length + d.hdr.unknown.length +
        (d.hdr.keys.map fun w => w.dkey.length + w.nonce.length + w.unknown.length).sum ≤ 2^20 ∧
      d.hdr.keys.length ≤ 28339 ∧ 0 < d.hdr.chunkSize ∧ d.hdr.chunkSize < 2^30 := by
  constructor
  · obtain ⟨used, h1, h2⟩ := newDecryptor_consumes P rd
    refine ⟨used, h1, ?_⟩
    split at h2 <;> omega
  · intro d rd' h
    obtain ⟨hb, ha⟩ := newDecryptor_ok P rd d rd' h
    obtain ⟨c1, c2, c3, c4⟩ := (checkHeader_iff _).mp ha.checked
    have hi := ha.hi
    have hs := Decodes.size ((C86_header hb (by omega) d.hdr).mp ha.decoded)
    obtain ⟨k1, k2⟩ := keyBytes_ge d.hdr.keys c4
    exact ⟨by omega, by omega, by omega, by omega⟩

/-! ## The chunks -/

theorem readFull_len (rd : Reader) (n : Nat) : (readFull rd n).1.length ≤ n := by
  by_cases h : n ≤ rd.content.length
  · obtain ⟨rd', h1, _⟩ := readFull_enough rd n h
    rw [h1]; simp
  · obtain ⟨rd', h1, _⟩ := readFull_short rd n (by omega)
    rw [h1]; dsimp only; omega

theorem readFull_used (rd : Reader) (n : Nat) : ∃ used, rd.content = used ++ (readFull rd n).2.2.content ∧ used.length ≤ n := by
  rcases readFull_any rd n with ⟨a, rd', h1, h2, h3, _⟩ | ⟨a, x, rd', h1, h2, _, h4, _⟩
  · rw [h1]; exact ⟨a, h3, by omega⟩
  · rw [h1]; exact ⟨rd.content, by simp [h2], by omega⟩

theorem processTrailer_used (P : Prims) (d : Decryptor) (pt : Bytes) :
    ∃ used, d.rd.content = used ++ (d.processTrailer P pt).2.rd.content ∧ used.length ≤ 64 := by
  obtain ⟨used, h1, h2⟩ := readFull_used d.rd 64
  refine ⟨used, ?_, h2⟩
  unfold Decryptor.processTrailer
  generalize readFull d.rd 64 = r at h1
  obtain ⟨tr, o, rd⟩ := r
  cases o with
  | some x => exact h1
  | none =>
    dsimp only at h1 ⊢
    split
    · exact h1
    · split
      · split <;> exact h1
      · exact h1

theorem decryptBlock_used (P : Prims) (d : Decryptor) (i : Nat) :
    ∃ used, d.rd.content = used ++ (d.decryptBlock P i).2.rd.content ∧ used.length ≤ 4 + (d.hdr.chunkSize + 16) + 64 := by
  obtain ⟨u1, h1, l1⟩ := readFull_used d.rd 4
  unfold Decryptor.decryptBlock
  cases hae : d.ae with
  | none => exact ⟨[], rfl, by simp⟩
  | some dkey =>
    dsimp only
    generalize readFull d.rd 4 = r at h1
    obtain ⟨b, o, rd⟩ := r
    cases o with
    | some x => exact ⟨u1, h1, by omega⟩
    | none =>
      dsimp only at h1 ⊢
      split
      · exact ⟨u1, h1, by omega⟩
      · rename_i hm
        split
        · split <;> exact ⟨u1, h1, by omega⟩
        · split
          · exact ⟨u1, h1, by omega⟩
          · obtain ⟨u2, h2, l2⟩ := readFull_used rd ((wordLen (be32dec b) + 16) % 2^32)
            have l3 : (wordLen (be32dec b) + 16) % 2^32 ≤ d.hdr.chunkSize + 16 :=
              Nat.le_trans (Nat.mod_le _ _) (by omega)
            have h12 : ∀ r' : Reader, rd.content = u2 ++ r'.content → d.rd.content = (u1 ++ u2) ++ r'.content := by
              intro r' e; rw [h1, e, List.append_assoc]
            generalize readFull rd ((wordLen (be32dec b) + 16) % 2^32) = r2 at h2
            obtain ⟨ct, o, rd2⟩ := r2
            dsimp only at h2
            have done : ∃ used, d.rd.content = used ++ rd2.content ∧ used.length ≤ 4 + (d.hdr.chunkSize + 16) + 64 :=
              ⟨u1 ++ u2, h12 _ h2, by rw [List.length_append]; omega⟩
            cases o with
            | some x => exact done
            | none =>
              dsimp only
              split
              · exact done
              · split
                · exact done
                · split
                  · exact done
                  · rename_i pt _ _ _ hk hd _
                    split
                    · obtain ⟨u3, h3, l3'⟩ := processTrailer_used P { d with rd := rd2, hmac := some (hk, hd ++ b ++ pt) } pt
                      rw [hae] at h3
                      dsimp only at h3
                      refine ⟨u1 ++ u2 ++ u3, ?_, by simp only [List.length_append]; omega⟩
                      rw [h12 _ h2, h3]; simp
                    · exact done

theorem overwrite_len (buf got : Bytes) (h : got.length ≤ buf.length) : (overwrite buf got).length = buf.length := by
  simp [overwrite]; omega

theorem bufAfter_len (P : Prims) (L : Laws P) (d : Decryptor) (i : Nat) (buf : Bytes) (h : d.ae ≠ none → buf.length = d.bufLen) :
    (d.bufAfter P i buf).length = buf.length := by
  unfold Decryptor.bufAfter
  cases hae : d.ae with
  | none => rfl
  | some dkey =>
    have h := h (by rw [hae]; simp)
    dsimp only
    split
    · rfl
    · rename_i b rd _
      split
      · rfl
      · split
        · rfl
        · split
          · rfl
          · rename_i hz
            have hl := readFull_len rd ((wordLen (be32dec b) + 16) % 2^32)
            split
            · rename_i got x rd2 hr
              rw [hr] at hl
              exact overwrite_len _ _ (by dsimp only at hl; omega)
            · rename_i ct rd2 hr
              rw [hr] at hl
              dsimp only at hl
              have h1 : (overwrite buf ct).length = buf.length := overwrite_len _ _ (by omega)
              split
              · rw [overwrite_len, h1]
                rw [h1]; simp; omega
              · rename_i pt ho
                have := L.open_len _ _ _ _ _ ho
                rw [overwrite_len, h1]
                rw [h1]; omega

theorem bufAfterLoop_len (P : Prims) (L : Laws P) : ∀ (fuel : Nat) (d : Decryptor) (wr : Writer) (i : Nat) (buf : Bytes),
    (d.ae ≠ none → buf.length = d.bufLen) → (Decryptor.bufAfterLoop P fuel d wr i buf).length = buf.length := by
  intro fuel
  induction fuel with
  | zero => intros; rfl
  | succ fuel ih =>
    intro d wr i buf h
    have hb := bufAfter_len P L d i buf h
    unfold Decryptor.bufAfterLoop
    dsimp only
    obtain ⟨hs, _⟩ := decryptBlock_only P d i
    split
    · exact hb
    · exact hb
    · rename_i c eof d1 he
      rw [he] at hs
      dsimp only at hs
      split
      · exact hb
      · split
        · exact hb
        · rw [ih _ _ _ _ (by rw [hs.ae, hs.bufLen, hb]; exact h), hb]

/-- How many calls of `SetPrivateKey` succeeded. -/
def keysSet (evs : List DecEvent) : Nat :=
  (evs.filter fun v => (match v.op with | .setKey _ _ => true | _ => false) && decide (v.res = .ok ())).length

theorem keysSet_snoc (evs : List DecEvent) (ev : DecEvent) : keysSet (evs ++ [ev]) = keysSet evs + keysSet [ev] := by
  simp [keysSet, List.filter_append]

/-- The state of memory. -/
structure MemInv (d0 : Decryptor) (evs : List DecEvent) (s : DecState) : Prop where
  size : ∀ b ∈ s.heap, b.length = d0.hdr.chunkSize + 16
  count : s.heap.length = keysSet evs
  cur : s.dec.ae ≠ none → s.cur < s.heap.length

theorem MemInv.same {d0 : Decryptor} {evs : List DecEvent} {s s' : DecState} {ev : DecEvent} (m : MemInv d0 evs s)
    (hev : keysSet [ev] = 0) (hae : s'.dec.ae = s.dec.ae) (hcur : s'.cur = s.cur)
    (hheap : s'.heap = s.heap ∨ ∃ b, b.length = s.buf.length ∧ s'.heap = s.heap.set s.cur b) :
    MemInv d0 (evs ++ [ev]) s' where
  size := by
    rcases hheap with h | ⟨b, hb, h⟩
    · rw [h]; exact m.size
    · rw [h]
      intro c hc
      by_cases hlt : s.cur < s.heap.length
      · rcases List.mem_or_eq_of_mem_set hc with hc | rfl
        · exact m.size c hc
        · rw [hb]
          apply m.size
          unfold DecState.buf
          rw [List.getElem?_eq_getElem hlt]
          exact List.getElem_mem hlt
      · rw [List.set_eq_of_length_le (by omega)] at hc
        exact m.size c hc
  count := by
    rw [keysSet_snoc, hev, ← Nat.add_zero s'.heap.length]
    rcases hheap with h | ⟨b, hb, h⟩ <;> simp [h, m.count]
  cur := by
    rw [hae, hcur]
    rcases hheap with h | ⟨b, hb, h⟩ <;> simpa [h] using m.cur

theorem buf_size {P : Prims} {d0 : Decryptor} {evs : List DecEvent} {s : DecState} (inv : DecInv P d0 evs s)
    (m : MemInv d0 evs s) : s.dec.ae ≠ none → s.buf.length = s.dec.bufLen := by
  intro h
  rcases inv.cipher with g | ⟨v, hv, sk, spk, key, g1, g2, g3, g4, g5, g6, g7⟩
  · exact absurd g h
  · rw [g6]
    apply m.size
    unfold DecState.buf
    rw [List.getElem?_eq_getElem g7]
    exact List.getElem_mem g7

theorem DecHistory.mem {P : Prims} (L : Laws P) {rd rd' : Reader} {d0 : Decryptor} (h0 : newDecryptor P rd = (.ok d0, rd'))
    {evs : List DecEvent} {s : DecState} (h : DecHistory P d0 evs s) : MemInv d0 evs s := by
  induction h with
  | start => exact ⟨by simp, by simp [keysSet], by
      obtain ⟨h1, h2, h3, h4, h5, h6, h7⟩ := newDecryptor_fresh P rd rd' d0 h0
      intro h; exact absurd h5 h⟩
  | @call evs s s' op ev h live hstep ih =>
    have inv := h.inv h0
    have hbuf := buf_size inv ih
    cases op with
    | setKey sk spk =>
      obtain ⟨r, d, more, e1, e2, e3, e4, e5, e6, e7, e8, e9, e10, e11⟩ := step_setKey hstep
      by_cases hr : r = .ok ()
      · obtain ⟨f1, f2⟩ := e10 hr
        have hd : d.bufLen = d0.hdr.chunkSize + 16 := by
          subst hr
          rcases setPrivateKey_cases P s.dec sk spk with ⟨x, _, k⟩ | ⟨x, _, k⟩ | ⟨_, k⟩ | ⟨key, _, k⟩
          · rw [k] at e1; cases e1
          · rw [k] at e1; cases e1
          · rw [k] at e1; cases e1
          · rw [k] at e1
            cases hv : ({ s.dec with key := some key, sender := spk } : Decryptor).verifySender P key spk with
            | err z => rw [hv] at e1; cases e1
            | panic z => rw [hv] at e1; cases e1
            | ok a =>
              rw [hv] at e1
              cases e1
              dsimp only
              rw [← inv.hdr]
        refine ⟨?_, ?_, ?_⟩
        · rw [e5, f1]
          intro b hb
          rcases List.mem_append.mp hb with hb | hb
          · exact ih.size b hb
          · simp only [List.mem_singleton] at hb; subst hb; simp [hd]
        · rw [keysSet_snoc, e5, f1, e2, hr, List.length_append, ih.count]; rfl
        · intro _; rw [f2, e5, f1]; simp
      · obtain ⟨f1, f2⟩ := e9 hr
        have hae : d.ae = s.dec.ae := by
          rcases setPrivateKey_cases P s.dec sk spk with ⟨x, _, k⟩ | ⟨x, _, k⟩ | ⟨_, k⟩ | ⟨key, _, k⟩
          · rw [k] at e1; cases e1; rfl
          · rw [k] at e1; cases e1; rfl
          · rw [k] at e1; cases e1; rfl
          · rw [k] at e1
            cases hv : ({ s.dec with key := some key, sender := spk } : Decryptor).verifySender P key spk with
            | err z => rw [hv] at e1; cases e1; rfl
            | panic z => rw [hv] at e1; cases e1; rfl
            | ok a => rw [hv] at e1; cases e1; exact absurd rfl hr
        refine ih.same ?_ (by rw [e3, hae]) f2 (.inl (by rw [e5, f1, List.append_nil]))
        rw [e2]; simp [keysSet, hr]
    | decrypt wr =>
      unfold DecState.step at hstep
      rcases hd : s.dec.decrypt P wr with ⟨r, d, wr'⟩
      simp only [hd, Option.some.injEq, Prod.mk.injEq] at hstep
      obtain ⟨rfl, rfl⟩ := hstep
      refine ih.same (by simp [keysSet]) ?_ rfl (.inr ⟨_, ?_, rfl⟩)
      · exact (decrypt_only P _ _ _ _ _ hd).1.ae
      · split
        · exact bufAfterLoop_len P L _ _ _ _ _ hbuf
        · rfl
    | openReader =>
      rcases step_open hstep with ⟨_, e1, e2⟩ | ⟨_, _, e1, e2⟩ | ⟨_, _, e1, e2⟩ <;> subst e1 e2 <;>
        exact ih.same (by simp [keysSet]) rfl rfl (.inl rfl)
    | read k cap =>
      obtain ⟨r, res, e1, rc, e2⟩ := step_read hstep
      have hev : keysSet [ev] = 0 := by rw [e2]; simp [keysSet]
      have hl : ∀ i, (s.dec.bufAfter P i s.buf).length = s.buf.length := fun i => bufAfter_len P L _ _ _ hbuf
      have hae : ∀ i, (s.dec.decryptBlock P i).2.ae = s.dec.ae := fun i => (decryptBlock_only P s.dec i).1.ae
      cases rc with
      | stuck x hx => exact ih.same hev rfl rfl (.inl rfl)
      | buffered he hu => exact ih.same hev rfl rfl (.inl rfl)
      | ended he hu heof => exact ih.same hev rfl rfl (.inl rfl)
      | failed x d he hu heof hb =>
        have := hae r.blk; rw [hb] at this
        exact ih.same hev this rfl (.inr ⟨_, hl _, rfl⟩)
      | crashed x d he hu heof hb =>
        have := hae r.blk; rw [hb] at this
        exact ih.same hev this rfl (.inr ⟨_, hl _, rfl⟩)
      | empty eof d he hu heof hb =>
        have := hae r.blk; rw [hb] at this
        exact ih.same hev this rfl (.inr ⟨_, hl _, rfl⟩)
      | fresh pt eof d he hu heof hpt hb =>
        have := hae r.blk; rw [hb] at this
        exact ih.same hev this rfl (.inr ⟨_, hl _, rfl⟩)
    | more rd =>
      obtain ⟨_, e1, e2⟩ := step_more hstep
      subst e1 e2
      exact ih.same (by simp [keysSet]) rfl rfl (.inl rfl)

/-- **C98**: after any history of calls, the memory kept for chunks is one buffer of the announced chunk size plus 16 bytes
for each successful `SetPrivateKey`, whatever was read, delivered, refused or retried in between; no buffer exists before the
first of them. -/
theorem C98_memory (P : Prims) (L : Laws P) (rd rd' : Reader) (d0 : Decryptor) (h0 : newDecryptor P rd = (.ok d0, rd'))
    (evs : List DecEvent) (s : DecState) (h : DecHistory P d0 evs s) :
    s.heap.length = (evs.filter fun v => (match v.op with | .setKey _ _ => true | _ => false) && decide (v.res = .ok ())).length ∧
    ∀ b ∈ s.heap, b.length = d0.hdr.chunkSize + 16 :=
  let m := h.mem L h0
  ⟨m.count, m.size⟩

/-- **C98**: after any history of calls, `SetPrivateKey` and `NewStreamReader` take nothing from the input; a `Read` into a
buffer of `cap` bytes delivers at most `cap` bytes and takes at most one frame (length word, sealed chunk of the announced
size, trailer) from the front of the input. -/
theorem C98_input (P : Prims) (rd rd' : Reader) (d0 : Decryptor) (h0 : newDecryptor P rd = (.ok d0, rd'))
    (evs : List DecEvent) (s : DecState) (h : DecHistory P d0 evs s) (op : DecOp) (ev : DecEvent) (s' : DecState)
    (hstep : s.step P op = some (ev, s')) :
    (∀ sk spk, op = .setKey sk spk → s'.dec.rd = s.dec.rd ∧ ev.delivered = []) ∧
    (op = .openReader → s'.dec.rd = s.dec.rd ∧ ev.delivered = []) ∧
    (∀ k cap, op = .read k cap → ev.delivered.length ≤ cap ∧ ∃ used, s.dec.rd.content = used ++ s'.dec.rd.content ∧
      used.length ≤ 4 + (d0.hdr.chunkSize + 16) + 64) := by
  have inv := h.inv h0
  refine ⟨?_, ?_, ?_⟩
  · rintro sk spk rfl
    obtain ⟨r, d, more, e1, e2, e3, e4, e5, e6, _⟩ := step_setKey hstep
    exact ⟨by rw [e3, e6], by rw [e2]⟩
  · rintro rfl
    rcases step_open hstep with ⟨_, e1, e2⟩ | ⟨_, _, e1, e2⟩ | ⟨_, _, e1, e2⟩ <;> subst e1 e2 <;> exact ⟨rfl, rfl⟩
  · rintro k cap rfl
    obtain ⟨r, res, e1, rc, e2⟩ := step_read hstep
    have hu : ∀ i, ∃ used, s.dec.rd.content = used ++ (s.dec.decryptBlock P i).2.rd.content ∧
        used.length ≤ 4 + (d0.hdr.chunkSize + 16) + 64 := by
      intro i; rw [← inv.hdr]; exact decryptBlock_used P s.dec i
    have same : ∃ used, s.dec.rd.content = used ++ s.dec.rd.content ∧ used.length ≤ 4 + (d0.hdr.chunkSize + 16) + 64 :=
      ⟨[], rfl, by simp⟩
    rw [e2]
    dsimp only
    cases rc with
    | stuck x hx => exact ⟨by simp, same⟩
    | buffered he hu => exact ⟨by simp, same⟩
    | ended he hu heof => exact ⟨by simp, same⟩
    | failed x d he hu' heof hb => have := hu r.blk; rw [hb] at this; exact ⟨by simp, this⟩
    | crashed x d he hu' heof hb => have := hu r.blk; rw [hb] at this; exact ⟨by simp, this⟩
    | empty eof d he hu' heof hb => have := hu r.blk; rw [hb] at this; exact ⟨by simp, this⟩
    | fresh pt eof d he hu' heof hpt hb => have := hu r.blk; rw [hb] at this; exact ⟨by simp, this⟩

/-- Carol's history (`Demo.decHistory`): one buffer, of the demo container's chunk size plus 16. -/
example : ∃ d0 rd rd' evs s, newDecryptor toyPrims rd = (.ok d0, rd') ∧ DecHistory toyPrims d0 evs s ∧ evs.length = 4 ∧
    s.heap.length = 1 ∧ d0.hdr.keys.length ≤ 28339 := by
  obtain ⟨d0, rd, rd', s, h1, h2, _⟩ := Demo.decHistory
  exact ⟨d0, rd, rd', _, s, h1, h2, rfl, (C98_memory toyPrims toyLaws rd rd' d0 h1 _ s h2).1,
    ((C98_header toyPrims rd).2 d0 rd' h1).2.1⟩

/-- A `Read` of one byte from the demo container, after a history of two calls. -/
example : ∃ d0 rd rd' evs s ev s', newDecryptor toyPrims rd = (.ok d0, rd') ∧ DecHistory toyPrims d0 evs s ∧
    s.step toyPrims (.read 0 1) = some (ev, s') ∧ ev.delivered = [1] ∧ s.heap.length = 1 := by
  obtain ⟨e, bytes, hs⟩ := Demo.sending_stream
  rcases C61_two_readers_refuted toyPrims toyLaws _ _ _ _ e _ _ _ _ bytes hs (by decide) Demo.carol _ _ Demo.receiving
    [9, 9, 9, 9] (by decide) (by decide) with g | ⟨n, g⟩
  · exact absurd g Demo.no_forgery
  · obtain ⟨d0, rd', evs, s, x, g1, g2, g3⟩ := g ⟨[bytes.take n ++ (Spec.lengthWord 4 false ++ [9, 9, 9, 9])], .eof, false⟩
      (by simp [Reader.content])
    have hlen : evs.length = 6 := by simpa using congrArg List.length g3
    match evs, hlen with
    | [v0, v1, v2, v3, v4, v5], _ =>
      simp only [List.map_cons, List.map_nil, List.cons.injEq, Prod.mk.injEq, and_true] at g3
      obtain ⟨⟨a1, a2, a3⟩, ⟨b1, b2, b3⟩, ⟨c1, c2, c3⟩, ⟨e1, e2, e3⟩, _⟩ := g3
      obtain ⟨s1, s2, op, k1, k2, k3, k4⟩ := g2.split [v0, v1, v2] v3 [v4, v5] rfl
      have := decStep_op k3
      rw [e1] at this
      subst this
      refine ⟨d0, _, rd', _, s1, v3, s2, g1, k1, k3, e3, ?_⟩
      rw [(C98_memory toyPrims toyLaws _ rd' d0 g1 _ s1 k1).1]
      simp [a1, a2, b1, b2, c1, c2]

end Sigtool
