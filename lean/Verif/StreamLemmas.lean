import Verif.Roundtrip
/-! # Lemmas about the stream writer -/

namespace Sigtool
open Spec (encryptChunks streamChunks lengthWord sealedChunk sealedBody macInput headerPart sessionKeys container)

/-- Seal records of chunks none of which is marked last. -/
def midRecs (key nonce : Bytes) : Nat → List Bytes → List SealRec
  | _, [] => []
  | i, c :: cs => ⟨key, be32 i ++ nonce.drop 4, lengthWord c.length false, c⟩ :: midRecs key nonce (i + 1) cs

/-- HMAC input of chunks none of which is marked last. -/
def midMac : List Bytes → Bytes
  | [] => []
  | c :: cs => lengthWord c.length false ++ c ++ midMac cs

theorem midRecs_mod (key nonce : Bytes) (cs : List Bytes) : ∀ (i j : Nat),
    i % 2^32 = j % 2^32 → midRecs key nonce i cs = midRecs key nonce j cs := by
  induction cs with
  | nil => intros; rfl
  | cons c cs ih =>
    intro i j h
    simp only [midRecs]
    rw [be32_congr i j h, ih (i+1) (j+1) (by omega)]

theorem midRecs_append (key nonce : Bytes) (cs ds : List Bytes) : ∀ i,
    midRecs key nonce i (cs ++ ds) = midRecs key nonce i cs ++ midRecs key nonce (i + cs.length) ds := by
  induction cs with
  | nil => intro i; simp [midRecs]
  | cons c cs ih => intro i; simp [midRecs, ih, Nat.add_assoc, Nat.add_comm 1]

theorem sealedMid_append (P : Prims) (key nonce : Bytes) (cs ds : List Bytes) : ∀ i,
    sealedMid P key nonce i (cs ++ ds) = sealedMid P key nonce i cs ++ sealedMid P key nonce (i + cs.length) ds := by
  induction cs with
  | nil => intro i; simp [sealedMid]
  | cons c cs ih => intro i; simp [sealedMid, ih, Nat.add_assoc, Nat.add_comm 1]

theorem midMac_append (cs ds : List Bytes) : midMac (cs ++ ds) = midMac cs ++ midMac ds := by
  induction cs with
  | nil => simp [midMac]
  | cons c cs ih => simp [midMac, ih]

theorem macInput_snoc (cs : List Bytes) (c : Bytes) :
    macInput (cs ++ [c]) = midMac cs ++ (lengthWord c.length true ++ c) := by
  induction cs with
  | nil => simp [macInput, midMac]
  | cons d cs ih =>
    rw [List.cons_append, macInput_cons _ _ (by simp), ih]
    simp [midMac]

theorem sealRecs_snoc (key nonce : Bytes) (cs : List Bytes) (c : Bytes) : ∀ i,
    sealRecs key nonce i (cs ++ [c]) =
      midRecs key nonce i cs ++ [⟨key, be32 (i + cs.length) ++ nonce.drop 4, lengthWord c.length true, c⟩] := by
  induction cs with
  | nil => intro i; simp [sealRecs, midRecs]
  | cons d cs ih =>
    intro i
    rw [List.cons_append, sealRecs_cons _ _ _ _ _ (by simp), ih]
    simp [midRecs, Nat.add_assoc, Nat.add_comm 1]

/-- All stream chunks but the last. -/
def midChunks (bs : Nat) (pt : Bytes) : List Bytes := (streamChunks bs pt).dropLast

/-- The last stream chunk. -/
def lastChunk (bs : Nat) (pt : Bytes) : Bytes := (streamChunks bs pt).getLast (streamChunks_ne_nil bs pt)

theorem stream_split (bs : Nat) (pt : Bytes) : streamChunks bs pt = midChunks bs pt ++ [lastChunk bs pt] := by
  rw [midChunks, lastChunk, List.dropLast_append_getLast]

theorem midChunks_small (bs : Nat) (pt : Bytes) (h : pt.length ≤ bs) : midChunks bs pt = [] := by
  rw [midChunks, streamChunks_small _ _ h]; rfl

theorem lastChunk_small (bs : Nat) (pt : Bytes) (h : pt.length ≤ bs) : lastChunk bs pt = pt := by
  simp only [lastChunk, streamChunks_small _ _ h, List.getLast_singleton]

theorem midChunks_big (bs : Nat) (pt : Bytes) (h0 : 0 < bs) (h : bs < pt.length) :
    midChunks bs pt = pt.take bs :: midChunks bs (pt.drop bs) := by
  rw [midChunks, streamChunks_big _ _ h0 h, List.dropLast_cons_of_ne_nil (streamChunks_ne_nil _ _)]; rfl

theorem lastChunk_big (bs : Nat) (pt : Bytes) (h0 : 0 < bs) (h : bs < pt.length) :
    lastChunk bs pt = lastChunk bs (pt.drop bs) := by
  simp only [lastChunk, streamChunks_big _ _ h0 h]
  exact List.getLast_cons (streamChunks_ne_nil _ _)

theorem lastChunk_le (bs : Nat) (h0 : 0 < bs) : ∀ pt : Bytes, (lastChunk bs pt).length ≤ bs := by
  intro pt
  induction hn : pt.length using Nat.strongRecOn generalizing pt with
  | _ n ih =>
    by_cases h : pt.length ≤ bs
    · rw [lastChunk_small _ _ h]; exact h
    · rw [lastChunk_big _ _ h0 (by omega)]
      exact ih _ (by simp; omega) (pt.drop bs) rfl

/-- Appending data continues cutting at the last, unfinished chunk. -/
theorem stream_append (bs : Nat) (h0 : 0 < bs) (b : Bytes) : ∀ a : Bytes,
    midChunks bs (a ++ b) = midChunks bs a ++ midChunks bs (lastChunk bs a ++ b) ∧
    lastChunk bs (a ++ b) = lastChunk bs (lastChunk bs a ++ b) := by
  intro a
  induction hn : a.length using Nat.strongRecOn generalizing a with
  | _ n ih =>
    by_cases h : a.length ≤ bs
    · rw [midChunks_small _ _ h, lastChunk_small _ _ h]; simp
    · have hab : bs < (a ++ b).length := by simp; omega
      have hd : (a ++ b).drop bs = a.drop bs ++ b := by rw [List.drop_append_of_le_length (by omega)]
      have ht : (a ++ b).take bs = a.take bs := by rw [List.take_append_of_le_length (by omega)]
      obtain ⟨h1, h2⟩ := ih _ (by simp; omega) (a.drop bs) rfl
      rw [midChunks_big _ _ h0 hab, lastChunk_big _ _ h0 hab, hd, ht, h1, h2, lastChunk_big _ a h0 (by omega),
        midChunks_big _ a h0 (by omega)]
      simp

/-- The writing loop against an arbitrary destination. -/
theorem writeLoop_step (P : Prims) (L : Laws P) :
    ∀ (fuel : Nat) (e : Encryptor) (w : EncWriter) (b dkey hk hd : Bytes),
    e.Ready dkey hk hd → e.SenderOk → 0 < e.hdr.chunkSize → w.buf.length ≤ e.hdr.chunkSize →
    b.length + (if w.buf.length = e.hdr.chunkSize then 2 else 1) ≤ fuel →
    (∃ wr', EncWriter.writeLoop P fuel e w b =
        (.ok (), { e with seals := e.seals ++ midRecs dkey e.nonce w.blk (midChunks e.hdr.chunkSize (w.buf ++ b))
                          hmac := some (hk, hd ++ midMac (midChunks e.hdr.chunkSize (w.buf ++ b))) },
          { w with buf := lastChunk e.hdr.chunkSize (w.buf ++ b), wr := wr'
                   blk := if (midChunks e.hdr.chunkSize (w.buf ++ b)).length = 0 then w.blk
                     else (w.blk + (midChunks e.hdr.chunkSize (w.buf ++ b)).length) % 2^32 }) ∧
      w.wr.Step wr' (sealedMid P dkey e.nonce w.blk (midChunks e.hdr.chunkSize (w.buf ++ b)))) ∨
    (∃ x e' w' p, EncWriter.writeLoop P fuel e w b = (.err x, e', w') ∧ w'.err = some x ∧ w.wr.Step w'.wr p ∧
      p <+: sealedMid P dkey e.nonce w.blk (midChunks e.hdr.chunkSize (w.buf ++ b)) ∧ WriteErr w.wr x ∧ e.Same e' ∧
      e'.seals <+: e.seals ++ midRecs dkey e.nonce w.blk (midChunks e.hdr.chunkSize (w.buf ++ b))) := by
  intro fuel
  induction fuel with
  | zero => intro e w b dkey hk hd _ _ _ _ h; split at h <;> omega
  | succ fuel ih =>
    intro e w b dkey hk hd hr hs h0 hbuf hf
    unfold EncWriter.writeLoop
    by_cases hb : b.length = 0
    · have : b = [] := List.length_eq_zero_iff.mp hb
      subst this
      left
      refine ⟨w.wr, ?_, ?_⟩
      · simp only [List.length_nil, if_true, List.append_nil]
        rw [midChunks_small _ _ hbuf, lastChunk_small _ _ hbuf]
        simp only [midRecs, midMac, List.append_nil, List.length_nil, if_true]
        rw [← hr.hmac]
      · rw [List.append_nil, midChunks_small _ _ hbuf]; exact Writer.Step.refl _
    · rw [if_neg hb]
      dsimp only
      have hz : min (e.hdr.chunkSize - w.buf.length) b.length ≤ b.length := Nat.min_le_right _ _
      have hl1 : (w.buf ++ b.take (min (e.hdr.chunkSize - w.buf.length) b.length)).length =
          min e.hdr.chunkSize (w.buf.length + b.length) := by simp; omega
      have hl2 : (b.drop (min (e.hdr.chunkSize - w.buf.length) b.length)).length =
          b.length - (e.hdr.chunkSize - w.buf.length) := by simp; omega
      by_cases hbig : e.hdr.chunkSize < w.buf.length + b.length
      · have hmin : min (e.hdr.chunkSize - w.buf.length) b.length = e.hdr.chunkSize - w.buf.length := by omega
        rw [hmin] at hl1 hl2 ⊢
        have hfull : w.buf ++ b.take (e.hdr.chunkSize - w.buf.length) = (w.buf ++ b).take e.hdr.chunkSize := by
          rw [List.take_append, List.take_of_length_le hbuf]
        have hrest : b.drop (e.hdr.chunkSize - w.buf.length) = (w.buf ++ b).drop e.hdr.chunkSize := by
          rw [List.drop_append, List.drop_of_length_le hbuf, List.nil_append]
        rw [if_pos (by rw [hl1, hl2]; omega)]
        have hlt : e.hdr.chunkSize < (w.buf ++ b).length := by simp; omega
        rw [midChunks_big _ _ h0 hlt, lastChunk_big _ _ h0 hlt]
        rcases encryptBlock_step P L e dkey hk hd (w.buf ++ b.take (e.hdr.chunkSize - w.buf.length)) w.wr w.blk false []
          hr hs (by omega) with ⟨wr1, g1, g2⟩ | ⟨x, e1, wr1, p, g1, g2, g3, g4, g5, g6⟩
        · rw [g1]
          dsimp only
          simp only [Bool.false_eq_true, if_false, List.append_nil] at g2
          rcases ih { e with seals := e.seals ++ [⟨dkey, be32 w.blk ++ e.nonce.drop 4,
                lengthWord (w.buf ++ b.take (e.hdr.chunkSize - w.buf.length)).length false,
                w.buf ++ b.take (e.hdr.chunkSize - w.buf.length)⟩]
                             hmac := some (hk, hd ++
                lengthWord (w.buf ++ b.take (e.hdr.chunkSize - w.buf.length)).length false ++
                (w.buf ++ b.take (e.hdr.chunkSize - w.buf.length))) }
              { buf := [], wr := wr1, blk := (w.blk + 1) % 2^32, err := w.err }
              (b.drop (e.hdr.chunkSize - w.buf.length)) dkey hk _
              ⟨hr.ae, rfl, hr.buf, hr.chunk, hr.key, hr.nonce⟩ hs h0 (by simp)
              (by
                have : ¬ (0 = e.hdr.chunkSize) := by omega
                simp only [List.length_nil, this, if_false]
                rw [hl2]
                split at hf <;> omega) with
            ⟨wr2, k1, k2⟩ | ⟨x, e2, w2, p, k1, k2, k3, k4, ⟨s, j, y, k5, k6⟩, k7, k8⟩
          · left
            refine ⟨wr2, ?_, ?_⟩
            · simp only [List.nil_append] at k1
              rw [k1, hfull, hrest]
              simp only [midRecs, midMac, List.append_assoc, List.singleton_append, List.length_cons,
                Nat.add_eq_zero_iff, one_ne_zero, and_false, if_false]
              rw [midRecs_mod dkey e.nonce _ ((w.blk+1) % 2^32) (w.blk+1) (by omega)]
              congr 3
              split
              · rename_i h; rw [h]
              · omega
            · have := g2.trans k2
              simp only [List.nil_append] at this
              rw [hfull, hrest, sealedMid_mod P dkey e.nonce _ ((w.blk+1) % 2^32) (w.blk+1) (by omega)] at this
              exact this
          · right
            refine ⟨x, e2, w2, _, k1, k2, g2.trans k3, ?_, ⟨s, j, y, g2.mem k5, k6⟩, ?_, ?_⟩
            · simp only [List.nil_append] at k4
              rw [hrest, sealedMid_mod P dkey e.nonce _ ((w.blk+1) % 2^32) (w.blk+1) (by omega)] at k4
              rw [hfull]
              exact prefix_append_left k4
            · exact ⟨k7.hdr, k7.key, k7.nonce, k7.ae, k7.started, k7.stream, k7.auth, k7.sender⟩
            · simp only [List.nil_append] at k8
              rw [hrest, midRecs_mod dkey e.nonce _ ((w.blk+1) % 2^32) (w.blk+1) (by omega), hfull] at k8
              simpa [midRecs] using k8
        · rw [g1]
          dsimp only
          right
          refine ⟨x, e1, _, p, rfl, rfl, g2, ?_, g4, g5, ?_⟩
          · simp only [Bool.false_eq_true, if_false, List.append_nil] at g3
            rw [hfull] at g3
            exact prefix_append_right _ g3
          · rw [g6, hfull]
            simp only [midRecs]
            exact ⟨midRecs dkey e.nonce (w.blk+1) (midChunks e.hdr.chunkSize ((w.buf ++ b).drop e.hdr.chunkSize)), by simp⟩
      · have hmin : min (e.hdr.chunkSize - w.buf.length) b.length = b.length := by omega
        rw [hmin] at hl1 hl2 ⊢
        simp only [List.drop_length, List.take_length]
        rw [if_neg (by simp)]
        have hsm : (w.buf ++ b).length ≤ e.hdr.chunkSize := by simp; omega
        have hfz : ∃ f, fuel = f + 1 := by
          cases fuel with
          | zero => split at hf <;> omega
          | succ f => exact ⟨f, rfl⟩
        obtain ⟨f, rfl⟩ := hfz
        left
        refine ⟨w.wr, ?_, ?_⟩
        · unfold EncWriter.writeLoop
          rw [midChunks_small _ _ hsm, lastChunk_small _ _ hsm]
          simp only [midRecs, midMac, List.append_nil, List.length_nil, if_true]
          rw [← hr.hmac]
        · rw [midChunks_small _ _ hsm]; exact Writer.Step.refl _

/-- The state of encryptor and stream writer after `T` was written without error; `base` is what had been delivered when
the stream writer was made, `e0` the encryptor at that time (header written, nothing sealed). -/
structure StreamInv (P : Prims) (e0 : Encryptor) (wr0 : Writer) (dkey hk T : Bytes) (e : Encryptor) (w : EncWriter) :
    Prop where
  enc : e = { e0 with seals := e0.seals ++ midRecs dkey e0.nonce 0 (midChunks e0.hdr.chunkSize T)
                      hmac := some (hk, midMac (midChunks e0.hdr.chunkSize T)) }
  buf : w.buf = lastChunk e0.hdr.chunkSize T
  blk : w.blk = (midChunks e0.hdr.chunkSize T).length % 2^32
  err : w.err = none
  out : wr0.Step w.wr (sealedMid P dkey e0.nonce 0 (midChunks e0.hdr.chunkSize T))

theorem StreamInv.ready {P : Prims} {e0 : Encryptor} {wr0 : Writer} {dkey hk T : Bytes} {e : Encryptor} {w : EncWriter}
    (h : StreamInv P e0 wr0 dkey hk T e w) (hr : e0.Ready dkey hk []) :
    e.Ready dkey hk (midMac (midChunks e0.hdr.chunkSize T)) := by
  rw [h.enc]; exact ⟨hr.ae, rfl, hr.buf, hr.chunk, hr.key, hr.nonce⟩

/-- One `Write`. -/
theorem write_step (P : Prims) (L : Laws P) (e0 : Encryptor) (wr0 : Writer) (dkey hk T b : Bytes) (e : Encryptor)
    (w : EncWriter) (hr : e0.Ready dkey hk []) (hs : e0.SenderOk) (h0 : 0 < e0.hdr.chunkSize)
    (h : StreamInv P e0 wr0 dkey hk T e w) :
    (∃ e' w', w.write P e b = (.ok b.length, e', w') ∧ StreamInv P e0 wr0 dkey hk (T ++ b) e' w') ∨
    (∃ x e' w' p, w.write P e b = (.err x, e', w') ∧ w'.err = some x ∧ wr0.Step w'.wr p ∧
      p <+: sealedMid P dkey e0.nonce 0 (midChunks e0.hdr.chunkSize (T ++ b)) ∧ WriteErr wr0 x ∧ e.Same e' ∧
      e'.seals <+: e0.seals ++ midRecs dkey e0.nonce 0 (midChunks e0.hdr.chunkSize (T ++ b))) := by
  unfold EncWriter.write
  rw [h.err]
  dsimp only
  by_cases hb : b.length = 0
  · have : b = [] := List.length_eq_zero_iff.mp hb
    subst this
    left
    exact ⟨e, w, by simp, by simpa using h⟩
  · rw [if_neg hb]
    have e1 : e.hdr = e0.hdr := by rw [h.enc]
    have e2 : e.nonce = e0.nonce := by rw [h.enc]
    have e3 : e.SenderOk := by rw [h.enc]; exact hs
    have hl := lastChunk_le e0.hdr.chunkSize h0 T
    have hbl : w.blk < 2^32 := by rw [h.blk]; omega
    obtain ⟨a1, a2⟩ := stream_append e0.hdr.chunkSize h0 b T
    rcases writeLoop_step P L (b.length + 2) e w b dkey hk _ (h.ready hr) e3 (by rw [e1]; exact h0)
      (by rw [e1, h.buf]; exact hl) (by split <;> omega) with
      ⟨wr', g1, g2⟩ | ⟨x, e', w', p, g1, g2, g3, g4, ⟨s, j, y, g5, g6⟩, g7, g8⟩
    · left
      rw [g1]
      rw [e1, e2, h.buf, sealedMid_mod P dkey e0.nonce _ w.blk (0 + (midChunks e0.hdr.chunkSize T).length)
        (by rw [h.blk]; omega)] at g2
      refine ⟨_, _, rfl, ?_, ?_, ?_, h.err, ?_⟩
      · rw [a1, e1, e2, h.buf, midRecs_append, midMac_append,
          midRecs_mod dkey e0.nonce _ w.blk (0 + (midChunks e0.hdr.chunkSize T).length) (by rw [h.blk]; omega), h.enc]
        simp
      · rw [e1, h.buf, a2]
      · simp only [e1, h.buf]
        rw [a1, List.length_append]
        split
        · rename_i hz; rw [hz, h.blk]; omega
        · rw [h.blk]; omega
      · have := h.out.trans g2
        rw [a1, sealedMid_append]
        exact this
    · right
      rw [g1]
      rw [e1, e2, h.buf, sealedMid_mod P dkey e0.nonce _ w.blk (0 + (midChunks e0.hdr.chunkSize T).length)
        (by rw [h.blk]; omega)] at g4
      refine ⟨x, e', w', _, rfl, g2, h.out.trans g3, ?_, ⟨s, j, y, h.out.mem g5, g6⟩, g7, ?_⟩
      · rw [a1, sealedMid_append]; exact prefix_append_left g4
      · rw [e1, e2, h.buf,
          midRecs_mod dkey e0.nonce _ w.blk (0 + (midChunks e0.hdr.chunkSize T).length) (by rw [h.blk]; omega), h.enc] at g8
        rw [a1, midRecs_append]
        simpa using g8

/-- `Close` after `T` was written. -/
theorem close_step (P : Prims) (L : Laws P) (e0 : Encryptor) (wr0 : Writer) (dkey hk T coin : Bytes) (e : Encryptor)
    (w : EncWriter) (hr : e0.Ready dkey hk []) (hs : e0.SenderOk) (h0 : 0 < e0.hdr.chunkSize)
    (h : StreamInv P e0 wr0 dkey hk T e w) :
    (∃ e' w', w.close P e coin = ((match wr0.closeErr with | none => .ok () | some x => .err x), e', w') ∧
      w'.err = some .closed ∧ w'.wr.closes = wr0.closes + 1 ∧
      w'.wr.out = wr0.out ++ (sealedBody P dkey e0.nonce 0 (streamChunks e0.hdr.chunkSize T) ++
        e0.trailerOf P hk (macInput (streamChunks e0.hdr.chunkSize T)) coin) ∧
      e'.seals = e0.seals ++ sealRecs dkey e0.nonce 0 (streamChunks e0.hdr.chunkSize T)) ∨
    (∃ x e' w' p, w.close P e coin = (.err x, e', w') ∧ w'.err = some x ∧ wr0.Step w'.wr p ∧
      p <+: sealedBody P dkey e0.nonce 0 (streamChunks e0.hdr.chunkSize T) ++
        e0.trailerOf P hk (macInput (streamChunks e0.hdr.chunkSize T)) coin ∧ WriteErr wr0 x ∧
      e'.seals = e0.seals ++ sealRecs dkey e0.nonce 0 (streamChunks e0.hdr.chunkSize T)) := by
  unfold EncWriter.close
  rw [h.err]
  dsimp only
  have e1 : e.hdr = e0.hdr := by rw [h.enc]
  have e2 : e.nonce = e0.nonce := by rw [h.enc]
  have e3 : e.SenderOk := by rw [h.enc]; exact hs
  have e4 : ∀ a b c, e.trailerOf P a b c = e0.trailerOf P a b c := by intro a b c; rw [h.enc]; rfl
  have hl := lastChunk_le e0.hdr.chunkSize h0 T
  have hm : w.blk % 2^32 = (0 + (midChunks e0.hdr.chunkSize T).length) % 2^32 := by rw [h.blk]; omega
  have hsplit := stream_split e0.hdr.chunkSize T
  rcases encryptBlock_step P L e dkey hk _ w.buf w.wr w.blk true coin (h.ready hr) e3
    (by rw [e1, h.buf]; exact hl) with ⟨wr', g1, g2⟩ | ⟨x, e', wr', p, g1, g2, g3, g4, g5, g6⟩
  · left
    rw [g1]
    dsimp only
    simp only [if_true] at g2
    rw [e2, h.buf, e4, sealedChunk_mod P dkey e0.nonce _ _ _ _ hm] at g2
    have hst := h.out.trans g2
    have hout : wr'.out = wr0.out ++ (sealedBody P dkey e0.nonce 0 (streamChunks e0.hdr.chunkSize T) ++
        e0.trailerOf P hk (macInput (streamChunks e0.hdr.chunkSize T)) coin) := by
      rw [hst.out, hsplit, sealedBody_snoc, macInput_snoc]
      simp
    have hseals : e.seals ++ [⟨dkey, be32 w.blk ++ e.nonce.drop 4, lengthWord w.buf.length true, w.buf⟩] =
        e0.seals ++ sealRecs dkey e0.nonce 0 (streamChunks e0.hdr.chunkSize T) := by
      rw [hsplit, sealRecs_snoc, e2, h.buf, be32_congr _ _ hm, h.enc]
      simp
    simp only [Writer.close, hst.closeErr]
    cases wr0.closeErr with
    | none => exact ⟨_, _, rfl, rfl, by simp [hst.closes], hout, hseals⟩
    | some x => exact ⟨_, _, rfl, rfl, by simp [hst.closes], hout, hseals⟩
  · right
    rw [g1]
    dsimp only
    simp only [if_true] at g3
    rw [e2, h.buf, e4, sealedChunk_mod P dkey e0.nonce _ _ _ _ hm] at g3
    obtain ⟨s, j, y, g5', g6'⟩ := g4
    refine ⟨x, e', _, _, rfl, rfl, h.out.trans g2, ?_, ⟨s, j, y, h.out.mem g5', g6'⟩, ?_⟩
    · rw [hsplit, sealedBody_snoc, macInput_snoc, List.append_assoc]
      refine prefix_append_left ?_
      simpa using g3
    · rw [g6, hsplit, sealRecs_snoc, e2, h.buf, be32_congr _ _ hm, h.enc]
      simp

theorem StreamInv.init (P : Prims) (e0 : Encryptor) (wr : Writer) (dkey hk : Bytes)
    (hr : e0.Ready dkey hk []) : StreamInv P e0 wr dkey hk [] e0 { wr := wr } := by
  refine ⟨?_, ?_, ?_, rfl, ?_⟩
  · rw [midChunks_small _ _ (by simp)]
    simp only [midRecs, midMac, List.append_nil]
    rw [← hr.hmac]
  · rw [lastChunk_small _ _ (by simp)]
  · rw [midChunks_small _ _ (by simp)]; rfl
  · rw [midChunks_small _ _ (by simp)]; exact Writer.Step.refl _

/-- All `Write`s and the `Close`, when every call returns nil. -/
theorem writeAll_ok (P : Prims) (L : Laws P) (e0 : Encryptor) (wr0 : Writer) (dkey hk coin : Bytes)
    (hr : e0.Ready dkey hk []) (hs : e0.SenderOk) (h0 : 0 < e0.hdr.chunkSize) :
    ∀ (bufs : List Bytes) (T : Bytes) (e : Encryptor) (w : EncWriter), StreamInv P e0 wr0 dkey hk T e w →
    (∃ e' w', w.writeAll P e coin bufs = ((match wr0.closeErr with | none => .ok () | some x => .err x), e', w') ∧
      w'.err = some .closed ∧ w'.wr.closes = wr0.closes + 1 ∧
      w'.wr.out = wr0.out ++ (sealedBody P dkey e0.nonce 0 (streamChunks e0.hdr.chunkSize (T ++ bufs.flatten)) ++
        e0.trailerOf P hk (macInput (streamChunks e0.hdr.chunkSize (T ++ bufs.flatten))) coin) ∧
      e'.seals = e0.seals ++ sealRecs dkey e0.nonce 0 (streamChunks e0.hdr.chunkSize (T ++ bufs.flatten))) ∨
    (∃ x e' w' p, w.writeAll P e coin bufs = (.err x, e', w') ∧ w'.err = some x ∧ wr0.Step w'.wr p ∧
      p <+: sealedBody P dkey e0.nonce 0 (streamChunks e0.hdr.chunkSize (T ++ bufs.flatten)) ++
        e0.trailerOf P hk (macInput (streamChunks e0.hdr.chunkSize (T ++ bufs.flatten))) coin ∧ WriteErr wr0 x ∧
      e'.seals <+: e0.seals ++ sealRecs dkey e0.nonce 0 (streamChunks e0.hdr.chunkSize (T ++ bufs.flatten))) := by
  intro bufs
  induction bufs with
  | nil =>
    intro T e w h
    simp only [EncWriter.writeAll, List.flatten_nil, List.append_nil]
    rcases close_step P L e0 wr0 dkey hk T coin e w hr hs h0 h with g | ⟨x, e', w', p, g1, g2, g3, g4, g5, g6⟩
    · exact Or.inl g
    · exact Or.inr ⟨x, e', w', p, g1, g2, g3, g4, g5, g6 ▸ List.prefix_refl _⟩
  | cons b bufs ih =>
    intro T e w h
    simp only [EncWriter.writeAll, List.flatten_cons]
    rcases write_step P L e0 wr0 dkey hk T b e w hr hs h0 h with ⟨e', w', g1, g2⟩ | ⟨x, e', w', p, g1, g2, g3, g4, g5, g6, g7⟩
    · rw [g1]
      simp only [if_true]
      have := ih (T ++ b) e' w' g2
      rw [List.append_assoc] at this
      exact this
    · rw [g1]
      right
      obtain ⟨a1, a2⟩ := stream_append e0.hdr.chunkSize h0 bufs.flatten (T ++ b)
      rw [List.append_assoc] at a1 a2
      refine ⟨x, e', w', p, rfl, g2, g3, ?_, g5, ?_⟩
      · rw [stream_split, sealedBody_snoc, a1, sealedMid_append, List.append_assoc, List.append_assoc]
        exact prefix_append_right _ g4
      · rw [stream_split, sealRecs_snoc, a1, midRecs_append]
        refine List.IsPrefix.trans g7 ?_
        exact ⟨_, by rw [List.append_assoc, List.append_assoc]⟩

theorem writeLoop_err (P : Prims) : ∀ (fuel : Nat) (e : Encryptor) (w : EncWriter) (b : Bytes) (x : Err) (e' : Encryptor)
    (w' : EncWriter), EncWriter.writeLoop P fuel e w b = (.err x, e', w') → w'.err = some x := by
  intro fuel
  induction fuel with
  | zero => intro e w b x e' w' h; simp [EncWriter.writeLoop] at h
  | succ fuel ih =>
    intro e w b x e' w' h
    unfold EncWriter.writeLoop at h
    split at h
    · cases h
    · dsimp only at h
      split at h
      · split at h
        · exact ih _ _ _ _ _ _ h
        · cases h; rfl
        · cases h
      · exact ih _ _ _ _ _ _ h

end Sigtool
