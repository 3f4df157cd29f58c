import Verif.Session
import Verif.DecLemmas
/-! # StreamRead: `NewStreamReader` / `Read` against `Decrypt` -/

namespace Sigtool

theorem processTrailer_flags (P : Prims) (d : Decryptor) (s f : Bool) (pt : Bytes) :
    ({ d with stream := s, eof := f } : Decryptor).processTrailer P pt =
      ((d.processTrailer P pt).1, { (d.processTrailer P pt).2 with stream := s, eof := f }) := by
  unfold Decryptor.processTrailer
  dsimp only
  repeat' split
  all_goals first | rfl | simp_all

/-- `decrypt` looks at neither the stream flag nor the end-of-file flag and does not change them. -/
theorem decryptBlock_flags (P : Prims) (d : Decryptor) (s f : Bool) (i : Nat) :
    ({ d with stream := s, eof := f } : Decryptor).decryptBlock P i =
      ((d.decryptBlock P i).1, { (d.decryptBlock P i).2 with stream := s, eof := f }) := by
  obtain ⟨hdr, rd, hdrsum, ae, hmac, sender, bufLen, nonce, key, auth, eof, stream⟩ := d
  unfold Decryptor.decryptBlock
  dsimp only
  cases ae with
  | none => rfl
  | some dkey =>
    dsimp only
    rcases readFull rd 4 with ⟨b, _ | x, rd⟩
    · dsimp only
      split
      · rfl
      · split
        · split <;> rfl
        · split
          · rfl
          · rcases readFull rd ((wordLen (be32dec b) + 16) % 2^32) with ⟨ct, _ | x, rd⟩
            · dsimp only
              cases P.aeadOpen dkey (chunkNonce nonce i) ct b with
              | none => rfl
              | some pt =>
                dsimp only
                split
                · rfl
                · cases hmac with
                  | none => rfl
                  | some p =>
                    obtain ⟨hk, hd⟩ := p
                    dsimp only
                    split
                    · exact processTrailer_flags P ⟨hdr, rd, hdrsum, some dkey, some (hk, hd ++ b ++ pt), sender, bufLen,
                        nonce, key, auth, eof, stream⟩ s f pt
                    · rfl
            · rfl
    · rfl

/-- A chunk that is not the last is non-empty. -/
theorem decryptBlock_nonempty (P : Prims) (d d1 : Decryptor) (i : Nat) : d.decryptBlock P i ≠ (.ok ([], false), d1) := by
  intro hbad
  obtain ⟨hdr, rd, hdrsum, ae, hmac, sender, bufLen, nonce, key, auth, eof, stream⟩ := d
  unfold Decryptor.decryptBlock at hbad
  cases ae with
  | none => cases hbad
  | some dkey =>
    dsimp only at hbad
    generalize hr : readFull rd 4 = r4 at hbad
    obtain ⟨w, _ | x, rd⟩ := r4
    · dsimp only at hbad
      split at hbad
      · cases hbad
      · split at hbad
        · split at hbad <;> cases hbad
        · split at hbad
          · cases hbad
          · rename_i hm0 _
            generalize readFull rd ((wordLen (be32dec w) + 16) % 2^32) = rz at hbad
            obtain ⟨ct, _ | x, rd⟩ := rz
            · dsimp only at hbad
              cases ho : P.aeadOpen dkey (chunkNonce nonce i) ct w with
              | none => rw [ho] at hbad; cases hbad
              | some pt =>
                rw [ho] at hbad
                dsimp only at hbad
                split at hbad
                · cases hbad
                · rename_i hl
                  cases hmac with
                  | none => cases hbad
                  | some p =>
                    obtain ⟨hk, hd⟩ := p
                    dsimp only at hbad
                    split at hbad
                    · unfold Decryptor.processTrailer at hbad
                      dsimp only at hbad
                      repeat' split at hbad
                      all_goals cases hbad
                    · simp only [Prod.mk.injEq, Res.ok.injEq, and_true] at hbad
                      rw [hbad.1] at hl
                      simp at hl; omega
            · cases hbad
    · cases hbad

theorem decryptLoop_stream (P : Prims) (s : Bool) : ∀ (fuel : Nat) (d : Decryptor) (wr : Writer) (i : Nat),
    Decryptor.decryptLoop P fuel { d with stream := s } wr i =
      ((Decryptor.decryptLoop P fuel d wr i).1, { (Decryptor.decryptLoop P fuel d wr i).2.1 with stream := s },
        (Decryptor.decryptLoop P fuel d wr i).2.2) := by
  intro fuel
  induction fuel with
  | zero => intros; rfl
  | succ fuel ih =>
    intro d wr i
    unfold Decryptor.decryptLoop
    have h := decryptBlock_flags P d s d.eof i
    have e1 : ({ d with stream := s, eof := d.eof } : Decryptor) = { d with stream := s } := rfl
    rw [e1] at h
    have e2 : ({ d with stream := d.stream, eof := d.eof } : Decryptor) = d := rfl
    have h0 := decryptBlock_flags P d d.stream d.eof i
    rw [e2] at h0
    rw [h]
    have heof : (d.decryptBlock P i).2.eof = d.eof := by
      conv_lhs => rw [h0]
    rcases hb : d.decryptBlock P i with ⟨r, d1⟩
    rw [hb] at heof
    dsimp only at heof
    have e3 : ({ d1 with stream := s, eof := d.eof } : Decryptor) = { d1 with stream := s } := by rw [← heof]
    dsimp only
    rw [e3]
    match r with
    | .err x => rfl
    | .panic x => rfl
    | .ok (c, eof) =>
      dsimp only
      rcases (if c.length > 0 then fullwrite c wr else (none, wr)) with ⟨_ | x, wr1⟩
      · dsimp only
        split
        · rfl
        · exact ih d1 wr1 _
      · rfl

/-- What a sequence of `Read` calls with buffer sizes `caps` may return if the plaintext is `T` and the final error is
`E`: pieces of `T` in order, each non-empty and no longer than its buffer, and then, only after all of `T`, always `E`. -/
def ReadsOk (T : Bytes) (E : Err) (caps : List Nat) (rs : List (Res Bytes)) : Prop :=
  ∃ (pieces : List Bytes) (k : Nat), rs = pieces.map .ok ++ List.replicate k (.err E) ∧
    pieces.length + k = caps.length ∧ pieces.flatten <+: T ∧ (0 < k → pieces.flatten = T) ∧
    List.Forall₂ (fun p c => 0 < p.length ∧ p.length ≤ c) pieces (caps.take pieces.length)

theorem ReadsOk.nil (T : Bytes) (E : Err) : ReadsOk T E [] [] :=
  ⟨[], 0, rfl, rfl, List.nil_prefix, by simp, by simp⟩

theorem ReadsOk.stuck (E : Err) (caps : List Nat) : ReadsOk [] E caps (List.replicate caps.length (.err E)) :=
  ⟨[], caps.length, by simp, by simp, List.nil_prefix, by simp, by simp⟩

theorem ReadsOk.cons {T : Bytes} {E : Err} {caps : List Nat} {rs : List (Res Bytes)} (h : ReadsOk T E caps rs)
    (p : Bytes) (c : Nat) (h0 : 0 < p.length) (h1 : p.length ≤ c) : ReadsOk (p ++ T) E (c :: caps) (.ok p :: rs) := by
  obtain ⟨pieces, k, g1, g2, g3, g4, g5⟩ := h
  refine ⟨p :: pieces, k, by rw [g1]; rfl, by simp; omega, ?_, ?_, ?_⟩
  · obtain ⟨t, ht⟩ := g3
    exact ⟨t, by rw [← ht]; simp⟩
  · intro hk; rw [← g4 hk]; simp
  · simpa using ⟨⟨h0, h1⟩, g5⟩

theorem readAll_err (P : Prims) (d : Decryptor) (r : EncReader) (E : Err) (h : r.err = some E) (caps : List Nat) :
    r.readAll P d caps = (List.replicate caps.length (.err E), d, r) := by
  induction caps with
  | nil => rfl
  | cons c cs ih => simp [EncReader.readAll, EncReader.read, h, ih, List.replicate_succ]

/-- Reading what is buffered, then the rest. -/
theorem readAll_unread (P : Prims) (d : Decryptor) (T : Bytes) (E : Err) (blk : Nat)
    (hrest : ∀ caps : List Nat, (∀ c ∈ caps, 0 < c) →
      ReadsOk T E caps (EncReader.readAll P d { unread := [], blk := blk, err := none } caps).1) :
    ∀ (caps : List Nat) (u : Bytes), (∀ c ∈ caps, 0 < c) →
      ReadsOk (u ++ T) E caps (EncReader.readAll P d { unread := u, blk := blk, err := none } caps).1 := by
  intro caps
  induction caps with
  | nil => intro u _; exact ReadsOk.nil _ _
  | cons c cs ih =>
    intro u hc
    by_cases hu : u = []
    · subst hu; exact hrest _ hc
    · have hul : 0 < u.length := List.length_pos_iff.mpr hu
      have hul' : u.length ≠ 0 := by omega
      simp only [EncReader.readAll, EncReader.read, hul', if_false, hul, gt_iff_lt, if_true]
      have := (ih (u.drop c) (fun x hx => hc x (List.mem_cons_of_mem _ hx))).cons (u.take c) c
        (by have := hc c (by simp); simp; omega) (by simp; try omega)
      rwa [← List.append_assoc, List.take_append_drop] at this

/-- The error a stream reader ends with, given the result of `Decrypt`. -/
def endErr : Res Unit → Err
  | .ok () => .eof
  | .err x => x
  | .panic _ => .eof

/-- `Decrypt` only appends to its destination. -/
theorem decryptLoop_appends (P : Prims) : ∀ (fuel : Nat) (d : Decryptor) (wr : Writer) (i : Nat),
    ∃ T', (Decryptor.decryptLoop P fuel d wr i).2.2.out = wr.out ++ T' := by
  intro fuel
  induction fuel with
  | zero => intro d wr i; exact ⟨[], by simp [Decryptor.decryptLoop]⟩
  | succ fuel ih =>
    intro d wr i
    unfold Decryptor.decryptLoop
    rcases d.decryptBlock P i with ⟨r, d1⟩
    match r with
    | .err x => exact ⟨[], by simp⟩
    | .panic x => exact ⟨[], by simp⟩
    | .ok (b, eof) =>
      dsimp only
      obtain ⟨o, wr1, k1, q, k2⟩ : ∃ o wr1, (if b.length > 0 then fullwrite b wr else (none, wr)) = (o, wr1) ∧
          ∃ q, wr1.out = wr.out ++ q := by
        split
        · obtain ⟨w', _, _, k, _⟩ := fullwrite_spec b wr
          rcases k with ⟨k1, k2⟩ | ⟨e, j, k1, k2, _⟩
          · exact ⟨_, _, k1, _, k2⟩
          · exact ⟨_, _, k1, _, k2⟩
        · exact ⟨_, _, rfl, [], by simp⟩
      rw [k1]
      cases o with
      | some x => exact ⟨q, k2⟩
      | none =>
        dsimp only
        split
        · exact ⟨q, k2⟩
        · obtain ⟨T', h⟩ := ih d1 wr1 ((i+1) % 2^32)
          exact ⟨q ++ T', by rw [h, k2, List.append_assoc]⟩

theorem read_loop (P : Prims) : ∀ (fuel : Nat) (d d' : Decryptor) (wr wr' : Writer) (i : Nat) (res : Res Unit) (T : Bytes),
    wr.NoFail → d.eof = false → Decryptor.decryptLoop P fuel d wr i = (res, d', wr') → res.isPanic = false →
    wr'.out = wr.out ++ T →
    ∀ caps : List Nat, (∀ c ∈ caps, 0 < c) →
      ReadsOk T (endErr res) caps (EncReader.readAll P d { unread := [], blk := i, err := none } caps).1 := by
  intro fuel
  induction fuel with
  | zero =>
    intro d d' wr wr' i res T _ _ h hp
    simp only [Decryptor.decryptLoop, Prod.mk.injEq] at h
    rw [← h.1] at hp; cases hp
  | succ fuel ih =>
    intro d d' wr wr' i res T hw heof h hp hout caps hcaps
    unfold Decryptor.decryptLoop at h
    have h0 := decryptBlock_flags P d d.stream d.eof i
    have e2 : ({ d with stream := d.stream, eof := d.eof } : Decryptor) = d := rfl
    rw [e2] at h0
    have heof1 : (d.decryptBlock P i).2.eof = d.eof := by
      conv_lhs => rw [h0]
    cases caps with
    | nil => exact ReadsOk.nil _ _
    | cons c cs =>
    simp only [EncReader.readAll, EncReader.read, List.length_nil, heof, Bool.false_eq_true, if_true, if_false]
    rcases hb : d.decryptBlock P i with ⟨r, d1⟩
    rw [hb] at h heof1
    dsimp only at heof1
    match r, h with
    | .panic x, h => cases h; cases hp
    | .err x, h =>
      simp only [Prod.mk.injEq] at h
      obtain ⟨h1, h2, h3⟩ := h
      subst h1 h2 h3
      have hT : T = [] := by simpa using hout
      subst hT
      dsimp only
      rw [readAll_err P d1 _ x rfl]
      exact ReadsOk.stuck x (c :: cs)
    | .ok (b, eof), h =>
      dsimp only at h
      -- the write succeeds
      obtain ⟨wr1, g1, g2, g3⟩ : ∃ wr1, (if b.length > 0 then fullwrite b wr else (none, wr)) = (none, wr1) ∧
          wr1.out = wr.out ++ b ∧ wr1.NoFail := by
        by_cases hb0 : b.length > 0
        · obtain ⟨wr1, k1, k2, k3, _⟩ := fullwrite_noFail b wr hw
          exact ⟨wr1, by rw [if_pos hb0, k1], k2, k3⟩
        · have : b = [] := by
            cases b with
            | nil => rfl
            | cons _ _ => simp at hb0
          subst this
          exact ⟨wr, by simp, by simp, hw⟩
      rw [g1] at h
      dsimp only at h
      cases eof with
      | true =>
        simp only [if_true, Prod.mk.injEq] at h
        obtain ⟨h1, h2, h3⟩ := h
        subst h1 h2 h3
        have hT : T = b := by rw [g2] at hout; exact (List.append_cancel_left hout).symm
        subst hT
        -- afterwards: end of file for ever
        have hrest : ∀ caps : List Nat, (∀ c ∈ caps, 0 < c) → ReadsOk [] .eof caps
            (EncReader.readAll P { d1 with eof := true } { unread := [], blk := (i+1) % 2^32, err := none } caps).1 := by
          intro caps _
          cases caps with
          | nil => exact ReadsOk.nil _ _
          | cons c cs =>
            simp only [EncReader.readAll, EncReader.read, List.length_nil, if_true]
            rw [readAll_err P _ _ .eof rfl]
            exact ReadsOk.stuck .eof (c :: cs)
        by_cases hT0 : T = []
        · subst hT0
          simp only [List.length_nil, gt_iff_lt, Nat.lt_irrefl, if_false, endErr]
          rw [readAll_err P _ _ .eof rfl]
          exact ReadsOk.stuck .eof (c :: cs)
        · have hl : 0 < T.length := List.length_pos_iff.mpr hT0
          have := readAll_unread P { d1 with eof := true } [] .eof ((i+1) % 2^32) hrest (c :: cs) T hcaps
          have hl' : T.length ≠ 0 := by omega
          simp only [EncReader.readAll, EncReader.read, hl', if_false, hl, gt_iff_lt, if_true, List.append_nil] at this
          simp only [hl, gt_iff_lt, if_true, endErr]
          exact this
      | false =>
        simp only [Bool.false_eq_true, if_false] at h
        have hd1 : ({ d1 with eof := false } : Decryptor) = d1 := by rw [← heof, ← heof1]
        dsimp only
        rw [hd1]
        -- the loop only appends
        obtain ⟨T', hT'⟩ : ∃ T', wr'.out = wr1.out ++ T' := by
          obtain ⟨T', h1⟩ := decryptLoop_appends P fuel d1 wr1 ((i+1) % 2^32)
          rw [h] at h1
          exact ⟨T', h1⟩
        have hT : T = b ++ T' := by
          rw [hT', g2, List.append_assoc] at hout
          exact (List.append_cancel_left hout).symm
        have hrest := ih d1 d' wr1 wr' ((i+1) % 2^32) res T' g3 (by rw [heof1, heof]) h hp hT'
        by_cases hb0 : b = []
        · -- not reachable: a chunk that is not the last is non-empty
          exfalso
          subst hb0
          exact decryptBlock_nonempty P d d1 i hb
        · have hl : 0 < b.length := List.length_pos_iff.mpr hb0
          have := readAll_unread P d1 T' (endErr res) ((i+1) % 2^32) hrest (c :: cs) b hcaps
          have hl' : b.length ≠ 0 := by omega
          simp only [EncReader.readAll, EncReader.read, hl', if_false, hl, gt_iff_lt, if_true] at this
          simp only [hl, gt_iff_lt, if_true, hT]
          exact this

end Sigtool
