import Verif.EncLemmas
/-! # The container writer against an arbitrary destination and an arbitrary reader -/

namespace Sigtool
open Spec (encryptChunks streamChunks lengthWord sealedChunk sealedBody macInput headerPart sessionKeys container)

/-- What any writing step does to its destination: it appends, never closes, and consumes a prefix of the script. -/
structure Writer.Step (w w' : Writer) (delivered : Bytes) : Prop where
  out : w'.out = w.out ++ delivered
  closes : w'.closes = w.closes
  closeErr : w'.closeErr = w.closeErr
  script : ∃ pre, w.script = pre ++ w'.script

theorem Writer.Step.refl (w : Writer) : w.Step w [] := ⟨by simp, rfl, rfl, [], rfl⟩

theorem Writer.Step.trans {w1 w2 w3 : Writer} {a b : Bytes} (h1 : w1.Step w2 a) (h2 : w2.Step w3 b) :
    w1.Step w3 (a ++ b) := by
  obtain ⟨p, hp⟩ := h1.script
  obtain ⟨q, hq⟩ := h2.script
  refine ⟨by rw [h2.out, h1.out, List.append_assoc], by rw [h2.closes, h1.closes],
    by rw [h2.closeErr, h1.closeErr], p ++ q, ?_⟩
  rw [hp, hq, List.append_assoc]

theorem Writer.Step.mem {w w' : Writer} {a : Bytes} (h : w.Step w' a) {ev : WEv} (he : ev ∈ w'.script) :
    ev ∈ w.script := by
  obtain ⟨p, hp⟩ := h.script
  rw [hp]; exact List.mem_append_right _ he

/-- `fullwrite` on an arbitrary destination. -/
theorem fullwrite_step (buf : Bytes) (w : Writer) :
    (∃ w', fullwrite buf w = (none, w') ∧ w.Step w' buf) ∨
    (∃ x w' p, fullwrite buf w = (some x, w') ∧ w.Step w' p ∧ p <+: buf ∧ ∃ j, WEv.fail j x ∈ w.script) := by
  obtain ⟨w', h1, h2, h3, hp⟩ := fullwrite_spec buf w
  rcases h3 with ⟨h5, h6⟩ | ⟨e, k, h5, h6, j, h7⟩
  · exact Or.inl ⟨w', h5, h6, h1, h2, hp⟩
  · exact Or.inr ⟨e, w', buf.take k, h5, ⟨h6, h1, h2, hp⟩, List.take_prefix k buf, j, h7⟩

/-- `err` is the given destination error, possibly wrapped by sigtool. -/
def WriteErr (w : Writer) (x : Err) : Prop := ∃ s j y, WEv.fail j y ∈ w.script ∧ x = .wrap s y

theorem writeTrailer_step (P : Prims) (e : Encryptor) (wr : Writer) (coin hk hd : Bytes)
    (hh : e.hmac = some (hk, hd)) (hs : e.SenderOk) :
    (∃ wr', e.writeTrailer P wr coin = (.ok (), wr') ∧ wr.Step wr' (e.trailerOf P hk hd coin)) ∨
    (∃ x wr' p, e.writeTrailer P wr coin = (.err x, wr') ∧ wr.Step wr' p ∧
      p <+: e.trailerOf P hk hd coin ∧ WriteErr wr x) := by
  unfold Encryptor.writeTrailer
  cases ha : e.auth with
  | false =>
    rcases fullwrite_step coin wr with ⟨w', h1, h2⟩ | ⟨x, w', p, h1, h2, h3, j, h4⟩
    · left
      refine ⟨w', ?_, ?_⟩
      · simp [h1]
      · simpa [Encryptor.trailerOf, ha] using h2
    · right
      refine ⟨.wrap "encrypt: trailer" x, w', p, ?_, h2, ?_, _, j, x, h4, rfl⟩
      · simp [h1]
      · simpa [Encryptor.trailerOf, ha] using h3
  | true =>
    obtain ⟨sk, hsk, hlen⟩ := hs ha
    rcases fullwrite_step (P.edSign sk.sk (signDigest P (P.hmac256 hk hd))) wr with
      ⟨w', h1, h2⟩ | ⟨x, w', p, h1, h2, h3, j, h4⟩
    · left
      refine ⟨w', ?_, ?_⟩
      · simp [hh, hsk, signMessage, hlen, h1]
      · simpa [Encryptor.trailerOf, ha, hsk] using h2
    · right
      refine ⟨.wrap "encrypt: trailer" x, w', p, ?_, h2, ?_, _, j, x, h4, rfl⟩
      · simp [hh, hsk, signMessage, hlen, h1]
      · simpa [Encryptor.trailerOf, ha, hsk] using h3

/-- The fields of an encryptor that no writing step after the header changes. -/
structure Encryptor.Same (e e' : Encryptor) : Prop where
  hdr : e'.hdr = e.hdr
  key : e'.key = e.key
  nonce : e'.nonce = e.nonce
  ae : e'.ae = e.ae
  started : e'.started = e.started
  stream : e'.stream = e.stream
  auth : e'.auth = e.auth
  sender : e'.sender = e.sender

theorem prefix_append_left {a b c : Bytes} (h : b <+: c) : a ++ b <+: a ++ c := by
  obtain ⟨t, ht⟩ := h
  exact ⟨t, by rw [← ht, List.append_assoc]⟩

theorem prefix_append_right {a b : Bytes} (c : Bytes) (h : a <+: b) : a <+: b ++ c := by
  obtain ⟨t, ht⟩ := h
  exact ⟨t ++ c, by rw [← ht, List.append_assoc]⟩

/-- One block against an arbitrary destination. -/
theorem encryptBlock_step (P : Prims) (L : Laws P) (e : Encryptor) (dkey hk hd pt : Bytes) (wr : Writer)
    (i : Nat) (eof : Bool) (coin : Bytes) (hr : e.Ready dkey hk hd) (hs : e.SenderOk)
    (hp : pt.length ≤ e.hdr.chunkSize) :
    (∃ wr', e.encryptBlock P pt wr i eof coin =
        (.ok (), { e with seals := e.seals ++ [⟨dkey, be32 i ++ e.nonce.drop 4, lengthWord pt.length eof, pt⟩]
                          hmac := some (hk, hd ++ lengthWord pt.length eof ++ pt) }, wr') ∧
      wr.Step wr' (sealedChunk P dkey e.nonce i eof pt ++
        (if eof then e.trailerOf P hk (hd ++ lengthWord pt.length eof ++ pt) coin else []))) ∨
    (∃ x e' wr' p, e.encryptBlock P pt wr i eof coin = (.err x, e', wr') ∧ wr.Step wr' p ∧
      p <+: (sealedChunk P dkey e.nonce i eof pt ++
        (if eof then e.trailerOf P hk (hd ++ lengthWord pt.length eof ++ pt) coin else [])) ∧
      WriteErr wr x ∧ e.Same e' ∧
      e'.seals = e.seals ++ [⟨dkey, be32 i ++ e.nonce.drop 4, lengthWord pt.length eof, pt⟩]) := by
  have hc := hr.chunk
  have hw0 : be32 (lenWord pt.length eof) = lengthWord pt.length eof := lenWord_word _ _ (by omega)
  have hl := L.seal_len dkey (chunkNonce e.nonce i) pt (lengthWord pt.length eof) hr.key
    (chunkNonce_length _ _ hr.nonce) (by omega)
  have hb : ¬ (pt.length + 16 + 4 > e.hdr.chunkSize + 4 + 16) := by omega
  unfold Encryptor.encryptBlock
  simp only [hr.ae, hr.buf, hw0, hl, hb, if_false]
  rcases fullwrite_step
    (lengthWord pt.length eof ++ P.aeadSeal dkey (chunkNonce e.nonce i) pt (lengthWord pt.length eof)) wr with
    ⟨wr1, h1, h2⟩ | ⟨x, wr1, p, h1, h2, h3, j, h4⟩
  · simp only [h1, hr.hmac]
    cases eof with
    | false =>
      left
      exact ⟨wr1, by simp [chunkNonce], by simpa [sealedChunk, chunkNonce] using h2⟩
    | true =>
      simp only [if_true]
      rcases writeTrailer_step P
        { e with seals := e.seals ++ [⟨dkey, chunkNonce e.nonce i, lengthWord pt.length true, pt⟩]
                 hmac := some (hk, hd ++ lengthWord pt.length true ++ pt) } wr1 coin hk
        (hd ++ lengthWord pt.length true ++ pt) rfl hs with ⟨wr2, g1, g2⟩ | ⟨x, wr2, q, g1, g2, g3, s, j, y, g4, g5⟩
      · left
        refine ⟨wr2, ?_, ?_⟩
        · simp only [hr.ae, hr.buf] at g1
          rw [g1]; simp [chunkNonce]
        · have := h2.trans g2
          simpa [sealedChunk, chunkNonce, Encryptor.trailerOf] using this
      · right
        refine ⟨x, { e with seals := e.seals ++ [⟨dkey, chunkNonce e.nonce i, lengthWord pt.length true, pt⟩]
                            hmac := some (hk, hd ++ lengthWord pt.length true ++ pt) }, wr2, _, ?_, h2.trans g2, ?_,
          ⟨s, j, y, h2.mem g4, g5⟩, ?_, ?_⟩
        · simp only [hr.ae, hr.buf] at g1
          rw [g1]; simp [hr.ae, hr.buf]
        · simp only [sealedChunk, chunkNonce]
          refine prefix_append_left ?_
          simpa [Encryptor.trailerOf] using g3
        · exact ⟨rfl, rfl, rfl, rfl, rfl, rfl, rfl, rfl⟩
        · simp [chunkNonce]
  · right
    simp only [h1]
    refine ⟨_, _, wr1, p, rfl, h2, ?_, ⟨_, j, x, h4, rfl⟩, ?_, ?_⟩
    · simp only [sealedChunk, chunkNonce] at h3 ⊢
      exact prefix_append_right _ h3
    · exact ⟨rfl, rfl, rfl, by rw [hr.ae], rfl, rfl, rfl, rfl⟩
    · simp [chunkNonce]

theorem sealedMid_mod (P : Prims) (key nonce : Bytes) (cs : List Bytes) : ∀ (i j : Nat),
    i % 2^32 = j % 2^32 → sealedMid P key nonce i cs = sealedMid P key nonce j cs := by
  induction cs with
  | nil => intros; rfl
  | cons c cs ih =>
    intro i j h
    simp only [sealedMid]
    rw [sealedChunk_mod P key nonce i j _ _ h, ih (i+1) (j+1) (by omega)]

theorem sealedBody_snoc (P : Prims) (key nonce : Bytes) (cs : List Bytes) (c : Bytes) : ∀ i,
    sealedBody P key nonce i (cs ++ [c]) =
      sealedMid P key nonce i cs ++ sealedChunk P key nonce (i + cs.length) true c := by
  induction cs with
  | nil => intro i; simp [sealedBody, sealedMid]
  | cons d cs ih =>
    intro i
    rw [List.cons_append, sealedBody_cons _ _ _ _ _ _ (by simp), ih]
    simp [sealedMid, Nat.add_assoc, Nat.add_comm 1]

/-- What the block loop of `Encrypt` does, for every reader and every destination. -/
structure LoopOutcome (P : Prims) (e : Encryptor) (rd : Reader) (wr : Writer) (i : Nat) (dkey hk hd coin : Bytes)
    (r : Res Unit) (e' : Encryptor) (wr' : Writer) : Prop where
  same : e.Same e'
  /-- success: everything was delivered -/
  done : r = .ok () → isEndOfInput rd.last = true ∧
    wr.Step wr' (sealedBody P dkey e.nonce i (encryptChunks e.hdr.chunkSize rd.content) ++
      e.trailerOf P hk (hd ++ macInput (encryptChunks e.hdr.chunkSize rd.content)) coin) ∧
    e'.hmac = some (hk, hd ++ macInput (encryptChunks e.hdr.chunkSize rd.content)) ∧
    e'.seals = e.seals ++ sealRecs dkey e.nonce i (encryptChunks e.hdr.chunkSize rd.content)
  /-- failure: a prefix was delivered; if it was the reader that failed, only whole chunks, none marked last -/
  failed : ∀ x, r = .err x → ∃ p, wr.Step wr' p ∧
    ((isEndOfInput rd.last = true ∧ WriteErr wr x ∧
      p <+: sealedBody P dkey e.nonce i (encryptChunks e.hdr.chunkSize rd.content) ++
        e.trailerOf P hk (hd ++ macInput (encryptChunks e.hdr.chunkSize rd.content)) coin) ∨
     (isEndOfInput rd.last = false ∧
      (WriteErr wr x ∧ p <+: sealedMid P dkey e.nonce i (encryptChunks e.hdr.chunkSize rd.content).dropLast ∨
       x = .wrap "encrypt: I/O read error" rd.last ∧
        p = sealedMid P dkey e.nonce i (encryptChunks e.hdr.chunkSize rd.content).dropLast)))
  seals : e'.seals <+: e.seals ++ sealRecs dkey e.nonce i (encryptChunks e.hdr.chunkSize rd.content)
  noPanic : ∀ x, r ≠ .panic x

theorem LoopOutcome.ofStop {P : Prims} {e : Encryptor} {rd : Reader} {wr : Writer} {i : Nat} {dkey hk hd coin : Bytes}
    {x : Err} {e' : Encryptor} {wr' : Writer} (hs : e.Same e') {p : Bytes} (hp : wr.Step wr' p)
    (hk' : (isEndOfInput rd.last = true ∧ WriteErr wr x ∧
      p <+: sealedBody P dkey e.nonce i (encryptChunks e.hdr.chunkSize rd.content) ++
        e.trailerOf P hk (hd ++ macInput (encryptChunks e.hdr.chunkSize rd.content)) coin) ∨
     (isEndOfInput rd.last = false ∧
      (WriteErr wr x ∧ p <+: sealedMid P dkey e.nonce i (encryptChunks e.hdr.chunkSize rd.content).dropLast ∨
       x = .wrap "encrypt: I/O read error" rd.last ∧
        p = sealedMid P dkey e.nonce i (encryptChunks e.hdr.chunkSize rd.content).dropLast)))
    (hseal : e'.seals <+: e.seals ++ sealRecs dkey e.nonce i (encryptChunks e.hdr.chunkSize rd.content)) :
    LoopOutcome P e rd wr i dkey hk hd coin (.err x) e' wr' :=
  ⟨hs, by simp, by intro y hy; cases hy; exact ⟨p, hp, hk'⟩, hseal, by simp⟩

theorem Encryptor.Same.refl (e : Encryptor) : e.Same e := ⟨rfl, rfl, rfl, rfl, rfl, rfl, rfl, rfl⟩

theorem encryptLoop_outcome (P : Prims) (L : Laws P) (coin : Bytes) :
    ∀ (fuel : Nat) (e : Encryptor) (rd : Reader) (wr : Writer) (i : Nat) (dkey hk hd : Bytes),
    e.Ready dkey hk hd → e.SenderOk → 0 < e.hdr.chunkSize → rd.content.length < fuel →
    ∃ r e' rd' wr', Encryptor.encryptLoop P coin fuel e rd wr i = (r, e', rd', wr') ∧
      LoopOutcome P e rd wr i dkey hk hd coin r e' wr' := by
  intro fuel
  induction fuel with
  | zero => intro e rd wr i dkey hk hd _ _ _ h; omega
  | succ fuel ih =>
    intro e rd wr i dkey hk hd hr hs hc hf
    unfold Encryptor.encryptLoop
    by_cases hlt : rd.content.length < e.hdr.chunkSize
    · obtain ⟨rd', h1, h2, h3⟩ := readFull_short rd e.hdr.chunkSize hlt
      rw [h1]
      have hch := encryptChunks_small _ _ hlt
      by_cases hend : isEndOfInput rd.last = true
      · have hend2 : isEndOfInput (shortReadErr rd.content rd.last) = true := by
          unfold shortReadErr; split
          · rfl
          · exact hend
        simp only [hend2, if_true]
        rcases encryptBlock_step P L e dkey hk hd rd.content wr i true coin hr hs (by omega) with
          ⟨wr', g1, g2⟩ | ⟨x, e', wr', p, g1, g2, g3, g4, g5, g6⟩
        · rw [g1]
          refine ⟨_, _, _, _, rfl, ⟨rfl, rfl, rfl, rfl, rfl, rfl, rfl, rfl⟩, ?_, by simp, ?_, by simp⟩
          · intro _
            rw [hch]
            simp only [if_true, List.append_assoc] at g2
            refine ⟨hend, ?_, ?_, ?_⟩
            · simpa [sealedBody, macInput] using g2
            · simp [macInput]
            · simp [sealRecs]
          · rw [hch]; simp [sealRecs]
        · rw [g1]
          refine ⟨_, _, _, _, rfl, LoopOutcome.ofStop g5 g2 (Or.inl ⟨hend, g4, ?_⟩) ?_⟩
          · rw [hch]; simpa [sealedBody, macInput] using g3
          · rw [hch]; simp [sealRecs, g6]
      · simp only [Bool.not_eq_true] at hend
        have hend2 : shortReadErr rd.content rd.last = rd.last := by
          unfold shortReadErr; split
          · rename_i h
            simp only [Bool.and_eq_true, beq_iff_eq] at h
            rw [h.2] at hend; cases hend
          · rfl
        simp only [hend2, hend, Bool.false_eq_true, if_false]
        refine ⟨_, _, _, _, rfl, LoopOutcome.ofStop (Encryptor.Same.refl e) (Writer.Step.refl wr)
          (Or.inr ⟨hend, Or.inr ⟨rfl, ?_⟩⟩) (List.prefix_append _ _)⟩
        rw [hch]; rfl
    · obtain ⟨rd', h1, h2, h3⟩ := readFull_enough rd e.hdr.chunkSize (by omega)
      rw [h1]
      have hlen : (rd.content.take e.hdr.chunkSize).length = e.hdr.chunkSize := by simp; omega
      have hch := encryptChunks_big _ rd.content hc (by omega)
      have hne := encryptChunks_ne_nil e.hdr.chunkSize (rd.content.drop e.hdr.chunkSize)
      rcases encryptBlock_step P L e dkey hk hd (rd.content.take e.hdr.chunkSize) wr i false coin hr hs (by omega) with
          ⟨wr', g1, g2⟩ | ⟨x, e', wr', p, g1, g2, g3, g4, g5, g6⟩
      · simp only [g1, Bool.false_eq_true, if_false]
        simp only [Bool.false_eq_true, if_false, List.append_nil] at g2
        obtain ⟨r, e2, rd2, wr2, k1, k2⟩ := ih
          { e with seals := e.seals ++ [⟨dkey, be32 i ++ e.nonce.drop 4,
                    lengthWord (rd.content.take e.hdr.chunkSize).length false, rd.content.take e.hdr.chunkSize⟩]
                   hmac := some (hk, hd ++ lengthWord (rd.content.take e.hdr.chunkSize).length false ++
                    rd.content.take e.hdr.chunkSize) }
          rd' wr' ((i + 1) % 2^32) dkey hk
          (hd ++ lengthWord (rd.content.take e.hdr.chunkSize).length false ++ rd.content.take e.hdr.chunkSize)
          ⟨hr.ae, rfl, hr.buf, hr.chunk, hr.key, hr.nonce⟩ hs hc (by rw [h2]; simp; omega)
        refine ⟨r, e2, rd2, wr2, k1, ?_, ?_, ?_, ?_, k2.noPanic⟩
        · exact ⟨k2.same.hdr, k2.same.key, k2.same.nonce, k2.same.ae, k2.same.started, k2.same.stream,
            k2.same.auth, k2.same.sender⟩
        · intro hok
          obtain ⟨m1, m2, m3, m4⟩ := k2.done hok
          refine ⟨by rw [← h3]; exact m1, ?_, ?_, ?_⟩
          · have := g2.trans m2
            simp only [h2] at this
            rw [sealedBody_mod P dkey e.nonce _ ((i+1) % 2^32) (i+1) (by omega)] at this
            rw [hch, sealedBody_cons _ _ _ _ _ _ hne, macInput_cons _ _ hne]
            simpa [Encryptor.trailerOf] using this
          · simp only [h2] at m3
            rw [m3, hch, macInput_cons _ _ hne]
            simp
          · simp only [h2] at m4
            rw [m4, hch, sealRecs_cons _ _ _ _ _ hne,
              sealRecs_mod dkey e.nonce _ ((i+1) % 2^32) (i+1) (by omega)]
            simp
        · intro x hx
          obtain ⟨p, m1, m2⟩ := k2.failed x hx
          refine ⟨_, g2.trans m1, ?_⟩
          rw [h3] at m2
          simp only [h2] at m2
          rw [sealedBody_mod P dkey e.nonce _ ((i+1) % 2^32) (i+1) (by omega),
            sealedMid_mod P dkey e.nonce _ ((i+1) % 2^32) (i+1) (by omega)] at m2
          rcases m2 with ⟨n1, ⟨s, j, y, n2, n3⟩, n4⟩ | ⟨n1, n2⟩
          · left
            refine ⟨n1, ⟨s, j, y, g2.mem n2, n3⟩, ?_⟩
            rw [hch, sealedBody_cons _ _ _ _ _ _ hne, macInput_cons _ _ hne, List.append_assoc]
            refine prefix_append_left ?_
            simpa [Encryptor.trailerOf] using n4
          · right
            refine ⟨n1, ?_⟩
            rw [hch, List.dropLast_cons_of_ne_nil hne]
            rcases n2 with ⟨⟨s, j, y, n2, n3⟩, n4⟩ | ⟨n2, n3⟩
            · left
              exact ⟨⟨s, j, y, g2.mem n2, n3⟩, prefix_append_left n4⟩
            · right
              exact ⟨n2, by rw [n3]; rfl⟩
        · have := k2.seals
          simp only [h2] at this
          rw [sealRecs_mod dkey e.nonce _ ((i+1) % 2^32) (i+1) (by omega)] at this
          rw [hch, sealRecs_cons _ _ _ _ _ hne]
          simpa using this
      · dsimp only
        rw [g1]
        simp only [Bool.false_eq_true, if_false, List.append_nil] at g3
        refine ⟨_, _, _, _, rfl, LoopOutcome.ofStop g5 g2 ?_ ?_⟩
        · cases hend : isEndOfInput rd.last with
          | true =>
            left
            refine ⟨rfl, g4, ?_⟩
            rw [hch, sealedBody_cons _ _ _ _ _ _ hne, List.append_assoc]
            exact prefix_append_right _ g3
          | false =>
            right
            refine ⟨rfl, Or.inl ⟨g4, ?_⟩⟩
            rw [hch, List.dropLast_cons_of_ne_nil hne]
            exact prefix_append_right _ g3
        · rw [hch, sealRecs_cons _ _ _ _ _ hne, g6]
          exact ⟨sealRecs dkey e.nonce (i+1) _, by simp; rfl⟩

/-- Writing the header to an arbitrary destination. -/
theorem start_step (P : Prims) (e : Encryptor) (wr : Writer) (hc : Proto.Clean e.hdr) :
    (∃ wr', e.start P wr = (.ok (), e.afterStart P, wr') ∧
      wr.Step wr' (headerPart e.hdr ++ P.sha256 (headerPart e.hdr))) ∨
    (∃ x e' wr' p, e.start P wr = (.err x, e', wr') ∧ wr.Step wr' p ∧
      p <+: headerPart e.hdr ++ P.sha256 (headerPart e.hdr) ∧ WriteErr wr x ∧ e'.started = e.started ∧
      e'.seals = e.seals ∧ e'.hdr = e.hdr ∧ e'.key = e.key ∧ e'.stream = e.stream ∧ e'.encSK = e.encSK ∧
      e'.sender = e.sender ∧ e'.auth = e.auth) := by
  unfold Encryptor.start
  simp only [Proto.header_marshal_eq _ hc, start_pre e hc, dataKeys_eq]
  rcases fullwrite_step (headerPart e.hdr ++ P.sha256 (headerPart e.hdr)) wr with
    ⟨wr', h1, h2⟩ | ⟨x, wr', p, h1, h2, h3, j, h4⟩
  · left; exact ⟨wr', by rw [h1]; rfl, h2⟩
  · right
    refine ⟨.wrap "encrypt" x, { e with nonce := (sessionKeys P e.key (P.sha256 (headerPart e.hdr))).1
                                        ae := some (sessionKeys P e.key (P.sha256 (headerPart e.hdr))).2.1 },
      wr', p, by rw [h1], h2, h3, ⟨_, j, x, h4, rfl⟩, rfl, rfl, rfl, rfl, rfl, rfl, rfl, rfl⟩

/-- The session keys of an encryptor's container. -/
abbrev Encryptor.keys (P : Prims) (e : Encryptor) : Bytes × Bytes × Bytes :=
  sessionKeys P e.key (P.sha256 (headerPart e.hdr))

/-- The container a conforming `Encrypt` writes for `content`. -/
abbrev Encryptor.fullContainer (P : Prims) (e : Encryptor) (chunks : List Bytes) (coin : Bytes) : Bytes :=
  container P e.hdr e.key chunks (e.trailerOf P (e.keys P).2.2 (macInput chunks) coin)

/-- The container without its last chunk and its trailer. -/
def openContainer (P : Prims) (h : Header) (rootKey : Bytes) (chunks : List Bytes) : Bytes :=
  headerPart h ++ P.sha256 (headerPart h) ++
    sealedMid P (sessionKeys P rootKey (P.sha256 (headerPart h))).2.1
      (sessionKeys P rootKey (P.sha256 (headerPart h))).1 0 chunks

theorem container_eq (P : Prims) (h : Header) (rootKey : Bytes) (chunks : List Bytes) (trailer : Bytes) :
    container P h rootKey chunks trailer =
      (headerPart h ++ P.sha256 (headerPart h)) ++
        (sealedBody P (sessionKeys P rootKey (P.sha256 (headerPart h))).2.1
          (sessionKeys P rootKey (P.sha256 (headerPart h))).1 0 chunks ++ trailer) := by
  simp [container]

/-- Everything that `Encrypt` on a fresh encryptor can do, for every reader and every destination. -/
inductive EncryptOutcome (P : Prims) (e : Encryptor) (rd : Reader) (wr : Writer) (coin : Bytes)
    (r : Res Unit) (wr' : Writer) : Prop where
  | complete (hend : isEndOfInput rd.last = true)
      (hr : r = match wr.closeErr with | none => .ok () | some x => .err x)
      (hout : wr'.out = wr.out ++ e.fullContainer P (encryptChunks e.hdr.chunkSize rd.content) coin)
      (hclose : wr'.closes = wr.closes + 1)
  | writeFailed (hend : isEndOfInput rd.last = true) (x : Err) (hr : r = .err x) (hx : WriteErr wr x) (p : Bytes)
      (hout : wr'.out = wr.out ++ p)
      (hp : p <+: e.fullContainer P (encryptChunks e.hdr.chunkSize rd.content) coin)
      (hclose : wr'.closes = wr.closes)
  | readFailed (hend : isEndOfInput rd.last = false) (x : Err) (hr : r = .err x)
      (hx : WriteErr wr x ∨ x = .wrap "encrypt: I/O read error" rd.last) (p : Bytes)
      (hout : wr'.out = wr.out ++ p)
      (hp : p <+: openContainer P e.hdr e.key (encryptChunks e.hdr.chunkSize rd.content).dropLast)
      (hclose : wr'.closes = wr.closes)

theorem encrypt_outcome (P : Prims) (L : Laws P) (e : Encryptor) (rd : Reader) (wr : Writer) (coin : Bytes)
    (hf : e.Fresh P) :
    ∃ r e' rd' wr', e.encrypt P rd wr coin = (r, e', rd', wr') ∧ EncryptOutcome P e rd wr coin r wr' ∧
      e'.seals <+: sealRecs (e.keys P).2.1 (e.keys P).1 0 (encryptChunks e.hdr.chunkSize rd.content) ∧
      (r = .ok () → e'.seals = sealRecs (e.keys P).2.1 (e.keys P).1 0 (encryptChunks e.hdr.chunkSize rd.content)) ∧
      e'.hdr = e.hdr ∧ e'.key = e.key := by
  unfold Encryptor.encrypt
  simp only [hf.stream, hf.started, Bool.false_eq_true, if_false]
  rcases start_step P e wr hf.clean with ⟨wr1, h1, h2⟩ | ⟨x, e1, wr1, p, h1, h2, h3, h4, h5, h6, h7, h8, _⟩
  · simp only [h1]
    obtain ⟨r, e2, rd2, wr2, k1, k2⟩ := encryptLoop_outcome P L coin (rd.content.length + 1)
      (e.afterStart P) rd wr1 0 _ _ _ (afterStart_ready P L e hf.chunkMax) hf.sender hf.chunkPos (by omega)
    rw [k1]
    have hseal := k2.seals
    simp only [Encryptor.afterStart, hf.seals, List.nil_append] at hseal
    match r, k2 with
    | .panic x, k2 => exact absurd rfl (k2.noPanic x)
    | .err x, k2 =>
      refine ⟨_, _, _, _, rfl, ?_, hseal, by simp, k2.same.hdr, k2.same.key⟩
      obtain ⟨p, m1, m2⟩ := k2.failed x rfl
      rcases m2 with ⟨n1, ⟨s, j, y, n2, n3⟩, n4⟩ | ⟨n1, n2⟩
      · refine .writeFailed n1 x rfl ⟨s, j, y, h2.mem n2, n3⟩ _ (h2.trans m1).out ?_ (h2.trans m1).closes
        rw [Encryptor.fullContainer, container_eq]
        refine prefix_append_left ?_
        simpa [Encryptor.afterStart, Encryptor.trailerOf] using n4
      · refine .readFailed n1 x rfl ?_ _ (h2.trans m1).out ?_ (h2.trans m1).closes
        · rcases n2 with ⟨⟨s, j, y, n2, n3⟩, _⟩ | ⟨n2, _⟩
          · exact Or.inl ⟨s, j, y, h2.mem n2, n3⟩
          · exact Or.inr n2
        · refine prefix_append_left ?_
          rcases n2 with ⟨_, n4⟩ | ⟨_, n4⟩
          · simpa [Encryptor.afterStart] using n4
          · rw [n4]; simp [Encryptor.afterStart]
    | .ok (), k2 =>
      obtain ⟨m1, m2, m3, m4⟩ := k2.done rfl
      simp only [Encryptor.afterStart, hf.seals, List.nil_append] at m4
      have hce : wr2.closeErr = wr.closeErr := by rw [m2.closeErr, h2.closeErr]
      have hcl : wr2.closes = wr.closes := by rw [m2.closes, h2.closes]
      have hout : wr2.out = wr.out ++ e.fullContainer P (encryptChunks e.hdr.chunkSize rd.content) coin := by
        rw [(h2.trans m2).out, Encryptor.fullContainer, container_eq]
        simp [Encryptor.afterStart, Encryptor.trailerOf]
      simp only [Writer.close, hce, hcl]
      cases hc : wr.closeErr with
      | none =>
        exact ⟨_, _, _, _, rfl, .complete m1 (by rw [hc]) hout rfl, hseal, fun _ => m4, k2.same.hdr, k2.same.key⟩
      | some x =>
        exact ⟨_, _, _, _, rfl, .complete m1 (by rw [hc]) hout rfl, hseal, fun _ => m4, k2.same.hdr, k2.same.key⟩
  · rw [h1]
    refine ⟨_, _, _, _, rfl, ?_, ?_, by simp, h7, h8⟩
    · cases hend : isEndOfInput rd.last with
      | true =>
        refine .writeFailed hend x rfl h4 p h2.out ?_ h2.closes
        rw [Encryptor.fullContainer, container_eq]; exact prefix_append_right _ h3
      | false =>
        exact .readFailed hend x rfl (Or.inl h4) p h2.out (prefix_append_right _ h3) h2.closes
    · rw [h6, hf.seals]; exact List.nil_prefix

end Sigtool
