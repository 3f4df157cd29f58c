import Verif.Props.StreamWrite
/-!
# C27, C28, C29: what reaches the destination, for every reader and every destination
-/

namespace Sigtool
open Spec (encryptChunks streamChunks lengthWord sealedChunk sealedBody macInput headerPart sessionKeys container
  headerBytes)

/-- **C27** `fullwrite`, the function that hands every block to the destination: for every buffer and every finite schedule
of full, short, zero-length and failing writes, either it returns nil and exactly the buffer was appended, or it returns an
error that the destination itself returned from one of its writes, and a prefix of the buffer was appended. It never closes
the destination. Without failing writes it returns nil. -/
theorem C27_fullwrite (buf : Bytes) (w : Writer) (r : Option Err) (w' : Writer) (h : fullwrite buf w = (r, w')) :
    (r = none → w'.out = w.out ++ buf) ∧
    (∀ x, r = some x → (∃ k, w'.out = w.out ++ buf.take k) ∧ ∃ k, WEv.fail k x ∈ w.script) ∧
    ((∀ k x, WEv.fail k x ∉ w.script) → r = none) ∧ w'.closes = w.closes := by
  obtain ⟨w1, h1, _, h3, _⟩ := fullwrite_spec buf w
  rcases h3 with ⟨h5, h6⟩ | ⟨x, k, h5, h6, j, h7⟩
  · rw [h] at h5
    cases h5
    exact ⟨fun _ => h6, by simp, fun _ => rfl, h1⟩
  · rw [h] at h5
    cases h5
    exact ⟨by simp, by intro y hy; cases hy; exact ⟨⟨k, h6⟩, j, h7⟩, fun hn => absurd h7 (hn j x), h1⟩

/-- Three bytes at a time, then nothing, then a failure after two more bytes. -/
example : fullwrite [1, 2, 3, 4, 5, 6, 7, 8] { out := [9], script := [.short 3, .short 0, .fail 2 (.io 1)] } =
    (some (.io 1), { out := [9, 1, 2, 3, 4, 5], script := [] }) := by decide +kernel
example : fullwrite [1, 2, 3, 4, 5, 6, 7, 8] { out := [9], script := [.short 3, .short 0, .short 4] } =
    (none, { out := [9, 1, 2, 3, 4, 5, 6, 7, 8], script := [] }) := by decide +kernel

theorem openContainer_prefix (P : Prims) (h : Header) (key : Bytes) (cs : List Bytes) (hne : cs ≠ []) (tr : Bytes) :
    openContainer P h key cs.dropLast <+: container P h key cs tr := by
  rw [container_eq, openContainer]
  refine prefix_append_left (prefix_append_right _ ?_)
  conv => rhs; rw [← List.dropLast_append_getLast hne, sealedBody_snoc]
  exact List.prefix_append _ _

/-- **C27** (whole containers) For every reader and every schedule of writes: if `Encrypt` returns nil the complete
container was appended to the destination; if it returns an error, a prefix of the container was. (`h` and `trailer` are
those of the container layout, C05; the chunks are the reader's bytes cut into blocks.) -/
theorem C27_encrypt (P : Prims) (L : Laws P)
    (sender : Option PrivateKey)
    (blk : Nat) (c : EncCoins) (hc : c.WF) (rcpts : List (PublicKey × Bytes))
    (e : Encryptor) (he : setupEncryptor P sender blk c rcpts = .ok e)
    (rd : Reader) (wr : Writer) (coin : Bytes) (hcoin : coin.length = 64)
    (r : Res Unit) (e' : Encryptor) (rd' : Reader) (wr' : Writer) (h : e.encrypt P rd wr coin = (r, e', rd', wr')) :
    ∃ trailer, trailer.length = 64 ∧
      (r = .ok () → wr'.out = wr.out ++
        container P e.hdr c.key (encryptChunks (effectiveBlock blk) rd.content) trailer) ∧
      (∀ x, r = .err x → ∃ p, wr'.out = wr.out ++ p ∧
        p <+: container P e.hdr c.key (encryptChunks (effectiveBlock blk) rd.content) trailer) ∧
      (∀ x, r ≠ .panic x) := by
  obtain ⟨epk, ws, hs⟩ := setupEncryptor_ok P L sender blk c rcpts e hc he
  have hf := hs.fresh L
  have e4 : e.key = c.key := by rw [hs.enc]
  have e5 : e.hdr.chunkSize = effectiveBlock blk := by rw [hs.enc, ← chooseBlock_eq]
  obtain ⟨r1, e1, rd1, wr1, k1, k2, _⟩ := encrypt_outcome P L e rd wr coin hf
  rw [h] at k1
  cases k1
  refine ⟨e.trailerOf P (e.keys P).2.2 (macInput (encryptChunks e.hdr.chunkSize rd.content)) coin,
    trailerOf_len P L e hf.sender _ _ _ hcoin, ?_⟩
  rw [← e4, ← e5]
  cases k2 with
  | complete h1 h2 h3 h4 =>
    refine ⟨fun _ => h3, fun x _ => ⟨_, h3, List.prefix_refl _⟩, ?_⟩
    rw [h2]; split <;> simp
  | writeFailed h1 x h2 h3 p h4 h5 h6 =>
    subst h2
    exact ⟨by simp, fun _ _ => ⟨p, h4, h5⟩, by simp⟩
  | readFailed h1 x h2 h3 p h4 h5 h6 =>
    subst h2
    exact ⟨by simp, fun _ _ => ⟨p, h4, h5.trans (openContainer_prefix P _ _ _ (encryptChunks_ne_nil _ _) _)⟩, by simp⟩

/-- **C27** (stream writer) The same for `NewStreamWriter`, `Write`..., `Close`. -/
theorem C27_stream (P : Prims) (L : Laws P)
    (sender : Option PrivateKey)
    (blk : Nat) (c : EncCoins) (hc : c.WF) (rcpts : List (PublicKey × Bytes))
    (e : Encryptor) (he : setupEncryptor P sender blk c rcpts = .ok e)
    (bufs : List Bytes) (wr : Writer) (coin : Bytes) (hcoin : coin.length = 64)
    (r : Res Unit) (wr' : Writer) (h : streamEncrypt P e wr coin bufs = (r, wr')) :
    ∃ trailer, trailer.length = 64 ∧
      (r = .ok () → wr'.out = wr.out ++
        container P e.hdr c.key (streamChunks (effectiveBlock blk) bufs.flatten) trailer) ∧
      (∀ x, r = .err x → ∃ p, wr'.out = wr.out ++ p ∧
        p <+: container P e.hdr c.key (streamChunks (effectiveBlock blk) bufs.flatten) trailer) ∧
      (∀ x, r ≠ .panic x) := by
  obtain ⟨epk, ws, hs⟩ := setupEncryptor_ok P L sender blk c rcpts e hc he
  have hf := hs.fresh L
  have e4 : e.key = c.key := by rw [hs.enc]
  have e5 : e.hdr.chunkSize = effectiveBlock blk := by rw [hs.enc, ← chooseBlock_eq]
  refine ⟨e.trailerOf P (e.keys P).2.2 (macInput (streamChunks e.hdr.chunkSize bufs.flatten)) coin,
    trailerOf_len P L e hf.sender _ _ _ hcoin, ?_⟩
  rw [← e4, ← e5]
  rcases streamEncrypt_outcome P L e wr coin bufs hf with ⟨w1, g1, _, g3⟩ | ⟨x, w1, p, g1, g2, g3, g4, g5⟩
  · rw [h] at g1
    cases g1
    refine ⟨fun _ => g3, fun x _ => ⟨_, g3, List.prefix_refl _⟩, ?_⟩
    split <;> simp
  · rw [h] at g1
    cases g1
    exact ⟨by simp, fun _ _ => ⟨p, g3, g4⟩, by simp⟩

/-- The reader's three errors that the code takes for a regular end of the input. -/
def TakenForEnd (x : Err) : Prop := x = .eof ∨ x = .unexpectedEOF ∨ x = .closedPipe

theorem isEndOfInput_iff (x : Err) : isEndOfInput x = true ↔ TakenForEnd x := by
  simp [isEndOfInput, TakenForEnd]; tauto

/-- **C28**, the part that holds. If the reader fails with an error other than `io.EOF`, `io.ErrUnexpectedEOF` and
`io.ErrClosedPipe`, `Encrypt` returns an error, does not close the destination, and what it delivered is a prefix of header
and whole blocks of which *none* carries the end marker; without write failures it is exactly all full blocks read before
the failure, and the error wraps the reader's. Missing for the full property: `io.ErrUnexpectedEOF` and `io.ErrClosedPipe`
(see the refutation). -/
theorem C28_read_failure_partial (P : Prims) (L : Laws P)
    (sender : Option PrivateKey)
    (blk : Nat) (c : EncCoins) (hc : c.WF) (rcpts : List (PublicKey × Bytes))
    (e : Encryptor) (he : setupEncryptor P sender blk c rcpts = .ok e)
    (rd : Reader) (hlast : rd.last ≠ .eof ∧ rd.last ≠ .unexpectedEOF ∧ rd.last ≠ .closedPipe) (wr : Writer) (coin : Bytes)
    (r : Res Unit) (e' : Encryptor) (rd' : Reader) (wr' : Writer) (h : e.encrypt P rd wr coin = (r, e', rd', wr')) :
    (∃ x, r = .err x ∧ ((∀ k y, WEv.fail k y ∉ wr.script) → Err.is rd.last x = true)) ∧ wr'.closes = wr.closes ∧
    ∃ p, wr'.out = wr.out ++ p ∧
      p <+: headerPart e.hdr ++ P.sha256 (headerPart e.hdr) ++
        sealedMid P (sessionKeys P c.key (P.sha256 (headerPart e.hdr))).2.1
          (sessionKeys P c.key (P.sha256 (headerPart e.hdr))).1 0
          (encryptChunks (effectiveBlock blk) rd.content).dropLast := by
  obtain ⟨epk, ws, hs⟩ := setupEncryptor_ok P L sender blk c rcpts e hc he
  have hf := hs.fresh L
  have e4 : e.key = c.key := by rw [hs.enc]
  have e5 : e.hdr.chunkSize = effectiveBlock blk := by rw [hs.enc, ← chooseBlock_eq]
  have hnot : ¬ (isEndOfInput rd.last = true) := by
    rw [isEndOfInput_iff]; rintro (h1 | h1 | h1)
    · exact hlast.1 h1
    · exact hlast.2.1 h1
    · exact hlast.2.2 h1
  obtain ⟨r1, e1, rd1, wr1, k1, k2, _⟩ := encrypt_outcome P L e rd wr coin hf
  rw [h] at k1
  cases k1
  cases k2 with
  | complete h1 => exact absurd h1 hnot
  | writeFailed h1 => exact absurd h1 hnot
  | readFailed h1 x h2 h3 p h4 h5 h6 =>
    refine ⟨⟨x, h2, ?_⟩, h6, p, h4, ?_⟩
    · intro hn
      rcases h3 with ⟨s, j, y, h7, _⟩ | h7
      · exact absurd h7 (hn j y)
      · subst h7
        have : ∀ y : Err, Err.is y y = true := by intro y; cases y <;> simp [Err.is]
        simp only [Err.is, this, Bool.or_true]
    · rw [← e4, ← e5]; exact h5

/-- The network connection breaks after seven bytes: an error that is the reader's, nothing closed. -/
example : ∃ e x e' rd' wr', setupEncryptor toyPrims (some Demo.alice) 4 Demo.coins Demo.rcpts = .ok e ∧
    e.encrypt toyPrims ⟨[[1, 2, 3, 4, 5, 6, 7]], .io 5, false⟩ Demo.dest Demo.coin = (.err x, e', rd', wr') ∧
    Err.is (.io 5) x = true ∧ wr'.closes = 0 := by
  obtain ⟨e, he⟩ := Demo.setup
  rcases hh : e.encrypt toyPrims ⟨[[1, 2, 3, 4, 5, 6, 7]], .io 5, false⟩ Demo.dest Demo.coin with ⟨r, e', rd', wr'⟩
  obtain ⟨⟨x, h1, h2⟩, h3, _⟩ := C28_read_failure_partial toyPrims toyLaws _ 4 _ Demo.coins_wf _ e he
    ⟨[[1, 2, 3, 4, 5, 6, 7]], .io 5, false⟩ (by decide) Demo.dest Demo.coin _ _ _ _ hh
  exact ⟨e, x, e', rd', wr', he, by rw [hh, h1], h2 Demo.dest_noFail, h3⟩

/-- **C28**, refuted in general: a reader that breaks off with `io.ErrUnexpectedEOF` or `io.ErrClosedPipe` after any number
of bytes is taken for a complete one: for every session, every content so far and every destination without failures
`Encrypt` returns nil, and what it wrote is exactly the complete container of the truncated content - decrypting it gives
the truncated content without any error (C01). -/
theorem C28_broken_reader_refuted (P : Prims) (L : Laws P)
    (sender : Option PrivateKey)
    (blk : Nat) (c : EncCoins) (hc : c.WF) (rcpts : List (PublicKey × Bytes))
    (e : Encryptor) (he : setupEncryptor P sender blk c rcpts = .ok e)
    (rd : Reader) (hlast : rd.last = .unexpectedEOF ∨ rd.last = .closedPipe) (wr : Writer) (coin : Bytes)
    (hwr : wr.NoFail) (hcl : wr.closeErr = none) :
    ∃ e' rd' wr', e.encrypt P rd wr coin = (.ok (), e', rd', wr') ∧ wr'.closes = wr.closes + 1 ∧
      ∃ e2 rd2 wr2, e.encrypt P { rd with last := .eof } wr coin = (.ok (), e2, rd2, wr2) ∧ wr2.out = wr'.out := by
  obtain ⟨epk, ws, hs⟩ := setupEncryptor_ok P L sender blk c rcpts e hc he
  have hf := hs.fresh L
  have hend : isEndOfInput rd.last = true := by
    rw [isEndOfInput_iff]; rcases hlast with h | h <;> simp [TakenForEnd, h]
  obtain ⟨e', rd', wr', h1, h2, _, h4⟩ := encrypt_fresh P L e rd wr coin hf hwr hend
  obtain ⟨e2, rd2, wr2, g1, _, _, g4⟩ := encrypt_fresh P L e { rd with last := .eof } wr coin hf hwr rfl
  rw [hcl] at h1 g1
  exact ⟨e', rd', wr', h1, h2, e2, rd2, wr2, g1, by rw [g4, h4]; rfl⟩

/-- A pipe whose writing end died after seven bytes. -/
example : ∃ e e' rd' wr', setupEncryptor toyPrims (some Demo.alice) 4 Demo.coins Demo.rcpts = .ok e ∧
    e.encrypt toyPrims ⟨[[1, 2, 3, 4, 5, 6, 7]], .closedPipe, false⟩ Demo.dest Demo.coin = (.ok (), e', rd', wr') := by
  obtain ⟨e, he⟩ := Demo.setup
  obtain ⟨e', rd', wr', h, _⟩ := C28_broken_reader_refuted toyPrims toyLaws _ 4 _ Demo.coins_wf _ e he
    ⟨[[1, 2, 3, 4, 5, 6, 7]], .closedPipe, false⟩ (Or.inr rfl) Demo.dest Demo.coin Demo.dest_noFail rfl
  exact ⟨e, e', rd', wr', he, h⟩

/-- **C29** For every reader and destination, exactly one of two things happens: either the whole container including its
trailer was delivered, the destination was closed exactly once and `Encrypt` returns what `Close` returned; or `Encrypt`
returns an error and did not close the destination. -/
theorem C29_close_once (P : Prims) (L : Laws P)
    (sender : Option PrivateKey)
    (blk : Nat) (c : EncCoins) (hc : c.WF) (rcpts : List (PublicKey × Bytes))
    (e : Encryptor) (he : setupEncryptor P sender blk c rcpts = .ok e)
    (rd : Reader) (wr : Writer) (coin : Bytes) (hcoin : coin.length = 64)
    (r : Res Unit) (e' : Encryptor) (rd' : Reader) (wr' : Writer) (h : e.encrypt P rd wr coin = (r, e', rd', wr')) :
    (wr'.closes = wr.closes + 1 ∧ (r = match wr.closeErr with | none => .ok () | some x => .err x) ∧
      ∃ trailer, trailer.length = 64 ∧
        wr'.out = wr.out ++ container P e.hdr c.key (encryptChunks (effectiveBlock blk) rd.content) trailer) ∨
    (wr'.closes = wr.closes ∧ ∃ x, r = .err x) := by
  obtain ⟨epk, ws, hs⟩ := setupEncryptor_ok P L sender blk c rcpts e hc he
  have hf := hs.fresh L
  have e4 : e.key = c.key := by rw [hs.enc]
  have e5 : e.hdr.chunkSize = effectiveBlock blk := by rw [hs.enc, ← chooseBlock_eq]
  obtain ⟨r1, e1, rd1, wr1, k1, k2, _⟩ := encrypt_outcome P L e rd wr coin hf
  rw [h] at k1
  cases k1
  cases k2 with
  | complete h1 h2 h3 h4 =>
    refine Or.inl ⟨h4, h2, _, ?_, by rw [← e4, ← e5]; exact h3⟩
    exact trailerOf_len P L e hf.sender _ _ _ hcoin
  | writeFailed h1 x h2 h3 p h4 h5 h6 => exact Or.inr ⟨h6, x, h2⟩
  | readFailed h1 x h2 h3 p h4 h5 h6 => exact Or.inr ⟨h6, x, h2⟩

/-- **C29** (stream writer) The same for the `Close` of a stream writer in a session without failed calls before it, and a
session with a failed call never closes the destination. -/
theorem C29_stream_close_once (P : Prims) (L : Laws P)
    (sender : Option PrivateKey)
    (blk : Nat) (c : EncCoins) (hc : c.WF) (rcpts : List (PublicKey × Bytes))
    (e : Encryptor) (he : setupEncryptor P sender blk c rcpts = .ok e)
    (bufs : List Bytes) (wr : Writer) (coin : Bytes) (hcoin : coin.length = 64)
    (r : Res Unit) (wr' : Writer) (h : streamEncrypt P e wr coin bufs = (r, wr')) :
    (wr'.closes = wr.closes + 1 ∧ (r = match wr.closeErr with | none => .ok () | some x => .err x) ∧
      ∃ trailer, trailer.length = 64 ∧
        wr'.out = wr.out ++ container P e.hdr c.key (streamChunks (effectiveBlock blk) bufs.flatten) trailer) ∨
    (wr'.closes = wr.closes ∧ ∃ x, r = .err x) := by
  obtain ⟨epk, ws, hs⟩ := setupEncryptor_ok P L sender blk c rcpts e hc he
  have hf := hs.fresh L
  have e4 : e.key = c.key := by rw [hs.enc]
  have e5 : e.hdr.chunkSize = effectiveBlock blk := by rw [hs.enc, ← chooseBlock_eq]
  rcases streamEncrypt_outcome P L e wr coin bufs hf with ⟨w1, g1, g2, g3⟩ | ⟨x, w1, p, g1, g2, g3, g4, g5⟩
  · rw [h] at g1
    cases g1
    refine Or.inl ⟨g2, rfl, _, ?_, by rw [← e4, ← e5]; exact g3⟩
    exact trailerOf_len P L e hf.sender _ _ _ hcoin
  · rw [h] at g1
    cases g1
    exact Or.inr ⟨g5, x, rfl⟩

/-- Both cases occur: a destination whose `Close` fails (disk full on flush), and one whose `Write` fails. -/
example : ∃ e e' rd' wr' e2 rd2 wr2 x, setupEncryptor toyPrims (some Demo.alice) 4 Demo.coins Demo.rcpts = .ok e ∧
    e.encrypt toyPrims Demo.input { script := [.short 3], closeErr := some (.io 9) } Demo.coin =
      (.err (.io 9), e', rd', wr') ∧ wr'.closes = 1 ∧
    e.encrypt toyPrims Demo.input { script := [.fail 0 (.io 9)] } Demo.coin = (.err x, e2, rd2, wr2) ∧ wr2.closes = 0 := by
  obtain ⟨e, he⟩ := Demo.setup
  obtain ⟨epk, ws, hs⟩ := setupEncryptor_ok toyPrims toyLaws _ _ _ _ e Demo.coins_wf he
  have hf := hs.fresh toyLaws
  obtain ⟨e', rd', wr', h1, h2, _⟩ := encrypt_fresh toyPrims toyLaws e Demo.input
    { script := [.short 3], closeErr := some (.io 9) } Demo.coin hf (by intro k e; simp) rfl
  have hst : ∃ e2, e.start toyPrims { script := [.fail 0 (.io 9)] } = (.err (.wrap "encrypt" (.io 9)), e2, {}) := by
    refine ⟨{ e with nonce := (e.keys toyPrims).1, ae := some (e.keys toyPrims).2.1 }, ?_⟩
    unfold Encryptor.start
    simp only [Proto.header_marshal_eq _ hf.clean, start_pre e hf.clean, dataKeys_eq]
    have : (headerPart e.hdr ++ toyPrims.sha256 (headerPart e.hdr)).length ≠ 0 := by simp [headerPart, ascii]
    unfold fullwrite fullwriteLoop
    simp only [this, if_false]
    rfl
  obtain ⟨e2, hst⟩ := hst
  refine ⟨e, e', rd', wr', e2, Demo.input, {}, .wrap "encrypt" (.io 9), he, h1, h2, ?_, rfl⟩
  unfold Encryptor.encrypt
  simp only [hf.stream, hf.started, Bool.false_eq_true, if_false, hst]

end Sigtool
