import Verif.StreamLemmas
import Verif.Props.RoundTrip
/-!
# C02, C03, C05 (stream part), C21: the stream writer
-/

namespace Sigtool
open Spec (encryptChunks streamChunks lengthWord sealedChunk sealedBody macInput headerPart sessionKeys container
  headerBytes wrappingKey wrapFor unwrapAs WrapForgery SessionHeader)

/-- Everything that `NewStreamWriter`, `Write`..., `Close` on a fresh encryptor can do. -/
theorem streamEncrypt_outcome (P : Prims) (L : Laws P) (e : Encryptor) (wr : Writer) (coin : Bytes) (bufs : List Bytes)
    (hf : e.Fresh P) :
    (∃ wr', streamEncrypt P e wr coin bufs = ((match wr.closeErr with | none => .ok () | some x => .err x), wr') ∧
      wr'.closes = wr.closes + 1 ∧
      wr'.out = wr.out ++ e.fullContainer P (streamChunks e.hdr.chunkSize bufs.flatten) coin) ∨
    (∃ x wr' p, streamEncrypt P e wr coin bufs = (.err x, wr') ∧ WriteErr wr x ∧ wr'.out = wr.out ++ p ∧
      p <+: e.fullContainer P (streamChunks e.hdr.chunkSize bufs.flatten) coin ∧ wr'.closes = wr.closes) := by
  unfold streamEncrypt Encryptor.newStreamWriter
  simp only [hf.started, Bool.false_eq_true, if_false]
  rcases start_step P e wr hf.clean with ⟨wr1, h1, h2⟩ | ⟨x, e1, wr1, p, h1, h2, h3, h4, _⟩
  · rw [h1]
    dsimp only
    have hr := afterStart_ready P L e hf.chunkMax
    have hr' : ({ e.afterStart P with stream := true } : Encryptor).Ready _ _ [] :=
      ⟨hr.ae, hr.hmac, hr.buf, hr.chunk, hr.key, hr.nonce⟩
    rcases writeAll_ok P L { e.afterStart P with stream := true } wr1 _ _ coin hr' hf.sender hf.chunkPos bufs [] _ _
      (StreamInv.init P _ wr1 _ _ hr') with ⟨e2, w2, g1, g2, g3, g4, g5⟩ | ⟨x, e2, w2, p, g1, g2, g3, g4, ⟨s, j, y, g5, g6⟩, g7⟩
    · left
      rw [h2.closeErr] at g1
      refine ⟨w2.wr, by rw [g1]; cases wr.closeErr <;> rfl, by rw [g3, h2.closes], ?_⟩
      rw [g4, h2.out, Encryptor.fullContainer, container_eq]
      simp [Encryptor.afterStart, Encryptor.trailerOf]
    · right
      refine ⟨x, w2.wr, _, by rw [g1], ⟨s, j, y, h2.mem g5, g6⟩, (h2.trans g3).out, ?_, (h2.trans g3).closes⟩
      rw [Encryptor.fullContainer, container_eq]
      refine prefix_append_left ?_
      simpa [Encryptor.afterStart, Encryptor.trailerOf] using g4
  · rw [h1]
    right
    refine ⟨x, wr1, p, rfl, h4, h2.out, ?_, h2.closes⟩
    rw [Encryptor.fullContainer, container_eq]; exact prefix_append_right _ h3

theorem streamEncrypt_ok (P : Prims) (L : Laws P) (e : Encryptor) (wr : Writer) (coin : Bytes) (bufs : List Bytes)
    (hf : e.Fresh P) (wr' : Writer) (h : streamEncrypt P e wr coin bufs = (.ok (), wr')) :
    wr'.out = wr.out ++ e.fullContainer P (streamChunks e.hdr.chunkSize bufs.flatten) coin ∧
    wr'.closes = wr.closes + 1 := by
  rcases streamEncrypt_outcome P L e wr coin bufs hf with ⟨w1, g1, g2, g3⟩ | ⟨x, w1, p, g1, _⟩
  · rw [g1] at h
    have := (Prod.mk.inj h).2
    subst this
    exact ⟨g3, g2⟩
  · rw [g1] at h; cases (Prod.mk.inj h).1

/-- **C02** For every sender (or none), block size 0..2^30-1, random bytes, list of at most 15885 recipients, and every
list of buffers: if `NewStreamWriter`, every `Write` and `Close` return nil (each `Write` with `n = len(b)`; that is what
`streamEncrypt ... = .ok ()` says), then for the key pair of any listed recipient, any re-delivery of the produced bytes
and any destination without failing writes, `NewDecryptor`, `SetPrivateKey` and `Decrypt` succeed and write exactly the
concatenation of the buffers - or a key wrapped for a different recipient opens under this one's key. -/
theorem C02_stream_decrypt (P : Prims) (L : Laws P)
    (sender : Option PrivateKey) (hsender : ∀ s, sender = some s → s.Genuine P)
    (blk : Nat) (hblk : blk < 2^30) (c : EncCoins) (hc : c.WF)
    (rcpts : List (PublicKey × Bytes)) (hr : ∀ r ∈ rcpts, r.2.length = 12) (hcount : rcpts.length ≤ 15885)
    (e : Encryptor) (he : setupEncryptor P sender blk c rcpts = .ok e)
    (bufs : List Bytes) (wr : Writer) (hwr : wr.out = []) (coin : Bytes) (hcoin : coin.length = 64)
    (wr' : Writer) (henc : streamEncrypt P e wr coin bufs = (.ok (), wr'))
    (sk : PrivateKey) (seed : Bytes) (hseed : seed.length = 32)
    (hsk : sk.sk = seed ++ P.edPub seed) (hpk : sk.pub.pk = P.edPub seed)
    (hmem : ∃ r ∈ rcpts, r.1.pk = sk.pub.pk)
    (spk : Option PublicKey) (hspk : ∀ s, sender = some s → ∃ p, spk = some p ∧ p.pk = s.pub.pk)
    (rd2 : Reader) (junk : Bytes) (hrd2 : rd2.content = wr'.out ++ junk) (out : Writer) (hout : out.NoFail) :
    (∃ r ∈ rcpts, WrapForgery P (clamp c.csk) c.salt c.key r.1.pk r.2 seed) ∨
    ∃ d d' out', setupDecryptor P rd2 sk spk = .ok d ∧ d.decrypt P out = (.ok (), d', out') ∧
      out'.out = out.out ++ bufs.flatten := by
  obtain ⟨epk, ws, hs⟩ := setupEncryptor_ok P L sender blk c rcpts e hc he
  have hf := hs.fresh L
  obtain ⟨h1, _⟩ := streamEncrypt_ok P L e wr coin bufs hf wr' henc
  obtain ⟨v, hv1, hv2, hv3⟩ := headerBytes_len P L sender blk c rcpts e epk ws hc hr hs
  have hbody : rd2.content = headerPart e.hdr ++ P.sha256 (headerPart e.hdr) ++
      (sealedBody P (e.keys P).2.1 (e.keys P).1 0 (streamChunks e.hdr.chunkSize bufs.flatten) ++
        (e.trailerOf P (e.keys P).2.2 (macInput (streamChunks e.hdr.chunkSize bufs.flatten)) coin ++ junk)) := by
    rw [hrd2, h1, hwr, Encryptor.fullContainer, container_eq]; simp
  rcases setup_opens P L sender blk c rcpts e epk ws hc hsender hr hs (chooseBlock_lt blk hblk) (by omega) sk seed hseed
    hsk hpk (by rw [← hpk]; exact hmem) spk hspk rd2 _ hbody with g | ⟨d, g1, g2⟩
  · exact Or.inl g
  · right
    obtain ⟨k1, k2, _⟩ := streamChunks_ok e.hdr.chunkSize hf.chunkPos bufs.flatten
    obtain ⟨d', out', m1, m2, _⟩ := opened_decrypts L hs hsender hspk _ coin junk hcoin k1 g2 out hout
    exact ⟨d, d', out', g1, m1, by rw [m2, k2]⟩

/-- **C02**, progress: for real recipient keys and a destination that does not fail, every call succeeds, and every
`Write` returns the length of its buffer. -/
theorem C02_stream_succeeds (P : Prims) (L : Laws P)
    (sender : Option PrivateKey) (hsender : ∀ s, sender = some s → s.Genuine P)
    (blk : Nat) (c : EncCoins) (hc : c.WF) (rcpts : List (PublicKey × Bytes)) (hr : ∀ r ∈ rcpts, RealPK P r.1.pk)
    (bufs : List Bytes) (wr : Writer) (hwr : wr.NoFail) (hcl : wr.closeErr = none) (coin : Bytes) :
    ∃ e wr', setupEncryptor P sender blk c rcpts = .ok e ∧ streamEncrypt P e wr coin bufs = (.ok (), wr') := by
  obtain ⟨e, he⟩ := setupEncryptor_progress P L sender blk c rcpts hc (SenderGenuine.sized L hsender) hr
  obtain ⟨epk, ws, hs⟩ := setupEncryptor_ok P L sender blk c rcpts e hc he
  rcases streamEncrypt_outcome P L e wr coin bufs (hs.fresh L) with ⟨wr', h1, _⟩ | ⟨x, _, _, _, ⟨s, j, y, h2, _⟩, _⟩
  · rw [hcl] at h1; exact ⟨e, wr', he, h1⟩
  · exact absurd h2 (hwr j y)

/-- Carol reads what was written to the stream in four pieces, one of them empty. -/
example : ∃ e wr' d d' out',
    setupEncryptor toyPrims (some Demo.alice) 4 Demo.coins Demo.rcpts = .ok e ∧
    streamEncrypt toyPrims e Demo.dest Demo.coin [[1, 2, 3], [], [4, 5, 6, 7, 8, 9], [10]] = (.ok (), wr') ∧
    setupDecryptor toyPrims ⟨[wr'.out], .eof, false⟩ Demo.carol (some Demo.alice.pub) = .ok d ∧
    d.decrypt toyPrims Demo.dest = (.ok (), d', out') ∧ out'.out = [1, 2, 3, 4, 5, 6, 7, 8, 9, 10] := by
  obtain ⟨e, wr', h1, h2⟩ := C02_stream_succeeds toyPrims toyLaws (some Demo.alice) Demo.sender_genuine 4 Demo.coins
    Demo.coins_wf Demo.rcpts Demo.rcpts_real [[1, 2, 3], [], [4, 5, 6, 7, 8, 9], [10]] Demo.dest Demo.dest_noFail rfl
    Demo.coin
  rcases C02_stream_decrypt toyPrims toyLaws (some Demo.alice) Demo.sender_genuine 4 (by decide) Demo.coins Demo.coins_wf
    Demo.rcpts Demo.rcpts_len (by decide) e h1 _ Demo.dest rfl Demo.coin Demo.coin_len wr' h2
    Demo.carol (List.replicate 32 3) (by simp) rfl rfl ⟨(Demo.carol.pub, List.replicate 12 5), by simp [Demo.rcpts], rfl⟩
    (some Demo.alice.pub) (by intro s hs; cases hs; exact ⟨_, rfl, rfl⟩) ⟨[wr'.out], .eof, false⟩ []
    (by simp [Reader.content]) Demo.dest Demo.dest_noFail with g | ⟨d, d', out', g1, g2, g3⟩
  · exact absurd g Demo.no_forgery
  · exact ⟨e, wr', d, d', out', h1, h2, g1, g2, by rw [g3]; rfl⟩

/-- **C03** Two stream writers started from the same encryptor state (same keys, recipients, trailer randomness), each
with its own destination, that were given the same total bytes and whose calls all returned nil have written the same
container, however the bytes were cut into `Write` calls and however the destinations accept them. -/
theorem C03_split_independent (P : Prims) (L : Laws P)
    (sender : Option PrivateKey)
    (blk : Nat) (c : EncCoins) (hc : c.WF) (rcpts : List (PublicKey × Bytes))
    (e : Encryptor) (he : setupEncryptor P sender blk c rcpts = .ok e) (coin : Bytes)
    (bufs1 bufs2 : List Bytes) (hsame : bufs1.flatten = bufs2.flatten)
    (wr1 wr2 wr1' wr2' : Writer) (hw : wr1.out = wr2.out)
    (h1 : streamEncrypt P e wr1 coin bufs1 = (.ok (), wr1')) (h2 : streamEncrypt P e wr2 coin bufs2 = (.ok (), wr2')) :
    wr1'.out = wr2'.out := by
  obtain ⟨epk, ws, hs⟩ := setupEncryptor_ok P L sender blk c rcpts e hc he
  have hf := hs.fresh L
  rw [(streamEncrypt_ok P L e wr1 coin bufs1 hf wr1' h1).1, (streamEncrypt_ok P L e wr2 coin bufs2 hf wr2' h2).1, hsame,
    hw]

/-- Byte by byte, or all at once. -/
example : ∃ e wr1' wr2', setupEncryptor toyPrims (some Demo.alice) 4 Demo.coins Demo.rcpts = .ok e ∧
    streamEncrypt toyPrims e Demo.dest Demo.coin [[1], [2], [3], [4], [5], [6], [7], [8]] = (.ok (), wr1') ∧
    streamEncrypt toyPrims e {} Demo.coin [[1, 2, 3, 4, 5, 6, 7, 8]] = (.ok (), wr2') ∧ wr1'.out = wr2'.out := by
  obtain ⟨e, wr1, h1, h2⟩ := C02_stream_succeeds toyPrims toyLaws (some Demo.alice) Demo.sender_genuine 4 Demo.coins
    Demo.coins_wf Demo.rcpts Demo.rcpts_real [[1], [2], [3], [4], [5], [6], [7], [8]] Demo.dest Demo.dest_noFail rfl
    Demo.coin
  obtain ⟨e2, wr2, h3, h4⟩ := C02_stream_succeeds toyPrims toyLaws (some Demo.alice) Demo.sender_genuine 4 Demo.coins
    Demo.coins_wf Demo.rcpts Demo.rcpts_real [[1, 2, 3, 4, 5, 6, 7, 8]] {} (by intro k e; simp) rfl
    Demo.coin
  have : e = e2 := Res.ok.inj (h1.symm.trans h3)
  subst this
  exact ⟨e, wr1, wr2, h1, h2, h4, C03_split_independent toyPrims toyLaws _ _ _ Demo.coins_wf _ e h1 _
    [[1], [2], [3], [4], [5], [6], [7], [8]] [[1, 2, 3, 4, 5, 6, 7, 8]] rfl Demo.dest {} _ _ rfl h2 h4⟩

/-- **C05** (stream writer) The same layout as for `Encrypt`, with the data cut by `Spec.streamChunks`. -/
theorem C05_stream_layout (P : Prims) (L : Laws P)
    (sender : Option PrivateKey)
    (blk : Nat) (c : EncCoins) (hc : c.WF) (rcpts : List (PublicKey × Bytes))
    (e : Encryptor) (he : setupEncryptor P sender blk c rcpts = .ok e)
    (bufs : List Bytes) (wr : Writer) (coin : Bytes) (hcoin : coin.length = 64)
    (wr' : Writer) (henc : streamEncrypt P e wr coin bufs = (.ok (), wr')) :
    ∃ h trailer,
      wr'.out = wr.out ++ container P h c.key (streamChunks (effectiveBlock blk) bufs.flatten) trailer ∧
      SessionHeader P sender blk c rcpts h ∧ h.pk.length = 32 ∧ h.sender.length = 80 ∧
      trailer.length = 64 ∧
      (sender = none → trailer = coin) ∧
      (∀ s, sender = some s → trailer = P.edSign s.sk (P.sha512 (ascii "sigtool signed message" ++
        P.hmac256 (sessionKeys P c.key (P.sha256 (headerPart h))).2.2
          (macInput (streamChunks (effectiveBlock blk) bufs.flatten))))) := by
  obtain ⟨epk, ws, hs⟩ := setupEncryptor_ok P L sender blk c rcpts e hc he
  have hf := hs.fresh L
  obtain ⟨h1, _⟩ := streamEncrypt_ok P L e wr coin bufs hf wr' henc
  have e4 : e.key = c.key := by rw [hs.enc]
  have e5 : e.hdr.chunkSize = effectiveBlock blk := by rw [hs.enc, ← chooseBlock_eq]
  rw [Encryptor.fullContainer, e4, e5] at h1
  refine ⟨e.hdr, _, h1, hs.session, by rw [hs.enc]; exact hs.epkLen, ?_,
    trailerOf_len P L e hf.sender _ _ _ hcoin, ?_, ?_⟩
  · rw [hs.enc]; exact sender_len P L sender c epk hs.sized
  · rintro rfl
    have : e.auth = false := by rw [hs.enc]; rfl
    simp [Encryptor.trailerOf, this]
  · rintro s rfl
    have h2 : e.auth = true := by rw [hs.enc]; rfl
    have h3 : e.sender = some s := by rw [hs.enc]
    simp only [Encryptor.trailerOf, h2, h3, Encryptor.keys, e4]
    rfl

/-- **C05** (stream cutting) the pieces put together are the data; every piece but the last is a full block; the last is
empty only if there are no data, and is a full block exactly if the data are a non-zero multiple of the block size. -/
theorem C05_streamChunks_shape (bs : Nat) (h0 : 0 < bs) (pt : Bytes) :
    (streamChunks bs pt).flatten = pt ∧ ∃ full last, streamChunks bs pt = full ++ [last] ∧
      (∀ b ∈ full, b.length = bs) ∧ last.length ≤ bs ∧ (last = [] ↔ pt = []) ∧
      (last.length = bs ↔ pt ≠ [] ∧ bs ∣ pt.length) := by
  refine ⟨(streamChunks_ok bs h0 pt).2.1, ?_⟩
  induction hn : pt.length using Nat.strongRecOn generalizing pt with
  | _ n ih =>
    by_cases h : pt.length ≤ bs
    · refine ⟨[], pt, by rw [streamChunks_small _ _ h]; rfl, by simp, h, Iff.rfl, ?_⟩
      subst hn
      constructor
      · intro h1
        refine ⟨?_, by rw [h1]⟩
        rintro rfl
        simp at h1; omega
      · rintro ⟨h1, h2⟩
        exact Nat.le_antisymm h (Nat.le_of_dvd (List.length_pos_iff.mpr h1) h2)
    · obtain ⟨full, last, h1, h2, h3, h4, h5⟩ := ih (pt.drop bs).length (by simp; omega) (pt.drop bs) rfl
      have hlen : (pt.drop bs).length = pt.length - bs := by simp
      have hne : pt.drop bs ≠ [] := by
        intro h6; rw [h6] at hlen; simp at hlen; omega
      have hne' : pt ≠ [] := by rintro rfl; simp at h
      refine ⟨pt.take bs :: full, last, by rw [streamChunks_big _ _ h0 (by omega), h1]; rfl, ?_, h3, ?_, ?_⟩
      · intro b hb
        rcases List.mem_cons.mp hb with rfl | hb
        · simp; omega
        · exact h2 b hb
      · rw [h4]; simp [hne, hne']
      · rw [h5, hlen, ← hn]
        simp only [hne, hne', ne_eq, not_false_eq_true, true_and]
        constructor
        · intro h6
          have := Nat.dvd_add h6 (Nat.dvd_refl bs)
          rwa [Nat.sub_add_cancel (by omega)] at this
        · intro h6; exact Nat.dvd_sub h6 (Nat.dvd_refl bs)

example : streamChunks 4 [1, 2, 3, 4, 5, 6, 7, 8] = [[1, 2, 3, 4], [5, 6, 7, 8]] := by
  rw [streamChunks_big _ _ (by decide) (by decide), streamChunks_small _ _ (by decide)]
  rfl

/-! ### C21 -/

/-- One method call on a stream writer: `Write(b)` or `Close()` (with the random bytes it would draw). -/
inductive WOp where
  | write (b : Bytes)
  | close (coin : Bytes)
deriving DecidableEq, Repr

/-- Run one call; the error it returned (`none` for nil), and what `n` was. -/
def WOp.run (P : Prims) (e : Encryptor) (w : EncWriter) : WOp → Res Unit × Encryptor × EncWriter
  | .write b => match w.write P e b with
    | (.ok _, e, w) => (.ok (), e, w)
    | (.err x, e, w) => (.err x, e, w)
    | (.panic x, e, w) => (.panic x, e, w)
  | .close coin => w.close P e coin

/-- Run a sequence of calls, collecting the results. -/
def WOp.runAll (P : Prims) : Encryptor → EncWriter → List WOp → List (Res Unit) × Encryptor × EncWriter
  | e, w, [] => ([], e, w)
  | e, w, o :: os =>
    match o.run P e w with
    | (r, e, w) => let (rs, e, w) := WOp.runAll P e w os; (r :: rs, e, w)

theorem run_err (P : Prims) (e : Encryptor) (w : EncWriter) (x : Err) (h : w.err = some x) (o : WOp) :
    o.run P e w = (.err x, e, w) := by
  cases o <;> simp [WOp.run, EncWriter.write, EncWriter.close, h]

theorem runAll_err (P : Prims) (e : Encryptor) (w : EncWriter) (x : Err) (h : w.err = some x) (os : List WOp) :
    WOp.runAll P e w os = (List.replicate os.length (.err x), e, w) := by
  induction os with
  | nil => rfl
  | cons o os ih => simp [WOp.runAll, run_err P e w x h, ih, List.replicate_succ]

/-- **C21** For every state of a stream writer and its encryptor: if a `Write` failed with `x`, or a `Close` returned
anything at all, then every later call returns one and the same non-nil error - `x` itself after a failure, `ErrClosed`
after a `Close` that sealed the last chunk - and changes neither the destination (no byte written, not closed) nor the
encryptor. The destination's own close error is returned once, by that `Close`. -/
theorem C21_sticky (P : Prims) (e e' : Encryptor) (w w' : EncWriter) (o : WOp) (r : Res Unit)
    (h : o.run P e w = (r, e', w')) (hp : r.isPanic = false) (hstop : (∃ x, r = .err x) ∨ ∃ coin, o = .close coin)
    (later : List WOp) :
    ∃ y, WOp.runAll P e' w' later = (List.replicate later.length (.err y), e', w') ∧
      (y = .closed ∨ r = .err y) ∧ ((∃ b, o = .write b) → r = .err y) := by
  suffices hs : ∃ y, w'.err = some y ∧ (y = .closed ∨ r = .err y) ∧ ((∃ b, o = .write b) → r = .err y) by
    obtain ⟨y, h1, h2, h3⟩ := hs
    exact ⟨y, runAll_err P e' w' y h1 later, h2, h3⟩
  cases o with
  | write b =>
    rcases hstop with ⟨x, rfl⟩ | ⟨coin, h1⟩
    · simp only [WOp.run, EncWriter.write] at h
      cases hw : w.err with
      | some y =>
        rw [hw] at h
        cases h
        exact ⟨_, hw, Or.inr rfl, fun _ => rfl⟩
      | none =>
        rw [hw] at h
        dsimp only at h
        split at h
        · rename_i h1
          split at h1
          · cases h1; cases h
          · split at h1 <;> cases h1
            cases h
        · rename_i h1
          split at h1
          · cases h1
          · split at h1 <;> cases h1
            rename_i h2
            cases h
            exact ⟨_, writeLoop_err P _ _ _ _ _ _ _ h2, Or.inr rfl, fun _ => rfl⟩
        · cases h
    · cases h1
  | close coin =>
    simp only [WOp.run, EncWriter.close] at h
    cases hw : w.err with
    | some y =>
      rw [hw] at h
      cases h
      exact ⟨_, hw, Or.inr rfl, fun ⟨_, h⟩ => by cases h⟩
    | none =>
      rw [hw] at h
      dsimp only at h
      split at h
      · cases h
        exact ⟨_, rfl, Or.inr rfl, fun ⟨_, h⟩ => by cases h⟩
      · cases h; cases hp
      · split at h <;> cases h
        · exact ⟨_, rfl, Or.inl rfl, fun ⟨_, h⟩ => by cases h⟩
        · exact ⟨_, rfl, Or.inl rfl, fun ⟨_, h⟩ => by cases h⟩

/-- A started encryptor with block size 2, for the examples. -/
def Demo.running : Encryptor :=
  { hdr := { chunkSize := 2 }, key := List.replicate 32 8, encSK := [], sender := none, auth := false
    nonce := List.replicate 12 1, ae := some (List.replicate 32 2), hmac := some (List.replicate 32 3, [])
    bufLen := 22, started := true, stream := true }

/-- The destination fails with an I/O error in the first `Write`: the same error comes back twice more although the
destination would work again. -/
example : (WOp.runAll toyPrims Demo.running { wr := { script := [.short 3, .fail 2 (.io 7)] } }
    [.write [1, 2, 3], .write [4], .close []]).1 =
      [.err (.wrap "encrypt" (.io 7)), .err (.wrap "encrypt" (.io 7)), .err (.wrap "encrypt" (.io 7))] := by
  decide +kernel

/-- After a successful `Close`: `ErrClosed`. -/
example : (WOp.runAll toyPrims Demo.running { wr := {} }
    [.write [1, 2, 3], .close (List.replicate 64 0), .write [4], .close []]).1 =
      [.ok (), .ok (), .err .closed, .err .closed] := by
  decide +kernel

end Sigtool
