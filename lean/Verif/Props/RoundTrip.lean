import Verif.Demo
import Verif.Spec.Session
/-!
# C01, C05, C06, C07: what `Encrypt` writes, and that `Decrypt` reads it back
-/

namespace Sigtool
open Spec (encryptChunks streamChunks lengthWord sealedChunk sealedBody macInput headerPart sessionKeys container
  headerBytes wrappingKey wrapFor unwrapAs WrapForgery SessionHeader)

/-- **C01** For every sender (or none), block size 0..2^30-1, random bytes, list of at most 15885 recipients, input
delivered in any pieces and ending in any way, and any destination: if the set-up calls and `Encrypt` return nil, then
for the key pair of any listed recipient, any re-delivery of the produced bytes (followed by anything) and any
destination without failing writes, `NewDecryptor`, `SetPrivateKey` and `Decrypt` succeed and `Decrypt` writes exactly
the input - or a root key wrapped for a different recipient opens under this recipient's key (an AEAD forgery). -/
theorem C01_encrypt_decrypt (P : Prims) (L : Laws P)
    (sender : Option PrivateKey) (hsender : ∀ s, sender = some s → s.Genuine P)
    (blk : Nat) (hblk : blk < 2^30) (c : EncCoins) (hc : c.WF)
    (rcpts : List (PublicKey × Bytes)) (hr : ∀ r ∈ rcpts, r.2.length = 12) (hcount : rcpts.length ≤ 15885)
    (e : Encryptor) (he : setupEncryptor P sender blk c rcpts = .ok e)
    (rd : Reader) (wr : Writer) (hwr : wr.out = []) (coin : Bytes) (hcoin : coin.length = 64)
    (e' : Encryptor) (rd' : Reader) (wr' : Writer) (henc : e.encrypt P rd wr coin = (.ok (), e', rd', wr'))
    (sk : PrivateKey) (seed : Bytes) (hseed : seed.length = 32)
    (hsk : sk.sk = seed ++ P.edPub seed) (hpk : sk.pub.pk = P.edPub seed)
    (hmem : ∃ r ∈ rcpts, r.1.pk = sk.pub.pk)
    (spk : Option PublicKey) (hspk : ∀ s, sender = some s → ∃ p, spk = some p ∧ p.pk = s.pub.pk)
    (rd2 : Reader) (junk : Bytes) (hrd2 : rd2.content = wr'.out ++ junk) (out : Writer) (hout : out.NoFail) :
    (∃ r ∈ rcpts, WrapForgery P (clamp c.csk) c.salt c.key r.1.pk r.2 seed) ∨
    ∃ d d' out', setupDecryptor P rd2 sk spk = .ok d ∧ d.decrypt P out = (.ok (), d', out') ∧
      out'.out = out.out ++ rd.content := by
  obtain ⟨epk, ws, hs⟩ := setupEncryptor_ok P L sender blk c rcpts e hc he
  have hf := hs.fresh L
  obtain ⟨h1, _, _⟩ := encrypt_ok P L e rd wr coin hf e' rd' wr' henc
  obtain ⟨v, hv1, hv2, hv3⟩ := headerBytes_len P L sender blk c rcpts e epk ws hc hr hs
  have hbody : rd2.content = headerPart e.hdr ++ P.sha256 (headerPart e.hdr) ++
      (sealedBody P (e.keys P).2.1 (e.keys P).1 0 (encryptChunks e.hdr.chunkSize rd.content) ++
        (e.trailerOf P (e.keys P).2.2 (macInput (encryptChunks e.hdr.chunkSize rd.content)) coin ++ junk)) := by
    rw [hrd2, h1, hwr, Encryptor.fullContainer, container_eq]; simp
  rcases setup_opens P L sender blk c rcpts e epk ws hc hsender hr hs (chooseBlock_lt blk hblk) (by omega) sk seed hseed
    hsk hpk (by rw [← hpk]; exact hmem) spk hspk rd2 _ hbody with g | ⟨d, g1, g2⟩
  · exact Or.inl g
  · right
    obtain ⟨k1, k2, _⟩ := encryptChunks_ok e.hdr.chunkSize hf.chunkPos rd.content
    obtain ⟨d', out', m1, m2, _⟩ := opened_decrypts L hs hsender hspk _ coin junk hcoin k1 g2 out hout
    exact ⟨d, d', out', g1, m1, by rw [m2, k2]⟩

/-- **C01**, progress: for recipients that are real public keys and a destination that does not fail, `NewEncryptor`,
`AddRecipient` and `Encrypt` all succeed, so the hypotheses of `C01_encrypt_decrypt` are always reachable. -/
theorem C01_encrypt_succeeds (P : Prims) (L : Laws P)
    (sender : Option PrivateKey) (hsender : ∀ s, sender = some s → s.Genuine P)
    (blk : Nat) (c : EncCoins) (hc : c.WF) (rcpts : List (PublicKey × Bytes)) (hr : ∀ r ∈ rcpts, RealPK P r.1.pk)
    (rd : Reader) (hrd : rd.last = .eof) (wr : Writer) (hwr : wr.NoFail) (hcl : wr.closeErr = none) (coin : Bytes) :
    ∃ e e' rd' wr', setupEncryptor P sender blk c rcpts = .ok e ∧ e.encrypt P rd wr coin = (.ok (), e', rd', wr') := by
  obtain ⟨e, he⟩ := setupEncryptor_progress P L sender blk c rcpts hc (SenderGenuine.sized L hsender) hr
  obtain ⟨epk, ws, hs⟩ := setupEncryptor_ok P L sender blk c rcpts e hc he
  obtain ⟨e', rd', wr', h1, _⟩ := encrypt_fresh P L e rd wr coin (hs.fresh L) hwr (by rw [hrd]; rfl)
  rw [hcl] at h1
  exact ⟨e, e', rd', wr', he, h1⟩

/-- The wrapped key for Bob does not open for Carol in the demo, so the second alternative of C01 is what happens. -/
theorem Demo.no_forgery : ¬ ∃ r ∈ Demo.rcpts,
    WrapForgery toyPrims (clamp Demo.coins.csk) Demo.coins.salt Demo.coins.key r.1.pk r.2 (List.replicate 32 3) := by
  rintro ⟨r, hr, hne, epk, w, k, h1, h2, h3⟩
  simp only [Demo.rcpts, List.mem_cons, List.not_mem_nil, or_false] at hr
  rcases hr with rfl | rfl
  · have e1 : epk = List.replicate 32 5 := by
      have h := h1.symm
      simp only [toyPrims] at h
      rw [if_pos (by decide)] at h
      exact Option.some.inj h
    subst e1
    have e2 : w = ⟨List.replicate 32 8 ++ toyTag (wrappingKey toyPrims (List.replicate 32 5) (List.replicate 32 9)
        (List.replicate 12 4)).1 (wrappingKey toyPrims (List.replicate 32 5) (List.replicate 32 9)
        (List.replicate 12 4)).2 (List.replicate 32 8) Demo.bob.pub.pk, List.replicate 12 4, []⟩ := by
      have := Option.some.inj h2
      exact this.symm
    subst e2
    have h4 : (unwrapAs toyPrims (List.replicate 32 3) (toyPrims.edPub (List.replicate 32 3)) (List.replicate 32 5)
      Demo.coins.salt ⟨List.replicate 32 8 ++ toyTag (wrappingKey toyPrims (List.replicate 32 5) (List.replicate 32 9)
        (List.replicate 12 4)).1 (wrappingKey toyPrims (List.replicate 32 5) (List.replicate 32 9)
        (List.replicate 12 4)).2 (List.replicate 32 8) Demo.bob.pub.pk, List.replicate 12 4, []⟩).isNone = true := by
      decide +kernel
    rw [h3] at h4
    cases h4
  · exact hne rfl

/-- Carol reads the demo container. -/
example : ∃ e e' rd' wr' d d' out',
    setupEncryptor toyPrims (some Demo.alice) 4 Demo.coins Demo.rcpts = .ok e ∧
    e.encrypt toyPrims Demo.input Demo.dest Demo.coin = (.ok (), e', rd', wr') ∧
    setupDecryptor toyPrims ⟨[wr'.out], .eof, false⟩ Demo.carol (some Demo.alice.pub) = .ok d ∧
    d.decrypt toyPrims Demo.dest = (.ok (), d', out') ∧ out'.out = [1, 2, 3, 4, 5, 6, 7, 8, 9, 10] := by
  obtain ⟨e, e', rd', wr', h1, h2⟩ := Demo.encrypts
  rcases C01_encrypt_decrypt toyPrims toyLaws (some Demo.alice) Demo.sender_genuine 4 (by decide) Demo.coins Demo.coins_wf
    Demo.rcpts Demo.rcpts_len (by decide) e h1 Demo.input Demo.dest rfl Demo.coin Demo.coin_len e' rd' wr' h2
    Demo.carol (List.replicate 32 3) (by simp) rfl rfl ⟨(Demo.carol.pub, List.replicate 12 5), by simp [Demo.rcpts], rfl⟩
    (some Demo.alice.pub) (by intro s hs; cases hs; exact ⟨_, rfl, rfl⟩) ⟨[wr'.out], .eof, false⟩ []
    (by simp [Reader.content]) Demo.dest Demo.dest_noFail with g | ⟨d, d', out', g1, g2, g3⟩
  · exact absurd g Demo.no_forgery
  · exact ⟨e, e', rd', wr', d, d', out', h1, h2, g1, g2, by rw [g3]; rfl⟩

/-! ### C05 -/

/-- The block size used for a requested one. -/
def effectiveBlock (blk : Nat) : Nat := if blk = 0 then 4 * 1048576 else min blk (2^30)

theorem chooseBlock_eq (blk : Nat) : chooseBlock blk = effectiveBlock blk := by
  unfold chooseBlock effectiveBlock defaultChunk
  rw [maxChunk_eq]
  split
  · rfl
  · split <;> omega

/-- The header that set-up makes is the documented one. -/
theorem SetupOk.session {P : Prims} {sender : Option PrivateKey} {blk : Nat} {c : EncCoins}
    {rcpts : List (PublicKey × Bytes)} {e : Encryptor} {epk : Bytes} {ws : List WrappedKey}
    (h : SetupOk P sender blk c rcpts e epk ws) : SessionHeader P sender blk c rcpts e.hdr := by
  rw [h.enc]
  refine ⟨chooseBlock_eq blk, rfl, h.hepk, ?_, h.wrapped, rfl⟩
  cases sender <;> rfl

/-- **C05** (`Encrypt`) If the set-up calls and `Encrypt` return nil, the destination received exactly one container in
the documented layout (`Spec.container`): its header has the effective block size, the salt, the ephemeral public key, the
sealed sender signature and one wrapped key per recipient in order; its chunks are the input cut by
`Spec.encryptChunks`; its 64-byte trailer is the given random bytes or the sender's signature over the HMAC. -/
theorem C05_encrypt_layout (P : Prims) (L : Laws P)
    (sender : Option PrivateKey)
    (blk : Nat) (c : EncCoins) (hc : c.WF) (rcpts : List (PublicKey × Bytes))
    (e : Encryptor) (he : setupEncryptor P sender blk c rcpts = .ok e)
    (rd : Reader) (wr : Writer) (coin : Bytes) (hcoin : coin.length = 64)
    (e' : Encryptor) (rd' : Reader) (wr' : Writer) (henc : e.encrypt P rd wr coin = (.ok (), e', rd', wr')) :
    ∃ h trailer,
      wr'.out = wr.out ++ container P h c.key (encryptChunks (effectiveBlock blk) rd.content) trailer ∧
      SessionHeader P sender blk c rcpts h ∧ h.pk.length = 32 ∧ h.sender.length = 80 ∧
      trailer.length = 64 ∧
      (sender = none → trailer = coin) ∧
      (∀ s, sender = some s → trailer = P.edSign s.sk (P.sha512 (ascii "sigtool signed message" ++
        P.hmac256 (sessionKeys P c.key (P.sha256 (headerPart h))).2.2
          (macInput (encryptChunks (effectiveBlock blk) rd.content))))) := by
  obtain ⟨epk, ws, hs⟩ := setupEncryptor_ok P L sender blk c rcpts e hc he
  have hf := hs.fresh L
  obtain ⟨h1, _, _⟩ := encrypt_ok P L e rd wr coin hf e' rd' wr' henc
  have e4 : e.key = c.key := by rw [hs.enc]
  have e5 : e.hdr.chunkSize = effectiveBlock blk := by rw [hs.enc, ← chooseBlock_eq]
  rw [Encryptor.fullContainer, e4, e5] at h1
  refine ⟨e.hdr, _, h1, hs.session, by rw [hs.enc]; exact hs.epkLen, ?_,
    trailerOf_len P L e hf.sender _ _ _ hcoin, ?_, ?_⟩
  · rw [hs.enc]; exact sender_len P L sender c epk hs.sized
  · rintro rfl
    have : e.auth = false := by rw [hs.enc]; rfl
    simp [Encryptor.trailerOf, this]
  · rintro s rfl
    have h2 : e.auth = true := by rw [hs.enc]; rfl
    have h3 : e.sender = some s := by rw [hs.enc]
    simp only [Encryptor.trailerOf, h2, h3, Encryptor.keys, e4]
    rfl

/-- **C05** (cutting) `Spec.encryptChunks` is what the English says: the pieces put together are the input, every piece
but the last is a full block, the last is shorter than a block (possibly empty). -/
theorem C05_encryptChunks_shape (bs : Nat) (h0 : 0 < bs) (pt : Bytes) :
    (encryptChunks bs pt).flatten = pt ∧ ∃ full last, encryptChunks bs pt = full ++ [last] ∧
      (∀ b ∈ full, b.length = bs) ∧ last.length < bs := by
  refine ⟨(encryptChunks_ok bs h0 pt).2.1, ?_⟩
  induction hn : pt.length using Nat.strongRecOn generalizing pt with
  | _ n ih =>
    by_cases h : pt.length < bs
    · exact ⟨[], pt, by rw [encryptChunks_small _ _ h]; rfl, by simp, h⟩
    · obtain ⟨full, last, h1, h2, h3⟩ := ih (pt.drop bs).length (by simp; omega) (pt.drop bs) rfl
      refine ⟨pt.take bs :: full, last, by rw [encryptChunks_big _ _ h0 (by omega), h1]; rfl, ?_, h3⟩
      intro b hb
      rcases List.mem_cons.mp hb with rfl | hb
      · simp; omega
      · exact h2 b hb

example : encryptChunks 4 [1, 2, 3, 4, 5, 6, 7, 8] = [[1, 2, 3, 4], [5, 6, 7, 8], []] := by
  rw [encryptChunks_big _ _ (by decide) (by decide), encryptChunks_big _ _ (by decide) (by decide),
    encryptChunks_small _ _ (by decide)]
  rfl

/-- The demo meets the hypotheses of `C05_encrypt_layout`. -/
example : ∃ e e' rd' wr', setupEncryptor toyPrims (some Demo.alice) 4 Demo.coins Demo.rcpts = .ok e ∧
    e.encrypt toyPrims Demo.input Demo.dest Demo.coin = (.ok (), e', rd', wr') ∧ Demo.input.content.length = 10 ∧
    effectiveBlock 4 = 4 := by
  obtain ⟨e, e', rd', wr', h1, h2⟩ := Demo.encrypts
  exact ⟨e, e', rd', wr', h1, h2, rfl, rfl⟩

/-! ### C06 -/

/-- **C06**, the part that holds: a container written with any block size below 2^30 is accepted by `NewDecryptor`.
Missing: block sizes of 2^30 and more, for which the property is false (`C06_large_block_refuted`). -/
theorem C06_small_block_partial (P : Prims) (L : Laws P)
    (sender : Option PrivateKey)
    (blk : Nat) (hblk : blk < 2^30) (c : EncCoins) (hc : c.WF)
    (rcpts : List (PublicKey × Bytes)) (hr : ∀ r ∈ rcpts, r.2.length = 12)
    (hcount : rcpts.length ≤ 15885) (hne : rcpts ≠ [])
    (e : Encryptor) (he : setupEncryptor P sender blk c rcpts = .ok e)
    (rd : Reader) (wr : Writer) (hwr : wr.out = []) (coin : Bytes)
    (e' : Encryptor) (rd' : Reader) (wr' : Writer) (henc : e.encrypt P rd wr coin = (.ok (), e', rd', wr'))
    (rd2 : Reader) (hrd2 : rd2.content = wr'.out) :
    ∃ d rd3, newDecryptor P rd2 = (.ok d, rd3) ∧ d.hdr = e.hdr := by
  obtain ⟨epk, ws, hs⟩ := setupEncryptor_ok P L sender blk c rcpts e hc he
  have hf := hs.fresh L
  obtain ⟨h1, _, _⟩ := encrypt_ok P L e rd wr coin hf e' rd' wr' henc
  obtain ⟨v, hv1, hv2, hv3⟩ := headerBytes_len P L sender blk c rcpts e epk ws hc hr hs
  obtain ⟨rd3, g1, _⟩ := newDecryptor_accepts P L e.hdr _ rd2 hf.clean (by have := hf.chunkMax; omega) (by omega)
    (by omega) (checkHeader_setup P L sender blk c rcpts e epk ws hc hs (chooseBlock_lt blk hblk) hne)
    (by rw [hrd2, h1, hwr, Encryptor.fullContainer, container_eq]; rfl)
  exact ⟨_, rd3, g1, rfl⟩

/-- **C06** is false of the code: `NewEncryptor` clamps every block size of 2^30 or more to 2^30, and `NewDecryptor`
refuses a chunk size of 2^30.  Every such container is unreadable although all writing calls returned nil. -/
theorem C06_large_block_refuted (P : Prims) (L : Laws P)
    (sender : Option PrivateKey)
    (blk : Nat) (hblk : 2^30 ≤ blk) (c : EncCoins) (hc : c.WF)
    (rcpts : List (PublicKey × Bytes)) (hr : ∀ r ∈ rcpts, r.2.length = 12) (hcount : rcpts.length ≤ 15885)
    (e : Encryptor) (he : setupEncryptor P sender blk c rcpts = .ok e)
    (rd : Reader) (wr : Writer) (hwr : wr.out = []) (coin : Bytes)
    (e' : Encryptor) (rd' : Reader) (wr' : Writer) (henc : e.encrypt P rd wr coin = (.ok (), e', rd', wr'))
    (rd2 : Reader) (hrd2 : rd2.content = wr'.out) :
    ∃ rd3, newDecryptor P rd2 = (.err (.msg "decrypt: invalid chunkSize"), rd3) := by
  obtain ⟨epk, ws, hs⟩ := setupEncryptor_ok P L sender blk c rcpts e hc he
  have hf := hs.fresh L
  obtain ⟨h1, _, _⟩ := encrypt_ok P L e rd wr coin hf e' rd' wr' henc
  obtain ⟨v, hv1, hv2, hv3⟩ := headerBytes_len P L sender blk c rcpts e epk ws hc hr hs
  obtain ⟨rd3, g1, _⟩ := newDecryptor_genuine P L e.hdr _ rd2 hf.clean (by have := hf.chunkMax; omega) (by omega)
    (by omega) (by rw [hrd2, h1, hwr, Encryptor.fullContainer, container_eq]; rfl)
  refine ⟨rd3, ?_⟩
  have hck : checkHeader e.hdr = some (.msg "decrypt: invalid chunkSize") := by
    unfold checkHeader
    have : e.hdr.chunkSize = 2^30 := by
      rw [hs.enc]
      simp only
      rw [chooseBlock_eq]
      unfold effectiveBlock
      rw [if_neg (by omega)]; omega
    rw [if_pos]
    right
    rw [this, maxChunk_eq]
  rw [g1, hck]

/-- Such containers exist: one recipient and a block size of 2^30. -/
example : ∃ e e' rd' wr', setupEncryptor toyPrims none (2^30) Demo.coins [(Demo.bob.pub, List.replicate 12 4)] = .ok e ∧
    e.encrypt toyPrims Demo.input Demo.dest Demo.coin = (.ok (), e', rd', wr') :=
  C01_encrypt_succeeds toyPrims toyLaws none (by simp) (2^30) Demo.coins Demo.coins_wf _
    (by intro r hr; simp only [List.mem_cons, List.not_mem_nil, or_false] at hr; subst hr; exact ⟨_, by simp, rfl⟩)
    Demo.input rfl Demo.dest Demo.dest_noFail rfl Demo.coin

/-! ### C07 -/

/-- **C07**, the part that holds: with 1 to 15885 recipients the container is accepted by `NewDecryptor` and holds all
of them.  Missing: no recipients, or more than 15885 (`C07_recipients_refuted`). -/
theorem C07_recipients_partial (P : Prims) (L : Laws P)
    (sender : Option PrivateKey)
    (blk : Nat) (hblk : blk < 2^30) (c : EncCoins) (hc : c.WF)
    (rcpts : List (PublicKey × Bytes)) (hr : ∀ r ∈ rcpts, r.2.length = 12)
    (hcount : rcpts.length ≤ 15885) (hne : rcpts ≠ [])
    (e : Encryptor) (he : setupEncryptor P sender blk c rcpts = .ok e)
    (rd : Reader) (wr : Writer) (hwr : wr.out = []) (coin : Bytes)
    (e' : Encryptor) (rd' : Reader) (wr' : Writer) (henc : e.encrypt P rd wr coin = (.ok (), e', rd', wr'))
    (rd2 : Reader) (hrd2 : rd2.content = wr'.out) :
    ∃ d rd3, newDecryptor P rd2 = (.ok d, rd3) ∧
      List.Forall₂ (fun r w => wrapFor P (clamp c.csk) c.salt c.key r.1.pk r.2 = some w) rcpts d.hdr.keys := by
  obtain ⟨d, rd3, h1, h2⟩ := C06_small_block_partial P L sender blk hblk c hc rcpts hr hcount hne e he rd wr hwr
    coin e' rd' wr' henc rd2 hrd2
  obtain ⟨epk, ws, hs⟩ := setupEncryptor_ok P L sender blk c rcpts e hc he
  refine ⟨d, rd3, h1, ?_⟩
  have : e.hdr.keys = ws := by rw [hs.enc]
  rw [h2, this]; exact hs.wrapped

/-- **C07** is false of the code: with no recipient at all, or with 15886 recipients or more (the bound 60 million only
keeps the 32-bit length field from wrapping), `AddRecipient` and `Encrypt` return nil but `NewDecryptor` rejects the
container. -/
theorem C07_recipients_refuted (P : Prims) (L : Laws P)
    (sender : Option PrivateKey)
    (blk : Nat) (hblk : blk < 2^30) (c : EncCoins) (hc : c.WF)
    (rcpts : List (PublicKey × Bytes)) (hr : ∀ r ∈ rcpts, r.2.length = 12)
    (e : Encryptor) (he : setupEncryptor P sender blk c rcpts = .ok e)
    (rd : Reader) (wr : Writer) (hwr : wr.out = []) (coin : Bytes)
    (e' : Encryptor) (rd' : Reader) (wr' : Writer) (henc : e.encrypt P rd wr coin = (.ok (), e', rd', wr'))
    (rd2 : Reader) (hrd2 : rd2.content = wr'.out) :
    (rcpts = [] → ∃ rd3, newDecryptor P rd2 = (.err .noWrappedKeys, rd3)) ∧
    (15886 ≤ rcpts.length → rcpts.length ≤ 60000000 → ∃ rd3, newDecryptor P rd2 = (.err .headerTooBig, rd3)) := by
  obtain ⟨epk, ws, hs⟩ := setupEncryptor_ok P L sender blk c rcpts e hc he
  have hf := hs.fresh L
  obtain ⟨h1, _, _⟩ := encrypt_ok P L e rd wr coin hf e' rd' wr' henc
  obtain ⟨v, hv1, hv2, hv3⟩ := headerBytes_len P L sender blk c rcpts e epk ws hc hr hs
  refine ⟨?_, ?_⟩
  · rintro rfl
    simp only [List.length_nil] at hv3
    obtain ⟨rd3, g1, _⟩ := newDecryptor_genuine P L e.hdr _ rd2 hf.clean (by have := hf.chunkMax; omega) (by omega)
      (by omega) (by rw [hrd2, h1, hwr, Encryptor.fullContainer, container_eq]; rfl)
    have hk : e.hdr.keys = [] := by
      have : ws = [] := by have := hs.wrapped; cases this; rfl
      rw [hs.enc, this]
    have hck : checkHeader e.hdr = some .noWrappedKeys := by
      have h3 := chooseBlock_lt blk hblk
      have h4 := chooseBlock_pos blk
      have h5 : e.hdr.chunkSize = chooseBlock blk := by rw [hs.enc]
      have h6 : e.hdr.salt.length = 32 := by rw [hs.enc]; exact hc.salt
      unfold checkHeader
      rw [if_neg (by rw [maxChunk_eq]; omega), if_neg (by omega), if_pos (by rw [hk]; rfl)]
    rw [hck] at g1
    exact ⟨rd3, g1⟩
  · intro n1 n2
    exact newDecryptor_tooBig P e.hdr _ rd2 (by omega) (by omega)
      (by rw [hrd2, h1, hwr, Encryptor.fullContainer, container_eq, List.nil_append, List.append_assoc])

/-- Such containers exist. -/
example : ∃ e e' rd' wr', setupEncryptor toyPrims none 0 Demo.coins
      (List.replicate 15886 (Demo.bob.pub, List.replicate 12 4)) = .ok e ∧
    e.encrypt toyPrims Demo.input Demo.dest Demo.coin = (.ok (), e', rd', wr') :=
  C01_encrypt_succeeds toyPrims toyLaws none (by simp) 0 Demo.coins Demo.coins_wf _
    (by intro r hr; rw [List.eq_of_mem_replicate hr]; exact ⟨_, by simp, rfl⟩)
    Demo.input rfl Demo.dest Demo.dest_noFail rfl Demo.coin

end Sigtool
