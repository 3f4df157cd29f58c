import Verif.TamperLemmas
/-!
# C10, C11, C12, C13, C14: what survives an attack on the body
-/

namespace Sigtool
open Spec (encryptChunks streamChunks lengthWord sealedChunk sealedBody macInput headerPart sessionKeys container
  headerBytes wrappingKey wrapFor unwrapAs WrapForgery ChunkForgery)

/-- A complete sending session, by `Encrypt` or through the stream writer: `plain` went in, `bytes` came out, and
`chunks` is how the plaintext was cut. -/
structure Sending (P : Prims) (sender : Option PrivateKey) (blk : Nat) (c : EncCoins) (rcpts : List (PublicKey × Bytes))
    (e : Encryptor) (plain : Bytes) (chunks : List Bytes) (bytes : Bytes) : Prop where
  hsender : ∀ s, sender = some s → s.Genuine P
  hblk : blk < 2^30
  coins : c.WF
  nonces : ∀ r ∈ rcpts, r.2.length = 12
  count : rcpts.length ≤ 15885
  setup : setupEncryptor P sender blk c rcpts = .ok e
  wrote : ∃ coin : Bytes, coin.length = 64 ∧
    ((∃ rd wr e' rd' wr', rd.content = plain ∧ wr.out = [] ∧ e.encrypt P rd wr coin = (.ok (), e', rd', wr') ∧
        wr'.out = bytes ∧ chunks = encryptChunks (effectiveBlock blk) plain) ∨
     (∃ bufs wr wr', bufs.flatten = plain ∧ wr.out = [] ∧ streamEncrypt P e wr coin bufs = (.ok (), wr') ∧
        wr'.out = bytes ∧ chunks = streamChunks (effectiveBlock blk) plain))

/-- `sk` is the key pair of a listed recipient, and `spk` names the sender if there is one. -/
structure Receiving (P : Prims) (sender : Option PrivateKey) (rcpts : List (PublicKey × Bytes)) (sk : PrivateKey)
    (seed : Bytes) (spk : Option PublicKey) : Prop where
  hseed : seed.length = 32
  hsk : sk.sk = seed ++ P.edPub seed
  hpk : sk.pub.pk = P.edPub seed
  listed : ∃ r ∈ rcpts, r.1.pk = sk.pub.pk
  named : ∀ s, sender = some s → ∃ p, spk = some p ∧ p.pk = s.pub.pk

/-- What a session wrote, in one form for both ways of writing. -/
theorem Sending.facts {P : Prims} (L : Laws P) {sender : Option PrivateKey} {blk : Nat} {c : EncCoins}
    {rcpts : List (PublicKey × Bytes)} {e : Encryptor} {plain : Bytes} {chunks : List Bytes} {bytes : Bytes}
    (h : Sending P sender blk c rcpts e plain chunks bytes) :
    ∃ epk ws, ∃ coin : Bytes, SetupOk P sender blk c rcpts e epk ws ∧ e.Fresh P ∧ e.key = c.key ∧
      e.hdr.chunkSize = effectiveBlock blk ∧ coin.length = 64 ∧
      bytes = headerPart e.hdr ++ P.sha256 (headerPart e.hdr) ++ (sealedBody P (e.keys P).2.1 (e.keys P).1 0 chunks ++
        e.trailerOf P (e.keys P).2.2 (macInput chunks) coin) ∧
      ChunksOk e.hdr.chunkSize chunks ∧ chunks.flatten = plain ∧ chunks ≠ [] := by
  obtain ⟨epk, ws, hs⟩ := setupEncryptor_ok P L sender blk c rcpts e h.coins h.setup
  have hf := hs.fresh L
  have e4 : e.key = c.key := by rw [hs.enc]
  have e5 : e.hdr.chunkSize = effectiveBlock blk := by rw [hs.enc, ← chooseBlock_eq]
  obtain ⟨coin, hcoin, hw⟩ := h.wrote
  refine ⟨epk, ws, coin, hs, hf, e4, e5, hcoin, ?_⟩
  rcases hw with ⟨rd, wr, e', rd', wr', h1, h2, h3, h4, h5⟩ | ⟨bufs, wr, wr', h1, h2, h3, h4, h5⟩
  · obtain ⟨g1, _, _⟩ := encrypt_ok P L e rd wr coin hf e' rd' wr' h3
    rw [h2, List.nil_append, Encryptor.fullContainer, container_eq, h1, e5, ← h5, h4] at g1
    obtain ⟨k1, k2, _⟩ := encryptChunks_ok e.hdr.chunkSize hf.chunkPos plain
    rw [e5, ← h5] at k1 k2
    exact ⟨g1, by rw [e5]; exact k1, k2, by rw [h5]; exact encryptChunks_ne_nil _ _⟩
  · obtain ⟨g1, _⟩ := streamEncrypt_ok P L e wr coin bufs hf wr' h3
    rw [h2, List.nil_append, Encryptor.fullContainer, container_eq, h1, e5, ← h5, h4] at g1
    obtain ⟨k1, k2, _⟩ := streamChunks_ok e.hdr.chunkSize hf.chunkPos plain
    rw [e5, ← h5] at k1 k2
    exact ⟨g1, by rw [e5]; exact k1, k2, by rw [h5]; exact streamChunks_ne_nil _ _⟩

/-- The recipient's set-up calls on a genuine header followed by any body. -/
theorem Sending.opens {P : Prims} (L : Laws P) {sender : Option PrivateKey} {blk : Nat} {c : EncCoins}
    {rcpts : List (PublicKey × Bytes)} {e : Encryptor} {plain : Bytes} {chunks : List Bytes} {bytes : Bytes}
    (h : Sending P sender blk c rcpts e plain chunks bytes) {sk : PrivateKey} {seed : Bytes} {spk : Option PublicKey}
    (hr : Receiving P sender rcpts sk seed spk) (rd2 : Reader) (body : Bytes)
    (hrd2 : rd2.content = headerPart e.hdr ++ P.sha256 (headerPart e.hdr) ++ body) :
    (∃ r ∈ rcpts, WrapForgery P (clamp c.csk) c.salt c.key r.1.pk r.2 seed) ∨
    ∃ d, setupDecryptor P rd2 sk spk = .ok d ∧ Opened P e sender spk body rd2.last d := by
  obtain ⟨epk, ws, hs⟩ := setupEncryptor_ok P L sender blk c rcpts e h.coins h.setup
  obtain ⟨v, hv1, hv2, hv3⟩ := headerBytes_len P L sender blk c rcpts e epk ws h.coins h.nonces hs
  have hcount := h.count
  exact setup_opens P L sender blk c rcpts e epk ws h.coins h.hsender h.nonces hs (chooseBlock_lt blk h.hblk) (by omega) sk
    seed hr.hseed hr.hsk hr.hpk (by rw [← hr.hpk]; exact hr.listed) spk hr.named rd2 body hrd2

/-- The session keys of an encryptor, in terms of the documented derivation. -/
theorem Encryptor.keys_eq (P : Prims) (e : Encryptor) :
    e.keys P = sessionKeys P e.key (P.sha256 (headerPart e.hdr)) := rfl

/-- **C10** For every sending session (any sender, block size below 2^30, recipients, input, cut into at most 2^32
chunks), every listed recipient and every input that starts with the genuine header and continues with an arbitrary
`body` in any delivery: `NewDecryptor` and `SetPrivateKey` succeed, and whatever `Decrypt` does, what it wrote is an
initial part of the plaintext, and if it returned nil it is the concatenation of the first `k` genuine chunks for some
`k` - unless `body` contains an AEAD forgery (or a wrapped key does). -/
theorem C10_tampered_body (P : Prims) (L : Laws P)
    (sender : Option PrivateKey) (blk : Nat) (c : EncCoins) (rcpts : List (PublicKey × Bytes)) (e : Encryptor)
    (plain : Bytes) (chunks : List Bytes) (bytes : Bytes) (h : Sending P sender blk c rcpts e plain chunks bytes)
    (hn : chunks.length ≤ 2^32)
    (sk : PrivateKey) (seed : Bytes) (spk : Option PublicKey) (hr : Receiving P sender rcpts sk seed spk)
    (rd2 : Reader) (body : Bytes) (hrd2 : rd2.content = headerPart e.hdr ++ P.sha256 (headerPart e.hdr) ++ body) :
    (∃ r ∈ rcpts, WrapForgery P (clamp c.csk) c.salt c.key r.1.pk r.2 seed) ∨
    ChunkForgery P (sessionKeys P c.key (P.sha256 (headerPart e.hdr))).2.1
      (sessionKeys P c.key (P.sha256 (headerPart e.hdr))).1 chunks body ∨
    ∃ d, setupDecryptor P rd2 sk spk = .ok d ∧ ∀ (out : Writer) (res : Res Unit) (d' : Decryptor) (out' : Writer),
      d.decrypt P out = (res, d', out') →
      ∃ p, out'.out = out.out ++ p ∧ p <+: plain ∧ (res = .ok () → ∃ k, p = (chunks.take k).flatten) := by
  obtain ⟨epk, ws, coin, hs, hf, e4, e5, hcoin, hbytes, hck, hfl, hne⟩ := h.facts L
  rcases h.opens L hr rd2 body hrd2 with g | ⟨d, g1, g2⟩
  · exact Or.inl g
  · right
    rw [← e4, ← Encryptor.keys_eq]
    by_cases hfo : ChunkForgery P (e.keys P).2.1 (e.keys P).1 chunks body
    · exact Or.inl hfo
    · refine Or.inr ⟨d, g1, ?_⟩
      intro out res d' out' hdec
      obtain ⟨r, d2, wr2, k1, k2⟩ := opened_any P L d _ _ _ g2.ready g2.key g2.stream g2.eof out
      rw [hdec] at k1
      simp only [Prod.mk.injEq] at k1
      obtain ⟨rfl, rfl, rfl⟩ := k1
      obtain ⟨p, m1, m2⟩ := outcome_accepts P d _ _ g2.ready out out' res d' k2 chunks hne hn
        (by rw [g2.nonce, g2.body]; exact hfo)
      refine ⟨p, m1, ?_⟩
      cases m2 with
      | all tr rest htr hb =>
        exact ⟨by rw [hfl] <;> try exact List.prefix_refl _, fun _ => ⟨chunks.length, by rw [List.take_length]⟩⟩
      | cut k rest hk hb => exact ⟨by rw [← hfl]; exact flatten_take_prefix _ _, fun _ => ⟨k, rfl⟩⟩
      | failed x p hp => exact ⟨by rw [← hfl]; exact hp, by simp⟩

/-- **C11**, the part that holds: in the situation of C10, if `Decrypt` returned nil then it wrote the complete plaintext,
or the four bytes `80 00 00 00` stand in the body directly after the first `k` chunks, as sealed by the sender. Missing:
excluding the second case, which is possible (`C11_truncation_refuted`). -/
theorem C11_truncation_partial (P : Prims) (L : Laws P)
    (sender : Option PrivateKey) (blk : Nat) (c : EncCoins) (rcpts : List (PublicKey × Bytes)) (e : Encryptor)
    (plain : Bytes) (chunks : List Bytes) (bytes : Bytes) (h : Sending P sender blk c rcpts e plain chunks bytes)
    (hn : chunks.length ≤ 2^32)
    (sk : PrivateKey) (seed : Bytes) (spk : Option PublicKey) (hr : Receiving P sender rcpts sk seed spk)
    (rd2 : Reader) (body : Bytes) (hrd2 : rd2.content = headerPart e.hdr ++ P.sha256 (headerPart e.hdr) ++ body)
    (d : Decryptor) (hd : setupDecryptor P rd2 sk spk = .ok d) (out : Writer) (d' : Decryptor) (out' : Writer)
    (hdec : d.decrypt P out = (.ok (), d', out')) :
    (∃ r ∈ rcpts, WrapForgery P (clamp c.csk) c.salt c.key r.1.pk r.2 seed) ∨
    ChunkForgery P (sessionKeys P c.key (P.sha256 (headerPart e.hdr))).2.1
      (sessionKeys P c.key (P.sha256 (headerPart e.hdr))).1 chunks body ∨
    out'.out = out.out ++ plain ∨
    ∃ (k : Nat) (rest : Bytes), k < chunks.length ∧ out'.out = out.out ++ (chunks.take k).flatten ∧
      body = (((chunks.take k).zipIdx).flatMap fun ci =>
        sealedChunk P (sessionKeys P c.key (P.sha256 (headerPart e.hdr))).2.1
          (sessionKeys P c.key (P.sha256 (headerPart e.hdr))).1 ci.2 false ci.1) ++ [0x80, 0, 0, 0] ++ rest := by
  obtain ⟨epk, ws, coin, hs, hf, e4, e5, hcoin, hbytes, hck, hfl, hne⟩ := h.facts L
  rcases h.opens L hr rd2 body hrd2 with g | ⟨d1, g1, g2⟩
  · exact Or.inl g
  · right
    rw [hd] at g1
    cases g1
    rw [← e4, ← Encryptor.keys_eq]
    by_cases hfo : ChunkForgery P (e.keys P).2.1 (e.keys P).1 chunks body
    · exact Or.inl hfo
    · right
      obtain ⟨r, d2, wr2, k1, k2⟩ := opened_any P L d _ _ _ g2.ready g2.key g2.stream g2.eof out
      rw [hdec] at k1
      simp only [Prod.mk.injEq] at k1
      obtain ⟨rfl, rfl, rfl⟩ := k1
      obtain ⟨p, m1, m2⟩ := outcome_accepts P d _ _ g2.ready out out' _ d' k2 chunks hne hn
        (by rw [g2.nonce, g2.body]; exact hfo)
      rw [m1]
      cases m2 with
      | all tr rest htr hb => left; rw [hfl]
      | cut k rest hk hb =>
        right
        refine ⟨k, rest, hk, rfl, ?_⟩
        rw [← g2.body, hb, g2.nonce]
        have hw : lengthWord 0 true = [0x80, 0, 0, 0] := by decide
        rw [hw, ← List.append_assoc]
        congr 2
        have : ∀ (l : List Bytes) (i : Nat), sealedMid P (e.keys P).2.1 (e.keys P).1 i l =
            (l.zipIdx i).flatMap fun ci => sealedChunk P (e.keys P).2.1 (e.keys P).1 ci.2 false ci.1 := by
          intro l
          induction l with
          | nil => intro i; rfl
          | cons a l ih => intro i; rw [sealedMid, ih]; rfl
        exact this _ _

end Sigtool
