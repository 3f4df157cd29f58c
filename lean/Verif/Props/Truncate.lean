import Verif.Props.Tamper
/-!
# C11 (refutation), C12: cutting a container short
-/

namespace Sigtool
open Spec (encryptChunks streamChunks lengthWord sealedChunk sealedBody macInput headerPart sessionKeys container
  headerBytes wrappingKey wrapFor unwrapAs WrapForgery ChunkForgery)

/-- `Decrypt` on whole chunks that open, followed by the end marker of length zero. -/
theorem decryptLoop_cut (P : Prims) (L : Laws P) : ∀ (mid : List Bytes) (fuel : Nat) (d : Decryptor)
    (wr : Writer) (i : Nat) (dkey hk hd rest : Bytes),
    d.Ready dkey hk hd → wr.NoFail → mid.length < fuel → MidOk d.hdr.chunkSize mid →
    d.rd.content = sealedMid P dkey d.nonce i mid ++ (lengthWord 0 true ++ rest) →
    ∃ d' wr', Decryptor.decryptLoop P fuel d wr i = (.ok (), d', wr') ∧
      wr'.out = wr.out ++ mid.flatten ∧ d'.auth = d.auth := by
  intro mid
  induction mid with
  | nil =>
    intro fuel d wr i dkey hk hd rest hr hw hf _ hrd
    cases fuel with
    | zero => simp at hf
    | succ fuel =>
    unfold Decryptor.decryptLoop
    obtain ⟨rd', h1, _⟩ := decryptBlock_empty P d dkey rest i hr.ae (by simpa [sealedMid] using hrd)
    rw [h1]
    exact ⟨{ d with rd := rd', eof := true }, wr, by simp, by simp, rfl⟩
  | cons c cs ih =>
    intro fuel d wr i dkey hk hd rest hr hw hf hm hrd
    cases fuel with
    | zero => simp at hf
    | succ fuel =>
    unfold Decryptor.decryptLoop
    have hc := hm c (by simp)
    obtain ⟨rd', h1, h2⟩ := decryptBlock_mid P L d dkey hk hd c _ i hr hc.1 hc.2 (by
      rw [hrd, sealedMid, List.append_assoc])
    rw [h1]
    obtain ⟨wr', g1, g2, g3, _⟩ := fullwrite_noFail c wr hw
    simp only [gt_iff_lt, hc.1, if_true, g1, Bool.false_eq_true, if_false]
    obtain ⟨d2, wr2, k1, k2, k3⟩ := ih fuel
      { d with rd := rd', hmac := some (hk, hd ++ lengthWord c.length false ++ c) } wr' ((i + 1) % 2^32)
      dkey hk (hd ++ lengthWord c.length false ++ c) rest
      ⟨hr.ae, rfl, hr.buf, hr.chunk, hr.key, hr.nonce, hr.sender⟩ g3 (by simpa using hf)
      (fun x hx => hm x (List.mem_cons_of_mem _ hx))
      (by rw [h2]; simp only; rw [sealedMid_mod P dkey d.nonce cs ((i+1) % 2^32) (i+1) (by omega)])
    exact ⟨d2, wr2, k1, by rw [k2, g2]; simp, k3⟩

theorem sealedMid_length (P : Prims) (dkey nonce : Bytes) : ∀ (cs : List Bytes) (i : Nat),
    cs.length ≤ (sealedMid P dkey nonce i cs).length := by
  intro cs
  induction cs with
  | nil => simp
  | cons x cs ih =>
    intro i
    have := ih (i+1)
    simp [sealedMid, sealedChunk]; omega

theorem opened_cut (P : Prims) (L : Laws P) (d : Decryptor) (key dkey hk : Bytes) (hr : d.Ready dkey hk [])
    (hkey : d.key = some key) (hst : d.stream = false) (he : d.eof = false) (wr : Writer) (hw : wr.NoFail)
    (mid : List Bytes) (rest : Bytes) (hm : MidOk d.hdr.chunkSize mid)
    (hrd : d.rd.content = sealedMid P dkey d.nonce 0 mid ++ (lengthWord 0 true ++ rest)) :
    ∃ d' wr', d.decrypt P wr = (.ok (), d', wr') ∧ wr'.out = wr.out ++ mid.flatten ∧ d'.auth = d.auth := by
  unfold Decryptor.decrypt
  rw [hkey]
  simp only [hst, he, Bool.false_eq_true, if_false]
  refine decryptLoop_cut P L mid _ d wr 0 dkey hk [] rest hr hw ?_ hm hrd
  have := sealedMid_length P dkey d.nonce mid 0
  rw [hrd]; simp; omega

theorem ChunksOk.take {cs : Nat} : ∀ {chunks : List Bytes}, ChunksOk cs chunks → ∀ k, k < chunks.length →
    MidOk cs (chunks.take k) := by
  intro chunks
  induction chunks with
  | nil => intro h; exact absurd h (by simp [ChunksOk])
  | cons c t ih =>
    intro h k hk x hx
    cases k with
    | zero => simp at hx
    | succ k =>
      have ht : t ≠ [] := by rintro rfl; simp at hk
      rw [ChunksOk_cons _ _ _ ht] at h
      rw [List.take_succ_cons] at hx
      rcases List.mem_cons.mp hx with rfl | hx
      · exact ⟨h.1, h.2.1⟩
      · exact ih h.2.2 k (by simpa using hk) x hx

/-- The bytes of the first chunks are an initial part of the bytes of all of them. -/
theorem sealedMid_prefix (P : Prims) (dkey nonce : Bytes) : ∀ (chunks : List Bytes) (k i : Nat), k < chunks.length →
    sealedMid P dkey nonce i (chunks.take k) <+: sealedBody P dkey nonce i chunks := by
  intro chunks
  induction chunks with
  | nil => intro k i h; simp at h
  | cons c t ih =>
    intro k i hk
    cases k with
    | zero => simp [sealedMid]
    | succ k =>
      have ht : t ≠ [] := by rintro rfl; simp at hk
      rw [List.take_succ_cons, sealedMid, sealedBody_cons _ _ _ _ _ _ ht]
      exact prefix_append_left (ih k (i+1) (by simpa using hk))

/-- **C11** is false of the code. For every sending session with at least one chunk to lose and every `k` below the
number of chunks, there is a cut `n` such that the first `n` bytes of the container followed by `80 00 00 00` are
accepted by every listed recipient: `Decrypt` returns nil, writes only the first `k` chunks, and `AuthenticatedSender`
says true if the container was signed.  No key is needed for the attack. -/
theorem C11_truncation_refuted (P : Prims) (L : Laws P)
    (sender : Option PrivateKey) (blk : Nat) (c : EncCoins) (rcpts : List (PublicKey × Bytes)) (e : Encryptor)
    (plain : Bytes) (chunks : List Bytes) (bytes : Bytes) (h : Sending P sender blk c rcpts e plain chunks bytes)
    (sk : PrivateKey) (seed : Bytes) (spk : Option PublicKey) (hr : Receiving P sender rcpts sk seed spk)
    (k : Nat) (hk : k < chunks.length) :
    (∃ r ∈ rcpts, WrapForgery P (clamp c.csk) c.salt c.key r.1.pk r.2 seed) ∨
    ∃ n, ∀ rd2 : Reader, rd2.content = bytes.take n ++ [0x80, 0, 0, 0] → ∀ out : Writer, out.NoFail →
      ∃ d d' out', setupDecryptor P rd2 sk spk = .ok d ∧ d.decrypt P out = (.ok (), d', out') ∧
        out'.out = out.out ++ (chunks.take k).flatten ∧ d'.auth = sender.isSome := by
  obtain ⟨epk, ws, coin, hs, hf, e4, e5, hcoin, hbytes, hck, hfl, hne⟩ := h.facts L
  obtain ⟨t, ht⟩ := sealedMid_prefix P (e.keys P).2.1 (e.keys P).1 chunks k 0 hk
  by_cases hwf : ∃ r ∈ rcpts, WrapForgery P (clamp c.csk) c.salt c.key r.1.pk r.2 seed
  · exact Or.inl hwf
  · right
    refine ⟨(headerPart e.hdr ++ P.sha256 (headerPart e.hdr) ++
      sealedMid P (e.keys P).2.1 (e.keys P).1 0 (chunks.take k)).length, ?_⟩
    intro rd2 hrd2 out hout
    rw [hbytes, ← ht] at hrd2
    have hsplit : ∀ (a b u v : Bytes), (a ++ (b ++ u ++ v)).take (a ++ b).length = a ++ b := by
      intro a b u v
      have : a ++ (b ++ u ++ v) = (a ++ b) ++ (u ++ v) := by simp
      rw [this, List.take_left']
      rfl
    rw [hsplit] at hrd2
    rcases h.opens L hr rd2 (sealedMid P (e.keys P).2.1 (e.keys P).1 0 (chunks.take k) ++ (lengthWord 0 true ++ []))
      (by rw [hrd2, List.append_assoc, List.append_nil]; rfl) with g | ⟨d, g1, g2⟩
    · exact absurd g hwf
    · obtain ⟨d', out', m1, m2, m3⟩ := opened_cut P L d _ _ _ g2.ready g2.key g2.stream g2.eof out hout (chunks.take k) []
        (by rw [g2.hdr]; exact hck.take k hk) (by rw [g2.body, g2.nonce])
      exact ⟨d, d', out', g1, m1, m2, by rw [m3, g2.auth]⟩

/-! ### C12 -/

theorem prefix_split {a b u v : Bytes} (h : a ++ u <+: b ++ v) (hl : a.length = b.length) : a = b ∧ u <+: v := by
  obtain ⟨t, ht⟩ := h
  rw [List.append_assoc] at ht
  obtain ⟨h1, h2⟩ := List.append_inj ht hl
  exact ⟨h1, ⟨t, h2⟩⟩

theorem sealedChunk_prefix (P : Prims) (L : Laws P) (dkey nonce : Bytes) (i : Nat) (l m : Bool) (a b u v : Bytes)
    (hk : dkey.length = 32) (hn : nonce.length = 12) (ha : a.length ≤ 2^30) (hb : b.length ≤ 2^30)
    (h : sealedChunk P dkey nonce i l a ++ u <+: sealedChunk P dkey nonce i m b ++ v) : a = b ∧ l = m ∧ u <+: v := by
  unfold sealedChunk at h
  rw [List.append_assoc, List.append_assoc] at h
  obtain ⟨h1, h2⟩ := prefix_split h (by rw [lengthWord_length, lengthWord_length])
  obtain ⟨h3, h4⟩ := lengthWord_inj _ _ _ _ (by omega) (by omega) h1
  have hnl : (be32 i ++ nonce.drop 4).length = 12 := by simp; omega
  obtain ⟨h5, h6⟩ := prefix_split h2 (by rw [L.seal_len _ _ _ _ hk hnl ha, L.seal_len _ _ _ _ hk hnl hb, h3])
  refine ⟨?_, h4, h6⟩
  have k1 := L.open_seal _ _ a (lengthWord a.length l) hk hnl ha
  rw [h5, h1, L.open_seal _ _ b _ hk hnl hb] at k1
  exact (Option.some.inj k1).symm

theorem sealedBody_append (P : Prims) (dkey nonce : Bytes) : ∀ (mid t : List Bytes), t ≠ [] → ∀ i,
    sealedBody P dkey nonce i (mid ++ t) = sealedMid P dkey nonce i mid ++ sealedBody P dkey nonce (i + mid.length) t := by
  intro mid t ht
  induction mid with
  | nil => intro i; simp [sealedMid]
  | cons m ms ih =>
    intro i
    rw [List.cons_append, sealedBody_cons _ _ _ _ _ _ (by simp [ht]), ih (i+1), sealedMid, List.append_assoc,
      List.length_cons, show i + 1 + ms.length = i + (ms.length + 1) by omega]

/-- A body that agrees with the genuine one as far as it goes parses into the same chunks. -/
theorem parse_prefix (P : Prims) (L : Laws P) (dkey nonce : Bytes) (hk : dkey.length = 32) (hn : nonce.length = 12)
    (cs : Nat) (hcs : cs < 2^30) : ∀ (mid chunks : List Bytes) (i : Nat) (u v : Bytes), ChunksOk cs chunks → MidOk cs mid →
    sealedMid P dkey nonce i mid ++ u <+: sealedBody P dkey nonce i chunks ++ v → ∃ t, chunks = mid ++ t ∧ t ≠ [] ∧
      ChunksOk cs t ∧ u <+: sealedBody P dkey nonce (i + mid.length) t ++ v := by
  intro mid
  induction mid with
  | nil =>
    intro chunks i u v hc _ h
    refine ⟨chunks, rfl, ?_, hc, by simpa [sealedMid] using h⟩
    rintro rfl
    exact absurd hc (by simp [ChunksOk])
  | cons m ms ih =>
    intro chunks i u v hc hm h
    cases chunks with
    | nil => exact absurd hc (by simp [ChunksOk])
    | cons c t =>
      have hm1 := hm m (by simp)
      rw [sealedMid, List.append_assoc] at h
      by_cases ht : t = []
      · subst ht
        simp only [sealedBody] at h
        simp only [ChunksOk] at hc
        obtain ⟨_, h2, _⟩ := sealedChunk_prefix P L dkey nonce i false true m c _ _ hk hn (by omega) (by omega) h
        cases h2
      · rw [ChunksOk_cons _ _ _ ht] at hc
        rw [sealedBody_cons _ _ _ _ _ _ ht, List.append_assoc] at h
        obtain ⟨rfl, _, h3⟩ := sealedChunk_prefix P L dkey nonce i false false m c _ _ hk hn (by omega) (by omega) h
        obtain ⟨t', k1, k2, k3, k4⟩ := ih t (i+1) u v hc.2.2 (fun x hx => hm x (List.mem_cons_of_mem _ hx)) h3
        exact ⟨t', by rw [k1]; rfl, k2, k3, by rw [List.length_cons, show i + (ms.length + 1) = i + 1 + ms.length by omega]; exact k4⟩

/-- If an initial part of a container is accepted by `NewDecryptor`, it contains the whole header. -/
theorem accepted_prefix (P : Prims) (L : Laws P) (h : Header) (hlen : (headerBytes h).length < 2^32) (body : Bytes)
    (rd rd' : Reader) (d : Decryptor) (hb : Bytes) (ha : Accepted P rd d rd' hb)
    (hp : rd.content <+: headerPart h ++ P.sha256 (headerPart h) ++ body) :
    rd.content = headerPart h ++ P.sha256 (headerPart h) ++ rd'.content ∧ rd'.content <+: body := by
  have hc := ha.content
  have hhi := ha.hi
  rw [hc] at hp
  simp only [headerPart, List.append_assoc] at hp
  obtain ⟨_, hp⟩ := prefix_split hp rfl
  obtain ⟨_, hp⟩ := prefix_split hp rfl
  obtain ⟨h1, hp⟩ := prefix_split hp (by simp)
  have h2 : hb.length = (headerBytes h).length := by
    have e1 := be32dec_be32 hb.length []
    have e2 := be32dec_be32 (headerBytes h).length []
    rw [List.append_nil] at e1 e2
    rw [h1, e2] at e1
    omega
  obtain ⟨h3, hp⟩ := prefix_split hp h2
  obtain ⟨_, hp⟩ := prefix_split hp (by rw [L.sha256_len, L.sha256_len])
  refine ⟨?_, hp⟩
  rw [hc, h3]
  simp [headerPart]

/-- **C12**, the part that holds: for every sending session, every listed recipient and every strict initial part of the
container in any delivery: `NewDecryptor` (or `SetPrivateKey`) fails, or `Decrypt` to any destination fails, or the
sender's last chunk is empty, at most its 16-byte tag and the 64-byte trailer are missing, and if `Decrypt` returned nil
it wrote the complete plaintext.  So if the last chunk is not empty (always so for the stream writer with some data),
every strict initial part is rejected.  Missing: rejection when the last chunk is empty (`C12_prefix_refuted`). -/
theorem C12_prefix_partial (P : Prims) (L : Laws P)
    (sender : Option PrivateKey) (blk : Nat) (c : EncCoins) (rcpts : List (PublicKey × Bytes)) (e : Encryptor)
    (plain : Bytes) (chunks : List Bytes) (bytes : Bytes) (h : Sending P sender blk c rcpts e plain chunks bytes)
    (sk : PrivateKey) (seed : Bytes) (spk : Option PublicKey) (hr : Receiving P sender rcpts sk seed spk)
    (rd2 : Reader) (hpre : rd2.content <+: bytes) (hstrict : rd2.content ≠ bytes) :
    (∃ r ∈ rcpts, WrapForgery P (clamp c.csk) c.salt c.key r.1.pk r.2 seed) ∨
    (∃ x, setupDecryptor P rd2 sk spk = .err x) ∨
    ∃ d, setupDecryptor P rd2 sk spk = .ok d ∧ ∀ out : Writer, ∃ d' out',
      ((∃ x, d.decrypt P out = (.err x, d', out')) ∨
       (d.decrypt P out = (.ok (), d', out') ∧ chunks.getLast? = some [] ∧ bytes.length ≤ rd2.content.length + 80 ∧
         out'.out = out.out ++ plain)) := by
  obtain ⟨epk, ws, coin, hs, hf, e4, e5, hcoin, hbytes, hck, hfl, hne⟩ := h.facts L
  obtain ⟨v, hv1, hv2, hv3⟩ := headerBytes_len P L sender blk c rcpts e epk ws h.coins h.nonces hs
  have hcount := h.count
  by_cases hwf : ∃ r ∈ rcpts, WrapForgery P (clamp c.csk) c.salt c.key r.1.pk r.2 seed
  · exact Or.inl hwf
  right
  have hnp := newDecryptor_noPanic P rd2
  cases hnd : newDecryptor P rd2 with
  | mk r rd' =>
  cases r with
  | panic why => rw [hnd] at hnp; exact absurd rfl (hnp why)
  | err x =>
    left
    refine ⟨x, ?_⟩
    unfold setupDecryptor
    rw [hnd]; rfl
  | ok d0 =>
    right
    obtain ⟨hb, ha⟩ := newDecryptor_ok P rd2 d0 rd' hnd
    rw [hbytes] at hpre
    obtain ⟨a1, a2⟩ := accepted_prefix P L e.hdr (by omega) _ rd2 rd' d0 hb ha hpre
    rcases h.opens L hr rd2 _ a1 with g | ⟨d, g1, g2⟩
    · exact absurd g hwf
    refine ⟨d, g1, ?_⟩
    intro out
    obtain ⟨r, d', out', k1, k2⟩ := opened_any P L d _ _ _ g2.ready g2.key g2.stream g2.eof out
    refine ⟨d', out', ?_⟩
    have hcs := g2.ready.chunk
    have hkl := g2.ready.key
    have hnl := g2.ready.nonce
    have htl := trailerOf_len P L e hf.sender (e.keys P).2.2 (macInput chunks) coin hcoin
    have hcap : d.hdr.chunkSize = e.hdr.chunkSize := by rw [g2.hdr]
    rw [← g2.body, ← g2.nonce] at a2
    cases k2 with
    | badInput x => exact Or.inl ⟨x, k1⟩
    | writeFailed x => exact Or.inl ⟨x, k1⟩
    | endedEmpty mid rest _ _ hm ho hrd hw _ _ _ =>
      right
      rw [hrd] at a2
      obtain ⟨t, t1, t2, t3, t4⟩ := parse_prefix P L _ _ hkl hnl e.hdr.chunkSize (by omega) mid chunks 0 _ _ hck
        (by rw [← hcap]; exact hm) a2
      have ht : t = [[]] := by
        cases t with
        | nil => exact absurd rfl t2
        | cons y ys =>
          have hy : y.length ≤ e.hdr.chunkSize := by
            cases ys with
            | nil => exact t3
            | cons => exact t3.2.1
          have hword : ∃ (b : Bool) (z : Bytes), sealedBody P (e.keys P).2.1 d.nonce (0 + mid.length) (y :: ys) =
              lengthWord y.length b ++ z ∧ (b = true → ys = []) := by
            cases ys with
            | nil => exact ⟨true, _, rfl, fun _ => rfl⟩
            | cons q qs =>
              exact ⟨false, _, (sealedBody_cons P _ _ _ y (q :: qs) (by simp)).trans (List.append_assoc _ _ _), by simp⟩
          obtain ⟨b, z, z1, z2⟩ := hword
          rw [z1, List.append_assoc] at t4
          obtain ⟨w1, _⟩ := prefix_split t4 (by rw [lengthWord_length, lengthWord_length])
          obtain ⟨w2, w3⟩ := lengthWord_inj _ _ _ _ (by omega) (by omega) w1
          have hy0 : y = [] := List.length_eq_zero_iff.mp w2.symm
          rw [hy0, z2 w3.symm]
      refine ⟨k1, by rw [t1, ht]; simp, ?_, ?_⟩
      · rw [hbytes, a1, t1, ht, sealedBody_snoc, ← g2.body, hrd, ← g2.nonce]
        have hs0 : (sealedChunk P (e.keys P).2.1 d.nonce (0 + mid.length) true []).length = 20 := by
          unfold sealedChunk
          rw [List.length_append, lengthWord_length, L.seal_len _ _ _ _ hkl (by simp; omega) (by simp)]
          rfl
        rw [t1, ht] at htl
        simp only [List.length_append, lengthWord_length] at hs0 ⊢
        rw [hs0, htl]
        omega
      · rw [hw.out, ← hfl, t1, ht]; simp
    | endedFull mid fin tr rest _ _ hm ho hf0 hfi htr hof hver hrd hw _ _ _ =>
      exfalso
      rw [hrd] at a2
      obtain ⟨t, t1, t2, t3, t4⟩ := parse_prefix P L _ _ hkl hnl e.hdr.chunkSize (by omega) mid chunks 0 _ _ hck
        (by rw [← hcap]; exact hm) a2
      have ht : t = [fin] ∧ tr ++ rest <+: e.trailerOf P (e.keys P).2.2 (macInput chunks) coin := by
        cases t with
        | nil => exact absurd rfl t2
        | cons y ys =>
          cases ys with
          | nil =>
            simp only [sealedBody] at t4
            have hy : y.length ≤ e.hdr.chunkSize := t3
            obtain ⟨w1, _, w3⟩ := sealedChunk_prefix P L _ _ _ _ _ fin y _ _ hkl hnl (by omega) (by omega) t4
            exact ⟨by rw [w1], w3⟩
          | cons q qs =>
            rw [sealedBody_cons _ _ _ _ _ _ (by simp), List.append_assoc] at t4
            have hy : y.length ≤ e.hdr.chunkSize := t3.2.1
            obtain ⟨_, w2, _⟩ := sealedChunk_prefix P L _ _ _ _ _ fin y _ _ hkl hnl (by omega) (by omega) t4
            cases w2
      obtain ⟨ht1, ht2⟩ := ht
      have hrest : tr ++ rest = e.trailerOf P (e.keys P).2.2 (macInput chunks) coin := by
        have := ht2.length_le
        exact ht2.eq_of_length (by
          rw [htl] at this ⊢
          simp only [List.length_append, htr] at this ⊢
          omega)
      apply hstrict
      have hbod : sealedBody P (e.keys P).2.1 d.nonce 0 chunks = sealedMid P (e.keys P).2.1 d.nonce 0 mid ++
          sealedChunk P (e.keys P).2.1 d.nonce (0 + mid.length) true fin := by
        rw [t1, ht1, sealedBody_snoc]
      rw [hbytes, a1, ← g2.body, hrd, hrest, ← g2.nonce, hbod, List.append_assoc (sealedMid _ _ _ _ _)]

/-- If the sender's last chunk is empty, `Decrypt` accepts every input that begins with all but the last 80 bytes of the
container. -/
theorem Sending.emptyLast {P : Prims} (L : Laws P)
    {sender : Option PrivateKey} {blk : Nat} {c : EncCoins} {rcpts : List (PublicKey × Bytes)} {e : Encryptor}
    {plain : Bytes} {chunks : List Bytes} {bytes : Bytes} (h : Sending P sender blk c rcpts e plain chunks bytes)
    {sk : PrivateKey} {seed : Bytes} {spk : Option PublicKey} (hr : Receiving P sender rcpts sk seed spk)
    (hlast : chunks.getLast? = some [])
    (rd2 : Reader) (hrd2 : bytes.take (bytes.length - 80) <+: rd2.content) (out : Writer) (hout : out.NoFail) :
    (∃ r ∈ rcpts, WrapForgery P (clamp c.csk) c.salt c.key r.1.pk r.2 seed) ∨
    ∃ d d' out', setupDecryptor P rd2 sk spk = .ok d ∧ d.decrypt P out = (.ok (), d', out') ∧
      out'.out = out.out ++ plain ∧ d'.auth = sender.isSome := by
  obtain ⟨epk, ws, coin, hs, hf, e4, e5, hcoin, hbytes, hck, hfl, hne⟩ := h.facts L
  obtain ⟨mid, hmid⟩ : ∃ mid, chunks = mid ++ [[]] := by
    rw [List.getLast?_eq_some_iff] at hlast; exact hlast
  have hkeys := sessionKeys_len P L e.key (P.sha256 (headerPart e.hdr))
  rw [← Encryptor.keys_eq] at hkeys
  have htl := trailerOf_len P L e hf.sender (e.keys P).2.2 (macInput chunks) coin hcoin
  have hlen : (P.aeadSeal (e.keys P).2.1 (be32 (0 + mid.length) ++ (e.keys P).1.drop 4) []
      (lengthWord 0 true)).length = 16 := by
    rw [L.seal_len _ _ _ _ hkeys.2.1 (by simp; omega) (by simp)]; rfl
  have hb2 : bytes = (headerPart e.hdr ++ P.sha256 (headerPart e.hdr) ++
      (sealedMid P (e.keys P).2.1 (e.keys P).1 0 mid ++ lengthWord 0 true)) ++
      (P.aeadSeal (e.keys P).2.1 (be32 (0 + mid.length) ++ (e.keys P).1.drop 4) [] (lengthWord 0 true) ++
        e.trailerOf P (e.keys P).2.2 (macInput chunks) coin) := by
    have hbod : sealedBody P (e.keys P).2.1 (e.keys P).1 0 chunks = sealedMid P (e.keys P).2.1 (e.keys P).1 0 mid ++
        sealedChunk P (e.keys P).2.1 (e.keys P).1 (0 + mid.length) true [] := by
      rw [hmid, sealedBody_snoc]
    rw [hbytes, hbod]
    simp [sealedChunk]
  obtain ⟨rest, hrest⟩ : ∃ rest, rd2.content = (headerPart e.hdr ++ P.sha256 (headerPart e.hdr) ++
      (sealedMid P (e.keys P).2.1 (e.keys P).1 0 mid ++ lengthWord 0 true)) ++ rest := by
    obtain ⟨u, hu⟩ := hrd2
    rw [hb2, List.take_append, List.take_of_length_le (by
      simp only [List.length_append, hlen, htl]; omega)] at hu
    exact ⟨_, by rw [← hu, List.append_assoc]⟩
  rcases h.opens L hr rd2 (sealedMid P (e.keys P).2.1 (e.keys P).1 0 mid ++ (lengthWord 0 true ++ rest))
    (by rw [hrest]; simp) with g | ⟨d, g1, g2⟩
  · exact Or.inl g
  · right
    have hmo : MidOk e.hdr.chunkSize mid := by
      have := hck.take mid.length (by rw [hmid]; simp)
      rw [hmid] at this
      simpa using this
    obtain ⟨d', out', m1, m2, m3⟩ := opened_cut P L d _ _ _ g2.ready g2.key g2.stream g2.eof out hout mid rest
      (by rw [g2.hdr]; exact hmo) (by rw [g2.body, g2.nonce])
    exact ⟨d, d', out', g1, m1, by rw [m2, ← hfl, hmid]; simp, by rw [m3, g2.auth]⟩

/-- **C12** is false of the code when the sender's last chunk is empty (`Encrypt` on an input whose length is a multiple
of the block size): with up to 80 bytes cut off the end (the whole trailer and the tag of the last chunk) `Decrypt` still
returns nil, and says the sender is authenticated if there is one. -/
theorem C12_prefix_refuted (P : Prims) (L : Laws P)
    (sender : Option PrivateKey) (blk : Nat) (c : EncCoins) (rcpts : List (PublicKey × Bytes)) (e : Encryptor)
    (plain : Bytes) (chunks : List Bytes) (bytes : Bytes) (h : Sending P sender blk c rcpts e plain chunks bytes)
    (sk : PrivateKey) (seed : Bytes) (spk : Option PublicKey) (hr : Receiving P sender rcpts sk seed spk)
    (hlast : chunks.getLast? = some []) (j : Nat) (hj : j ≤ 80)
    (rd2 : Reader) (hrd2 : rd2.content = bytes.take (bytes.length - j)) (out : Writer) (hout : out.NoFail) :
    (∃ r ∈ rcpts, WrapForgery P (clamp c.csk) c.salt c.key r.1.pk r.2 seed) ∨
    ∃ d d' out', setupDecryptor P rd2 sk spk = .ok d ∧ d.decrypt P out = (.ok (), d', out') ∧
      out'.out = out.out ++ plain ∧ d'.auth = sender.isSome := by
  refine h.emptyLast L hr hlast rd2 ?_ out hout
  rw [hrd2, List.prefix_take_iff]
  exact ⟨List.take_prefix _ _, by simp; omega⟩

/-- A listed recipient decrypts the container, whatever follows it. -/
theorem Sending.decrypts {P : Prims} (L : Laws P)
    {sender : Option PrivateKey} {blk : Nat} {c : EncCoins} {rcpts : List (PublicKey × Bytes)} {e : Encryptor}
    {plain : Bytes} {chunks : List Bytes} {bytes : Bytes} (h : Sending P sender blk c rcpts e plain chunks bytes)
    {sk : PrivateKey} {seed : Bytes} {spk : Option PublicKey} (hr : Receiving P sender rcpts sk seed spk)
    (rd2 : Reader) (junk : Bytes) (hrd2 : rd2.content = bytes ++ junk) (out : Writer) (hout : out.NoFail) :
    (∃ r ∈ rcpts, WrapForgery P (clamp c.csk) c.salt c.key r.1.pk r.2 seed) ∨
    ∃ d d' out', setupDecryptor P rd2 sk spk = .ok d ∧ d.auth = sender.isSome ∧ d.decrypt P out = (.ok (), d', out') ∧
      out'.out = out.out ++ plain := by
  have key : (∃ r ∈ rcpts, WrapForgery P (clamp c.csk) c.salt c.key r.1.pk r.2 seed) ∨
      ∃ d d' out', setupDecryptor P rd2 sk spk = .ok d ∧ d.decrypt P out = (.ok (), d', out') ∧
        out'.out = out.out ++ plain := by
    obtain ⟨coin, hcoin, ⟨rd, wr, e', rd', wr', h1, h2, h3, h4, _⟩ | ⟨bufs, wr, wr', h1, h2, h3, h4, _⟩⟩ := h.wrote
    · rw [← h1]
      exact C01_encrypt_decrypt P L sender h.hsender blk h.hblk c h.coins rcpts h.nonces h.count e h.setup rd wr h2 coin hcoin
        e' rd' wr' h3 sk seed hr.hseed hr.hsk hr.hpk hr.listed spk hr.named rd2 junk (by rw [h4]; exact hrd2) out hout
    · rw [← h1]
      exact C02_stream_decrypt P L sender h.hsender blk h.hblk c h.coins rcpts h.nonces h.count e h.setup bufs wr h2 coin hcoin
        wr' h3 sk seed hr.hseed hr.hsk hr.hpk hr.listed spk hr.named rd2 junk (by rw [h4]; exact hrd2) out hout
  obtain ⟨epk, ws, coin, hs, hf, e4, e5, hcoin, hbytes, hck, hfl, hne⟩ := h.facts L
  rcases key with g | ⟨d, d', out', g1, g2, g3⟩
  · exact .inl g
  · rcases h.opens L hr rd2 (sealedBody P (e.keys P).2.1 (e.keys P).1 0 chunks ++
        (e.trailerOf P (e.keys P).2.2 (macInput chunks) coin ++ junk)) (by rw [hrd2, hbytes]; simp) with g | ⟨d1, k1, k2⟩
    · exact .inl g
    · rw [g1] at k1
      cases k1
      exact .inr ⟨d, d', out', g1, k2.auth, g2, g3⟩

/-! ### The demo meets the hypotheses -/

theorem Demo.receiving : Receiving toyPrims (some Demo.alice) Demo.rcpts Demo.carol (List.replicate 32 3)
    (some Demo.alice.pub) :=
  ⟨by simp, rfl, rfl, ⟨(Demo.carol.pub, List.replicate 12 5), by simp [Demo.rcpts], rfl⟩,
    by intro s hs; cases hs; exact ⟨_, rfl, rfl⟩⟩

/-- `Encrypt` of eight bytes with block size 4: two full chunks and an empty one. -/
theorem Demo.sending : ∃ e bytes, Sending toyPrims (some Demo.alice) 4 Demo.coins Demo.rcpts e [1, 2, 3, 4, 5, 6, 7, 8]
    [[1, 2, 3, 4], [5, 6, 7, 8], []] bytes := by
  obtain ⟨e, e', rd', wr', h1, h2⟩ := C01_encrypt_succeeds toyPrims toyLaws (some Demo.alice) Demo.sender_genuine 4 Demo.coins
    Demo.coins_wf Demo.rcpts Demo.rcpts_real ⟨[[1, 2, 3], [4, 5, 6, 7, 8]], .eof, true⟩ rfl Demo.dest Demo.dest_noFail rfl
    Demo.coin
  refine ⟨e, wr'.out, Demo.sender_genuine, by decide, Demo.coins_wf, Demo.rcpts_len, by decide, h1, Demo.coin,
    Demo.coin_len, Or.inl ⟨_, _, e', rd', wr', by rfl, rfl, h2, rfl, ?_⟩⟩
  have : effectiveBlock 4 = 4 := rfl
  rw [this, encryptChunks_big _ _ (by decide) (by decide), encryptChunks_big _ _ (by decide) (by decide),
    encryptChunks_small _ _ (by decide)]
  rfl

/-- Six bytes through the stream writer: the last chunk is not empty. -/
theorem Demo.sending_stream : ∃ e bytes, Sending toyPrims (some Demo.alice) 4 Demo.coins Demo.rcpts e [1, 2, 3, 4, 5, 6]
    [[1, 2, 3, 4], [5, 6]] bytes := by
  obtain ⟨e, wr', h1, h2⟩ := C02_stream_succeeds toyPrims toyLaws (some Demo.alice) Demo.sender_genuine 4 Demo.coins
    Demo.coins_wf Demo.rcpts Demo.rcpts_real [[1, 2, 3], [4, 5, 6]] Demo.dest Demo.dest_noFail rfl
    Demo.coin
  refine ⟨e, wr'.out, Demo.sender_genuine, by decide, Demo.coins_wf, Demo.rcpts_len, by decide, h1, Demo.coin,
    Demo.coin_len, Or.inr ⟨_, _, wr', by rfl, rfl, h2, rfl, ?_⟩⟩
  have : effectiveBlock 4 = 4 := rfl
  rw [this, streamChunks_big _ _ (by decide) (by decide), streamChunks_small _ _ (by decide)]
  rfl

/-- The attack of `C11_truncation_refuted` on the demo: Carol accepts the first block alone as a complete message from
Alice. -/
example : ∃ e bytes n, Sending toyPrims (some Demo.alice) 4 Demo.coins Demo.rcpts e [1, 2, 3, 4, 5, 6]
    [[1, 2, 3, 4], [5, 6]] bytes ∧ ∃ d d' out',
    setupDecryptor toyPrims ⟨[bytes.take n ++ [0x80, 0, 0, 0]], .eof, false⟩ Demo.carol (some Demo.alice.pub) = .ok d ∧
    d.decrypt toyPrims Demo.dest = (.ok (), d', out') ∧ out'.out = [1, 2, 3, 4] ∧ d'.auth = true := by
  obtain ⟨e, bytes, hs⟩ := Demo.sending_stream
  rcases C11_truncation_refuted toyPrims toyLaws _ _ _ _ e _ _ bytes hs _ _ _ Demo.receiving 1 (by decide) with g | ⟨n, g⟩
  · exact absurd g Demo.no_forgery
  · obtain ⟨d, d', out', g1, g2, g3, g4⟩ := g ⟨[bytes.take n ++ [0x80, 0, 0, 0]], .eof, false⟩ (by simp [Reader.content])
      Demo.dest Demo.dest_noFail
    exact ⟨e, bytes, n, hs, d, d', out', g1, g2, g3, g4⟩

/-- The demo container without its trailer is accepted. -/
example : ∃ e bytes, Sending toyPrims (some Demo.alice) 4 Demo.coins Demo.rcpts e [1, 2, 3, 4, 5, 6, 7, 8]
    [[1, 2, 3, 4], [5, 6, 7, 8], []] bytes ∧ ∃ d d' out',
    setupDecryptor toyPrims ⟨[bytes.take (bytes.length - 64)], .eof, false⟩ Demo.carol (some Demo.alice.pub) = .ok d ∧
    d.decrypt toyPrims Demo.dest = (.ok (), d', out') ∧ d'.auth = true := by
  obtain ⟨e, bytes, hs⟩ := Demo.sending
  rcases C12_prefix_refuted toyPrims toyLaws _ _ _ _ e _ _ bytes hs _ _ _ Demo.receiving rfl 64 (by decide)
    ⟨[bytes.take (bytes.length - 64)], .eof, false⟩ (by simp [Reader.content]) Demo.dest Demo.dest_noFail
    with g | ⟨d, d', out', g1, g2, _, g4⟩
  · exact absurd g Demo.no_forgery
  · exact ⟨e, bytes, hs, d, d', out', g1, g2, g4⟩

end Sigtool
