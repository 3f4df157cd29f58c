import Verif.EncLemmas
import Mathlib.Data.Nat.Bitwise
/-! # Lemmas about the container reader -/

namespace Sigtool
open Spec (encryptChunks streamChunks lengthWord sealedChunk sealedBody macInput headerPart sessionKeys container
  headerBytes)

@[simp] theorem ctEq_self (x : Bytes) : ctEq x x = true := by simp [ctEq]

theorem magic_length : magic.length = 7 := by decide

theorem fixed_length (n : Nat) : (magic ++ [version] ++ be32 n).length = 12 := by
  simp [magic_length]

theorem headerPart_eq (h : Header) :
    headerPart h = (magic ++ [version] ++ be32 (headerBytes h).length) ++ headerBytes h := rfl

/-- `NewDecryptor` on what a conforming writer produced decodes that header and then checks it. -/
theorem newDecryptor_genuine (P : Prims) (L : Laws P) (h : Header) (rest : Bytes) (rd : Reader)
    (hc : Proto.Clean h) (hcs : h.chunkSize < 2^32) (hmin : 32 ≤ (headerBytes h).length)
    (hmax : (headerBytes h).length ≤ 1048576)
    (hrd : rd.content = headerPart h ++ P.sha256 (headerPart h) ++ rest) :
    ∃ rd', newDecryptor P rd = (match checkHeader h with
        | none => .ok { hdr := h, rd := rd', hdrsum := P.sha256 (headerPart h) }
        | some x => .err x, rd') ∧
      rd'.content = rest ∧ rd'.last = rd.last := by
  have hsha := L.sha256_len (headerPart h)
  have hfix := fixed_length (headerBytes h).length
  have hrd' : rd.content = (magic ++ [version] ++ be32 (headerBytes h).length) ++
      ((headerBytes h ++ P.sha256 (headerPart h)) ++ rest) := by
    rw [hrd, headerPart_eq]; simp
  obtain ⟨rd1, h1, h2, h3⟩ := readFull_enough rd 12 (by rw [hrd', List.length_append, hfix]; omega)
  have hb : rd.content.take 12 = magic ++ [version] ++ be32 (headerBytes h).length := by
    rw [hrd', List.take_append_of_le_length (by omega), List.take_of_length_le (by omega)]
  have hrest : rd1.content = (headerBytes h ++ P.sha256 (headerPart h)) ++ rest := by
    rw [h2, hrd', List.drop_append_of_le_length (by omega), List.drop_of_length_le (by omega)]; rfl
  unfold newDecryptor
  rw [h1, hb]
  have t1 : (magic ++ [version] ++ be32 (headerBytes h).length).take 7 = magic := by
    rw [List.append_assoc, List.take_append_of_le_length (by rw [magic_length]),
      List.take_of_length_le (by rw [magic_length])]
  have t2 : (magic ++ [version] ++ be32 (headerBytes h).length)[7]? = some version := by
    rw [List.append_assoc, List.getElem?_append_right (by rw [magic_length])]
    rw [magic_length]; rfl
  have t3 : be32dec ((magic ++ [version] ++ be32 (headerBytes h).length).drop 8) = (headerBytes h).length := by
    have : (magic ++ [version]).length = 8 := by decide
    rw [← this, List.drop_left]
    have := be32dec_be32 (headerBytes h).length []
    rw [List.append_nil] at this
    rw [this]; omega
  simp only [t1, t2, t3, ne_eq, not_true_eq_false, if_false]
  have n1 : ¬ (headerBytes h).length > 1048576 := by omega
  have n2 : ¬ (headerBytes h).length < 32 := by omega
  simp only [n1, n2, if_false]
  have hlen : ((headerBytes h ++ P.sha256 (headerPart h))).length = (headerBytes h).length + 32 := by
    simp [hsha]
  obtain ⟨rd2, g1, g2, g3⟩ := readFull_enough rd1 ((headerBytes h).length + 32)
    (by rw [hrest, List.length_append, hlen]; omega)
  have hv : rd1.content.take ((headerBytes h).length + 32) = headerBytes h ++ P.sha256 (headerPart h) := by
    rw [hrest, List.take_append_of_le_length (by omega), List.take_of_length_le (by omega)]
  rw [g1, hv]
  simp only [List.drop_left, List.take_left, ← headerPart_eq, ctEq_self, Bool.not_true, Bool.false_eq_true,
    if_false]
  rw [Proto.header_unmarshal h hc hcs (by omega)]
  refine ⟨rd2, ?_, ?_, by rw [g3, h3]⟩
  · dsimp only
    cases checkHeader h <;> rfl
  rw [g2, hrest, List.drop_append_of_le_length (by omega), List.drop_of_length_le (by omega)]; rfl

/-- `NewDecryptor` accepts what a conforming writer produced. -/
theorem newDecryptor_accepts (P : Prims) (L : Laws P) (h : Header) (rest : Bytes) (rd : Reader)
    (hc : Proto.Clean h) (hcs : h.chunkSize < 2^32) (hmin : 32 ≤ (headerBytes h).length)
    (hmax : (headerBytes h).length ≤ 1048576) (hck : checkHeader h = none)
    (hrd : rd.content = headerPart h ++ P.sha256 (headerPart h) ++ rest) :
    ∃ rd', newDecryptor P rd = (.ok { hdr := h, rd := rd', hdrsum := P.sha256 (headerPart h) }, rd') ∧
      rd'.content = rest ∧ rd'.last = rd.last := by
  obtain ⟨rd', h1, h2⟩ := newDecryptor_genuine P L h rest rd hc hcs hmin hmax hrd
  rw [hck] at h1
  exact ⟨rd', h1, h2⟩

/-- A header that is too long is rejected. -/
theorem newDecryptor_tooBig (P : Prims) (h : Header) (rest : Bytes) (rd : Reader)
    (hmax : 1048576 < (headerBytes h).length) (hlt : (headerBytes h).length < 2^32)
    (hrd : rd.content = headerPart h ++ rest) : ∃ rd', newDecryptor P rd = (.err .headerTooBig, rd') := by
  have hfix := fixed_length (headerBytes h).length
  have hrd' : rd.content = (magic ++ [version] ++ be32 (headerBytes h).length) ++ (headerBytes h ++ rest) := by
    rw [hrd, headerPart_eq]; simp
  obtain ⟨rd1, h1, h2, h3⟩ := readFull_enough rd 12 (by rw [hrd', List.length_append, hfix]; omega)
  have hb : rd.content.take 12 = magic ++ [version] ++ be32 (headerBytes h).length := by
    rw [hrd', List.take_append_of_le_length (by omega), List.take_of_length_le (by omega)]
  unfold newDecryptor
  rw [h1, hb]
  have t1 : (magic ++ [version] ++ be32 (headerBytes h).length).take 7 = magic := by
    rw [List.append_assoc, List.take_append_of_le_length (by rw [magic_length]),
      List.take_of_length_le (by rw [magic_length])]
  have t2 : (magic ++ [version] ++ be32 (headerBytes h).length)[7]? = some version := by
    rw [List.append_assoc, List.getElem?_append_right (by rw [magic_length])]
    rw [magic_length]; rfl
  have t3 : be32dec ((magic ++ [version] ++ be32 (headerBytes h).length).drop 8) = (headerBytes h).length := by
    have : (magic ++ [version]).length = 8 := by decide
    rw [← this, List.drop_left]
    have := be32dec_be32 (headerBytes h).length []
    rw [List.append_nil] at this
    rw [this]; omega
  simp only [t1, t2, t3, ne_eq, not_true_eq_false, if_false]
  have n1 : (headerBytes h).length > 1048576 := by omega
  simp only [n1, if_true]
  exact ⟨rd1, rfl⟩

/-! ### One chunk -/

theorem and_two_pow_pos (x n : Nat) : (x &&& 2^n > 0) ↔ x.testBit n = true := by
  rw [Nat.and_two_pow]
  cases x.testBit n with
  | false => simp
  | true => simpa using Nat.two_pow_pos n

theorem eofMask (x : Nat) (h : x < 2^32) : wordEof x = decide (2^31 ≤ x) := by
  rw [wordEof, eofBit_eq]
  congr 1
  rw [and_two_pow_pos, Nat.testBit_eq_decide_div_mod_eq, decide_eq_true_iff]
  apply propext
  omega

theorem lowMask (x : Nat) : wordLen x = x % 2^31 := by
  rw [wordLen, eofBit_eq, Nat.and_two_pow_sub_one_eq_mod]

theorem be32dec_lengthWord (n : Nat) (last : Bool) (h : n ≤ 2^30) :
    be32dec (lengthWord n last) = n + if last then 2^31 else 0 := by
  unfold lengthWord
  have := be32dec_be32 (n + if last then 2^31 else 0) []
  rw [List.append_nil] at this
  rw [this]
  apply Nat.mod_eq_of_lt
  split <;> omega

theorem wordEof_lengthWord (n : Nat) (last : Bool) (h : n ≤ 2^30) :
    wordEof (be32dec (lengthWord n last)) = last := by
  rw [eofMask _ (be32dec_lt _), be32dec_lengthWord n last h]
  cases last with
  | false => exact decide_eq_false (by simp only [Bool.false_eq_true, if_false]; omega)
  | true => exact decide_eq_true (by simp only [if_true]; omega)

theorem wordLen_lengthWord (n : Nat) (last : Bool) (h : n ≤ 2^30) :
    wordLen (be32dec (lengthWord n last)) = n := by
  rw [lowMask, be32dec_lengthWord n last h]
  split <;> omega

/-- A decryptor on which `SetPrivateKey` succeeded. -/
structure Decryptor.Ready (d : Decryptor) (dkey hk hd : Bytes) : Prop where
  ae : d.ae = some dkey
  hmac : d.hmac = some (hk, hd)
  buf : d.bufLen = d.hdr.chunkSize + 16
  chunk : d.hdr.chunkSize < 2^30
  key : dkey.length = 32
  nonce : d.nonce.length = 12
  sender : d.auth = true → ∃ pk, d.sender = some pk ∧ pk.pk.length = 32

@[simp] theorem lengthWord_length (n : Nat) (l : Bool) : (lengthWord n l).length = 4 := rfl

theorem readFull_append (rd : Reader) (a rest : Bytes) (n : Nat) (ha : a.length = n) (h : rd.content = a ++ rest) :
    ∃ rd', readFull rd n = (a, none, rd') ∧ rd'.content = rest ∧ rd'.last = rd.last := by
  subst ha
  obtain ⟨rd', h1, h2, h3⟩ := readFull_enough rd a.length (by rw [h]; simp)
  rw [h] at h1 h2
  refine ⟨rd', ?_, ?_, h3⟩
  · rw [h1]; simp
  · rw [h2]; simp

/-- A complete frame (length word and sealed bytes) is available: what one block does with it. -/
theorem decryptBlock_frame (P : Prims) (d : Decryptor) (dkey hk hd w ct rest : Bytes) (i m : Nat) (eof : Bool)
    (hae : d.ae = some dkey) (hh : d.hmac = some (hk, hd)) (hbuf : d.bufLen = d.hdr.chunkSize + 16)
    (hchunk : d.hdr.chunkSize < 2^30) (hw4 : w.length = 4) (he : wordEof (be32dec w) = eof)
    (hm : wordLen (be32dec w) = m) (hm0 : 0 < m) (hmc : m ≤ d.hdr.chunkSize) (hct : ct.length = m + 16)
    (hrd : d.rd.content = w ++ (ct ++ rest)) :
    ∃ rd', rd'.content = rest ∧ rd'.last = d.rd.last ∧ d.decryptBlock P i =
      match P.aeadOpen dkey (be32 i ++ d.nonce.drop 4) ct w with
      | none => (.err (.wrap "decrypt: can't decrypt chunk" (.msg "cipher: message authentication failed")),
          { d with rd := rd' })
      | some pt =>
        if pt.length % 2^32 ≠ m then (.err (.msg "decrypt: partial unsealed bytes"), { d with rd := rd' })
        else if eof then { d with rd := rd', hmac := some (hk, hd ++ w ++ pt) }.processTrailer P pt
        else (.ok (pt, false), { d with rd := rd', hmac := some (hk, hd ++ w ++ pt) }) := by
  obtain ⟨rd1, h1, h2, h3⟩ := readFull_append d.rd _ _ 4 hw4 hrd
  obtain ⟨rd2, g1, g2, g3⟩ := readFull_append rd1 _ _ (m + 16) hct h2
  refine ⟨rd2, g2, by rw [g3, h3], ?_⟩
  have e2 : ¬ m > d.hdr.chunkSize := by omega
  have e3 : ¬ m = 0 := by omega
  have e4 : (m + 16) % 2^32 = m + 16 := Nat.mod_eq_of_lt (by omega)
  have e5 : ¬ m + 16 > d.bufLen := by rw [hbuf]; omega
  unfold Decryptor.decryptBlock
  rw [hae]; dsimp only
  rw [h1]; dsimp only
  rw [he, hm, e4, if_neg e2, if_neg e3, if_neg e5, g1]; dsimp only
  rw [chunkNonce, hh]
  cases P.aeadOpen dkey (be32 i ++ List.drop 4 d.nonce) ct w <;> rfl

/-- A genuine chunk that is not the last. -/
theorem decryptBlock_mid (P : Prims) (L : Laws P) (d : Decryptor) (dkey hk hd pt rest : Bytes) (i : Nat)
    (hr : d.Ready dkey hk hd) (hp0 : 0 < pt.length) (hp : pt.length ≤ d.hdr.chunkSize)
    (hrd : d.rd.content = sealedChunk P dkey d.nonce i false pt ++ rest) :
    ∃ rd', d.decryptBlock P i =
        (.ok (pt, false), { d with rd := rd', hmac := some (hk, hd ++ lengthWord pt.length false ++ pt) }) ∧
      rd'.content = rest := by
  have hc := hr.chunk
  have hn : (be32 i ++ d.nonce.drop 4).length = 12 := by simp [hr.nonce]
  have hl := L.seal_len dkey (be32 i ++ d.nonce.drop 4) pt (lengthWord pt.length false) hr.key hn (by omega)
  have ho := L.open_seal dkey (be32 i ++ d.nonce.drop 4) pt (lengthWord pt.length false) hr.key hn (by omega)
  rw [sealedChunk, List.append_assoc] at hrd
  obtain ⟨rd2, h1, _, h2⟩ := decryptBlock_frame P d dkey hk hd _ _ rest i pt.length false hr.ae hr.hmac hr.buf hr.chunk
    (lengthWord_length _ _) (wordEof_lengthWord _ _ (by omega)) (wordLen_lengthWord _ _ (by omega)) hp0 hp hl hrd
  refine ⟨rd2, ?_, h1⟩
  rw [h2, ho]
  dsimp only
  rw [if_neg (by rw [Nat.mod_eq_of_lt (by omega)]; simp), if_neg (by simp)]

/-- The trailer of a genuine session verifies. -/
def Decryptor.TrailerOk (P : Prims) (d : Decryptor) (hk hd trailer : Bytes) : Prop :=
  d.auth = true → ∃ pk, d.sender = some pk ∧ P.edVerify pk.pk (signDigest P (P.hmac256 hk hd)) trailer = true

/-- A genuine non-empty last chunk with its trailer. -/
theorem decryptBlock_last (P : Prims) (L : Laws P) (d : Decryptor) (dkey hk hd pt trailer rest : Bytes) (i : Nat)
    (hr : d.Ready dkey hk hd) (hp0 : 0 < pt.length) (hp : pt.length ≤ d.hdr.chunkSize)
    (ht : trailer.length = 64) (hto : d.TrailerOk P hk (hd ++ lengthWord pt.length true ++ pt) trailer)
    (hrd : d.rd.content = sealedChunk P dkey d.nonce i true pt ++ (trailer ++ rest)) :
    ∃ rd', d.decryptBlock P i =
        (.ok (pt, true), { d with rd := rd', hmac := some (hk, hd ++ lengthWord pt.length true ++ pt) }) ∧
      rd'.content = rest := by
  have hc := hr.chunk
  have hn : (be32 i ++ d.nonce.drop 4).length = 12 := by simp [hr.nonce]
  have hl := L.seal_len dkey (be32 i ++ d.nonce.drop 4) pt (lengthWord pt.length true) hr.key hn (by omega)
  have ho := L.open_seal dkey (be32 i ++ d.nonce.drop 4) pt (lengthWord pt.length true) hr.key hn (by omega)
  rw [sealedChunk, List.append_assoc] at hrd
  obtain ⟨rd2, g2, _, h2⟩ := decryptBlock_frame P d dkey hk hd _ _ (trailer ++ rest) i pt.length true hr.ae hr.hmac
    hr.buf hr.chunk
    (lengthWord_length _ _) (wordEof_lengthWord _ _ (by omega)) (wordLen_lengthWord _ _ (by omega)) hp0 hp hl hrd
  have e7 : pt.length % 2^32 = pt.length := Nat.mod_eq_of_lt (by omega)
  rw [h2, ho]
  dsimp only
  rw [e7, if_neg (by simp), if_pos rfl]
  unfold Decryptor.processTrailer
  obtain ⟨rd3, k1, k2, k3⟩ := readFull_append rd2 _ _ 64 ht g2
  dsimp only
  rw [k1]
  dsimp only
  cases ha : d.auth with
  | false => exact ⟨rd3, by simp, k2⟩
  | true =>
    obtain ⟨pk, p1, p2⟩ := hto ha
    obtain ⟨pk', q1, q2⟩ := hr.sender ha
    rw [p1] at q1; cases q1
    refine ⟨rd3, ?_, k2⟩
    rw [p1]
    simp only [verifyMessage, q2, p2, ne_eq, not_true_eq_false, if_false, Bool.not_true, Bool.false_eq_true]

/-- The end marker with length zero: nothing more is read. -/
theorem decryptBlock_empty (P : Prims) (d : Decryptor) (dkey rest : Bytes) (i : Nat)
    (ha : d.ae = some dkey) (hrd : d.rd.content = lengthWord 0 true ++ rest) :
    ∃ rd', d.decryptBlock P i = (.ok ([], true), { d with rd := rd' }) ∧ rd'.content = rest := by
  obtain ⟨rd1, h1, h2, h3⟩ := readFull_append d.rd _ _ 4 (lengthWord_length _ _) hrd
  refine ⟨rd1, ?_, h2⟩
  unfold Decryptor.decryptBlock
  rw [ha]; dsimp only
  rw [h1]; dsimp only
  rw [wordEof_lengthWord _ _ (by omega), wordLen_lengthWord _ _ (by omega)]
  simp

/-- Chunk lists a conforming writer produces: all chunks at most the chunk size, all but the last non-empty. -/
def ChunksOk (cs : Nat) : List Bytes → Prop
  | [] => False
  | [c] => c.length ≤ cs
  | c :: t => 0 < c.length ∧ c.length ≤ cs ∧ ChunksOk cs t

theorem ChunksOk_cons (cs : Nat) (c : Bytes) (t : List Bytes) (h : t ≠ []) :
    ChunksOk cs (c :: t) ↔ 0 < c.length ∧ c.length ≤ cs ∧ ChunksOk cs t := by
  cases t with
  | nil => exact absurd rfl h
  | cons => rfl

/-- The loop of `Decrypt` on a genuine body. -/
theorem decryptLoop_genuine (P : Prims) (L : Laws P) : ∀ (chunks : List Bytes) (fuel : Nat) (d : Decryptor)
    (wr : Writer) (i : Nat) (dkey hk hd trailer rest : Bytes),
    d.Ready dkey hk hd → wr.NoFail → chunks.length ≤ fuel → ChunksOk d.hdr.chunkSize chunks →
    trailer.length = 64 → d.TrailerOk P hk (hd ++ macInput chunks) trailer →
    d.rd.content = sealedBody P dkey d.nonce i chunks ++ (trailer ++ rest) →
    ∃ d' wr', Decryptor.decryptLoop P fuel d wr i = (.ok (), d', wr') ∧
      wr'.out = wr.out ++ chunks.flatten ∧ d'.eof = true ∧ wr'.NoFail := by
  intro chunks
  induction chunks with
  | nil => intro fuel d wr i dkey hk hd trailer rest _ _ _ hc; exact absurd hc (by simp [ChunksOk])
  | cons c cs ih =>
    intro fuel d wr i dkey hk hd trailer rest hr hw hf hck ht hto hrd
    cases fuel with
    | zero => simp at hf
    | succ fuel =>
    unfold Decryptor.decryptLoop
    by_cases hcs : cs = []
    · subst hcs
      simp only [ChunksOk] at hck
      simp only [sealedBody] at hrd
      simp only [macInput] at hto
      by_cases h0 : c.length = 0
      · have : c = [] := List.length_eq_zero_iff.mp h0
        subst this
        rw [sealedChunk, List.append_assoc] at hrd
        obtain ⟨rd', h1, _⟩ := decryptBlock_empty P d dkey _ i hr.ae hrd
        rw [h1]
        exact ⟨_, wr, by simp; rfl, by simp, rfl, hw⟩
      · obtain ⟨rd', h1, _⟩ := decryptBlock_last P L d dkey hk hd c trailer rest i hr (by omega) hck ht
          (by rw [List.append_assoc]; exact hto) hrd
        rw [h1]
        obtain ⟨wr', g1, g2, g3, _⟩ := fullwrite_noFail c wr hw
        have : c.length > 0 := by omega
        simp only [this, if_true, g1]
        exact ⟨_, wr', rfl, by simp [g2], rfl, g3⟩
    · rw [ChunksOk_cons _ _ _ hcs] at hck
      rw [sealedBody_cons _ _ _ _ _ _ hcs, List.append_assoc] at hrd
      rw [macInput_cons _ _ hcs] at hto
      obtain ⟨rd', h1, h2⟩ := decryptBlock_mid P L d dkey hk hd c _ i hr hck.1 hck.2.1 hrd
      rw [h1]
      obtain ⟨wr', g1, g2, g3, _⟩ := fullwrite_noFail c wr hw
      have : c.length > 0 := hck.1
      simp only [this, if_true, g1, Bool.false_eq_true, if_false]
      obtain ⟨d2, wr2, k1, k2, k3, k4⟩ := ih fuel
        { d with rd := rd', hmac := some (hk, hd ++ lengthWord c.length false ++ c) } wr' ((i + 1) % 2^32)
        dkey hk (hd ++ lengthWord c.length false ++ c) trailer rest
        ⟨hr.ae, rfl, hr.buf, hr.chunk, hr.key, hr.nonce, hr.sender⟩ g3 (by simpa using hf) hck.2.2 ht
        (by intro ha
            have := hto ha
            simpa using this)
        (by rw [h2]; simp only; rw [sealedBody_mod P dkey d.nonce cs ((i+1) % 2^32) (i+1) (by omega)])
      exact ⟨d2, wr2, k1, by rw [k2, g2]; simp, k3, k4⟩

theorem encryptChunks_ok (bs : Nat) (h0 : 0 < bs) : ∀ pt : Bytes, ChunksOk bs (encryptChunks bs pt) ∧
    (encryptChunks bs pt).flatten = pt ∧ (encryptChunks bs pt).length ≤ pt.length + 1 := by
  intro pt
  induction hn : pt.length using Nat.strongRecOn generalizing pt with
  | _ n ih =>
    by_cases h : pt.length < bs
    · rw [encryptChunks_small _ _ h]; simp [ChunksOk]; omega
    · rw [encryptChunks_big _ _ h0 (by omega), ChunksOk_cons _ _ _ (encryptChunks_ne_nil _ _)]
      obtain ⟨h1, h2, h3⟩ := ih (pt.drop bs).length (by simp; omega) (pt.drop bs) rfl
      refine ⟨⟨by simp; try omega, by simp; try omega, h1⟩, by simp [h2], ?_⟩
      simp at h3 ⊢; omega

theorem streamChunks_ok (bs : Nat) (h0 : 0 < bs) : ∀ pt : Bytes, ChunksOk bs (streamChunks bs pt) ∧
    (streamChunks bs pt).flatten = pt ∧ (streamChunks bs pt).length ≤ pt.length + 1 := by
  intro pt
  induction hn : pt.length using Nat.strongRecOn generalizing pt with
  | _ n ih =>
    by_cases h : pt.length ≤ bs
    · rw [streamChunks_small _ _ h]; simp [ChunksOk]; omega
    · rw [streamChunks_big _ _ h0 (by omega), ChunksOk_cons _ _ _ (streamChunks_ne_nil _ _)]
      obtain ⟨h1, h2, h3⟩ := ih (pt.drop bs).length (by simp; omega) (pt.drop bs) rfl
      refine ⟨⟨by simp; try omega, by simp; try omega, h1⟩, by simp [h2], ?_⟩
      simp at h3 ⊢; omega

end Sigtool
