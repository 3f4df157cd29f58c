import Verif.Props.StreamWrite
/-!
# C76: the size of an encrypted file

It is determined by the number of recipients, the block size and the number of plaintext bytes.
-/

namespace Sigtool
open Spec (encryptChunks streamChunks sealedBody sealedChunk lengthWord container headerPart sessionKeys headerBytes)

/-- How many bytes the protobuf encoding of a number below 2^35 has. -/
def Spec.varintSize (n : Nat) : Nat :=
  if n < 2^7 then 1 else if n < 2^14 then 2 else if n < 2^21 then 3 else if n < 2^28 then 4 else 5

/-- The size of a file: fixed header 12, variable header (block size field, salt, ephemeral key, sender field: 151 bytes and
the block size; 66 bytes for each recipient), checksum 32, the data with 20 bytes for each chunk, trailer 64. -/
def Spec.fileSize (block recipients bytes chunks : Nat) : Nat :=
  12 + (151 + varintSize block + 66 * recipients) + 32 + (bytes + 20 * chunks) + 64

theorem varint_size : ∀ n, n < 2^35 → (Spec.varint n).length = Spec.varintSize n := by
  intro n hn
  have h1 : ∀ n, n < 128 → (Spec.varint n).length = 1 := fun n h => by rw [Spec.varint, if_pos h]; rfl
  have hs : ∀ n, ¬ n < 128 → (Spec.varint n).length = (Spec.varint (n / 128)).length + 1 :=
    fun n h => by rw [Spec.varint, if_neg h]; rfl
  unfold Spec.varintSize
  split
  · exact h1 n (by omega)
  · split
    · rw [hs n (by omega), h1 _ (by omega)]
    · split
      · rw [hs n (by omega), hs _ (by omega), h1 _ (by omega)]
      · split
        · rw [hs n (by omega), hs _ (by omega), hs _ (by omega), h1 _ (by omega)]
        · rw [hs n (by omega), hs _ (by omega), hs _ (by omega), hs _ (by omega), h1 _ (by omega)]

theorem sealedBody_size (P : Prims) (L : Laws P) (key nonce : Bytes) (hk : key.length = 32) (hn : nonce.length = 12) :
    ∀ (cs : List Bytes) (i : Nat), (∀ c ∈ cs, c.length ≤ 2^30) →
    (sealedBody P key nonce i cs).length = cs.flatten.length + 20 * cs.length := by
  have one : ∀ (i : Nat) (l : Bool) (c : Bytes), c.length ≤ 2^30 → (sealedChunk P key nonce i l c).length = c.length + 20 := by
    intro i l c h
    unfold sealedChunk lengthWord
    rw [List.length_append, L.seal_len _ _ _ _ hk (by simp [hn]) h]
    simp; omega
  intro cs
  induction cs with
  | nil => intro i _; rfl
  | cons c cs ih =>
    intro i h
    by_cases hc : cs = []
    · subst hc
      simp only [sealedBody]
      rw [one _ _ _ (h c (by simp))]; simp
    · rw [sealedBody_cons _ _ _ _ _ _ hc, List.length_append, one _ _ _ (h c (by simp)), ih (i + 1) (fun d hd => h d (by simp [hd]))]
      simp; omega

theorem ChunksOk.le {bs : Nat} : ∀ {cs : List Bytes}, ChunksOk bs cs → ∀ c ∈ cs, c.length ≤ bs := by
  intro cs
  induction cs with
  | nil => intro h; exact absurd h (by simp [ChunksOk])
  | cons a as ih =>
    intro h c hc
    by_cases ha : as = []
    · subst ha
      simp only [List.mem_singleton] at hc
      subst hc; exact h
    · rw [ChunksOk_cons _ _ _ ha] at h
      rcases List.mem_cons.mp hc with rfl | hc
      · exact h.2.1
      · exact ih h.2.2 c hc

theorem container_size (P : Prims) (L : Laws P) (sender : Option PrivateKey) (blk : Nat) (c : EncCoins)
    (rcpts : List (PublicKey × Bytes)) (e : Encryptor) (epk : Bytes) (ws : List WrappedKey) (hc : c.WF)
    (hr : ∀ r ∈ rcpts, r.2.length = 12) (hs : SetupOk P sender blk c rcpts e epk ws) (cs : List Bytes)
    (hcs : ChunksOk (effectiveBlock blk) cs) (trailer : Bytes) (ht : trailer.length = 64) :
    (container P e.hdr e.key cs trailer).length =
      Spec.fileSize (effectiveBlock blk) rcpts.length cs.flatten.length cs.length := by
  have hb : effectiveBlock blk ≤ 2^30 := by unfold effectiveBlock; split <;> omega
  have hh : (headerBytes e.hdr).length = 151 + Spec.varintSize (effectiveBlock blk) + 66 * rcpts.length := by
    have he := hs.enc
    subst he
    have hcb := chooseBlock_pos blk
    have hne : ¬ chooseBlock blk = 0 := by omega
    rw [headerBytes]
    dsimp only
    rw [if_neg hne]
    simp only [List.length_append, List.length_cons]
    rw [field_small _ _ 32 hc.salt (by decide) (by decide), field_small _ _ 32 hs.epkLen (by decide) (by decide),
      field_small _ _ 80 (sender_len P L sender c epk hs.sized) (by decide) (by decide),
      keys_len ws (hs.keys_facts L hc hr), ← hs.wrapped.length_eq, chooseBlock_eq, varint_size _ (by omega)]
    omega
  obtain ⟨k1, k2, _⟩ := sessionKeys_len P L e.key (P.sha256 (headerPart e.hdr))
  unfold container Spec.fileSize
  dsimp only
  simp only [List.length_append]
  rw [sealedBody_size P L _ _ k2 k1 cs 0 (fun c hc => Nat.le_trans (hcs.le c hc) hb), L.sha256_len, ht]
  have hp : (headerPart e.hdr).length = 12 + (headerBytes e.hdr).length := by simp [headerPart, ascii]; omega
  rw [hp, hh]

theorem encryptChunks_count (bs : Nat) (h0 : 0 < bs) : ∀ pt : Bytes, (encryptChunks bs pt).length = pt.length / bs + 1 := by
  intro pt
  induction hn : pt.length using Nat.strongRecOn generalizing pt with
  | _ n ih =>
    by_cases h : pt.length < bs
    · rw [encryptChunks_small _ _ h, ← hn, Nat.div_eq_of_lt h]; rfl
    · rw [encryptChunks_big _ _ h0 (by omega), List.length_cons, ih _ (by simp; omega) _ rfl, List.length_drop, ← hn]
      rw [Nat.div_eq_sub_div h0 (by omega : bs ≤ pt.length)]

theorem streamChunks_count (bs : Nat) (h0 : 0 < bs) : ∀ pt : Bytes,
    (streamChunks bs pt).length = max 1 ((pt.length + bs - 1) / bs) := by
  intro pt
  induction hn : pt.length using Nat.strongRecOn generalizing pt with
  | _ n ih =>
    by_cases h : pt.length ≤ bs
    · rw [streamChunks_small _ _ h, ← hn]
      have : (pt.length + bs - 1) / bs ≤ 1 := by
        rw [Nat.div_le_iff_le_mul h0]; omega
      rw [Nat.max_eq_left this]; rfl
    · rw [streamChunks_big _ _ h0 (by omega), List.length_cons, ih _ (by simp; omega) _ rfl, List.length_drop, ← hn]
      have h1 : (pt.length + bs - 1) / bs = (pt.length - bs + bs - 1) / bs + 1 := by
        rw [Nat.div_eq_sub_div h0 (by omega : bs ≤ pt.length + bs - 1)]
        congr 2
        omega
      have h2 : 1 ≤ (pt.length - bs + bs - 1) / bs := (Nat.le_div_iff_mul_le h0).mpr (by omega)
      rw [h1]; omega

/-- **C76**, `Encrypt`: for every sender (or none), block size, recipients, input and destination, what a successful `Encrypt`
appends to the destination has a size that is determined by the effective block size `b`, the number of recipients and the
number `n` of plaintext bytes: `n/b + 1` chunks. -/
theorem C76_encrypt_size (P : Prims) (L : Laws P) (sender : Option PrivateKey)
    (blk : Nat) (c : EncCoins) (hc : c.WF) (rcpts : List (PublicKey × Bytes)) (hr : ∀ r ∈ rcpts, r.2.length = 12)
    (e : Encryptor) (he : setupEncryptor P sender blk c rcpts = .ok e)
    (rd : Reader) (wr : Writer) (coin : Bytes) (hcoin : coin.length = 64)
    (e' : Encryptor) (rd' : Reader) (wr' : Writer) (henc : e.encrypt P rd wr coin = (.ok (), e', rd', wr')) :
    wr'.out.length = wr.out.length + Spec.fileSize (effectiveBlock blk) rcpts.length rd.content.length
      (rd.content.length / effectiveBlock blk + 1) := by
  obtain ⟨epk, ws, hs⟩ := setupEncryptor_ok P L sender blk c rcpts e hc he
  have hf := hs.fresh L
  obtain ⟨h1, _, _⟩ := encrypt_ok P L e rd wr coin hf e' rd' wr' henc
  have e5 : e.hdr.chunkSize = effectiveBlock blk := by rw [hs.enc, ← chooseBlock_eq]
  have h0 : 0 < effectiveBlock blk := by unfold effectiveBlock; split <;> omega
  obtain ⟨k1, k2, _⟩ := encryptChunks_ok (effectiveBlock blk) h0 rd.content
  rw [Encryptor.fullContainer, e5] at h1
  rw [h1, List.length_append, container_size P L sender blk c rcpts e epk ws hc hr hs _ k1 _
    (trailerOf_len P L e hf.sender _ _ _ hcoin), k2, encryptChunks_count _ h0]

/-- **C76**, stream writer: the same with `max 1 ⌈n/b⌉` chunks, however the data are split over `Write` calls. -/
theorem C76_stream_size (P : Prims) (L : Laws P) (sender : Option PrivateKey)
    (blk : Nat) (c : EncCoins) (hc : c.WF) (rcpts : List (PublicKey × Bytes)) (hr : ∀ r ∈ rcpts, r.2.length = 12)
    (e : Encryptor) (he : setupEncryptor P sender blk c rcpts = .ok e)
    (bufs : List Bytes) (wr : Writer) (coin : Bytes) (hcoin : coin.length = 64)
    (wr' : Writer) (henc : streamEncrypt P e wr coin bufs = (.ok (), wr')) :
    wr'.out.length = wr.out.length + Spec.fileSize (effectiveBlock blk) rcpts.length (bufs.map List.length).sum
      (max 1 (((bufs.map List.length).sum + effectiveBlock blk - 1) / effectiveBlock blk)) := by
  obtain ⟨epk, ws, hs⟩ := setupEncryptor_ok P L sender blk c rcpts e hc he
  have hf := hs.fresh L
  obtain ⟨h1, _⟩ := streamEncrypt_ok P L e wr coin bufs hf wr' henc
  have e5 : e.hdr.chunkSize = effectiveBlock blk := by rw [hs.enc, ← chooseBlock_eq]
  have h0 : 0 < effectiveBlock blk := by unfold effectiveBlock; split <;> omega
  obtain ⟨k1, k2, _⟩ := streamChunks_ok (effectiveBlock blk) h0 bufs.flatten
  rw [Encryptor.fullContainer, e5] at h1
  rw [h1, List.length_append, container_size P L sender blk c rcpts e epk ws hc hr hs _ k1 _
    (trailerOf_len P L e hf.sender _ _ _ hcoin), k2, streamChunks_count _ h0, List.length_flatten]

/-- **C76**, what the size does not depend on: two successful `Encrypt` calls with the same block size, as many recipients and
as many input bytes write as many bytes, whether or not there is a sender and whoever the recipients are. -/
theorem C76_nothing_else (P : Prims) (L : Laws P) (blk : Nat) (snd1 snd2 : Option PrivateKey) (c1 c2 : EncCoins)
    (hc1 : c1.WF) (hc2 : c2.WF) (rc1 rc2 : List (PublicKey × Bytes)) (hr1 : ∀ r ∈ rc1, r.2.length = 12)
    (hr2 : ∀ r ∈ rc2, r.2.length = 12) (hn : rc1.length = rc2.length) (e1 e2 : Encryptor)
    (he1 : setupEncryptor P snd1 blk c1 rc1 = .ok e1) (he2 : setupEncryptor P snd2 blk c2 rc2 = .ok e2)
    (a b : Reader) (hab : a.content.length = b.content.length) (w1 w2 : Writer) (hw1 : w1.out = []) (hw2 : w2.out = [])
    (t1 t2 : Bytes) (ht1 : t1.length = 64) (ht2 : t2.length = 64) (e1' e2' : Encryptor) (a' b' : Reader) (w1' w2' : Writer)
    (k1 : e1.encrypt P a w1 t1 = (.ok (), e1', a', w1')) (k2 : e2.encrypt P b w2 t2 = (.ok (), e2', b', w2')) :
    w1'.out.length = w2'.out.length := by
  rw [C76_encrypt_size P L snd1 blk c1 hc1 rc1 hr1 e1 he1 a w1 t1 ht1 e1' a' w1' k1,
    C76_encrypt_size P L snd2 blk c2 hc2 rc2 hr2 e2 he2 b w2 t2 ht2 e2' b' w2' k2, hw1, hw2, hn, hab]

/-- The formula on the demo: ten bytes in blocks of four for two recipients. -/
example : Spec.fileSize (effectiveBlock 4) Demo.rcpts.length Demo.input.content.length
    (Demo.input.content.length / effectiveBlock 4 + 1) = 462 := by decide

example : ∃ e e' rd' wr', setupEncryptor toyPrims (some Demo.alice) 4 Demo.coins Demo.rcpts = .ok e ∧
    e.encrypt toyPrims Demo.input Demo.dest Demo.coin = (.ok (), e', rd', wr') ∧ Demo.coins.WF ∧
    (∀ r ∈ Demo.rcpts, r.2.length = 12) ∧ Demo.coin.length = 64 := by
  obtain ⟨e, e', rd', wr', h1, h2⟩ := Demo.encrypts
  exact ⟨e, e', rd', wr', h1, h2, Demo.coins_wf, by decide, by decide⟩

end Sigtool
