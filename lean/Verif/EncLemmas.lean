import Verif.Encrypt
import Verif.Decrypt
import Verif.ProtoLemmas
import Verif.Spec.Container
/-! # Lemmas about the container writer -/

namespace Sigtool
open Spec (encryptChunks streamChunks lengthWord sealedChunk sealedBody macInput headerPart sessionKeys container)

theorem eofBit_eq : eofBit = 2^31 := by decide
theorem maxChunk_eq : maxChunk = 2^30 := by decide

theorem lenWord_eq (n : Nat) (eof : Bool) (h : n ≤ 2^30) :
    lenWord n eof = n + if eof then 2^31 else 0 := by
  unfold lenWord
  have : n % 2^32 = n := Nat.mod_eq_of_lt (by omega)
  rw [this, eofBit_eq]
  cases eof with
  | false => simp
  | true =>
    simp only [if_true]
    rw [Nat.or_comm, show (2^31 : Nat) = 2^31 * 1 from rfl,
      ← Nat.two_pow_add_eq_or_of_lt (show n < 2^31 by omega)]
    omega

theorem lenWord_word (n : Nat) (eof : Bool) (h : n ≤ 2^30) : be32 (lenWord n eof) = lengthWord n eof := by
  rw [lenWord_eq n eof h]; rfl

theorem dataKeys_eq (P : Prims) (key cksum : Bytes) : dataKeys P key cksum = sessionKeys P key cksum := by
  simp [dataKeys, sessionKeys, expand, List.drop_drop]

/-- A started encryptor: cipher, nonce, HMAC and buffer are in place. -/
structure Encryptor.Ready (e : Encryptor) (dkey hk hd : Bytes) : Prop where
  ae : e.ae = some dkey
  hmac : e.hmac = some (hk, hd)
  buf : e.bufLen = e.hdr.chunkSize + 4 + 16
  chunk : e.hdr.chunkSize ≤ 2^30
  key : dkey.length = 32
  nonce : e.nonce.length = 12

theorem chunkNonce_length (nonce : Bytes) (i : Nat) (h : nonce.length = 12) : (chunkNonce nonce i).length = 12 := by
  simp [chunkNonce, h]

/-- What the trailer of a session is. -/
def Encryptor.trailerOf (P : Prims) (e : Encryptor) (hk hd coin : Bytes) : Bytes :=
  match e.auth, e.sender with
  | true, some sk => P.edSign sk.sk (signDigest P (P.hmac256 hk hd))
  | _, _ => coin

/-- The sender of an authenticating encryptor is usable. -/
def Encryptor.SenderOk (e : Encryptor) : Prop :=
  e.auth = true → ∃ sk, e.sender = some sk ∧ sk.sk.length = 64

theorem writeTrailer_noFail (P : Prims) (e : Encryptor) (wr : Writer) (coin hk hd : Bytes)
    (hh : e.hmac = some (hk, hd)) (hs : e.SenderOk) (hw : wr.NoFail) :
    ∃ wr', e.writeTrailer P wr coin = (.ok (), wr') ∧ wr'.out = wr.out ++ e.trailerOf P hk hd coin ∧ wr'.NoFail ∧
      wr'.closes = wr.closes ∧ wr'.closeErr = wr.closeErr := by
  unfold Encryptor.writeTrailer
  cases ha : e.auth with
  | false =>
    obtain ⟨wr', h1, h2, h3, h4, h5⟩ := fullwrite_noFail coin wr hw
    refine ⟨wr', ?_, ?_, h3, h4, h5⟩
    · simp [h1]
    · simp [h2, Encryptor.trailerOf, ha]
  | true =>
    obtain ⟨sk, hsk, hlen⟩ := hs ha
    obtain ⟨wr', h1, h2, h3, h4, h5⟩ :=
      fullwrite_noFail (P.edSign sk.sk (signDigest P (P.hmac256 hk hd))) wr hw
    refine ⟨wr', ?_, ?_, h3, h4, h5⟩
    · simp [hh, hsk, signMessage, hlen, h1]
    · simp [h2, Encryptor.trailerOf, ha, hsk]

/-- One block, to a destination that does not fail. -/
theorem encryptBlock_noFail (P : Prims) (L : Laws P) (e : Encryptor) (dkey hk hd pt : Bytes) (wr : Writer)
    (i : Nat) (eof : Bool) (coin : Bytes) (hr : e.Ready dkey hk hd) (hs : e.SenderOk)
    (hp : pt.length ≤ e.hdr.chunkSize) (hw : wr.NoFail) :
    ∃ wr', e.encryptBlock P pt wr i eof coin =
        (.ok (), { e with seals := e.seals ++ [⟨dkey, chunkNonce e.nonce i, lengthWord pt.length eof, pt⟩]
                          hmac := some (hk, hd ++ lengthWord pt.length eof ++ pt) }, wr') ∧
      wr'.out = wr.out ++ sealedChunk P dkey e.nonce i eof pt ++
        (if eof then e.trailerOf P hk (hd ++ lengthWord pt.length eof ++ pt) coin else []) ∧
      wr'.NoFail ∧ wr'.closes = wr.closes ∧ wr'.closeErr = wr.closeErr := by
  have hc := hr.chunk
  have hw0 : be32 (lenWord pt.length eof) = lengthWord pt.length eof := lenWord_word _ _ (by omega)
  have hl := L.seal_len dkey (chunkNonce e.nonce i) pt (lengthWord pt.length eof) hr.key
    (chunkNonce_length _ _ hr.nonce) (by omega)
  obtain ⟨wr1, h1, h2, h3, h4, h5⟩ := fullwrite_noFail
    (lengthWord pt.length eof ++ P.aeadSeal dkey (chunkNonce e.nonce i) pt (lengthWord pt.length eof)) wr hw
  have hb : ¬ (pt.length + 16 + 4 > e.hdr.chunkSize + 4 + 16) := by omega
  unfold Encryptor.encryptBlock
  simp only [hr.ae, hr.buf, hw0, hl, hb, if_false, h1, hr.hmac]
  cases eof with
  | false =>
    refine ⟨wr1, by simp, ?_, h3, h4, h5⟩
    rw [h2]; simp [sealedChunk, chunkNonce]
  | true =>
    simp only [if_true]
    obtain ⟨wr2, g1, g2, g3, g4, g5⟩ := writeTrailer_noFail P
      { e with seals := e.seals ++ [⟨dkey, chunkNonce e.nonce i, lengthWord pt.length true, pt⟩]
               hmac := some (hk, hd ++ lengthWord pt.length true ++ pt) } wr1 coin hk
      (hd ++ lengthWord pt.length true ++ pt) rfl hs h3
    refine ⟨wr2, ?_, ?_, g3, by omega, by rw [g5, h5]⟩
    · simp only [hr.ae, hr.buf] at g1
      rw [g1]
    · rw [g2, h2]; simp [sealedChunk, chunkNonce, Encryptor.trailerOf]

theorem encryptChunks_small (bs : Nat) (pt : Bytes) (h : pt.length < bs) : encryptChunks bs pt = [pt] := by
  unfold encryptChunks; simp [h]

theorem encryptChunks_big (bs : Nat) (pt : Bytes) (h0 : 0 < bs) (h : bs ≤ pt.length) :
    encryptChunks bs pt = pt.take bs :: encryptChunks bs (pt.drop bs) := by
  conv => lhs; unfold encryptChunks
  have : ¬ (bs = 0 ∨ pt.length < bs) := by omega
  simp [this]

theorem encryptChunks_ne_nil (bs : Nat) (pt : Bytes) : encryptChunks bs pt ≠ [] := by
  unfold encryptChunks; split <;> simp

theorem streamChunks_small (bs : Nat) (pt : Bytes) (h : pt.length ≤ bs) : streamChunks bs pt = [pt] := by
  unfold streamChunks; simp [h]

theorem streamChunks_big (bs : Nat) (pt : Bytes) (h0 : 0 < bs) (h : bs < pt.length) :
    streamChunks bs pt = pt.take bs :: streamChunks bs (pt.drop bs) := by
  conv => lhs; unfold streamChunks
  have : ¬ (bs = 0 ∨ pt.length ≤ bs) := by omega
  simp [this]

theorem streamChunks_ne_nil (bs : Nat) (pt : Bytes) : streamChunks bs pt ≠ [] := by
  unfold streamChunks; split <;> simp

theorem sealedBody_cons (P : Prims) (key nonce : Bytes) (i : Nat) (c : Bytes) (cs : List Bytes) (h : cs ≠ []) :
    sealedBody P key nonce i (c :: cs) = sealedChunk P key nonce i false c ++ sealedBody P key nonce (i + 1) cs := by
  cases cs with
  | nil => exact absurd rfl h
  | cons => rfl

theorem macInput_cons (c : Bytes) (cs : List Bytes) (h : cs ≠ []) :
    macInput (c :: cs) = lengthWord c.length false ++ c ++ macInput cs := by
  cases cs with
  | nil => exact absurd rfl h
  | cons => rfl

theorem be32_congr (a b : Nat) (h : a % 2^32 = b % 2^32) : be32 a = be32 b := by
  rw [← be32_mod a, ← be32_mod b, h]

theorem sealedChunk_mod (P : Prims) (key nonce : Bytes) (i j : Nat) (l : Bool) (c : Bytes)
    (h : i % 2^32 = j % 2^32) : sealedChunk P key nonce i l c = sealedChunk P key nonce j l c := by
  unfold sealedChunk; rw [be32_congr i j h]

theorem sealedBody_mod (P : Prims) (key nonce : Bytes) (cs : List Bytes) : ∀ (i j : Nat),
    i % 2^32 = j % 2^32 → sealedBody P key nonce i cs = sealedBody P key nonce j cs := by
  induction cs with
  | nil => intros; rfl
  | cons c cs ih =>
    intro i j h
    by_cases hc : cs = []
    · subst hc; exact sealedChunk_mod P key nonce i j _ _ h
    · rw [sealedBody_cons _ _ _ _ _ _ hc, sealedBody_cons _ _ _ _ _ _ hc, sealedChunk_mod P key nonce i j _ _ h,
        ih (i+1) (j+1) (by omega)]

/-- The data `Seal` calls of a session, in order. -/
def sealRecs (key nonce : Bytes) : Nat → List Bytes → List SealRec
  | _, [] => []
  | i, [c] => [⟨key, be32 i ++ nonce.drop 4, lengthWord c.length true, c⟩]
  | i, c :: cs => ⟨key, be32 i ++ nonce.drop 4, lengthWord c.length false, c⟩ :: sealRecs key nonce (i + 1) cs

theorem sealRecs_cons (key nonce : Bytes) (i : Nat) (c : Bytes) (cs : List Bytes) (h : cs ≠ []) :
    sealRecs key nonce i (c :: cs) =
      ⟨key, be32 i ++ nonce.drop 4, lengthWord c.length false, c⟩ :: sealRecs key nonce (i + 1) cs := by
  cases cs with
  | nil => exact absurd rfl h
  | cons => rfl

theorem sealRecs_mod (key nonce : Bytes) (cs : List Bytes) : ∀ (i j : Nat),
    i % 2^32 = j % 2^32 → sealRecs key nonce i cs = sealRecs key nonce j cs := by
  induction cs with
  | nil => intros; rfl
  | cons c cs ih =>
    intro i j h
    by_cases hc : cs = []
    · subst hc; simp [sealRecs, be32_congr i j h]
    · rw [sealRecs_cons _ _ _ _ _ hc, sealRecs_cons _ _ _ _ _ hc, be32_congr i j h, ih (i+1) (j+1) (by omega)]

/-- The block loop of `Encrypt` on a reader that ends normally and a destination that does not fail. -/
theorem encryptLoop_noFail (P : Prims) (L : Laws P) (coin : Bytes) :
    ∀ (fuel : Nat) (e : Encryptor) (rd : Reader) (wr : Writer) (i : Nat) (dkey hk hd : Bytes),
    e.Ready dkey hk hd → e.SenderOk → wr.NoFail → 0 < e.hdr.chunkSize → rd.content.length < fuel →
    isEndOfInput rd.last = true →
    ∃ rd' wr', Encryptor.encryptLoop P coin fuel e rd wr i =
        (.ok (), { e with seals := e.seals ++ sealRecs dkey e.nonce i (encryptChunks e.hdr.chunkSize rd.content)
                          hmac := some (hk, hd ++ macInput (encryptChunks e.hdr.chunkSize rd.content)) }, rd', wr') ∧
      rd'.content = [] ∧ wr'.NoFail ∧ wr'.closes = wr.closes ∧ wr'.closeErr = wr.closeErr ∧
      wr'.out = wr.out ++ sealedBody P dkey e.nonce i (encryptChunks e.hdr.chunkSize rd.content) ++
        e.trailerOf P hk (hd ++ macInput (encryptChunks e.hdr.chunkSize rd.content)) coin := by
  intro fuel
  induction fuel with
  | zero => intro e rd wr i dkey hk hd _ _ _ _ h; omega
  | succ fuel ih =>
    intro e rd wr i dkey hk hd hr hs hw hc hf hend
    unfold Encryptor.encryptLoop
    by_cases hlt : rd.content.length < e.hdr.chunkSize
    · obtain ⟨rd', h1, h2, h3⟩ := readFull_short rd e.hdr.chunkSize hlt
      rw [h1]
      have hend2 : isEndOfInput (shortReadErr rd.content rd.last) = true := by
        unfold shortReadErr; split
        · rfl
        · exact hend
      simp only [hend2, if_true]
      obtain ⟨wr', g1, g2, g3, g4, g5⟩ := encryptBlock_noFail P L e dkey hk hd rd.content wr i true coin hr hs
        (by omega) hw
      rw [g1, encryptChunks_small _ _ hlt]
      refine ⟨rd', wr', ?_, h2, g3, g4, g5, ?_⟩
      · simp [macInput, sealRecs, chunkNonce]
      · rw [g2]; simp [sealedBody, macInput]
    · obtain ⟨rd', h1, h2, h3⟩ := readFull_enough rd e.hdr.chunkSize (by omega)
      rw [h1]
      have hlen : (rd.content.take e.hdr.chunkSize).length = e.hdr.chunkSize := by simp; omega
      obtain ⟨wr', g1, g2, g3, g4, g5⟩ := encryptBlock_noFail P L e dkey hk hd (rd.content.take e.hdr.chunkSize)
        wr i false coin hr hs (by omega) hw
      simp only [g1, Bool.false_eq_true, if_false]
      obtain ⟨rd2, wr2, k1, k2, k3, k4, k5, k6⟩ := ih
        { e with seals := e.seals ++ [⟨dkey, chunkNonce e.nonce i,
                    lengthWord (rd.content.take e.hdr.chunkSize).length false, rd.content.take e.hdr.chunkSize⟩]
                 hmac := some (hk, hd ++ lengthWord (rd.content.take e.hdr.chunkSize).length false ++
                    rd.content.take e.hdr.chunkSize) }
        rd' wr' ((i + 1) % 2^32) dkey hk
        (hd ++ lengthWord (rd.content.take e.hdr.chunkSize).length false ++ rd.content.take e.hdr.chunkSize)
        ⟨hr.ae, rfl, hr.buf, hr.chunk, hr.key, hr.nonce⟩ hs g3 hc (by rw [h2]; simp; omega) (by rw [h3]; exact hend)
      have hne := encryptChunks_ne_nil e.hdr.chunkSize (rd.content.drop e.hdr.chunkSize)
      refine ⟨rd2, wr2, ?_, k2, k3, by omega, by rw [k5, g5], ?_⟩
      · rw [k1, encryptChunks_big _ rd.content hc (by omega)]
        simp only [h2]
        rw [macInput_cons _ _ hne, sealRecs_cons _ _ _ _ _ hne]
        simp [chunkNonce]
        exact sealRecs_mod _ _ _ _ _ (by omega)
      · rw [k6, encryptChunks_big _ rd.content hc (by omega), g2]
        simp only [h2]
        rw [macInput_cons _ _ hne, sealedBody_cons _ _ _ _ _ _ hne,
          sealedBody_mod P dkey e.nonce _ ((i+1) % 2^32) (i+1) (by omega)]
        simp [Encryptor.trailerOf]

theorem sessionKeys_len (P : Prims) (L : Laws P) (k c : Bytes) :
    (sessionKeys P k c).1.length = 12 ∧ (sessionKeys P k c).2.1.length = 32 ∧
      (sessionKeys P k c).2.2.length = 32 := by
  have := L.hkdf_len k c (ascii "Data Key Expansion") 76 (by decide)
  simp [sessionKeys, this]

/-- State of an encryptor after its header was written. -/
def Encryptor.afterStart (P : Prims) (e : Encryptor) : Encryptor :=
  let ks := sessionKeys P e.key (P.sha256 (headerPart e.hdr))
  { e with nonce := ks.1, ae := some ks.2.1, hmac := some (ks.2.2, [])
           bufLen := e.hdr.chunkSize + 4 + 16, started := true }

theorem start_pre (e : Encryptor) (hc : Proto.Clean e.hdr) :
    magic ++ [version] ++ be32 (Proto.Header.size e.hdr) ++ Spec.headerBytes e.hdr = headerPart e.hdr := by
  rw [Proto.header_size_eq _ hc]; rfl

theorem start_noFail (P : Prims) (e : Encryptor) (wr : Writer) (hc : Proto.Clean e.hdr) (hw : wr.NoFail) :
    ∃ wr', e.start P wr = (.ok (), e.afterStart P, wr') ∧
      wr'.out = wr.out ++ (headerPart e.hdr ++ P.sha256 (headerPart e.hdr)) ∧ wr'.NoFail ∧
      wr'.closes = wr.closes ∧ wr'.closeErr = wr.closeErr := by
  unfold Encryptor.start
  simp only [Proto.header_marshal_eq _ hc, start_pre e hc, dataKeys_eq]
  obtain ⟨wr', h1, h2, h3, h4, h5⟩ := fullwrite_noFail (headerPart e.hdr ++ P.sha256 (headerPart e.hdr)) wr hw
  exact ⟨wr', by rw [h1]; rfl, h2, h3, h4, h5⟩

theorem afterStart_ready (P : Prims) (L : Laws P) (e : Encryptor) (h : e.hdr.chunkSize ≤ 2^30) :
    (e.afterStart P).Ready (sessionKeys P e.key (P.sha256 (headerPart e.hdr))).2.1
      (sessionKeys P e.key (P.sha256 (headerPart e.hdr))).2.2 [] := by
  have := sessionKeys_len P L e.key (P.sha256 (headerPart e.hdr))
  exact ⟨rfl, rfl, rfl, h, this.2.1, this.1⟩

/-- What `NewEncryptor` and `AddRecipient` establish, and keep until the header is written. -/
structure Encryptor.Fresh (P : Prims) (e : Encryptor) : Prop where
  started : e.started = false
  stream : e.stream = false
  seals : e.seals = []
  clean : Proto.Clean e.hdr
  chunkPos : 0 < e.hdr.chunkSize
  chunkMax : e.hdr.chunkSize ≤ 2^30
  sender : e.SenderOk

/-- `Encrypt` on a fresh encryptor, a reader that ends normally, a destination that does not fail. -/
theorem encrypt_fresh (P : Prims) (L : Laws P) (e : Encryptor) (rd : Reader) (wr : Writer) (coin : Bytes)
    (hf : e.Fresh P) (hw : wr.NoFail) (hend : isEndOfInput rd.last = true) :
    ∃ e' rd' wr',
      e.encrypt P rd wr coin = ((match wr.closeErr with | none => .ok () | some x => .err x), e', rd', wr') ∧
      wr'.closes = wr.closes + 1 ∧
      e'.seals =
        sealRecs (sessionKeys P e.key (P.sha256 (headerPart e.hdr))).2.1
          (sessionKeys P e.key (P.sha256 (headerPart e.hdr))).1 0 (encryptChunks e.hdr.chunkSize rd.content) ∧
      wr'.out = wr.out ++ container P e.hdr e.key (encryptChunks e.hdr.chunkSize rd.content)
        (e.trailerOf P (sessionKeys P e.key (P.sha256 (headerPart e.hdr))).2.2
          (macInput (encryptChunks e.hdr.chunkSize rd.content)) coin) := by
  obtain ⟨wr1, h1, h2, h3, h4, h5⟩ := start_noFail P e wr hf.clean hw
  unfold Encryptor.encrypt
  simp only [hf.stream, hf.started, Bool.false_eq_true, if_false, h1]
  obtain ⟨rd2, wr2, k1, k2, k3, k4, k5, k6⟩ := encryptLoop_noFail P L coin (rd.content.length + 1)
    (e.afterStart P) rd wr1 0 _ _ _ (afterStart_ready P L e hf.chunkMax) hf.sender h3 hf.chunkPos (by omega) hend
  rw [k1]
  simp only [Writer.close, k5, h5]
  cases hce : wr.closeErr with
  | none =>
    refine ⟨_, _, _, rfl, by simp [k4, h4], ?_, ?_⟩
    · simp [Encryptor.afterStart, hf.seals]
    · simp only [k6, h2, container]
      simp [Encryptor.afterStart, Encryptor.trailerOf]
  | some x =>
    refine ⟨_, _, _, rfl, by simp [k4, h4], ?_, ?_⟩
    · simp [Encryptor.afterStart, hf.seals]
    · simp only [k6, h2, container]
      simp [Encryptor.afterStart, Encryptor.trailerOf]

end Sigtool
