import Verif.History
import Verif.Demo
/-!
# C77: the plaintext reaches the output only through AEAD `Seal` and, with a sender, HMAC

Non-interference: replace the primitives by ones whose `Seal` reveals only the length of its plaintext (which is what the
security of the AEAD promises), and whose HMAC reveals only the length of its input.  Then for every sequence of calls on an
encryptor, everything observable is the same for any two sequences of plaintexts of the same lengths.  So no byte of the
plaintext influences the header, a length word, a nonce, the trailer, a result or the number of bytes written in any other
way.
-/

namespace Sigtool

/-- `Seal` depends only on the length of its plaintext. -/
def Spec.LengthOnlySeal (P : Prims) : Prop :=
  ∀ k n p q a : Bytes, p.length = q.length → P.aeadSeal k n p a = P.aeadSeal k n q a

/-- HMAC-SHA256 depends only on the length of its input. -/
def Spec.LengthOnlyMac (P : Prims) : Prop := ∀ k x y : Bytes, x.length = y.length → P.hmac256 k x = P.hmac256 k y

/-- The same call up to the contents of the plaintext: the input delivers as many bytes (in any delivery) and the same final
error; `Write` gets a buffer of the same length. -/
inductive Spec.SameLengths : EncOp → EncOp → Prop
  | add (pk : PublicKey) (rbuf : Bytes) : SameLengths (.add pk rbuf) (.add pk rbuf)
  | encrypt (a b : Reader) (wr : Writer) (coin : Bytes) (h1 : a.content.length = b.content.length) (h2 : a.last = b.last) :
      SameLengths (.encrypt a wr coin) (.encrypt b wr coin)
  | openStream (wr : Writer) : SameLengths (.openStream wr) (.openStream wr)
  | write (k : Nat) (x y : Bytes) (h : x.length = y.length) : SameLengths (.write k x) (.write k y)
  | close (k : Nat) (coin : Bytes) : SameLengths (.close k coin) (.close k coin)

open Spec (LengthOnlySeal LengthOnlyMac SameLengths)

def macLike : Option (Bytes × Bytes) → Option (Bytes × Bytes) → Prop
  | none, none => True
  | some a, some b => a.1 = b.1 ∧ a.2.length = b.2.length
  | _, _ => False

/-- Two encryptors that differ only in the contents of what was fed to the HMAC (and in the ghost log). -/
def Encryptor.Like (e1 e2 : Encryptor) : Prop :=
  macLike e1.hmac e2.hmac ∧ e2 = { e1 with hmac := e2.hmac, seals := e2.seals }

/-- Two readers with the same amount of data left and the same final error. -/
def Reader.Like (a b : Reader) : Prop := a.content.length = b.content.length ∧ a.last = b.last

theorem readFull_like {a b : Reader} (h : a.Like b) (n : Nat) : ∃ x y err a' b',
    readFull a n = (x, err, a') ∧ readFull b n = (y, err, b') ∧ x.length = y.length ∧ a'.Like b' := by
  obtain ⟨h1, h2⟩ := h
  by_cases hn : n ≤ a.content.length
  · obtain ⟨a', k1, k2, k3⟩ := readFull_enough a n hn
    obtain ⟨b', m1, m2, m3⟩ := readFull_enough b n (by rw [← h1]; exact hn)
    exact ⟨_, _, _, a', b', k1, m1, by simp [h1], by rw [k2, m2]; simp [h1], by rw [k3, m3, h2]⟩
  · obtain ⟨a', k1, k2, k3⟩ := readFull_short a n (by omega)
    obtain ⟨b', m1, m2, m3⟩ := readFull_short b n (by rw [← h1]; omega)
    refine ⟨_, _, _, a', b', k1, ?_, h1, by rw [k2, m2], by rw [k3, m3, h2]⟩
    have hsr : shortReadErr b.content b.last = shortReadErr a.content a.last := by
      unfold shortReadErr
      rw [h1, h2]
    rw [m1, hsr]

theorem writeTrailer_like {P : Prims} {e1 e2 : Encryptor} (h : e1.Like e2) (hm : e1.auth = false ∨ LengthOnlyMac P)
    (wr : Writer) (coin : Bytes) : e1.writeTrailer P wr coin = e2.writeTrailer P wr coin := by
  obtain ⟨h1, h2⟩ := h
  obtain ⟨hdr, key, encSK, sender, auth, nonce, ae, hm1, bufLen, started, stream, seals1⟩ := e1
  obtain ⟨hdr2, key2, encSK2, sender2, auth2, nonce2, ae2, hm2, bufLen2, started2, stream2, seals2⟩ := e2
  simp only [Encryptor.mk.injEq, true_and, and_true] at h2
  obtain ⟨rfl, rfl, rfl, rfl, rfl, rfl, rfl, rfl, rfl, rfl⟩ := h2
  unfold Encryptor.writeTrailer
  dsimp only at *
  cases auth2 with
  | false => rfl
  | true =>
    have hm := hm.resolve_left (by decide)
    match hm1, hm2, h1 with
    | none, none, _ => rfl
    | some (k, x), some (k', y), hh =>
      obtain ⟨g1, g2⟩ := hh
      dsimp only at g1 g2
      subst g1
      cases sender2 with
      | none => rfl
      | some sk =>
        dsimp only
        rw [hm k x y g2]

theorem encryptBlock_like {P : Prims} (hs : LengthOnlySeal P) {e1 e2 : Encryptor} (h : e1.Like e2)
    (hm : e1.auth = false ∨ LengthOnlyMac P) {p q : Bytes} (hpq : p.length = q.length)
    (wr : Writer) (i : Nat) (eof : Bool) (coin : Bytes) : ∃ r wr' e1' e2',
      e1.encryptBlock P p wr i eof coin = (r, e1', wr') ∧ e2.encryptBlock P q wr i eof coin = (r, e2', wr') ∧
      e1'.Like e2' ∧ e1'.auth = e1.auth := by
  obtain ⟨h1, h2⟩ := h
  obtain ⟨hdr, key, encSK, sender, auth, nonce, ae, hm1, bufLen, started, stream, seals1⟩ := e1
  obtain ⟨hdr2, key2, encSK2, sender2, auth2, nonce2, ae2, hm2, bufLen2, started2, stream2, seals2⟩ := e2
  simp only [Encryptor.mk.injEq, true_and, and_true] at h2
  obtain ⟨rfl, rfl, rfl, rfl, rfl, rfl, rfl, rfl, rfl, rfl⟩ := h2
  unfold Encryptor.encryptBlock
  dsimp only at *
  cases ae2 with
  | none => exact ⟨_, _, _, _, rfl, rfl, ⟨h1, rfl⟩, rfl⟩
  | some dkey =>
    dsimp only
    rw [hpq, hs dkey (chunkNonce nonce2 i) p q _ hpq]
    split
    · exact ⟨_, _, _, _, rfl, rfl, ⟨h1, rfl⟩, rfl⟩
    · rcases fullwrite (be32 (lenWord q.length eof) ++ P.aeadSeal dkey (chunkNonce nonce2 i) q (be32 (lenWord q.length eof))) wr
        with ⟨_ | x, wr1⟩
      · dsimp only
        match hm1, hm2, h1 with
        | none, none, hh => exact ⟨_, _, _, _, rfl, rfl, ⟨hh, rfl⟩, rfl⟩
        | some (k, x), some (k', y), hh =>
          obtain ⟨g1, g2⟩ := hh
          dsimp only at g1 g2 ⊢
          subst g1
          have hl : macLike (some (k, x ++ be32 (lenWord q.length eof) ++ p)) (some (k, y ++ be32 (lenWord q.length eof) ++ q)) :=
            ⟨rfl, by simp [g2, hpq]⟩
          cases eof with
          | false => exact ⟨_, _, _, _, rfl, rfl, ⟨hl, rfl⟩, rfl⟩
          | true =>
            have key := writeTrailer_like (P := P) (e1 := ⟨hdr2, key2, encSK2, sender2, auth2, nonce2, some dkey,
                some (k, x ++ be32 (lenWord q.length true) ++ p), bufLen2, started2, stream2, seals1 ++
                  [⟨dkey, chunkNonce nonce2 i, be32 (lenWord q.length true), p⟩]⟩) (e2 := ⟨hdr2, key2, encSK2, sender2, auth2,
                  nonce2, some dkey, some (k, y ++ be32 (lenWord q.length true) ++ q), bufLen2, started2, stream2, seals2 ++
                  [⟨dkey, chunkNonce nonce2 i, be32 (lenWord q.length true), q⟩]⟩) ⟨hl, rfl⟩ hm wr1 coin
            rw [if_pos rfl, if_pos rfl, key]
            exact ⟨_, _, _, _, rfl, rfl, ⟨hl, rfl⟩, rfl⟩
      · exact ⟨_, _, _, _, rfl, rfl, ⟨h1, rfl⟩, rfl⟩

theorem Encryptor.Like.auth {e1 e2 : Encryptor} (h : e1.Like e2) : e2.auth = e1.auth := by rw [h.2]
theorem Encryptor.Like.hdr {e1 e2 : Encryptor} (h : e1.Like e2) : e2.hdr = e1.hdr := by rw [h.2]

theorem encryptLoop_like {P : Prims} (hs : LengthOnlySeal P) (coin : Bytes) : ∀ (fuel : Nat) {e1 e2 : Encryptor},
    e1.Like e2 → (e1.auth = false ∨ LengthOnlyMac P) → ∀ {a b : Reader}, a.Like b → ∀ (wr : Writer) (i : Nat),
    ∃ r wr' e1' e2' a' b', Encryptor.encryptLoop P coin fuel e1 a wr i = (r, e1', a', wr') ∧
      Encryptor.encryptLoop P coin fuel e2 b wr i = (r, e2', b', wr') ∧ e1'.Like e2' ∧ e1'.auth = e1.auth := by
  intro fuel
  induction fuel with
  | zero => intro e1 e2 h hm a b hab wr i; exact ⟨_, _, _, _, _, _, rfl, rfl, h, rfl⟩
  | succ fuel ih =>
    intro e1 e2 h hm a b hab wr i
    unfold Encryptor.encryptLoop
    obtain ⟨x, y, err, a1, b1, h1, h2, hxy, hab1⟩ := readFull_like hab e1.hdr.chunkSize
    rw [h.hdr, h1, h2]
    dsimp only
    have rest : ∀ eof : Bool, ∃ r wr' e1' e2' a' b',
        (match e1.encryptBlock P x wr i eof coin with
          | (.ok (), e, wr) => if eof then (Res.ok (), e, a1, wr)
            else Encryptor.encryptLoop P coin fuel e a1 wr ((i + 1) % 2^32)
          | (.err x, e, wr) => (Res.err x, e, a1, wr)
          | (.panic x, e, wr) => (Res.panic x, e, a1, wr)) = (r, e1', a', wr') ∧
        (match e2.encryptBlock P y wr i eof coin with
          | (.ok (), e, wr) => if eof then (Res.ok (), e, b1, wr)
            else Encryptor.encryptLoop P coin fuel e b1 wr ((i + 1) % 2^32)
          | (.err x, e, wr) => (Res.err x, e, b1, wr)
          | (.panic x, e, wr) => (Res.panic x, e, b1, wr)) = (r, e2', b', wr') ∧ e1'.Like e2' ∧ e1'.auth = e1.auth := by
      intro eof
      obtain ⟨r, wr1, f1, f2, g1, g2, g3, g4⟩ := encryptBlock_like hs h hm hxy wr i eof coin
      rw [g1, g2]
      match r with
      | .err x => exact ⟨_, _, _, _, _, _, rfl, rfl, g3, g4⟩
      | .panic x => exact ⟨_, _, _, _, _, _, rfl, rfl, g3, g4⟩
      | .ok () =>
        dsimp only
        cases eof with
        | true => exact ⟨_, _, _, _, _, _, rfl, rfl, g3, g4⟩
        | false =>
          obtain ⟨r, wr', f1', f2', a', b', k1, k2, k3, k4⟩ := ih g3 (by rw [g4]; exact hm) hab1 wr1 ((i + 1) % 2^32)
          exact ⟨r, wr', f1', f2', a', b', k1, k2, k3, by rw [k4, g4]⟩
    cases err with
    | none => exact rest false
    | some z =>
      dsimp only
      by_cases hz : isEndOfInput z
      · rw [if_pos hz]
        exact rest true
      · rw [if_neg hz]
        exact ⟨_, _, _, _, _, _, rfl, rfl, h, rfl⟩

theorem start_like {P : Prims} {e1 e2 : Encryptor} (h : e1.Like e2) (wr : Writer) : ∃ r wr' e1' e2',
    e1.start P wr = (r, e1', wr') ∧ e2.start P wr = (r, e2', wr') ∧ e1'.Like e2' ∧ e1'.auth = e1.auth := by
  obtain ⟨h1, h2⟩ := h
  obtain ⟨hdr, key, encSK, sender, auth, nonce, ae, hm1, bufLen, started, stream, seals1⟩ := e1
  obtain ⟨hdr2, key2, encSK2, sender2, auth2, nonce2, ae2, hm2, bufLen2, started2, stream2, seals2⟩ := e2
  simp only [Encryptor.mk.injEq, true_and, and_true] at h2
  obtain ⟨rfl, rfl, rfl, rfl, rfl, rfl, rfl, rfl, rfl, rfl⟩ := h2
  unfold Encryptor.start
  dsimp only at *
  cases Proto.Header.marshal hdr2 with
  | panic x => exact ⟨_, _, _, _, rfl, rfl, ⟨h1, rfl⟩, rfl⟩
  | err x => exact ⟨_, _, _, _, rfl, rfl, ⟨h1, rfl⟩, rfl⟩
  | ok v =>
    dsimp only
    rcases fullwrite _ wr with ⟨_ | x, wr1⟩
    · exact ⟨_, _, _, _, rfl, rfl, ⟨⟨rfl, rfl⟩, rfl⟩, rfl⟩
    · exact ⟨_, _, _, _, rfl, rfl, ⟨h1, rfl⟩, rfl⟩

theorem encrypt_like {P : Prims} (hs : LengthOnlySeal P) (coin : Bytes) {e1 e2 : Encryptor} (h : e1.Like e2)
    (hm : e1.auth = false ∨ LengthOnlyMac P) {a b : Reader} (hab : a.Like b) (wr : Writer) :
    ∃ r wr' e1' e2' a' b', e1.encrypt P a wr coin = (r, e1', a', wr') ∧ e2.encrypt P b wr coin = (r, e2', b', wr') ∧
      e1'.Like e2' ∧ e1'.auth = e1.auth := by
  have body : ∀ {e1 e2 : Encryptor}, e1.Like e2 → (e1.auth = false ∨ LengthOnlyMac P) → ∀ wr : Writer,
      ∃ r wr' e1' e2' a' b',
      (match Encryptor.encryptLoop P coin (a.content.length + 1) e1 a wr 0 with
        | (.ok (), e, rd, wr) =>
          match wr.close with
          | (some x, wr) => (Res.err x, e, rd, wr)
          | (none, wr) => (.ok (), e, rd, wr)
        | r => r) = (r, e1', a', wr') ∧
      (match Encryptor.encryptLoop P coin (b.content.length + 1) e2 b wr 0 with
        | (.ok (), e, rd, wr) =>
          match wr.close with
          | (some x, wr) => (Res.err x, e, rd, wr)
          | (none, wr) => (.ok (), e, rd, wr)
        | r => r) = (r, e2', b', wr') ∧ e1'.Like e2' ∧ e1'.auth = e1.auth := by
    intro e1 e2 h hm wr
    rw [← hab.1]
    obtain ⟨r, wr', f1, f2, a', b', k1, k2, k3, k4⟩ := encryptLoop_like hs coin (a.content.length + 1) h hm hab wr 0
    rw [k1, k2]
    match r with
    | .err x => exact ⟨_, _, _, _, _, _, rfl, rfl, k3, k4⟩
    | .panic x => exact ⟨_, _, _, _, _, _, rfl, rfl, k3, k4⟩
    | .ok () =>
      dsimp only
      rcases wr'.close with ⟨_ | x, wr2⟩ <;> exact ⟨_, _, _, _, _, _, rfl, rfl, k3, k4⟩
  have hst : e2.stream = e1.stream := by rw [h.2]
  have hsd : e2.started = e1.started := by rw [h.2]
  unfold Encryptor.encrypt
  rw [hst, hsd]
  dsimp only
  split
  · exact ⟨_, _, _, _, _, _, rfl, rfl, h, rfl⟩
  · split
    · exact body h hm wr
    · obtain ⟨r, wr1, f1, f2, k1, k2, k3, k4⟩ := start_like (P := P) h wr
      rw [k1, k2]
      match r with
      | .err x => exact ⟨_, _, _, _, _, _, rfl, rfl, k3, k4⟩
      | .panic x => exact ⟨_, _, _, _, _, _, rfl, rfl, k3, k4⟩
      | .ok () =>
        obtain ⟨r, wr', f1', f2', a', b', m1, m2, m3, m4⟩ := body k3 (by rw [k4]; exact hm) wr1
        exact ⟨r, wr', f1', f2', a', b', m1, m2, m3, by rw [m4, k4]⟩

/-- Two stream writers that differ only in the contents of their buffers. -/
def EncWriter.Like (w1 w2 : EncWriter) : Prop := w1.buf.length = w2.buf.length ∧ w2 = { w1 with buf := w2.buf }

theorem writeLoop_like {P : Prims} (hs : LengthOnlySeal P) : ∀ (fuel : Nat) {e1 e2 : Encryptor},
    e1.Like e2 → (e1.auth = false ∨ LengthOnlyMac P) → ∀ {w1 w2 : EncWriter}, w1.Like w2 → ∀ {x y : Bytes},
    x.length = y.length → ∃ r e1' e2' w1' w2', EncWriter.writeLoop P fuel e1 w1 x = (r, e1', w1') ∧
      EncWriter.writeLoop P fuel e2 w2 y = (r, e2', w2') ∧ e1'.Like e2' ∧ e1'.auth = e1.auth ∧ w1'.Like w2' := by
  intro fuel
  induction fuel with
  | zero => intro e1 e2 h hm w1 w2 hw x y hxy; exact ⟨_, _, _, _, _, rfl, rfl, h, rfl, hw⟩
  | succ fuel ih =>
    intro e1 e2 h hm w1 w2 hw x y hxy
    obtain ⟨buf1, wr, blk, err⟩ := w1
    obtain ⟨buf2, wr2, blk2, err2⟩ := w2
    obtain ⟨hb, hw⟩ := hw
    simp only [EncWriter.mk.injEq, true_and] at hw
    obtain ⟨rfl, rfl, rfl⟩ := hw
    dsimp only at hb
    unfold EncWriter.writeLoop
    dsimp only
    rw [hxy, h.hdr, hb]
    split
    · exact ⟨_, _, _, _, _, rfl, rfl, h, rfl, hb, rfl⟩
    · have hl : (buf1 ++ x.take (min (e1.hdr.chunkSize - buf2.length) y.length)).length =
          (buf2 ++ y.take (min (e1.hdr.chunkSize - buf2.length) y.length)).length := by simp [hb, hxy]
      have hd : (x.drop (min (e1.hdr.chunkSize - buf2.length) y.length)).length =
          (y.drop (min (e1.hdr.chunkSize - buf2.length) y.length)).length := by simp [hxy]
      rw [hl, hd]
      split
      · obtain ⟨r, wr1, f1, f2, g1, g2, g3, g4⟩ := encryptBlock_like hs h hm hl wr2 blk2 false []
        rw [g1, g2]
        match r with
        | .err x => exact ⟨_, _, _, _, _, rfl, rfl, g3, g4, hl, rfl⟩
        | .panic x => exact ⟨_, _, _, _, _, rfl, rfl, g3, g4, hl, rfl⟩
        | .ok () =>
          obtain ⟨r, f1', f2', w1', w2', k1, k2, k3, k4, k5⟩ := ih g3 (by rw [g4]; exact hm)
            (w1 := ⟨[], wr1, (blk2 + 1) % 2^32, err2⟩) (w2 := ⟨[], wr1, (blk2 + 1) % 2^32, err2⟩) ⟨rfl, rfl⟩ hd
          exact ⟨r, f1', f2', w1', w2', k1, k2, k3, by rw [k4, g4], k5⟩
      · exact ih h hm ⟨hl, rfl⟩ hd

theorem write_like {P : Prims} (hs : LengthOnlySeal P) {e1 e2 : Encryptor} (h : e1.Like e2)
    (hm : e1.auth = false ∨ LengthOnlyMac P) {w1 w2 : EncWriter} (hw : w1.Like w2) {x y : Bytes} (hxy : x.length = y.length) :
    ∃ r e1' e2' w1' w2', w1.write P e1 x = (r, e1', w1') ∧ w2.write P e2 y = (r, e2', w2') ∧ e1'.Like e2' ∧
      e1'.auth = e1.auth ∧ w1'.Like w2' := by
  have he : w2.err = w1.err := by rw [hw.2]
  unfold EncWriter.write
  rw [he]
  cases w1.err with
  | some z => exact ⟨_, _, _, _, _, rfl, rfl, h, rfl, hw⟩
  | none =>
    dsimp only
    rw [hxy]
    split
    · exact ⟨_, _, _, _, _, rfl, rfl, h, rfl, hw⟩
    · obtain ⟨r, f1, f2, v1, v2, k1, k2, k3, k4, k5⟩ := writeLoop_like hs (y.length + 2) h hm hw hxy
      rw [k1, k2]
      match r with
      | .err x => exact ⟨_, _, _, _, _, rfl, rfl, k3, k4, k5⟩
      | .panic x => exact ⟨_, _, _, _, _, rfl, rfl, k3, k4, k5⟩
      | .ok () => exact ⟨_, _, _, _, _, rfl, rfl, k3, k4, k5⟩

theorem close_like {P : Prims} (hs : LengthOnlySeal P) {e1 e2 : Encryptor} (h : e1.Like e2)
    (hm : e1.auth = false ∨ LengthOnlyMac P) {w1 w2 : EncWriter} (hw : w1.Like w2) (coin : Bytes) :
    ∃ r e1' e2' w1' w2', w1.close P e1 coin = (r, e1', w1') ∧ w2.close P e2 coin = (r, e2', w2') ∧ e1'.Like e2' ∧
      e1'.auth = e1.auth ∧ w1'.Like w2' := by
  obtain ⟨buf1, wr, blk, err⟩ := w1
  obtain ⟨buf2, wr2, blk2, err2⟩ := w2
  obtain ⟨hb, hw⟩ := hw
  simp only [EncWriter.mk.injEq, true_and] at hw
  obtain ⟨rfl, rfl, rfl⟩ := hw
  dsimp only at hb
  unfold EncWriter.close
  dsimp only
  cases err2 with
  | some z => exact ⟨_, _, _, _, _, rfl, rfl, h, rfl, hb, rfl⟩
  | none =>
    dsimp only
    obtain ⟨r, wr1, f1, f2, g1, g2, g3, g4⟩ := encryptBlock_like hs h hm hb wr2 blk2 true coin
    rw [g1, g2]
    match r with
    | .err x => exact ⟨_, _, _, _, _, rfl, rfl, g3, g4, hb, rfl⟩
    | .panic x => exact ⟨_, _, _, _, _, rfl, rfl, g3, g4, hb, rfl⟩
    | .ok () =>
      dsimp only
      rcases wr1.close with ⟨_ | x, wr3⟩ <;> exact ⟨_, _, _, _, _, rfl, rfl, g3, g4, rfl, rfl⟩

theorem newStreamWriter_like {P : Prims} {e1 e2 : Encryptor} (h : e1.Like e2) (wr : Writer) : ∃ r wr' e1' e2',
    e1.newStreamWriter P wr = (r, e1', wr') ∧ e2.newStreamWriter P wr = (r, e2', wr') ∧ e1'.Like e2' ∧
      e1'.auth = e1.auth := by
  have hsd : e2.started = e1.started := by rw [h.2]
  have hst : ∀ {a b : Encryptor}, a.Like b → ({ a with stream := true } : Encryptor).Like { b with stream := true } :=
    fun h => ⟨h.1, by conv_lhs => rw [h.2]⟩
  unfold Encryptor.newStreamWriter
  rw [hsd]
  dsimp only
  split
  · exact ⟨_, _, _, _, rfl, rfl, hst h, rfl⟩
  · obtain ⟨r, wr1, f1, f2, k1, k2, k3, k4⟩ := start_like (P := P) h wr
    rw [k1, k2]
    match r with
    | .err x => exact ⟨_, _, _, _, rfl, rfl, k3, k4⟩
    | .panic x => exact ⟨_, _, _, _, rfl, rfl, k3, k4⟩
    | .ok () => exact ⟨_, _, _, _, rfl, rfl, hst k3, k4⟩

theorem addRecipient_like {P : Prims} {e1 e2 : Encryptor} (h : e1.Like e2) (pk : PublicKey) (rbuf : Bytes) : ∃ r e1' e2',
    e1.addRecipient P pk rbuf = (r, e1') ∧ e2.addRecipient P pk rbuf = (r, e2') ∧ e1'.Like e2' ∧ e1'.auth = e1.auth := by
  obtain ⟨h1, h2⟩ := h
  obtain ⟨hdr, key, encSK, sender, auth, nonce, ae, hm1, bufLen, started, stream, seals1⟩ := e1
  obtain ⟨hdr2, key2, encSK2, sender2, auth2, nonce2, ae2, hm2, bufLen2, started2, stream2, seals2⟩ := e2
  simp only [Encryptor.mk.injEq, true_and, and_true] at h2
  obtain ⟨rfl, rfl, rfl, rfl, rfl, rfl, rfl, rfl, rfl, rfl⟩ := h2
  have hw : Encryptor.wrapKey P ⟨hdr2, key2, encSK2, sender2, auth2, nonce2, ae2, hm2, bufLen2, started2, stream2, seals2⟩ pk rbuf =
    Encryptor.wrapKey P ⟨hdr2, key2, encSK2, sender2, auth2, nonce2, ae2, hm1, bufLen2, started2, stream2, seals1⟩ pk rbuf := rfl
  unfold Encryptor.addRecipient
  rw [hw]
  dsimp only at *
  split
  · exact ⟨_, _, _, rfl, rfl, ⟨h1, rfl⟩, rfl⟩
  · rcases Encryptor.wrapKey P ⟨hdr2, key2, encSK2, sender2, auth2, nonce2, ae2, hm1, bufLen2, started2, stream2, seals1⟩ pk rbuf
      with w | x | x
    all_goals exact ⟨_, _, _, rfl, rfl, ⟨h1, rfl⟩, rfl⟩

/-- Two states of affairs that differ only in the contents of plaintext. -/
def EncState.Like (s1 s2 : EncState) : Prop := s1.enc.Like s2.enc ∧ List.Forall₂ EncWriter.Like s1.streams s2.streams

theorem forall₂_get {α β : Type} {R : α → β → Prop} : ∀ {l : List α} {m : List β}, List.Forall₂ R l m → ∀ k : Nat,
    (l[k]? = none ∧ m[k]? = none) ∨ ∃ a b, l[k]? = some a ∧ m[k]? = some b ∧ R a b := by
  intro l m h
  induction h with
  | nil => intro k; simp
  | cons h _ ih =>
    intro k
    cases k with
    | zero => exact Or.inr ⟨_, _, rfl, rfl, h⟩
    | succ k => simpa using ih k

theorem forall₂_set {α β : Type} {R : α → β → Prop} {a : α} {b : β} (hab : R a b) : ∀ {l : List α} {m : List β},
    List.Forall₂ R l m → ∀ k : Nat, List.Forall₂ R (l.set k a) (m.set k b) := by
  intro l m h
  induction h with
  | nil => intro k; simp
  | cons h h' ih =>
    intro k
    cases k with
    | zero => exact .cons hab h'
    | succ k => exact .cons h (ih k)

/-- What an observer of the destinations and results sees of one call. -/
def EncEvent.seen (ev : EncEvent) : Res Unit × Bytes × Nat := (ev.res, ev.wrote, ev.closed)

theorem encStep_like {P : Prims} (hs : LengthOnlySeal P) {s1 s2 : EncState} (h : s1.Like s2)
    (hm : s1.enc.auth = false ∨ LengthOnlyMac P) {o1 o2 : EncOp} (ho : SameLengths o1 o2) :
    (s1.step P o1 = none ∧ s2.step P o2 = none) ∨ ∃ ev1 ev2 t1 t2, s1.step P o1 = some (ev1, t1) ∧
      s2.step P o2 = some (ev2, t2) ∧ ev1.seen = ev2.seen ∧ t1.Like t2 ∧ t1.enc.auth = s1.enc.auth := by
  obtain ⟨h1, h2⟩ := h
  unfold EncState.step
  cases ho with
  | add pk rbuf =>
    right
    obtain ⟨r, f1, f2, k1, k2, k3, k4⟩ := addRecipient_like (P := P) h1 pk rbuf
    dsimp only
    rw [k1, k2]
    exact ⟨_, _, _, _, rfl, rfl, rfl, ⟨k3, h2⟩, k4⟩
  | encrypt a b wr coin ha hb =>
    right
    obtain ⟨r, wr', f1, f2, a', b', k1, k2, k3, k4⟩ := encrypt_like hs coin h1 hm (a := a) (b := b) ⟨ha, hb⟩ wr
    dsimp only
    rw [k1, k2]
    exact ⟨_, _, _, _, rfl, rfl, rfl, ⟨k3, h2⟩, k4⟩
  | openStream wr =>
    right
    obtain ⟨r, wr', f1, f2, k1, k2, k3, k4⟩ := newStreamWriter_like (P := P) h1 wr
    dsimp only
    rw [k1, k2]
    refine ⟨_, _, _, _, rfl, rfl, rfl, ⟨k3, ?_⟩, k4⟩
    cases r with
    | ok w => exact List.rel_append h2 (.cons ⟨rfl, rfl⟩ .nil)
    | err x => exact h2
    | panic x => exact h2
  | write k x y hxy =>
    dsimp only
    rcases forall₂_get h2 k with ⟨g1, g2⟩ | ⟨w1, w2, g1, g2, g3⟩
    · rw [g1, g2]; exact Or.inl ⟨rfl, rfl⟩
    · right
      rw [g1, g2]
      obtain ⟨r, f1, f2, v1, v2, k1, k2, k3, k4, k5⟩ := write_like hs h1 hm g3 hxy
      dsimp only
      rw [k1, k2]
      have e1 : v2.wr = v1.wr := by rw [k5.2]
      have e2 : w2.wr = w1.wr := by rw [g3.2]
      refine ⟨_, _, _, _, rfl, rfl, ?_, ⟨k3, forall₂_set k5 h2 k⟩, k4⟩
      simp only [EncEvent.seen, e1, e2]
  | close k coin =>
    dsimp only
    rcases forall₂_get h2 k with ⟨g1, g2⟩ | ⟨w1, w2, g1, g2, g3⟩
    · rw [g1, g2]; exact Or.inl ⟨rfl, rfl⟩
    · right
      rw [g1, g2]
      obtain ⟨r, f1, f2, v1, v2, k1, k2, k3, k4, k5⟩ := close_like hs h1 hm g3 coin
      dsimp only
      rw [k1, k2]
      have e1 : v2.wr = v1.wr := by rw [k5.2]
      have e2 : w2.wr = w1.wr := by rw [g3.2]
      refine ⟨_, _, _, _, rfl, rfl, ?_, ⟨k3, forall₂_set k5 h2 k⟩, k4⟩
      simp only [EncEvent.seen, e1, e2]

theorem encRun_like {P : Prims} (hs : LengthOnlySeal P) {ops1 ops2 : List EncOp} (ho : List.Forall₂ SameLengths ops1 ops2) :
    ∀ {s1 s2 : EncState}, s1.Like s2 → (s1.enc.auth = false ∨ LengthOnlyMac P) →
    (s1.run P ops1).1.map EncEvent.seen = (s2.run P ops2).1.map EncEvent.seen := by
  induction ho with
  | nil => intro s1 s2 _ _; rfl
  | cons h _ ih =>
    intro s1 s2 hl hm
    unfold EncState.run
    rcases encStep_like hs hl hm h with ⟨g1, g2⟩ | ⟨ev1, ev2, t1, t2, g1, g2, g3, g4, g5⟩
    · rw [g1, g2]; exact ih hl hm
    · rw [g1, g2]
      dsimp only
      have hr : ev2.res = ev1.res := (Prod.mk.inj g3).1.symm
      rw [hr]
      split
      · simp [g3]
      · have := ih g4 (by rw [g5]; exact hm)
        simp only [List.map_cons, g3, this]

/-- **C77.** For every encryptor, made with or without a sender, and any two sequences of calls on it (`AddRecipient`,
`Encrypt`, `NewStreamWriter`, `Write`, `Close` in any order, with any destinations) that agree in everything but the contents
of the plaintext (same lengths): if `Seal` reveals only the length of its plaintext - and, when there is a sender, HMAC only
the length of its input - then all results and all bytes on all destinations are the same, call by call. -/
theorem C77_only_through_seal (P : Prims) (hs : LengthOnlySeal P) (sender : Option PrivateKey)
    (hm : sender = none ∨ LengthOnlyMac P) (blk : Nat) (c : EncCoins) (e : Encryptor)
    (he : newEncryptor P sender blk c = .ok e) (ops1 ops2 : List EncOp) (ho : List.Forall₂ SameLengths ops1 ops2) :
    (EncState.run P { enc := e } ops1).1.map EncEvent.seen = (EncState.run P { enc := e } ops2).1.map EncEvent.seen := by
  refine encRun_like hs ho ⟨⟨?_, rfl⟩, .nil⟩ ?_
  · dsimp only
    rcases e.hmac with _ | ⟨a, b⟩
    · trivial
    · exact ⟨rfl, rfl⟩
  · rcases hm with rfl | hm
    · left
      unfold newEncryptor at he
      dsimp only at he
      cases hx : P.x25519 (clamp c.csk) basepoint with
      | none => rw [hx] at he; cases he
      | some epk => rw [hx] at he; simp [senderField, Res.wrapErr, Res.bind] at he; rw [← he]
    · exact Or.inr hm

namespace Demo

/-- Toy primitives whose `Seal` and HMAC reveal only lengths. -/
def blind : Prims := { toyPrims with
  aeadSeal := fun k n p a => toyPrims.aeadSeal k n (List.replicate p.length 0) a
  hmac256 := fun k x => toyPrims.hmac256 k (List.replicate x.length 0) }

theorem blind_seal : LengthOnlySeal blind := by
  intro k n p q a h
  show toyPrims.aeadSeal k n (List.replicate p.length 0) a = toyPrims.aeadSeal k n (List.replicate q.length 0) a
  rw [h]

theorem blind_mac : LengthOnlyMac blind := by
  intro k x y h
  show toyPrims.hmac256 k (List.replicate x.length 0) = toyPrims.hmac256 k (List.replicate y.length 0)
  rw [h]

def blindEnc : Encryptor :=
  match newEncryptor blind (some alice) 4 coins with
  | .ok e => e
  | _ => ⟨{}, [], [], none, false, [], none, none, 0, false, false, []⟩

/-- One stream with these data. -/
def streamOps (x y : Bytes) : List EncOp :=
  [.add bob.pub (List.replicate 12 4), .openStream dest, .write 0 x, .write 0 y, .close 0 coin]

end Demo

/-- The hypotheses are met, with a sender; and the runs compared do write a container. -/
example : LengthOnlySeal Demo.blind ∧ LengthOnlyMac Demo.blind ∧
    newEncryptor Demo.blind (some Demo.alice) 4 Demo.coins = .ok Demo.blindEnc ∧
    List.Forall₂ SameLengths (Demo.streamOps [1, 2, 3] [4, 5, 6, 7]) (Demo.streamOps [9, 9, 8] [8, 7, 7, 6]) ∧
    ((EncState.run Demo.blind { enc := Demo.blindEnc } (Demo.streamOps [1, 2, 3] [4, 5, 6, 7])).1.map EncEvent.seen).length = 5 ∧
    (((EncState.run Demo.blind { enc := Demo.blindEnc } (Demo.streamOps [1, 2, 3] [4, 5, 6, 7])).1.map
      fun ev => (ev.res == .ok ())) = [true, true, true, true, true]) := by
  refine ⟨Demo.blind_seal, Demo.blind_mac, by decide +kernel, ?_, by decide +kernel, by decide +kernel⟩
  exact .cons (.add _ _) (.cons (.openStream _) (.cons (.write _ _ _ rfl) (.cons (.write _ _ _ rfl) (.cons (.close _ _) .nil))))

/-- The condition on HMAC is needed when there is a sender: with the toy primitives' HMAC the trailer depends on the data. -/
example : (EncState.run { Demo.blind with hmac256 := toyPrims.hmac256 } { enc := Demo.blindEnc }
      (Demo.streamOps [1, 2, 3] [4, 5, 6, 7])).1.map EncEvent.seen ≠
    (EncState.run { Demo.blind with hmac256 := toyPrims.hmac256 } { enc := Demo.blindEnc }
      (Demo.streamOps [9, 9, 8] [8, 7, 7, 6])).1.map EncEvent.seen := by decide +kernel

end Sigtool
