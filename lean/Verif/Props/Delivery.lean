import Verif.DecHistory
import Verif.HeaderLemmas
import Verif.Demo
/-!
# C75: how the input is delivered does not matter

Two readers deliver the same input if they yield the same bytes in all and end with the same error, however the bytes are
split over `Read` calls and whether or not the error comes together with the last bytes.
-/

namespace Sigtool

/-- The same bytes, the same error at the end. -/
def Spec.SameInput (a b : Reader) : Prop := a.content = b.content ∧ a.last = b.last

open Spec (SameInput)

theorem readFull_same {a b : Reader} (h : SameInput a b) (n : Nat) : ∃ got err a' b',
    readFull a n = (got, err, a') ∧ readFull b n = (got, err, b') ∧ SameInput a' b' := by
  obtain ⟨h1, h2⟩ := h
  by_cases hn : n ≤ a.content.length
  · obtain ⟨a', k1, k2, k3⟩ := readFull_enough a n hn
    obtain ⟨b', m1, m2, m3⟩ := readFull_enough b n (by rw [← h1]; exact hn)
    exact ⟨_, _, a', b', k1, by rw [m1, h1], by rw [k2, m2, h1], by rw [k3, m3, h2]⟩
  · obtain ⟨a', k1, k2, k3⟩ := readFull_short a n (by omega)
    obtain ⟨b', m1, m2, m3⟩ := readFull_short b n (by rw [← h1]; omega)
    exact ⟨_, _, a', b', k1, by rw [m1, h1, h2], by rw [k2, m2], by rw [k3, m3, h2]⟩

/-- The two decryptors differ at most in how their input is delivered. -/
def Decryptor.SameBut (d1 d2 : Decryptor) : Prop := SameInput d1.rd d2.rd ∧ d2 = { d1 with rd := d2.rd }

theorem Decryptor.SameBut.mk' (d : Decryptor) (rd : Reader) (h : SameInput d.rd rd) : d.SameBut { d with rd := rd } := ⟨h, rfl⟩

theorem Decryptor.SameBut.out {d1 d2 : Decryptor} (h : d1.SameBut d2) : ∃ rd2, SameInput d1.rd rd2 ∧ d2 = { d1 with rd := rd2 } :=
  ⟨d2.rd, h.1, h.2⟩

theorem newDecryptor_same (P : Prims) {a b : Reader} (h : SameInput a b) :
    (∃ d1 d2 a' b', newDecryptor P a = (.ok d1, a') ∧ newDecryptor P b = (.ok d2, b') ∧ d1.SameBut d2 ∧ SameInput a' b') ∨
    (∃ x a' b', newDecryptor P a = (.err x, a') ∧ newDecryptor P b = (.err x, b') ∧ SameInput a' b') ∨
    (∃ x a' b', newDecryptor P a = (.panic x, a') ∧ newDecryptor P b = (.panic x, b') ∧ SameInput a' b') := by
  unfold newDecryptor
  obtain ⟨got, err, a1, b1, h1, h2, h3⟩ := readFull_same h 12
  rw [h1, h2]
  cases err with
  | some x => exact Or.inr (Or.inl ⟨_, _, _, rfl, rfl, h3⟩)
  | none =>
    dsimp only
    split
    · exact Or.inr (Or.inl ⟨_, _, _, rfl, rfl, h3⟩)
    · split
      · exact Or.inr (Or.inl ⟨_, _, _, rfl, rfl, h3⟩)
      · split
        · exact Or.inr (Or.inl ⟨_, _, _, rfl, rfl, h3⟩)
        · split
          · exact Or.inr (Or.inl ⟨_, _, _, rfl, rfl, h3⟩)
          · obtain ⟨got2, err2, a2, b2, g1, g2, g3⟩ := readFull_same h3 (be32dec (got.drop 8) + 32)
            rw [g1, g2]
            cases err2 with
            | some x => exact Or.inr (Or.inl ⟨_, _, _, rfl, rfl, g3⟩)
            | none =>
              dsimp only
              split
              · exact Or.inr (Or.inl ⟨_, _, _, rfl, rfl, g3⟩)
              · cases Proto.Header.unmarshal (got2.take (be32dec (got.drop 8))) with
                | err x => exact Or.inr (Or.inl ⟨_, _, _, rfl, rfl, g3⟩)
                | panic x => exact Or.inr (Or.inr ⟨_, _, _, rfl, rfl, g3⟩)
                | ok hdr =>
                  dsimp only
                  cases checkHeader hdr with
                  | some x => exact Or.inr (Or.inl ⟨_, _, _, rfl, rfl, g3⟩)
                  | none => exact Or.inl ⟨_, _, _, _, rfl, rfl, ⟨g3, rfl⟩, g3⟩

theorem findKey_rd (P : Prims) (d : Decryptor) (rd : Reader) (sk : PrivateKey) : ∀ ws : List WrappedKey,
    ({ d with rd := rd } : Decryptor).findKey P sk ws = d.findKey P sk ws := by
  intro ws
  induction ws with
  | nil => rfl
  | cons w ws ih =>
    unfold Decryptor.findKey
    rw [ih]
    rfl

theorem setPrivateKey_same (P : Prims) {d1 d2 : Decryptor} (h : d1.SameBut d2) (sk : PrivateKey) (spk : Option PublicKey) :
    ∃ r e1 e2, d1.setPrivateKey P sk spk = (r, e1) ∧ d2.setPrivateKey P sk spk = (r, e2) ∧ e1.SameBut e2 := by
  obtain ⟨rd2, hs, rfl⟩ := h.out
  unfold Decryptor.setPrivateKey
  rw [findKey_rd P d1 rd2]
  dsimp only
  cases d1.findKey P sk d1.hdr.keys with
  | err x => exact ⟨_, _, _, rfl, rfl, hs, rfl⟩
  | panic x => exact ⟨_, _, _, rfl, rfl, hs, rfl⟩
  | ok o =>
    cases o with
    | none => exact ⟨_, _, _, rfl, rfl, hs, rfl⟩
    | some key =>
      dsimp only
      have hv : ({ d1 with rd := rd2, key := some key, sender := spk } : Decryptor).verifySender P key spk =
        ({ d1 with key := some key, sender := spk } : Decryptor).verifySender P key spk := rfl
      rw [hv]
      cases ({ d1 with key := some key, sender := spk } : Decryptor).verifySender P key spk with
      | err x => exact ⟨_, _, _, rfl, rfl, hs, rfl⟩
      | panic x => exact ⟨_, _, _, rfl, rfl, hs, rfl⟩
      | ok a => exact ⟨_, _, _, rfl, rfl, hs, rfl⟩

theorem processTrailer_same (P : Prims) {d1 d2 : Decryptor} (h : d1.SameBut d2) (pt : Bytes) :
    ∃ r e1 e2, d1.processTrailer P pt = (r, e1) ∧ d2.processTrailer P pt = (r, e2) ∧ e1.SameBut e2 := by
  obtain ⟨rd2, hs, rfl⟩ := h.out
  unfold Decryptor.processTrailer
  dsimp only
  obtain ⟨got, err, a1, b1, h1, h2, h3⟩ := readFull_same hs 64
  rw [h1, h2]
  cases err with
  | some x => exact ⟨_, _, _, rfl, rfl, h3, rfl⟩
  | none =>
    dsimp only
    split
    · exact ⟨_, _, _, rfl, rfl, h3, rfl⟩
    · cases d1.hmac with
      | none => exact ⟨_, _, _, rfl, rfl, h3, rfl⟩
      | some p =>
        cases d1.sender with
        | none => exact ⟨_, _, _, rfl, rfl, h3, rfl⟩
        | some pk =>
          dsimp only
          cases verifyMessage P pk (P.hmac256 p.1 p.2) { sig := got } with
          | err x => exact ⟨_, _, _, rfl, rfl, h3, rfl⟩
          | panic x => exact ⟨_, _, _, rfl, rfl, h3, rfl⟩
          | ok b => cases b <;> exact ⟨_, _, _, rfl, rfl, h3, rfl⟩

theorem decryptBlock_same (P : Prims) {d1 d2 : Decryptor} (h : d1.SameBut d2) (i : Nat) (buf : Bytes) :
    d1.bufAfter P i buf = d2.bufAfter P i buf ∧
    ∃ r e1 e2, d1.decryptBlock P i = (r, e1) ∧ d2.decryptBlock P i = (r, e2) ∧ e1.SameBut e2 := by
  obtain ⟨rd2, hs, rfl⟩ := h.out
  obtain ⟨hdr, rd1, hdrsum, ae, hmac, sender, bufLen, nonce, key, auth, eof, stream⟩ := d1
  unfold Decryptor.decryptBlock Decryptor.bufAfter
  dsimp only at hs ⊢
  obtain ⟨got, err, a1, b1, h1, h2, h3⟩ := readFull_same hs 4
  rw [h1, h2]
  cases ae with
  | none => exact ⟨rfl, _, _, _, rfl, rfl, hs, rfl⟩
  | some dkey =>
    cases err with
    | some x => exact ⟨rfl, _, _, _, rfl, rfl, h3, rfl⟩
    | none =>
      dsimp only
      split
      · exact ⟨rfl, _, _, _, rfl, rfl, h3, rfl⟩
      · split
        · split
          · exact ⟨rfl, _, _, _, rfl, rfl, h3, rfl⟩
          · exact ⟨rfl, _, _, _, rfl, rfl, h3, rfl⟩
        · split
          · exact ⟨rfl, _, _, _, rfl, rfl, h3, rfl⟩
          · obtain ⟨got2, err2, a2, b2, g1, g2, g3⟩ := readFull_same h3 ((wordLen (be32dec got) + 16) % 2^32)
            rw [g1, g2]
            cases err2 with
            | some x => exact ⟨rfl, _, _, _, rfl, rfl, g3, rfl⟩
            | none =>
              dsimp only
              cases P.aeadOpen dkey (chunkNonce nonce i) got2 got with
              | none => exact ⟨rfl, _, _, _, rfl, rfl, g3, rfl⟩
              | some pt =>
                refine ⟨rfl, ?_⟩
                dsimp only
                split
                · exact ⟨_, _, _, rfl, rfl, g3, rfl⟩
                · cases hmac with
                  | none => exact ⟨_, _, _, rfl, rfl, g3, rfl⟩
                  | some p =>
                    obtain ⟨hk, hd⟩ := p
                    dsimp only
                    split
                    · exact processTrailer_same P ⟨g3, rfl⟩ pt
                    · exact ⟨_, _, _, rfl, rfl, g3, rfl⟩

theorem decryptLoop_same (P : Prims) : ∀ (fuel : Nat) {d1 d2 : Decryptor}, d1.SameBut d2 → ∀ (wr : Writer) (i : Nat) (buf : Bytes),
    Decryptor.bufAfterLoop P fuel d1 wr i buf = Decryptor.bufAfterLoop P fuel d2 wr i buf ∧
    ∃ r e1 e2 wr', Decryptor.decryptLoop P fuel d1 wr i = (r, e1, wr') ∧ Decryptor.decryptLoop P fuel d2 wr i = (r, e2, wr') ∧
      e1.SameBut e2 := by
  intro fuel
  induction fuel with
  | zero => intro d1 d2 h wr i buf; exact ⟨rfl, _, _, _, _, rfl, rfl, h⟩
  | succ fuel ih =>
    intro d1 d2 h wr i buf
    unfold Decryptor.decryptLoop Decryptor.bufAfterLoop
    obtain ⟨hb, r, e1, e2, h1, h2, h3⟩ := decryptBlock_same P h i buf
    rw [h1, h2, hb]
    dsimp only
    match r with
    | .err x => exact ⟨rfl, _, _, _, _, rfl, rfl, h3⟩
    | .panic x => exact ⟨rfl, _, _, _, _, rfl, rfl, h3⟩
    | .ok (c, eof) =>
      dsimp only
      rcases (if c.length > 0 then fullwrite c wr else (none, wr)) with ⟨_ | x, wr1⟩
      · dsimp only
        cases eof with
        | true => exact ⟨rfl, _, _, _, _, rfl, rfl, h3.1, by conv_lhs => rw [h3.2]⟩
        | false => exact ih h3 wr1 _ _
      · exact ⟨rfl, _, _, _, _, rfl, rfl, h3⟩

theorem decrypt_same (P : Prims) {d1 d2 : Decryptor} (h : d1.SameBut d2) (wr : Writer) :
    ∃ r e1 e2 wr', d1.decrypt P wr = (r, e1, wr') ∧ d2.decrypt P wr = (r, e2, wr') ∧ e1.SameBut e2 := by
  have hk : d2.key = d1.key := by rw [h.2]
  have hs : d2.stream = d1.stream := by rw [h.2]
  have he : d2.eof = d1.eof := by rw [h.2]
  unfold Decryptor.decrypt
  rw [hk, hs, he, ← h.1.1]
  cases d1.key with
  | none => exact ⟨_, _, _, _, rfl, rfl, h⟩
  | some key =>
    dsimp only
    split
    · exact ⟨_, _, _, _, rfl, rfl, h⟩
    · split
      · exact ⟨_, _, _, _, rfl, rfl, h⟩
      · exact (decryptLoop_same P _ h wr 0 []).2

/-- Two states of affairs that differ at most in how the input is delivered. -/
def DecState.SameBut (s1 s2 : DecState) : Prop := s1.dec.SameBut s2.dec ∧ s2 = { s1 with dec := s2.dec }

theorem read_same (P : Prims) {s1 s2 : DecState} (h : s1.SameBut s2) (k : Nat) (r : MemReader) (cap : Nat) :
    ∃ res t1 t2, s1.read P k r cap = (res, t1) ∧ s2.read P k r cap = (res, t2) ∧ t1.SameBut t2 := by
  obtain ⟨hd, he⟩ := h
  have heof : s2.dec.eof = s1.dec.eof := by rw [hd.2]
  obtain ⟨hb, res, e1, e2, h1, h2, h3⟩ := decryptBlock_same P hd r.blk s1.buf
  have hbuf : s2.buf = s1.buf := by unfold DecState.buf; rw [he]
  unfold DecState.read
  rw [h1, h2, heof, hbuf, ← hb]
  rw [he]
  dsimp only
  cases r.err with
  | some x => exact ⟨_, _, _, rfl, rfl, hd, rfl⟩
  | none =>
    dsimp only
    split
    · split
      · exact ⟨_, _, _, rfl, rfl, hd, rfl⟩
      · match res with
        | .err x => exact ⟨_, _, _, rfl, rfl, h3, rfl⟩
        | .panic x => exact ⟨_, _, _, rfl, rfl, h3, rfl⟩
        | .ok (pt, eof) =>
          dsimp only
          have h3' : ({ e1 with eof := eof } : Decryptor).SameBut { e2 with eof := eof } := ⟨h3.1, by conv_lhs => rw [h3.2]⟩
          split
          · exact ⟨_, _, _, rfl, rfl, h3', rfl⟩
          · exact ⟨_, _, _, rfl, rfl, h3', rfl⟩
    · split
      · exact ⟨_, _, _, rfl, rfl, hd, rfl⟩
      · exact ⟨_, _, _, rfl, rfl, hd, rfl⟩

theorem newStreamReader_same {d1 d2 : Decryptor} (h : d1.SameBut d2) :
    ∃ r e1 e2, d1.newStreamReader = (r, e1) ∧ d2.newStreamReader = (r, e2) ∧ e1.SameBut e2 := by
  obtain ⟨rd2, hs, rfl⟩ := h.out
  unfold Decryptor.newStreamReader
  dsimp only
  repeat' split
  all_goals exact ⟨_, _, _, rfl, rfl, hs, rfl⟩

theorem step_same (P : Prims) {s1 s2 : DecState} (h : s1.SameBut s2) (op : DecOp) :
    (s1.step P op = none ∧ s2.step P op = none) ∨
    ∃ ev t1 t2, s1.step P op = some (ev, t1) ∧ s2.step P op = some (ev, t2) ∧ t1.SameBut t2 := by
  have hS := h
  obtain ⟨hd, he⟩ := h
  have hauth : ∀ {a b : Decryptor}, a.SameBut b → b.auth = a.auth := fun h => by rw [h.2]
  have hbl : ∀ {a b : Decryptor}, a.SameBut b → b.bufLen = a.bufLen := fun h => by rw [h.2]
  obtain ⟨d1, hp, c, rs⟩ := s1
  obtain ⟨d2, hp2, c2, rs2⟩ := s2
  simp only [DecState.mk.injEq, true_and] at he
  obtain ⟨rfl, rfl, rfl⟩ := he
  dsimp only at hd
  unfold DecState.step
  cases op with
  | setKey sk spk =>
    right
    obtain ⟨r, e1, e2, h1, h2, h3⟩ := setPrivateKey_same P hd sk spk
    dsimp only
    rw [h1, h2]
    match r with
    | .ok () =>
      dsimp only
      rw [hauth h3, hbl h3]
      exact ⟨_, _, _, rfl, rfl, h3, rfl⟩
    | .err x =>
      dsimp only
      rw [hauth h3]
      exact ⟨_, _, _, rfl, rfl, h3, rfl⟩
    | .panic x =>
      dsimp only
      rw [hauth h3]
      exact ⟨_, _, _, rfl, rfl, h3, rfl⟩
  | decrypt wr =>
    right
    obtain ⟨r, e1, e2, wr', h1, h2, h3⟩ := decrypt_same P hd wr
    have hk : d2.key = d1.key := by rw [hd.2]
    have hs : d2.stream = d1.stream := by rw [hd.2]
    have heo : d2.eof = d1.eof := by rw [hd.2]
    dsimp only
    rw [h1, h2, hk, hs, heo, ← hd.1.1]
    have hl := (decryptLoop_same P (d1.rd.content.length + 1) hd wr 0
      (DecState.buf { dec := d1, heap := hp2, cur := c2, readers := rs2 })).1
    have hb : DecState.buf { dec := d2, heap := hp2, cur := c2, readers := rs2 } =
      DecState.buf { dec := d1, heap := hp2, cur := c2, readers := rs2 } := rfl
    rw [hb, ← hl]
    dsimp only
    rw [hauth h3]
    exact ⟨_, _, _, rfl, rfl, h3, rfl⟩
  | openReader =>
    right
    obtain ⟨r, e1, e2, h1, h2, h3⟩ := newStreamReader_same hd
    dsimp only
    rw [h1, h2]
    dsimp only
    rw [hauth h3]
    exact ⟨_, _, _, rfl, rfl, h3, rfl⟩
  | read k cap =>
    dsimp only
    cases rs2[k]? with
    | none => exact Or.inl ⟨rfl, rfl⟩
    | some r =>
      right
      obtain ⟨res, t1, t2, h1, h2, h3⟩ := read_same P hS k r cap
      dsimp only
      rw [h1, h2]
      dsimp only
      rw [hauth h3.1]
      exact ⟨_, _, _, rfl, rfl, h3⟩
  | more rd =>
    dsimp only
    rw [← hd.1.1]
    by_cases hc : d1.rd.content = []
    · right
      rw [if_pos hc, if_pos hc, hauth hd]
      exact ⟨_, _, _, rfl, rfl, ⟨⟨rfl, rfl⟩, by rw [hd.2]⟩, rfl⟩
    · left
      rw [if_neg hc, if_neg hc]
      exact ⟨rfl, rfl⟩

theorem run_same (P : Prims) : ∀ (ops : List DecOp) {s1 s2 : DecState}, s1.SameBut s2 →
    (s1.run P ops).1 = (s2.run P ops).1 ∧ (s1.run P ops).2.SameBut (s2.run P ops).2 := by
  intro ops
  induction ops with
  | nil => intro s1 s2 h; exact ⟨rfl, h⟩
  | cons o os ih =>
    intro s1 s2 h
    unfold DecState.run
    rcases step_same P h o with ⟨h1, h2⟩ | ⟨ev, t1, t2, h1, h2, h3⟩
    · rw [h1, h2]
      exact ih h
    · rw [h1, h2]
      dsimp only
      split
      · exact ⟨rfl, h3⟩
      · have := ih h3
        exact ⟨by dsimp only; rw [this.1], this.2⟩

/-- **C75**, reading: for any two readers that deliver the same bytes and end with the same error, however the bytes are
split over `Read` calls: `NewDecryptor` returns the same error, or succeeds on both; and then *every* sequence of calls
(`SetPrivateKey`, `Decrypt`, `NewStreamReader`, `Read`, with any arguments, in any order) returns the same results, delivers
the same bytes and shows the same `AuthenticatedSender()` after each call.  What is left in the two readers is the same
too. -/
theorem C75_read_delivery (P : Prims) (a b : Reader) (h : SameInput a b) :
    (∃ d1 d2 a' b', newDecryptor P a = (.ok d1, a') ∧ newDecryptor P b = (.ok d2, b') ∧ SameInput a' b' ∧
      ∀ ops : List DecOp,
        (DecState.run P { dec := d1 } ops).1 = (DecState.run P { dec := d2 } ops).1 ∧
        SameInput (DecState.run P { dec := d1 } ops).2.dec.rd (DecState.run P { dec := d2 } ops).2.dec.rd) ∨
    (∃ x a' b', newDecryptor P a = (.err x, a') ∧ newDecryptor P b = (.err x, b') ∧ SameInput a' b') := by
  rcases newDecryptor_same P h with ⟨d1, d2, a', b', h1, h2, h3, h4⟩ | h | ⟨x, a', b', h1, _⟩
  · refine Or.inl ⟨d1, d2, a', b', h1, h2, h4, fun ops => ?_⟩
    have := run_same P ops (s1 := { dec := d1 }) (s2 := { dec := d2 }) ⟨h3, rfl⟩
    exact ⟨this.1, this.2.1.1⟩
  · exact Or.inr h
  · have := newDecryptor_noPanic P a
    rw [h1] at this
    exact absurd rfl (this x)

theorem encryptLoop_same (P : Prims) (coin : Bytes) : ∀ (fuel : Nat) (e : Encryptor) {a b : Reader}, SameInput a b →
    ∀ (wr : Writer) (i : Nat), ∃ r e' wr' a' b',
      Encryptor.encryptLoop P coin fuel e a wr i = (r, e', a', wr') ∧
      Encryptor.encryptLoop P coin fuel e b wr i = (r, e', b', wr') ∧ SameInput a' b' := by
  intro fuel
  induction fuel with
  | zero => intro e a b h wr i; exact ⟨_, _, _, _, _, rfl, rfl, h⟩
  | succ fuel ih =>
    intro e a b h wr i
    unfold Encryptor.encryptLoop
    obtain ⟨got, err, a1, b1, h1, h2, h3⟩ := readFull_same h e.hdr.chunkSize
    rw [h1, h2]
    dsimp only
    have rest : ∀ eof : Bool, ∃ r e' wr' a' b',
        (match e.encryptBlock P got wr i eof coin with
          | (.ok (), e, wr) => if eof then (Res.ok (), e, a1, wr)
            else Encryptor.encryptLoop P coin fuel e a1 wr ((i + 1) % 2^32)
          | (.err x, e, wr) => (Res.err x, e, a1, wr)
          | (.panic x, e, wr) => (Res.panic x, e, a1, wr)) = (r, e', a', wr') ∧
        (match e.encryptBlock P got wr i eof coin with
          | (.ok (), e, wr) => if eof then (Res.ok (), e, b1, wr)
            else Encryptor.encryptLoop P coin fuel e b1 wr ((i + 1) % 2^32)
          | (.err x, e, wr) => (Res.err x, e, b1, wr)
          | (.panic x, e, wr) => (Res.panic x, e, b1, wr)) = (r, e', b', wr') ∧ SameInput a' b' := by
      intro eof
      rcases e.encryptBlock P got wr i eof coin with ⟨r, e1, wr1⟩
      match r with
      | .err x => exact ⟨_, _, _, _, _, rfl, rfl, h3⟩
      | .panic x => exact ⟨_, _, _, _, _, rfl, rfl, h3⟩
      | .ok () =>
        dsimp only
        cases eof with
        | true => exact ⟨_, _, _, _, _, rfl, rfl, h3⟩
        | false => exact ih e1 h3 wr1 _
    cases err with
    | none => exact rest false
    | some x =>
      dsimp only
      by_cases hx : isEndOfInput x
      · rw [if_pos hx]
        exact rest true
      · rw [if_neg hx]
        exact ⟨_, _, _, _, _, rfl, rfl, h3⟩

/-- **C75**, writing: for any encryptor in any state, destination and random bytes, `Encrypt` from two readers that deliver
the same bytes and end with the same error returns the same result, leaves the same encryptor and does the same to the
destination, byte for byte. -/
theorem C75_write_delivery (P : Prims) (e : Encryptor) (a b : Reader) (h : SameInput a b) (wr : Writer) (coin : Bytes) :
    ∃ r e' wr' a' b', e.encrypt P a wr coin = (r, e', a', wr') ∧ e.encrypt P b wr coin = (r, e', b', wr') ∧
      SameInput a' b' := by
  have body : ∀ (e : Encryptor) (wr : Writer), ∃ r e' wr' a' b',
      (match Encryptor.encryptLoop P coin (a.content.length + 1) e a wr 0 with
        | (.ok (), e, rd, wr) =>
          match wr.close with
          | (some x, wr) => (Res.err x, e, rd, wr)
          | (none, wr) => (.ok (), e, rd, wr)
        | r => r) = (r, e', a', wr') ∧
      (match Encryptor.encryptLoop P coin (b.content.length + 1) e b wr 0 with
        | (.ok (), e, rd, wr) =>
          match wr.close with
          | (some x, wr) => (Res.err x, e, rd, wr)
          | (none, wr) => (.ok (), e, rd, wr)
        | r => r) = (r, e', b', wr') ∧ SameInput a' b' := by
    intro e wr
    rw [← h.1]
    obtain ⟨r, e', wr', a', b', h1, h2, h3⟩ := encryptLoop_same P coin (a.content.length + 1) e h wr 0
    rw [h1, h2]
    match r with
    | .err x => exact ⟨_, _, _, _, _, rfl, rfl, h3⟩
    | .panic x => exact ⟨_, _, _, _, _, rfl, rfl, h3⟩
    | .ok () =>
      dsimp only
      rcases wr'.close with ⟨_ | x, wr2⟩ <;> exact ⟨_, _, _, _, _, rfl, rfl, h3⟩
  unfold Encryptor.encrypt
  dsimp only
  split
  · exact ⟨_, _, _, _, _, rfl, rfl, h⟩
  · split
    · exact body e wr
    · rcases e.start P wr with ⟨r, e1, wr1⟩
      match r with
      | .err x => exact ⟨_, _, _, _, _, rfl, rfl, h⟩
      | .panic x => exact ⟨_, _, _, _, _, rfl, rfl, h⟩
      | .ok () => exact body e1 wr1

/-- Two deliveries of one input: ten bytes in two reads, the end together with the last of them; or byte by byte with empty
reads in between and the end on its own. -/
example : SameInput Demo.input ⟨[[], [1], [2], [3], [4], [], [5], [6], [7], [8], [9], [10], []], .eof, false⟩ :=
  ⟨by decide, rfl⟩

end Sigtool
