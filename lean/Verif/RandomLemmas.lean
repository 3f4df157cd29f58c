import Verif.Spec.Random
import Verif.HistoryNonce
import Verif.Roundtrip
/-! # Random: single calls agree with the calls that get their random bytes as arguments -/

namespace Sigtool

theorem randBuf_spec (rnd : Reader) (n : Nat) :
    (∃ b rnd', randBuf rnd n = (some b, rnd') ∧ b.length = n ∧ rnd.content = b ++ rnd'.content) ∨
    (∃ rnd', randBuf rnd n = (none, rnd') ∧ rnd.content.length < n) := by
  unfold randBuf
  by_cases h : n ≤ rnd.content.length
  · obtain ⟨r', h1, h2, _⟩ := readFull_enough rnd n h
    left
    rw [h1]
    exact ⟨_, _, rfl, by simp [h], by rw [h2, List.take_append_drop]⟩
  · obtain ⟨r', h1, h2, _⟩ := readFull_short rnd n (by omega)
    right
    rw [h1]
    exact ⟨_, rfl, by omega⟩

/-- The call took `d` from the source, and does what the call with the argument `coin` does. -/
def Agrees (rnd rnd' : Reader) (n : Nat) (must : Prop) (f : Bytes → Prop) : Prop :=
  ∃ coin d, coin.length = n ∧ (d = coin ∨ d = []) ∧ (must → d = coin) ∧ rnd.content = d ++ rnd'.content ∧ f coin

theorem Agrees.idle {rnd : Reader} {n : Nat} {must : Prop} {f : Bytes → Prop} (hm : ¬ must) (h : ∀ coin, f coin) : Agrees rnd rnd n must f :=
  ⟨List.replicate n 0, [], by simp, .inr rfl, fun h => absurd h hm, rfl, h _⟩

theorem Agrees.imp {rnd rnd' : Reader} {n : Nat} {must must' : Prop} {f g : Bytes → Prop} (h : Agrees rnd rnd' n must f)
    (hm : must' → must) (hf : ∀ coin, f coin → g coin) : Agrees rnd rnd' n must' g := by
  obtain ⟨coin, d, h1, h2, h3, h4, h5⟩ := h
  exact ⟨coin, d, h1, h2, fun h => h3 (hm h), h4, hf _ h5⟩

theorem newEncryptorR_spec (P : Prims) (rnd rnd' : Reader) (sk : Option PrivateKey) (blk : Nat) (r : Res Encryptor)
    (h : newEncryptorR P rnd sk blk = (r, rnd')) :
    (∃ c : EncCoins, ∃ d, c.WF ∧ rnd.content = d ++ rnd'.content ∧ (d = c.csk ++ c.key ++ c.salt ∨ d = c.csk) ∧
      (∀ e, r = .ok e → d = c.csk ++ c.key ++ c.salt) ∧ newEncryptor P sk blk c = r) ∨
    (r = .panic noRandom ∧ rnd.content.length < 96) := by
  unfold newEncryptorR at h
  rcases randBuf_spec rnd 32 with ⟨csk, r1, h1, h2, h3⟩ | ⟨r1, h1, h2⟩
  · rw [h1] at h
    dsimp only at h
    cases hx : P.x25519 (clamp csk) basepoint with
    | none =>
      rw [hx] at h
      cases h
      left
      refine ⟨⟨csk, List.replicate 32 0, List.replicate 32 0⟩, csk, ⟨h2, by simp, by simp⟩, h3, .inr rfl, fun e he => (by cases he), ?_⟩
      unfold newEncryptor
      dsimp only
      rw [hx]
    | some epk =>
      rw [hx] at h
      dsimp only at h
      rcases randBuf_spec r1 32 with ⟨key, r2, g1, g2, g3⟩ | ⟨r2, g1, g2⟩
      · rw [g1] at h
        dsimp only at h
        rcases randBuf_spec r2 32 with ⟨salt, r3, k1, k2, k3⟩ | ⟨r3, k1, k2⟩
        · rw [k1] at h
          cases h
          left
          refine ⟨⟨csk, key, salt⟩, csk ++ key ++ salt, ⟨h2, g2, k2⟩, ?_, .inl rfl, fun _ _ => rfl, ?_⟩
          · rw [h3, g3, k3]; simp
          · unfold newEncryptor
            dsimp only
            rw [hx]
        · rw [k1] at h
          cases h
          right
          refine ⟨rfl, ?_⟩
          rw [h3, g3]
          simp only [List.length_append, h2, g2]
          omega
      · rw [g1] at h
        cases h
        right
        refine ⟨rfl, ?_⟩
        rw [h3]
        simp only [List.length_append, h2]
        omega
  · rw [h1] at h
    cases h
    right
    exact ⟨rfl, by omega⟩

theorem wrapKeyR_spec (P : Prims) (e : Encryptor) (pk : PublicKey) (rnd rnd' : Reader) (r : Res WrappedKey)
    (h : e.wrapKeyR P pk rnd = (r, rnd')) :
    Agrees rnd rnd' 12 (∃ w, r = .ok w) (fun rbuf => e.wrapKey P pk rbuf = r) ∨
    (r = .panic noRandom ∧ rnd.content.length < 12) := by
  unfold Encryptor.wrapKeyR at h
  unfold Encryptor.wrapKey
  by_cases hl : pk.pk.length > 32
  · rw [if_pos hl] at h
    cases h
    left
    exact .idle (by simp) (fun coin => by rw [if_pos hl])
  · rw [if_neg hl] at h
    simp only [if_neg hl]
    cases hx : P.x25519 e.encSK (toCurve25519PK pk.pk) with
    | none =>
      rw [hx] at h
      cases h
      left
      exact .idle (by simp) (fun coin => rfl)
    | some sekrit =>
      rw [hx] at h
      dsimp only at h
      rcases randBuf_spec rnd 12 with ⟨b, r1, h1, h2, h3⟩ | ⟨r1, h1, h2⟩
      · rw [h1] at h
        cases h
        left
        exact ⟨b, b, h2, .inl rfl, fun _ => rfl, h3, rfl⟩
      · rw [h1] at h
        cases h
        right
        exact ⟨rfl, h2⟩

theorem addRecipientR_spec (P : Prims) (e e' : Encryptor) (pk : PublicKey) (rnd rnd' : Reader) (r : Res Unit)
    (h : e.addRecipientR P pk rnd = (r, e', rnd')) :
    Agrees rnd rnd' 12 (r = .ok ()) (fun rbuf => e.addRecipient P pk rbuf = (r, e')) ∨
    (r = .panic noRandom ∧ e' = e ∧ rnd.content.length < 12) := by
  unfold Encryptor.addRecipientR at h
  unfold Encryptor.addRecipient
  by_cases hs : e.started = true
  · rw [if_pos hs] at h
    cases h
    left
    exact .idle (by simp) (fun coin => by rw [if_pos hs])
  · rw [if_neg hs] at h
    simp only [if_neg hs]
    rcases hw : e.wrapKeyR P pk rnd with ⟨r1, rnd1⟩
    rw [hw] at h
    rcases wrapKeyR_spec P e pk _ _ _ hw with g | ⟨g1, g2⟩
    · left
      cases r1 <;> cases h
      · exact g.imp (fun _ => ⟨_, rfl⟩) (fun coin hc => by rw [hc])
      · exact g.imp (by simp) (fun coin hc => by rw [hc])
      · exact g.imp (by simp) (fun coin hc => by rw [hc])
    · right
      subst g1
      cases h
      exact ⟨rfl, rfl, g2⟩

theorem fullwrite_closes {b : Bytes} {wr wr' : Writer} {x : Option Err} (h : fullwrite b wr = (x, wr')) : wr'.closes = wr.closes := by
  obtain ⟨w, h1, _, h3, _⟩ := fullwrite_spec b wr
  rcases h3 with ⟨h3, _⟩ | ⟨e, k, h3, _⟩ <;> rw [h3] at h <;> cases h <;> exact h1

theorem writeTrailerR_spec (P : Prims) (e : Encryptor) (wr wr' : Writer) (rnd rnd' : Reader) (r : Res Unit)
    (h : e.writeTrailerR P wr rnd = (r, wr', rnd')) :
    Agrees rnd rnd' 64 (e.auth = false) (fun coin => e.writeTrailer P wr coin = (r, wr')) ∨
    (r = .panic noRandom ∧ wr' = wr ∧ rnd.content.length < 64) := by
  unfold Encryptor.writeTrailerR at h
  unfold Encryptor.writeTrailer
  cases ha : e.auth with
  | true =>
    rw [ha] at h
    simp only [if_true] at h
    left
    have : ∀ (coin : Bytes) (f g : Res Unit × Writer × Reader), f = (r, wr', rnd') → True := fun _ _ _ _ => trivial
    cases hh : e.hmac with
    | none => rw [hh] at h; cases h; exact .idle (by simp) (fun _ => rfl)
    | some x =>
      obtain ⟨hk, hd⟩ := x
      cases hs : e.sender with
      | none => rw [hh, hs] at h; cases h; exact .idle (by simp) (fun _ => rfl)
      | some sk =>
        rw [hh, hs] at h
        dsimp only at h ⊢
        cases hm : signMessage P sk (P.hmac256 hk hd) with
        | err x => rw [hm] at h; cases h; exact .idle (by simp) (fun _ => rfl)
        | panic x => rw [hm] at h; cases h; exact .idle (by simp) (fun _ => rfl)
        | ok s =>
          rw [hm] at h
          dsimp only at h ⊢
          rcases hw : fullwrite s.sig wr with ⟨y, w1⟩
          rw [hw] at h
          cases y <;> cases h <;> exact .idle (by simp) (fun _ => rfl)
  | false =>
    rw [ha] at h
    simp only [Bool.false_eq_true, if_false] at h ⊢
    rcases randBuf_spec rnd 64 with ⟨b, r1, h1, h2, h3⟩ | ⟨r1, h1, h2⟩
    · rw [h1] at h
      dsimp only at h
      left
      rcases hw : fullwrite b wr with ⟨y, w1⟩
      rw [hw] at h
      refine ⟨b, b, h2, .inl rfl, fun _ => rfl, ?_, ?_⟩
      · cases y <;> cases h <;> exact h3
      · dsimp only
        rw [hw]
        cases y <;> cases h <;> rfl
    · rw [h1] at h
      cases h
      right
      exact ⟨rfl, rfl, h2⟩

/-- A block that is not the last draws nothing. -/
theorem encryptBlockR_mid (P : Prims) (e : Encryptor) (pt : Bytes) (wr : Writer) (i : Nat) (rnd : Reader) (coin : Bytes) :
    e.encryptBlockR P pt wr i false rnd =
      ((e.encryptBlock P pt wr i false coin).1, (e.encryptBlock P pt wr i false coin).2.1, (e.encryptBlock P pt wr i false coin).2.2, rnd) := by
  unfold Encryptor.encryptBlockR Encryptor.encryptBlock
  cases e.ae with
  | none => rfl
  | some dkey =>
    dsimp only
    split
    · rfl
    · rcases fullwrite (be32 (lenWord pt.length false) ++ P.aeadSeal dkey (chunkNonce e.nonce i) pt (be32 (lenWord pt.length false))) wr
        with ⟨y, w1⟩
      cases y with
      | some x => rfl
      | none =>
        dsimp only
        cases e.hmac with
        | none => rfl
        | some x => rfl

theorem encryptBlockR_spec (P : Prims) (e e' : Encryptor) (pt : Bytes) (wr wr' : Writer) (i : Nat) (rnd rnd' : Reader) (r : Res Unit)
    (h : e.encryptBlockR P pt wr i true rnd = (r, e', wr', rnd')) :
    Agrees rnd rnd' 64 (e.auth = false ∧ r = .ok ()) (fun coin => e.encryptBlock P pt wr i true coin = (r, e', wr')) ∨
    (r = .panic noRandom ∧ wr'.closes = wr.closes ∧ rnd.content.length < 64) := by
  unfold Encryptor.encryptBlockR at h
  unfold Encryptor.encryptBlock
  cases ha : e.ae with
  | none => rw [ha] at h; cases h; exact .inl (.idle (by simp) (fun _ => rfl))
  | some dkey =>
    rw [ha] at h
    dsimp only at h ⊢
    split at h
    · rename_i hl
      cases h
      exact .inl (.idle (by simp) (fun _ => by rw [if_pos hl]))
    · rename_i hl
      simp only [if_neg hl]
      rcases hw : fullwrite (be32 (lenWord pt.length true) ++ P.aeadSeal dkey (chunkNonce e.nonce i) pt (be32 (lenWord pt.length true))) wr
        with ⟨y, w1⟩
      rw [hw] at h
      cases y with
      | some x => cases h; exact .inl (.idle (by simp) (fun _ => rfl))
      | none =>
        dsimp only at h ⊢
        cases hh : e.hmac with
        | none => rw [hh] at h; cases h; exact .inl (.idle (by simp) (fun _ => rfl))
        | some x =>
          obtain ⟨hk, hd⟩ := x
          rw [hh] at h
          simp only [if_true] at h ⊢
          rcases hT : Encryptor.writeTrailerR P _ w1 rnd with ⟨r2, w2, rnd2⟩
          rw [hT] at h
          cases h
          rcases writeTrailerR_spec P _ w1 _ rnd _ _ hT with g | ⟨g1, g2, g3⟩
          · left
            exact g.imp (fun h1 => h1.1) (fun coin hc => by rw [hc])
          · right
            exact ⟨g1, by rw [g2]; exact fullwrite_closes hw, g3⟩

theorem encryptLoopR_spec (P : Prims) : ∀ (fuel : Nat) (e e' : Encryptor) (rd rd' : Reader) (wr wr' : Writer) (i : Nat)
    (rnd rnd' : Reader) (r : Res Unit), Encryptor.encryptLoopR P fuel e rd wr i rnd = (r, e', rd', wr', rnd') →
    Agrees rnd rnd' 64 (e.auth = false ∧ r = .ok ()) (fun coin => Encryptor.encryptLoop P coin fuel e rd wr i = (r, e', rd', wr')) ∨
    (r = .panic noRandom ∧ wr'.closes = wr.closes ∧ rnd.content.length < 64) := by
  intro fuel
  induction fuel with
  | zero =>
    intro e e' rd rd' wr wr' i rnd rnd' r h
    unfold Encryptor.encryptLoopR at h
    cases h
    left
    exact .idle (by simp) (fun _ => by unfold Encryptor.encryptLoop; rfl)
  | succ fuel ih =>
    intro e e' rd rd' wr wr' i rnd rnd' r h
    unfold Encryptor.encryptLoopR at h
    unfold Encryptor.encryptLoop
    rcases hr : readFull rd e.hdr.chunkSize with ⟨buf, err, rd1⟩
    rw [hr] at h
    dsimp only at h ⊢
    have last : (match e.encryptBlockR P buf wr i true rnd with
        | (.ok (), e, wr, rnd) =>
          if true = true then (Res.ok (), e, rd1, wr, rnd) else Encryptor.encryptLoopR P fuel e rd1 wr ((i + 1) % 2^32) rnd
        | (.err x, e, wr, rnd) => (.err x, e, rd1, wr, rnd)
        | (.panic x, e, wr, rnd) => (.panic x, e, rd1, wr, rnd)) = (r, e', rd', wr', rnd') →
        Agrees rnd rnd' 64 (e.auth = false ∧ r = .ok ()) (fun coin => (match e.encryptBlock P buf wr i true coin with
        | (.ok (), e, wr) =>
          if true = true then (Res.ok (), e, rd1, wr) else Encryptor.encryptLoop P coin fuel e rd1 wr ((i + 1) % 2^32)
        | (.err x, e, wr) => (.err x, e, rd1, wr)
        | (.panic x, e, wr) => (.panic x, e, rd1, wr)) = (r, e', rd', wr')) ∨
        (r = .panic noRandom ∧ wr'.closes = wr.closes ∧ rnd.content.length < 64) := by
      clear h
      intro h
      rcases hb : e.encryptBlockR P buf wr i true rnd with ⟨r1, e1, wr1, rnd1⟩
      rw [hb] at h
      have hsame : r = r1 ∧ e' = e1 ∧ rd' = rd1 ∧ wr' = wr1 ∧ rnd' = rnd1 := by
        cases r1 <;> cases h <;> exact ⟨rfl, rfl, rfl, rfl, rfl⟩
      obtain ⟨rfl, rfl, rfl, rfl, rfl⟩ := hsame
      rcases encryptBlockR_spec P e _ _ _ _ _ _ _ _ hb with g | g
      · left
        refine g.imp id (fun coin hc => ?_)
        rw [hc]
        cases r <;> rfl
      · exact .inr g
    have mid : (match e.encryptBlockR P buf wr i false rnd with
        | (.ok (), e, wr, rnd) =>
          if false = true then (Res.ok (), e, rd1, wr, rnd) else Encryptor.encryptLoopR P fuel e rd1 wr ((i + 1) % 2^32) rnd
        | (.err x, e, wr, rnd) => (.err x, e, rd1, wr, rnd)
        | (.panic x, e, wr, rnd) => (.panic x, e, rd1, wr, rnd)) = (r, e', rd', wr', rnd') →
        Agrees rnd rnd' 64 (e.auth = false ∧ r = .ok ()) (fun coin => (match e.encryptBlock P buf wr i false coin with
        | (.ok (), e, wr) =>
          if false = true then (Res.ok (), e, rd1, wr) else Encryptor.encryptLoop P coin fuel e rd1 wr ((i + 1) % 2^32)
        | (.err x, e, wr) => (.err x, e, rd1, wr)
        | (.panic x, e, wr) => (.panic x, e, rd1, wr)) = (r, e', rd', wr')) ∨
        (r = .panic noRandom ∧ wr'.closes = wr.closes ∧ rnd.content.length < 64) := by
      clear h
      intro h
      rw [encryptBlockR_mid P e buf wr i rnd []] at h
      have hcoin : ∀ coin, e.encryptBlock P buf wr i false coin = e.encryptBlock P buf wr i false [] := by
        intro coin
        have h1 := encryptBlockR_mid P e buf wr i rnd coin
        rw [encryptBlockR_mid P e buf wr i rnd []] at h1
        simp only [Prod.mk.injEq, and_true] at h1
        exact Prod.ext h1.1.symm (Prod.ext h1.2.1.symm h1.2.2.symm)
      simp only [hcoin]
      rcases hb : e.encryptBlock P buf wr i false [] with ⟨r1, e1, wr1⟩
      rw [hb] at h
      have hf := (encryptBlock_frame P e _ _ _ _ _ _ _ _ hb).1
      cases r1 with
      | err x => cases h; exact .inl (.idle (by simp) (fun _ => rfl))
      | panic x => cases h; exact .inl (.idle (by simp) (fun _ => rfl))
      | ok u =>
        dsimp only at h ⊢
        simp only [Bool.false_eq_true, if_false] at h ⊢
        rcases ih _ _ _ _ _ _ _ _ _ _ h with g | ⟨g1, g2, g3⟩
        · left
          refine g.imp ?_ (fun _ hc => hc)
          rintro ⟨a, b⟩
          exact ⟨by rw [hf.auth, a], b⟩
        · right
          refine ⟨g1, ?_, g3⟩
          rw [g2]
          -- a block does not close
          unfold Encryptor.encryptBlock at hb
          cases ha : e.ae with
          | none => rw [ha] at hb; cases hb
          | some dkey =>
            rw [ha] at hb
            dsimp only at hb
            split at hb
            · cases hb
            · rcases hw : fullwrite (be32 (lenWord buf.length false) ++ P.aeadSeal dkey (chunkNonce e.nonce i) buf (be32 (lenWord buf.length false))) wr
                with ⟨y, w1⟩
              rw [hw] at hb
              cases y with
              | some x => cases hb
              | none =>
                dsimp only at hb
                cases hh : e.hmac with
                | none => rw [hh] at hb; cases hb
                | some x => rw [hh] at hb; cases hb; exact fullwrite_closes hw
    cases err with
    | none => exact mid h
    | some x =>
      by_cases hx : isEndOfInput x = true
      · dsimp only at h ⊢
        rw [if_pos hx] at h ⊢
        exact last h
      · dsimp only at h ⊢
        rw [if_neg hx] at h ⊢
        cases h
        exact .inl (.idle (by simp) (fun _ => rfl))

theorem start_closes (P : Prims) (e e' : Encryptor) (wr wr' : Writer) (r : Res Unit) (h : e.start P wr = (r, e', wr')) :
    wr'.closes = wr.closes ∧ e'.auth = e.auth := by
  unfold Encryptor.start at h
  dsimp only at h
  split at h
  · cases h; exact ⟨rfl, rfl⟩
  · cases h; exact ⟨rfl, rfl⟩
  · split at h <;> rename_i hw <;> cases h <;> exact ⟨fullwrite_closes hw, rfl⟩

theorem encryptR_spec (P : Prims) (e e' : Encryptor) (rd rd' : Reader) (wr wr' : Writer) (rnd rnd' : Reader) (r : Res Unit)
    (h : e.encryptR P rd wr rnd = (r, e', rd', wr', rnd')) :
    Agrees rnd rnd' 64 (e.auth = false ∧ r = .ok ()) (fun coin => e.encrypt P rd wr coin = (r, e', rd', wr')) ∨
    (r = .panic noRandom ∧ wr'.closes = wr.closes ∧ rnd.content.length < 64) := by
  unfold Encryptor.encryptR at h
  unfold Encryptor.encrypt
  split at h
  · rename_i hs
    cases h
    exact .inl (.idle (by simp) (fun _ => by rw [if_pos hs]))
  · rename_i hs
    simp only [if_neg hs]
    have body : ∀ (e1 : Encryptor) (wr1 : Writer), e1.auth = e.auth → wr1.closes = wr.closes →
        (match Encryptor.encryptLoopR P (rd.content.length + 1) e1 rd wr1 0 rnd with
          | (.ok (), e, rd, wr, rnd) =>
            match wr.close with
            | (some x, wr) => (Res.err x, e, rd, wr, rnd)
            | (none, wr) => (.ok (), e, rd, wr, rnd)
          | r => r) = (r, e', rd', wr', rnd') →
        Agrees rnd rnd' 64 (e.auth = false ∧ r = .ok ()) (fun coin =>
          (match Encryptor.encryptLoop P coin (rd.content.length + 1) e1 rd wr1 0 with
            | (.ok (), e, rd, wr) =>
              match wr.close with
              | (some x, wr) => (Res.err x, e, rd, wr)
              | (none, wr) => (.ok (), e, rd, wr)
            | r => r) = (r, e', rd', wr')) ∨
        (r = .panic noRandom ∧ wr'.closes = wr.closes ∧ rnd.content.length < 64) := by
      intro e1 wr1 hea hwc h
      rcases hl : Encryptor.encryptLoopR P (rd.content.length + 1) e1 rd wr1 0 rnd with ⟨r2, e2, rd2, wr2, rnd2⟩
      rw [hl] at h
      rcases encryptLoopR_spec P _ _ _ _ _ _ _ _ _ _ _ hl with g | ⟨g1, g2, g3⟩
      · left
        cases r2 with
        | err x =>
          cases h
          exact g.imp (by rintro ⟨_, h⟩; cases h) (fun coin hc => by rw [hc])
        | panic x =>
          cases h
          exact g.imp (by rintro ⟨_, h⟩; cases h) (fun coin hc => by rw [hc])
        | ok u =>
          dsimp only at h
          rcases hc : wr2.close with ⟨y, w3⟩
          rw [hc] at h
          cases y with
          | none =>
            cases h
            exact g.imp (by rintro ⟨h, _⟩; exact ⟨by rw [hea, h], rfl⟩) (fun coin hcc => by rw [hcc]; dsimp only; rw [hc])
          | some x =>
            cases h
            exact g.imp (by rintro ⟨_, h⟩; cases h) (fun coin hcc => by rw [hcc]; dsimp only; rw [hc])
      · right
        subst g1
        cases h
        exact ⟨rfl, by rw [g2, hwc], g3⟩
    by_cases hst : e.started = true
    · rw [if_pos hst] at h
      simp only [if_pos hst]
      exact body e wr rfl rfl h
    · rw [if_neg hst] at h
      simp only [if_neg hst]
      rcases hS : e.start P wr with ⟨r1, e1, wr1⟩
      obtain ⟨k1, k2⟩ := start_closes P e _ _ _ _ hS
      rw [hS] at h
      cases r1 with
      | err x => cases h; exact .inl (.idle (by simp) (fun _ => rfl))
      | panic x => cases h; exact .inl (.idle (by simp) (fun _ => rfl))
      | ok u => exact body e1 wr1 k2 k1 h

theorem closeR_spec (P : Prims) (e e' : Encryptor) (w w' : EncWriter) (rnd rnd' : Reader) (r : Res Unit)
    (h : w.closeR P e rnd = (r, e', w', rnd')) :
    Agrees rnd rnd' 64 (e.auth = false ∧ r = .ok ()) (fun coin => w.close P e coin = (r, e', w')) ∨
    (r = .panic noRandom ∧ w'.wr.closes = w.wr.closes ∧ rnd.content.length < 64) := by
  unfold EncWriter.closeR at h
  unfold EncWriter.close
  cases hw : w.err with
  | some x => rw [hw] at h; cases h; exact .inl (.idle (by simp) (fun _ => rfl))
  | none =>
    rw [hw] at h
    dsimp only at h ⊢
    rcases hb : e.encryptBlockR P w.buf w.wr w.blk true rnd with ⟨r1, e1, wr1, rnd1⟩
    rw [hb] at h
    rcases encryptBlockR_spec P e _ _ _ _ _ _ _ _ hb with g | ⟨g1, g2, g3⟩
    · left
      cases r1 with
      | err x => cases h; exact g.imp (by rintro ⟨_, h⟩; cases h) (fun coin hc => by rw [hc])
      | panic x => cases h; exact g.imp (by rintro ⟨_, h⟩; cases h) (fun coin hc => by rw [hc])
      | ok u =>
        dsimp only at h
        rcases hc : wr1.close with ⟨y, w3⟩
        rw [hc] at h
        cases y with
        | none =>
          cases h
          exact g.imp (by rintro ⟨h, _⟩; exact ⟨h, rfl⟩) (fun coin hcc => by rw [hcc]; dsimp only; rw [hc])
        | some x =>
          cases h
          exact g.imp (by rintro ⟨_, h⟩; cases h) (fun coin hcc => by rw [hcc]; dsimp only; rw [hc])
    · right
      subst g1
      cases h
      exact ⟨rfl, g2, g3⟩

end Sigtool
