import Verif.Spec.Retry
import Verif.Props.DecAttack
/-!
# C119: `SetPrivateKey` can be retried
-/

namespace Sigtool
open Spec (WrapForgery Refused Tried sessionKeys)

theorem findKey_hdr (P : Prims) (d d0 : Decryptor) (h : d.hdr = d0.hdr) (sk : PrivateKey) :
    ∀ ws, d.findKey P sk ws = d0.findKey P sk ws
  | [] => rfl
  | w :: ws => by
    have hu : d.unwrapKey P w sk = d0.unwrapKey P w sk := by
      unfold Decryptor.unwrapKey; rw [h]
    unfold Decryptor.findKey
    rw [hu, findKey_hdr P d d0 h sk ws]

theorem verifySender_same (P : Prims) (d d0 : Decryptor) (h : d.hdr = d0.hdr) (ha : d.auth = d0.auth) (key : Bytes)
    (spk : Option PublicKey) : d.verifySender P key spk = d0.verifySender P key spk := by
  unfold Decryptor.verifySender
  rw [h, ha]

/-- Refused calls change nothing but the remembered key and sender. -/
theorem Spec.Refused.same {P : Prims} {d0 d : Decryptor} (h : Refused P d0 d) :
    d = { d0 with key := d.key, sender := d.sender } := by
  induction h with
  | start => rfl
  | call sk spk _ hcall hno ih =>
    rename_i d d' r _
    rcases setPrivateKey_cases P d sk spk with ⟨x, _, g⟩ | ⟨x, _, g⟩ | ⟨_, g⟩ | ⟨key, _, g⟩
    · rw [hcall] at g; cases g; exact ih
    · rw [hcall] at g; cases g; exact ih
    · rw [hcall] at g; cases g; exact ih
    · rw [hcall] at g
      revert g
      cases ({ d with key := some key, sender := spk } : Decryptor).verifySender P key spk with
      | err x => intro g; cases g; dsimp only; rw [ih]
      | panic x => intro g; cases g; dsimp only; rw [ih]
      | ok a => intro g; cases g; exact absurd rfl hno

/-- **C119** For every `Decryptor`, every sequence of refused `SetPrivateKey` calls on it, and every further call: that call
returns what it would have returned as the first one, and if it returns nil the `Decryptor` is exactly the one that a
first call would have left (so nothing later can tell the difference).  While calls are refused, the `Decryptor` never says
that the sender is authenticated if it did not before. -/
theorem C119_retry (P : Prims) (d0 d : Decryptor) (h : Refused P d0 d) (sk : PrivateKey) (spk : Option PublicKey) :
    d.auth = d0.auth ∧
    (d.setPrivateKey P sk spk).1 = (d0.setPrivateKey P sk spk).1 ∧
    ((d.setPrivateKey P sk spk).1 = .ok () → d.setPrivateKey P sk spk = d0.setPrivateKey P sk spk) := by
  have hs := h.same
  have hh : d.hdr = d0.hdr := by rw [hs]
  have ha : d.auth = d0.auth := by rw [hs]
  refine ⟨ha, ?_⟩
  have hf := findKey_hdr P d d0 hh sk d.hdr.keys
  rw [show d0.findKey P sk d.hdr.keys = d0.findKey P sk d0.hdr.keys by rw [hh]] at hf
  rcases setPrivateKey_cases P d sk spk with ⟨x, f, g⟩ | ⟨x, f, g⟩ | ⟨f, g⟩ | ⟨key, f, g⟩ <;>
  rcases setPrivateKey_cases P d0 sk spk with ⟨x', f', g'⟩ | ⟨x', f', g'⟩ | ⟨f', g'⟩ | ⟨key', f', g'⟩ <;>
  rw [f, f'] at hf <;> cases hf <;> rw [g, g']
  · exact ⟨rfl, fun h => nomatch h⟩
  · exact ⟨rfl, fun h => nomatch h⟩
  · exact ⟨rfl, fun h => nomatch h⟩
  · rw [verifySender_same P { d with key := some key, sender := spk } ({ d0 with key := some key, sender := spk } : Decryptor) hh ha]
    cases ({ d0 with key := some key, sender := spk } : Decryptor).verifySender P key spk with
    | err x => exact ⟨rfl, fun h => nomatch h⟩
    | panic x => exact ⟨rfl, fun h => nomatch h⟩
    | ok a =>
      refine ⟨rfl, fun _ => ?_⟩
      dsimp only
      rw [hs]

/-- **C119**, end to end (what `TestEncryptSenderVerified` tries once): a container made by any sending session, delivered
in any pieces; any number of refused attempts with any keys and any claimed senders; then the key of a listed recipient and
the real sender's key: `SetPrivateKey` and `Decrypt` succeed and `Decrypt` writes exactly the input. -/
theorem C119_decrypts (P : Prims) (L : Laws P)
    (sender : Option PrivateKey) (hsender : ∀ s, sender = some s → s.Genuine P)
    (blk : Nat) (hblk : blk < 2^30) (c : EncCoins) (hc : c.WF)
    (rcpts : List (PublicKey × Bytes)) (hr : ∀ r ∈ rcpts, r.2.length = 12) (hcount : rcpts.length ≤ 15885)
    (e : Encryptor) (he : setupEncryptor P sender blk c rcpts = .ok e)
    (rd : Reader) (wr : Writer) (hwr : wr.out = []) (coin : Bytes) (hcoin : coin.length = 64)
    (e' : Encryptor) (rd' : Reader) (wr' : Writer) (henc : e.encrypt P rd wr coin = (.ok (), e', rd', wr'))
    (sk : PrivateKey) (seed : Bytes) (hseed : seed.length = 32)
    (hsk : sk.sk = seed ++ P.edPub seed) (hpk : sk.pub.pk = P.edPub seed)
    (hmem : ∃ r ∈ rcpts, r.1.pk = sk.pub.pk)
    (spk : Option PublicKey) (hspk : ∀ s, sender = some s → ∃ p, spk = some p ∧ p.pk = s.pub.pk)
    (rd2 : Reader) (junk : Bytes) (hrd2 : rd2.content = wr'.out ++ junk) (out : Writer) (hout : out.NoFail) :
    (∃ r ∈ rcpts, WrapForgery P (clamp c.csk) c.salt c.key r.1.pk r.2 seed) ∨
    ∃ d0 rd3, newDecryptor P rd2 = (.ok d0, rd3) ∧ ∀ d1, Refused P d0 d1 →
      ∃ d d' out', d1.setPrivateKey P sk spk = (.ok (), d) ∧ d.decrypt P out = (.ok (), d', out') ∧
        out'.out = out.out ++ rd.content := by
  rcases C01_encrypt_decrypt P L sender hsender blk hblk c hc rcpts hr hcount e he rd wr hwr coin hcoin e' rd' wr' henc sk
    seed hseed hsk hpk hmem spk hspk rd2 junk hrd2 out hout with g | ⟨d, d', out', g1, g2, g3⟩
  · exact Or.inl g
  · right
    obtain ⟨d0, rd3, h1, h2⟩ := setup_split g1
    refine ⟨d0, rd3, h1, fun d1 hR => ?_⟩
    obtain ⟨_, k1, k2⟩ := C119_retry P d0 d1 hR sk spk
    have k3 : (d1.setPrivateKey P sk spk).1 = .ok () := by rw [k1, h2]
    exact ⟨d, d', out', by rw [k2 k3, h2], g2, g3⟩

/-- No call of `SetPrivateKey` touches the header, the input or the end-of-input flags. -/
theorem Spec.Tried.same {P : Prims} {d0 d : Decryptor} (h : Tried P d0 d) :
    d.hdr = d0.hdr ∧ d.rd = d0.rd ∧ d.hdrsum = d0.hdrsum ∧ d.eof = d0.eof ∧ d.stream = d0.stream := by
  induction h with
  | start => exact ⟨rfl, rfl, rfl, rfl, rfl⟩
  | call sk spk _ hcall ih =>
    rename_i d d' r _
    rcases setPrivateKey_cases P d sk spk with ⟨x, _, g⟩ | ⟨x, _, g⟩ | ⟨_, g⟩ | ⟨key, _, g⟩
    · rw [hcall] at g; cases g; exact ih
    · rw [hcall] at g; cases g; exact ih
    · rw [hcall] at g; cases g; exact ih
    · rw [hcall] at g
      revert g
      cases ({ d with key := some key, sender := spk } : Decryptor).verifySender P key spk with
      | err x => intro g; cases g; exact ih
      | panic x => intro g; cases g; exact ih
      | ok a => intro g; cases g; exact ih

/-- What the previous `auth` does to `verifySender`: it is only returned, never looked at. -/
theorem verifySender_auth (P : Prims) (d d0 : Decryptor) (h : d.hdr = d0.hdr) (h0 : d0.auth = false) (key : Bytes)
    (spk : Option PublicKey) :
    (∃ x, d.verifySender P key spk = .err x ∧ d0.verifySender P key spk = .err x) ∨
    (∃ x, d.verifySender P key spk = .panic x ∧ d0.verifySender P key spk = .panic x) ∨
    (∃ a, d.verifySender P key spk = .ok (a || d.auth) ∧ d0.verifySender P key spk = .ok a) := by
  unfold Decryptor.verifySender
  rw [h, h0]
  dsimp only
  cases P.aeadOpen (senderKey P key d0.hdr.salt).1 (senderKey P key d0.hdr.salt).2 d0.hdr.sender [] with
  | none => exact Or.inl ⟨_, rfl, rfl⟩
  | some sig =>
    dsimp only
    split
    · cases spk with
      | none => exact Or.inl ⟨_, rfl, rfl⟩
      | some pk =>
        dsimp only
        cases verifyMessage P pk (senderDigest P d0.hdr.pk d0.hdr.salt key) { sig := sig } with
        | err x => exact Or.inl ⟨x, rfl, rfl⟩
        | panic x => exact Or.inr (Or.inl ⟨x, rfl, rfl⟩)
        | ok b =>
          cases b
          · exact Or.inl ⟨_, rfl, rfl⟩
          · exact Or.inr (Or.inr ⟨true, rfl, rfl⟩)
    · exact Or.inr (Or.inr ⟨false, by simp, rfl⟩)

/-- **C119**, also after calls that succeeded: on any `Decryptor` fresh from `NewDecryptor`, after any `SetPrivateKey` calls
with any results, a further call returns what it would have returned as the first one, and if that is nil, the `Decryptor`
is the one a first call would have left except that it says the sender is authenticated when the first call would have made
it so or an earlier call did (the stale answer of C62). -/
theorem C119_after_success (P : Prims) (rd rd' : Reader) (d0 d : Decryptor) (h0 : newDecryptor P rd = (.ok d0, rd'))
    (h : Tried P d0 d) (sk : PrivateKey) (spk : Option PublicKey) :
    (d.setPrivateKey P sk spk).1 = (d0.setPrivateKey P sk spk).1 ∧
    ((d.setPrivateKey P sk spk).1 = .ok () → (d.setPrivateKey P sk spk).2 =
      { (d0.setPrivateKey P sk spk).2 with auth := (d0.setPrivateKey P sk spk).2.auth || d.auth }) := by
  obtain ⟨_, a0, _⟩ := newDecryptor_fresh P rd rd' d0 h0
  obtain ⟨hh, s1, s2, s3, s4⟩ := h.same
  have hf := findKey_hdr P d d0 hh sk d.hdr.keys
  rw [show d0.findKey P sk d.hdr.keys = d0.findKey P sk d0.hdr.keys by rw [hh]] at hf
  rcases setPrivateKey_cases P d sk spk with ⟨x, f, g⟩ | ⟨x, f, g⟩ | ⟨f, g⟩ | ⟨key, f, g⟩ <;>
  rcases setPrivateKey_cases P d0 sk spk with ⟨x', f', g'⟩ | ⟨x', f', g'⟩ | ⟨f', g'⟩ | ⟨key', f', g'⟩ <;>
  rw [f, f'] at hf <;> cases hf <;> rw [g, g']
  · exact ⟨rfl, fun h => nomatch h⟩
  · exact ⟨rfl, fun h => nomatch h⟩
  · exact ⟨rfl, fun h => nomatch h⟩
  · rcases verifySender_auth P { d with key := some key, sender := spk } { d0 with key := some key, sender := spk } hh a0
      key spk with ⟨x, k1, k2⟩ | ⟨x, k1, k2⟩ | ⟨a, k1, k2⟩
    · rw [k1, k2]; exact ⟨rfl, fun h => nomatch h⟩
    · rw [k1, k2]; exact ⟨rfl, fun h => nomatch h⟩
    · rw [k1, k2]
      refine ⟨rfl, fun _ => ?_⟩
      dsimp only
      rw [hh, s1, s2, s3, s4]

/-- C119 is not vacuous: on every signed container a listed recipient's call without a sender key is refused, so `Refused`
is reached by a call that changes the `Decryptor`. -/
theorem C119_reached (P : Prims) (L : Laws P) (s : PrivateKey) (blk : Nat) (c : EncCoins)
    (rcpts : List (PublicKey × Bytes)) (e : Encryptor)
    (plain : Bytes) (chunks : List Bytes) (bytes : Bytes) (h : Sending P (some s) blk c rcpts e plain chunks bytes)
    (sk : PrivateKey) (seed : Bytes) (hseed : seed.length = 32) (hsk : sk.sk = seed ++ P.edPub seed)
    (hpk : sk.pub.pk = P.edPub seed) (hmem : ∃ r ∈ rcpts, r.1.pk = sk.pub.pk)
    (rd2 : Reader) (hrd2 : rd2.content = bytes) :
    (∃ r ∈ rcpts, WrapForgery P (clamp c.csk) c.salt c.key r.1.pk r.2 seed) ∨
    ∃ d0 rd' d, newDecryptor P rd2 = (.ok d0, rd') ∧ Refused P d0 d ∧
      d0.setPrivateKey P sk none = (.err (.wrap "decrypt" .noSenderPK), d) := by
  rcases C20_crash_reachable P L s blk c rcpts e plain chunks bytes h sk seed hseed hsk hpk hmem rd2 hrd2 with
    g | ⟨d0, rd', d, g1, g2, _⟩
  · exact Or.inl g
  · exact Or.inr ⟨d0, rd', d, g1, .call sk none .start g2 (fun h => nomatch h), g2⟩

end Sigtool
