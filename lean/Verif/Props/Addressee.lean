import Verif.Spec.Addressee
import Verif.Props.OneFile
import Verif.Props.Sender
/-!
# C121: whether somebody can decrypt what `AddRecipient` accepted
-/

namespace Sigtool
open Ed
open Spec (EdPoint edBase edOrder RealEd25519 RealX25519 scalarOf nobodysKey WrapForgery)

/-- The point of order two. -/
def edTwo : EdPoint := ⟨0, -1⟩

theorem edTwo_on : edTwo.OnCurve := by
  unfold EdPoint.OnCurve edTwo; ring

theorem edTwo_double : edTwo.mul 2 = ⟨0, 1⟩ := by
  show ((⟨0, 1⟩ : EdPoint).add edTwo).add edTwo = _
  unfold EdPoint.add edTwo; simp

theorem edTwo_ne : edTwo ≠ ⟨0, 1⟩ := by
  intro h
  have h1 : (-1 : ZMod Spec.fieldP) = 1 := congrArg EdPoint.y h
  revert h1
  decide +kernel

theorem nobody_encode : (edBase.add edTwo).encode = nobodysKey := by
  have h : edBase.add edTwo = ⟨-edBase.x, -edBase.y⟩ := by
    unfold EdPoint.add edTwo; simp
  rw [h]
  decide +kernel

/-- The image of the point of order two. -/
theorem two_image : ∃ T, Img edTwo T ∧ 2 • T = 0 ∧ T ≠ 0 := by
  obtain ⟨T, hT⟩ := img_exists edTwo_on
  refine ⟨T, hT, ?_, ?_⟩
  · have := img_mul hT 2
    rw [edTwo_double] at this
    exact img_neutral this
  · rintro rfl
    exact edTwo_ne (img_inj hT img_zero)

/-- A multiple of the base point plus the point of order two is no multiple of the base point. -/
theorem not_multiple {T : Spec.curve25519.Point} (h2 : 2 • T = 0) (h0 : T ≠ 0) (n m : Nat) : n • montBase ≠ m • montBase + T := by
  intro h
  have ho : Prime.order • montBase = 0 := (mul_base_zero _).mpr dvd_rfl
  have hT : Prime.order • T = 0 := by
    have := congrArg (fun x => Prime.order • x) h
    simp only [nsmul_add] at this
    rw [smul_comm, ho, smul_comm Prime.order m, ho, nsmul_zero, nsmul_zero, zero_add] at this
    exact this.symm
  have hodd : Prime.order = (Prime.order / 2) * 2 + 1 := by decide +kernel
  rw [hodd, add_nsmul, mul_smul, h2, nsmul_zero, zero_add, one_nsmul] at hT
  exact h0 hT

theorem nobody_not_generated (P : Prims) (E : RealEd25519 P) (seed : Bytes) (hs : seed.length = 32) :
    P.edPub seed ≠ nobodysKey := by
  intro h
  obtain ⟨T, hT, h2, h0⟩ := two_image
  rw [E.edPub seed hs, ← nobody_encode] at h
  have i1 := img_mul img_base (scalarOf ((P.sha512 seed).take 32))
  have i2 := img_add img_base hT
  rw [encode_inj i1.1 i2.1 h] at i1
  -- one point, two images
  have : Img ((edBase.add edTwo).add (edBase.add edTwo).neg)
      (scalarOf ((P.sha512 seed).take 32) • montBase + -(montBase + T)) := img_add i1 (img_neg i2)
  have z : Img ((edBase.add edTwo).add (edBase.add edTwo).neg) ((montBase + T) + -(montBase + T)) := img_add i2 (img_neg i2)
  rw [add_neg_cancel] at z
  rw [img_inj z img_zero] at this
  have e : scalarOf ((P.sha512 seed).take 32) • montBase = montBase + T :=
    sub_eq_zero.mp (by rw [sub_eq_add_neg]; exact img_neutral this)
  exact not_multiple h2 h0 (scalarOf ((P.sha512 seed).take 32)) 1 (by rw [e, one_nsmul])

theorem nobody_x25519 (P : Prims) (R : RealX25519 P) (s : Bytes) (hs : s.length = 32) :
    ∃ k, P.x25519 (clamp s) (toCurve25519PK nobodysKey) = some k := by
  obtain ⟨T, hT, h2, h0⟩ := two_image
  have i2 := img_add img_base hT
  have hne : montBase + T ≠ 0 := by
    intro h
    exact not_multiple h2 h0 0 1 (by rw [zero_nsmul, one_nsmul]; exact h.symm)
  rw [toCurve25519PK_eq _ (by decide), ← nobody_encode, toMontgomery_encode i2 hne, R _ _ (by simpa using hs) hne,
    scalarOf_clamp _ hs]
  have e : scalarOf s • (montBase + T) = scalarOf s • montBase := by
    have hT0 : scalarOf s • T = 0 := by
      unfold scalarOf
      rw [show 2^254 + 8 * (Spec.leNat s % 2^254 / 8) = (2^253 + 4 * (Spec.leNat s % 2^254 / 8)) * 2 by omega, mul_smul, h2,
        nsmul_zero]
    rw [nsmul_add, hT0, add_zero]
  rw [e, if_neg (u_mul_base (order_scalar s)).2]
  exact ⟨_, rfl⟩

/-- **C121** is false of the code: there is a text that the library accepts as a public key although no private key belongs to
it, and for which `AddRecipient` returns nil.  What is then encrypted for it alone cannot be decrypted: `SetPrivateKey` answers
ErrBadKey to every private key, unless a wrapped key is a forgery. -/
theorem C121_addressee_refuted (P : Prims) (L : Laws P) (R : RealX25519 P) (E : RealEd25519 P) :
    ∃ pk, makePublicKeyFromString P (Base64.encode nobodysKey) = .ok (some pk) ∧
      (∀ seed, seed.length = 32 → P.edPub seed ≠ pk.pk) ∧
      (∀ sender blk (c : EncCoins) nonce, SenderSized sender → c.WF →
        ∃ e, setupEncryptor P sender blk c [(pk, nonce)] = .ok e) ∧
      ∀ sender blk c nonce e plain chunks bytes, Sending P sender blk c [(pk, nonce)] e plain chunks bytes →
        ∀ (sk : PrivateKey) seed spk (rd2 : Reader), seed.length = 32 → sk.sk = seed ++ P.edPub seed →
          sk.pub.pk = P.edPub seed → rd2.content = bytes →
          WrapForgery P (clamp c.csk) c.salt c.key pk.pk nonce seed ∨
          ∃ d0 rd', newDecryptor P rd2 = (.ok d0, rd') ∧ d0.setPrivateKey P sk spk = (.err .badKey, d0) := by
  obtain ⟨pk, h1, h2, h3⟩ := C39_from_string_partial P nobodysKey (by decide) (by decide)
  have hn : ∀ seed, seed.length = 32 → P.edPub seed ≠ pk.pk := fun seed hs => by
    rw [h2]; exact nobody_not_generated P E seed hs
  refine ⟨pk, h1, hn, ?_, ?_⟩
  · intro sender blk c nonce hs hc
    obtain ⟨epk, g1, g2, g3⟩ := newEncryptor_eq P L sender blk c hc hs
    obtain ⟨k, hk⟩ := nobody_x25519 P R c.csk hc.csk
    unfold setupEncryptor
    rw [g3]
    have hl : ¬ nobodysKey.length > 32 := by decide
    simp only [Res.bind_ok, Encryptor.addRecipients, Encryptor.addRecipient, Encryptor.wrapKey, h2, hk, hl,
      Bool.false_eq_true, if_false]
    exact ⟨_, rfl⟩
  · intro sender blk c nonce e plain chunks bytes hS sk seed spk rd2 hseed hsk hpk hrd2
    rcases C56_only_recipients P L sender blk c _ (by simp) e plain chunks bytes hS sk seed hseed hsk hpk
      (by
        intro r hr
        rw [List.mem_singleton.mp hr, hpk]
        exact (hn seed hseed).symm) spk rd2 hrd2 with ⟨r, hr, g⟩ | ⟨d0, rd', g1, g2, _⟩
    · rw [List.mem_singleton.mp hr] at g
      exact .inl g
    · exact .inr ⟨d0, rd', g1, g2⟩

/-- **C121**, the part that holds: a recipient whose key was generated can decrypt: the private key of the seed is accepted by
`SetPrivateKey` (together with the sender's public key if there is a sender) and `Decrypt` delivers the plaintext, unless a
wrapped key is a forgery.  Missing: keys that belong to no seed; `AddRecipient` refuses those of small order (C99_low_order)
but not others. -/
theorem C121_addressee_partial (P : Prims) (L : Laws P) (sender : Option PrivateKey) (blk : Nat) (c : EncCoins)
    (rcpts : List (PublicKey × Bytes)) (e : Encryptor) (plain : Bytes) (chunks : List Bytes) (bytes : Bytes)
    (h : Sending P sender blk c rcpts e plain chunks bytes) (r : PublicKey × Bytes) (hr : r ∈ rcpts)
    (seed : Bytes) (hseed : seed.length = 32) (hpk : r.1.pk = P.edPub seed) (rd2 : Reader) (hrd2 : rd2.content = bytes) :
    (∃ r ∈ rcpts, WrapForgery P (clamp c.csk) c.salt c.key r.1.pk r.2 seed) ∨
    ∃ d, setupDecryptor P rd2 (newPrivateKey P seed) (sender.map fun s => s.pub) = .ok d ∧
      ∀ out : Writer, out.NoFail → ∃ d' out', d.decrypt P out = (.ok (), d', out') ∧ out'.out = out.out ++ plain := by
  have hR : Receiving P sender rcpts (newPrivateKey P seed) seed (sender.map fun s => s.pub) :=
    ⟨hseed, rfl, rfl, ⟨r, hr, hpk⟩, fun s hs => ⟨s.pub, by rw [hs]; rfl, rfl⟩⟩
  obtain ⟨epk, ws, coin, hs, hf, e4, e5, hcoin, hbytes, hck, hfl, hne⟩ := h.facts L
  rcases h.opens L hR rd2 _ (by rw [hrd2]; exact hbytes) with g | ⟨d, k1, k2⟩
  · exact .inl g
  · right
    refine ⟨d, k1, fun out hout => ?_⟩
    obtain ⟨d', out', m1, m2, _⟩ := opened_decrypts L hs h.hsender hR.named chunks coin [] hcoin hck
      (by simpa using k2) out hout
    exact ⟨d', out', m1, by rw [m2, hfl]⟩

/-- C121 is not vacuous: the algorithms of RFC 7748 and RFC 8032 have an instance. -/
example : ∃ P, Laws P ∧ RealX25519 P ∧ RealEd25519 P :=
  ⟨curvePrims, C100_laws curvePrims curvePrims_basic curvePrims_x25519 curvePrims_ed25519, curvePrims_x25519, curvePrims_ed25519⟩

end Sigtool
