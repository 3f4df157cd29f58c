import Verif.Spec.OneFile
import Verif.Props.Agreement
import Verif.Props.CliVerify
/-!
# C120: whether a signature vouches for one file only
-/

namespace Sigtool
open Ed
open Spec (EdPoint edBase edOrder RealEd25519 scalarOf weakKey weakSig ScalarClash Collides fileInput messageInput)

theorem neutral_on : (⟨0, 1⟩ : EdPoint).OnCurve := by
  unfold EdPoint.OnCurve; ring

theorem neutral_add : (⟨0, 1⟩ : EdPoint).add ⟨0, 1⟩ = ⟨0, 1⟩ := by
  unfold EdPoint.add; simp

theorem neutral_mul : ∀ k, (⟨0, 1⟩ : EdPoint).mul k = ⟨0, 1⟩
  | 0 => rfl
  | k + 1 => by
    show ((⟨0, 1⟩ : EdPoint).mul k).add ⟨0, 1⟩ = _
    rw [neutral_mul k, neutral_add]

theorem neutral_encode : (⟨0, 1⟩ : EdPoint).encode = weakKey := by
  unfold EdPoint.encode
  decide +kernel

/-- Under the weak key the weak signature is valid for every message. -/
theorem weak_verifies (P : Prims) (E : RealEd25519 P) (m : Bytes) : P.edVerify weakKey m weakSig = true := by
  have h := (E.edVerify ⟨0, 1⟩ m weakKey (List.replicate 32 0) _ neutral_on (by decide) (by decide) rfl).mpr
  rw [neutral_encode] at h
  refine h ⟨by decide +kernel, ?_⟩
  have hz : Spec.leNat (List.replicate 32 0) = 0 := by decide +kernel
  have hn : (⟨0, 1⟩ : EdPoint).neg = ⟨0, 1⟩ := by unfold EdPoint.neg; simp
  rw [hz, hn, neutral_mul]
  show ((⟨0, 1⟩ : EdPoint).add ⟨0, 1⟩).encode = weakKey
  rw [neutral_add, neutral_encode]

/-- **C120** is false for public keys in general: with Ed25519 as RFC 8032 defines it there is a text that the library accepts
as a public key (and that is no generated key), and a signature naming that key, such that `VerifyFile` accepts the signature
for every file. -/
theorem C120_one_file_refuted (P : Prims) (E : RealEd25519 P) :
    ∃ pk s, makePublicKeyFromString P (Base64.encode weakKey) = .ok (some pk) ∧ s.sig = weakSig ∧ isPKMatch pk s = true ∧
      (∀ seed, seed.length = 32 → P.edPub seed ≠ pk.pk) ∧ ∀ c, verifyFile P pk c s = .ok true := by
  obtain ⟨pk, h1, h2, h3⟩ := C39_from_string_partial P weakKey (by decide) (by decide)
  refine ⟨pk, ⟨weakSig, pk.hash⟩, h1, rfl, by simp [isPKMatch, ctEq], ?_, ?_⟩
  · intro seed hs he
    rw [h2, E.edPub seed hs, ← neutral_encode] at he
    have i := img_mul img_base (scalarOf ((P.sha512 seed).take 32))
    rw [encode_inj i.1 neutral_on he] at i
    exact order_scalar _ ((mul_base_zero _).mp (img_neutral i))
  · intro c
    unfold verifyFile verifyMessage
    rw [if_neg (by rw [h2]; decide), h2, weak_verifies P E]

/-- **C120** for the command: `sigtool verify KEY SIG FILE` with the weak key as KEY and a file SIG that holds the weak
signature, as the package writes it, exits with 0 for every file that can be read. -/
theorem C120_verify_refuted (D : Deps) (E : RealEd25519 D.P) (comment : Bytes) (hY : D.Y.Reads comment) (fs : FS)
    (sn fn : Path) (hs : fs.read sn = some (Signature.marshal D.Y ⟨weakSig, (D.P.sha256 weakKey).take 16⟩ comment))
    (content : Bytes) (hc : fs.read fn = some content) : verifyCmd D fs none [Base64.encode weakKey, sn, fn] = 0 := by
  obtain ⟨pk, h1, h2, h3⟩ := C39_from_string_partial D.P weakKey (by decide) (by decide)
  refine (C48_exit_zero_iff D fs none _).mpr ⟨_, sn, fn, [], rfl, rfl, pk, _, content, .inl h1,
    ⟨_, hs, C33_roundtrip D.Y comment hY _⟩, h3, hc, ?_⟩
  unfold Spec.ValidFileSig
  rw [h2]
  exact weak_verifies D.P E _

/-- For the key of a seed, one signature is valid for two messages only if they give the same number `k`. -/
theorem one_message (P : Prims) (E : RealEd25519 P) (seed : Bytes) (hs : seed.length = 32) (m m' sig : Bytes)
    (hl : sig.length = 64) (h : P.edVerify (P.edPub seed) m sig = true) (h' : P.edVerify (P.edPub seed) m' sig = true) :
    m = m' ∨ ScalarClash P (P.edPub seed) sig m m' := by
  by_cases hm : m = m'
  · exact .inl hm
  right
  refine ⟨hm, ?_⟩
  have hR : (sig.take 32).length = 32 := by rw [List.length_take]; omega
  have hS : (sig.drop 32).length = 32 := by rw [List.length_drop]; omega
  rw [E.edPub seed hs] at h h' ⊢
  generalize ha : scalarOf ((P.sha512 seed).take 32) = a at *
  have hna : ¬ Prime.order ∣ a := by rw [← ha]; exact order_scalar _
  have hA := img_mul img_base a
  rw [← List.take_append_drop 32 sig] at h h'
  rw [E.edVerify _ m _ _ _ hA.1 hR hS rfl] at h
  rw [E.edVerify _ m' _ _ _ hA.1 hR hS rfl] at h'
  have hk := Nat.mod_lt (Spec.leNat (P.sha512 (sig.take 32 ++ (edBase.mul a).encode ++ m))) (show 0 < edOrder by decide +kernel)
  have hk' := Nat.mod_lt (Spec.leNat (P.sha512 (sig.take 32 ++ (edBase.mul a).encode ++ m'))) (show 0 < edOrder by decide +kernel)
  generalize Spec.leNat (P.sha512 (sig.take 32 ++ (edBase.mul a).encode ++ m)) % edOrder = k at *
  generalize Spec.leNat (P.sha512 (sig.take 32 ++ (edBase.mul a).encode ++ m')) % edOrder = k' at *
  have i1 := img_add (img_mul img_base (Spec.leNat (sig.drop 32))) (img_mul (img_neg hA) k)
  have i2 := img_add (img_mul img_base (Spec.leNat (sig.drop 32))) (img_mul (img_neg hA) k')
  have e := encode_inj i1.1 i2.1 (h.2.trans h'.2.symm)
  rw [e] at i1
  have inj : ∀ {p : EdPoint} {X Y : Spec.curve25519.Point}, Img p X → Img p Y → X = Y := by
    intro p X Y hX hY
    have : Img (p.add p.neg) (X + -Y) := img_add hX (img_neg hY)
    have z : Img (p.add p.neg) (X + -X) := img_add hX (img_neg hX)
    rw [add_neg_cancel] at z
    rw [img_inj z img_zero] at this
    exact (sub_eq_zero.mp (by rw [sub_eq_add_neg]; exact img_neutral this))
  have eq := add_left_cancel (inj i1 i2)
  rw [neg_nsmul, neg_nsmul, neg_inj, ← mul_smul, ← mul_smul] at eq
  have := (nsmul_inj_mod (x := montBase)).mp eq
  rw [base_order] at this
  have o : edOrder = Prime.order := rfl
  rw [o] at hk hk'
  have hc : Nat.Coprime Prime.order a := (Nat.Prime.coprime_iff_not_dvd Prime.order_prime).mpr hna
  have := Nat.ModEq.cancel_right_of_coprime hc this
  have h3 : k % Prime.order = k' % Prime.order := this
  rwa [Nat.mod_eq_of_lt hk, Nat.mod_eq_of_lt hk'] at h3

/-- **C120** for generated keys: if `VerifyFile` accepts one signature for two files, then the files have the same content, or
two inputs with the same SHA-512 hash are at hand, or two different messages for which Ed25519 computes the same number. -/
theorem C120_one_file_partial (P : Prims) (E : RealEd25519 P) (seed : Bytes) (hs : seed.length = 32) (pk : PublicKey)
    (hpk : pk.pk = P.edPub seed) (s : Signature) (hl : s.sig.length = 64) (c c' : Bytes)
    (h : verifyFile P pk c s = .ok true) (h' : verifyFile P pk c' s = .ok true) :
    c = c' ∨ Collides P (fileInput c) (fileInput c') ∨
    Collides P (messageInput (P.sha512 (fileInput c))) (messageInput (P.sha512 (fileInput c'))) ∨
    ScalarClash P pk.pk s.sig (P.sha512 (messageInput (P.sha512 (fileInput c))))
      (P.sha512 (messageInput (P.sha512 (fileInput c')))) := by
  have hlen : pk.pk.length = 32 := by rw [hpk, E.edPub seed hs, encode_length]
  have ok : ∀ c, verifyFile P pk c s = .ok true →
      P.edVerify (P.edPub seed) (P.sha512 (messageInput (P.sha512 (fileInput c)))) s.sig = true := by
    intro c h
    rw [(C31_is_message_signature P ⟨[], ⟨[], [], []⟩⟩ pk c s).2, (C30_verify_iff P pk hlen _ s).1, hpk] at h
    exact h
  by_cases hc : c = c'
  · exact .inl hc
  right
  by_cases h1 : P.sha512 (fileInput c) = P.sha512 (fileInput c')
  · exact .inl ⟨fun e => hc (C31_encoding_injective _ _ e), h1⟩
  right
  by_cases h2 : P.sha512 (messageInput (P.sha512 (fileInput c))) = P.sha512 (messageInput (P.sha512 (fileInput c')))
  · refine .inl ⟨fun e => h1 ?_, h2⟩
    exact List.append_cancel_left e
  right
  rcases one_message P E seed hs _ _ s.sig hl (ok c h) (ok c' h') with g | g
  · exact absurd g h2
  · rw [hpk]; exact g

/-- C120 is not vacuous: RFC 8032 has an instance. -/
example : ∃ P, RealEd25519 P := ⟨curvePrims, curvePrims_ed25519⟩

end Sigtool
