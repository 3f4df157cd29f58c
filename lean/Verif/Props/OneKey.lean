import Verif.Spec.OneKey
import Verif.Spec.Standard
import Verif.Props.Addressee
/-!
# C123: whether a signature belongs to one public key
-/

namespace Sigtool
open Ed
open Spec (EdPoint edBase edOrder RealEd25519 Standard scalarOf weakKey weakKey2 weakSig KeyHashClash SecretClash fileInput messageInput)

theorem keyArg_hash (D : Deps) (fs : FS) (pn : Bytes) (pk : PublicKey) (h : Spec.KeyArg D fs pn pk) :
    pk.hash = (D.P.sha256 pk.pk).take 16 := by
  rcases h with h | ⟨_, b, _, h⟩
  · exact (C37_public D.P D.Y pn pk (.inr h)).2
  · exact (C37_public D.P D.Y b pk (.inl h)).2

/-- **C123** for the command: if two runs of `sigtool verify`, with any keys and files in any file systems, exit with 0 and the
signature files hold the same bytes, then the two key arguments denote the same public key, or two keys whose hashes agree. -/
theorem C123_one_key (D : Deps) (fs fs' : FS) (mapErr mapErr' : Option Err) (pn pn' sn sn' fn fn' : Bytes)
    (more more' : List Bytes) (b : Bytes) (hb : fs.read sn = some b) (hb' : fs'.read sn' = some b)
    (h : verifyCmd D fs mapErr (pn :: sn :: fn :: more) = 0) (h' : verifyCmd D fs' mapErr' (pn' :: sn' :: fn' :: more') = 0) :
    ∃ pk pk', Spec.KeyArg D fs pn pk ∧ Spec.KeyArg D fs' pn' pk' ∧ (pk.pk = pk'.pk ∨ KeyHashClash D.P pk.pk pk'.pk) := by
  obtain ⟨_, _, _, _, e, _, pk, s, c, h1, ⟨x, h2, h3⟩, h4, _⟩ := (C48_exit_zero_iff D fs mapErr _).mp h
  obtain ⟨_, _, _, _, e', _, pk', s', c', k1, ⟨x', k2, k3⟩, k4, _⟩ := (C48_exit_zero_iff D fs' mapErr' _).mp h'
  cases e; cases e'
  rw [hb] at h2; cases h2
  rw [hb'] at k2; cases k2
  rw [h3] at k3; cases k3
  refine ⟨pk, pk', h1, k1, ?_⟩
  by_cases hk : pk.pk = pk'.pk
  · exact .inl hk
  · right
    refine ⟨hk, ?_⟩
    rw [← keyArg_hash _ _ _ _ h1, ← keyArg_hash _ _ _ _ k1, h4, k4]

theorem edTwo_encode : edTwo.encode = weakKey2 := by
  unfold EdPoint.encode edTwo
  decide +kernel

theorem edTwo_even (k : Nat) (h : k % 2 = 0) : edTwo.neg.mul k = ⟨0, 1⟩ := by
  have hn : edTwo.neg = edTwo := by unfold EdPoint.neg edTwo; simp
  rw [hn]
  obtain ⟨T, hT, h2, h0⟩ := two_image
  have i := img_mul hT k
  rw [show k = (k / 2) * 2 by omega, mul_smul, h2, nsmul_zero] at i
  rw [show k = (k / 2) * 2 by omega]
  exact img_inj i img_zero

/-- The number `k` of the weak signature on the empty file under the second weak key is even. -/
theorem even_k : Spec.leNat (Spec.sha512 (weakKey ++ weakKey2 ++
    Spec.sha512 (messageInput (Spec.sha512 (fileInput []))))) % edOrder % 2 = 0 := by
  decide +kernel

/-- **C123** is false of `VerifyFile` alone: with the algorithms of the standards there are two texts that the library accepts
as two different public keys, and a signature that `VerifyFile` accepts for the empty file under both. -/
theorem C123_one_key_refuted (P : Prims) (S : Standard P) :
    ∃ t t' pk pk' s, makePublicKeyFromString P t = .ok (some pk) ∧ makePublicKeyFromString P t' = .ok (some pk') ∧
      pk.pk ≠ pk'.pk ∧ verifyFile P pk [] s = .ok true ∧ verifyFile P pk' [] s = .ok true := by
  obtain ⟨pk, h1, h2, h3⟩ := C39_from_string_partial P weakKey (by decide) (by decide)
  obtain ⟨pk', k1, k2, k3⟩ := C39_from_string_partial P weakKey2 (by decide) (by decide)
  refine ⟨_, _, pk, pk', ⟨weakSig, []⟩, h1, k1, by rw [h2, k2]; decide, ?_, ?_⟩
  · unfold verifyFile verifyMessage
    rw [if_neg (by rw [h2]; decide), h2, weak_verifies P S.ed25519]
  · rw [(C31_is_message_signature P ⟨[], ⟨[], [], []⟩⟩ pk' [] _).2, (C30_verify_iff P pk' (by rw [k2]; rfl) _ _).1, k2]
    rw [S.sha512, ← edTwo_encode]
    refine (S.ed25519.edVerify edTwo _ weakKey (List.replicate 32 0) _ edTwo_on (by decide) (by decide) rfl).mpr
      ⟨by decide +kernel, ?_⟩
    rw [edTwo_encode, S.sha512, edTwo_even _ even_k]
    have hz : Spec.leNat (List.replicate 32 0) = 0 := by decide +kernel
    rw [hz]
    show ((⟨0, 1⟩ : EdPoint).add ⟨0, 1⟩).encode = weakKey
    rw [neutral_add, neutral_encode]

/-- **C123** for generated keys and the library: if `VerifyFile` accepts one signature under the public keys of two seeds, for
any two files, then the keys are equal or their secret numbers clash. -/
theorem C123_one_key_partial (P : Prims) (E : RealEd25519 P) (seed seed' : Bytes) (hs : seed.length = 32) (hs' : seed'.length = 32)
    (pk pk' : PublicKey) (hpk : pk.pk = P.edPub seed) (hpk' : pk'.pk = P.edPub seed') (s : Signature) (hl : s.sig.length = 64)
    (c c' : Bytes) (h : verifyFile P pk c s = .ok true) (h' : verifyFile P pk' c' s = .ok true) :
    pk.pk = pk'.pk ∨ SecretClash P seed seed' s.sig (P.sha512 (messageInput (P.sha512 (fileInput c))))
      (P.sha512 (messageInput (P.sha512 (fileInput c')))) := by
  by_cases hk : pk.pk = pk'.pk
  · exact .inl hk
  right
  refine ⟨by rw [← hpk, ← hpk']; exact hk, ?_⟩
  have ok : ∀ seed, seed.length = 32 → ∀ pk : PublicKey, pk.pk = P.edPub seed → ∀ c, verifyFile P pk c s = .ok true →
      P.edVerify (P.edPub seed) (P.sha512 (messageInput (P.sha512 (fileInput c)))) s.sig = true := by
    intro seed hs pk hpk c h
    have hlen : pk.pk.length = 32 := by rw [hpk, E.edPub seed hs, encode_length]
    rw [(C31_is_message_signature P ⟨[], ⟨[], [], []⟩⟩ pk c s).2, (C30_verify_iff P pk hlen _ s).1, hpk] at h
    exact h
  have g := ok seed hs pk hpk c h
  have g' := ok seed' hs' pk' hpk' c' h'
  generalize P.sha512 (messageInput (P.sha512 (fileInput c))) = m at *
  generalize P.sha512 (messageInput (P.sha512 (fileInput c'))) = m' at *
  have hR : (s.sig.take 32).length = 32 := by rw [List.length_take]; omega
  have hS : (s.sig.drop 32).length = 32 := by rw [List.length_drop]; omega
  rw [E.edPub seed hs] at g ⊢
  rw [E.edPub seed' hs'] at g' ⊢
  generalize scalarOf ((P.sha512 seed).take 32) = a at *
  generalize scalarOf ((P.sha512 seed').take 32) = a' at *
  have hA := img_mul img_base a
  have hA' := img_mul img_base a'
  rw [← List.take_append_drop 32 s.sig] at g g'
  rw [E.edVerify _ m _ _ _ hA.1 hR hS rfl] at g
  rw [E.edVerify _ m' _ _ _ hA'.1 hR hS rfl] at g'
  rw [Nat.mul_mod, Nat.mul_mod (Spec.leNat (P.sha512 (s.sig.take 32 ++ (edBase.mul a').encode ++ m')))]
  generalize Spec.leNat (P.sha512 (s.sig.take 32 ++ (edBase.mul a).encode ++ m)) % edOrder = k at *
  generalize Spec.leNat (P.sha512 (s.sig.take 32 ++ (edBase.mul a').encode ++ m')) % edOrder = k' at *
  have i1 := img_add (img_mul img_base (Spec.leNat (s.sig.drop 32))) (img_mul (img_neg hA) k)
  have i2 := img_add (img_mul img_base (Spec.leNat (s.sig.drop 32))) (img_mul (img_neg hA') k')
  have e := encode_inj i1.1 i2.1 (g.2.trans g'.2.symm)
  rw [e] at i1
  have inj : ∀ {p : EdPoint} {X Y : Spec.curve25519.Point}, Img p X → Img p Y → X = Y := by
    intro p X Y hX hY
    have : Img (p.add p.neg) (X + -Y) := img_add hX (img_neg hY)
    have z : Img (p.add p.neg) (X + -X) := img_add hX (img_neg hX)
    rw [add_neg_cancel] at z
    rw [img_inj z img_zero] at this
    exact (sub_eq_zero.mp (by rw [sub_eq_add_neg]; exact img_neutral this))
  have eq := add_left_cancel (inj i1 i2)
  rw [neg_nsmul, neg_nsmul, neg_inj, ← mul_smul, ← mul_smul] at eq
  have := (nsmul_inj_mod (x := montBase)).mp eq
  rw [base_order] at this
  have o : edOrder = Prime.order := rfl
  have h3 : k * a % edOrder = k' * a' % edOrder := this
  rw [Nat.mul_mod, Nat.mul_mod k' a'] at h3
  rw [Nat.mul_mod k, Nat.mul_mod k', Nat.mod_mod, Nat.mod_mod]
  exact h3

/-! ### The hypotheses can be met -/

/-- Two runs of `verify` that exit with 0, and the hypotheses of `C123_one_key`: the weak key, given as text, and any two files. -/
example (D : Deps) (E : RealEd25519 D.P) (comment : Bytes) (hY : D.Y.Reads comment) (fs : FS) (sn f f' : Path)
    (hs : fs.read sn = some (Signature.marshal D.Y ⟨weakSig, (D.P.sha256 weakKey).take 16⟩ comment))
    (c c' : Bytes) (hc : fs.read f = some c) (hc' : fs.read f' = some c') :
    verifyCmd D fs none [Base64.encode weakKey, sn, f] = 0 ∧ verifyCmd D fs none [Base64.encode weakKey, sn, f'] = 0 :=
  ⟨C120_verify_refuted D E comment hY fs sn f hs c hc, C120_verify_refuted D E comment hY fs sn f' hs c' hc'⟩

/-- The signature of a file with a generated key meets the hypotheses of `C123_one_key_partial` for that key. -/
example (P : Prims) (L : Laws P) (seed : Bytes) (hs : seed.length = 32) (c : Bytes) :
    ∃ s, s.sig.length = 64 ∧ verifyFile P (newPrivateKey P seed).pub c s = .ok true ∧
      (newPrivateKey P seed).pub.pk = P.edPub seed := by
  obtain ⟨s, h1, h2, h3, _⟩ := C31_file_roundtrip P L _ (newPrivateKey_genuine P seed hs) c
  exact ⟨s, h2, h3, rfl⟩

end Sigtool
