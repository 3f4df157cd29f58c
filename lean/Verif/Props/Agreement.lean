import Verif.EdGroup
import Verif.Props.Curve
import Verif.Roundtrip
/-!
# C99, C100: key agreement and signatures, from RFC 7748 and RFC 8032

`Laws P` assumes that X25519 with a converted Ed25519 key pair agrees with an ephemeral key (`dh`) and that Ed25519 signatures
verify. Here both are proved for primitives that compute what the RFCs define (`Spec.RealX25519`, `Spec.RealEd25519`).
-/

namespace Sigtool
open Spec Ed

/-- What is left of `Laws` when X25519 and Ed25519 are the RFCs' functions: lengths, authenticated encryption, the KDFs. -/
structure Prims.Basic (P : Prims) : Prop where
  sha256_len : ∀ x, (P.sha256 x).length = 32
  sha512_len : ∀ x, (P.sha512 x).length = 64
  hmac_len : ∀ k x, (P.hmac256 k x).length = 32
  hkdf_len : ∀ a b c n, n ≤ 255 * 64 → (P.hkdf512 a b c n).length = n
  seal_len : ∀ k n p a, k.length = 32 → n.length = 12 → p.length ≤ 2^30 →
    (P.aeadSeal k n p a).length = p.length + 16
  open_seal : ∀ k n p a, k.length = 32 → n.length = 12 → p.length ≤ 2^30 →
    P.aeadOpen k n (P.aeadSeal k n p a) a = some p
  seal_open : ∀ k n c p a, k.length = 32 → n.length = 12 → P.aeadOpen k n c a = some p → c = P.aeadSeal k n p a
  open_len : ∀ k n c p a, P.aeadOpen k n c a = some p → c.length = p.length + 16
  x25519_len : ∀ s p k, P.x25519 s p = some k → k.length = 32
  x25519_point : ∀ s p k, P.x25519 s p = some k → p.length = 32
  x25519_scalar : ∀ s p k, P.x25519 s p = some k → s.length = 32
  scrypt_len : ∀ pass salt n r p k, P.scrypt pass salt n r p = .ok k → k.length = 32
  scrypt_ok : ∀ pass salt, ∃ k, P.scrypt pass salt 524288 8 1 = .ok k
  bcrypt_len : ∀ pw salt rounds n k, P.bcryptPbkdf pw salt rounds n = some k → k.length = n

theorem scalarOf_clamp (s : Bytes) (h : s.length = 32) : scalarOf (clamp s) = scalarOf s := by
  unfold scalarOf
  rw [clamp_value _ h]
  have : leNat s % 2 ^ 254 < 2 ^ 254 := Nat.mod_lt _ (by positivity)
  generalize leNat s % 2 ^ 254 = r at *
  omega

theorem encodeU_length (u : ZMod fieldP) : (encodeU u).length = 32 := leBytes_length _ _

/-- X25519 of a scalar and a multiple of the base point not divisible by the order. -/
theorem x25519_base {P : Prims} (R : RealX25519 P) (s : Bytes) (h : s.length = 32) {n : Nat} (hn : ¬ Prime.order ∣ n) :
    P.x25519 (clamp s) (encodeU (uOf (n • montBase))) = some (encodeU (uOf ((scalarOf s * n) • montBase))) := by
  have h1 := u_mul_base hn
  have h2 : ¬ Prime.order ∣ scalarOf s * n := fun d => by
    rcases (Nat.Prime.dvd_mul Prime.order_prime).mp d with d | d
    · exact order_scalar s d
    · exact hn d
  rw [R _ _ (by simpa using h) h1.1, scalarOf_clamp _ h, smul_smul, if_neg (u_mul_base h2).2]

theorem ed_pub_mont {P : Prims} (E : RealEd25519 P) (seed : Bytes) (h : seed.length = 32) :
    toMontgomery (P.edPub seed) = encodeU (uOf (scalarOf ((P.sha512 seed).take 32) • montBase)) := by
  rw [E.edPub _ h]
  exact toMontgomery_encode (img_mul img_base _) (u_mul_base (order_scalar _)).1

theorem ed_pub_curve {P : Prims} (E : RealEd25519 P) (seed : Bytes) (h : seed.length = 32) :
    toCurve25519PK (P.edPub seed) = encodeU (uOf (scalarOf ((P.sha512 seed).take 32) • montBase)) := by
  rw [← ed_pub_mont E seed h]
  refine toCurve25519PK_eq _ ?_
  rw [E.edPub _ h, encode_length]

/-- **C99** The converted key pair is a key pair: for every private key made from a 32-byte seed, `ToCurve25519SK` gives a secret
whose X25519 public key is what `ToCurve25519PK` makes of the Ed25519 public key. -/
theorem C99_keypair (P : Prims) (R : RealX25519 P) (E : RealEd25519 P) (hsha : ∀ x, (P.sha512 x).length = 64)
    (seed : Bytes) (h : seed.length = 32) (sk : PrivateKey) (hsk : sk.sk = seed ++ P.edPub seed) :
    ∃ k, toCurve25519SK P sk = .ok k ∧ P.x25519 k basepoint = some (toCurve25519PK (P.edPub seed)) := by
  have ht : sk.sk.take 32 = seed := by rw [hsk, ← h, List.take_left]
  refine ⟨clamp ((P.sha512 seed).take 32), ?_, ?_⟩
  · unfold toCurve25519SK
    rw [if_neg (by rw [hsk, List.length_append]; omega), ht]
  · have h1 : ¬ Prime.order ∣ 1 := fun d => absurd (Nat.le_of_dvd (by norm_num) d) (by decide +kernel)
    have := x25519_base R ((P.sha512 seed).take 32) (by simp [hsha]) h1
    rw [one_nsmul, mul_one, ← basepoint_eq] at this
    rw [this, ed_pub_curve E seed h]

/-- **C99** Key agreement: for every 32-byte ephemeral secret and every private key made from a 32-byte seed, the shared secret
the sender computes from the converted public key is the one the recipient computes from the converted private key and the
ephemeral public key, and no call reports an error. -/
theorem C99_agreement (P : Prims) (R : RealX25519 P) (E : RealEd25519 P) (hsha : ∀ x, (P.sha512 x).length = 64)
    (s : Bytes) (hs : s.length = 32) (seed : Bytes) (h : seed.length = 32) (sk : PrivateKey) (hsk : sk.sk = seed ++ P.edPub seed) :
    ∃ epk k ours, P.x25519 (clamp s) basepoint = some epk ∧
      P.x25519 (clamp s) (toCurve25519PK (P.edPub seed)) = some k ∧
      toCurve25519SK P sk = .ok ours ∧ P.x25519 ours epk = some k := by
  have ht : sk.sk.take 32 = seed := by rw [hsk, ← h, List.take_left]
  have h1 : ¬ Prime.order ∣ 1 := fun d => absurd (Nat.le_of_dvd (by norm_num) d) (by decide +kernel)
  have e1 := x25519_base R s hs h1
  rw [one_nsmul, mul_one, ← basepoint_eq] at e1
  have e2 := x25519_base R s hs (order_scalar ((P.sha512 seed).take 32))
  have e3 := x25519_base R ((P.sha512 seed).take 32) (by simp [hsha]) (order_scalar s)
  rw [← ed_pub_curve E seed h] at e2
  rw [mul_comm] at e3
  refine ⟨_, _, _, e1, e2, ?_, e3⟩
  unfold toCurve25519SK
  rw [if_neg (by rw [hsk, List.length_append]; omega), ht]

/-! ### C100: Ed25519 -/

theorem ed_sign_eq {P : Prims} (E : RealEd25519 P) (seed pk m : Bytes) (hs : seed.length = 32) (hp : pk.length = 32) :
    ∃ r k, k = leNat (P.sha512 ((edBase.mul r).encode ++ pk ++ m)) % edOrder ∧
      P.edSign (seed ++ pk) m =
        (edBase.mul r).encode ++ leBytes 32 ((r + k * scalarOf ((P.sha512 seed).take 32)) % edOrder) :=
  ⟨_, _, rfl, E.edSign seed pk m _ _ _ hs hp rfl rfl rfl⟩

theorem order_le : edOrder ≤ 256 ^ 32 := by decide +kernel

theorem leNat_scalar (n : Nat) : leNat (leBytes 32 (n % edOrder)) = n % edOrder := by
  rw [leNat_leBytes, Nat.mod_eq_of_lt]
  exact lt_of_lt_of_le (Nat.mod_lt _ (by decide +kernel)) order_le

theorem mod_order (n : Nat) : (n % edOrder) • montBase = n • montBase := by
  have : edOrder = addOrderOf montBase := base_order.symm
  rw [this]; exact mod_addOrderOf_nsmul _ _

/-- **C100** Ed25519 is complete: for every seed and message, the signature made with the private key verifies under its public
key. -/
theorem C100_sign_verify (P : Prims) (E : RealEd25519 P) (seed m : Bytes) (hs : seed.length = 32) :
    P.edVerify (P.edPub seed) m (P.edSign (seed ++ P.edPub seed) m) = true := by
  have hp := E.edPub seed hs
  obtain ⟨r, k, hk, e⟩ := ed_sign_eq E seed (P.edPub seed) m hs (by rw [hp, encode_length])
  rw [e]
  rw [hp] at hk ⊢
  generalize ha : scalarOf ((P.sha512 seed).take 32) = a at *
  have hA := img_mul img_base a
  rw [E.edVerify (edBase.mul a) m _ _ k hA.1 (encode_length _) (leBytes_length _ _) hk, leNat_scalar]
  refine ⟨Nat.mod_lt _ (by decide +kernel), ?_⟩
  have h1 := img_add (img_mul img_base ((r + k * a) % edOrder)) (img_mul (img_neg hA) k)
  have h2 := img_mul img_base r
  have : ((r + k * a) % edOrder) • montBase + k • -(a • montBase) = r • montBase := by
    rw [mod_order, add_nsmul, mul_smul, neg_nsmul, add_neg_cancel_right]
  rw [this] at h1
  rw [img_inj h1 h2]

/-- **C100** For a public key that encodes a point of the curve, a message and the first half of a signature there is at most one
second half that verifies. -/
theorem C100_unique (P : Prims) (E : RealEd25519 P) (A : EdPoint) (hA : A.OnCurve) (m R S S' : Bytes) (hR : R.length = 32)
    (hS : S.length = 32) (hS' : S'.length = 32) (h : P.edVerify A.encode m (R ++ S) = true)
    (h' : P.edVerify A.encode m (R ++ S') = true) : S = S' := by
  rw [E.edVerify A m _ _ _ hA hR hS rfl] at h
  rw [E.edVerify A m _ _ _ hA hR hS' rfl] at h'
  generalize leNat (P.sha512 (R ++ A.encode ++ m)) % edOrder = k at *
  obtain ⟨Q, hQ⟩ := img_exists hA
  have i1 := img_add (img_mul img_base (leNat S)) (img_mul (img_neg hQ) k)
  have i2 := img_add (img_mul img_base (leNat S')) (img_mul (img_neg hQ) k)
  have e := encode_inj i1.1 i2.1 (h.2.trans h'.2.symm)
  rw [e] at i1
  have inj : ∀ {p : EdPoint} {X Y : curve25519.Point}, Img p X → Img p Y → X = Y := by
    intro p X Y hX hY
    have : Img (p.add p.neg) (X + -Y) := img_add hX (img_neg hY)
    have z : Img (p.add p.neg) (X + -X) := img_add hX (img_neg hX)
    rw [add_neg_cancel] at z
    rw [img_inj z img_zero] at this
    exact (sub_eq_zero.mp (by rw [sub_eq_add_neg]; exact img_neutral this))
  have eq := add_right_cancel (inj i1 i2)
  have := (nsmul_inj_mod (x := montBase)).mp eq
  rw [base_order] at this
  have o : edOrder = Prime.order := rfl
  rw [← o, Nat.mod_eq_of_lt h.1, Nat.mod_eq_of_lt h'.1] at this
  exact leNat_inj _ _ (by rw [hS, hS']) this

theorem ed_sign_ne_zero' {P : Prims} (E : RealEd25519 P) (k m : Bytes) (h : k.length = 64) :
    P.edSign k m ≠ List.replicate 64 0 := by
  intro e0
  obtain ⟨r, c, -, e⟩ := ed_sign_eq E (k.take 32) (k.drop 32) m (by simp [h]) (by simp [h])
  rw [List.take_append_drop, e0] at e
  have hR : (edBase.mul r).encode = List.replicate 32 0 := by
    have := congrArg (List.take 32) e
    rw [List.take_append_of_le_length (by rw [encode_length]),
      List.take_of_length_le (l := (edBase.mul r).encode) (by rw [encode_length])] at this
    rw [← this]; simp
  have hz := leNat_encode (edBase.mul r)
  rw [hR, leNat_zeros] at hz
  have hy : (edBase.mul r).y = 0 := by
    rw [← ZMod.val_eq_zero]; omega
  have hi := img_mul img_base r
  have := four_torsion hi hy
  rw [smul_smul, mul_base_zero] at this
  rcases (Nat.Prime.dvd_mul Prime.order_prime).mp this with d | d
  · exact absurd (Nat.le_of_dvd (by norm_num) d) (by decide +kernel)
  · rw [(mul_base_zero r).mpr d] at hi
    have := img_inj hi img_zero
    rw [this] at hy
    exact one_ne_zero hy

/-- **C99**, **C100** Everything assumed about the two curves follows from the RFCs: primitives whose X25519 and Ed25519 are the
RFCs' functions, and whose hashes, authenticated encryption and key derivation functions behave, satisfy every hypothesis the
theorems of this development make about primitives. -/
theorem C100_laws (P : Prims) (B : P.Basic) (R : RealX25519 P) (E : RealEd25519 P) : Laws P where
  sha256_len := B.sha256_len
  sha512_len := B.sha512_len
  hmac_len := B.hmac_len
  hkdf_len := B.hkdf_len
  seal_len := B.seal_len
  open_seal := B.open_seal
  seal_open := B.seal_open
  open_len := B.open_len
  ed_pub_len s hs := by rw [E.edPub s hs, encode_length]
  ed_sign_len k m h := by
    obtain ⟨r, c, -, e⟩ := ed_sign_eq E (k.take 32) (k.drop 32) m (by simp [h]) (by simp [h])
    rw [List.take_append_drop] at e
    rw [e, List.length_append, encode_length, leBytes_length]
  ed_verify_sign s m hs := C100_sign_verify P E s m hs
  ed_sign_ne_zero k m h := ed_sign_ne_zero' E k m h
  dh s seed hs hseed := by
    obtain ⟨epk, k, ours, h1, h2, h3, h4⟩ := C99_agreement P R E B.sha512_len s hs seed hseed
      { sk := seed ++ P.edPub seed, pub := { pk := P.edPub seed, comment := [], hash := [] } } rfl
    refine ⟨epk, k, h1, B.x25519_len _ _ _ h1, B.x25519_len _ _ _ h2, ?_, ?_⟩
    · rw [← toCurve25519PK_eq _ (by rw [E.edPub seed hseed, encode_length])]; exact h2
    · unfold toCurve25519SK at h3
      rw [if_neg (by simp [hseed])] at h3
      dsimp only at h3
      rw [← hseed, List.take_left] at h3
      injection h3 with h3
      rw [hseed] at h3
      rw [h3]; exact h4
  x25519_len := B.x25519_len
  x25519_point := B.x25519_point
  x25519_scalar := B.x25519_scalar
  scrypt_len := B.scrypt_len
  scrypt_ok := B.scrypt_ok
  bcrypt_len := B.bcrypt_len

/-! ### Recipients of low order -/

/-- **C99** A recipient key whose point has order 1, 2, 4 or 8 is refused: `AddRecipient` returns an error and changes nothing. -/
theorem C99_low_order (P : Prims) (L : Laws P) (R : RealX25519 P) (sender : Option PrivateKey) (blk : Nat) (c : EncCoins)
    (hc : c.WF) (rcpts : List (PublicKey × Bytes)) (e : Encryptor) (he : setupEncryptor P sender blk c rcpts = .ok e)
    (A : EdPoint) (hA : A.OnCurve) (h8 : A.mul 8 = ⟨0, 1⟩) (pk : PublicKey) (hpk : pk.pk = A.encode) (nonce : Bytes) :
    ∃ m, e.addRecipient P pk nonce = (.err m, e) := by
  obtain ⟨epk, ws, hs⟩ := setupEncryptor_ok P L sender blk c rcpts e hc he
  have hsk : e.encSK = clamp c.csk := by rw [hs.enc]
  have hst : e.started = false := by rw [hs.enc]
  obtain ⟨Q, hQ⟩ := img_exists hA
  have hl : c.csk.length = 32 := hc.csk
  have key : ∃ Q', Q' ≠ 0 ∧ 8 • Q' = 0 ∧ toMontgomery A.encode = encodeU (uOf Q') := by
    by_cases h0 : Q = 0
    · subst h0
      have := img_inj hQ img_zero
      subst this
      refine ⟨.some 0 0 two_torsion_nonsingular, by simp, ?_, ?_⟩
      · have : 2 • (.some 0 0 two_torsion_nonsingular : curve25519.Point) = 0 := two_torsion rfl
        rw [show 8 = 4 * 2 from rfl, mul_smul, this, nsmul_zero]
      · rw [toMontgomery, edY_encode, montU, sub_self, inv_zero, mul_zero]; rfl
    · refine ⟨Q, h0, ?_, toMontgomery_encode hQ h0⟩
      have := img_mul hQ 8
      rw [h8] at this
      exact img_neutral this
  obtain ⟨Q', h0, h8', hu⟩ := key
  have : P.x25519 (clamp c.csk) (toCurve25519PK pk.pk) = none := by
    rw [hpk, toCurve25519PK_eq _ (encode_length A).le, hu, R _ _ (by simpa using hl) h0, scalarOf_clamp _ hl]
    have e8 : scalarOf c.csk • Q' = 0 := by
      unfold scalarOf
      rw [show 2^254 + 8 * (leNat c.csk % 2^254 / 8) = (2^251 + leNat c.csk % 2^254 / 8) * 8 by omega, mul_smul, h8', nsmul_zero]
    rw [e8]; rfl
  unfold Encryptor.addRecipient Encryptor.wrapKey
  rw [hst, hsk, this, if_neg (by simp), if_neg (by rw [hpk, encode_length]; omega)]
  exact ⟨_, rfl⟩

/-! ### The hypotheses can be met

Primitives with the RFCs' X25519 and Ed25519 (and the toy hash and cipher, which do not matter here). They are not computable:
a decoded point is chosen, not computed. -/

open Classical in
/-- `P` with the RFCs' X25519 and Ed25519. -/
noncomputable def withCurves (P : Prims) : Prims :=
  { P with
    x25519 := fun s p =>
      if h : s.length = 32 ∧ ∃ Q : curve25519.Point, Q ≠ 0 ∧ p = encodeU (uOf Q) then
        if uOf (scalarOf s • h.2.choose) = 0 then none else some (encodeU (uOf (scalarOf s • h.2.choose)))
      else none
    edPub := fun seed => (edBase.mul (scalarOf ((P.sha512 seed).take 32))).encode
    edSign := fun key m =>
      let r := leNat (P.sha512 ((P.sha512 (key.take 32)).drop 32 ++ m)) % edOrder
      let R := (edBase.mul r).encode
      let k := leNat (P.sha512 (R ++ key.drop 32 ++ m)) % edOrder
      R ++ leBytes 32 ((r + k * scalarOf ((P.sha512 (key.take 32)).take 32)) % edOrder)
    edVerify := fun pk m sig =>
      decide (∃ A : EdPoint, A.OnCurve ∧ pk = A.encode ∧ leNat (sig.drop 32) < edOrder ∧
        ((edBase.mul (leNat (sig.drop 32))).add
          (A.neg.mul (leNat (P.sha512 (sig.take 32 ++ pk ++ m)) % edOrder))).encode = sig.take 32) }

/-- The RFCs' functions, with the toy hash and cipher. -/
noncomputable def curvePrims : Prims := withCurves toyPrims

theorem encodeU_inj {u v : ZMod fieldP} (h : encodeU u = encodeU v) : u = v := by
  have e := congrArg leNat h
  unfold encodeU at e
  have b : ∀ w : ZMod fieldP, w.val < 256 ^ 32 := fun w => lt_trans (val_lt w) (by norm_num)
  rw [leNat_leBytes, leNat_leBytes, Nat.mod_eq_of_lt (b u), Nat.mod_eq_of_lt (b v)] at e
  exact ZMod.val_injective _ e

theorem withCurves_x25519 (P : Prims) : RealX25519 (withCurves P) := by
  intro s Q hs hQ
  have h : s.length = 32 ∧ ∃ Q' : curve25519.Point, Q' ≠ 0 ∧ encodeU (uOf Q) = encodeU (uOf Q') := ⟨hs, Q, hQ, rfl⟩
  have hx : (withCurves P).x25519 s (encodeU (uOf Q)) =
      if uOf (scalarOf s • h.2.choose) = 0 then none else some (encodeU (uOf (scalarOf s • h.2.choose))) := by
    simp only [withCurves]
    rw [dif_pos h]
  have hc := h.2.choose_spec
  rw [hx]
  have : uOf (scalarOf s • h.2.choose) = uOf (scalarOf s • Q) := by
    rcases u_inj hc.1 hQ (encodeU_inj hc.2.symm) with e | e
    · rw [e]
    · rw [e, neg_nsmul, u_neg]
  rw [this]

theorem withCurves_ed25519 (P : Prims) : RealEd25519 (withCurves P) where
  edPub _ _ := rfl
  edSign seed pk m r R k hs hp hr hR hk := by
    have h1 : (seed ++ pk).take 32 = seed := by rw [← hs, List.take_left]
    have h2 : (seed ++ pk).drop 32 = pk := by rw [← hs, List.drop_left]
    simp only [withCurves] at hr hk ⊢
    rw [h1, h2, ← hr, ← hR, ← hk]
  edVerify A m R S k hA hR hS hk := by
    have h1 : (R ++ S).take 32 = R := by rw [← hR, List.take_left]
    have h2 : (R ++ S).drop 32 = S := by rw [← hR, List.drop_left]
    simp only [withCurves, decide_eq_true_eq] at hk ⊢
    rw [h1, h2]
    constructor
    · rintro ⟨A', hA', he, hlt, hv⟩
      have := encode_inj hA hA' he
      subst this
      rw [← hk] at hv
      exact ⟨hlt, hv⟩
    · rintro ⟨hlt, hv⟩
      exact ⟨A, hA, rfl, hlt, by rw [← hk]; exact hv⟩

theorem withCurves_lengths (P : Prims) (s p k : Bytes) (h : (withCurves P).x25519 s p = some k) : k.length = 32 ∧ p.length = 32 ∧ s.length = 32 := by
  simp only [withCurves] at h
  split at h
  · rename_i hc
    split at h
    · cases h
    · cases h
      obtain ⟨h1, Q, _, rfl⟩ := hc
      exact ⟨encodeU_length _, encodeU_length _, h1⟩
  · cases h

theorem curvePrims_x25519 : RealX25519 curvePrims := withCurves_x25519 _

theorem curvePrims_ed25519 : RealEd25519 curvePrims := withCurves_ed25519 _

theorem curvePrims_basic : curvePrims.Basic where
  sha256_len := toyLaws.sha256_len
  sha512_len := toyLaws.sha512_len
  hmac_len := toyLaws.hmac_len
  hkdf_len := toyLaws.hkdf_len
  seal_len := toyLaws.seal_len
  open_seal := toyLaws.open_seal
  seal_open := toyLaws.seal_open
  open_len := toyLaws.open_len
  x25519_len s p k h := (withCurves_lengths _ s p k h).1
  x25519_point s p k h := (withCurves_lengths _ s p k h).2.1
  x25519_scalar s p k h := (withCurves_lengths _ s p k h).2.2
  scrypt_len := toyLaws.scrypt_len
  scrypt_ok := toyLaws.scrypt_ok
  bcrypt_len := toyLaws.bcrypt_len

/-- The hypotheses of C99 and C100 are met. -/
example : curvePrims.Basic ∧ RealX25519 curvePrims ∧ RealEd25519 curvePrims ∧ Laws curvePrims :=
  ⟨curvePrims_basic, curvePrims_x25519, curvePrims_ed25519,
    C100_laws _ curvePrims_basic curvePrims_x25519 curvePrims_ed25519⟩

/-- A point of order 2, which is not a recipient. -/
example : (⟨0, -1⟩ : EdPoint).OnCurve ∧ (⟨0, -1⟩ : EdPoint).mul 8 = ⟨0, 1⟩ := by
  have e : (⟨0, -1⟩ : EdPoint).add ⟨0, -1⟩ = ⟨0, 1⟩ := by rw [EdPoint.add]; congr 1 <;> simp
  have e' : (⟨0, 1⟩ : EdPoint).add ⟨0, -1⟩ = ⟨0, -1⟩ := by rw [EdPoint.add]; congr 1 <;> simp
  refine ⟨by unfold EdPoint.OnCurve; ring, ?_⟩
  simp only [EdPoint.mul, e, e']

end Sigtool
