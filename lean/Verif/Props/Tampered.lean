import Verif.Spec.Tampered
import Verif.Props.SshText
import Verif.Props.PrivTexts
import Verif.Props.OneFile
/-!
# C122: whether a changed private key file is noticed
-/

namespace Sigtool
open Ed
open Spec

/-! ### Flipping bits under counter mode -/

theorem xorBytes_append (a b s t : Bytes) (h : a.length = s.length) : xorBytes (a ++ b) (s ++ t) = xorBytes a s ++ xorBytes b t := by
  unfold xorBytes
  exact List.zipWith_append h

theorem xorBytes_comm3 (a s d : Bytes) : xorBytes (xorBytes a s) d = xorBytes (xorBytes a d) s := by
  induction a generalizing s d with
  | nil => rfl
  | cons x a ih =>
    cases s with
    | nil => cases d <;> rfl
    | cons y s =>
      cases d with
      | nil => rfl
      | cons z d =>
        show (x ^^^ y ^^^ z) :: xorBytes (xorBytes a s) d = (x ^^^ z ^^^ y) :: xorBytes (xorBytes a d) s
        rw [ih, UInt8.xor_assoc, UInt8.xor_comm y z, ← UInt8.xor_assoc]

theorem flipAt_parts (a x b d : Bytes) (h : x.length = d.length) : flipAt a.length d (a ++ x ++ b) = a ++ xorBytes x d ++ b := by
  unfold flipAt
  have e : (a ++ x ++ b).drop (a.length + d.length) = b := List.drop_left' (by rw [List.length_append]; omega)
  rw [e, List.append_assoc a x b, List.take_left, List.drop_left, ← h, List.take_left]

theorem flip_stream (a x b d s : Bytes) (hx : x.length = d.length) (hs : (a ++ x ++ b).length ≤ s.length) :
    flipAt a.length d (xorBytes (a ++ x ++ b) s) = xorBytes (a ++ xorBytes x d ++ b) s := by
  have hl : s = s.take a.length ++ (s.drop a.length).take x.length ++ s.drop (a.length + x.length) := by
    rw [← List.take_add, List.take_append_drop]
  simp only [List.length_append] at hs
  have l1 : a.length = (s.take a.length).length := by rw [List.length_take]; omega
  have l2 : x.length = ((s.drop a.length).take x.length).length := by rw [List.length_take, List.length_drop]; omega
  have l3 : (a ++ x).length = (s.take a.length ++ (s.drop a.length).take x.length).length := by
    simp only [List.length_append]; omega
  have lx : (xorBytes x d).length = x.length := xorBytes_len _ _ (by omega)
  conv => lhs; rw [hl]
  conv => rhs; rw [hl]
  rw [xorBytes_append _ _ _ _ l3, xorBytes_append _ _ _ _ l1,
    xorBytes_append _ _ _ _ (show (a ++ xorBytes x d).length = _ by rw [List.length_append, lx, ← List.length_append]; exact l3),
    xorBytes_append _ _ _ _ l1, ← xorBytes_comm3]
  have la : (xorBytes a (s.take a.length)).length = a.length := xorBytes_len _ _ (by omega)
  have := flipAt_parts (xorBytes a (s.take a.length)) (xorBytes x ((s.drop a.length).take x.length)) (xorBytes b (s.drop (a.length + x.length))) d
    (by rw [xorBytes_len _ _ (by omega)]; exact hx)
  rw [la] at this
  exact this

theorem ctr_flip (key iv a x b d : Bytes) (hx : x.length = d.length) :
    flipAt a.length d (ctr256 key iv (a ++ x ++ b)) = ctr256 key iv (a ++ xorBytes x d ++ b) := by
  have lx : (xorBytes x d).length = x.length := xorBytes_len _ _ (by omega)
  have hl : (a ++ xorBytes x d ++ b).length = (a ++ x ++ b).length := by simp only [List.length_append, lx]
  unfold ctr256
  rw [hl]
  exact flip_stream a x b d _ hx (by rw [ctrStream_length]; omega)

/-- The private section, cut at the second half of the secret. -/
theorem section_parts (check : Nat) (pub2 seed comment pad : Bytes) (hs : seed.length = 32) (hp : pub2.length = 32) :
    ∃ a b, a.length = publicHalf ∧ ∀ y : Bytes, y.length = 32 →
      sshPrivateSection check check "ssh-ed25519".toUTF8.toList pub2 (seed ++ y) comment pad = a ++ y ++ b := by
  refine ⟨sshUint32 check ++ sshUint32 check ++ sshString "ssh-ed25519".toUTF8.toList ++ sshString pub2 ++
    ([UInt8.ofNat (64 / 2^24), UInt8.ofNat (64 / 2^16), UInt8.ofNat (64 / 2^8), UInt8.ofNat 64] ++ seed), sshString comment ++ pad, ?_, ?_⟩
  · have : ("ssh-ed25519".toUTF8.toList).length = 11 := by decide +kernel
    simp only [List.length_append, sshUint32_length, sshString_length, this, hs, hp, List.length_cons, List.length_nil, publicHalf]
  · intro y hy
    have : (seed ++ y).length = 64 := by rw [List.length_append]; omega
    have e : sshString (seed ++ y) = [UInt8.ofNat (64 / 2^24), UInt8.ofNat (64 / 2^16), UInt8.ofNat (64 / 2^8), UInt8.ofNat 64] ++ (seed ++ y) := by
      unfold sshString; rw [this]
    unfold sshPrivateSection
    rw [e]
    simp only [List.append_assoc]

/-! ### Two signatures with one `R` -/

instance : Fact (Nat.Prime edOrder) := ⟨Prime.order_prime⟩

theorem stolen_scalar (P : Prims) (E : RealEd25519 P) (seed pk pk' m : Bytes) (hs : seed.length = 32) (hp : pk.length = 32)
    (hp' : pk'.length = 32)
    (hk : challenge P ((P.edSign (seed ++ pk) m).take 32) pk m ≠ challenge P ((P.edSign (seed ++ pk) m).take 32) pk' m) :
    stolen P pk pk' m (P.edSign (seed ++ pk) m) (P.edSign (seed ++ pk') m) = scalarOf ((P.sha512 seed).take 32) % edOrder := by
  have e1 := E.edSign seed pk m _ _ _ hs hp rfl rfl rfl
  have e2 := E.edSign seed pk' m _ _ _ hs hp' rfl rfl rfl
  generalize leNat (P.sha512 ((P.sha512 seed).drop 32 ++ m)) % edOrder = r at e1 e2
  generalize scalarOf ((P.sha512 seed).take 32) = a at *
  have ht : (P.edSign (seed ++ pk) m).take 32 = (edBase.mul r).encode := by rw [e1]; exact List.take_left' (encode_length _)
  rw [ht] at hk
  unfold stolen
  rw [ht]
  have d1 : leNat ((P.edSign (seed ++ pk) m).drop 32) = (r + challenge P (edBase.mul r).encode pk m * a) % edOrder := by
    rw [e1, List.drop_left' (encode_length _), leNat_scalar]; rfl
  have d2 : leNat ((P.edSign (seed ++ pk') m).drop 32) = (r + challenge P (edBase.mul r).encode pk' m * a) % edOrder := by
    rw [e2, List.drop_left' (encode_length _), leNat_scalar]; rfl
  rw [d1, d2]
  have l1 : challenge P (edBase.mul r).encode pk m < edOrder := Nat.mod_lt _ (by decide +kernel)
  have l2 : challenge P (edBase.mul r).encode pk' m < edOrder := Nat.mod_lt _ (by decide +kernel)
  generalize challenge P (edBase.mul r).encode pk m = k at *
  generalize challenge P (edBase.mul r).encode pk' m = k' at *
  have hne : (k : ZMod edOrder) - (k' : ZMod edOrder) ≠ 0 := by
    intro h
    have := (ZMod.natCast_eq_natCast_iff' _ _ _).mp (sub_eq_zero.mp h)
    rw [Nat.mod_eq_of_lt l1, Nat.mod_eq_of_lt l2] at this
    exact hk this
  have : (((r + k * a) % edOrder : Nat) : ZMod edOrder) - (((r + k' * a) % edOrder : Nat) : ZMod edOrder) = ((k : ZMod edOrder) - k') * a := by
    rw [ZMod.natCast_mod, ZMod.natCast_mod]; push_cast; ring
  rw [this, mul_comm ((k : ZMod edOrder) - k') _, mul_assoc, mul_inv_cancel₀ hne, mul_one, ZMod.val_natCast]

theorem forge_verifies (P : Prims) (E : RealEd25519 P) (seed : Bytes) (hs : seed.length = 32) (r : Nat) (m : Bytes) :
    P.edVerify (P.edPub seed) m (forge P (P.edPub seed) (scalarOf ((P.sha512 seed).take 32) % edOrder) r m) = true := by
  have hp := E.edPub seed hs
  unfold forge
  rw [hp]
  generalize ha : scalarOf ((P.sha512 seed).take 32) = a at *
  have hA := img_mul img_base a
  rw [E.edVerify (edBase.mul a) m _ _ _ hA.1 (encode_length _) (leBytes_length _ _) rfl, leNat_scalar]
  refine ⟨Nat.mod_lt _ (by decide +kernel), ?_⟩
  show ((edBase.mul _).add ((edBase.mul a).neg.mul (challenge P (edBase.mul r).encode (edBase.mul a).encode m))).encode = _
  generalize challenge P (edBase.mul r).encode (edBase.mul a).encode m = k
  have h1 := img_add (img_mul img_base ((r + k * (a % edOrder)) % edOrder)) (img_mul (img_neg hA) k)
  have h2 := img_mul img_base r
  have : ((r + k * (a % edOrder)) % edOrder) • montBase + k • -(a • montBase) = r • montBase := by
    rw [mod_order, add_nsmul, mul_smul, mod_order, neg_nsmul, add_neg_cancel_right]
  rw [this] at h1
  rw [img_inj h1 h2]

theorem digest_spec (P : Prims) (c : Bytes) : signDigest P (fileCksum P c) = fileMessage P c := by
  rw [signDigest_spec, fileCksum_spec]; rfl

/-- **C122** is false of the code, first: whatever a private key file was, if somebody replaces it by an OpenSSH key file without
pass phrase, that key is loaded, whatever the pass phrase is. -/
theorem C122_replaced_refuted (D : Deps) (S : Standard D.P) (hpem : D.pem = Pem.decode) (seed text : Bytes) (hs : seed.length = 32)
    (h : SshKeyFile D.P seed none text) (getpw : GetPw) :
    ∃ sk, makePrivateKey D.P D.Y D.pem text getpw = .ok sk ∧ sk.sk = seed ++ D.P.edPub seed :=
  ⟨_, (C110_loads D S hpem seed text hs none h).2 getpw (by intro pw h; cases h), rfl⟩

/-- **C122** is false of the code, second: somebody who does not know the pass phrase of an OpenSSH key file (encrypted with
aes256-ctr, the default of OpenSSH) can flip 32 bytes of it so that it still loads under the pass phrase, with the same seed and
another public key.  If the owner then signs a file that was already signed with the right key, the two signatures give the
private key away: from them and the two public keys everybody can compute signatures that `VerifyFile` accepts, for every file
— unless the two keys give the same number `k`. -/
theorem C122_tampered_refuted (D : Deps) (S : Standard D.P) (hpem : D.pem = Pem.decode)
    -- the file that ssh-keygen wrote
    (seed pw salt pub pub2 k comment pad text : Bytes) (rounds check : Nat) (hseed : seed.length = 32) (hpub2 : pub2.length = 32)
    (hcheck : check < 2^32) (hpad : GoodPadding pad) (hrounds : rounds < 2^32) (hk : D.P.bcryptPbkdf pw salt rounds 48 = some k)
    (hlen : (sshPrivateSection check check "ssh-ed25519".toUTF8.toList pub2 (seed ++ D.P.edPub seed) comment pad).length % 16 = 0)
    (hfile : (sshPrivateFile SshCipher.ctr.name "bcrypt".toUTF8.toList (kdfOptions salt rounds) 1 pub
      (sshPrivateSection check check "ssh-ed25519".toUTF8.toList pub2 (seed ++ D.P.edPub seed) comment pad)).length < 2^32)
    (ct : Bytes) (hct : ct = sshEncrypt .ctr (k.take 32) (k.drop 32)
      (sshPrivateSection check check "ssh-ed25519".toUTF8.toList pub2 (seed ++ D.P.edPub seed) comment pad))
    (htext : SshKeyText (sshPrivateFile SshCipher.ctr.name "bcrypt".toUTF8.toList (kdfOptions salt rounds) 1 pub ct) text)
    -- the changed file
    (delta text' : Bytes) (hd : delta.length = 32)
    (htext' : SshKeyText (sshPrivateFile SshCipher.ctr.name "bcrypt".toUTF8.toList (kdfOptions salt rounds) 1 pub (flipAt publicHalf delta ct)) text') :
    ∃ sk sk', makePrivateKey D.P D.Y D.pem text (some (.ok pw)) = .ok sk ∧ sk.sk = seed ++ D.P.edPub seed ∧
      makePrivateKey D.P D.Y D.pem text' (some (.ok pw)) = .ok sk' ∧ sk'.sk = seed ++ xorBytes (D.P.edPub seed) delta ∧
      ∀ c, ∃ s s', signFile D.P sk c = .ok s ∧ signFile D.P sk' c = .ok s' ∧
        (challenge D.P (s.sig.take 32) sk.pub.pk (fileMessage D.P c) = challenge D.P (s.sig.take 32) sk'.pub.pk (fileMessage D.P c) ∨
         ∀ (pk : PublicKey), pk.pk = D.P.edPub seed → ∀ r c' h,
           verifyFile D.P pk c' ⟨forge D.P sk.pub.pk (stolen D.P sk.pub.pk sk'.pub.pk (fileMessage D.P c) s.sig s'.sig) r (fileMessage D.P c'), h⟩ =
             .ok true) := by
  have L := C105_laws D.P S
  have hep : (D.P.edPub seed).length = 32 := L.ed_pub_len seed hseed
  have hx : (xorBytes (D.P.edPub seed) delta).length = 32 := by rw [xorBytes_len _ _ (by omega)]; exact hep
  have hiv : (k.drop 32).length = 16 := by rw [List.length_drop, S.bcrypt_len _ _ _ _ _ hk]
  obtain ⟨a, b, ha, hab⟩ := section_parts check pub2 seed comment pad hseed hpub2
  have hsame : (sshPrivateSection check check "ssh-ed25519".toUTF8.toList pub2 (seed ++ xorBytes (D.P.edPub seed) delta) comment pad).length =
      (sshPrivateSection check check "ssh-ed25519".toUTF8.toList pub2 (seed ++ D.P.edPub seed) comment pad).length := by
    rw [hab _ hx, hab _ hep]; simp only [List.length_append]; omega
  have hct' : flipAt publicHalf delta ct = sshEncrypt .ctr (k.take 32) (k.drop 32)
      (sshPrivateSection check check "ssh-ed25519".toUTF8.toList pub2 (seed ++ xorBytes (D.P.edPub seed) delta) comment pad) := by
    rw [hct, hab _ hx, hab _ hep, ← ha]
    exact ctr_flip _ _ _ _ _ _ (by omega)
  -- both files load
  have load : ∀ (half text ct : Bytes), half.length = 32 →
      (sshPrivateSection check check "ssh-ed25519".toUTF8.toList pub2 (seed ++ half) comment pad).length =
        (sshPrivateSection check check "ssh-ed25519".toUTF8.toList pub2 (seed ++ D.P.edPub seed) comment pad).length →
      ct = sshEncrypt .ctr (k.take 32) (k.drop 32) (sshPrivateSection check check "ssh-ed25519".toUTF8.toList pub2 (seed ++ half) comment pad) →
      SshKeyText (sshPrivateFile SshCipher.ctr.name "bcrypt".toUTF8.toList (kdfOptions salt rounds) 1 pub ct) text →
      makePrivateKey D.P D.Y D.pem text (some (.ok pw)) = .ok { sk := seed ++ half, pub := { pk := half, hash := (D.P.sha256 half).take 16 } } := by
    intro half text ct h1 h2 h3 h4
    obtain ⟨slack, hdec⟩ := Pem.decode_text _ _ h4
    obtain ⟨m1, m2⟩ := sshText_marker _ _ h4
    obtain ⟨e1, e2⟩ := sshEncrypt_dec D.P S .ctr (k.take 32) (k.drop 32)
      (sshPrivateSection check check "ssh-ed25519".toUTF8.toList pub2 (seed ++ half) comment pad) hiv (by omega)
    rw [← h3] at e1 e2
    have hdrop : (seed ++ half).drop 32 = half := List.drop_left' hseed
    rw [sshPrivateFile_length] at hfile
    rw [C43_encrypted D.P D.Y D.pem text slack pw k m1 m2 .ctr salt rounds 1 pub ct (by omega) hrounds
      (by rw [sshPrivateFile_length]; omega) (by rw [hpem]; exact hdec) hk (by omega) check check _ pub2 _ comment pad hcheck hcheck e1 (by omega)]
    exact ⟨rfl, rfl, rfl, by rw [List.length_append]; omega, hpad, by rw [hdrop]⟩
  refine ⟨_, _, load _ text ct hep rfl hct htext, rfl, load _ text' _ hx hsame hct' htext', rfl, ?_⟩
  intro c
  have sign : ∀ (half : Bytes) (h : Bytes), half.length = 32 → ∃ s, signFile D.P { sk := seed ++ half, pub := { pk := half, hash := h } } c = .ok s ∧
      s.sig = D.P.edSign (seed ++ half) (fileMessage D.P c) := by
    intro half h h1
    unfold signFile signMessage
    rw [if_neg (by rw [List.length_append]; omega)]
    refine ⟨_, rfl, ?_⟩
    show D.P.edSign _ (signDigest D.P (fileCksum D.P c)) = _
    rw [digest_spec]
  obtain ⟨s, g1, g2⟩ := sign _ ((D.P.sha256 (D.P.edPub seed)).take 16) hep
  obtain ⟨s', g1', g2'⟩ := sign _ ((D.P.sha256 (xorBytes (D.P.edPub seed) delta)).take 16) hx
  refine ⟨s, s', g1, g1', ?_⟩
  rw [g2, g2']
  by_cases hc : challenge D.P ((D.P.edSign (seed ++ D.P.edPub seed) (fileMessage D.P c)).take 32) (D.P.edPub seed) (fileMessage D.P c) =
      challenge D.P ((D.P.edSign (seed ++ D.P.edPub seed) (fileMessage D.P c)).take 32) (xorBytes (D.P.edPub seed) delta) (fileMessage D.P c)
  · exact .inl hc
  right
  intro pk hpk r c' h
  rw [stolen_scalar D.P S.ed25519 seed _ _ _ hseed hep hx hc]
  unfold verifyFile verifyMessage
  rw [if_neg (by rw [hpk]; omega), digest_spec, hpk, forge_verifies D.P S.ed25519 seed hseed]

/-- **C122**, what holds: a file that is not taken for an OpenSSH file and loads under the pass phrase holds the same key as the file that
was written, or a sealed key, other than the one that was written, that opens under a key derived from the pass phrase — which nobody
can make without it.  Missing: texts in the format of OpenSSH. -/
theorem C122_tampered_partial (P : Prims) (L : Laws P) (Y : Yaml) (pem : Bytes → Option PemBlock) (comment : Bytes)
    (sk : PrivateKey) (hk : sk.sk.length = 64) (pw salt text : Bytes) (hsalt : salt.length = 32)
    (ht : sk.marshal P Y comment pw salt = .ok text)
    (text' : Bytes) (hn : ¬ SaysOpenSSH text') (sk' : PrivateKey) (h : makePrivateKey P Y pem text' (some (.ok pw)) = .ok sk') :
    ∃ key, P.scrypt (P.sha512 pw) salt 524288 8 1 = .ok key ∧
      (sk'.sk = sk.sk ∨ ∃ d salt' key' nonce' box', Y.readPriv text' = some d ∧ Base64Text d.salt salt' ∧ Base64Text d.esk box' ∧
        P.scrypt (P.sha512 pw) salt' d.n d.r d.p = .ok key' ∧ P.aeadOpen key' nonce' box' [] = some sk'.sk ∧
        ¬ (key' = key ∧ nonce' = salt.take 12 ∧ box' = P.aeadSeal key (salt.take 12) sk.sk [])) := by
  unfold PrivateKey.marshal at ht
  match hs : P.scrypt (P.sha512 pw) salt 524288 8 1 with
  | .err e => rw [hs] at ht; cases ht
  | .panic w => rw [hs] at ht; cases ht
  | .ok key =>
    refine ⟨key, rfl, ?_⟩
    obtain ⟨secret, h1 | ⟨_, pw', d, hpw, hd, salt', box', key', _, _, b1, b2, b3, _, b4, _⟩, rfl⟩ := (C91_private P Y pem text' _ sk').mp h
    · exact absurd h1.1 hn
    · rcases hpw with ⟨h, _⟩ | h
      · cases h
      cases h
      by_cases he : key' = key ∧ (salt' ++ List.replicate 12 0).take 12 = salt.take 12 ∧ box' = P.aeadSeal key (salt.take 12) sk.sk []
      · left
        obtain ⟨rfl, e2, rfl⟩ := he
        rw [e2, L.open_seal _ _ _ _ (L.scrypt_len _ _ _ _ _ _ hs) (by rw [List.length_take]; omega) (by omega)] at b4
        exact (Option.some.inj b4).symm
      · exact .inr ⟨d, salt', key', _, box', hd, b1, b2, b3, b4, he⟩

end Sigtool
