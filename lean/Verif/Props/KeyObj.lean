import Verif.Spec.KeyObj
import Verif.CurveLemmas
import Verif.Roundtrip
import Verif.Props.PublicKeys
/-!
# C81: a key object acts as the key loaded into it last
-/

namespace Sigtool
open Spec

/-! ### Public keys -/

/-- The cache is empty or holds the conversion of the key. -/
def PubObj.InSync (o : PubObj) : Prop := o.ck = none ∨ o.ck = some (toCurve25519PK o.key.pk)

theorem PubObj.convert_inSync {o : PubObj} (h : o.InSync) (hl : o.key.pk.length ≤ 32) :
    o.convert = (.ok (toCurve25519PK o.key.pk), { o with ck := some (toCurve25519PK o.key.pk) }) := by
  unfold PubObj.convert
  rcases h with h | h
  · rw [h]; dsimp only; rw [if_neg (by omega)]
  · rw [h]; dsimp only; rw [← h]

/-- An object in sync is used as a recipient like the key value it holds. -/
theorem addRecipientObj_inSync (P : Prims) (e : Encryptor) {o : PubObj} (h : o.InSync) (hl : o.key.pk.length ≤ 32) (rbuf : Bytes)
    (k : PublicKey) (hk : k.pk = o.key.pk) :
    (e.addRecipientObj P o rbuf).1 = e.addRecipient P k rbuf ∧ (e.addRecipientObj P o rbuf).2.InSync ∧
      (e.addRecipientObj P o rbuf).2.key = o.key := by
  unfold Encryptor.addRecipientObj Encryptor.addRecipient
  split
  · exact ⟨rfl, h, rfl⟩
  · unfold Encryptor.wrapKeyObj Encryptor.wrapKey
    rw [PubObj.convert_inSync h hl, hk, if_neg (by omega)]
    dsimp only
    cases P.x25519 e.encSK (toCurve25519PK o.key.pk) with
    | none => exact ⟨rfl, .inr rfl, rfl⟩
    | some s => exact ⟨rfl, .inr rfl, rfl⟩

/-- Loading: the result is that of `MakePublicKey`, the key part is the new one. -/
theorem PubObj.unmarshal_spec (P : Prims) (Y : Yaml) (o : PubObj) (b : Bytes) :
    (o.unmarshal P Y b).1 = (makePublicKey P Y b).bind (fun _ => .ok ()) ∧
    (∀ k, makePublicKey P Y b = .ok k → (o.unmarshal P Y b).2.key.pk = k.pk ∧ (o.unmarshal P Y b).2.key.hash = k.hash) ∧
    ((∀ k, makePublicKey P Y b ≠ .ok k) → (o.unmarshal P Y b).2 = o) ∧
    (SSHPub P b → (o.unmarshal P Y b).2.ck = none) ∧
    (¬ SSHPub P b → (o.unmarshal P Y b).2.ck = o.ck) := by
  unfold PubObj.unmarshal makePublicKey SSHPub
  cases hp : parseSSHPublicKey P b with
  | ok o' =>
    cases o' with
    | some xk =>
      refine ⟨rfl, ?_, ?_, ?_, ?_⟩
      · rintro k hk; cases hk; exact ⟨rfl, rfl⟩
      · intro h; exact absurd rfl (h xk)
      · intro _; rfl
      · intro h; exact absurd ⟨xk, rfl⟩ h
    | none =>
      refine ⟨rfl, ?_, fun _ => rfl, ?_, fun _ => rfl⟩
      · rintro k hk; cases hk
      · rintro ⟨k, hk⟩; cases hk
  | panic w =>
    refine ⟨rfl, ?_, fun _ => rfl, ?_, fun _ => rfl⟩
    · rintro k hk; cases hk
    · rintro ⟨k, hk⟩; cases hk
  | err x =>
    dsimp only
    cases hy : unmarshalPubYaml P Y b with
    | err y =>
      refine ⟨rfl, ?_, fun _ => rfl, ?_, fun _ => rfl⟩
      · rintro k hk; cases hk
      · rintro ⟨k, hk⟩; cases hk
    | panic y =>
      refine ⟨rfl, ?_, fun _ => rfl, ?_, fun _ => rfl⟩
      · rintro k hk; cases hk
      · rintro ⟨k, hk⟩; cases hk
    | ok k =>
      refine ⟨rfl, ?_, ?_, ?_, fun _ => rfl⟩
      · rintro k' hk; cases hk; exact ⟨rfl, rfl⟩
      · intro h; exact absurd rfl (h k)
      · rintro ⟨k, hk⟩; cases hk

theorem careful_init {P : Prims} {Y : Yaml} {ops : List PubOp} {op : PubOp} (h : CarefulPub P Y (ops ++ [op])) : CarefulPub P Y ops :=
  fun pre b post he => h pre b (post ++ [op]) (by rw [he]; simp)

theorem PubObj.run_snoc (P : Prims) (Y : Yaml) (o : PubObj) (ops : List PubOp) (op : PubOp) :
    o.run P Y (ops ++ [op]) = ((o.run P Y ops).step P Y op).2 := by
  unfold PubObj.run
  rw [List.foldl_append]
  rfl

theorem PubObj.step_load (P : Prims) (Y : Yaml) (o : PubObj) (b : Bytes) :
    o.step P Y (.load b) = (.load (o.unmarshal P Y b).1, (o.unmarshal P Y b).2) := rfl
theorem PubObj.step_convert (P : Prims) (Y : Yaml) (o : PubObj) : o.step P Y .convert = (.convert o.convert.1, o.convert.2) := rfl
theorem PubObj.step_addTo (P : Prims) (Y : Yaml) (o : PubObj) (e : Encryptor) (rbuf : Bytes) :
    o.step P Y (.addTo e rbuf) = (.addTo (e.addRecipientObj P o rbuf).1.1 (e.addRecipientObj P o rbuf).1.2, (e.addRecipientObj P o rbuf).2) := rfl

/-- With nothing but loads the cache stays empty. -/
theorem loads_only (P : Prims) (Y : Yaml) (ops : List PubOp) : ∀ (o : PubObj), o.ck = none → (∀ u ∈ ops, ∃ b, u = PubOp.load b) →
    (o.run P Y ops).ck = none := by
  induction ops with
  | nil => intro o ho _; exact ho
  | cons u us ih =>
    intro o ho hu
    obtain ⟨b', rfl⟩ := hu u (by simp)
    refine ih (o.step P Y (.load b')).2 ?_ (fun u hu' => hu u (List.mem_cons_of_mem _ hu'))
    obtain ⟨_, _, _, t4, t5⟩ := PubObj.unmarshal_spec P Y o b'
    rw [PubObj.step_load]
    dsimp only
    by_cases hs : SSHPub P b'
    · exact t4 hs
    · rw [t5 hs, ho]

/-- The invariant of careful histories. -/
theorem pub_inv (P : Prims) (Y : Yaml) (k0 : PublicKey) (h0 : k0.pk.length ≤ 32) (ops : List PubOp) (x : Bytes)
    (hh : HoldsPub P Y k0.pk ops x) : CarefulPub P Y ops →
    (PubObj.run P Y { key := k0 } ops).key.pk = x ∧ x.length ≤ 32 ∧ (PubObj.run P Y { key := k0 } ops).InSync ∧
      ((∀ u ∈ ops, ∃ b, u = .load b) → (PubObj.run P Y { key := k0 } ops).ck = none) := by
  induction hh with
  | start => intro _; exact ⟨rfl, h0, .inl rfl, fun _ => rfl⟩
  | loaded ops b k hk =>
    intro hc
    obtain ⟨_, s2, _, s4, s5⟩ := PubObj.unmarshal_spec P Y (PubObj.run P Y { key := k0 } ops) b
    rw [PubObj.run_snoc]
    have hl := (C37_public P Y b k (.inl hk)).1
    have hck : (((PubObj.run P Y { key := k0 } ops).unmarshal P Y b).2).ck = none := by
      rcases hc ops b [] rfl with h | h | h
      · by_cases hs : SSHPub P b
        · exact s4 hs
        · rw [s5 hs]
          exact loads_only P Y ops _ rfl h
      · exact s4 h
      · exact absurd ⟨k, hk⟩ h
    exact ⟨(s2 k hk).1, by omega, .inl hck, fun _ => hck⟩
  | refused ops b x _ hn ih =>
    intro hc
    obtain ⟨i1, i2, i3, i4⟩ := ih (careful_init hc)
    obtain ⟨_, _, s3, _, _⟩ := PubObj.unmarshal_spec P Y (PubObj.run P Y { key := k0 } ops) b
    rw [PubObj.run_snoc]
    have : ((PubObj.run P Y { key := k0 } ops).step P Y (.load b)).2 = PubObj.run P Y { key := k0 } ops :=
      s3 fun k hk => hn ⟨k, hk⟩
    rw [this]
    exact ⟨i1, i2, i3, fun h => i4 fun u hu => h u (List.mem_append_left _ hu)⟩
  | convert ops x _ ih =>
    intro hc
    obtain ⟨i1, i2, i3, _⟩ := ih (careful_init hc)
    rw [PubObj.run_snoc]
    rw [PubObj.step_convert, PubObj.convert_inSync i3 (by rw [i1]; exact i2)]
    refine ⟨i1, i2, .inr rfl, fun h => ?_⟩
    obtain ⟨b, hb⟩ := h .convert (by simp)
    cases hb
  | addTo ops e rbuf x _ ih =>
    intro hc
    obtain ⟨i1, i2, i3, _⟩ := ih (careful_init hc)
    rw [PubObj.run_snoc]
    obtain ⟨_, a2, a3⟩ := addRecipientObj_inSync P e i3 (by rw [i1]; exact i2) rbuf (PubObj.run P Y { key := k0 } ops).key rfl
    refine ⟨?_, i2, a2, fun h => ?_⟩
    · rw [PubObj.step_addTo]
      dsimp only
      rw [a3, i1]
    · obtain ⟨b, hb⟩ := h (.addTo e rbuf) (by simp)
      cases hb

/-- **C81** (public keys, partial).  In every history of calls on a public key object in which no YAML key is loaded into an object that
was used before, each call acts as on the key loaded last: the conversion is that of this key, `AddRecipient` does what it does
for this key, and loading succeeds exactly if `MakePublicKey` does.  Missing: loading a YAML key into a used object, for which
this is false (`C81_reload_refuted`). -/
theorem C81_reload_partial (P : Prims) (Y : Yaml) (k0 : PublicKey) (h0 : k0.pk.length ≤ 32) (ops : List PubOp) (x : Bytes)
    (hh : HoldsPub P Y k0.pk ops x) (hc : CarefulPub P Y ops) :
    let o := PubObj.run P Y { key := k0 } ops
    o.key.pk = x ∧
    (o.step P Y .convert).1 = .convert (.ok (Spec.toMontgomery x)) ∧
    (∀ (e : Encryptor) (rbuf : Bytes) (k : PublicKey), k.pk = x →
      (o.step P Y (.addTo e rbuf)).1 = .addTo (e.addRecipient P k rbuf).1 (e.addRecipient P k rbuf).2) ∧
    ∀ b, (o.step P Y (.load b)).1 = .load ((makePublicKey P Y b).bind fun _ => .ok ()) := by
  obtain ⟨i1, i2, i3, _⟩ := pub_inv P Y k0 h0 ops x hh hc
  refine ⟨i1, ?_, fun e rbuf k hk => ?_, fun b => ?_⟩
  · rw [PubObj.step_convert, PubObj.convert_inSync i3 (by rw [i1]; exact i2), i1, toCurve25519PK_eq x i2]
  · obtain ⟨a1, _, _⟩ := addRecipientObj_inSync P e i3 (by rw [i1]; exact i2) rbuf k (by rw [hk, i1])
    rw [PubObj.step_addTo, a1]
  · rw [PubObj.step_load, (PubObj.unmarshal_spec P Y _ b).1]

/-- Serialised public keys are not read as SSH keys. -/
theorem marshal_not_ssh (P : Prims) (L : Laws P) (Y : Yaml) (YL : Y.Laws) (comment seed : Bytes) (hs : seed.length = 32) :
    ¬ SSHPub P ((newPrivateKey P seed).pub.marshal Y comment) := by
  rintro ⟨k, hk⟩
  have h1 : (newPrivateKey P seed).pub.pk.length = 32 := L.ed_pub_len seed hs
  have h2 : (newPrivateKey P seed).pub.hash.length = 16 := by
    show ((P.sha256 _).take 16).length = 16
    rw [List.length_take, L.sha256_len]; rfl
  obtain ⟨e, he⟩ := pubText_not_ssh P Y YL comment (newPrivateKey P seed).pub.pk (newPrivateKey P seed).pub.hash (by omega) (by omega)
  unfold PublicKey.marshal at hk
  rw [he] at hk
  cases hk

/-- **C81** (refuted).  Take an object into which the serialised public key of A was loaded and which was then used once (here:
converted), and load the serialised public key of B. The object now has B's key in its public field, but it still converts to
A's point, and when it is added as a recipient to an encryptor, the root key is wrapped so that the holder of A's private key
gets it; B gets something out of it only if sealing under two wrapping keys gives the same bytes. -/
theorem C81_reload_refuted (P : Prims) (L : Laws P) (Y : Yaml) (YL : Y.Laws) (ca cb seedA seedB : Bytes) (hYa : Y.Reads ca) (hYb : Y.Reads cb)
    (ha : seedA.length = 32) (hb : seedB.length = 32) :
    let o := PubObj.run P Y { key := { pk := [] } }
      [.load ((newPrivateKey P seedA).pub.marshal Y ca), .convert, .load ((newPrivateKey P seedB).pub.marshal Y cb)]
    o.key.pk = P.edPub seedB ∧
    (o.step P Y .convert).1 = .convert (.ok (Spec.toMontgomery (P.edPub seedA))) ∧
    ∀ (sk : Option PrivateKey) (blk : Nat) (c : EncCoins), c.WF → ∀ (e : Encryptor), newEncryptor P sk blk c = .ok e →
      ∀ rbuf, rbuf.length = 12 → ∃ w e', (o.step P Y (.addTo e rbuf)).1 = .addTo (.ok ()) e' ∧ e'.hdr.keys = [w] ∧
        unwrapAs P seedA (P.edPub seedB) e.hdr.pk e.hdr.salt w = some c.key ∧
        ∀ k, unwrapAs P seedB (P.edPub seedB) e.hdr.pk e.hdr.salt w = some k → ∃ sa sb,
          P.x25519 (clamp ((P.sha512 seedA).take 32)) e.hdr.pk = some sa ∧ P.x25519 (clamp ((P.sha512 seedB).take 32)) e.hdr.pk = some sb ∧
          P.aeadSeal (wrappingKey P sa e.hdr.salt rbuf).1 (wrappingKey P sa e.hdr.salt rbuf).2 c.key (P.edPub seedB) =
          P.aeadSeal (wrappingKey P sb e.hdr.salt rbuf).1 (wrappingKey P sb e.hdr.salt rbuf).2 k (P.edPub seedB) := by
  have ld : ∀ (c seed : Bytes), seed.length = 32 → Y.Reads c → ∃ k, makePublicKey P Y ((newPrivateKey P seed).pub.marshal Y c) = .ok k ∧
      k.pk = P.edPub seed := by
    intro c seed hs hY
    obtain ⟨k, h1, h2, _⟩ := C38_roundtrip P L Y YL c [] hY (P.edPub seed) (newPrivateKey P seed).pub (by
      unfold makePublicKeyFromBytes
      rw [if_neg (by rw [L.ed_pub_len seed hs]; simp)]
      rfl)
    exact ⟨k, h1, h2⟩
  obtain ⟨kA, hA1, hA2⟩ := ld ca seedA ha hYa
  obtain ⟨kB, hB1, hB2⟩ := ld cb seedB hb hYb
  have hlA : (P.edPub seedA).length = 32 := L.ed_pub_len seedA ha
  generalize hta : (newPrivateKey P seedA).pub.marshal Y ca = ta at *
  generalize htb : (newPrivateKey P seedB).pub.marshal Y cb = tb at *
  have hnb : ¬ SSHPub P tb := by rw [← htb]; exact marshal_not_ssh P L Y YL cb seedB hb
  have hna : ¬ SSHPub P ta := by rw [← hta]; exact marshal_not_ssh P L Y YL ca seedA ha
  intro o
  obtain ⟨_, a2, _, _, a5⟩ := PubObj.unmarshal_spec P Y { key := { pk := [] } } ta
  have hck1 := a5 hna
  have hpk1 := (a2 kA hA1).1
  rw [hA2] at hpk1
  generalize ho1 : (PubObj.unmarshal P Y { key := { pk := [] } } ta).2 = o1 at *
  have hcv := PubObj.convert_inSync (o := o1) (.inl hck1) (by rw [hpk1]; omega)
  rw [hpk1] at hcv
  obtain ⟨_, b2, _, _, b5⟩ := PubObj.unmarshal_spec P Y { o1 with ck := some (toCurve25519PK (P.edPub seedA)) } tb
  have hck2 := b5 hnb
  have hpk2 := (b2 kB hB1).1
  rw [hB2] at hpk2
  have hoe : o = (PubObj.unmarshal P Y { o1 with ck := some (toCurve25519PK (P.edPub seedA)) } tb).2 := by
    show ((((PubObj.step P Y { key := { pk := [] } } (.load ta)).2.step P Y .convert).2).step P Y (.load tb)).2 = _
    rw [PubObj.step_load, PubObj.step_convert, PubObj.step_load, ho1, hcv]
  rw [← hoe] at hck2 hpk2
  have hconv : o.convert = (.ok (toCurve25519PK (P.edPub seedA)), o) := by
    unfold PubObj.convert
    rw [hck2]
  refine ⟨hpk2, ?_, ?_⟩
  · rw [PubObj.step_convert, hconv, toCurve25519PK_eq _ (by omega)]
  · intro sk blk c hc e he rbuf hr
    unfold newEncryptor at he
    dsimp only at he
    obtain ⟨epk, s, k1, k2, k3, k4, k5⟩ := L.dh c.csk seedA hc.csk ha
    rw [k1] at he
    dsimp only at he
    obtain ⟨⟨sf, auth⟩, _, he⟩ := (bind_ok_iff _ _ _).mp he
    cases he
    have hkek : ∀ sh : Bytes, kekOf P sh c.salt rbuf = wrappingKey P sh c.salt rbuf := fun _ => rfl
    have hok : ∀ sh : Bytes, (P.hkdf512 sh (P.sha256 (c.salt ++ rbuf)) (ascii "Receiver Key") 44).length = 44 :=
      fun sh => L.hkdf_len _ _ _ _ (by decide)
    have hw1 : ∀ sh : Bytes, (wrappingKey P sh c.salt rbuf).1.length = 32 := by
      intro sh; unfold wrappingKey; dsimp only; rw [List.length_take, hok]; rfl
    have hw2 : ∀ sh : Bytes, (wrappingKey P sh c.salt rbuf).2.length = 12 := by
      intro sh; unfold wrappingKey; dsimp only; rw [List.length_drop, hok]
    refine ⟨{ dkey := P.aeadSeal (wrappingKey P s c.salt rbuf).1 (wrappingKey P s c.salt rbuf).2 c.key (P.edPub seedB), nonce := rbuf },
      (Encryptor.addRecipientObj P { hdr := { chunkSize := chooseBlock blk, salt := c.salt, pk := epk, sender := sf }, key := c.key, encSK := clamp c.csk, sender := sk, auth := auth } o rbuf).1.2, ?_, ?_, ?_, ?_⟩
    rotate_left
    rotate_left
    · unfold unwrapAs
      dsimp only
      rw [k5]
      dsimp only [Option.bind]
      exact L.open_seal _ _ _ _ (hw1 s) (hw2 s) (by rw [hc.key]; decide)
    · intro k hk
      unfold unwrapAs at hk
      dsimp only at hk
      match hx : P.x25519 (clamp ((P.sha512 seedB).take 32)) epk with
      | none => rw [hx] at hk; cases hk
      | some sb =>
        rw [hx] at hk
        exact ⟨s, sb, k5, rfl, L.seal_open _ _ _ _ _ (hw1 sb) (hw2 sb) hk⟩
    · rw [PubObj.step_addTo]
      unfold Encryptor.addRecipientObj Encryptor.wrapKeyObj
      rw [hconv]
      dsimp only
      rw [toCurve25519PK_eq _ (by omega), k4]
      rfl
    · unfold Encryptor.addRecipientObj Encryptor.wrapKeyObj
      rw [hconv]
      dsimp only
      rw [toCurve25519PK_eq _ (by omega), k4, hpk2]
      rfl

/-! ### Private keys -/

/-- The cache is empty or holds the conversion of the key. -/
def PrivObj.InSync (P : Prims) (o : PrivObj) : Prop := o.ck = none ∨ ∃ c, o.ck = some c ∧ toCurve25519SK P o.key = .ok c

theorem PrivObj.convert_inSync {P : Prims} {o : PrivObj} (h : o.InSync P) :
    (o.convert P).1 = toCurve25519SK P o.key ∧ (o.convert P).2.InSync P ∧ (o.convert P).2.key = o.key := by
  unfold PrivObj.convert
  rcases h with h | ⟨c, h, hc⟩
  · rw [h]
    dsimp only
    cases hk : toCurve25519SK P o.key with
    | ok c => exact ⟨rfl, .inr ⟨c, rfl, hk⟩, rfl⟩
    | err x => exact ⟨rfl, .inl h, rfl⟩
    | panic x => exact ⟨rfl, .inl h, rfl⟩
  · rw [h]
    exact ⟨hc.symm, .inr ⟨c, h, hc⟩, rfl⟩

theorem unwrapKeyObj_inSync (P : Prims) (d : Decryptor) (w : WrappedKey) {o : PrivObj} (h : o.InSync P) :
    (d.unwrapKeyObj P w o).1 = d.unwrapKey P w o.key ∧ (d.unwrapKeyObj P w o).2.InSync P ∧ (d.unwrapKeyObj P w o).2.key = o.key := by
  obtain ⟨h1, h2, h3⟩ := PrivObj.convert_inSync h
  unfold Decryptor.unwrapKeyObj Decryptor.unwrapKey
  rw [← h1]
  generalize o.convert P = x at h1 h2 h3 ⊢
  obtain ⟨r, o'⟩ := x
  dsimp only at h1 h2 h3 ⊢
  cases r with
  | err x => exact ⟨rfl, h2, h3⟩
  | panic x => exact ⟨rfl, h2, h3⟩
  | ok c =>
    dsimp only
    refine ⟨?_, h2, h3⟩
    rw [Res.bind_ok, h3]
    cases P.x25519 c d.hdr.pk <;> rfl

theorem findKeyObj_inSync (P : Prims) (d : Decryptor) : ∀ (ws : List WrappedKey) (o : PrivObj), o.InSync P →
    (d.findKeyObj P o ws).1 = d.findKey P o.key ws ∧ (d.findKeyObj P o ws).2.InSync P ∧ (d.findKeyObj P o ws).2.key = o.key := by
  intro ws
  induction ws with
  | nil => intro o h; exact ⟨rfl, h, rfl⟩
  | cons w ws ih =>
    intro o h
    obtain ⟨h1, h2, h3⟩ := unwrapKeyObj_inSync P d w h
    unfold Decryptor.findKeyObj Decryptor.findKey
    rw [← h1]
    generalize d.unwrapKeyObj P w o = x at h1 h2 h3 ⊢
    obtain ⟨r, o'⟩ := x
    dsimp only at h1 h2 h3 ⊢
    cases r with
    | err x => exact ⟨rfl, h2, h3⟩
    | panic x => exact ⟨rfl, h2, h3⟩
    | ok k =>
      cases k with
      | some k => exact ⟨rfl, h2, h3⟩
      | none =>
        dsimp only
        obtain ⟨i1, i2, i3⟩ := ih o' h2
        rw [h3] at i1
        exact ⟨i1, i2, by rw [i3, h3]⟩

/-- An object in sync is used by a `Decryptor` like the key value it holds. -/
theorem setPrivateKeyObj_inSync (P : Prims) (d : Decryptor) (spk : Option PublicKey) {o : PrivObj} (h : o.InSync P) :
    (d.setPrivateKeyObj P o spk).1 = d.setPrivateKey P o.key spk ∧ (d.setPrivateKeyObj P o spk).2.InSync P ∧
      (d.setPrivateKeyObj P o spk).2.key = o.key := by
  obtain ⟨h1, h2, h3⟩ := findKeyObj_inSync P d d.hdr.keys o h
  unfold Decryptor.setPrivateKeyObj Decryptor.setPrivateKey
  rw [← h1]
  generalize d.findKeyObj P o d.hdr.keys = x at h1 h2 h3 ⊢
  obtain ⟨r, o'⟩ := x
  dsimp only at h1 h2 h3 ⊢
  cases r with
  | err x => exact ⟨rfl, h2, h3⟩
  | panic x => exact ⟨rfl, h2, h3⟩
  | ok k =>
    cases k with
    | none => exact ⟨rfl, h2, h3⟩
    | some k =>
      dsimp only
      generalize Decryptor.verifySender P { d with key := some k, sender := spk } k spk = y
      cases y with
      | err x => exact ⟨rfl, h2, h3⟩
      | panic x => exact ⟨rfl, h2, h3⟩
      | ok b => exact ⟨rfl, h2, h3⟩

theorem PrivObj.unmarshal_spec (P : Prims) (Y : Yaml) (pem : Bytes → Option PemBlock) (o : PrivObj) (b : Bytes) (pw : GetPw) :
    (o.unmarshal P Y pem b pw).1 = (makePrivateKey P Y pem b pw).bind (fun _ => .ok ()) ∧
    (∀ k, makePrivateKey P Y pem b pw = .ok k → (o.unmarshal P Y pem b pw).2.key = k) ∧
    ((∀ k, makePrivateKey P Y pem b pw ≠ .ok k) → (o.unmarshal P Y pem b pw).2 = o) ∧
    ((looksOpenSSH b = true ∧ ∃ k, makePrivateKey P Y pem b pw = .ok k) → (o.unmarshal P Y pem b pw).2.ck = none) ∧
    ((looksOpenSSH b = false ∨ ∀ k, makePrivateKey P Y pem b pw ≠ .ok k) → (o.unmarshal P Y pem b pw).2.ck = o.ck) := by
  unfold PrivObj.unmarshal makePrivateKey
  by_cases hl : looksOpenSSH b = true
  · rw [if_pos hl, if_pos hl]
    cases parseSSHPrivateKey P pem b pw with
    | ok k =>
      refine ⟨rfl, ?_, ?_, fun _ => rfl, ?_⟩
      · rintro k' h; cases h; rfl
      · intro h; exact absurd rfl (h k)
      · rintro (h | h)
        · rw [hl] at h; cases h
        · exact absurd rfl (h k)
    | err x =>
      refine ⟨rfl, ?_, fun _ => rfl, ?_, fun _ => rfl⟩
      · rintro k' h; cases h
      · rintro ⟨_, k, h⟩; cases h
    | panic x =>
      refine ⟨rfl, ?_, fun _ => rfl, ?_, fun _ => rfl⟩
      · rintro k' h; cases h
      · rintro ⟨_, k, h⟩; cases h
  · rw [if_neg hl, if_neg hl]
    generalize (optPw pw).bind (fun pw => unmarshalPrivYaml P Y b pw) = r
    cases r with
    | ok k =>
      refine ⟨rfl, ?_, ?_, ?_, fun _ => rfl⟩
      · rintro k' h; cases h; rfl
      · intro h; exact absurd rfl (h k)
      · rintro ⟨h, _⟩; exact absurd h hl
    | err x =>
      refine ⟨rfl, ?_, fun _ => rfl, ?_, fun _ => rfl⟩
      · rintro k' h; cases h
      · rintro ⟨_, k, h⟩; cases h
    | panic x =>
      refine ⟨rfl, ?_, fun _ => rfl, ?_, fun _ => rfl⟩
      · rintro k' h; cases h
      · rintro ⟨_, k, h⟩; cases h

theorem PrivObj.step_load (P : Prims) (Y : Yaml) (pem : Bytes → Option PemBlock) (o : PrivObj) (b : Bytes) (pw : GetPw) :
    o.step P Y pem (.load b pw) = (.load (o.unmarshal P Y pem b pw).1, (o.unmarshal P Y pem b pw).2) := rfl
theorem PrivObj.step_convert (P : Prims) (Y : Yaml) (pem : Bytes → Option PemBlock) (o : PrivObj) :
    o.step P Y pem .convert = (.convert (o.convert P).1, (o.convert P).2) := rfl
theorem PrivObj.step_setIn (P : Prims) (Y : Yaml) (pem : Bytes → Option PemBlock) (o : PrivObj) (d : Decryptor) (spk : Option PublicKey) :
    o.step P Y pem (.setIn d spk) =
      (.setIn (d.setPrivateKeyObj P o spk).1.1 (d.setPrivateKeyObj P o spk).1.2, (d.setPrivateKeyObj P o spk).2) := rfl

theorem PrivObj.run_snoc (P : Prims) (Y : Yaml) (pem : Bytes → Option PemBlock) (o : PrivObj) (ops : List PrivOp) (op : PrivOp) :
    o.run P Y pem (ops ++ [op]) = ((o.run P Y pem ops).step P Y pem op).2 := by
  unfold PrivObj.run
  rw [List.foldl_append]
  rfl

theorem carefulPriv_init {P : Prims} {Y : Yaml} {pem : Bytes → Option PemBlock} {ops : List PrivOp} {op : PrivOp}
    (h : CarefulPriv P Y pem (ops ++ [op])) : CarefulPriv P Y pem ops :=
  fun pre b pw post he => h pre b pw (post ++ [op]) (by rw [he]; simp)

theorem loads_only_priv (P : Prims) (Y : Yaml) (pem : Bytes → Option PemBlock) (ops : List PrivOp) : ∀ (o : PrivObj), o.ck = none →
    (∀ u ∈ ops, ∃ b pw, u = PrivOp.load b pw) → (o.run P Y pem ops).ck = none := by
  induction ops with
  | nil => intro o ho _; exact ho
  | cons u us ih =>
    intro o ho hu
    obtain ⟨b', pw', rfl⟩ := hu u (by simp)
    refine ih (o.step P Y pem (.load b' pw')).2 ?_ (fun u hu' => hu u (List.mem_cons_of_mem _ hu'))
    obtain ⟨_, _, _, t4, t5⟩ := PrivObj.unmarshal_spec P Y pem o b' pw'
    rw [PrivObj.step_load]
    dsimp only
    by_cases hs : looksOpenSSH b' = true ∧ ∃ k, makePrivateKey P Y pem b' pw' = .ok k
    · exact t4 hs
    · rw [t5 ?_, ho]
      by_cases h1 : looksOpenSSH b' = true
      · exact .inr fun k hk => hs ⟨h1, k, hk⟩
      · exact .inl (by simpa using h1)

theorem priv_inv (P : Prims) (Y : Yaml) (pem : Bytes → Option PemBlock) (k0 : PrivateKey) (ops : List PrivOp) (x : PrivateKey)
    (hh : HoldsPriv P Y pem k0 ops x) : CarefulPriv P Y pem ops →
    (PrivObj.run P Y pem { key := k0 } ops).key = x ∧ (PrivObj.run P Y pem { key := k0 } ops).InSync P := by
  induction hh with
  | start => intro _; exact ⟨rfl, .inl rfl⟩
  | loaded ops b pw k hk =>
    intro hc
    obtain ⟨_, s2, _, s4, s5⟩ := PrivObj.unmarshal_spec P Y pem (PrivObj.run P Y pem { key := k0 } ops) b pw
    rw [PrivObj.run_snoc, PrivObj.step_load]
    refine ⟨s2 k hk, .inl ?_⟩
    dsimp only
    rcases hc ops b pw [] rfl with h | h | h
    · by_cases hs : looksOpenSSH b = true
      · exact s4 ⟨hs, k, hk⟩
      · rw [s5 (.inl (by simpa using hs))]
        exact loads_only_priv P Y pem ops _ rfl h
    · exact s4 ⟨h, k, hk⟩
    · exact absurd hk (h k)
  | refused ops b pw x _ hn ih =>
    intro hc
    obtain ⟨i1, i2⟩ := ih (carefulPriv_init hc)
    obtain ⟨_, _, s3, _, _⟩ := PrivObj.unmarshal_spec P Y pem (PrivObj.run P Y pem { key := k0 } ops) b pw
    rw [PrivObj.run_snoc, PrivObj.step_load]
    dsimp only
    rw [s3 hn]
    exact ⟨i1, i2⟩
  | convert ops x _ ih =>
    intro hc
    obtain ⟨i1, i2⟩ := ih (carefulPriv_init hc)
    obtain ⟨_, c2, c3⟩ := PrivObj.convert_inSync i2
    rw [PrivObj.run_snoc, PrivObj.step_convert]
    exact ⟨by rw [c3, i1], c2⟩
  | setIn ops d spk x _ ih =>
    intro hc
    obtain ⟨i1, i2⟩ := ih (carefulPriv_init hc)
    obtain ⟨_, c2, c3⟩ := setPrivateKeyObj_inSync P d spk i2
    rw [PrivObj.run_snoc, PrivObj.step_setIn]
    exact ⟨by rw [c3, i1], c2⟩

/-- **C81** (private keys, partial).  The same for private key objects: `SetPrivateKey` acts as with the key loaded last, if no YAML key
is loaded into an object that was used before. -/
theorem C81_reload_private_partial (P : Prims) (Y : Yaml) (pem : Bytes → Option PemBlock) (k0 : PrivateKey) (ops : List PrivOp)
    (x : PrivateKey) (hh : HoldsPriv P Y pem k0 ops x) (hc : CarefulPriv P Y pem ops) :
    let o := PrivObj.run P Y pem { key := k0 } ops
    o.key = x ∧
    (32 ≤ x.sk.length → (o.step P Y pem .convert).1 = .convert (.ok (clamp ((P.sha512 (x.sk.take 32)).take 32)))) ∧
    (∀ (d : Decryptor) (spk : Option PublicKey),
      (o.step P Y pem (.setIn d spk)).1 = .setIn (d.setPrivateKey P x spk).1 (d.setPrivateKey P x spk).2) ∧
    ∀ b pw, (o.step P Y pem (.load b pw)).1 = .load ((makePrivateKey P Y pem b pw).bind fun _ => .ok ()) := by
  obtain ⟨i1, i2⟩ := priv_inv P Y pem k0 ops x hh hc
  refine ⟨i1, fun hl => ?_, fun d spk => ?_, fun b pw => ?_⟩
  · rw [PrivObj.step_convert, (PrivObj.convert_inSync i2).1, i1]
    unfold toCurve25519SK
    rw [if_neg (by omega)]
  · rw [PrivObj.step_setIn, (setPrivateKeyObj_inSync P d spk i2).1, i1]
  · rw [PrivObj.step_load, (PrivObj.unmarshal_spec P Y pem _ b pw).1]

/-- **C81** (private keys, refuted).  An object that held key A, was used once, and into which a sigtool (YAML) key B is loaded holds B but
still converts to A's secret. -/
theorem C81_reload_private_refuted (P : Prims) (Y : Yaml) (pem : Bytes → Option PemBlock) (A B : PrivateKey) (ta tb : Bytes) (pwa pwb : GetPw)
    (hta : makePrivateKey P Y pem ta pwa = .ok A) (htb : makePrivateKey P Y pem tb pwb = .ok B) (hyaml : looksOpenSSH tb = false) :
    let o := PrivObj.run P Y pem { key := { sk := [], pub := { pk := [] } } } [.load ta pwa, .convert, .load tb pwb]
    o.key = B ∧ (o.step P Y pem .convert).1 = .convert (.ok (clamp ((P.sha512 (A.sk.take 32)).take 32))) := by
  intro o
  have hla := (C37_private P Y pem ta pwa A hta).1
  obtain ⟨i1, i2⟩ := priv_inv P Y pem { sk := [], pub := { pk := [] } } [.load ta pwa] A (.loaded [] ta pwa A hta) (by
    intro pre b pw post h
    cases pre with
    | nil => exact .inl (by simp)
    | cons u us => cases us <;> cases h)
  generalize ho1 : PrivObj.run P Y pem { key := { sk := [], pub := { pk := [] } } } [.load ta pwa] = o1 at *
  have hconv : toCurve25519SK P A = .ok (clamp ((P.sha512 (A.sk.take 32)).take 32)) := by
    unfold toCurve25519SK
    rw [if_neg (by omega)]
  have h2 : (o1.convert P).2.ck = some (clamp ((P.sha512 (A.sk.take 32)).take 32)) := by
    unfold PrivObj.convert
    rcases i2 with h | ⟨c, h, hc⟩
    · rw [h]; dsimp only; rw [i1, hconv]
    · rw [h]; dsimp only; rw [h]; rw [i1, hconv] at hc; cases hc; rfl
  have hoe : o = ((o1.convert P).2.unmarshal P Y pem tb pwb).2 := by
    rw [← ho1]; rfl
  obtain ⟨_, s2, _, _, s5⟩ := PrivObj.unmarshal_spec P Y pem (o1.convert P).2 tb pwb
  rw [← hoe] at s2 s5
  refine ⟨s2 B htb, ?_⟩
  rw [PrivObj.step_convert]
  unfold PrivObj.convert
  rw [s5 (.inl hyaml), h2]

/-! ### Examples -/

namespace KeyObjDemo

def textA : Bytes := (newPrivateKey toyPrims (List.replicate 32 1)).pub.marshal toyYaml []
def textB : Bytes := (newPrivateKey toyPrims (List.replicate 32 2)).pub.marshal toyYaml []
def e0 : Res Encryptor := newEncryptor toyPrims none 4 ⟨List.replicate 32 7, List.replicate 32 8, List.replicate 32 9⟩

/-- A careful history: two loads, then use. The object acts as B. -/
example : CarefulPub toyPrims toyYaml [.load textA, .load textB, .convert] ∧
    ∃ k, makePublicKey toyPrims toyYaml textB = .ok k ∧ HoldsPub toyPrims toyYaml [] [.load textA, .load textB, .convert] k.pk := by
  constructor
  · intro pre b post h
    left
    intro u hu
    match pre, h with
    | [], _ => cases hu
    | [_], h => cases h; simp only [List.mem_singleton] at hu; exact ⟨_, hu⟩
    | [_, _], h => cases h
    | _ :: _ :: _ :: us, h => cases us <;> cases h
  · obtain ⟨k, h1, _⟩ := C38_roundtrip toyPrims toyLaws toyYaml toyYaml_laws [] [] (toyYaml_reads _) (toyPrims.edPub (List.replicate 32 2))
      (newPrivateKey toyPrims (List.replicate 32 2)).pub (by decide +kernel)
    exact ⟨k, h1, .convert _ _ (.loaded [.load textA] _ _ h1)⟩

/-- The careless history, evaluated: the reloaded object and a fresh object hold the same key and convert to different points. -/
example :
    let o := PubObj.run toyPrims toyYaml { key := { pk := [] } } [.load textA, .convert, .load textB]
    let o' := PubObj.run toyPrims toyYaml { key := { pk := [] } } [.load textB]
    o.key.pk = o'.key.pk ∧ o.convert.1 ≠ o'.convert.1 := by
  decide +kernel

/-- The hypotheses of the refuted private form are met: two keys serialised and loaded one after the other. -/
example : ∃ ta tb A B, makePrivateKey toyPrims toyYaml (fun _ => none) ta none = .ok A ∧ makePrivateKey toyPrims toyYaml (fun _ => none) tb none = .ok B ∧
    looksOpenSSH tb = false ∧ A.sk ≠ B.sk := by
  obtain ⟨ta, A, a1, a2, a3, _⟩ := C35_roundtrip_partial toyPrims toyLaws toyYaml toyYaml_laws (fun _ => none) [] (toyYaml_reads _) (.inl rfl)
    _ (newPrivateKey_genuine _ (List.replicate 32 1) (by simp)) [] (List.replicate 32 3) rfl none (.inr ⟨rfl, rfl⟩)
  obtain ⟨tb, B, b1, b2, b3, _⟩ := C35_roundtrip_partial toyPrims toyLaws toyYaml toyYaml_laws (fun _ => none) [] (toyYaml_reads _) (.inl rfl)
    _ (newPrivateKey_genuine _ (List.replicate 32 2) (by simp)) [] (List.replicate 32 3) rfl none (.inr ⟨rfl, rfl⟩)
  refine ⟨ta, tb, A, B, a2, b2, ?_, by rw [a3, b3]; decide +kernel⟩
  have : Res.ok (looksOpenSSH tb) = .ok false := by
    rw [show Res.ok (looksOpenSSH tb) = (Res.ok tb).bind (fun t => .ok (looksOpenSSH t)) from rfl, ← b1]
    decide +kernel
  exact Res.ok.inj this

end KeyObjDemo

end Sigtool
