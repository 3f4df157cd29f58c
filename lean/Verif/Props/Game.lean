import Verif.Spec.Game
import Verif.Props.Size
import Verif.Props.NonceExact
import Verif.Demo
/-!
# C126: encryption hides the contents of a file

The chosen-plaintext game of `Spec/Game.lean`, played with the files that `NewEncryptor`, `AddRecipient` and `Encrypt` (or the
stream writer) write: no spy tells two plaintexts of equal length apart better than the explicit players made from him tell
the key agreement, AES-GCM, HKDF with SHA-256, and HMAC from chance.
-/

namespace Sigtool
open Spec (Coins mean yes Spy Job KdfSpy AeadSpy RootSpy MacSpy Query Setting encryptChunks streamChunks sealedBody
  sealedChunk lengthWord macInput headerPart sessionKeys senderSeal senderStatement wrapFor wrappingKey)

/-! ### Means -/

theorem mean_congr {α : Type} [Fintype α] {f g : α → ℚ} (h : ∀ a, f a = g a) : mean f = mean g := by
  rw [show f = g from funext h]

theorem mean_prod {α β : Type} [Fintype α] [Fintype β] (f : α × β → ℚ) :
    mean f = mean fun a => mean fun b => f (a, b) := by
  unfold Spec.mean
  rw [Fintype.sum_prod_type, Fintype.card_prod, ← Finset.sum_div, div_div, Nat.cast_mul, mul_comm]

theorem mean_comm {α β : Type} [Fintype α] [Fintype β] (f : α → β → ℚ) :
    (mean fun a => mean fun b => f a b) = mean fun b => mean fun a => f a b := by
  unfold Spec.mean
  rw [← Finset.sum_div, ← Finset.sum_div, div_div, div_div, Finset.sum_comm, mul_comm]

theorem mean_one {α : Type} [Fintype α] (f : (Fin 1 → α) → ℚ) : mean f = mean fun a => f fun _ => a := by
  unfold Spec.mean
  rw [Fintype.card_congr (Equiv.funUnique (Fin 1) α), ← (Equiv.funUnique (Fin 1) α).symm.sum_comp]
  rfl

theorem Spec.Coins.length {n : Nat} (v : Coins n) : v.bytes.length = n := by simp [Spec.Coins.bytes]

/-! ### The data of a file as questions -/

theorem body_answers (P : Prims) (dk nonce : Bytes) (side : Bool) : ∀ (cs ds : List Bytes) (i : Nat),
    List.Forall₂ (fun c d : Bytes => c.length = d.length) cs ds →
    (List.zipWith (fun (q : Query) ct => q.ad ++ ct) (Spec.bodyQueries nonce i cs ds)
      ((Spec.bodyQueries nonce i cs ds).map fun q => P.aeadSeal dk q.nonce (q.msg side) q.ad)).flatten =
    sealedBody P dk nonce i (if side then ds else cs) := by
  intro cs ds i h
  induction h generalizing i with
  | nil => cases side <;> simp [Spec.bodyQueries, sealedBody]
  | @cons c d cs ds hcd h ih =>
    have ih := ih (i + 1)
    cases h with
    | nil => cases side <;> simp [Spec.bodyQueries, sealedBody, sealedChunk, hcd]
    | @cons c' d' cs' ds' h1 h2 =>
      cases side
      · simp only [Bool.false_eq_true, if_false] at ih ⊢
        rw [Spec.bodyQueries, List.map_cons, List.zipWith_cons_cons, List.flatten_cons, ih]
        simp [sealedBody, sealedChunk]
      · simp only [if_true] at ih ⊢
        rw [Spec.bodyQueries, List.map_cons, List.zipWith_cons_cons, List.flatten_cons, ih]
        simp [sealedBody, sealedChunk, hcd]

theorem bodyQueries_mem (nonce : Bytes) (bs : Nat) : ∀ (cs ds : List Bytes) (i : Nat),
    List.Forall₂ (fun c d : Bytes => c.length = d.length) cs ds → (∀ d ∈ ds, d.length ≤ bs) →
    ∀ q ∈ Spec.bodyQueries nonce i cs ds, (∃ j, i ≤ j ∧ j < i + cs.length ∧ q.nonce = be32 j ++ nonce.drop 4) ∧
      (q.msg false).length = (q.msg true).length ∧ (q.msg true).length ≤ bs := by
  intro cs ds i h hb
  induction h generalizing i with
  | nil => simp [Spec.bodyQueries]
  | @cons c d cs ds hcd h ih =>
    intro q hq
    rw [Spec.bodyQueries] at hq
    rcases List.mem_cons.mp hq with rfl | hq
    · exact ⟨⟨i, le_refl _, by simp, rfl⟩, by simpa using hcd, by simpa using hb d (by simp)⟩
    · obtain ⟨⟨j, h1, h2, h3⟩, h4⟩ := ih (i + 1) (fun d hd => hb d (by simp [hd])) q hq
      exact ⟨⟨j, by omega, by simp; omega, h3⟩, h4⟩

theorem bodyQueries_nodup (nonce : Bytes) : ∀ (cs ds : List Bytes) (i : Nat),
    List.Forall₂ (fun c d : Bytes => c.length = d.length) cs ds → i + cs.length ≤ 2^32 →
    ((Spec.bodyQueries nonce i cs ds).map (·.nonce)).Nodup := by
  intro cs ds i h hn
  induction h generalizing i with
  | nil => simp [Spec.bodyQueries]
  | @cons c d cs ds hcd h ih =>
    simp only [List.length_cons] at hn
    rw [Spec.bodyQueries, List.map_cons, List.nodup_cons]
    refine ⟨?_, ih (i + 1) (by omega)⟩
    intro hm
    obtain ⟨q, hq, he⟩ := List.mem_map.mp hm
    obtain ⟨⟨j, h1, h2, h3⟩, _⟩ := bodyQueries_mem nonce (ds.flatten.length) cs ds (i + 1) h
      (fun d hd => by
        obtain ⟨a, b, rfl⟩ := List.append_of_mem hd
        simp; omega) q hq
    rw [h3] at he
    have := be32_inj_mod (List.append_inj_left he (by simp))
    omega

/-! ### The five steps -/

section
variable {n : Nat} (P : Prims) (S : Setting) (A : Spy n)

/-- `enc` writes files of the documented form. -/
def Documented (enc : Job n → Bytes) : Prop :=
  ∀ (J : Job n) (seeds : Fin n → Bytes), J.csk.length = 32 → J.key.length = 32 → J.salt.length = 32 →
    (∀ i, (J.nonces i).length = 12) → (∀ i, (seeds i).length = 32 ∧ J.pks i = P.edPub (seeds i)) →
    let epk := (P.x25519 (clamp J.csk) basepoint).getD []
    let h := Spec.head P S.sender S.block epk J.salt (senderSeal P J.key J.salt) (senderStatement P epk J.salt J.key) J.nonces
      fun i =>
        let k := wrappingKey P ((P.x25519 (clamp J.csk) (Spec.toMontgomery (J.pks i))).getD []) J.salt (J.nonces i)
        P.aeadSeal k.1 k.2 J.key (J.pks i)
    let k := sessionKeys P J.key (P.sha256 h)
    enc J = Spec.file P S.sender J.coin h (sealedBody P k.2.1 k.1 0 (S.cut J.plain))
      (P.hmac256 k.2.2 (macInput (S.cut J.plain)))

theorem game_is_kdf (enc : Job n → Bytes) (henc : Documented P S enc) (b : Bool) :
    A.odds P enc b = (A.kdf P S b).real P := by
  unfold Spy.odds KdfSpy.real
  refine Eq.trans ?_ (mean_prod _).symm
  refine mean_congr fun t => ?_
  refine Eq.trans ?_ (mean_prod _).symm
  refine mean_congr fun coin => mean_congr fun key => mean_congr fun seeds => mean_congr fun csk =>
    mean_congr fun salt => mean_congr fun nonces => ?_
  dsimp only
  rw [henc _ (fun i => (seeds i).bytes) csk.length key.length salt.length (fun i => (nonces i).length)
    (fun i => ⟨(seeds i).length, rfl⟩)]
  rfl

theorem kdf_is_wrap (b : Bool) : (A.kdf P S b).ideal P = (A.wrap P S b).odds P false := by
  unfold KdfSpy.ideal AeadSpy.odds
  refine (mean_prod _).trans (Eq.trans ?_ (mean_prod _).symm)
  refine mean_congr fun t => ?_
  refine (mean_prod _).trans (Eq.trans ?_ (mean_prod _).symm)
  refine mean_congr fun coin => ?_
  refine Eq.trans ?_ (mean_prod _).symm
  refine mean_congr fun key => ?_
  refine Eq.trans ?_ (mean_prod _).symm
  refine mean_congr fun seeds => ?_
  refine Eq.trans ?_ (mean_prod _).symm
  refine mean_congr fun csk => ?_
  refine Eq.trans ?_ (mean_prod _).symm
  refine mean_congr fun salt => ?_
  refine Eq.trans ?_ (mean_prod _).symm
  refine mean_congr fun nonces => mean_congr fun ns => mean_congr fun ks => rfl

theorem wrap_is_root (b : Bool) : (A.wrap P S b).odds P true = (A.root P S b).real P := by
  unfold RootSpy.real AeadSpy.odds
  refine (mean_prod _).trans (Eq.trans ?_ (mean_prod _).symm)
  refine mean_congr fun t => ?_
  refine (mean_prod _).trans (Eq.trans ?_ (mean_prod _).symm)
  refine mean_congr fun coin => ?_
  refine (mean_prod _).trans ?_
  refine Eq.trans (mean_congr fun key => mean_prod _) ?_
  refine (mean_comm _).trans (Eq.trans ?_ (mean_prod _).symm)
  refine mean_congr fun seeds => ?_
  refine Eq.trans (mean_congr fun key => mean_prod _) ?_
  refine (mean_comm _).trans (Eq.trans ?_ (mean_prod _).symm)
  refine mean_congr fun csk => ?_
  refine Eq.trans (mean_congr fun key => mean_prod _) ?_
  refine (mean_comm _).trans (Eq.trans ?_ (mean_prod _).symm)
  refine mean_congr fun salt => ?_
  refine Eq.trans (mean_congr fun key => mean_prod _) ?_
  refine (mean_comm _).trans (Eq.trans ?_ (mean_prod _).symm)
  refine mean_congr fun nonces => ?_
  refine (mean_comm _).trans (Eq.trans ?_ (mean_prod _).symm)
  refine mean_congr fun ns => ?_
  refine (mean_comm _).trans ?_
  exact mean_congr fun ks => mean_congr fun key => rfl

theorem root_is_mac (b : Bool) : (A.root P S b).ideal = (A.mac P S b).real P := by
  unfold RootSpy.ideal MacSpy.real
  refine Eq.trans ?_ (mean_prod _).symm
  refine mean_congr fun t => ?_
  refine Eq.trans ?_ (mean_prod _).symm
  refine mean_congr fun sk => ?_
  refine Eq.trans ?_ (mean_prod _).symm
  refine mean_congr fun sn => ?_
  refine Eq.trans ?_ (mean_prod _).symm
  refine mean_congr fun d => ?_
  refine Eq.trans ?_ (mean_prod _).symm
  refine mean_congr fun nonce => mean_congr fun dkey => mean_congr fun hkey => rfl

/-- Plaintexts of equal length are cut alike. -/
def CutAlike (cut : Bytes → List Bytes) : Prop :=
  ∀ p q : Bytes, p.length = q.length → List.Forall₂ (fun c d : Bytes => c.length = d.length) (cut p) (cut q)

theorem mac_is_body (hcut : CutAlike S.cut) (limit : Nat) (hA : A.Fair limit) (b : Bool) :
    (A.mac P S b).ideal = (A.body P S).odds P b := by
  unfold MacSpy.ideal AeadSpy.odds
  refine (mean_prod _).trans (Eq.trans ?_ (mean_prod _).symm)
  refine mean_congr fun t => ?_
  refine (mean_prod _).trans (Eq.trans ?_ (mean_prod _).symm)
  refine mean_congr fun sk => ?_
  refine (mean_prod _).trans (Eq.trans ?_ (mean_prod _).symm)
  refine mean_congr fun sn => ?_
  refine (mean_prod _).trans (Eq.trans ?_ (mean_prod _).symm)
  refine mean_congr fun d => ?_
  refine (mean_prod _).trans (Eq.trans ?_ (mean_prod _).symm)
  refine mean_congr fun nonce => ?_
  refine (mean_comm _).trans ?_
  refine mean_congr fun tag => ?_
  refine Eq.trans ?_ (mean_one _).symm
  refine mean_congr fun dkey => ?_
  obtain ⟨t, coin, seeds, csk, salt, nonces, ns, ks⟩ := t
  simp only [Spy.mac, Spy.body]
  rw [body_answers P dkey.bytes nonce.bytes b _ _ 0 (hcut _ _ (hA t _).1)]
  cases b <;> rfl

theorem mac_silent (b : Bool) (hs : S.sender = none) : (A.mac P S b).real P = (A.mac P S b).ideal := by
  unfold MacSpy.real MacSpy.ideal
  refine mean_congr fun t => mean_congr fun x => ?_
  simp only [Spy.mac, Spec.file, Spec.trailer, hs]

theorem wrap_valid (b : Bool) : (A.wrap P S b).Valid := by
  intro t i
  obtain ⟨t, coin, key, seeds, csk, salt, nonces, ns⟩ := t
  simp [Spy.wrap, Spec.Coins.length, Spec.blank]

theorem body_valid (hcut : CutAlike S.cut) (limit : Nat) (hA : A.Fair limit)
    (hn : ∀ p : Bytes, p.length < limit → (S.cut p).length ≤ 2^32 ∧ ∀ c ∈ S.cut p, c.length ≤ 2^30) :
    (A.body P S).Valid := by
  intro t i
  obtain ⟨⟨t, coin, seeds, csk, salt, nonces, ns, ks⟩, sk, sn, d, nonce, tag⟩ := t
  simp only [Spy.body]
  have h := hA t (fun i => P.edPub (seeds i).bytes)
  have hc := hcut _ _ h.1
  have h1 := hn _ h.2
  refine ⟨bodyQueries_nodup _ _ _ 0 hc (by rw [hc.length_eq]; omega), fun q hq => ?_⟩
  obtain ⟨⟨j, _, _, h3⟩, h4⟩ := bodyQueries_mem nonce.bytes (2^30) _ _ 0 hc h1.2 q hq
  exact ⟨by rw [h3]; simp [Spec.Coins.length], h4⟩

/-- Secrecy for any program that writes the documented files. -/
theorem secrecy (enc : Job n → Bytes) (henc : Documented P S enc) (hcut : CutAlike S.cut) (limit : Nat) (hA : A.Fair limit) :
    A.advantage P enc ≤ A.bound P S := by
  have step : ∀ b, |A.odds P enc b - (A.body P S).odds P b| ≤
      (A.kdf P S b).advantage P + (A.wrap P S b).advantage P + (A.root P S b).advantage P +
        (if S.sender.isSome then (A.mac P S b).advantage P else 0) := by
    intro b
    have hm : |(A.mac P S b).real P - (A.mac P S b).ideal| ≤ if S.sender.isSome then (A.mac P S b).advantage P else 0 := by
      cases hs : S.sender with
      | none => rw [mac_silent P S A b hs]; simp
      | some sk => exact le_of_eq rfl
    rw [game_is_kdf P S A enc henc b, ← mac_is_body P S A hcut limit hA b]
    unfold KdfSpy.advantage AeadSpy.advantage RootSpy.advantage
    rw [← kdf_is_wrap P S A b, wrap_is_root P S A b, ← root_is_mac P S A b] at *
    have e : (A.kdf P S b).real P - (A.mac P S b).ideal =
        ((A.kdf P S b).real P - (A.kdf P S b).ideal P) + ((A.kdf P S b).ideal P - (A.root P S b).real P) +
        ((A.root P S b).real P - (A.root P S b).ideal) + ((A.root P S b).ideal - (A.mac P S b).ideal) := by ring
    rw [e]
    refine (abs_add_le _ _).trans (add_le_add ?_ (by rw [root_is_mac P S A b] at *; exact hm))
    refine (abs_add_le _ _).trans (add_le_add ?_ le_rfl)
    exact abs_add_le _ _
  have h0 := step false
  have h1 := step true
  unfold Spy.advantage Spy.bound
  have e : A.odds P enc false - A.odds P enc true =
      (A.odds P enc false - (A.body P S).odds P false) + ((A.body P S).odds P true - A.odds P enc true) +
      ((A.body P S).odds P false - (A.body P S).odds P true) := by ring
  rw [e]
  refine (abs_add_le _ _).trans (add_le_add ?_ le_rfl)
  refine (abs_add_le _ _).trans (add_le_add h0 ?_)
  rw [abs_sub_comm]; exact h1

end

/-! ### sigtool's files -/

/-- The file that `NewEncryptor`, `AddRecipient` for each recipient and `Encrypt` write (`sign/encrypt.go:129-222`); `reader`
says in what pieces the input arrives. -/
def encrypted {n : Nat} (P : Prims) (sender : Option PrivateKey) (blk : Nat) (reader : Bytes → Reader) (J : Job n) : Bytes :=
  match setupEncryptor P sender blk { csk := J.csk, key := J.key, salt := J.salt }
      (List.ofFn fun i => ({ pk := J.pks i }, J.nonces i)) with
  | .ok e => (e.encrypt P (reader J.plain) {} J.coin).2.2.2.out
  | _ => []

/-- The file that `NewEncryptor`, `AddRecipient`, `NewStreamWriter`, `Write` for each buffer and `Close` write
(`sign/encrypt.go:129-181`, `sign/stream.go`). -/
def streamed {n : Nat} (P : Prims) (sender : Option PrivateKey) (blk : Nat) (buffers : Bytes → List Bytes) (J : Job n) :
    Bytes :=
  match setupEncryptor P sender blk { csk := J.csk, key := J.key, salt := J.salt }
      (List.ofFn fun i => ({ pk := J.pks i }, J.nonces i)) with
  | .ok e => (streamEncrypt P e {} J.coin (buffers J.plain)).2.out
  | _ => []

theorem forall₂_map {α β : Type} {g : α → Option β} {f : α → β} {l : List α} {m : List β}
    (h : List.Forall₂ (fun a b => g a = some b) l m) (hg : ∀ a ∈ l, g a = some (f a)) : m = l.map f := by
  induction h with
  | nil => rfl
  | cons hab _ ih =>
    rw [List.map_cons, ← ih fun a ha => hg a (by simp [ha])]
    have := hg _ (List.mem_cons_self ..)
    rw [hab] at this
    cases this; rfl

theorem Encryptor.trailerOf_spec (P : Prims) (e : Encryptor) (sender : Option PrivateKey) (h1 : e.sender = sender)
    (h2 : e.auth = sender.isSome) (hk hd coin : Bytes) :
    e.trailerOf P hk hd coin = Spec.trailer P (sender.map (·.sk)) coin (P.hmac256 hk hd) := by
  subst h1
  unfold Encryptor.trailerOf
  rw [h2]
  cases e.sender <;> rfl

/-- The header that the set-up leads to. -/
theorem setup_head {n : Nat} (P : Prims) (L : Laws P) (sender : Option PrivateKey) (blk : Nat) (J : Job n)
    (seeds : Fin n → Bytes) (hcsk : J.csk.length = 32) (hkey : J.key.length = 32) (hsalt : J.salt.length = 32)
    (hpks : ∀ i, (seeds i).length = 32 ∧ J.pks i = P.edPub (seeds i)) (e : Encryptor)
    (he : setupEncryptor P sender blk { csk := J.csk, key := J.key, salt := J.salt }
      (List.ofFn fun i => ({ pk := J.pks i }, J.nonces i)) = .ok e) :
    let epk := (P.x25519 (clamp J.csk) basepoint).getD []
    headerPart e.hdr = Spec.head P (sender.map (·.sk)) (effectiveBlock blk) epk J.salt (senderSeal P J.key J.salt)
      (senderStatement P epk J.salt J.key) J.nonces fun i => P.aeadSeal
          (wrappingKey P ((P.x25519 (clamp J.csk) (Spec.toMontgomery (J.pks i))).getD []) J.salt (J.nonces i)).1
          (wrappingKey P ((P.x25519 (clamp J.csk) (Spec.toMontgomery (J.pks i))).getD []) J.salt (J.nonces i)).2 J.key (J.pks i) := by
  have hc : EncCoins.WF { csk := J.csk, key := J.key, salt := J.salt } := ⟨hcsk, hkey, hsalt⟩
  obtain ⟨epk, ws, hok⟩ := setupEncryptor_ok P L sender blk _ _ e hc he
  have hepk : (P.x25519 (clamp J.csk) basepoint).getD [] = epk := by
    have := hok.hepk
    rw [this]; rfl
  have hws : ws = List.ofFn fun i : Fin n =>
      ({ dkey := P.aeadSeal
          (wrappingKey P ((P.x25519 (clamp J.csk) (Spec.toMontgomery (J.pks i))).getD []) J.salt (J.nonces i)).1
          (wrappingKey P ((P.x25519 (clamp J.csk) (Spec.toMontgomery (J.pks i))).getD []) J.salt (J.nonces i)).2 J.key (J.pks i)
         nonce := J.nonces i } : WrappedKey) := by
    rw [forall₂_map hok.wrapped (f := fun r : PublicKey × Bytes =>
      ({ dkey := P.aeadSeal
          (wrappingKey P ((P.x25519 (clamp J.csk) (Spec.toMontgomery r.1.pk)).getD []) J.salt r.2).1
          (wrappingKey P ((P.x25519 (clamp J.csk) (Spec.toMontgomery r.1.pk)).getD []) J.salt r.2).2 J.key r.1.pk
         nonce := r.2 } : WrappedKey))]
    · rw [List.map_ofFn]; rfl
    · intro r hr
      obtain ⟨i, rfl⟩ := (List.mem_ofFn' _ _).mp hr
      obtain ⟨_, k, _, _, _, h4, _⟩ := L.dh J.csk (seeds i) hcsk (hpks i).1
      rw [← (hpks i).2] at h4
      unfold wrapFor
      dsimp only
      rw [h4]; rfl
  have hsig : senderSig P sender epk { csk := J.csk, key := J.key, salt := J.salt } =
      Spec.signed P (sender.map (·.sk)) (senderStatement P epk J.salt J.key) := by
    cases sender <;> rfl
  dsimp only
  unfold Spec.head
  rw [hepk, hok.enc, hws, ← hsig, ← chooseBlock_eq]
  rfl

/-- What the set-up leads to, whatever is written then. -/
theorem setup_documented {n : Nat} (P : Prims) (L : Laws P) (sender : Option PrivateKey) (hs : SenderSized sender) (blk : Nat)
    (cut : Bytes → List Bytes) (enc : Job n → Bytes)
    (henc : ∀ (J : Job n) (e : Encryptor), setupEncryptor P sender blk { csk := J.csk, key := J.key, salt := J.salt }
      (List.ofFn fun i => ({ pk := J.pks i }, J.nonces i)) = .ok e → e.Fresh P → e.hdr.chunkSize = effectiveBlock blk →
      enc J = e.fullContainer P (cut J.plain) J.coin) :
    Documented P { sender := sender.map (·.sk), block := effectiveBlock blk, cut := cut } enc := by
  intro J seeds hcsk hkey hsalt hnonces hpks
  have hc : EncCoins.WF { csk := J.csk, key := J.key, salt := J.salt } := ⟨hcsk, hkey, hsalt⟩
  obtain ⟨e, he⟩ := setupEncryptor_progress P L sender blk _ (List.ofFn fun i => ({ pk := J.pks i }, J.nonces i)) hc hs
    (by
      intro r hr
      obtain ⟨i, rfl⟩ := (List.mem_ofFn' _ _).mp hr
      exact ⟨seeds i, (hpks i).1, (hpks i).2⟩)
  obtain ⟨epk, ws, hok⟩ := setupEncryptor_ok P L sender blk _ _ e hc he
  have hf := hok.fresh L
  rw [henc J e he hf (by rw [hok.enc, ← chooseBlock_eq])]
  have hhdr := setup_head P L sender blk J seeds hcsk hkey hsalt hpks e he
  have hk : e.key = J.key := by rw [hok.enc]
  dsimp only at hhdr ⊢
  rw [Encryptor.fullContainer, container_eq, ← hhdr,
    Encryptor.trailerOf_spec P e sender (by rw [hok.enc]) (by rw [hok.enc]), Encryptor.keys, hk]
  simp only [Spec.file, List.append_assoc]

theorem encrypted_documented {n : Nat} (P : Prims) (L : Laws P) (sender : Option PrivateKey) (hs : SenderSized sender)
    (blk : Nat) (reader : Bytes → Reader) (hr : ∀ p, (reader p).content = p ∧ isEndOfInput (reader p).last = true) :
    Documented P { sender := sender.map (·.sk), block := effectiveBlock blk, cut := encryptChunks (effectiveBlock blk) }
      (encrypted (n := n) P sender blk reader) := by
  refine setup_documented P L sender hs blk _ _ fun J e he hf hb => ?_
  obtain ⟨e', rd', wr', h1, _, _, h4⟩ := encrypt_fresh P L e (reader J.plain) {} J.coin hf (by simp [Writer.NoFail]) (hr _).2
  unfold encrypted
  rw [he]
  dsimp only
  rw [h1, h4, (hr _).1, hb]
  rfl

theorem streamed_documented {n : Nat} (P : Prims) (L : Laws P) (sender : Option PrivateKey) (hs : SenderSized sender)
    (blk : Nat) (buffers : Bytes → List Bytes) (hr : ∀ p, (buffers p).flatten = p) :
    Documented P { sender := sender.map (·.sk), block := effectiveBlock blk, cut := streamChunks (effectiveBlock blk) }
      (streamed (n := n) P sender blk buffers) := by
  refine setup_documented P L sender hs blk _ _ fun J e he hf hb => ?_
  unfold streamed
  rw [he]
  dsimp only
  rcases streamEncrypt_outcome P L e {} J.coin (buffers J.plain) hf with ⟨wr', h1, _, h3⟩ | ⟨x, wr', p, _, ⟨s, j, y, h, _⟩, _⟩
  · rw [h1, h3, hr, hb]; rfl
  · cases h

theorem encryptChunks_alike (bs : Nat) : CutAlike (encryptChunks bs) := by
  intro p
  induction hn : p.length using Nat.strongRecOn generalizing p with
  | _ n ih =>
    intro q hq
    rw [encryptChunks]
    conv => arg 3; rw [encryptChunks]
    by_cases h : bs = 0 ∨ p.length < bs
    · rw [dif_pos h, dif_pos (by omega)]
      exact .cons (by omega) .nil
    · rw [dif_neg h, dif_neg (by omega)]
      exact .cons (by simp; omega) (ih (p.drop bs).length (by simp; omega) _ rfl _ (by simp; omega))

theorem streamChunks_alike (bs : Nat) : CutAlike (streamChunks bs) := by
  intro p
  induction hn : p.length using Nat.strongRecOn generalizing p with
  | _ n ih =>
    intro q hq
    rw [streamChunks]
    conv => arg 3; rw [streamChunks]
    by_cases h : bs = 0 ∨ p.length ≤ bs
    · rw [dif_pos h, dif_pos (by omega)]
      exact .cons (by omega) .nil
    · rw [dif_neg h, dif_neg (by omega)]
      exact .cons (by simp; omega) (ih (p.drop bs).length (by simp; omega) _ rfl _ (by simp; omega))

theorem effectiveBlock_pos (blk : Nat) : 0 < effectiveBlock blk := by rw [← chooseBlock_eq]; exact chooseBlock_pos blk
theorem effectiveBlock_le (blk : Nat) : effectiveBlock blk ≤ 2^30 := by rw [← chooseBlock_eq]; exact chooseBlock_le blk

/-- **C126.** For every number of recipients, every sender (whose secret key the spy may know) or none, every block size,
every way the input arrives in pieces, and every spy who picks two plaintexts of equal length below 2^32 blocks: he tells
which of the two `Encrypt` put into a file for fresh key pairs no better than the four explicit players made from him tell
the primitives from chance; and the two of them who play against AES-GCM never repeat a nonce under a key. -/
theorem C126_encrypt {n : Nat} (P : Prims) (L : Laws P) (sender : Option PrivateKey) (hs : SenderSized sender) (blk : Nat)
    (reader : Bytes → Reader) (hr : ∀ p, (reader p).content = p ∧ isEndOfInput (reader p).last = true)
    (A : Spy n) (hA : A.Fair (effectiveBlock blk * 2^32)) :
    let S : Setting :=
      { sender := sender.map (·.sk), block := effectiveBlock blk, cut := encryptChunks (effectiveBlock blk) }
    A.advantage P (encrypted P sender blk reader) ≤ A.bound P S ∧
      (∀ b, (A.wrap P S b).Valid) ∧ (A.body P S).Valid := by
  refine ⟨secrecy P _ A _ (encrypted_documented P L sender hs blk reader hr) (encryptChunks_alike _) _ hA,
    wrap_valid P _ A, body_valid P _ A (encryptChunks_alike _) _ hA fun p hp => ⟨?_, fun c hc => ?_⟩⟩
  · dsimp only
    rw [encryptChunks_count _ (effectiveBlock_pos blk)]
    have := (Nat.div_lt_iff_lt_mul (effectiveBlock_pos blk)).mpr (by rw [Nat.mul_comm]; exact hp)
    omega
  · exact ((encryptChunks_ok _ (effectiveBlock_pos blk) p).1.le c hc).trans (effectiveBlock_le blk)

/-- **C126**, the stream writer: the same for files written with `NewStreamWriter`, `Write` in buffers of any sizes and
`Close`. -/
theorem C126_stream {n : Nat} (P : Prims) (L : Laws P) (sender : Option PrivateKey) (hs : SenderSized sender) (blk : Nat)
    (buffers : Bytes → List Bytes) (hr : ∀ p, (buffers p).flatten = p)
    (A : Spy n) (hA : A.Fair (effectiveBlock blk * 2^32)) :
    let S : Setting :=
      { sender := sender.map (·.sk), block := effectiveBlock blk, cut := streamChunks (effectiveBlock blk) }
    A.advantage P (streamed P sender blk buffers) ≤ A.bound P S ∧
      (∀ b, (A.wrap P S b).Valid) ∧ (A.body P S).Valid := by
  refine ⟨secrecy P _ A _ (streamed_documented P L sender hs blk buffers hr) (streamChunks_alike _) _ hA,
    wrap_valid P _ A, body_valid P _ A (streamChunks_alike _) _ hA fun p hp => ⟨?_, fun c hc => ?_⟩⟩
  · dsimp only
    rw [streamChunks_count _ (effectiveBlock_pos blk)]
    have h1 := effectiveBlock_pos blk
    generalize effectiveBlock blk = bs at *
    have : (p.length + bs - 1) / bs ≤ 2^32 := by
      rw [Nat.div_le_iff_le_mul_add_pred h1]
      omega
    omega
  · exact ((streamChunks_ok _ (effectiveBlock_pos blk) p).1.le c hc).trans (effectiveBlock_le blk)

/-! ### The bound is an obligation

The toy primitives seal a message by appending a checksum to it, so a spy reads the file: his advantage is 1, and so the
bound is at least 1.  (The hypotheses of `C126_encrypt` hold of him.) -/

theorem mean_const {α : Type} [Fintype α] [Nonempty α] (c : ℚ) : (mean fun _ : α => c) = c := by
  unfold Spec.mean
  rw [Finset.sum_const, Finset.card_univ, nsmul_eq_mul, mul_comm, mul_div_assoc, div_self, mul_one]
  exact_mod_cast Fintype.card_ne_zero

namespace GameDemo

/-- Chooses between a file with the byte 0 and one with the byte 1, and looks at the 81st byte from the end. -/
def reader : Spy 2 where
  Tape := Unit
  plain _ _ b := [if b then 1 else 0]
  guess _ _ file := file.reverse[80]? == some 1

def input (p : Bytes) : Reader := { chunks := [p], last := .eof, joint := false }

theorem fair : reader.Fair (effectiveBlock 0 * 2^32) := by
  intro t pks
  exact ⟨rfl, by simp only [reader, List.length_singleton]; decide⟩

theorem input_ok : ∀ p, (input p).content = p ∧ isEndOfInput (input p).last = true := fun p => by
  constructor
  · simp [input, Reader.content]
  · rfl

/-- He reads the byte, whatever was drawn. -/
theorem reads (x : UInt8) (coin : Coins 64) (key : Coins 32) (seeds : Fin 2 → Coins 32) (csk salt : Coins 32)
    (nonces : Fin 2 → Coins 12) :
    (encrypted toyPrims none 0 input
      { csk := csk.bytes, key := key.bytes, salt := salt.bytes, pks := fun i => toyPrims.edPub (seeds i).bytes
        nonces := fun i => (nonces i).bytes, coin := coin.bytes, plain := [x] }).reverse[80]? = some x := by
  rw [encrypted_documented toyPrims toyLaws none (by simp [SenderSized]) 0 input input_ok _ (fun i => (seeds i).bytes)
    csk.length key.length salt.length (fun i => (nonces i).length) (fun i => ⟨(seeds i).length, rfl⟩)]
  have hc : encryptChunks (effectiveBlock 0) [x] = [[x]] := by
    rw [encryptChunks, dif_pos (by right; rw [List.length_singleton]; decide)]
  simp only [hc]
  generalize Spec.head _ _ _ _ _ _ _ _ _ = h
  generalize sessionKeys _ _ _ = k
  simp only [Spec.file, Spec.trailer, Option.map_none, sealedBody, sealedChunk, List.reverse_append]
  rw [List.getElem?_append_right (by simp [Spec.Coins.length])]
  simp only [List.length_reverse, Spec.Coins.length, toyPrims, List.reverse_append, List.append_assoc]
  rw [List.getElem?_append_right (by simp [toyTag])]
  simp [toyTag]

theorem odds_eq (b : Bool) : reader.odds toyPrims (encrypted toyPrims none 0 input) b = yes b := by
  unfold Spy.odds
  have hne : Nonempty reader.Tape := inferInstanceAs (Nonempty Unit)
  refine Eq.trans (mean_congr fun t => mean_congr fun coin => mean_congr fun key => mean_congr fun seeds =>
    mean_congr fun csk => mean_congr fun salt => mean_congr fun nonces => ?_) (b := mean fun t => mean fun coin =>
      mean fun key => mean fun seeds => mean fun csk => mean fun salt => mean fun nonces => yes b) ?_
  · simp only [reader]
    rw [reads]
    cases b <;> rfl
  · simp only [mean_const]

end GameDemo

/-- The hypotheses of `C126_encrypt` are met, by a spy who always wins: so the toy primitives lose one of the games. -/
example : GameDemo.reader.advantage toyPrims (encrypted toyPrims none 0 GameDemo.input) = 1 ∧
    1 ≤ GameDemo.reader.bound toyPrims { sender := none, block := effectiveBlock 0, cut := encryptChunks (effectiveBlock 0) } := by
  have h : GameDemo.reader.advantage toyPrims (encrypted toyPrims none 0 GameDemo.input) = 1 := by
    unfold Spy.advantage
    rw [GameDemo.odds_eq, GameDemo.odds_eq]
    norm_num [yes]
  exact ⟨h, h ▸ (C126_encrypt toyPrims toyLaws none (by simp [SenderSized]) 0 GameDemo.input GameDemo.input_ok GameDemo.reader
    GameDemo.fair).1⟩

end Sigtool
