import Verif.EncGeneral
import Verif.DecLemmas
import Verif.Session
import Verif.Spec.Recipient
import Verif.CurveLemmas
import Mathlib.Data.List.Forall2
/-! # Key agreement and the whole path from `NewEncryptor` to `Decrypt` -/

namespace Sigtool
open Spec (encryptChunks streamChunks lengthWord sealedChunk sealedBody macInput headerPart sessionKeys container
  headerBytes wrappingKey wrapFor unwrapAs WrapForgery)

theorem kekOf_eq (P : Prims) (s salt r : Bytes) : kekOf P s salt r = wrappingKey P s salt r := rfl

theorem wrappingKey_len (P : Prims) (L : Laws P) (s salt r : Bytes) :
    (wrappingKey P s salt r).1.length = 32 ∧ (wrappingKey P s salt r).2.length = 12 := by
  have := L.hkdf_len s (P.sha256 (salt ++ r)) (ascii "Receiver Key") 44 (by decide)
  simp [wrappingKey, this]

theorem senderKey_len (P : Prims) (L : Laws P) (key salt : Bytes) :
    (senderKey P key salt).1.length = 32 ∧ (senderKey P key salt).2.length = 12 := by
  have := L.hkdf_len key salt (ascii "Sender Sig") 44 (by decide)
  simp [senderKey, expand, this]

/-- The random bytes `NewEncryptor` draws have the lengths it asks for. -/
structure EncCoins.WF (c : EncCoins) : Prop where
  csk : c.csk.length = 32
  key : c.key.length = 32
  salt : c.salt.length = 32

theorem wrapKey_ok (P : Prims) (e : Encryptor) (pk : PublicKey) (r : Bytes) (w : WrappedKey)
    (h : e.wrapKey P pk r = .ok w) :
    wrapFor P e.encSK e.hdr.salt e.key pk.pk r = some w := by
  unfold Encryptor.wrapKey at h
  split at h
  · cases h
  · rename_i hl
    rw [toCurve25519PK_eq _ (by omega)] at h
    unfold wrapFor
    cases hx : P.x25519 e.encSK (Spec.toMontgomery pk.pk) with
    | none => rw [hx] at h; cases h
    | some s =>
      rw [hx] at h
      simp only [kekOf_eq] at h
      cases h
      simp

/-- `AddRecipient` changes nothing but the list of wrapped keys. -/
theorem addRecipient_ok (P : Prims) (e e' : Encryptor) (pk : PublicKey) (r : Bytes)
    (h : e.addRecipient P pk r = (.ok (), e')) :
    e.started = false ∧ ∃ w, wrapFor P e.encSK e.hdr.salt e.key pk.pk r = some w ∧
      e' = { e with hdr := { e.hdr with keys := e.hdr.keys ++ [w] } } := by
  unfold Encryptor.addRecipient at h
  split at h
  · cases h
  · rename_i hs
    split at h
    · rename_i w hw
      refine ⟨by simpa using hs, w, wrapKey_ok P e pk r w hw, ?_⟩
      cases h; rfl
    · cases h
    · cases h

/-- `rs` and `ws` correspond: `ws` are the root keys wrapped for the recipients `rs`, in order. -/
abbrev WrappedFor (P : Prims) (esk salt rootKey : Bytes) (rs : List (PublicKey × Bytes)) (ws : List WrappedKey) : Prop :=
  List.Forall₂ (fun r w => wrapFor P esk salt rootKey r.1.pk r.2 = some w) rs ws

theorem addRecipients_ok (P : Prims) : ∀ (rs : List (PublicKey × Bytes)) (e e' : Encryptor),
    e.addRecipients P rs = (.ok (), e') →
    ∃ ws, WrappedFor P e.encSK e.hdr.salt e.key rs ws ∧
      e' = { e with hdr := { e.hdr with keys := e.hdr.keys ++ ws } } := by
  intro rs
  induction rs with
  | nil => intro e e' h; simp only [Encryptor.addRecipients] at h; cases h; exact ⟨[], .nil, by simp⟩
  | cons r rs ih =>
    intro e e' h
    obtain ⟨pk, rb⟩ := r
    simp only [Encryptor.addRecipients] at h
    split at h
    · rename_i e1 he
      obtain ⟨_, w, hw, rfl⟩ := addRecipient_ok P e _ pk rb he
      obtain ⟨ws, h1, rfl⟩ := ih _ _ h
      exact ⟨w :: ws, .cons hw h1, by simp⟩
    · cases h
    · cases h

/-- A sender key, if there is one, is a genuine key pair. -/
def SenderGenuine (P : Prims) (sender : Option PrivateKey) : Prop := ∀ s, sender = some s → s.Genuine P

/-- A sender key, if there is one, has 64 bytes. -/
def SenderSized (sender : Option PrivateKey) : Prop := ∀ s, sender = some s → s.sk.length = 64

theorem Genuine_sk_len (P : Prims) (L : Laws P) (sk : PrivateKey) (h : sk.Genuine P) : sk.sk.length = 64 := by
  obtain ⟨seed, h1, h2, _⟩ := h
  rw [h2]; simp [h1, L.ed_pub_len seed h1]

theorem SenderGenuine.sized {P : Prims} {sender : Option PrivateKey} (L : Laws P) (h : SenderGenuine P sender) :
    SenderSized sender := fun s hs => Genuine_sk_len P L s (h s hs)

/-- `NewEncryptor` succeeds only with a 64-byte sender key: `ed25519.Sign` panics on any other. -/
theorem newEncryptor_sized {P : Prims} {sender : Option PrivateKey} {blk : Nat} {c : EncCoins} {e : Encryptor}
    (h : newEncryptor P sender blk c = .ok e) : SenderSized sender := by
  intro s hs
  subst hs
  unfold newEncryptor at h
  dsimp only at h
  split at h
  · cases h
  · simp only [senderField, signMessage] at h
    by_cases hl : s.sk.length = 64
    · exact hl
    · simp [hl, Res.wrapErr, Res.bind] at h

theorem setupEncryptor_sized {P : Prims} {sender : Option PrivateKey} {blk : Nat} {c : EncCoins}
    {rcpts : List (PublicKey × Bytes)} {e : Encryptor} (h : setupEncryptor P sender blk c rcpts = .ok e) :
    SenderSized sender := by
  unfold setupEncryptor at h
  match hn : newEncryptor P sender blk c with
  | .ok e => exact newEncryptor_sized hn
  | .err x => rw [hn] at h; cases h
  | .panic x => rw [hn] at h; cases h

/-- The signature (or 64 zero bytes) that goes into the sender field. -/
def senderSig (P : Prims) (sender : Option PrivateKey) (epk : Bytes) (c : EncCoins) : Bytes :=
  match sender with
  | none => List.replicate 64 0
  | some s => P.edSign s.sk (signDigest P (senderDigest P epk c.salt c.key))

theorem senderSig_len (P : Prims) (L : Laws P) (sender : Option PrivateKey) (epk : Bytes) (c : EncCoins)
    (hs : SenderSized sender) : (senderSig P sender epk c).length = 64 := by
  cases sender with
  | none => simp [senderSig]
  | some s => exact L.ed_sign_len _ _ (hs s rfl)

/-- What `NewEncryptor` returns. -/
theorem newEncryptor_eq (P : Prims) (L : Laws P) (sender : Option PrivateKey) (blk : Nat) (c : EncCoins)
    (hc : c.WF) (hs : SenderSized sender) :
    ∃ epk, P.x25519 (clamp c.csk) basepoint = some epk ∧ epk.length = 32 ∧ newEncryptor P sender blk c = .ok
      { hdr := { chunkSize := chooseBlock blk, salt := c.salt, pk := epk
                 sender := P.aeadSeal (senderKey P c.key c.salt).1 (senderKey P c.key c.salt).2
                   (senderSig P sender epk c) [] }
        key := c.key, encSK := clamp c.csk, sender := sender, auth := sender.isSome } := by
  obtain ⟨epk, k, h1, h2, _⟩ := L.dh c.csk (List.replicate 32 0) hc.csk (by simp)
  refine ⟨epk, h1, h2, ?_⟩
  unfold newEncryptor
  dsimp only
  rw [h1]
  cases sender with
  | none => simp [senderField, Res.wrapErr, senderSig]
  | some s =>
    have := hs s rfl
    simp [senderField, Res.wrapErr, senderSig, signMessage, this]

theorem chooseBlock_pos (b : Nat) : 0 < chooseBlock b := by
  unfold chooseBlock; split
  · decide
  · split
    · decide
    · omega

theorem chooseBlock_le (b : Nat) : chooseBlock b ≤ 2^30 := by
  unfold chooseBlock; split
  · decide
  · split
    · rw [maxChunk_eq]
    · rename_i h; rw [maxChunk_eq] at h; omega

theorem wrapFor_unknown {P : Prims} {esk salt key pk r : Bytes} {w : WrappedKey}
    (h : wrapFor P esk salt key pk r = some w) : w.unknown = [] ∧ w.nonce = r := by
  unfold wrapFor at h
  cases hx : P.x25519 esk (Spec.toMontgomery pk) with
  | none => rw [hx] at h; cases h
  | some s => rw [hx] at h; simp only [Option.map_some, Option.some.injEq] at h; subst h; exact ⟨rfl, rfl⟩

theorem wrapFor_len {P : Prims} (L : Laws P) {esk salt key pk r : Bytes} {w : WrappedKey} (hk : key.length = 32)
    (h : wrapFor P esk salt key pk r = some w) : w.dkey.length = 48 := by
  unfold wrapFor at h
  cases hx : P.x25519 esk (Spec.toMontgomery pk) with
  | none => rw [hx] at h; cases h
  | some s =>
    rw [hx] at h; simp only [Option.map_some, Option.some.injEq] at h; subst h
    have := wrappingKey_len P L s salt r
    simp only
    rw [L.seal_len _ _ _ _ this.1 this.2 (by omega), hk]

/-- What `NewEncryptor` and the `AddRecipient` calls leave behind. -/
structure SetupOk (P : Prims) (sender : Option PrivateKey) (blk : Nat) (c : EncCoins)
    (rcpts : List (PublicKey × Bytes)) (e : Encryptor) (epk : Bytes) (ws : List WrappedKey) : Prop where
  sized : SenderSized sender
  hepk : P.x25519 (clamp c.csk) basepoint = some epk
  epkLen : epk.length = 32
  wrapped : WrappedFor P (clamp c.csk) c.salt c.key rcpts ws
  enc : e = { hdr := { chunkSize := chooseBlock blk, salt := c.salt, pk := epk
                       sender := P.aeadSeal (senderKey P c.key c.salt).1 (senderKey P c.key c.salt).2
                         (senderSig P sender epk c) []
                       keys := ws }
              key := c.key, encSK := clamp c.csk, sender := sender, auth := sender.isSome }

theorem setupEncryptor_ok (P : Prims) (L : Laws P) (sender : Option PrivateKey) (blk : Nat) (c : EncCoins)
    (rcpts : List (PublicKey × Bytes)) (e : Encryptor) (hc : c.WF)
    (h : setupEncryptor P sender blk c rcpts = .ok e) :
    ∃ epk ws, SetupOk P sender blk c rcpts e epk ws := by
  have hs := setupEncryptor_sized h
  obtain ⟨epk, h1, h2, h3⟩ := newEncryptor_eq P L sender blk c hc hs
  unfold setupEncryptor at h
  rw [h3] at h
  simp only [Res.bind_ok] at h
  split at h
  · rename_i e1 he
    obtain ⟨ws, k1, rfl⟩ := addRecipients_ok P _ _ _ he
    cases h
    exact ⟨epk, ws, hs, h1, h2, k1, by simp⟩
  · cases h
  · cases h

theorem forall₂_right {α β : Type} {R : α → β → Prop} {Q : β → Prop} {l : List α} {m : List β}
    (h : List.Forall₂ R l m) (hq : ∀ a b, a ∈ l → R a b → Q b) : ∀ b ∈ m, Q b := by
  induction h with
  | nil => simp
  | cons hab _ ih =>
    intro b hb
    rcases List.mem_cons.mp hb with rfl | hb
    · exact hq _ _ (by simp) hab
    · exact ih (fun a b ha => hq a b (List.mem_cons_of_mem _ ha)) b hb

theorem SetupOk.fresh {P : Prims} (L : Laws P) {sender : Option PrivateKey} {blk : Nat} {c : EncCoins}
    {rcpts : List (PublicKey × Bytes)} {e : Encryptor} {epk : Bytes} {ws : List WrappedKey}
    (h : SetupOk P sender blk c rcpts e epk ws) : e.Fresh P := by
  have he := h.enc
  subst he
  refine ⟨rfl, rfl, rfl, ⟨rfl, ?_⟩, chooseBlock_pos blk, chooseBlock_le blk, ?_⟩
  · exact forall₂_right h.wrapped (fun a b _ hab => (wrapFor_unknown hab).1)
  · intro ha
    cases sender with
    | none => cases ha
    | some s => exact ⟨s, rfl, h.sized s rfl⟩

/-! ### SetPrivateKey -/

theorem unwrapKey_eq (P : Prims) (d : Decryptor) (w : WrappedKey) (sk : PrivateKey) (seed epk s : Bytes)
    (hseed : seed.length = 32) (hsk : sk.sk = seed ++ P.edPub seed) (hpk : sk.pub.pk = P.edPub seed)
    (hd : d.hdr.pk = epk) (hx : P.x25519 (clamp ((P.sha512 seed).take 32)) epk = some s)
    (hw : w.dkey.length = 48) :
    d.unwrapKey P w sk = .ok (unwrapAs P seed (P.edPub seed) epk d.hdr.salt w) := by
  unfold Decryptor.unwrapKey toCurve25519SK
  have : ¬ sk.sk.length < 32 := by rw [hsk]; simp [hseed]
  have h2 : sk.sk.take 32 = seed := by rw [hsk, ← hseed, List.take_left]
  simp [this, h2, hd, hx, hw, unwrapAs, kekOf_eq, hpk]

/-- The recipient's own blob opens to the root key. -/
theorem unwrapAs_own (P : Prims) (L : Laws P) (csk salt key r seed epk : Bytes) (w : WrappedKey)
    (hc : csk.length = 32) (hseed : seed.length = 32) (hk : key.length = 32)
    (hepk : P.x25519 (clamp csk) basepoint = some epk)
    (hw : wrapFor P (clamp csk) salt key (P.edPub seed) r = some w) :
    unwrapAs P seed (P.edPub seed) epk salt w = some key := by
  obtain ⟨epk', s, h1, h2, h3, h4, h5⟩ := L.dh csk seed hc hseed
  rw [hepk] at h1; cases h1
  unfold wrapFor at hw
  rw [h4] at hw
  simp only [Option.map_some, Option.some.injEq] at hw
  subst hw
  unfold unwrapAs
  rw [h5]
  have := wrappingKey_len P L s salt r
  simp only [Option.bind_some]
  exact L.open_seal _ _ _ _ this.1 this.2 (by omega)

/-- The search through the wrapped keys finds the root key, or hits a forged blob before it. -/
theorem findKey_own (P : Prims) (L : Laws P) (c : EncCoins) (hc : c.WF) (sk : PrivateKey) (seed epk : Bytes)
    (hseed : seed.length = 32) (hsk : sk.sk = seed ++ P.edPub seed) (hpk : sk.pub.pk = P.edPub seed)
    (hepk : P.x25519 (clamp c.csk) basepoint = some epk) (d : Decryptor)
    (hd : d.hdr.pk = epk) (hsalt : d.hdr.salt = c.salt) (rs : List (PublicKey × Bytes)) (ws : List WrappedKey)
    (hw : WrappedFor P (clamp c.csk) c.salt c.key rs ws) :
    (∃ r ∈ rs, WrapForgery P (clamp c.csk) c.salt c.key r.1.pk r.2 seed) ∨
    ((∃ r ∈ rs, r.1.pk = P.edPub seed) ∧ d.findKey P sk ws = .ok (some c.key)) ∨
    ((∀ r ∈ rs, r.1.pk ≠ P.edPub seed) ∧ d.findKey P sk ws = .ok none) := by
  obtain ⟨epk', s, h1, h2, h3, h4, h5⟩ := L.dh c.csk seed hc.csk hseed
  rw [hepk] at h1; cases h1
  induction hw with
  | nil => right; right; exact ⟨by simp, rfl⟩
  | @cons r w rs ws hrw _ ih =>
    have hl := wrapFor_len L hc.key hrw
    have hu := unwrapKey_eq P d w sk seed epk s hseed hsk hpk hd h5 hl
    unfold Decryptor.findKey
    rw [hu, hsalt]
    by_cases hr : r.1.pk = P.edPub seed
    · rw [hr] at hrw
      rw [unwrapAs_own P L c.csk c.salt c.key r.2 seed epk w hc.csk hseed hc.key hepk hrw]
      right; left
      exact ⟨⟨r, by simp, hr⟩, rfl⟩
    · cases hopen : unwrapAs P seed (P.edPub seed) epk c.salt w with
      | some k => left; exact ⟨r, by simp, hr, epk, w, k, hepk, hrw, hopen⟩
      | none =>
        rcases ih with ⟨r', h6, h7⟩ | ⟨⟨r', h6, h7⟩, h8⟩ | ⟨h6, h7⟩
        · left; exact ⟨r', List.mem_cons_of_mem _ h6, h7⟩
        · right; left; exact ⟨⟨r', List.mem_cons_of_mem _ h6, h7⟩, h8⟩
        · right; right
          refine ⟨?_, h7⟩
          intro r' hr'
          rcases List.mem_cons.mp hr' with rfl | hr'
          · exact hr
          · exact h6 r' hr'

/-- The key the recipient names as the sender's: the real sender's, or anything at all if there is none. -/
def SenderNamed (sender : Option PrivateKey) (spk : Option PublicKey) : Prop :=
  ∀ s, sender = some s → ∃ p, spk = some p ∧ p.pk = s.pub.pk

theorem verifySender_genuine (P : Prims) (L : Laws P) (sender : Option PrivateKey) (spk : Option PublicKey)
    (c : EncCoins) (epk : Bytes) (d : Decryptor) (hs : SenderGenuine P sender) (hn : SenderNamed sender spk)
    (hd : d.hdr.pk = epk) (hsalt : d.hdr.salt = c.salt) (hauth : d.auth = false)
    (hsf : d.hdr.sender = P.aeadSeal (senderKey P c.key c.salt).1 (senderKey P c.key c.salt).2
      (senderSig P sender epk c) []) :
    d.verifySender P c.key spk = .ok sender.isSome := by
  have hl := senderKey_len P L c.key c.salt
  have hsl := senderSig_len P L sender epk c (hs.sized L)
  have ho := L.open_seal (senderKey P c.key c.salt).1 (senderKey P c.key c.salt).2 (senderSig P sender epk c) []
    hl.1 hl.2 (by omega)
  unfold Decryptor.verifySender
  simp only [hsalt, hsf, ho, hd]
  cases sender with
  | none => simp [senderSig, hauth]
  | some s =>
    obtain ⟨seed, g1, g2, g3, g4⟩ := hs s rfl
    obtain ⟨p, rfl, hp⟩ := hn s rfl
    have hz : ctEq (List.replicate 64 0) (senderSig P (some s) epk c) = false := by
      rw [ctEq, beq_eq_false_iff_ne]
      intro h
      exact L.ed_sign_ne_zero s.sk _ (Genuine_sk_len P L s (hs s rfl)) (by simpa [senderSig] using h.symm)
    have hpl : p.pk.length = 32 := by rw [hp, g3, L.ed_pub_len seed g1]
    have hv : P.edVerify p.pk (signDigest P (senderDigest P epk c.salt c.key)) (senderSig P (some s) epk c) = true := by
      rw [hp, g3, senderSig, g2]; exact L.ed_verify_sign seed _ g1
    rw [hz]
    simp only [Bool.not_false, if_true, verifyMessage, hpl, hv, ne_eq, not_true_eq_false, if_false, Res.bind_ok,
      Option.isSome_some]

theorem varint_small (v : Nat) (h : v < 128) : (Spec.varint v).length = 1 := by
  unfold Spec.varint; simp [h]

theorem varint_len_le : ∀ (k v : Nat), v < 128 ^ (k + 1) → (Spec.varint v).length ≤ k + 1 := by
  intro k
  induction k with
  | zero => intro v h; rw [varint_small v (by simpa using h)]
  | succ k ih =>
    intro v h
    unfold Spec.varint
    split
    · simp
    · rw [List.length_cons]
      have := ih (v / 128) (by rw [Nat.div_lt_iff_lt_mul (by decide)]; rw [Nat.pow_succ] at h; exact h)
      omega

theorem field_small (tag : UInt8) (x : Bytes) (n : Nat) (h : x.length = n) (h0 : 0 < n) (h1 : n < 128) :
    (Spec.field tag x).length = n + 2 := by
  have : x ≠ [] := by intro h2; subst h2; simp at h; omega
  simp only [Spec.field, this, if_false, Spec.delimited, List.length_cons, List.length_append]
  rw [h, varint_small n h1]; omega

theorem keys_len : ∀ (ws : List WrappedKey), (∀ w ∈ ws, w.dkey.length = 48 ∧ w.nonce.length = 12) →
    (ws.flatMap fun k => Spec.delimited 0x2a (Spec.wrappedKeyBytes k)).length = 66 * ws.length := by
  intro ws
  induction ws with
  | nil => intro _; rfl
  | cons w ws ih =>
    intro h
    obtain ⟨h1, h2⟩ := h w (by simp)
    have h3 : (Spec.wrappedKeyBytes w).length = 64 := by
      rw [Spec.wrappedKeyBytes, List.length_append, field_small _ _ 48 h1 (by decide) (by decide),
        field_small _ _ 12 h2 (by decide) (by decide)]
    rw [List.flatMap_cons, List.length_append, ih (fun w hw => h w (List.mem_cons_of_mem _ hw))]
    simp only [Spec.delimited, List.length_cons, List.length_append]
    rw [h3, varint_small 64 (by decide)]
    omega

theorem sender_len (P : Prims) (L : Laws P) (sender : Option PrivateKey) (c : EncCoins) (epk : Bytes)
    (hs : SenderSized sender) :
    (P.aeadSeal (senderKey P c.key c.salt).1 (senderKey P c.key c.salt).2 (senderSig P sender epk c) []).length = 80 := by
  have hl := senderKey_len P L c.key c.salt
  have hsl := senderSig_len P L sender epk c hs
  rw [L.seal_len _ _ _ _ hl.1 hl.2 (by omega), hsl]

theorem SetupOk.keys_facts {P : Prims} (L : Laws P) {sender : Option PrivateKey} {blk : Nat} {c : EncCoins}
    {rcpts : List (PublicKey × Bytes)} {e : Encryptor} {epk : Bytes} {ws : List WrappedKey}
    (h : SetupOk P sender blk c rcpts e epk ws) (hc : c.WF) (hr : ∀ r ∈ rcpts, r.2.length = 12) :
    ∀ w ∈ ws, w.dkey.length = 48 ∧ w.nonce.length = 12 := by
  refine forall₂_right h.wrapped ?_
  intro a b ha hab
  exact ⟨wrapFor_len L hc.key hab, by rw [(wrapFor_unknown hab).2]; exact hr a ha⟩

/-- Length of the header of a container with `n` recipients. -/
theorem headerBytes_len (P : Prims) (L : Laws P) (sender : Option PrivateKey) (blk : Nat) (c : EncCoins)
    (rcpts : List (PublicKey × Bytes)) (e : Encryptor) (epk : Bytes) (ws : List WrappedKey) (hc : c.WF)
    (hr : ∀ r ∈ rcpts, r.2.length = 12)
    (h : SetupOk P sender blk c rcpts e epk ws) :
    ∃ v, 1 ≤ v ∧ v ≤ 5 ∧ (headerBytes e.hdr).length = 1 + v + 150 + 66 * rcpts.length := by
  have he := h.enc
  refine ⟨(Spec.varint (chooseBlock blk)).length, Proto.varint_length_pos _,
    varint_len_le 4 _ (Nat.lt_of_le_of_lt (chooseBlock_le blk) (by decide)), ?_⟩
  subst he
  have hcb := chooseBlock_pos blk
  have hne : ¬ chooseBlock blk = 0 := by omega
  rw [headerBytes]
  dsimp only
  rw [if_neg hne]
  simp only [List.length_append, List.length_cons]
  rw [field_small _ _ 32 hc.salt (by decide) (by decide), field_small _ _ 32 h.epkLen (by decide) (by decide),
    field_small _ _ 80 (sender_len P L sender c epk h.sized) (by decide) (by decide),
    keys_len ws (h.keys_facts L hc hr), ← h.wrapped.length_eq]
  omega

theorem checkHeader_setup (P : Prims) (L : Laws P) (sender : Option PrivateKey) (blk : Nat) (c : EncCoins)
    (rcpts : List (PublicKey × Bytes)) (e : Encryptor) (epk : Bytes) (ws : List WrappedKey) (hc : c.WF)
    (h : SetupOk P sender blk c rcpts e epk ws) (hb : chooseBlock blk < 2^30) (hne : rcpts ≠ []) :
    checkHeader e.hdr = none := by
  have hl := h.wrapped.length_eq
  have h0 : 0 < rcpts.length := List.length_pos_iff.mpr hne
  have hcp := chooseBlock_pos blk
  rw [h.enc]
  unfold checkHeader
  dsimp only
  rw [maxChunk_eq, if_neg (by omega), if_neg (by rw [hc.salt]; simp), if_neg (by omega), if_neg]
  rw [List.any_eq_true]
  rintro ⟨w, hw, hw2⟩
  have := forall₂_right (Q := fun w => w.dkey.length = 48) h.wrapped (fun a b _ hab => wrapFor_len L hc.key hab) w hw
  simp only [this, decide_eq_true_eq] at hw2
  omega

/-- The state of a decryptor that was set up on a genuine container. -/
structure Opened (P : Prims) (e : Encryptor) (sender : Option PrivateKey) (spk : Option PublicKey) (body : Bytes)
    (last : Err) (d : Decryptor) : Prop where
  ready : d.Ready (e.keys P).2.1 (e.keys P).2.2 []
  hdr : d.hdr = e.hdr
  nonce : d.nonce = (e.keys P).1
  auth : d.auth = sender.isSome
  sender : d.sender = spk
  body : d.rd.content = body
  last : d.rd.last = last
  key : d.key = some e.key
  stream : d.stream = false
  eof : d.eof = false
  sum : d.hdrsum = P.sha256 (headerPart e.hdr)

/-- `NewDecryptor` and `SetPrivateKey` on a container with a genuine header, followed by anything. -/
theorem setup_opens (P : Prims) (L : Laws P) (sender : Option PrivateKey) (blk : Nat) (c : EncCoins)
    (rcpts : List (PublicKey × Bytes)) (e : Encryptor) (epk : Bytes) (ws : List WrappedKey) (hc : c.WF)
    (hs : SenderGenuine P sender) (hr : ∀ r ∈ rcpts, r.2.length = 12)
    (h : SetupOk P sender blk c rcpts e epk ws) (hb : chooseBlock blk < 2^30)
    (hfit : (headerBytes e.hdr).length ≤ 1048576)
    (sk : PrivateKey) (seed : Bytes)
    (hseed : seed.length = 32) (hsk : sk.sk = seed ++ P.edPub seed) (hpk : sk.pub.pk = P.edPub seed)
    (hmem : ∃ r ∈ rcpts, r.1.pk = P.edPub seed) (spk : Option PublicKey) (hn : SenderNamed sender spk)
    (rd : Reader) (body : Bytes)
    (hrd : rd.content = headerPart e.hdr ++ P.sha256 (headerPart e.hdr) ++ body) :
    (∃ r ∈ rcpts, WrapForgery P (clamp c.csk) c.salt c.key r.1.pk r.2 seed) ∨
    ∃ d, setupDecryptor P rd sk spk = .ok d ∧ Opened P e sender spk body rd.last d := by
  have hf := h.fresh L
  have hne : rcpts ≠ [] := by rintro rfl; obtain ⟨r, hr, _⟩ := hmem; simp at hr
  obtain ⟨v, hv1, hv2, hv3⟩ := headerBytes_len P L sender blk c rcpts e epk ws hc hr h
  obtain ⟨rd1, h1, h2, h3⟩ := newDecryptor_accepts P L e.hdr body rd hf.clean
    (by have := hf.chunkMax; omega) (by omega) hfit (checkHeader_setup P L sender blk c rcpts e epk ws hc h hb hne) hrd
  unfold setupDecryptor
  rw [h1]
  simp only [Res.bind_ok]
  have e1 : e.hdr.pk = epk := by rw [h.enc]
  have e2 : e.hdr.salt = c.salt := by rw [h.enc]
  have e3 : e.hdr.keys = ws := by rw [h.enc]
  have e4 : e.key = c.key := by rw [h.enc]
  have e5 : e.hdr.chunkSize = chooseBlock blk := by rw [h.enc]
  rcases findKey_own P L c hc sk seed epk hseed hsk hpk h.hepk
    { hdr := e.hdr, rd := rd1, hdrsum := P.sha256 (headerPart e.hdr) } e1 e2 rcpts ws h.wrapped with
    g | ⟨_, g⟩ | ⟨g, _⟩
  · exact Or.inl g
  · right
    have hvs := verifySender_genuine P L sender spk c epk
      { hdr := e.hdr, rd := rd1, hdrsum := P.sha256 (headerPart e.hdr), key := some c.key, sender := spk }
      hs hn e1 e2 rfl (by rw [h.enc])
    unfold Decryptor.setPrivateKey
    dsimp only
    rw [e3, g]
    dsimp only
    rw [hvs]
    dsimp only
    rw [dataKeys_eq]
    have hl := sessionKeys_len P L e.key (P.sha256 (headerPart e.hdr))
    rw [← e4]
    refine ⟨_, rfl, ⟨rfl, rfl, rfl, by simp only; omega, hl.2.1, hl.1, ?_⟩, rfl, rfl, rfl, rfl, h2, h3, rfl, rfl, rfl, rfl⟩
    intro ha
    cases sender with
    | none => cases ha
    | some s =>
      obtain ⟨p, rfl, hp⟩ := hn s rfl
      obtain ⟨seed', q1, q2, q3, q4⟩ := hs s rfl
      exact ⟨p, rfl, by rw [hp, q3, L.ed_pub_len _ q1]⟩
  · obtain ⟨r, hr1, hr2⟩ := hmem
    exact absurd hr2 (g r hr1)

theorem trailerOf_len (P : Prims) (L : Laws P) (e : Encryptor) (hs : e.SenderOk) (hk hd coin : Bytes)
    (hc : coin.length = 64) : (e.trailerOf P hk hd coin).length = 64 := by
  unfold Encryptor.trailerOf
  split
  · rename_i sk ha hsk
    obtain ⟨sk', h1, h2⟩ := hs ha
    rw [hsk] at h1; cases h1
    exact L.ed_sign_len _ _ h2
  · exact hc

/-- The trailer of a genuine session is accepted by an opened decryptor. -/
theorem Opened.trailerOk {P : Prims} (L : Laws P) {sender : Option PrivateKey} {blk : Nat} {c : EncCoins}
    {rcpts : List (PublicKey × Bytes)} {e : Encryptor} {epk : Bytes} {ws : List WrappedKey}
    (h : SetupOk P sender blk c rcpts e epk ws) (hs : SenderGenuine P sender) {spk : Option PublicKey}
    (hn : SenderNamed sender spk) {body : Bytes} {last : Err} {d : Decryptor} (ho : Opened P e sender spk body last d)
    (hk hd coin : Bytes) : d.TrailerOk P hk hd (e.trailerOf P hk hd coin) := by
  intro ha
  rw [ho.auth] at ha
  cases sender with
  | none => cases ha
  | some s =>
    obtain ⟨p, rfl, hp⟩ := hn s rfl
    obtain ⟨seed', q1, q2, q3, q4⟩ := hs s rfl
    refine ⟨p, ho.sender, ?_⟩
    have e1 : e.sender = some s := by rw [h.enc]
    have e2 : e.auth = true := by rw [h.enc]; rfl
    simp only [Encryptor.trailerOf, e1, e2]
    rw [hp, q3, q2]
    exact L.ed_verify_sign _ _ q1

/-- `Decrypt` of a genuine body (any chunk list of the right shape) after a successful set-up. -/
theorem opened_decrypts {P : Prims} (L : Laws P) {sender : Option PrivateKey} {blk : Nat} {c : EncCoins}
    {rcpts : List (PublicKey × Bytes)} {e : Encryptor} {epk : Bytes} {ws : List WrappedKey}
    (h : SetupOk P sender blk c rcpts e epk ws) (hs : SenderGenuine P sender) {spk : Option PublicKey}
    (hn : SenderNamed sender spk) {last : Err} {d : Decryptor} (chunks : List Bytes) (coin rest : Bytes)
    (hcoin : coin.length = 64) (hck : ChunksOk e.hdr.chunkSize chunks)
    (ho : Opened P e sender spk (sealedBody P (e.keys P).2.1 (e.keys P).1 0 chunks ++
      (e.trailerOf P (e.keys P).2.2 (macInput chunks) coin ++ rest)) last d)
    (wr : Writer) (hw : wr.NoFail) :
    ∃ d' wr', d.decrypt P wr = (.ok (), d', wr') ∧ wr'.out = wr.out ++ chunks.flatten ∧ d'.eof = true := by
  unfold Decryptor.decrypt
  simp only [ho.key, ho.stream, ho.eof, Bool.false_eq_true, if_false]
  obtain ⟨d', wr', h1, h2, h3, _⟩ := decryptLoop_genuine P L chunks (d.rd.content.length + 1) d wr 0 _ _ _
    (e.trailerOf P (e.keys P).2.2 (macInput chunks) coin) rest ho.ready hw
    (by
      rw [ho.body]
      have : ∀ (cs : List Bytes) (i : Nat), cs.length ≤ (sealedBody P (e.keys P).2.1 (e.keys P).1 i cs).length := by
        intro cs
        induction cs with
        | nil => simp
        | cons x cs ih =>
          intro i
          by_cases hcs : cs = []
          · subst hcs; simp [sealedBody, sealedChunk]; omega
          · rw [sealedBody_cons _ _ _ _ _ _ hcs]
            have := ih (i+1)
            simp [sealedChunk]; omega
      have := this chunks 0
      rw [List.length_append]; omega)
    (by rw [ho.hdr]; exact hck) (trailerOf_len P L e (h.fresh L).sender _ _ _ hcoin)
    (by
      have := ho.trailerOk L h hs hn (e.keys P).2.2 (macInput chunks) coin
      simpa using this)
    (by rw [ho.body, ho.nonce])
  exact ⟨d', wr', h1, h2, h3⟩

/-- A public key that belongs to some key pair. -/
def RealPK (P : Prims) (pk : Bytes) : Prop := ∃ seed, seed.length = 32 ∧ pk = P.edPub seed

theorem addRecipients_progress (P : Prims) (L : Laws P) (csk : Bytes) (hcsk : csk.length = 32) :
    ∀ (rs : List (PublicKey × Bytes)) (e : Encryptor), e.started = false → e.encSK = clamp csk →
    (∀ r ∈ rs, RealPK P r.1.pk) → ∃ e', e.addRecipients P rs = (.ok (), e') := by
  intro rs
  induction rs with
  | nil => intro e _ _ _; exact ⟨e, rfl⟩
  | cons r rs ih =>
    intro e h1 h2 h3
    obtain ⟨pk, rb⟩ := r
    obtain ⟨seed, g1, g2⟩ := h3 (pk, rb) (by simp)
    simp only at g2
    obtain ⟨epk, s, k1, k2, k3, k4, k5⟩ := L.dh csk seed hcsk g1
    have hl : ¬ (P.edPub seed).length > 32 := by rw [L.ed_pub_len seed g1]; omega
    simp only [Encryptor.addRecipients, Encryptor.addRecipient, Encryptor.wrapKey, h1, h2, g2, hl,
      toCurve25519PK_eq _ (Nat.le_of_not_lt hl), k4,
      Bool.false_eq_true, if_false]
    exact ih _ rfl rfl (fun r hr => h3 r (List.mem_cons_of_mem _ hr))

theorem setupEncryptor_progress (P : Prims) (L : Laws P) (sender : Option PrivateKey) (blk : Nat) (c : EncCoins)
    (rcpts : List (PublicKey × Bytes)) (hc : c.WF) (hs : SenderSized sender)
    (hr : ∀ r ∈ rcpts, RealPK P r.1.pk) : ∃ e, setupEncryptor P sender blk c rcpts = .ok e := by
  obtain ⟨epk, h1, h2, h3⟩ := newEncryptor_eq P L sender blk c hc hs
  unfold setupEncryptor
  rw [h3]
  simp only [Res.bind_ok]
  obtain ⟨e', h4⟩ := addRecipients_progress P L c.csk hc.csk rcpts
      { hdr := { chunkSize := chooseBlock blk, salt := c.salt, pk := epk
                 sender := P.aeadSeal (senderKey P c.key c.salt).1 (senderKey P c.key c.salt).2
                   (senderSig P sender epk c) [] }
        key := c.key, encSK := clamp c.csk, sender := sender, auth := sender.isSome } rfl rfl hr
  rw [h4]
  exact ⟨e', rfl⟩

/-- What `Encrypt` returning nil means for the destination. -/
theorem encrypt_ok (P : Prims) (L : Laws P) (e : Encryptor) (rd : Reader) (wr : Writer) (coin : Bytes)
    (hf : e.Fresh P) (e' : Encryptor) (rd' : Reader) (wr' : Writer)
    (h : e.encrypt P rd wr coin = (.ok (), e', rd', wr')) :
    wr'.out = wr.out ++ e.fullContainer P (encryptChunks e.hdr.chunkSize rd.content) coin ∧
      wr'.closes = wr.closes + 1 ∧ isEndOfInput rd.last = true := by
  obtain ⟨r, e2, rd2, wr2, h1, h2, _⟩ := encrypt_outcome P L e rd wr coin hf
  rw [h] at h1
  cases h1
  rcases h2 with ⟨g1, g2, g3, g4⟩ | ⟨g1, x, g2, _⟩ | ⟨g1, x, g2, _⟩
  · exact ⟨g3, g4, g1⟩
  · cases g2
  · cases g2

theorem chooseBlock_lt (b : Nat) (h : b < 2^30) : chooseBlock b < 2^30 := by
  unfold chooseBlock; split
  · decide
  · rw [maxChunk_eq]; split
    · omega
    · exact h

end Sigtool
