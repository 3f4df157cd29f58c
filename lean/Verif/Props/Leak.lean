import Verif.Props.Standards
import Verif.Props.StreamWrite
import Verif.Props.StandardsDemo
/-!
# C115: anybody can see that a file has no sender

The trailer of a file with a sender is an Ed25519 signature, whose second half is a number below the order of the group; the trailer of
a file without one is 64 random bytes.
-/

namespace Sigtool
open Spec

theorem leBytes_last : ∀ k n, n < 2 ^ (8 * (k + 1)) → (Spec.leBytes (k + 1) n).getLast? = some (UInt8.ofNat (n / 2 ^ (8 * k)))
  | 0, n, h => by
    have : n < 256 := by simpa using h
    simp [Spec.leBytes, Nat.mod_eq_of_lt this]
  | k + 1, n, h => by
    have h2 : n / 256 < 2 ^ (8 * (k + 1)) := by
      rw [Nat.div_lt_iff_lt_mul (by decide)]
      calc n < 2 ^ (8 * (k + 1 + 1)) := h
        _ = 2 ^ (8 * (k + 1)) * 256 := by rw [show 8 * (k + 1 + 1) = 8 * (k + 1) + 8 by ring, pow_add]; norm_num
    have ih := leBytes_last k (n / 256) h2
    have e : Spec.leBytes (k + 1 + 1) n = UInt8.ofNat (n % 256) :: Spec.leBytes (k + 1) (n / 256) := rfl
    rw [e, List.getLast?_cons, ih, Nat.div_div_eq_div_mul]
    have : 256 * 2 ^ (8 * k) = 2 ^ (8 * (k + 1)) := by rw [show 8 * (k + 1) = 8 + 8 * k by ring, pow_add]; norm_num
    rw [this]; rfl

/-- The last byte of a signature. -/
theorem edSign_last (P : Prims) (S : RealEd25519 P) (L : Laws P) (sk : PrivateKey) (hk : sk.Genuine P) (m : Bytes) :
    ∃ b : UInt8, (P.edSign sk.sk m).getLast? = some b ∧ b ≤ 16 := by
  obtain ⟨seed, h1, h2, _⟩ := hk
  rw [h2, S.edSign seed (P.edPub seed) m _ _ _ h1 (L.ed_pub_len seed h1) rfl rfl rfl]
  generalize (_ + _ * _ : Nat) = t
  have ht : t % edOrder < edOrder := Nat.mod_lt _ (by decide)
  have ho : edOrder < 2 ^ 253 := by decide
  have h := leBytes_last 31 (t % edOrder) (by omega)
  refine ⟨UInt8.ofNat (t % edOrder / 2 ^ (8 * 31)), ?_, ?_⟩
  · rw [List.getLast?_append, h]; rfl
  · have h3 : t % edOrder / 2 ^ (8 * 31) ≤ 16 := by
      have : edOrder / 2 ^ (8 * 31) = 16 := by decide
      calc _ ≤ edOrder / 2 ^ (8 * 31) := Nat.div_le_div_right ht.le
        _ = 16 := this
    rw [UInt8.le_iff_toNat_le]
    simp only [UInt8.toNat_ofNat']
    rw [Nat.mod_eq_of_lt (by omega)]
    exact h3

theorem getLast?_append_right {α} (a b : List α) (h : b ≠ []) : (a ++ b).getLast? = b.getLast? := by
  rw [List.getLast?_append]
  cases hb : b.getLast? with
  | none => rw [List.getLast?_eq_none_iff] at hb; exact absurd hb h
  | some x => rfl

theorem fullContainer_last (P : Prims) (S : RealEd25519 P) (L : Laws P) (sender : Option PrivateKey)
    (hsender : ∀ s, sender = some s → s.Genuine P) (blk : Nat) (c : EncCoins)
    (rcpts : List (PublicKey × Bytes)) (e : Encryptor) (epk : Bytes) (ws : List WrappedKey) (hs : SetupOk P sender blk c rcpts e epk ws)
    (hf : e.Fresh P) (chunks : List Bytes) (coin : Bytes) (hcoin : coin.length = 64) (pre : Bytes) :
    (∀ s, sender = some s → ∃ b : UInt8, (pre ++ e.fullContainer P chunks coin).getLast? = some b ∧ b ≤ 16) ∧
    (sender = none → (pre ++ e.fullContainer P chunks coin).getLast? = coin.getLast?) := by
  have key : ∀ hk hd, (e.trailerOf P hk hd coin).length = 64 := fun hk hd => trailerOf_len P L e hf.sender _ _ _ hcoin
  have split : ∃ a hk hd, pre ++ e.fullContainer P chunks coin = a ++ e.trailerOf P hk hd coin := by
    refine ⟨pre ++ ((headerPart e.hdr ++ P.sha256 (headerPart e.hdr)) ++ sealedBody P (e.keys P).2.1 (e.keys P).1 0 chunks),
      (e.keys P).2.2, macInput chunks, ?_⟩
    rw [Encryptor.fullContainer, container_eq]
    simp only [List.append_assoc]
  obtain ⟨a, hk, hd, he⟩ := split
  have hne : e.trailerOf P hk hd coin ≠ [] := by
    intro h; have := key hk hd; rw [h] at this; cases this
  rw [he, getLast?_append_right _ _ hne]
  constructor
  · intro s h
    have : e.trailerOf P hk hd coin = P.edSign s.sk (signDigest P (P.hmac256 hk hd)) := by
      rw [hs.enc, h]; rfl
    rw [this]
    exact edSign_last P S L s (hsender s h) _
  · intro h
    have : e.trailerOf P hk hd coin = coin := by rw [hs.enc, h]; rfl
    rw [this]

/-- **C115**, `Encrypt`: with Ed25519 as RFC 8032 defines it, a file with a sender ends in a byte of at most 16; a file without one ends
in the last of 64 random bytes. -/
theorem C115_encrypt (P : Prims) (S : Standard P) (sender : Option PrivateKey)
    (hsender : ∀ s, sender = some s → s.Genuine P) (blk : Nat) (c : EncCoins) (hc : c.WF) (rcpts : List (PublicKey × Bytes))
    (e : Encryptor) (he : setupEncryptor P sender blk c rcpts = .ok e)
    (rd : Reader) (wr : Writer) (coin : Bytes) (hcoin : coin.length = 64)
    (e' : Encryptor) (rd' : Reader) (wr' : Writer) (henc : e.encrypt P rd wr coin = (.ok (), e', rd', wr')) :
    (∀ s, sender = some s → ∃ b : UInt8, wr'.out.getLast? = some b ∧ b ≤ 16) ∧
    (sender = none → wr'.out.getLast? = coin.getLast?) := by
  have L := C105_laws P S
  obtain ⟨epk, ws, hs⟩ := setupEncryptor_ok P L sender blk c rcpts e hc he
  have hf := hs.fresh L
  obtain ⟨h1, _, _⟩ := encrypt_ok P L e rd wr coin hf e' rd' wr' henc
  rw [h1]
  exact fullContainer_last P S.ed25519 L sender hsender blk c rcpts e epk ws hs hf _ coin hcoin _

/-- **C115**, stream writer: the same. -/
theorem C115_stream (P : Prims) (S : Standard P) (sender : Option PrivateKey)
    (hsender : ∀ s, sender = some s → s.Genuine P) (blk : Nat) (c : EncCoins) (hc : c.WF) (rcpts : List (PublicKey × Bytes))
    (e : Encryptor) (he : setupEncryptor P sender blk c rcpts = .ok e)
    (bufs : List Bytes) (wr : Writer) (coin : Bytes) (hcoin : coin.length = 64)
    (wr' : Writer) (henc : streamEncrypt P e wr coin bufs = (.ok (), wr')) :
    (∀ s, sender = some s → ∃ b : UInt8, wr'.out.getLast? = some b ∧ b ≤ 16) ∧
    (sender = none → wr'.out.getLast? = coin.getLast?) := by
  have L := C105_laws P S
  obtain ⟨epk, ws, hs⟩ := setupEncryptor_ok P L sender blk c rcpts e hc he
  have hf := hs.fresh L
  obtain ⟨h1, _⟩ := streamEncrypt_ok P L e wr coin bufs hf wr' henc
  rw [h1]
  exact fullContainer_last P S.ed25519 L sender hsender blk c rcpts e epk ws hs hf _ coin hcoin _

/-- Of the 256 values the last random byte can have, 239 give away that there is no sender. -/
theorem C115_share : ((List.range 256).filter fun n => ¬ (UInt8.ofNat n ≤ 16)).length = 239 := by decide +kernel

/-- The primitives of the standards, a sender and a recipient: the file exists. -/
example : ∃ e e' rd' wr', setupEncryptor StandardDemo.stdPrims (some (newPrivateKey StandardDemo.stdPrims (List.replicate 32 7))) 4 Demo.coins
      [((newPrivateKey StandardDemo.stdPrims (List.replicate 32 9)).pub, List.replicate 12 1)] = .ok e ∧
    e.encrypt StandardDemo.stdPrims Demo.input {} Demo.coin = (.ok (), e', rd', wr') := by
  obtain ⟨e, e', rd', wr', h1, h2, _⟩ := C105_total _ StandardDemo.standard (some (List.replicate 32 7)) (by rintro _ ⟨⟩; rfl)
    (List.replicate 32 9) rfl 4 (by decide) Demo.coins Demo.coins_wf (List.replicate 12 1) rfl Demo.coin (by decide) Demo.input (by decide)
  exact ⟨e, e', rd', wr', h1, h2⟩

example : ∃ e e' rd' wr', setupEncryptor StandardDemo.stdPrims none 4 Demo.coins
      [((newPrivateKey StandardDemo.stdPrims (List.replicate 32 9)).pub, List.replicate 12 1)] = .ok e ∧
    e.encrypt StandardDemo.stdPrims Demo.input {} Demo.coin = (.ok (), e', rd', wr') := by
  obtain ⟨e, e', rd', wr', h1, h2, _⟩ := C105_total _ StandardDemo.standard none (by rintro _ ⟨⟩)
    (List.replicate 32 9) rfl 4 (by decide) Demo.coins Demo.coins_wf (List.replicate 12 1) rfl Demo.coin (by decide) Demo.input (by decide)
  exact ⟨e, e', rd', wr', h1, h2⟩

end Sigtool
