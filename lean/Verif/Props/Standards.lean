import Verif.Spec.Standard
import Verif.Props.Symmetric
import Verif.Props.RoundTrip
import Verif.Props.Sign
import Verif.Props.Keys
import Verif.Spec.Crash
/-!
# C105, C106: with the algorithms of the standards

SHA-2, AES, scrypt and the modes and curves built on them are defined in `Spec` and checked against published test vectors there.
-/

namespace Sigtool
open Spec

theorem Spec.Standard.symmetric {P : Prims} (S : Standard P) : RealSymmetric P where
  gcm := ⟨aes256, aes256_length, fun _ _ _ _ => by rw [S.aeadSeal], fun _ _ _ _ => by rw [S.aeadOpen]⟩
  hmac256 _ _ := by rw [S.hmac256, S.sha256]
  hkdf512 a b c n h := by rw [S.hkdf512 a b c n h, S.sha512]

theorem Spec.Standard.lengths {P : Prims} (S : Standard P) : P.Lengths where
  sha256_len x := by rw [S.sha256]; exact sha256_length x
  sha512_len x := by rw [S.sha512]; exact sha512_length x
  x25519_len := S.x25519_lengths
  scrypt_len pass salt n r p k h := by rw [S.scrypt] at h; exact scryptKey_length _ _ _ _ _ _ h
  scrypt_ok pass salt := by rw [S.scrypt]; exact scryptKey_ok pass salt
  bcrypt_len := S.bcrypt_len

/-- **C105** The primitives of the standards have every property that the theorems of this development ask of primitives. -/
theorem C105_laws (P : Prims) (S : Standard P) : Laws P := C101_laws P S.lengths S.symmetric S.x25519 S.ed25519

/-- **C105** With the algorithms of the standards, and nothing assumed about them: what is encrypted for a single recipient, with or
without a sender, decrypts to the same bytes. -/
theorem C105_encrypt_decrypt (P : Prims) (S : Standard P)
    (sender : Option PrivateKey) (hsender : ∀ s, sender = some s → s.Genuine P)
    (blk : Nat) (hblk : blk < 2^30) (c : EncCoins) (hc : c.WF)
    (pk : PublicKey) (rbuf : Bytes) (hr : rbuf.length = 12)
    (e : Encryptor) (he : setupEncryptor P sender blk c [(pk, rbuf)] = .ok e)
    (rd : Reader) (wr : Writer) (hwr : wr.out = []) (coin : Bytes) (hcoin : coin.length = 64)
    (e' : Encryptor) (rd' : Reader) (wr' : Writer) (henc : e.encrypt P rd wr coin = (.ok (), e', rd', wr'))
    (sk : PrivateKey) (hsk : sk.Genuine P) (hpk : pk.pk = sk.pub.pk)
    (spk : Option PublicKey) (hspk : ∀ s, sender = some s → ∃ p, spk = some p ∧ p.pk = s.pub.pk)
    (rd2 : Reader) (hrd2 : rd2.content = wr'.out) :
    ∃ d d' w, setupDecryptor P rd2 sk spk = .ok d ∧ d.decrypt P {} = (.ok (), d', w) ∧ w.out = rd.content := by
  obtain ⟨seed, h1, h2, h3, h4⟩ := hsk
  rcases C01_encrypt_decrypt P (C105_laws P S) sender hsender blk hblk c hc [(pk, rbuf)] (by simpa using hr) (by simp) e he rd wr hwr coin
    hcoin e' rd' wr' henc sk seed h1 h2 h3 ⟨_, List.mem_singleton.mpr rfl, hpk⟩ spk hspk rd2 [] (by simpa using hrd2) {}
    (fun _ _ h => by cases h) with h | h
  · obtain ⟨r, hm, hf⟩ := h
    simp only [List.mem_singleton] at hm
    subst hm
    exact absurd (hpk.trans h3) hf.1
  · exact h

/-- **C105** ... and all of it succeeds: for all 32-byte seeds of sender and recipient, random bytes, block sizes and contents. -/
theorem C105_total (P : Prims) (S : Standard P) (senderSeed : Option Bytes) (hsend : ∀ s, senderSeed = some s → s.length = 32)
    (seed : Bytes) (hseed : seed.length = 32) (blk : Nat) (hblk : blk < 2^30) (c : EncCoins) (hc : c.WF)
    (rbuf : Bytes) (hr : rbuf.length = 12) (coin : Bytes) (hcoin : coin.length = 64) (rd : Reader) (hrd : rd.last = .eof) :
    ∃ e e' rd' wr', setupEncryptor P (senderSeed.map (newPrivateKey P)) blk c [((newPrivateKey P seed).pub, rbuf)] = .ok e ∧
      e.encrypt P rd {} coin = (.ok (), e', rd', wr') ∧
      ∀ rd2 : Reader, rd2.content = wr'.out → ∃ d d' w,
        setupDecryptor P rd2 (newPrivateKey P seed) (senderSeed.map fun s => (newPrivateKey P s).pub) = .ok d ∧
        d.decrypt P {} = (.ok (), d', w) ∧ w.out = rd.content := by
  have hg : ∀ s, senderSeed.map (newPrivateKey P) = some s → s.Genuine P := by
    intro s h
    cases senderSeed with
    | none => cases h
    | some x => cases h; exact newPrivateKey_genuine _ _ (hsend x rfl)
  obtain ⟨e, e', rd', wr', h1, h2⟩ := C01_encrypt_succeeds P (C105_laws P S) (senderSeed.map (newPrivateKey P)) hg blk c hc
    [((newPrivateKey P seed).pub, rbuf)] (by intro r h; rw [List.mem_singleton] at h; subst h; exact ⟨seed, hseed, rfl⟩)
    rd hrd {} (fun _ _ h => by cases h) rfl coin
  refine ⟨e, e', rd', wr', h1, h2, fun rd2 h => ?_⟩
  refine C105_encrypt_decrypt P S _ hg blk hblk c hc _ rbuf hr e h1 rd {} rfl coin hcoin e' rd' wr' h2 _
    (newPrivateKey_genuine P seed hseed) rfl _ ?_ rd2 h
  intro s hs
  cases senderSeed with
  | none => cases hs
  | some x => cases hs; exact ⟨_, rfl, rfl⟩

/-- **C105** ... and a signature made with a key pair of this package is accepted. -/
theorem C105_sign_verify (P : Prims) (S : Standard P) (sk : PrivateKey) (hk : sk.Genuine P) (m : Bytes) :
    ∃ s, signMessage P sk m = .ok s ∧ verifyMessage P sk.pub m s = .ok true := by
  obtain ⟨s, h1, _, h2, _⟩ := C30_sign_verify P (C105_laws P S) sk hk m
  exact ⟨s, h1, h2⟩

/-! ### C106 -/

theorem pow2_iff (n : Int) : ¬ (n ≤ 1 ∨ n.toNat &&& (n.toNat - 1) ≠ 0) ↔ ∃ k : Nat, 0 < k ∧ n = 2 ^ k := by
  constructor
  · intro h
    have h1 : 1 < n := by omega
    have h2 : n.toNat &&& (n.toNat - 1) = 0 := by
      by_contra hc; exact h (.inr hc)
    obtain ⟨k, hk⟩ := (Nat.and_sub_one_eq_zero_iff_isPowerOfTwo (by omega)).mp h2
    refine ⟨k, ?_, ?_⟩
    · rcases Nat.eq_zero_or_pos k with h | h
      · subst h; simp at hk; omega
      · exact h
    · have : ((n.toNat : Nat) : Int) = n := Int.toNat_of_nonneg (by omega)
      rw [← this, hk]; push_cast; rfl
  · rintro ⟨k, hk, rfl⟩
    have h2 : (2:Nat) ^ 1 ≤ 2 ^ k := Nat.pow_le_pow_right (by decide) hk
    have e : ((2:Int) ^ k).toNat = 2 ^ k := by
      have : ((2:Int) ^ k) = ((2 ^ k : Nat) : Int) := by push_cast; rfl
      rw [this, Int.toNat_natCast]
    have h3 : (2:Int) ^ k = ((2 ^ k : Nat) : Int) := by push_cast; rfl
    rw [e]
    rintro (h | h)
    · rw [h3] at h; omega
    · exact h ((Nat.and_sub_one_eq_zero_iff_isPowerOfTwo (by omega)).mpr ⟨k, rfl⟩)

theorem tdiv_56 : ((2^63 - 1 : Int).tdiv 128) = 2^56 - 1 := by decide

theorem tdiv_55 : ((2^63 - 1 : Int).tdiv 256) = 2^55 - 1 := by decide

theorem not_gt_tdiv {a r p : Int} (ha : 0 ≤ a) (hp : 0 < p) : ¬ r > a.tdiv p ↔ r * p ≤ a := by
  rw [Int.tdiv_eq_ediv_of_nonneg ha, not_lt, Int.le_ediv_iff_mul_le hp]

theorem neg_tdiv {a p : Int} (ha : 0 ≤ a) (hp : p < 0) : a.tdiv p = - (a / (-p)) := by
  have : p = -(-p) := by omega
  rw [this, Int.tdiv_neg, Int.tdiv_eq_ediv_of_nonneg ha, neg_neg]

/-- Everything `scrypt.Key` does, for parameters of type `int`. -/
theorem scryptKey_cases (pass salt : Bytes) (n r p : Int) (hr : -2^63 ≤ r ∧ r < 2^63) (hp : -2^63 ≤ p ∧ p < 2^63) :
    (ScryptCrashes n r p ∧ ∃ w, scryptKey pass salt n r p = .panic w) ∨
    (ScryptFits n r p ∧ ¬ ScryptCrashes n r p ∧ scryptKey pass salt n r p = .ok (scryptRfc pass salt n.toNat r.toNat p.toNat 32)) ∨
    (¬ ScryptFits n r p ∧ ¬ ScryptCrashes n r p ∧ ∃ w, scryptKey pass salt n r p = .err w) := by
  simp only [scryptKey]
  rw [tdiv_56, tdiv_55]
  by_cases hn : n ≤ 1 ∨ n.toNat &&& (n.toNat - 1) ≠ 0
  · rw [if_pos hn]
    have : ¬ ∃ k : Nat, 0 < k ∧ n = 2 ^ k := fun h => (pow2_iff n).mpr h hn
    exact .inr (.inr ⟨fun h => this h.1, fun h => this h.1, _, rfl⟩)
  rw [if_neg hn]
  have hk := (pow2_iff n).mp hn
  have hn1 : 1 < n := by omega
  rcases lt_trichotomy p 0 with p0 | p0 | p0
  · -- p < 0
    have fits : ¬ ScryptFits n r p := fun h => by have := h.2.2.1; omega
    split
    · rename_i hm
      refine .inr (.inr ⟨fits, ?_, _, rfl⟩)
      rintro ⟨_, h | ⟨h, _⟩ | h⟩
      · omega
      · subst h; simp at hm
      · omega
    · rw [if_neg (by omega), neg_tdiv (by norm_num) p0]
      have q0 : 0 ≤ (2^56 - 1 : Int) / (-p) := Int.ediv_nonneg (by norm_num) (by omega)
      rcases lt_trichotomy r 0 with r0 | r0 | r0
      · have q1 : 0 ≤ (2^56 - 1 : Int) / (-r) := Int.ediv_nonneg (by norm_num) (by omega)
        have cr : ¬ ScryptCrashes n r p := by rintro ⟨_, h | h | h⟩ <;> omega
        split
        · exact .inr (.inr ⟨fits, cr, _, rfl⟩)
        · rw [if_neg (by omega), neg_tdiv (by norm_num) r0, if_pos (by omega)]
          exact .inr (.inr ⟨fits, cr, _, rfl⟩)
      · subst r0
        rcases lt_or_ge (2^56 - 1 : Int) (-p) with g | g
        · rw [Int.ediv_eq_zero_of_lt (by norm_num) g, if_neg (by omega), if_pos rfl]
          exact .inl ⟨⟨hk, .inr (.inl ⟨rfl, .inr (by omega)⟩)⟩, _, rfl⟩
        · have : 1 ≤ (2^56 - 1 : Int) / (-p) := by rw [Int.le_ediv_iff_mul_le (by omega)]; omega
          rw [if_pos (by omega)]
          refine .inr (.inr ⟨fits, ?_, _, rfl⟩)
          rintro ⟨_, h | h | h⟩ <;> omega
      · rw [if_pos (by omega)]
        refine .inr (.inr ⟨fits, ?_, _, rfl⟩)
        rintro ⟨_, h | h | h⟩ <;> omega
  · subst p0
    rw [if_neg (by simp), if_pos rfl]
    exact .inl ⟨⟨hk, .inl rfl⟩, _, rfl⟩
  · rcases lt_trichotomy r 0 with r0 | r0 | r0
    · have fits : ¬ ScryptFits n r p := fun h => by have := h.2.1; omega
      have cr : ¬ ScryptCrashes n r p := by rintro ⟨_, h | h | h⟩ <;> omega
      have q1 : 0 ≤ (2^56 - 1 : Int) / (-r) := Int.ediv_nonneg (by norm_num) (by omega)
      split
      · exact .inr (.inr ⟨fits, cr, _, rfl⟩)
      · rw [if_neg (by omega)]
        split
        · exact .inr (.inr ⟨fits, cr, _, rfl⟩)
        · rw [if_neg (by omega), neg_tdiv (by norm_num) r0, if_pos (by omega)]
          exact .inr (.inr ⟨fits, cr, _, rfl⟩)
    · subst r0
      have q : 0 ≤ (2^56 - 1 : Int).tdiv p := Int.tdiv_nonneg (by norm_num) (by omega)
      rw [if_neg (by simp), if_neg (by omega), if_neg (by omega), if_pos rfl]
      exact .inl ⟨⟨hk, .inr (.inl ⟨rfl, .inl p0⟩)⟩, _, rfl⟩
    · rw [Int.emod_eq_of_lt (a := r) (by omega) (by omega), Int.emod_eq_of_lt (a := p) (by omega) (by omega)]
      have pos : 0 < r * p := Int.mul_pos r0 p0
      by_cases hprod : r * p < 2^30
      · have hr2 : r ≤ r * p := by nlinarith
        rw [if_neg (by rw [Int.emod_eq_of_lt (by omega) (by omega)]; omega), if_neg (by omega)]
        rw [if_neg (by
          rintro (h | h)
          · exact absurd h ((not_gt_tdiv (by norm_num) p0).mpr (by omega))
          · omega), if_neg (by omega)]
        by_cases hnr : n * r ≤ 2^56 - 1
        · rw [if_neg ((not_gt_tdiv (by norm_num) r0).mpr hnr)]
          have e : 128 * n * r = 128 * (n * r) := Int.mul_assoc _ _ _
          split
          · exact .inl ⟨⟨hk, .inr (.inr ⟨r0, p0, hprod, by omega, hnr⟩)⟩, _, rfl⟩
          · refine .inr (.inl ⟨⟨hk, r0, p0, hprod, by omega⟩, ?_, rfl⟩)
            rintro ⟨_, h | h | h⟩ <;> omega
        · rw [if_pos (by by_contra hc; exact hnr ((not_gt_tdiv (by norm_num) r0).mp hc))]
          refine .inr (.inr ⟨fun h => ?_, ?_, _, rfl⟩)
          · have := h.2.2.2.2; omega
          · rintro ⟨_, h | h | h⟩ <;> omega
      · have fits : ¬ ScryptFits n r p := fun h => hprod h.2.2.2.1
        have cr : ¬ ScryptCrashes n r p := by rintro ⟨_, h | h | h⟩ <;> omega
        split
        · exact .inr (.inr ⟨fits, cr, _, rfl⟩)
        · rename_i hm
          rw [if_neg (by omega)]
          split
          · exact .inr (.inr ⟨fits, cr, _, rfl⟩)
          · rename_i hg
            exfalso
            have h1 : r * p ≤ 2^56 - 1 := (not_gt_tdiv (by norm_num) p0).mp fun h => hg (.inl h)
            rw [Int.emod_eq_of_lt (by omega) (by omega)] at hm
            omega

/-- `YamlCrashes` with the algorithms of the standards. -/
theorem yamlCrashes_standard (P : Prims) (S : Standard P) (d : PrivDoc) (pw : Bytes)
    (hr : -2^63 ≤ d.r ∧ d.r < 2^63) (hp : -2^63 ≤ d.p ∧ d.p < 2^63) :
    YamlCrashes P d pw ↔ (∃ salt esk, d.salt ≠ [] ∧ d.esk ≠ [] ∧ Base64Text d.salt salt ∧ Base64Text d.esk esk) ∧
      (ScryptCrashes d.n d.r d.p ∨ (ScryptFits d.n d.r d.p ∧ d.salt.length / 4 * 3 < 12)) := by
  unfold YamlCrashes
  rw [S.scrypt]
  constructor
  · rintro ⟨salt, esk, h1, h2, h3, h4, h⟩
    refine ⟨⟨salt, esk, h1, h2, h3, h4⟩, ?_⟩
    rcases scryptKey_cases (P.sha512 pw) salt d.n d.r d.p hr hp with ⟨a, w, b⟩ | ⟨a, a', b⟩ | ⟨a, a', w, b⟩ <;> rw [b] at h
    · exact .inl a
    · rcases h with ⟨w, h⟩ | ⟨_, h⟩
      · cases h
      · exact .inr ⟨a, h⟩
    · rcases h with ⟨w, h⟩ | ⟨⟨_, h⟩, _⟩ <;> cases h
  · rintro ⟨⟨salt, esk, h1, h2, h3, h4⟩, h⟩
    refine ⟨salt, esk, h1, h2, h3, h4, ?_⟩
    rcases scryptKey_cases (P.sha512 pw) salt d.n d.r d.p hr hp with ⟨a, w, b⟩ | ⟨a, a', b⟩ | ⟨a, a', w, b⟩ <;> rw [b]
    · exact .inl ⟨w, rfl⟩
    · rcases h with h | h
      · exact absurd h a'
      · exact .inr ⟨⟨_, rfl⟩, h.2⟩
    · rcases h with h | h
      · exact absurd h a'
      · exact absurd h.1 a


end Sigtool
