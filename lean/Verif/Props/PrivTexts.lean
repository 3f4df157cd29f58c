import Verif.Props.KeyTexts
import Verif.Props.SshPriv
/-! # Exactly which texts are read as private keys: C91 -/

namespace Sigtool

open Spec (Base64Text Takes SshKeyBlock SshSection SshPrivate)

attribute [local irreducible] Spec.sshString Spec.sshUint32

theorem takes_iff (b a r : Bytes) : parseString b = some (a, r) ↔ Takes b a r := parseString_iff b a r

theorem takes_ne (b a r : Bytes) (h : Takes b a r) : b ≠ [] := by
  intro h0
  have h1 := h.1
  rw [h0] at h1
  have := congrArg List.length h1
  rw [List.length_append, sshString_length, List.length_nil] at this
  omega

theorem uint32_iff (b r : Bytes) (n : Nat) : parseUint32 b = some (n, r) ↔ b = Spec.sshUint32 n ++ r ∧ n < 2^32 := by
  constructor
  · intro h
    unfold parseUint32 at h
    split at h
    · cases h
    · rename_i hl
      cases h
      refine ⟨?_, be32dec_lt b⟩
      rw [sshUint32_be32, be32_take4 b (by omega), List.take_append_drop]
  · rintro ⟨rfl, h⟩
    exact parseUint32_sshUint32 n r h

theorem uint32_ne (n : Nat) (r : Bytes) : Spec.sshUint32 n ++ r ≠ [] := by
  intro h
  have := congrArg List.length h
  rw [List.length_append, sshUint32_length, List.length_nil] at this
  omega

theorem header_iff (b cipher kdf opts pub priv : Bytes) (n : Nat) : unmarshalHeader b = some ⟨cipher, kdf, opts, n, pub, priv⟩ ↔
    ∃ r1 r2 r4 r5, n < 2^32 ∧ Takes b cipher r1 ∧ Takes r1 kdf r2 ∧ Takes r2 opts (Spec.sshUint32 n ++ r4) ∧ Takes r4 pub r5 ∧ Takes r5 priv [] := by
  constructor
  · intro h
    unfold unmarshalHeader at h
    split at h
    · cases h
    · simp only [Option.bind_eq_bind, Option.bind_eq_some_iff] at h
      obtain ⟨⟨a1, r1⟩, g1, ⟨a2, r2⟩, g2, ⟨a3, r3⟩, g3, ⟨a4, r4⟩, g4, ⟨a5, r5⟩, g5, ⟨a6, r6⟩, g6, g7⟩ := h
      dsimp only at g2 g3 g4 g5 g6 g7
      split at g7
      · rename_i h0
        subst h0
        cases g7
        rw [uint32_iff] at g4
        rw [takes_iff] at g1 g2 g3 g5 g6
        rw [g4.1] at g3
        exact ⟨r1, r2, r4, r5, g4.2, g1, g2, g3, g5, g6⟩
      · cases g7
  · rintro ⟨r1, r2, r4, r5, h0, h1, h2, h3, h4, h5⟩
    exact unmarshalHeader_steps _ _ _ _ _ _ _ _ _ _ _ _ (takes_ne _ _ _ h1) ((takes_iff _ _ _).mpr h1) ((takes_iff _ _ _).mpr h2)
      ((takes_iff _ _ _).mpr h3) ((uint32_iff _ _ _).mpr ⟨rfl, h0⟩) ((takes_iff _ _ _).mpr h4) ((takes_iff _ _ _).mpr h5)

theorem key_iff (b kt r : Bytes) (c1 c2 : Nat) : unmarshalKey b = some (c1, c2, kt, r) ↔
    ∃ r0, c1 < 2^32 ∧ c2 < 2^32 ∧ b = Spec.sshUint32 c1 ++ (Spec.sshUint32 c2 ++ r0) ∧ Takes r0 kt r := by
  constructor
  · intro h
    unfold unmarshalKey at h
    split at h
    · cases h
    · simp only [Option.bind_eq_bind, Option.bind_eq_some_iff] at h
      obtain ⟨⟨a1, r1⟩, g1, ⟨a2, r2⟩, g2, ⟨a3, r3⟩, g3, g4⟩ := h
      dsimp only at g2 g3 g4
      cases g4
      rw [uint32_iff] at g1 g2
      rw [takes_iff] at g3
      exact ⟨r2, g1.2, g2.2, by rw [g1.1, g2.1], g3⟩
  · rintro ⟨r0, h1, h2, rfl, h3⟩
    exact unmarshalKey_steps _ _ _ _ _ _ _ (uint32_ne _ _) ((uint32_iff _ _ _).mpr ⟨rfl, h1⟩) ((uint32_iff _ _ _).mpr ⟨rfl, h2⟩)
      ((takes_iff _ _ _).mpr h3)

theorem ed_iff (b pub priv comment pad : Bytes) : unmarshalEd b = some (pub, priv, comment, pad) ↔
    ∃ r2 r3, Takes b pub r2 ∧ Takes r2 priv r3 ∧ Takes r3 comment pad := by
  constructor
  · intro h
    unfold unmarshalEd at h
    split at h
    · cases h
    · simp only [Option.bind_eq_bind, Option.bind_eq_some_iff] at h
      obtain ⟨⟨a1, r1⟩, g1, ⟨a2, r2⟩, g2, ⟨a3, r3⟩, g3, g4⟩ := h
      dsimp only at g2 g3 g4
      cases g4
      rw [takes_iff] at g1 g2 g3
      exact ⟨r1, r2, g1, g2, g3⟩
  · rintro ⟨r2, r3, h1, h2, h3⟩
    exact unmarshalEd_steps _ _ _ _ _ _ _ (takes_ne _ _ _ h1) ((takes_iff _ _ _).mpr h1) ((takes_iff _ _ _).mpr h2)
      ((takes_iff _ _ _).mpr h3)

/-- The key that 64 secret bytes are. -/
theorem openSection_exact (P : Prims) (s : Bytes) (enc : Bool) (sk : PrivateKey) : openSection P s enc = .ok sk ↔
    ∃ secret, SshSection s secret ∧
      sk = { sk := secret, pub := { pk := secret.drop 32, hash := (P.sha256 (secret.drop 32)).take 16 } } := by
  constructor
  · intro h
    match hu : unmarshalKey s with
    | none =>
      unfold openSection at h
      rw [hu] at h
      cases h
    | some (c1, c2, kt, r) =>
      match he : unmarshalEd r with
      | none =>
        unfold openSection at h
        rw [hu] at h
        dsimp only at h
        rw [he] at h
        dsimp only at h
        split at h
        · cases h
        · split at h <;> cases h
      | some (pub, priv, comment, pad) =>
        obtain ⟨h1, h2, h3, h4, h5⟩ := (openSection_steps P enc s r c1 c2 kt pub priv comment pad hu he sk).mp h
        obtain ⟨r0, k1, k2, k3, k4⟩ := (key_iff _ _ _ _ _).mp hu
        obtain ⟨r2, r3, j1, j2, j3⟩ := (ed_iff _ _ _ _ _).mp he
        subst h1 h2
        refine ⟨priv, ⟨c1, pub, comment, pad, r0, r, r2, r3, k1, by rw [k3]; simp, by rw [← algo_spec]; exact k4, j1, j2, j3, h3,
          (padOk_spec pad).mp h4⟩, h5⟩
  · rintro ⟨secret, ⟨c, pub, comment, pad, r0, r1, r2, r3, h1, h2, h3, h4, h5, h6, h7, h8⟩, rfl⟩
    refine (openSection_steps P enc s r1 c c algoEd25519 pub secret comment pad ?_ ?_ _).mpr ⟨rfl, rfl, h7, (padOk_spec pad).mpr h8, rfl⟩
    · exact (key_iff _ _ _ _ _).mpr ⟨r0, h1, h1, by rw [h2]; simp, by rw [algo_spec]; exact h3⟩
    · exact (ed_iff _ _ _ _ _).mpr ⟨r2, r3, h4, h5, h6⟩

theorem none_ascii : ascii "none" = "none".toUTF8.toList := by decide +kernel

theorem opts_iff (b salt : Bytes) (rounds : Nat) : unmarshalOpts b = some (salt, rounds) ↔ Takes b salt (Spec.sshUint32 rounds) ∧ rounds < 2^32 := by
  constructor
  · intro h
    unfold unmarshalOpts at h
    split at h
    · cases h
    · simp only [Option.bind_eq_bind, Option.bind_eq_some_iff] at h
      obtain ⟨⟨a1, r1⟩, g1, ⟨a2, r2⟩, g2, g3⟩ := h
      dsimp only at g2 g3
      split at g3
      · rename_i h0
        subst h0
        cases g3
        rw [takes_iff] at g1
        rw [uint32_iff, List.append_nil] at g2
        rw [g2.1] at g1
        exact ⟨g1, g2.2⟩
      · cases g3
  · rintro ⟨h1, h2⟩
    unfold unmarshalOpts
    rw [if_neg (takes_ne _ _ _ h1), (takes_iff _ _ _).mpr h1]
    have := (uint32_iff (Spec.sshUint32 rounds) [] rounds).mpr ⟨by simp, h2⟩
    simp only [Option.bind_eq_bind, Option.bind_some, this, if_true]

theorem bcrypt_iff (P : Prims) (pw opts key iv : Bytes) : bcryptIvKey P pw opts = .ok (key, iv) ↔
    ∃ salt rounds k, Takes opts salt (Spec.sshUint32 rounds) ∧ rounds < 2^32 ∧ P.bcryptPbkdf pw salt rounds 48 = some k ∧
      key = k.take 32 ∧ iv = k.drop 32 := by
  constructor
  · intro h
    unfold bcryptIvKey at h
    split at h
    · cases h
    · rename_i salt rounds ho
      split at h
      · cases h
      · rename_i k hk
        cases h
        rw [opts_iff] at ho
        exact ⟨salt, rounds, k, ho.1, ho.2, hk, rfl, rfl⟩
  · rintro ⟨salt, rounds, k, h1, h2, h3, rfl, rfl⟩
    unfold bcryptIvKey
    rw [(opts_iff _ _ _).mpr ⟨h1, h2⟩]
    dsimp only
    rw [h3]

theorem callPw_iff (g : GetPw) (pw : Bytes) : callPw g = .ok pw ↔ g = some (.ok pw) := by
  unfold callPw
  split
  · simp
  · simp
  · simp

/-- The private section after decryption, exactly. -/
theorem privateSection_iff (P : Prims) (w : SshHeader) (g : GetPw) (s : Bytes) (enc : Bool) :
    privateSection P w g = .ok (s, enc) ↔
      (enc = false ∧ w.kdf = "none".toUTF8.toList ∧ w.cipher = "none".toUTF8.toList ∧ s = w.priv) ∨
      (enc = true ∧ ∃ (c : SshCipher) (pw salt k : Bytes) (rounds : Nat), g = some (.ok pw) ∧ w.kdf = "bcrypt".toUTF8.toList ∧ w.cipher = c.name ∧
        Takes w.kdfOpts salt (Spec.sshUint32 rounds) ∧ rounds < 2^32 ∧ P.bcryptPbkdf pw salt rounds 48 = some k ∧
        (c = .cbc → w.priv.length % 16 = 0) ∧ s = c.dec P (k.take 32) (k.drop 32) w.priv) := by
  rw [← none_ascii, ← bcrypt_ascii]
  constructor
  · intro h
    unfold privateSection at h
    split at h
    · rename_i hc
      rw [bind_ok_iff] at h
      obtain ⟨pw, h1, h⟩ := h
      rw [bind_ok_iff] at h
      obtain ⟨⟨key, iv⟩, h2, h⟩ := h
      dsimp only at h
      split at h
      · cases h
      · rename_i h16
        cases h
        obtain ⟨salt, rounds, k, k1, k2, k3, rfl, rfl⟩ := (bcrypt_iff _ _ _ _ _).mp h2
        exact .inr ⟨rfl, .cbc, pw, salt, k, rounds, (callPw_iff _ _).mp h1, hc.1, by rw [SshCipher.name_cbc]; exact hc.2, k1, k2, k3,
          fun _ => not_not.mp h16, rfl⟩
    · split at h
      · rename_i hc
        rw [bind_ok_iff] at h
        obtain ⟨pw, h1, h⟩ := h
        rw [bind_ok_iff] at h
        obtain ⟨⟨key, iv⟩, h2, h⟩ := h
        dsimp only at h
        cases h
        obtain ⟨salt, rounds, k, k1, k2, k3, rfl, rfl⟩ := (bcrypt_iff _ _ _ _ _).mp h2
        exact .inr ⟨rfl, .ctr, pw, salt, k, rounds, (callPw_iff _ _).mp h1, hc.1, by rw [SshCipher.name_ctr]; exact hc.2, k1, k2, k3,
          fun h => (by cases h), rfl⟩
      · split at h
        · rename_i hc
          cases h
          exact .inl ⟨rfl, hc.1, hc.2, rfl⟩
        · cases h
  · rintro (⟨rfl, h1, h2, rfl⟩ | ⟨rfl, c, pw, salt, k, rounds, rfl, h1, h2, h3, h4, h5, h6, rfl⟩)
    · unfold privateSection
      have n1 : ascii "none" ≠ ascii "bcrypt" := by decide +kernel
      rw [if_neg (by rw [h1]; exact fun h => n1 h.1), if_neg (by rw [h1]; exact fun h => n1 h.1), if_pos ⟨h1, h2⟩]
    · have hb := (bcrypt_iff P pw w.kdfOpts _ _).mpr ⟨salt, rounds, k, h3, h4, h5, rfl, rfl⟩
      unfold privateSection
      cases c with
      | cbc =>
        rw [SshCipher.name_cbc] at h2
        rw [if_pos ⟨h1, h2⟩]
        simp only [callPw, Res.bind_ok, hb]
        rw [if_neg (not_not.mpr (h6 rfl))]
        rfl
      | ctr =>
        rw [SshCipher.name_ctr] at h2
        rw [if_neg (by rw [h2]; exact fun h => ctr_ne_cbc h.2), if_pos ⟨h1, h2⟩]
        simp only [callPw, Res.bind_ok, hb]
        rfl

/-- The content of an OpenSSH private key block, exactly. -/
theorem openSSH_iff (P : Prims) (raw : Bytes) (slack : Nat) (g : GetPw) (sk : PrivateKey) :
    parseOpenSSHPrivateKey P raw slack g = .ok sk ↔ ∃ secret, SshPrivate P raw g secret ∧
      sk = { sk := secret, pub := { pk := secret.drop 32, hash := (P.sha256 (secret.drop 32)).take 16 } } := by
  have hstart : ∀ raw : Bytes, (∃ m, reslice raw slack sshMagic.length = .ok m ∧ m = sshMagic ∧ ¬ raw.length < sshMagic.length) ↔
      ∃ r0, raw = sshMagic ++ r0 := by
    intro raw
    constructor
    · rintro ⟨m, h1, rfl, h2⟩
      rw [reslice_long _ _ _ (by omega)] at h1
      simp only [Res.ok.injEq] at h1
      exact ⟨raw.drop sshMagic.length, by conv_lhs => rw [← List.take_append_drop sshMagic.length raw, h1]⟩
    · rintro ⟨r0, rfl⟩
      refine ⟨sshMagic, ?_, rfl, by rw [List.length_append]; omega⟩
      rw [reslice_long _ _ _ (by rw [List.length_append]; omega), List.take_left]
  have hmain : parseOpenSSHPrivateKey P raw slack g = .ok sk ↔ ∃ r0 cipher kdf opts pub priv s enc, raw = sshMagic ++ r0 ∧
      unmarshalHeader r0 = some ⟨cipher, kdf, opts, 1, pub, priv⟩ ∧ privateSection P ⟨cipher, kdf, opts, 1, pub, priv⟩ g = .ok (s, enc) ∧
      openSection P s enc = .ok sk := by
    constructor
    · intro h
      unfold parseOpenSSHPrivateKey at h
      rw [bind_ok_iff] at h
      obtain ⟨m, h1, h⟩ := h
      split at h
      · cases h
      · rename_i hm
        split at h
        · cases h
        · rename_i hl
          obtain ⟨r0, rfl⟩ := (hstart raw).mp ⟨m, h1, not_not.mp hm, hl⟩
          rw [List.drop_left] at h
          split at h
          · cases h
          · rename_i w hw
            split at h
            · cases h
            · rename_i hn
              rw [bind_ok_iff] at h
              obtain ⟨⟨s, enc⟩, h3, h4⟩ := h
              obtain ⟨cipher, kdf, opts, n, pub, priv⟩ := w
              have hn : n = 1 := not_not.mp hn
              subst hn
              exact ⟨r0, cipher, kdf, opts, pub, priv, s, enc, rfl, hw, h3, h4⟩
    · rintro ⟨r0, cipher, kdf, opts, pub, priv, s, enc, rfl, h1, h2, h3⟩
      obtain ⟨m, k1, k2, k3⟩ := (hstart (sshMagic ++ r0)).mpr ⟨r0, rfl⟩
      unfold parseOpenSSHPrivateKey
      rw [k1, Res.bind_ok, if_neg (not_not.mpr k2), if_neg k3, List.drop_left, h1]
      dsimp only
      rw [if_neg (not_not.mpr rfl), h2, Res.bind_ok]
      exact h3
  have hblock : ∀ cipher kdf opts priv, SshKeyBlock raw cipher kdf opts priv ↔ ∃ r0 pub, raw = sshMagic ++ r0 ∧
      unmarshalHeader r0 = some ⟨cipher, kdf, opts, 1, pub, priv⟩ := by
    intro cipher kdf opts priv
    unfold SshKeyBlock
    rw [← magic_spec]
    constructor
    · rintro ⟨pub, r0, r1, r2, r4, r5, h0, h1, h2, h3, h4, h5⟩
      exact ⟨r0, pub, h0, (header_iff _ _ _ _ _ _ _).mpr ⟨r1, r2, r4, r5, by decide, h1, h2, h3, h4, h5⟩⟩
    · rintro ⟨r0, pub, h0, h⟩
      obtain ⟨r1, r2, r4, r5, _, h1, h2, h3, h4, h5⟩ := (header_iff _ _ _ _ _ _ _).mp h
      exact ⟨pub, r0, r1, r2, r4, r5, h0, h1, h2, h3, h4, h5⟩
  rw [hmain]
  constructor
  · rintro ⟨r0, cipher, kdf, opts, pub, priv, s, enc, h0, h1, h2, h3⟩
    obtain ⟨secret, hs, hsk⟩ := (openSection_exact P s enc sk).mp h3
    refine ⟨secret, ?_, hsk⟩
    rcases (privateSection_iff P _ g s enc).mp h2 with ⟨_, k1, k2, rfl⟩ | ⟨_, c, pw, salt, k, rounds, k1, k2, k3, k4, k5, k6, k7, rfl⟩
    · dsimp only at k1 k2
      subst k1 k2
      exact .plain opts _ ((hblock _ _ _ _).mpr ⟨r0, pub, h0, h1⟩) hs
    · dsimp only at k2 k3 k4 k7
      subst k2 k3
      exact .locked c pw opts priv salt k rounds k1 ((hblock _ _ _ _).mpr ⟨r0, pub, h0, h1⟩) k4 k5 k6 k7 hs
  · rintro ⟨secret, h, hsk⟩
    cases h with
    | plain opts priv hb hs =>
      obtain ⟨r0, pub, h0, h1⟩ := (hblock _ _ _ _).mp hb
      exact ⟨r0, _, _, opts, pub, priv, priv, false, h0, h1, (privateSection_iff P _ g _ _).mpr (.inl ⟨rfl, rfl, rfl, rfl⟩),
        (openSection_exact P _ _ sk).mpr ⟨secret, hs, hsk⟩⟩
    | locked c pw opts ct salt k rounds h1 hb h3 h4 h5 h6 hs =>
      obtain ⟨r0, pub, h0, hh⟩ := (hblock _ _ _ _).mp hb
      exact ⟨r0, _, _, opts, pub, ct, _, true, h0, hh,
        (privateSection_iff P _ g _ _).mpr (.inr ⟨rfl, c, pw, salt, k, rounds, h1, rfl, rfl, h3, h4, h5, h6, rfl⟩),
        (openSection_exact P _ _ sk).mpr ⟨secret, hs, hsk⟩⟩

theorem looksOpenSSH_iff (b : Bytes) : looksOpenSSH b = true ↔ Spec.SaysOpenSSH b := by
  constructor
  · intro h
    by_cases h1 : Spec.marker <:+: b
    · refine ⟨h1, fun h2 => ?_⟩
      have : looksOpenSSH b = false := by
        unfold looksOpenSSH
        rw [marker_eq]
        obtain ⟨t, rfl⟩ := h2
        have e : indexOf Spec.marker (Spec.marker ++ t) = some 0 := by
          have hm : Spec.marker = 79 :: Spec.marker.tail := by decide +kernel
          rw [hm, List.cons_append, indexOf, if_pos]
          rw [List.isPrefixOf_iff_prefix]
          exact ⟨t, rfl⟩
        rw [e]
        rfl
      rw [this] at h
      cases h
    · rw [looksOpenSSH_false b h1] at h
      cases h
  · rintro ⟨h1, h2⟩
    exact looksOpenSSH_true b h1 h2

theorem reslice_12 (salt text nonce : Bytes) (h : salt.length ≤ Base64.decodedLen text) :
    reslice salt (Base64.decodedLen text - salt.length) 12 = .ok nonce ↔
      12 ≤ max salt.length (text.length / 4 * 3) ∧ nonce = (salt ++ List.replicate 12 0).take 12 := by
  unfold Base64.decodedLen at h ⊢
  unfold reslice
  have hm : max salt.length (text.length / 4 * 3) = text.length / 4 * 3 := by omega
  rw [hm]
  by_cases h12 : 12 ≤ text.length / 4 * 3
  · rw [if_pos (by omega)]
    have e : (salt ++ List.replicate (text.length / 4 * 3 - salt.length) 0).take 12 = (salt ++ List.replicate 12 (0 : UInt8)).take 12 := by
      rw [List.take_append, List.take_append, List.take_replicate, List.take_replicate]
      congr 2
      omega
    rw [e]
    simp only [Res.ok.injEq]
    exact ⟨fun h => ⟨h12, h.symm⟩, fun h => h.2.symm⟩
  · rw [if_neg (by omega)]
    constructor
    · intro h; cases h
    · rintro ⟨h, _⟩; exact absurd h h12

theorem yamlPriv_iff (P : Prims) (Y : Yaml) (b pw : Bytes) (sk : PrivateKey) : unmarshalPrivYaml P Y b pw = .ok sk ↔
    ∃ d secret, Y.readPriv b = some d ∧ Spec.YamlPrivate P d pw secret ∧
      sk = { sk := secret, pub := { pk := secret.drop 32, hash := (P.sha256 (secret.drop 32)).take 16 } } := by
  unfold unmarshalPrivYaml
  match hr : Y.readPriv b with
  | none =>
    simp only [orErr, Res.bind]
    constructor
    · intro h; cases h
    · rintro ⟨d, _, h, _⟩; cases h
  | some d =>
    simp only [orErr, Res.bind_ok]
    constructor
    · intro h
      refine ⟨d, ?_⟩
      split at h
      · cases h
      · rename_i hne
        rw [bind_ok_iff] at h
        obtain ⟨salt, h1, h⟩ := h
        rw [bind_ok_iff] at h
        obtain ⟨esk, h2, h⟩ := h
        split at h1
        · rename_i s hs
          cases h1
          split at h2
          · rename_i e he
            cases h2
            split at h
            · cases h
            · cases h
            · rename_i key hk
              rw [bind_ok_iff] at h
              obtain ⟨nonce, h3, h⟩ := h
              obtain ⟨h12, rfl⟩ := (reslice_12 _ _ _ (Base64.decode_length _ _ hs)).mp h3
              split at h
              · cases h
              · rename_i skb ho
                unfold makePrivateKeyFromBytes at h
                split at h
                · cases h
                · rename_i hl
                  cases h
                  exact ⟨skb, rfl, ⟨salt, esk, key, fun hh => hne (.inl hh), fun hh => hne (.inr hh), (C34_exact _ _).mp hs,
                    (C34_exact _ _).mp he, hk, h12, ho, not_not.mp hl⟩, rfl⟩
          · cases h2
        · cases h1
    · rintro ⟨d', secret, hd, ⟨salt, esk, key, h1, h2, h3, h4, h5, h6, h7, h8⟩, rfl⟩
      cases hd
      have e3 := (C34_exact _ _).mpr h3
      rw [if_neg (by rintro (h | h); exacts [h1 h, h2 h]), e3]
      dsimp only [Res.bind]
      rw [(C34_exact _ _).mpr h4]
      dsimp only [Res.bind]
      rw [h5]
      dsimp only
      rw [(reslice_12 _ _ _ (Base64.decode_length _ _ e3)).mpr ⟨h6, rfl⟩]
      dsimp only
      rw [h7]
      dsimp only
      unfold makePrivateKeyFromBytes
      rw [if_neg (not_not.mpr h8)]
      rfl

/-- **C91**.  `MakePrivateKey` returns a key exactly in these cases.  The words of the PEM header occur in the text, not at its beginning:
then the PEM decoder must find an unencrypted block of that type in it whose content is an OpenSSH private key with one Ed25519 key, in
the clear, or encrypted with AES-256 in CBC or CTR mode under the key that `bcrypt_pbkdf` derives from the pass phrase the callback
returns.  Otherwise: the callback (if there is one) must return a pass phrase, and the YAML library must find salt, sealed key and
parameters for which the derived key opens the sealed key to 64 bytes.  The key then is these secret bytes. -/
theorem C91_private (P : Prims) (Y : Yaml) (pem : Bytes → Option PemBlock) (b : Bytes) (ask : Option (Except Err Bytes)) (sk : PrivateKey) :
    makePrivateKey P Y pem b ask = .ok sk ↔
      ∃ secret, ((Spec.SaysOpenSSH b ∧ (∃ blk, pem b = some blk ∧ blk.legacyEncrypted = false ∧
            blk.typ = "OPENSSH PRIVATE KEY".toUTF8.toList ∧ SshPrivate P blk.bytes ask secret)) ∨
          (¬ Spec.SaysOpenSSH b ∧ ∃ pw d, ((ask = none ∧ pw = []) ∨ ask = some (.ok pw)) ∧ Y.readPriv b = some d ∧ Spec.YamlPrivate P d pw secret)) ∧
        sk = { sk := secret, pub := { pk := secret.drop 32, hash := (P.sha256 (secret.drop 32)).take 16 } } := by
  have ht : ascii "OPENSSH PRIVATE KEY" = "OPENSSH PRIVATE KEY".toUTF8.toList := by decide +kernel
  unfold makePrivateKey
  by_cases hs : Spec.SaysOpenSSH b
  · rw [if_pos ((looksOpenSSH_iff b).mpr hs)]
    unfold parseSSHPrivateKey
    rw [← ht]
    constructor
    · intro h
      split at h
      · cases h
      · rename_i blk hb
        split at h
        · cases h
        · rename_i hl
          split at h
          · rename_i hty
            obtain ⟨secret, h1, h2⟩ := (openSSH_iff P _ _ _ _).mp h
            exact ⟨secret, .inl ⟨hs, blk, hb, by simpa using hl, hty, h1⟩, h2⟩
          · cases h
    · rintro ⟨secret, ⟨_, blk, h1, h2, h3, h4⟩ | ⟨h, _⟩, h5⟩
      · rw [h1]
        dsimp only
        rw [if_neg (by rw [h2]; decide), if_pos h3]
        exact (openSSH_iff P _ _ _ _).mpr ⟨secret, h4, h5⟩
      · exact absurd hs h
  · rw [if_neg (fun h => hs ((looksOpenSSH_iff b).mp h)), bind_ok_iff]
    have hpw : ∀ pw, optPw ask = .ok pw ↔ (ask = none ∧ pw = []) ∨ ask = some (.ok pw) := by
      intro pw
      unfold optPw
      split
      · simp [eq_comm]
      · simp
      · simp
    constructor
    · rintro ⟨pw, h1, h2⟩
      obtain ⟨d, secret, k1, k2, k3⟩ := (yamlPriv_iff P Y b pw sk).mp h2
      exact ⟨secret, .inr ⟨hs, pw, d, (hpw pw).mp h1, k1, k2⟩, k3⟩
    · rintro ⟨secret, ⟨h, _⟩ | ⟨_, pw, d, h1, h2, h3⟩, h4⟩
      · exact absurd h hs
      · exact ⟨pw, (hpw pw).mpr h1, (yamlPriv_iff P Y b pw sk).mpr ⟨d, secret, h2, h3, h4⟩⟩

end Sigtool
