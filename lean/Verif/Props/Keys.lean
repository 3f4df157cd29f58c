import Verif.Keys
import Verif.SshLemmas
import Verif.Roundtrip
import Verif.Spec.Sign
import Verif.Spec.Ssh
/-! # Key serialisation: C35, C36, C37, C38, C39, C40, C41 -/

namespace Sigtool

/-! ### Searching for the OpenSSH marker -/

theorem marker_eq : ascii "OPENSSH PRIVATE KEY-" = Spec.marker := by decide +kernel

theorem indexOf_none (pat : Bytes) (hp : pat ≠ []) : ∀ b, ¬ pat <:+: b → indexOf pat b = none
  | [], _ => by unfold indexOf; rw [if_neg hp]
  | c :: t, h => by
    unfold indexOf
    rw [if_neg, indexOf_none pat hp t]
    · rfl
    · intro hi; exact h (List.IsInfix.trans hi ⟨[c], [], by simp⟩)
    · intro hpre; exact h (List.isPrefixOf_iff_prefix.mp hpre).isInfix

theorem indexOf_some (pat : Bytes) : ∀ b, pat <:+: b → ∃ n, indexOf pat b = some n ∧ pat <+: b.drop n
  | [], h => by
    have : pat = [] := List.infix_nil.mp h
    subst this
    exact ⟨0, by simp [indexOf], by simp⟩
  | c :: t, h => by
    unfold indexOf
    by_cases hp : pat.isPrefixOf (c :: t) = true
    · rw [if_pos hp]; exact ⟨0, rfl, List.isPrefixOf_iff_prefix.mp hp⟩
    · rw [if_neg hp]
      rcases List.infix_cons_iff.mp h with h1 | h1
      · exact absurd (List.isPrefixOf_iff_prefix.mpr h1) hp
      · obtain ⟨n, e1, e2⟩ := indexOf_some pat t h1
        exact ⟨n + 1, by rw [e1]; rfl, by simpa using e2⟩

theorem looksOpenSSH_false (b : Bytes) (h : ¬ Spec.marker <:+: b) : looksOpenSSH b = false := by
  unfold looksOpenSSH
  rw [marker_eq, indexOf_none _ (by decide +kernel) b h]

theorem looksOpenSSH_true (b : Bytes) (h : Spec.marker <:+: b) (h0 : ¬ Spec.marker <+: b) : looksOpenSSH b = true := by
  unfold looksOpenSSH
  rw [marker_eq]
  obtain ⟨n, e1, e2⟩ := indexOf_some _ b h
  rw [e1]
  match n with
  | 0 => exact absurd (by simpa using e2) h0
  | n + 1 => simp

/-- A pattern without the byte `c` occurs on one side of each `c`. -/
theorem infix_cut (pat x y : Bytes) (c : UInt8) (hc : c ∉ pat) (h : pat <:+: x ++ c :: y) : pat <:+: x ∨ pat <:+: y := by
  rw [List.infix_append_iff] at h
  rcases h with h | h | ⟨t₁, t₂, he, hs, hp⟩
  · exact .inl h
  · rcases List.infix_cons_iff.mp h with h | h
    · match pat with
      | [] => exact .inl (List.nil_infix)
      | d :: p =>
        have := (List.cons_prefix_cons.mp h).1
        subst this
        exact absurd (by simp) hc
    · exact .inr h
  · match t₂ with
    | [] =>
      rw [List.append_nil] at he; subst he; exact .inl hs.isInfix
    | d :: p =>
      have := (List.cons_prefix_cons.mp hp).1
      subst this
      exact absurd (by rw [he]; simp) hc

theorem marker_not_b64 (x : Bytes) : ¬ Spec.marker <:+: Base64.encode x := by
  intro h
  have h32 : (32 : UInt8) ∈ Base64.encode x := h.mem (by decide +kernel)
  have := b64_not_blank x 32 h32
  exact absurd this (by decide)

theorem marker_sp (x : Bytes) (h : ¬ Spec.marker <:+: x) : ¬ Spec.marker <:+: 32 :: x := by
  intro hi
  rcases List.infix_cons_iff.mp hi with h1 | h1
  · have e : Spec.marker = 79 :: Spec.marker.tail := by decide +kernel
    rw [e] at h1
    exact absurd (List.cons_prefix_cons.mp h1).1 (by decide)
  · exact h h1

/-- A text cut at colons and line feeds. -/
theorem marker_line (key v t : Bytes) (hk : ¬ Spec.marker <:+: key) (hv : ¬ Spec.marker <:+: v)
    (ht : ¬ Spec.marker <:+: t) : ¬ Spec.marker <:+: key ++ ascii ": " ++ v ++ ascii "\n" ++ t := by
  have e : key ++ ascii ": " ++ v ++ ascii "\n" ++ t = key ++ 58 :: ((32 :: v) ++ 10 :: t) := by
    have h1 : ascii ": " = [58, 32] := by decide +kernel
    have h2 : ascii "\n" = [10] := by decide +kernel
    rw [h1, h2]; simp
  rw [e]
  intro h
  rcases infix_cut _ _ _ _ (by decide +kernel) h with h | h
  · exact hk h
  · rcases infix_cut _ _ _ _ (by decide +kernel) h with h | h
    · exact marker_sp v hv h
    · exact ht h

/-- The text of a private key contains the marker only if the comment does. -/
theorem privText_marker (Y : Yaml) (YL : Y.Laws) (comment x y : Bytes) (hx : x.length % 3 ≠ 0) (hy : y.length % 3 ≠ 0)
    (hc : comment = [] ∨ ¬ Spec.marker <:+: Y.scalar comment) :
    ¬ Spec.marker <:+: Y.privText comment (Base64.encode x) (Base64.encode y) := by
  have hn : ∀ x : Bytes, x.length % 3 ≠ 0 → Base64.encode x ≠ [] := by
    intro x hx h
    have := Base64.encode_length x
    rw [h] at this
    simp at this; omega
  have h0 : ¬ Spec.marker <:+: ascii "algo: scrypt-sha256\nZ: 524288\nr: 8\np: 1\n" := by decide +kernel
  have h1 : ¬ Spec.marker <:+: Y.line "salt" (Base64.encode y) true ++ ascii "algo: scrypt-sha256\nZ: 524288\nr: 8\np: 1\n" := by
    unfold Yaml.line
    rw [if_neg (fun h => hn y hy h.2), YL.plain y hy]
    exact marker_line _ _ _ (by decide +kernel) (marker_not_b64 y) h0
  have h2 : ¬ Spec.marker <:+: Y.line "esk" (Base64.encode x) false ++ (Y.line "salt" (Base64.encode y) true ++
      ascii "algo: scrypt-sha256\nZ: 524288\nr: 8\np: 1\n") := by
    rw [Yaml.line, if_neg (by simp), YL.plain x hx]
    exact marker_line _ _ _ (by decide +kernel) (marker_not_b64 x) h1
  unfold Yaml.privText
  simp only [List.append_assoc]
  rw [Yaml.line]
  split
  · simpa using h2
  · rename_i hne
    have hc' : ¬ Spec.marker <:+: Y.scalar comment := by
      rcases hc with hc | hc
      · exact absurd ⟨rfl, hc⟩ hne
      · exact hc
    have := marker_line (ascii "comment") (Y.scalar comment) _ (by decide +kernel) hc' h2
    simpa only [List.append_assoc] using this

/-! ### Private keys -/

theorem reslice_long (x : Bytes) (slack n : Nat) (h : n ≤ x.length) : reslice x slack n = .ok (x.take n) := by
  unfold reslice
  rw [if_pos (by omega), List.take_append_of_le_length h]

/-- The YAML text of a private key, read with some passphrase. -/
theorem unmarshalPrivYaml_marshal (P : Prims) (L : Laws P) (Y : Yaml) (comment : Bytes) (hY : Y.Reads comment)
    (sk : PrivateKey) (hk : sk.sk.length = 64) (salt : Bytes) (hs : salt.length = 32) (key key' pw' : Bytes)
    (hkey : key.length = 32) (hkey' : P.scrypt (P.sha512 pw') salt 524288 8 1 = .ok key') :
    unmarshalPrivYaml P Y (Y.privText comment (Base64.encode (P.aeadSeal key (salt.take 12) sk.sk [])) (Base64.encode salt)) pw' =
      match P.aeadOpen key' (salt.take 12) (P.aeadSeal key (salt.take 12) sk.sk []) [] with
      | none => .err (.msg "unmarshal priv key: wrong password")
      | some skb => makePrivateKeyFromBytes P skb := by
  have hn : (salt.take 12).length = 12 := by rw [List.length_take]; omega
  have hne : ∀ x : Bytes, 0 < x.length → Base64.encode x ≠ [] := by
    intro x hx h
    have := Base64.encode_length x
    rw [h] at this
    simp at this; omega
  have he : (P.aeadSeal key (salt.take 12) sk.sk []).length = 80 := by
    rw [L.seal_len _ _ _ _ hkey hn (by omega), hk]
  unfold unmarshalPrivYaml
  rw [hY.priv]
  simp only [orErr, Res.bind_ok]
  rw [if_neg]
  · simp only [Base64.decode_encode, Res.bind_ok]
    rw [hkey']
    dsimp only
    rw [reslice_long _ _ _ (by omega)]
    rfl
  · rintro (h | h)
    · exact hne salt (by omega) h
    · exact hne _ (by omega) h

/-- **C35**.  A private key that is serialised with a passphrase and read back with a callback that returns that passphrase
(or, for the empty passphrase, with no callback) is the same key with the same public key and hash.  Hypotheses: the YAML
library reads back documents with this comment, and what it writes for the comment does not contain the text
`OPENSSH PRIVATE KEY-`.  `_partial`: the property is about every comment; `C35_roundtrip_refuted` shows that the last
hypothesis is needed. -/
theorem C35_roundtrip_partial (P : Prims) (L : Laws P) (Y : Yaml) (YL : Y.Laws) (pem : Bytes → Option PemBlock)
    (comment : Bytes) (hY : Y.Reads comment) (hc : comment = [] ∨ ¬ Spec.marker <:+: Y.scalar comment)
    (sk : PrivateKey) (hk : sk.Genuine P) (pw salt : Bytes) (hs : salt.length = 32)
    (getpw : GetPw) (hg : getpw = some (.ok pw) ∨ (pw = [] ∧ getpw = none)) :
    ∃ text sk', sk.marshal P Y comment pw salt = .ok text ∧ makePrivateKey P Y pem text getpw = .ok sk' ∧
      sk'.sk = sk.sk ∧ sk'.pub.pk = sk.pub.pk ∧ sk'.pub.hash = sk.pub.hash := by
  obtain ⟨seed, h1, h2, h3, h4⟩ := hk
  have hl : sk.sk.length = 64 := by rw [h2, List.length_append, h1, L.ed_pub_len _ h1]
  obtain ⟨key, hkey⟩ := L.scrypt_ok (P.sha512 pw) salt
  have hkl := L.scrypt_len _ _ _ _ _ _ hkey
  have hn : (salt.take 12).length = 12 := by rw [List.length_take]; omega
  have he : (P.aeadSeal key (salt.take 12) sk.sk []).length = 80 := by
    rw [L.seal_len _ _ _ _ hkl hn (by omega), hl]
  refine ⟨Y.privText comment (Base64.encode (P.aeadSeal key (salt.take 12) sk.sk [])) (Base64.encode salt),
    ⟨sk.sk, ⟨sk.sk.drop 32, [], pkhash P (sk.sk.drop 32)⟩⟩, ?_, ?_, rfl, ?_, ?_⟩
  · unfold PrivateKey.marshal; rw [hkey]
  · unfold makePrivateKey
    rw [looksOpenSSH_false _ (privText_marker Y YL comment _ _ (by omega) (by omega) hc)]
    have hpw : optPw getpw = .ok pw := by
      rcases hg with rfl | ⟨rfl, rfl⟩ <;> rfl
    rw [if_neg (by simp), hpw, Res.bind_ok,
      unmarshalPrivYaml_marshal P L Y comment hY sk hl salt hs key key pw hkl hkey,
      L.open_seal _ _ _ _ hkl hn (by omega)]
    dsimp only
    unfold makePrivateKeyFromBytes
    rw [if_neg (by omega)]
  · dsimp only; rw [h2, h3, ← h1, List.drop_left]
  · dsimp only; rw [h2, h4, ← h1, List.drop_left]

/-- **C35** fails for some comments: if the text written for the key contains `OPENSSH PRIVATE KEY-`, which cannot be at its
beginning, `UnmarshalBinary` takes it for an OpenSSH key and fails whatever the passphrase (unless a PEM block is found in it). -/
theorem C35_roundtrip_refuted (P : Prims) (L : Laws P) (Y : Yaml) (pem : Bytes → Option PemBlock)
    (comment : Bytes) (hne : comment ≠ []) (hc : Spec.marker <:+: Y.scalar comment)
    (sk : PrivateKey) (pw salt text : Bytes) (ht : sk.marshal P Y comment pw salt = .ok text)
    (hp : pem text = none) (getpw : GetPw) :
    makePrivateKey P Y pem text getpw = .err .noPEM := by
  unfold PrivateKey.marshal at ht
  obtain ⟨key, hkey⟩ := L.scrypt_ok (P.sha512 pw) salt
  rw [hkey] at ht
  dsimp only at ht
  injection ht with ht
  have hpre : ascii "comment" ++ ascii ": " ++ Y.scalar comment <+: text := by
    rw [← ht, Yaml.privText, Yaml.line, if_neg (fun h => hne h.2)]
    simp only [List.append_assoc]
    exact ⟨_, by simp only [List.append_assoc]; rfl⟩
  unfold makePrivateKey
  rw [looksOpenSSH_true, if_pos rfl]
  · unfold parseSSHPrivateKey; rw [hp]
  · exact (hc.trans ⟨ascii "comment" ++ ascii ": ", [], by simp⟩).trans hpre.isInfix
  · intro hm
    have e1 : Spec.marker = 79 :: Spec.marker.tail := by decide +kernel
    have e2 : ascii "comment" = 99 :: (ascii "comment").tail := by decide +kernel
    rw [e1] at hm
    rw [e2] at hpre
    obtain ⟨t1, ht1⟩ := hm
    obtain ⟨t2, ht2⟩ := hpre
    rw [← ht1] at ht2
    simp only [List.cons_append] at ht2
    injection ht2 with h
    exact absurd h (by decide)

/-- **C36** (authenticity).  If reading a private key in the YAML format succeeds with some passphrase, the key derived from
the passphrase and the stored salt and parameters opens the stored blob, and the result is what it opens to. -/
theorem C36_success_is_authentic (P : Prims) (Y : Yaml) (pem : Bytes → Option PemBlock) (b pw : Bytes) (sk : PrivateKey)
    (hb : ¬ Spec.marker <:+: b) (h : makePrivateKey P Y pem b (some (.ok pw)) = .ok sk) :
    ∃ d salt esk key nonce, Y.readPriv b = some d ∧ Base64.decode d.salt = some salt ∧ Base64.decode d.esk = some esk ∧
      P.scrypt (P.sha512 pw) salt d.n d.r d.p = .ok key ∧
      nonce = (salt ++ List.replicate (12 - salt.length) 0).take 12 ∧ P.aeadOpen key nonce esk [] = some sk.sk := by
  unfold makePrivateKey at h
  rw [looksOpenSSH_false _ hb, if_neg (by simp)] at h
  simp only [optPw, Res.bind_ok] at h
  unfold unmarshalPrivYaml orErr at h
  split at h
  · rename_i d hd
    dsimp only [Res.bind_ok] at h
    split at h
    · cases h
    · split at h
      · rename_i salt hs
        dsimp only [Res.bind_ok] at h
        split at h
        · rename_i esk he
          dsimp only [Res.bind_ok] at h
          split at h
          · cases h
          · cases h
          · rename_i key hkey
            unfold reslice at h
            split at h
            · rename_i hc
              dsimp only [Res.bind_ok] at h
              split at h
              · cases h
              · rename_i skb ho
                unfold makePrivateKeyFromBytes at h
                split at h
                · cases h
                · cases h
                  refine ⟨d, salt, esk, key, _, hd, hs, he, hkey, rfl, ?_⟩
                  rw [← ho]
                  congr 1
                  rcases Nat.lt_or_ge salt.length 12 with hl | hl
                  · rw [List.take_append, List.take_append, List.take_replicate, List.take_replicate]
                    congr 2
                    omega
                  · rw [List.take_append_of_le_length hl, List.take_append_of_le_length hl]
            · cases h
        · cases h
      · cases h
  · cases h

/-- **C36** (a wrong passphrase).  Take a private key serialised with a passphrase, and read it with another one.  If that
succeeds at all, then either the two passphrases collide, in SHA-512 or in scrypt with this salt, and the key is the original
one; or a different derived key opens the stored AEAD blob, that is, the blob is a forgery for that key. -/
theorem C36_wrong_passphrase (P : Prims) (L : Laws P) (Y : Yaml) (YL : Y.Laws) (pem : Bytes → Option PemBlock)
    (comment : Bytes) (hY : Y.Reads comment) (hc : comment = [] ∨ ¬ Spec.marker <:+: Y.scalar comment)
    (sk : PrivateKey) (hk : sk.Genuine P) (pw salt text : Bytes) (hs : salt.length = 32)
    (ht : sk.marshal P Y comment pw salt = .ok text) (pw' : Bytes) (hne : pw' ≠ pw) (sk' : PrivateKey)
    (h : makePrivateKey P Y pem text (some (.ok pw')) = .ok sk') :
    ∃ key key', P.scrypt (P.sha512 pw) salt 524288 8 1 = .ok key ∧ P.scrypt (P.sha512 pw') salt 524288 8 1 = .ok key' ∧
      ((Spec.Collides P pw' pw ∧ sk'.sk = sk.sk) ∨
       (P.sha512 pw' ≠ P.sha512 pw ∧ key' = key ∧ sk'.sk = sk.sk) ∨
       (key' ≠ key ∧ P.aeadOpen key' (salt.take 12) (P.aeadSeal key (salt.take 12) sk.sk []) [] = some sk'.sk)) := by
  obtain ⟨seed, h1, h2, h3, h4⟩ := hk
  have hl : sk.sk.length = 64 := by rw [h2, List.length_append, h1, L.ed_pub_len _ h1]
  obtain ⟨key, hkey⟩ := L.scrypt_ok (P.sha512 pw) salt
  obtain ⟨key', hkey'⟩ := L.scrypt_ok (P.sha512 pw') salt
  have hkl := L.scrypt_len _ _ _ _ _ _ hkey
  have hn : (salt.take 12).length = 12 := by rw [List.length_take]; omega
  have he : (P.aeadSeal key (salt.take 12) sk.sk []).length = 80 := by
    rw [L.seal_len _ _ _ _ hkl hn (by omega), hl]
  unfold PrivateKey.marshal at ht
  rw [hkey] at ht
  dsimp only at ht
  injection ht with ht
  subst ht
  unfold makePrivateKey at h
  rw [looksOpenSSH_false _ (privText_marker Y YL comment _ _ (by omega) (by omega) hc), if_neg (by simp)] at h
  simp only [optPw, Res.bind_ok] at h
  rw [unmarshalPrivYaml_marshal P L Y comment hY sk hl salt hs key key' pw' hkl hkey'] at h
  refine ⟨key, key', hkey, hkey', ?_⟩
  split at h
  · cases h
  · rename_i skb ho
    have hsk : sk'.sk = skb := by
      unfold makePrivateKeyFromBytes at h
      split at h
      · cases h
      · cases h; rfl
    by_cases hkk : key' = key
    · have hsb : skb = sk.sk := by
        rw [hkk, L.open_seal _ _ _ _ hkl hn (by omega)] at ho
        injection ho with ho; exact ho.symm
      by_cases hh : P.sha512 pw' = P.sha512 pw
      · exact .inl ⟨⟨hne, hh⟩, hsk.trans hsb⟩
      · exact .inr (.inl ⟨hh, hkk, hsk.trans hsb⟩)
    · exact .inr (.inr ⟨hkk, by rw [ho, hsk]⟩)

/-- **C36** (the error).  If the derived key does not open the blob, the call returns the error `wrong password` and no key. -/
theorem C36_error (P : Prims) (L : Laws P) (Y : Yaml) (YL : Y.Laws) (pem : Bytes → Option PemBlock)
    (comment : Bytes) (hY : Y.Reads comment) (hc : comment = [] ∨ ¬ Spec.marker <:+: Y.scalar comment)
    (sk : PrivateKey) (hk : sk.Genuine P) (pw salt text key key' : Bytes) (hs : salt.length = 32)
    (ht : sk.marshal P Y comment pw salt = .ok text) (pw' : Bytes)
    (hkey : P.scrypt (P.sha512 pw) salt 524288 8 1 = .ok key) (hkey' : P.scrypt (P.sha512 pw') salt 524288 8 1 = .ok key')
    (ho : P.aeadOpen key' (salt.take 12) (P.aeadSeal key (salt.take 12) sk.sk []) [] = none) :
    makePrivateKey P Y pem text (some (.ok pw')) = .err (.msg "unmarshal priv key: wrong password") := by
  obtain ⟨seed, h1, h2, h3, h4⟩ := hk
  have hl : sk.sk.length = 64 := by rw [h2, List.length_append, h1, L.ed_pub_len _ h1]
  have hkl := L.scrypt_len _ _ _ _ _ _ hkey
  have hn : (salt.take 12).length = 12 := by rw [List.length_take]; omega
  have he : (P.aeadSeal key (salt.take 12) sk.sk []).length = 80 := by
    rw [L.seal_len _ _ _ _ hkl hn (by omega), hl]
  unfold PrivateKey.marshal at ht
  rw [hkey] at ht
  dsimp only at ht
  injection ht with ht
  subst ht
  unfold makePrivateKey
  rw [looksOpenSSH_false _ (privText_marker Y YL comment _ _ (by omega) (by omega) hc), if_neg (by simp)]
  simp only [optPw, Res.bind_ok]
  rw [unmarshalPrivYaml_marshal P L Y comment hY sk hl salt hs key key' pw' hkl hkey', ho]

/-! ### Consistency of what is loaded -/

theorem makePrivateKeyFromBytes_ok (P : Prims) (b : Bytes) (sk : PrivateKey) (h : makePrivateKeyFromBytes P b = .ok sk) :
    sk.sk.length = 64 ∧ sk.pub.pk = sk.sk.drop 32 ∧ sk.pub.hash = (P.sha256 (sk.sk.drop 32)).take 16 := by
  unfold makePrivateKeyFromBytes at h
  split at h
  · cases h
  · cases h; exact ⟨by dsimp only; omega, rfl, rfl⟩

theorem bind_ok_iff {α β : Type} (r : Res α) (f : α → Res β) (b : β) : r.bind f = .ok b ↔ ∃ a, r = .ok a ∧ f a = .ok b := by
  cases r <;> simp [Res.bind]

theorem bind_panic_iff {α β : Type} (r : Res α) (f : α → Res β) (w : String) :
    r.bind f = .panic w ↔ r = .panic w ∨ ∃ a, r = .ok a ∧ f a = .panic w := by
  cases r <;> simp [Res.bind]

theorem openSection_ok (P : Prims) (b : Bytes) (enc : Bool) (sk : PrivateKey) (h : openSection P b enc = .ok sk) :
    ∃ priv, makePrivateKeyFromBytes P priv = .ok sk := by
  unfold openSection at h
  split at h
  · cases h
  · split at h
    · cases h
    · split at h
      · split at h
        · cases h
        · split at h
          · cases h
          · split at h
            · cases h
            · exact ⟨_, h⟩
      · cases h

/-- **C37** (private keys).  Whatever bytes and passphrase callback it is given, a private key that `MakePrivateKey` returns,
from either format, has 64 secret bytes, the last 32 of which are its public key, whose truncated SHA-256 is the hash. -/
theorem C37_private (P : Prims) (Y : Yaml) (pem : Bytes → Option PemBlock) (b : Bytes) (getpw : GetPw) (sk : PrivateKey)
    (h : makePrivateKey P Y pem b getpw = .ok sk) :
    sk.sk.length = 64 ∧ sk.pub.pk = sk.sk.drop 32 ∧ sk.pub.pk.length = 32 ∧ sk.pub.hash = (P.sha256 sk.pub.pk).take 16 := by
  have key : ∃ x, makePrivateKeyFromBytes P x = .ok sk := by
    unfold makePrivateKey at h
    split at h
    · unfold parseSSHPrivateKey at h
      split at h
      · cases h
      · split at h
        · cases h
        · split at h
          · unfold parseOpenSSHPrivateKey at h
            rw [bind_ok_iff] at h
            obtain ⟨m, _, h⟩ := h
            split at h
            · cases h
            · split at h
              · cases h
              · split at h
                · cases h
                · split at h
                  · cases h
                  · rw [bind_ok_iff] at h
                    obtain ⟨⟨s, e⟩, _, h⟩ := h
                    exact openSection_ok P s e sk h
          · cases h
    · rw [bind_ok_iff] at h
      obtain ⟨pw, _, h⟩ := h
      unfold unmarshalPrivYaml at h
      rw [bind_ok_iff] at h
      obtain ⟨d, _, h⟩ := h
      split at h
      · cases h
      · rw [bind_ok_iff] at h
        obtain ⟨salt, _, h⟩ := h
        rw [bind_ok_iff] at h
        obtain ⟨esk, _, h⟩ := h
        split at h
        · cases h
        · cases h
        · rw [bind_ok_iff] at h
          obtain ⟨nonce, _, h⟩ := h
          split at h
          · cases h
          · exact ⟨_, h⟩
  obtain ⟨x, hx⟩ := key
  obtain ⟨h1, h2, h3⟩ := makePrivateKeyFromBytes_ok P x sk hx
  exact ⟨h1, h2, by rw [h2, List.length_drop, h1], by rw [h2]; exact h3⟩

theorem makePublicKeyFromBytes_ok (P : Prims) (c b : Bytes) (pk : PublicKey) (h : makePublicKeyFromBytes P c b = .ok pk) :
    pk.pk = b ∧ pk.pk.length = 32 ∧ pk.hash = (P.sha256 pk.pk).take 16 ∧ pk.comment = c := by
  unfold makePublicKeyFromBytes at h
  split at h
  · cases h
  · cases h; exact ⟨rfl, by dsimp only; omega, rfl, rfl⟩

/-- **C37** (public keys).  A public key that `MakePublicKey` or `MakePublicKeyFromString` returns has 32 bytes and the hash
that belongs to them. -/
theorem C37_public (P : Prims) (Y : Yaml) (b : Bytes) (pk : PublicKey)
    (h : makePublicKey P Y b = .ok pk ∨ makePublicKeyFromString P b = .ok (some pk)) :
    pk.pk.length = 32 ∧ pk.hash = (P.sha256 pk.pk).take 16 := by
  rcases h with h | h
  · unfold makePublicKey at h
    split at h
    · rename_i pk' hp
      cases h
      unfold parseSSHPublicKey at hp
      split at hp
      · have := parseEncPubKey_ok P _ _ _ hp
        exact ⟨this.1, this.2.1⟩
      · cases hp
    · cases h
    · cases h
    · unfold unmarshalPubYaml at h
      rw [bind_ok_iff] at h
      obtain ⟨d, _, h⟩ := h
      split at h
      · cases h
      · rw [bind_ok_iff] at h
        obtain ⟨x, _, h⟩ := h
        have := makePublicKeyFromBytes_ok P _ _ _ h
        exact ⟨this.2.1, this.2.2.1⟩
  · unfold makePublicKeyFromString at h
    split at h
    · rename_i o hp
      cases h
      have := parseEncPubKey_ok P _ _ _ hp
      exact ⟨this.1, this.2.1⟩
    · cases h
    · rw [bind_ok_iff] at h
      obtain ⟨x, _, h⟩ := h
      rw [bind_ok_iff] at h
      obtain ⟨y, hy, h⟩ := h
      cases h
      have := makePublicKeyFromBytes_ok P _ _ _ hy
      exact ⟨this.2.1, this.2.2.1⟩

end Sigtool
