import Verif.Props.Keys
/-! # Public keys in text form: C38, C39, C40, C41 -/

namespace Sigtool

theorem encode_ne (x : Bytes) (h : x ≠ []) : Base64.encode x ≠ [] := by
  intro hh
  have := Base64.encode_length x
  rw [hh] at this
  have : 0 < x.length := List.length_pos_iff.mpr h
  simp at *; omega

/-- Base64 text with padding, followed by more, is not base64. -/
theorem decode_padded_junk (x t : Bytes) (hx : x.length % 3 ≠ 0) (ht : t.filter (fun c => !Base64.isBreak c) ≠ []) :
    Base64.decode (Base64.encode x ++ t) = none := by
  unfold Base64.decode
  rw [List.filter_append, Base64.filter_b64 _ (Base64.encode_alphabet x)]
  generalize t.filter (fun c => !Base64.isBreak c) = u at ht
  induction x using Base64.encode.induct with
  | case1 => simp at hx
  | case2 a =>
    simp only [Base64.encode, List.cons_append, List.nil_append, Base64.decodeQ]
    split
    · rw [if_pos trivial, if_neg (fun h => ht h.2)]
    · rfl
  | case3 a b =>
    have hb := b.toNat_lt
    simp only [Base64.encode, List.cons_append, List.nil_append, Base64.decodeQ]
    split
    · rw [if_neg (Base64.char_ne_pad _ (by omega))]
      split
      · rfl
      · rw [if_pos trivial, if_neg ht]
    · rfl
  | case4 a b c s ih =>
    have := ih (by simp only [List.length_cons] at hx; omega)
    simp only [Base64.encode, List.cons_append, Base64.decodeQ]
    rw [this]
    split
    · split
      · split
        · rename_i h1 h2
          have hc := c.toNat_lt
          have hb := b.toNat_lt
          exact absurd h1 (Base64.char_ne_pad _ (by omega))
        · rfl
      · split
        · rfl
        · split
          · rename_i h
            have hc := c.toNat_lt
            exact absurd h (Base64.char_ne_pad _ (by omega))
          · split
            · rename_i hh; cases hh
            · rfl
    · rfl

/-- The YAML text of a public key is never a readable SSH key. -/
theorem pubText_not_ssh (P : Prims) (Y : Yaml) (YL : Y.Laws) (comment pk hash : Bytes) (hk : pk.length % 3 ≠ 0)
    (hh : hash.length % 3 ≠ 0) :
    ∃ e, parseSSHPublicKey P (Y.pubText ⟨comment, Base64.encode pk, Base64.encode hash⟩) = .err e := by
  have c1 : ascii ": " = [58, 32] := by decide +kernel
  have c2 : ascii "\n" = [10] := by decide +kernel
  have c3 : ascii "hash" = [104, 97, 115, 104] := by decide +kernel
  have c4 : ascii "pk" = [112, 107] := by decide +kernel
  have nb : ∀ x : Bytes, (∀ c ∈ Base64.encode x, isBlank c = false) := b64_not_blank
  -- the text is `a pk` blank `key` blank `hash`
  obtain ⟨a, ha, hc⟩ : ∃ a : Bytes, Y.pubText ⟨comment, Base64.encode pk, Base64.encode hash⟩ =
      ((a ++ [112, 107]) ++ [58] ++ 32 :: (Base64.encode pk ++ [10, 104, 97, 115, 104] ++ [58] ++ 32 :: (Base64.encode hash ++ [10]))) ∧
      (a = [] ∨ ∃ c ∈ a, isBlank c = true) := by
    refine ⟨Y.line "comment" comment true, ?_, ?_⟩
    · unfold Yaml.pubText
      dsimp only
      rw [Yaml.line.eq_def Y "pk", Yaml.line.eq_def Y "hash", if_neg (by simp), if_neg (by simp), YL.plain _ hk, YL.plain _ hh,
        c1, c2, c3, c4]
      simp
    · unfold Yaml.line
      split
      · exact .inl rfl
      · refine .inr ⟨32, ?_, by decide⟩
        rw [c1]; simp
  -- the third piece
  have p3 : splitBlanks (Base64.encode hash ++ [10]) = [Base64.encode hash ++ [10]] := by
    apply splitBlanks_solid
    intro c hcm
    rcases List.mem_append.mp hcm with h | h
    · exact nb hash c h
    · simp only [List.mem_singleton] at h; subst h; decide
  have p2' : splitBlanks (Base64.encode pk ++ [10, 104, 97, 115, 104] ++ [58]) = [Base64.encode pk ++ [10, 104, 97, 115, 104] ++ [58]] := by
    apply splitBlanks_solid
    intro c hcm
    rw [List.append_assoc] at hcm
    rcases List.mem_append.mp hcm with h | h
    · exact nb pk c h
    · exact (by decide : ∀ c ∈ ([10, 104, 97, 115, 104] ++ [58] : Bytes), isBlank c = false) c h
  obtain ⟨d, t, hd⟩ : ∃ d t, Base64.encode hash ++ [10] = d :: t := by
    match h : Base64.encode hash ++ [10] with
    | [] => simp at h
    | d :: t => exact ⟨d, t, rfl⟩
  have hdn : isBlank d = false := by
    have : d ∈ Base64.encode hash ++ [10] := by rw [hd]; simp
    rcases List.mem_append.mp this with h | h
    · exact nb hash d h
    · simp only [List.mem_singleton] at h; subst h; decide
  have p2 : splitBlanks (Base64.encode pk ++ [10, 104, 97, 115, 104] ++ [58] ++ 32 :: (Base64.encode hash ++ [10])) =
      [Base64.encode pk ++ [10, 104, 97, 115, 104] ++ [58], Base64.encode hash ++ [10]] := by
    rw [hd, splitBlanks_append _ 58 32 d t (by decide) (by decide) hdn, p2', ← hd, p3]
    rfl
  obtain ⟨f, u, hf⟩ : ∃ f u, Base64.encode pk ++ [10, 104, 97, 115, 104] ++ [58] ++ 32 :: (Base64.encode hash ++ [10]) = f :: u := by
    match h : Base64.encode pk ++ [10, 104, 97, 115, 104] ++ [58] ++ 32 :: (Base64.encode hash ++ [10]) with
    | [] => simp at h
    | f :: u => exact ⟨f, u, rfl⟩
  have hfn : isBlank f = false := by
    match hpk : Base64.encode pk with
    | [] =>
      rw [hpk] at hf
      simp only [List.nil_append, List.cons_append, List.cons.injEq] at hf
      rw [← hf.1]; decide
    | g :: gs =>
      rw [hpk] at hf
      simp only [List.cons_append, List.cons.injEq] at hf
      rw [← hf.1]
      exact nb pk g (by rw [hpk]; simp)
  have p1 : splitBlanks (Y.pubText ⟨comment, Base64.encode pk, Base64.encode hash⟩) =
      splitBlanks ((a ++ [112, 107]) ++ [58]) ++ [Base64.encode pk ++ [10, 104, 97, 115, 104] ++ [58], Base64.encode hash ++ [10]] := by
    rw [ha, hf, splitBlanks_append _ 58 32 f u (by decide) (by decide) hfn, ← hf, p2]
  unfold parseSSHPublicKey
  rw [p1]
  rcases hc with rfl | ⟨c, hcm, hcb⟩
  · have : splitBlanks (([] ++ [112, 107]) ++ [58]) = [[112, 107, 58]] := by decide
    rw [this]
    simp only [List.cons_append, List.nil_append]
    unfold parseEncPubKey
    rw [List.append_assoc, decode_padded_junk pk _ hk (by decide)]
    exact ⟨_, rfl⟩
  · have h2 : 2 ≤ (splitBlanks ((a ++ [112, 107]) ++ [58])).length := splitBlanks_two _ ⟨c, by simp [hcm], hcb⟩
    match hs : splitBlanks ((a ++ [112, 107]) ++ [58]), h2 with
    | x :: y :: zs, _ =>
      cases zs with
      | nil => exact ⟨_, rfl⟩
      | cons z zs =>
        cases zs with
        | nil => exact ⟨_, rfl⟩
        | cons z' zs => exact ⟨_, rfl⟩

/-- **C38**.  A public key that is serialised with any comment that the YAML library reads back is read as the same key with
the same hash; in particular the attempt to read the text as an SSH key fails for every key, comment and way of writing the
comment.  (The comment itself is not kept by the reader.) -/
theorem C38_roundtrip (P : Prims) (L : Laws P) (Y : Yaml) (YL : Y.Laws) (comment c : Bytes) (hY : Y.Reads comment)
    (key : Bytes) (pk : PublicKey) (hk : makePublicKeyFromBytes P c key = .ok pk) :
    ∃ pk', makePublicKey P Y (pk.marshal Y comment) = .ok pk' ∧ pk'.pk = pk.pk ∧ pk'.hash = pk.hash := by
  obtain ⟨h1, h2, h3, h4⟩ := makePublicKeyFromBytes_ok P c key pk hk
  have hh : pk.hash.length = 16 := by rw [h3, List.length_take, L.sha256_len]; rfl
  unfold makePublicKey PublicKey.marshal
  obtain ⟨e, he⟩ := pubText_not_ssh P Y YL comment pk.pk pk.hash (by omega) (by omega)
  rw [he]
  dsimp only
  unfold unmarshalPubYaml
  rw [hY.pub]
  simp only [orErr, Res.bind_ok]
  rw [if_neg (encode_ne _ (by intro h; rw [h] at h2; simp at h2)), Base64.decode_encode]
  dsimp only [Res.bind_ok]
  unfold makePublicKeyFromBytes
  rw [if_neg (by omega)]
  exact ⟨_, rfl, rfl, h3.symm⟩

/-! ### Keys given as strings -/

/-- **C39**.  The base64 text of a 32-byte key is read as that key, unless the first four bytes, read as a big-endian number
`n`, are at most 28.  `_partial`: the property is about every 32-byte key; the exact exception is `C39_from_string_exact`. -/
theorem C39_from_string_partial (P : Prims) (key : Bytes) (hk : key.length = 32) (h : 28 < be32dec key) :
    ∃ pk, makePublicKeyFromString P (Base64.encode key) = .ok (some pk) ∧ pk.pk = key ∧ pk.hash = (P.sha256 key).take 16 := by
  unfold makePublicKeyFromString parseEncPubKey parseString
  rw [Base64.decode_encode]
  dsimp only
  rw [if_neg (by omega), if_pos]
  · dsimp only [orErr, Res.bind_ok]
    unfold makePublicKeyFromBytes
    rw [if_neg (by omega)]
    exact ⟨_, rfl, rfl, rfl⟩
  · rw [List.length_drop, hk]; exact h

/-- **C39** (exactly when it goes wrong).  For a 32-byte key whose first four bytes denote `n ≤ 28`, the text is taken for an
SSH key of an unknown type and the call returns nil without an error, unless the `n` bytes that follow spell `ssh-ed25519`
(then the SSH reader fails and the key is read after all). -/
theorem C39_from_string_exact (P : Prims) (key : Bytes) (hk : key.length = 32) :
    makePublicKeyFromString P (Base64.encode key) = .ok none ↔
      be32dec key ≤ 28 ∧ (key.drop 4).take (be32dec key) ≠ "ssh-ed25519".toUTF8.toList := by
  rw [← algo_spec]
  have hd : (key.drop 4).length = 28 := by rw [List.length_drop, hk]
  constructor
  · intro h
    by_cases hn : 28 < be32dec key
    · obtain ⟨pk, h1, _⟩ := C39_from_string_partial P key hk hn
      rw [h1] at h; cases h
    · refine ⟨by omega, ?_⟩
      intro ha
      unfold makePublicKeyFromString at h
      split at h
      · rename_i o ho
        injection h with h
        subst h
        obtain ⟨raw, algo, rest, e1, e2, e3⟩ := (parseEncPubKey_nil P _ _).mp ho
        rw [Base64.decode_encode] at e1
        injection e1 with e1
        subst e1
        unfold parseString at e2
        dsimp only at e2
        rw [if_neg (by omega), if_neg (by rw [hd, Nat.mod_eq_of_lt (by decide)]; omega)] at e2
        injection e2 with e2
        exact e3 ((congrArg Prod.fst e2).symm.trans ha)
      · cases h
      · rw [bind_ok_iff] at h
        obtain ⟨x, _, h⟩ := h
        rw [bind_ok_iff] at h
        obtain ⟨y, _, h⟩ := h
        cases h
  · rintro ⟨h1, h2⟩
    have : parseEncPubKey P (Base64.encode key) (ascii "command-line-pk") = .ok none := by
      rw [parseEncPubKey_nil]
      refine ⟨key, (key.drop 4).take (be32dec key), (key.drop 4).drop (be32dec key), Base64.decode_encode _, ?_, h2⟩
      unfold parseString
      dsimp only
      rw [if_neg (by omega), if_neg (by rw [hd, Nat.mod_eq_of_lt (by decide)]; omega)]
    unfold makePublicKeyFromString
    rw [this]

/-- **C39** is false for some 32-byte keys: nil is returned without an error. -/
theorem C39_from_string_refuted (P : Prims) :
    ∃ key : Bytes, key.length = 32 ∧ makePublicKeyFromString P (Base64.encode key) = .ok none :=
  ⟨List.replicate 32 0, by simp, (C39_from_string_exact P _ (by simp)).mpr ⟨by decide, by decide +kernel⟩⟩

/-- **C39** (the SSH form).  The base64 field of an OpenSSH Ed25519 public key is read as that key. -/
theorem C39_ssh_string (P : Prims) (key : Bytes) (hk : key.length = 32) :
    ∃ pk, makePublicKeyFromString P (Base64.encode (Spec.sshPublicBlob key)) = .ok (some pk) ∧ pk.pk = key ∧
      pk.hash = (P.sha256 key).take 16 := by
  unfold makePublicKeyFromString
  rw [parseEncPubKey_good P key _ hk]
  exact ⟨_, rfl, rfl, rfl⟩

/-- **C40** (exactly when it crashes).  `MakePublicKey` crashes exactly on a text of three blank-separated fields, the second
of which is base64 of something that begins with an SSH string other than `ssh-ed25519`: every well-formed OpenSSH public key
line of another type with a one-word comment. -/
theorem C40_crash_iff (P : Prims) (Y : Yaml) (b : Bytes) :
    (∃ w, makePublicKey P Y b = .panic w) ↔
      ∃ f k c raw algo rest, splitBlanks b = [f, k, c] ∧ Base64.decode k = some raw ∧
        parseString raw = some (algo, rest) ∧ algo ≠ "ssh-ed25519".toUTF8.toList := by
  rw [← algo_spec]
  constructor
  · rintro ⟨w, h⟩
    unfold makePublicKey at h
    split at h
    · cases h
    · rename_i hp
      unfold parseSSHPublicKey at hp
      split at hp
      · rename_i f k c hs
        obtain ⟨raw, algo, rest, e1, e2, e3⟩ := (parseEncPubKey_nil P _ _).mp hp
        exact ⟨f, k, c, raw, algo, rest, hs, e1, e2, e3⟩
      · cases hp
    · rename_i w' hp
      unfold parseSSHPublicKey at hp
      split at hp
      · exact absurd hp (parseEncPubKey_no_panic P _ _ _)
      · cases hp
    · exfalso
      unfold unmarshalPubYaml at h
      rw [bind_panic_iff] at h
      rcases h with h | ⟨d, _, h⟩
      · unfold orErr at h; split at h <;> cases h
      · split at h
        · cases h
        · rw [bind_panic_iff] at h
          rcases h with h | ⟨x, _, h⟩
          · unfold orErr at h; split at h <;> cases h
          · unfold makePublicKeyFromBytes at h; split at h <;> cases h
  · rintro ⟨f, k, c, raw, algo, rest, hs, e1, e2, e3⟩
    unfold makePublicKey parseSSHPublicKey
    rw [hs]
    dsimp only
    rw [(parseEncPubKey_nil P k c).mpr ⟨raw, algo, rest, e1, e2, e3⟩]
    exact ⟨_, rfl⟩

/-- **C40** is false: an OpenSSH public key line of any other type crashes `MakePublicKey`, whatever the key data. -/
theorem C40_no_crash_refuted (P : Prims) (Y : Yaml) (algo rest type comment : Bytes)
    (ha : algo ≠ "ssh-ed25519".toUTF8.toList) (hl : (algo ++ rest).length < 2^32)
    (ht : type ≠ [] ∧ ∀ c ∈ type, isBlank c = false) (hc : comment ≠ [] ∧ ∀ c ∈ comment, isBlank c = false) :
    ∃ w, makePublicKey P Y (type ++ ascii " " ++ Base64.encode (Spec.sshString algo ++ rest) ++ ascii " " ++ comment ++ ascii "\n") =
      .panic w := by
  rw [C40_crash_iff]
  have c1 : ascii " " = [32] := by decide +kernel
  have c2 : ascii "\n" = [10] := by decide +kernel
  refine ⟨type, Base64.encode (Spec.sshString algo ++ rest), comment ++ [10], _, algo, rest, ?_, Base64.decode_encode _,
    parseString_sshString _ _ hl, ha⟩
  rw [c1, c2]
  obtain ⟨ti, tl, rfl⟩ : ∃ ti tl, type = ti ++ [tl] := ⟨type.dropLast, type.getLast ht.1, (List.dropLast_append_getLast ht.1).symm⟩
  have hen : Base64.encode (Spec.sshString algo ++ rest) ≠ [] := encode_ne _ (by simp [Spec.sshString])
  have hnb := b64_not_blank (Spec.sshString algo ++ rest)
  revert hen hnb
  generalize Base64.encode (Spec.sshString algo ++ rest) = k
  intro hen hnb
  obtain ⟨ki, kl, rfl⟩ : ∃ ki kl, k = ki ++ [kl] := ⟨k.dropLast, k.getLast hen, (List.dropLast_append_getLast hen).symm⟩
  match hk : ki ++ [kl], comment, hc with
  | [], _, _ => simp at hk
  | kf :: kt, cf :: ct, hc =>
    have e : (ti ++ [tl] ++ [32] ++ (kf :: kt) ++ [32] ++ (cf :: ct) ++ [10]) =
        ti ++ [tl] ++ 32 :: kf :: (kt ++ [32] ++ (cf :: ct) ++ [10]) := by simp
    have e2 : kf :: (kt ++ [32] ++ (cf :: ct) ++ [10]) = ki ++ [kl] ++ 32 :: cf :: (ct ++ [10]) := by
      rw [hk]; simp
    rw [e, splitBlanks_append _ _ _ _ _ (ht.2 tl (by simp)) (by decide) (hnb kf (by rw [hk]; simp)), e2,
      splitBlanks_append _ _ _ _ _ (hnb kl (by simp)) (by decide) (hc.2 cf (by simp)), splitBlanks_solid _ ht.2, hk,
      splitBlanks_solid _ (by rw [← hk]; exact hnb), splitBlanks_solid]
    · rfl
    · intro c hcm
      have : c ∈ (cf :: ct) ++ [10] := by simpa using hcm
      rcases List.mem_append.mp this with h | h
      · exact hc.2 c h
      · simp only [List.mem_singleton] at h; subst h; decide

/-- **C40** (what is guaranteed).  On any other input `MakePublicKey` returns a key or an error. -/
theorem C40_no_crash_partial (P : Prims) (Y : Yaml) (b : Bytes)
    (h : ∀ f k c raw algo rest, splitBlanks b = [f, k, c] → Base64.decode k = some raw →
      parseString raw = some (algo, rest) → algo = "ssh-ed25519".toUTF8.toList) :
    (∃ pk, makePublicKey P Y b = .ok pk) ∨ ∃ e, makePublicKey P Y b = .err e := by
  match hm : makePublicKey P Y b with
  | .ok pk => exact .inl ⟨pk, rfl⟩
  | .err e => exact .inr ⟨e, rfl⟩
  | .panic w =>
    obtain ⟨f, k, c, raw, algo, rest, e1, e2, e3, e4⟩ := (C40_crash_iff P Y b).mp ⟨w, hm⟩
    exact absurd (h f k c raw algo rest e1 e2 e3) e4

/-! ### OpenSSH public key files -/

/-- **C41**.  A one-line OpenSSH Ed25519 public key file is read as that key with that comment, if the comment is one word:
not empty and without blanks or tabs.  The key type in front is not looked at.  `_partial`: see `C41_read_refuted` for other
comments. -/
theorem C41_read_partial (P : Prims) (Y : Yaml) (type key comment : Bytes) (hk : key.length = 32)
    (ht : type ≠ [] ∧ ∀ c ∈ type, isBlank c = false) (hc : comment ≠ [] ∧ ∀ c ∈ comment, isBlank c = false) :
    ∃ pk, makePublicKey P Y (type ++ ascii " " ++ Base64.encode (Spec.sshPublicBlob key) ++ ascii " " ++ comment ++ ascii "\n") =
      .ok pk ∧ pk.pk = key ∧ pk.hash = (P.sha256 key).take 16 ∧ Spec.Trims comment pk.comment := by
  have c1 : ascii " " = [32] := by decide +kernel
  have c2 : ascii "\n" = [10] := by decide +kernel
  have hen : Base64.encode (Spec.sshPublicBlob key) ≠ [] := encode_ne _ (by simp [Spec.sshPublicBlob, Spec.sshString])
  have hnb := b64_not_blank (Spec.sshPublicBlob key)
  have hgood := parseEncPubKey_good P key (comment ++ [10]) hk
  unfold makePublicKey parseSSHPublicKey
  have hs : splitBlanks (type ++ ascii " " ++ Base64.encode (Spec.sshPublicBlob key) ++ ascii " " ++ comment ++ ascii "\n") =
      [type, Base64.encode (Spec.sshPublicBlob key), comment ++ [10]] := by
    rw [c1, c2]
    obtain ⟨ti, tl, rfl⟩ : ∃ ti tl, type = ti ++ [tl] := ⟨type.dropLast, type.getLast ht.1, (List.dropLast_append_getLast ht.1).symm⟩
    revert hen hnb
    generalize Base64.encode (Spec.sshPublicBlob key) = k
    intro hen hnb
    obtain ⟨ki, kl, rfl⟩ : ∃ ki kl, k = ki ++ [kl] := ⟨k.dropLast, k.getLast hen, (List.dropLast_append_getLast hen).symm⟩
    match hk : ki ++ [kl], comment, hc with
    | [], _, _ => simp at hk
    | kf :: kt, cf :: ct, hc =>
      have e : (ti ++ [tl] ++ [32] ++ (kf :: kt) ++ [32] ++ (cf :: ct) ++ [10]) =
          ti ++ [tl] ++ 32 :: kf :: (kt ++ [32] ++ (cf :: ct) ++ [10]) := by simp
      have e2 : kf :: (kt ++ [32] ++ (cf :: ct) ++ [10]) = ki ++ [kl] ++ 32 :: cf :: (ct ++ [10]) := by
        rw [hk]; simp
      rw [e, splitBlanks_append _ _ _ _ _ (ht.2 tl (by simp)) (by decide) (hnb kf (by rw [hk]; simp)), e2,
        splitBlanks_append _ _ _ _ _ (hnb kl (by simp)) (by decide) (hc.2 cf (by simp)), splitBlanks_solid _ ht.2, hk,
        splitBlanks_solid _ (by rw [← hk]; exact hnb), splitBlanks_solid]
      · rfl
      · intro c hcm
        have : c ∈ (cf :: ct) ++ [10] := by simpa using hcm
        rcases List.mem_append.mp this with h | h
        · exact hc.2 c h
        · simp only [List.mem_singleton] at h; subst h; decide
  rw [hs]
  dsimp only
  rw [hgood]
  refine ⟨_, rfl, rfl, rfl, ?_⟩
  dsimp only
  rw [trimSpace_append_right [10] comment (by decide)]
  exact trimSpace_trims comment

theorem makePublicKey_other (P : Prims) (Y : Yaml) (b : Bytes) (hb : (splitBlanks b).length ≠ 3) (hy : Y.readPub b = none) :
    makePublicKey P Y b = .err (.msg "can't parse YAML") := by
  unfold makePublicKey parseSSHPublicKey
  match hs : splitBlanks b, hb with
  | [], _ => simp [unmarshalPubYaml, hy, orErr]
  | [_], _ => simp [unmarshalPubYaml, hy, orErr]
  | [_, _], _ => simp [unmarshalPubYaml, hy, orErr]
  | [_, _, _], hb => exact absurd rfl hb
  | _ :: _ :: _ :: _ :: _, _ => simp [unmarshalPubYaml, hy, orErr]

theorem other_fields (key : Bytes) :
    (splitBlanks (ascii "ssh-ed25519 " ++ Base64.encode (Spec.sshPublicBlob key) ++ ascii "\n")).length = 2 ∧
    (splitBlanks (ascii "ssh-ed25519 " ++ Base64.encode (Spec.sshPublicBlob key) ++ ascii " my key\n")).length = 4 := by
  have c1 : ascii "ssh-ed25519 " = ascii "ssh-ed2551" ++ [57] ++ [32] := by decide +kernel
  have c2 : ascii "\n" = [10] := by decide +kernel
  have c3 : ascii " my key\n" = 32 :: 109 :: ascii "y key\n" := by decide +kernel
  have hen : Base64.encode (Spec.sshPublicBlob key) ≠ [] := encode_ne _ (by simp [Spec.sshPublicBlob, Spec.sshString])
  have hnb := b64_not_blank (Spec.sshPublicBlob key)
  rw [c1, c2, c3]
  revert hen hnb
  generalize Base64.encode (Spec.sshPublicBlob key) = k
  intro hen hnb
  obtain ⟨ki, kl, rfl⟩ : ∃ ki kl, k = ki ++ [kl] := ⟨k.dropLast, k.getLast hen, (List.dropLast_append_getLast hen).symm⟩
  have ht : splitBlanks (ascii "ssh-ed2551" ++ [57]) = [ascii "ssh-ed2551" ++ [57]] := by decide +kernel
  match hk : ki ++ [kl] with
  | [] => simp at hk
  | kf :: kt =>
    have hkf : isBlank kf = false := hnb kf (by rw [hk]; simp)
    constructor
    · have e : ascii "ssh-ed2551" ++ [57] ++ [32] ++ (kf :: kt) ++ [10] =
          ascii "ssh-ed2551" ++ [57] ++ 32 :: kf :: (kt ++ [10]) := by simp
      rw [e, splitBlanks_append _ _ _ _ _ (by decide) (by decide) hkf, ht]
      have e2 : kf :: (kt ++ [10]) = (ki ++ [kl]) ++ [10] := by rw [hk]; rfl
      rw [e2, splitBlanks_solid]
      · rfl
      · intro c hcm
        rcases List.mem_append.mp hcm with h | h
        · exact hnb c h
        · simp only [List.mem_singleton] at h; subst h; decide
    · have e : ascii "ssh-ed2551" ++ [57] ++ [32] ++ (kf :: kt) ++ 32 :: 109 :: ascii "y key\n" =
          ascii "ssh-ed2551" ++ [57] ++ 32 :: kf :: (kt ++ 32 :: 109 :: ascii "y key\n") := by simp
      rw [e, splitBlanks_append _ _ _ _ _ (by decide) (by decide) hkf, ht]
      have e2 : kf :: (kt ++ 32 :: 109 :: ascii "y key\n") = (ki ++ [kl]) ++ 32 :: 109 :: ascii "y key\n" := by rw [hk]; rfl
      rw [e2, splitBlanks_append _ _ _ _ _ (hnb kl (by simp)) (by decide) (by decide), splitBlanks_solid _ hnb]
      have : (splitBlanks (109 :: ascii "y key\n")).length = 2 := by decide +kernel
      simp [this]

/-- **C41** is false for other comments: for every key, the file without a comment, and the file with the comment `my key`,
are refused (given that the YAML library has no key to offer for such a text). -/
theorem C41_read_refuted (P : Prims) (Y : Yaml) (key : Bytes) :
    (Y.readPub (ascii "ssh-ed25519 " ++ Base64.encode (Spec.sshPublicBlob key) ++ ascii "\n") = none →
      makePublicKey P Y (ascii "ssh-ed25519 " ++ Base64.encode (Spec.sshPublicBlob key) ++ ascii "\n") =
        .err (.msg "can't parse YAML")) ∧
    (Y.readPub (ascii "ssh-ed25519 " ++ Base64.encode (Spec.sshPublicBlob key) ++ ascii " my key\n") = none →
      makePublicKey P Y (ascii "ssh-ed25519 " ++ Base64.encode (Spec.sshPublicBlob key) ++ ascii " my key\n") =
        .err (.msg "can't parse YAML")) := by
  obtain ⟨h1, h2⟩ := other_fields key
  exact ⟨fun h => makePublicKey_other P Y _ (by rw [h1]; decide) h, fun h => makePublicKey_other P Y _ (by rw [h2]; decide) h⟩

/-! ### Concrete cases -/

/-- A comment that contains the marker breaks the private key file. -/
example : ((newPrivateKey toyPrims (List.replicate 32 7)).marshal toyPrims toyYaml (ascii "my OPENSSH PRIVATE KEY- copy") (ascii "pw")
    (List.replicate 32 1)).bind (fun t => makePrivateKey toyPrims toyYaml (fun _ => none) t (some (.ok (ascii "pw")))) = .err .noPEM := by
  decide +kernel

/-- The hypotheses of the round trip are met by an ordinary comment. -/
example : ∃ text sk', (newPrivateKey toyPrims (List.replicate 32 7)).marshal toyPrims toyYaml (ascii "me@host: \"x\"") (ascii "pw")
      (List.replicate 32 1) = .ok text ∧
    makePrivateKey toyPrims toyYaml (fun _ => none) text (some (.ok (ascii "pw"))) = .ok sk' ∧
    sk'.sk = (newPrivateKey toyPrims (List.replicate 32 7)).sk := by
  obtain ⟨t, sk', h1, h2, h3, _⟩ := C35_roundtrip_partial _ toyLaws _ toyYaml_laws (fun _ => none) (ascii "me@host: \"x\"") (toyYaml_reads _)
    (.inr (by decide +kernel)) _ (newPrivateKey_genuine _ (List.replicate 32 7) (by simp)) (ascii "pw") (List.replicate 32 1) (by simp) _ (.inl rfl)
  exact ⟨t, sk', h1, h2, h3⟩

/-- A wrong passphrase is refused in the toy instance. -/
example : ((newPrivateKey toyPrims (List.replicate 32 7)).marshal toyPrims toyYaml [] (ascii "pw") (List.replicate 32 1)).bind
    (fun t => makePrivateKey toyPrims toyYaml (fun _ => none) t (some (.ok (ascii "pw2")))) =
      .err (.msg "unmarshal priv key: wrong password") := by decide +kernel

example : ∃ pk', makePublicKey toyPrims toyYaml ((newPrivateKey toyPrims (List.replicate 32 7)).pub.marshal toyYaml (ascii "a b c")) =
    .ok pk' ∧ pk'.pk = toyPrims.edPub (List.replicate 32 7) := by
  obtain ⟨pk', h1, h2, _⟩ := C38_roundtrip _ toyLaws _ toyYaml_laws (ascii "a b c") [] (toyYaml_reads _)
    (toyPrims.edPub (List.replicate 32 7)) _ (by rfl)
  exact ⟨pk', h1, h2⟩

/-- An RSA public key file crashes the reader. -/
example : makePublicKey toyPrims toyYaml (ascii "ssh-rsa " ++ Base64.encode (Spec.sshString (ascii "ssh-rsa") ++ [0, 0]) ++
    ascii " me@host\n") = .panic "nil pointer dereference" := by decide +kernel

/-- A key file that is accepted. -/
example : (makePublicKey toyPrims toyYaml (ascii "ssh-ed25519 " ++ Base64.encode (Spec.sshPublicBlob (List.replicate 32 5)) ++
    ascii " me@host\n")).bind (fun pk => .ok (pk.pk, pk.comment)) = .ok (List.replicate 32 5, ascii "me@host") := by decide +kernel

end Sigtool
