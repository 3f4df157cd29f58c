import Verif.SshLemmas
/-! # authorized_keys files: C42 -/

namespace Sigtool

/-! ### The line loop -/

theorem authLoop_fuel (P : Prims) : ∀ (n m : Nat) (b : Bytes), b.length ≤ n → b.length ≤ m →
    parseAuthorizedKeysLoop P n b = parseAuthorizedKeysLoop P m b := by
  intro n
  induction n with
  | zero =>
    intro m b hn hm
    have : b = [] := List.length_eq_zero_iff.mp (by omega)
    subst this
    cases m <;> simp [parseAuthorizedKeysLoop]
  | succ n ih =>
    intro m b hn hm
    cases m with
    | zero =>
      have : b = [] := List.length_eq_zero_iff.mp (by omega)
      subst this
      simp [parseAuthorizedKeysLoop]
    | succ m =>
      unfold parseAuthorizedKeysLoop
      by_cases hb : b = []
      · rw [if_pos hb, if_pos hb]
      · rw [if_neg hb, if_neg hb]
        dsimp only
        rw [ih m _ (by rw [List.length_drop]; omega) (by rw [List.length_drop]; omega)]

theorem parseAuthorizedKeys_nil (P : Prims) : parseAuthorizedKeys P [] = [] := rfl

theorem parseAuthorizedKeys_step (P : Prims) (b : Bytes) (hb : b ≠ []) :
    parseAuthorizedKeys P b =
      (authLine P (trimSpace ((b.takeWhile (· ≠ 10)).takeWhile (· ≠ 13)))).toList ++
        parseAuthorizedKeys P (b.drop ((b.takeWhile (· ≠ 10)).length + 1)) := by
  unfold parseAuthorizedKeys
  obtain ⟨c, t, rfl⟩ := List.exists_cons_of_ne_nil hb
  rw [List.length_cons, parseAuthorizedKeysLoop, if_neg hb]
  dsimp only
  rw [authLoop_fuel P t.length _ _ (by rw [List.length_drop, List.length_cons]; omega) (Nat.le_refl _)]

theorem authLine_nil (P : Prims) : authLine P [] = none := by simp [authLine]

theorem takeWhile_ne_append (a b : Bytes) (h : ∀ c ∈ a, c ≠ 10) : (a ++ 10 :: b).takeWhile (· ≠ 10) = a := by
  induction a with
  | nil => simp
  | cons c a ih =>
    rw [List.cons_append, List.takeWhile_cons_of_pos (by simpa using h c (by simp)), ih (fun d hd => h d (by simp [hd]))]

theorem takeWhile_all (a : Bytes) (x : UInt8) (h : ∀ c ∈ a, c ≠ x) : a.takeWhile (· ≠ x) = a := by
  induction a with
  | nil => rfl
  | cons c a ih => rw [List.takeWhile_cons_of_pos (by simpa using h c (by simp)), ih (fun d hd => h d (by simp [hd]))]

theorem cut_first (a : Bytes) (h : ¬ ∀ c ∈ a, c ≠ 10) : ∃ x y, a = x ++ 10 :: y ∧ ∀ c ∈ x, c ≠ 10 := by
  induction a with
  | nil => exact absurd (by simp) h
  | cons c a ih =>
    by_cases hc : c = 10
    · exact ⟨[], a, by rw [hc]; rfl, by simp⟩
    · have : ¬ ∀ d ∈ a, d ≠ 10 := by
        intro h'
        apply h
        intro d hd
        rcases List.mem_cons.mp hd with rfl | hd
        · exact hc
        · exact h' d hd
      obtain ⟨x, y, e, hx⟩ := ih this
      refine ⟨c :: x, y, by rw [e]; rfl, ?_⟩
      intro d hd
      rcases List.mem_cons.mp hd with rfl | hd
      · exact hc
      · exact hx d hd

/-- **C42** (line by line).  The result for two files joined by a line feed is the concatenation of the results. -/
theorem C42_concat (P : Prims) (a b : Bytes) :
    parseAuthorizedKeys P (a ++ [10] ++ b) = parseAuthorizedKeys P a ++ parseAuthorizedKeys P b := by
  rw [List.append_assoc, List.singleton_append]
  generalize hn : a.length = n
  induction n using Nat.strongRecOn generalizing a with
  | _ n ih =>
    by_cases ha : ∀ c ∈ a, c ≠ 10
    · rw [parseAuthorizedKeys_step P (a ++ 10 :: b) (by simp), takeWhile_ne_append a b ha]
      have e : (a ++ 10 :: b).drop (a.length + 1) = b := by
        rw [← List.drop_drop, List.drop_left]; rfl
      rw [e]
      congr 1
      by_cases h0 : a = []
      · subst h0
        have : trimSpace [] = [] := by decide
        simp [parseAuthorizedKeys_nil, this, authLine_nil]
      · rw [parseAuthorizedKeys_step P a h0, takeWhile_all a 10 ha, List.drop_of_length_le (by omega), parseAuthorizedKeys_nil,
          List.append_nil]
    · obtain ⟨x, y, rfl, hx⟩ := cut_first a ha
      have hl : (x ++ 10 :: y).length = n := hn
      have e1 : (x ++ 10 :: y) ++ 10 :: b = x ++ 10 :: (y ++ 10 :: b) := by simp
      have d : ∀ z : Bytes, (x ++ 10 :: z).drop (x.length + 1) = z := by
        intro z; rw [← List.drop_drop, List.drop_left]; rfl
      rw [e1, parseAuthorizedKeys_step P (x ++ 10 :: (y ++ 10 :: b)) (by simp), takeWhile_ne_append x _ hx, d,
        parseAuthorizedKeys_step P (x ++ 10 :: y) (by simp), takeWhile_ne_append x _ hx, d,
        ih y.length (by simp only [List.length_append, List.length_cons] at hl; omega) y rfl, List.append_assoc]

theorem parseAuthorizedKey_ok (P : Prims) (b : Bytes) (pk : PublicKey) (h : parseAuthorizedKey P b = .ok (some pk)) :
    pk.pk.length = 32 ∧ pk.hash = pkhash P pk.pk := by
  unfold parseAuthorizedKey at h
  have := parseEncPubKey_ok P _ _ _ h
  exact ⟨this.1, this.2.1⟩

theorem authLine_ok (P : Prims) (ln : Bytes) (pk : PublicKey) (h : authLine P ln = some pk) :
    pk.pk.length = 32 ∧ pk.hash = pkhash P pk.pk := by
  unfold authLine at h
  split at h
  · cases h
  · split at h
    · cases h
    · split at h
      · rename_i o ho
        subst h
        exact parseAuthorizedKey_ok P _ _ ho
      · dsimp only at h
        split at h
        · cases h
        · split at h
          · cases h
          · unfold keyOf at h
            split at h
            · rename_i o ho
              subst h
              exact parseAuthorizedKey_ok P _ _ ho
            · cases h

/-- **C42** (what the result contains).  Every entry is a 32-byte key with its own hash, whatever the file. -/
theorem C42_wellformed (P : Prims) (b : Bytes) : ∀ pk ∈ parseAuthorizedKeys P b,
    pk.pk.length = 32 ∧ pk.hash = (P.sha256 pk.pk).take 16 := by
  unfold parseAuthorizedKeys
  generalize b.length = n
  induction n generalizing b with
  | zero => simp [parseAuthorizedKeysLoop]
  | succ n ih =>
    intro pk hpk
    unfold parseAuthorizedKeysLoop at hpk
    split at hpk
    · cases hpk
    · rcases List.mem_append.mp hpk with h | h
      · rw [Option.mem_toList] at h
        exact authLine_ok P _ pk h
      · exact ih _ pk h

/-! ### One line -/

theorem parse_oneLine (P : Prims) (ln : Bytes) (h : Spec.OneLine ln) :
    parseAuthorizedKeys P ln = (authLine P (trimSpace ln)).toList := by
  by_cases h0 : ln = []
  · subst h0
    have : trimSpace [] = [] := by decide
    simp [parseAuthorizedKeys_nil, this, authLine_nil]
  · rw [parseAuthorizedKeys_step P ln h0, takeWhile_all ln 10 (fun c hc => (h c hc).1),
      takeWhile_all ln 13 (fun c hc => (h c hc).2), List.drop_of_length_le (by omega), parseAuthorizedKeys_nil, List.append_nil]

/-- **C42** (lines without a key).  An empty line, a line of white space and a line whose first character that is not white
space is `#` contribute nothing. -/
theorem C42_blank_and_comment (P : Prims) (ln y : Bytes) (h : Spec.OneLine ln) (hy : Spec.Trims ln y)
    (hc : y = [] ∨ ∃ t, y = 35 :: t) : parseAuthorizedKeys P ln = [] := by
  rw [parse_oneLine P ln h, trimSpace_eq _ _ hy]
  unfold authLine
  rw [if_pos]
  · rfl
  · rcases hc with rfl | ⟨t, rfl⟩ <;> simp

/-- **C42** (carriage returns).  Everything from the first carriage return to the end of the line is ignored. -/
theorem C42_carriage_return (P : Prims) (ln t : Bytes) (h : Spec.OneLine ln) (ht : ∀ c ∈ t, c ≠ 10) :
    parseAuthorizedKeys P (ln ++ [13] ++ t) = parseAuthorizedKeys P ln := by
  rw [parse_oneLine P ln h, parseAuthorizedKeys_step P _ (by simp)]
  have h10 : ∀ c ∈ ln ++ [13] ++ t, c ≠ 10 := by
    intro c hc
    rcases List.mem_append.mp hc with hc | hc
    · rcases List.mem_append.mp hc with hc | hc
      · exact (h c hc).1
      · simp only [List.mem_singleton] at hc; subst hc; decide
    · exact ht c hc
  rw [takeWhile_all _ 10 h10, List.drop_of_length_le (by omega), parseAuthorizedKeys_nil, List.append_nil]
  congr 2
  congr 1
  have e : ln ++ [13] ++ t = ln ++ 13 :: t := by simp
  rw [e]
  have h13 := fun c hc => (h c hc).2
  clear h ht h10 e
  induction ln with
  | nil => simp
  | cons c a ih =>
    rw [List.cons_append, List.takeWhile_cons_of_pos (by simpa using h13 c (by simp)), ih (fun d hd => h13 d (by simp [hd]))]

theorem findIdx_append_blank (a : Bytes) (x : UInt8) (t : Bytes) (h : ∀ c ∈ a, isBlank c = false) (hx : isBlank x = true) :
    indexBlank (a ++ x :: t) = some a.length := by
  unfold indexBlank
  induction a with
  | nil => simp [List.findIdx?_cons, hx]
  | cons c a ih =>
    rw [List.cons_append, List.findIdx?_cons, h c (by simp), ih (fun d hd => h d (by simp [hd]))]
    simp

theorem findIdx_none (a : Bytes) (h : ∀ c ∈ a, isBlank c = false) : indexBlank a = none := by
  unfold indexBlank
  rw [List.findIdx?_eq_none_iff]
  exact h

/-- A word: not empty, without blanks, first and last character solid. -/
structure Word (w : Bytes) : Prop where
  noblank : ∀ c ∈ w, isBlank c = false
  first : ∃ c m, w = c :: m ∧ solid c = true
  last : ∃ m d, w = m ++ [d] ∧ solid d = true

theorem word_b64 (x : Bytes) (hx : x ≠ []) : Word (Base64.encode x) := by
  have hs : ∀ c ∈ Base64.encode x, solid c = true := by
    intro c hc
    have := Base64.encode_alphabet x c hc
    revert this
    exact Base64.forall_byte (p := fun c => Base64.isB64 c = true → solid c = true) (by decide +kernel) c
  have hne : Base64.encode x ≠ [] := by
    intro hh
    have := Base64.encode_length x
    rw [hh] at this
    have : 0 < x.length := List.length_pos_iff.mpr hx
    simp at *; omega
  refine ⟨b64_not_blank x, ?_, ?_⟩
  · obtain ⟨c, m, e⟩ := List.exists_cons_of_ne_nil hne
    exact ⟨c, m, e, hs c (by rw [e]; simp)⟩
  · exact ⟨_, _, (List.dropLast_append_getLast hne).symm, hs _ (List.getLast_mem hne)⟩

/-- Trimming a text that begins with a word. -/
theorem trim_word (w : Bytes) (hw : Word w) (x : Bytes) :
    ∃ y, trimSpace (w ++ 32 :: x) = w ++ y ∧ trimSpace y = trimSpace x ∧ (y = [] ∨ ∃ z, y = 32 :: z) := by
  obtain ⟨c, m, e1, hc⟩ := hw.first
  obtain ⟨m', d, e2, hd⟩ := hw.last
  exact trimSpace_two w c d m e1 hc ⟨m', e2⟩ hd x

theorem trim_word_only (w : Bytes) (hw : Word w) : trimSpace w = w := by
  obtain ⟨c, m, e1, hc⟩ := hw.first
  obtain ⟨m', d, e2, hd⟩ := hw.last
  apply trimSpace_eq
  refine ⟨[], [], by simp, by simp, by simp, ?_⟩
  rw [← spaces_spec]
  intro s hs
  refine ⟨?_, ?_⟩
  · rw [e1]; exact not_prefix_solid c m hc s hs
  · rw [e2]; exact not_suffix_solid d m' hd s hs

/-- The token and the rest that `parseAuthorizedKey` looks at. -/
theorem parseAuthorizedKey_word (P : Prims) (w : Bytes) (hw : Word w) (y : Bytes) (hy : y = [] ∨ ∃ z, y = 32 :: z) :
    ∃ y', parseAuthorizedKey P (32 :: (w ++ y)) = parseEncPubKey P w y' ∧ trimSpace y' = trimSpace y := by
  have h32 : trimSpace (32 :: (w ++ y)) = trimSpace (w ++ y) := trimSpace_append_left [32] (w ++ y) (by decide)
  rcases hy with rfl | ⟨z, rfl⟩
  · refine ⟨[], ?_, rfl⟩
    unfold parseAuthorizedKey
    dsimp only
    rw [h32, List.append_nil, trim_word_only w hw, findIdx_none w hw.noblank]
    simp
  · obtain ⟨y', e1, e2, e3⟩ := trim_word w hw z
    refine ⟨y', ?_, ?_⟩
    · unfold parseAuthorizedKey
      dsimp only
      rw [h32, e1]
      have : (indexBlank (w ++ y')).getD (w ++ y').length = w.length := by
        rcases e3 with rfl | ⟨u, rfl⟩
        · rw [List.append_nil, findIdx_none w hw.noblank]; rfl
        · rw [findIdx_append_blank w 32 u hw.noblank (by decide)]; rfl
      rw [this, List.take_left, List.drop_left]
    · rw [e2]; exact (trimSpace_append_left [32] z (by decide)).symm

/-- The first attempt on a line `type key ...`. -/
theorem authLine_first (P : Prims) (t w : Bytes) (ht : Word t) (h35 : t.head? ≠ some 35) (hw : Word w) (y : Bytes)
    (hy : y = [] ∨ ∃ z, y = 32 :: z) (o : Option PublicKey) (ho : ∀ y', trimSpace y' = trimSpace y → parseEncPubKey P w y' = .ok o) :
    authLine P (t ++ 32 :: (w ++ y)) = o := by
  obtain ⟨c, m, e1, hc⟩ := ht.first
  unfold authLine
  rw [if_neg]
  · rw [findIdx_append_blank t 32 _ ht.noblank (by decide)]
    dsimp only
    rw [List.drop_left]
    obtain ⟨y', e, e'⟩ := parseAuthorizedKey_word P w hw y hy
    rw [e, ho y' e']
  · rintro (h | h)
    · simp at h
    · rw [e1, List.cons_append] at h
      rw [e1] at h35
      exact h35 h

theorem type_bytes : "ssh-ed25519 ".toUTF8.toList = algoEd25519 ++ [32] := by decide +kernel
theorem blank_bytes : " ".toUTF8.toList = [32] := by decide +kernel

theorem word_algo : Word algoEd25519 :=
  ⟨by decide +kernel, ⟨115, ascii "sh-ed25519", by decide +kernel, by decide +kernel⟩,
    ⟨ascii "ssh-ed2551", 57, by decide +kernel, by decide +kernel⟩⟩

theorem b64_oneLine (x : Bytes) : ∀ c ∈ Base64.encode x, c ≠ 10 ∧ c ≠ 13 := by
  intro c hc
  have := Base64.encode_alphabet x c hc
  revert this
  exact Base64.forall_byte (p := fun c => Base64.isB64 c = true → c ≠ 10 ∧ c ≠ 13) (by decide +kernel) c

theorem keyLine_oneLine (x comment : Bytes) (h : Spec.OneLine comment) : Spec.OneLine (Spec.keyLine (Base64.encode x) comment) := by
  intro c hc
  unfold Spec.keyLine at hc
  rw [type_bytes, blank_bytes] at hc
  rcases List.mem_append.mp hc with hc | hc
  · rcases List.mem_append.mp hc with hc | hc
    · rcases List.mem_append.mp hc with hc | hc
      · exact (by decide +kernel : ∀ c ∈ algoEd25519 ++ [32], c ≠ 10 ∧ c ≠ 13) c hc
      · exact b64_oneLine x c hc
    · simp only [List.mem_singleton] at hc; subst hc; decide
  · exact h c hc

/-- Trimming a key line keeps everything up to the comment. -/
theorem trim_keyLine (x comment : Bytes) (hx : x ≠ []) :
    ∃ y, trimSpace (Spec.keyLine (Base64.encode x) comment) = algoEd25519 ++ 32 :: (Base64.encode x ++ y) ∧
      trimSpace y = trimSpace comment ∧ (y = [] ∨ ∃ z, y = 32 :: z) := by
  have hw := word_b64 x hx
  obtain ⟨c, m, e1, hc⟩ := word_algo.first
  obtain ⟨m', d, e2, hd⟩ := hw.last
  have e : Spec.keyLine (Base64.encode x) comment = (algoEd25519 ++ 32 :: Base64.encode x) ++ 32 :: comment := by
    unfold Spec.keyLine
    rw [type_bytes, blank_bytes]; simp
  rw [e]
  obtain ⟨y, h1, h2, h3⟩ := trimSpace_two (algoEd25519 ++ 32 :: Base64.encode x) c d (m ++ 32 :: Base64.encode x)
    (by rw [e1]; rfl) hc ⟨algoEd25519 ++ 32 :: m', by rw [e2]; simp⟩ hd comment
  exact ⟨y, by rw [h1]; simp, h2, h3⟩

/-- **C42** (a key line).  A line `ssh-ed25519 <base64 of the key> <comment>` contributes exactly that key, with the comment
trimmed, whatever the comment (it may be empty or have several words). -/
theorem C42_plain_line (P : Prims) (key comment : Bytes) (hk : key.length = 32) (hc : Spec.OneLine comment) :
    ∃ c, Spec.Trims comment c ∧ parseAuthorizedKeys P (Spec.keyLine (Base64.encode (Spec.sshPublicBlob key)) comment) =
      [{ pk := key, comment := c, hash := (P.sha256 key).take 16 }] := by
  have hx : Spec.sshPublicBlob key ≠ [] := by simp [Spec.sshPublicBlob, Spec.sshString]
  refine ⟨trimSpace comment, trimSpace_trims comment, ?_⟩
  rw [parse_oneLine P _ (keyLine_oneLine _ comment hc)]
  obtain ⟨y, h1, h2, h3⟩ := trim_keyLine (Spec.sshPublicBlob key) comment hx
  rw [h1, authLine_first P algoEd25519 _ word_algo (by decide +kernel) (word_b64 _ hx) y h3
    (some { pk := key, comment := trimSpace comment, hash := pkhash P key })]
  · rfl
  · intro y' hy'
    rw [parseEncPubKey_good P key y' hk, hy', h2]

/-- **C42** (other key types).  A line with a well-formed key of another type contributes nothing, whatever the word in front. -/
theorem C42_other_type (P : Prims) (type algo rest comment : Bytes) (ha : algo ≠ "ssh-ed25519".toUTF8.toList)
    (hl : (algo ++ rest).length < 2^32) (ht : Word type) (h35 : type.head? ≠ some 35)
    (hc : Spec.OneLine (type ++ comment)) :
    parseAuthorizedKeys P (type ++ [32] ++ Base64.encode (Spec.sshString algo ++ rest) ++ [32] ++ comment) = [] := by
  rw [← algo_spec] at ha
  have hx : Spec.sshString algo ++ rest ≠ [] := by simp [Spec.sshString]
  have hw := word_b64 _ hx
  have hln : Spec.OneLine (type ++ [32] ++ Base64.encode (Spec.sshString algo ++ rest) ++ [32] ++ comment) := by
    intro c hcm
    simp only [List.mem_append, List.mem_singleton] at hcm
    rcases hcm with (((hcm | hcm) | hcm) | hcm) | hcm
    · exact hc c (by simp [hcm])
    · subst hcm; decide
    · exact b64_oneLine _ c hcm
    · subst hcm; decide
    · exact hc c (by simp [hcm])
  rw [parse_oneLine P _ hln]
  obtain ⟨c, m, e1, hcs⟩ := ht.first
  obtain ⟨m', d, e2, hd⟩ := hw.last
  have e : type ++ [32] ++ Base64.encode (Spec.sshString algo ++ rest) ++ [32] ++ comment =
      (type ++ 32 :: Base64.encode (Spec.sshString algo ++ rest)) ++ 32 :: comment := by simp
  obtain ⟨y, h1, h2, h3⟩ := trimSpace_two (type ++ 32 :: Base64.encode (Spec.sshString algo ++ rest)) c d
    (m ++ 32 :: Base64.encode (Spec.sshString algo ++ rest))
    (by rw [e1]; rfl) hcs ⟨type ++ 32 :: m', by rw [e2]; simp⟩ hd comment
  have e3 : trimSpace (type ++ [32] ++ Base64.encode (Spec.sshString algo ++ rest) ++ [32] ++ comment) =
      type ++ 32 :: (Base64.encode (Spec.sshString algo ++ rest) ++ y) := by rw [e, h1]; simp
  rw [e3, authLine_first P type _ ht h35 hw y h3 none]
  · rfl
  · intro y' _
    rw [parseEncPubKey_nil]
    exact ⟨_, algo, rest, Base64.decode_encode _, parseString_sshString _ _ hl, ha⟩

/-! ### Options -/

theorem optScan_quoted (t : Bytes) : ∀ (items : List Bytes) (i : Nat) (prev : Option UInt8), prev ≠ some 92 →
    (∀ x ∈ items, x = [92, 34] ∨ (∃ c, x = [c] ∧ c ≠ 34 ∧ c ≠ 92) ∨ ∃ c, x = [92, c] ∧ c ≠ 34 ∧ c ≠ 92) →
    optScan (items.flatten ++ 34 :: t) i prev true = optScan t (i + items.flatten.length + 1) (some 34) false := by
  intro items
  induction items with
  | nil =>
    intro i prev hp _
    simp [optScan, hp]
  | cons x xs ih =>
    intro i prev hp h
    rcases h x (by simp) with rfl | ⟨c, rfl, h1, h2⟩ | ⟨c, rfl, h1, h2⟩
    · simp only [List.flatten_cons, List.cons_append, List.nil_append]
      rw [optScan, if_neg (by simp), if_neg (by simp), optScan, if_neg (by simp), if_neg (by simp), ih _ _ (by decide) (fun y hy => h y (by simp [hy]))]
      simp only [List.length_cons]
      congr 1
      omega
    · simp only [List.flatten_cons, List.cons_append, List.nil_append]
      rw [optScan, if_neg (by simp), if_neg (by simp [h1]), ih _ _ (by simpa using h2) (fun y hy => h y (by simp [hy]))]
      simp only [List.length_cons]
      congr 1
      omega
    · simp only [List.flatten_cons, List.cons_append, List.nil_append]
      rw [optScan, if_neg (by simp), if_neg (by simp), optScan, if_neg (by simp), if_neg (by simp [h1]),
        ih _ _ (by simpa using h2) (fun y hy => h y (by simp [hy]))]
      simp only [List.length_cons]
      congr 1
      omega

/-- The scan stops at the blank behind the options. -/
theorem optScan_options (o : Bytes) (ho : Spec.Options o) (t : Bytes) : ∀ (i : Nat) (prev : Option UInt8), prev ≠ some 92 →
    optScan (o ++ 32 :: t) i prev false = i + o.length := by
  induction ho with
  | nil => intro i prev _; simp [optScan, isBlank]
  | bare c t' h1 h2 h3 h4 _ ih =>
    intro i prev hp
    have hb : isBlank c = false := by simp [isBlank, h3, h4]
    rw [List.cons_append, optScan, if_neg (by simp [hb]), if_neg (by simp [h1]), ih _ _ (by simpa using h2), List.length_cons]
    omega
  | quoted items t' hi _ ih =>
    intro i prev hp
    have e : 34 :: (items.flatten ++ 34 :: t') ++ 32 :: t = 34 :: (items.flatten ++ 34 :: (t' ++ 32 :: t)) := by simp
    rw [e, optScan, if_neg (by simp [isBlank]), if_pos ⟨rfl, hp⟩, Bool.not_false, optScan_quoted _ items _ _ (by decide) hi,
      ih _ _ (by decide)]
    simp only [List.length_cons, List.length_append]
    omega

/-- The second attempt on a line `options type key ...`. -/
theorem authLine_second (P : Prims) (o t w : Bytes) (ho : Spec.Options o) (hc : ∃ c m, o = c :: m ∧ c ≠ 35) (ht : Word t) (hw : Word w)
    (y : Bytes) (hy : y = [] ∨ ∃ z, y = 32 :: z)
    (i : Nat) (hi : indexBlank (o ++ 32 :: (t ++ 32 :: (w ++ y))) = some i)
    (hfirst : ∃ e, parseAuthorizedKey P ((o ++ 32 :: (t ++ 32 :: (w ++ y))).drop i) = .err e) :
    ∃ y', trimSpace y' = trimSpace y ∧ authLine P (o ++ 32 :: (t ++ 32 :: (w ++ y))) = keyOf (parseEncPubKey P w y') := by
  obtain ⟨c, m, rfl, h35⟩ := hc
  obtain ⟨tc, tm, e1, htc⟩ := ht.first
  obtain ⟨e, hfirst⟩ := hfirst
  obtain ⟨y', ey, ey'⟩ := parseAuthorizedKey_word P w hw y hy
  refine ⟨y', ey', ?_⟩
  unfold authLine
  rw [if_neg (by simpa using h35), hi]
  dsimp only
  rw [hfirst]
  dsimp only
  rw [optScan_options _ ho _ 0 none (by decide), Nat.zero_add, List.drop_left]
  have hdw : (32 :: (t ++ 32 :: (w ++ y))).dropWhile isBlank = t ++ 32 :: (w ++ y) := by
    have h0 : isBlank tc = false := ht.noblank tc (by rw [e1]; simp)
    rw [e1, List.dropWhile_cons_of_pos (by decide), List.cons_append, List.dropWhile_cons_of_neg (by simp [h0])]
  rw [hdw, if_neg (by simp), findIdx_append_blank t 32 _ ht.noblank (by decide)]
  dsimp only
  rw [List.drop_left, ey]

/-- Trimming a line with options keeps everything up to the comment. -/
theorem trim_optLine (o x comment : Bytes) (hx : x ≠ []) (hc : ∃ c m, o = c :: m ∧ solid c = true) :
    ∃ y, trimSpace (o ++ [32] ++ Spec.keyLine (Base64.encode x) comment) = o ++ 32 :: (algoEd25519 ++ 32 :: (Base64.encode x ++ y)) ∧
      trimSpace y = trimSpace comment ∧ (y = [] ∨ ∃ z, y = 32 :: z) := by
  obtain ⟨c, m, e1, hcs⟩ := hc
  have hw := word_b64 x hx
  obtain ⟨m', d, e2, hd⟩ := hw.last
  have e : o ++ [32] ++ Spec.keyLine (Base64.encode x) comment =
      (o ++ 32 :: (algoEd25519 ++ 32 :: Base64.encode x)) ++ 32 :: comment := by
    unfold Spec.keyLine
    rw [type_bytes, blank_bytes]; simp
  rw [e]
  obtain ⟨y, h1, h2, h3⟩ := trimSpace_two (o ++ 32 :: (algoEd25519 ++ 32 :: Base64.encode x)) c d
    (m ++ 32 :: (algoEd25519 ++ 32 :: Base64.encode x))
    (by rw [e1]; rfl) hcs ⟨o ++ 32 :: (algoEd25519 ++ 32 :: m'), by rw [e2]; simp⟩ hd comment
  exact ⟨y, by rw [h1]; simp, h2, h3⟩

theorem optLine_oneLine (o x comment : Bytes) (ho : Spec.OneLine o) (h : Spec.OneLine comment) :
    Spec.OneLine (o ++ [32] ++ Spec.keyLine (Base64.encode x) comment) := by
  intro c hc
  simp only [List.mem_append, List.mem_singleton] at hc
  rcases hc with (hc | hc) | hc
  · exact ho c hc
  · subst hc; decide
  · exact keyLine_oneLine x comment h c hc

theorem decode_algo : Base64.decode algoEd25519 = none := by decide +kernel

theorem parseEncPubKey_bad (P : Prims) (w c : Bytes) (h : Base64.decode w = none) :
    parseEncPubKey P w c = .err (.msg "illegal base64 data") := by
  unfold parseEncPubKey; rw [h]

/-- **C42** (options without blanks).  A key line behind an options field that contains no blank contributes exactly its key
and trimmed comment. -/
theorem C42_options_line (P : Prims) (o key comment : Bytes) (hk : key.length = 32) (ho : Spec.Options o)
    (hs : ∃ c m, o = c :: m ∧ solid c = true ∧ c ≠ 35) (hb : ∀ c ∈ o, isBlank c = false)
    (hol : Spec.OneLine o) (hc : Spec.OneLine comment) :
    ∃ c, Spec.Trims comment c ∧
      parseAuthorizedKeys P (o ++ [32] ++ Spec.keyLine (Base64.encode (Spec.sshPublicBlob key)) comment) =
        [{ pk := key, comment := c, hash := (P.sha256 key).take 16 }] := by
  have hx : Spec.sshPublicBlob key ≠ [] := by simp [Spec.sshPublicBlob, Spec.sshString]
  obtain ⟨c, m, e1, h1, h2⟩ := hs
  refine ⟨trimSpace comment, trimSpace_trims comment, ?_⟩
  rw [parse_oneLine P _ (optLine_oneLine o _ comment hol hc)]
  obtain ⟨y, g1, g2, g3⟩ := trim_optLine o (Spec.sshPublicBlob key) comment hx ⟨c, m, e1, h1⟩
  rw [g1]
  have hfirst : ∃ e, parseAuthorizedKey P ((o ++ 32 :: (algoEd25519 ++ 32 :: (Base64.encode (Spec.sshPublicBlob key) ++ y))).drop o.length) =
      .err e := by
    rw [List.drop_left]
    obtain ⟨y', e, _⟩ := parseAuthorizedKey_word P algoEd25519 word_algo (32 :: (Base64.encode (Spec.sshPublicBlob key) ++ y))
      (.inr ⟨_, rfl⟩)
    rw [e, parseEncPubKey_bad P _ _ decode_algo]
    exact ⟨_, rfl⟩
  obtain ⟨y', hy', ha⟩ := authLine_second P o algoEd25519 (Base64.encode (Spec.sshPublicBlob key)) ho ⟨c, m, e1, h2⟩ word_algo
    (word_b64 _ hx) y g3 o.length (findIdx_append_blank o 32 _ hb (by decide)) hfirst
  rw [ha, parseEncPubKey_good P key y' hk, hy', g2]
  rfl

/-- **C42** (options with blanks).  The same holds if the options field contains blanks (inside quotes), provided the word
behind its first blank is not base64 text.  `_partial`: without this proviso the claim is false, see `C42_options_refuted`. -/
theorem C42_options_partial (P : Prims) (o1 b w o2 key comment : Bytes) (hk : key.length = 32)
    (ho : Spec.Options (o1 ++ [32] ++ b ++ w ++ o2))
    (hs : ∃ c m, o1 = c :: m ∧ solid c = true ∧ c ≠ 35) (h1 : ∀ c ∈ o1, isBlank c = false)
    (hbl : ∀ c ∈ b, c = 32) (hw : Word w) (h2 : o2 = [] ∨ ∃ z, o2 = 32 :: z) (hd : Base64.decode w = none)
    (hol : Spec.OneLine (o1 ++ [32] ++ b ++ w ++ o2)) (hc : Spec.OneLine comment) :
    ∃ c, Spec.Trims comment c ∧
      parseAuthorizedKeys P (o1 ++ [32] ++ b ++ w ++ o2 ++ [32] ++ Spec.keyLine (Base64.encode (Spec.sshPublicBlob key)) comment) =
        [{ pk := key, comment := c, hash := (P.sha256 key).take 16 }] := by
  have hx : Spec.sshPublicBlob key ≠ [] := by simp [Spec.sshPublicBlob, Spec.sshString]
  obtain ⟨c, m, e1, hcs, hc35⟩ := hs
  refine ⟨trimSpace comment, trimSpace_trims comment, ?_⟩
  rw [parse_oneLine P _ (optLine_oneLine _ _ comment hol hc)]
  have e1' : o1 ++ [32] ++ b ++ w ++ o2 = c :: (m ++ [32] ++ b ++ w ++ o2) := by rw [e1]; simp
  obtain ⟨y, g1, g2, g3⟩ := trim_optLine (o1 ++ [32] ++ b ++ w ++ o2) (Spec.sshPublicBlob key) comment hx ⟨c, _, e1', hcs⟩
  rw [g1]
  generalize hr : algoEd25519 ++ 32 :: (Base64.encode (Spec.sshPublicBlob key) ++ y) = r
  have esplit : o1 ++ [32] ++ b ++ w ++ o2 ++ 32 :: r = o1 ++ 32 :: (b ++ (w ++ (o2 ++ 32 :: r))) := by simp
  have hfirst : ∃ e, parseAuthorizedKey P ((o1 ++ [32] ++ b ++ w ++ o2 ++ 32 :: r).drop o1.length) = .err e := by
    rw [esplit, List.drop_left]
    have hb : trimSpace (32 :: (b ++ (w ++ (o2 ++ 32 :: r)))) = trimSpace (32 :: (w ++ (o2 ++ 32 :: r))) := by
      clear esplit ho hol g1 e1'
      induction b with
      | nil => rfl
      | cons d b ih =>
        have : d = 32 := hbl d (by simp)
        subst this
        rw [List.cons_append, ← ih (fun c hc => hbl c (by simp [hc]))]
        exact trimSpace_append_left [32] (32 :: (b ++ (w ++ (o2 ++ 32 :: r)))) (by decide)
    obtain ⟨y', e, _⟩ := parseAuthorizedKey_word P w hw (o2 ++ 32 :: r)
      (by rcases h2 with rfl | ⟨z, rfl⟩
          · exact .inr ⟨_, rfl⟩
          · exact .inr ⟨_, rfl⟩)
    have : parseAuthorizedKey P (32 :: (b ++ (w ++ (o2 ++ 32 :: r)))) = parseAuthorizedKey P (32 :: (w ++ (o2 ++ 32 :: r))) := by
      unfold parseAuthorizedKey; rw [hb]
    rw [this, e, parseEncPubKey_bad P _ _ hd]
    exact ⟨_, rfl⟩
  subst hr
  obtain ⟨y', hy', ha⟩ := authLine_second P (o1 ++ [32] ++ b ++ w ++ o2) algoEd25519 (Base64.encode (Spec.sshPublicBlob key)) ho
    ⟨c, _, e1', hc35⟩ word_algo (word_b64 _ hx) y g3 o1.length
    (by rw [esplit]; exact findIdx_append_blank o1 32 _ h1 (by decide)) hfirst
  rw [ha, parseEncPubKey_good P key y' hk, hy', g2]
  rfl

/-- **C42** is false for some option fields.  If the word behind the first blank, inside a quoted option, is itself base64 text
of a key, then that key is taken and the key of the line is dropped. -/
theorem C42_options_refuted (P : Prims) (key other : Bytes) (hko : other.length = 32) (hne : key ≠ other) :
    Spec.Options (ascii "x=\"a " ++ Base64.encode (Spec.sshPublicBlob other) ++ ascii " \"") ∧
    ∃ pk, parseAuthorizedKeys P (ascii "x=\"a " ++ Base64.encode (Spec.sshPublicBlob other) ++ ascii " \"" ++ [32] ++
      Spec.keyLine (Base64.encode (Spec.sshPublicBlob key)) []) = [pk] ∧ pk.pk = other ∧ pk.pk ≠ key := by
  have hx : Spec.sshPublicBlob other ≠ [] := by simp [Spec.sshPublicBlob, Spec.sshString]
  have hxk : Spec.sshPublicBlob key ≠ [] := by simp [Spec.sshPublicBlob, Spec.sshString]
  have c1 : ascii "x=\"a " = [120, 61, 34, 97, 32] := by decide +kernel
  have c2 : ascii " \"" = [32, 34] := by decide +kernel
  refine ⟨?_, ?_⟩
  · rw [c1, c2]
    have hq : ∀ c ∈ 97 :: 32 :: (Base64.encode (Spec.sshPublicBlob other) ++ [32]), c ≠ 34 ∧ c ≠ 92 := by
      intro c hc
      simp only [List.mem_cons, List.mem_append, List.not_mem_nil, or_false] at hc
      rcases hc with rfl | rfl | hc | rfl
      · decide
      · decide
      · have := Base64.encode_alphabet _ c hc
        revert this
        exact Base64.forall_byte (p := fun c => Base64.isB64 c = true → c ≠ 34 ∧ c ≠ 92) (by decide +kernel) c
      · decide
    have e : [120, 61, 34, 97, 32] ++ Base64.encode (Spec.sshPublicBlob other) ++ [32, 34] =
        120 :: 61 :: 34 :: (((97 :: 32 :: (Base64.encode (Spec.sshPublicBlob other) ++ [32])).map fun c => [c]).flatten ++ 34 :: []) := by
      have hf : ∀ l : Bytes, (l.map fun c => [c]).flatten = l := by
        intro l; induction l with
        | nil => rfl
        | cons a l ih => simp [ih]
      rw [hf]; simp
    rw [e]
    refine .bare _ _ (by decide) (by decide) (by decide) (by decide) (.bare _ _ (by decide) (by decide) (by decide) (by decide)
      (.quoted _ [] ?_ .nil))
    intro i hi
    obtain ⟨c, hc, rfl⟩ := List.mem_map.mp hi
    exact .inr (.inl ⟨c, rfl, hq c hc⟩)
  · refine ⟨{ pk := other, comment := trimSpace (32 :: 34 :: 32 :: (algoEd25519 ++ 32 :: Base64.encode (Spec.sshPublicBlob key))), hash := pkhash P other }, ?_, rfl, fun h => hne h.symm⟩
    have hol : Spec.OneLine (ascii "x=\"a " ++ Base64.encode (Spec.sshPublicBlob other) ++ ascii " \"") := by
      intro c hc
      rw [c1, c2] at hc
      rcases List.mem_append.mp hc with hc | hc
      · rcases List.mem_append.mp hc with hc | hc
        · exact (by decide : ∀ c ∈ ([120, 61, 34, 97, 32] : Bytes), c ≠ 10 ∧ c ≠ 13) c hc
        · exact b64_oneLine _ c hc
      · exact (by decide : ∀ c ∈ ([32, 34] : Bytes), c ≠ 10 ∧ c ≠ 13) c hc
    rw [parse_oneLine P _ (optLine_oneLine _ _ [] hol (by simp [Spec.OneLine]))]
    obtain ⟨y, g1, g2, g3⟩ := trim_optLine (ascii "x=\"a " ++ Base64.encode (Spec.sshPublicBlob other) ++ ascii " \"")
      (Spec.sshPublicBlob key) [] hxk ⟨120, _, by rw [c1]; rfl, by decide⟩
    rw [g1]
    have e : ascii "x=\"a " ++ Base64.encode (Spec.sshPublicBlob other) ++ ascii " \"" ++
        32 :: (algoEd25519 ++ 32 :: (Base64.encode (Spec.sshPublicBlob key) ++ y)) =
        [120, 61, 34, 97] ++ 32 :: (Base64.encode (Spec.sshPublicBlob other) ++
          32 :: 34 :: 32 :: (algoEd25519 ++ 32 :: (Base64.encode (Spec.sshPublicBlob key) ++ y))) := by
      rw [c1, c2]; simp
    have ht0 : trimSpace ([] : Bytes) = [] := by decide
    have hy : trimSpace (32 :: 34 :: 32 :: (algoEd25519 ++ 32 :: (Base64.encode (Spec.sshPublicBlob key) ++ y))) =
        trimSpace (32 :: 34 :: 32 :: (algoEd25519 ++ 32 :: Base64.encode (Spec.sshPublicBlob key))) := by
      have h32 : ∀ z, trimSpace (32 :: z) = trimSpace z := fun z => trimSpace_append_left [32] z (by decide)
      rw [h32, h32]
      obtain ⟨m', d, e2, hd⟩ := (word_b64 _ hxk).last
      have hfull : trimSpace (34 :: 32 :: (algoEd25519 ++ 32 :: Base64.encode (Spec.sshPublicBlob key))) =
          34 :: 32 :: (algoEd25519 ++ 32 :: Base64.encode (Spec.sshPublicBlob key)) := by
        have := trimSpace_solid 34 d (32 :: (algoEd25519 ++ 32 :: m')) (by decide) hd
        rw [e2]
        simpa using this
      rw [hfull]
      rcases g3 with rfl | ⟨z, rfl⟩
      · rw [List.append_nil, hfull]
      · obtain ⟨y', k1, k2, k3⟩ := trimSpace_two (34 :: 32 :: (algoEd25519 ++ 32 :: Base64.encode (Spec.sshPublicBlob key))) 34 d _ rfl
          (by decide) ⟨34 :: 32 :: (algoEd25519 ++ 32 :: m'), by rw [e2]; simp⟩ hd z
        have e3 : 34 :: 32 :: (algoEd25519 ++ 32 :: (Base64.encode (Spec.sshPublicBlob key) ++ 32 :: z)) =
            34 :: 32 :: (algoEd25519 ++ 32 :: Base64.encode (Spec.sshPublicBlob key)) ++ 32 :: z := by simp
        rw [e3, k1]
        have hz : trimSpace z = [] := by
          rw [h32] at g2
          rw [g2, ht0]
        have : y' = [] := by
          rcases k3 with h | ⟨u, rfl⟩
          · exact h
          · exfalso
            -- what is left would end in white space
            rw [hz] at k2
            obtain ⟨bs, as, hb, ha, hxx, hn⟩ := trimSpace_trims (32 :: u)
            rw [k2] at hxx
            have ht := trimSpace_trims (34 :: 32 :: (algoEd25519 ++ 32 :: Base64.encode (Spec.sshPublicBlob key)) ++ 32 :: z)
            rw [k1] at ht
            obtain ⟨bs', as', _, _, _, hn'⟩ := ht
            have hne2 : bs ++ as ≠ [] := by
              intro h0
              have h1 := List.append_eq_nil_iff.mp h0
              rw [h1.1, h1.2] at hxx
              simp at hxx
            have hmem : (bs ++ as).getLast hne2 ∈ Spec.whiteSpace := by
              rcases List.mem_append.mp (List.getLast_mem hne2) with h | h
              · exact hb _ h
              · exact ha _ h
            refine (hn' _ hmem).2 ?_
            have hsuf : (bs ++ as).getLast hne2 <:+ (32 :: u) := by
              rw [hxx]
              refine ⟨(bs ++ as).dropLast.flatten, ?_⟩
              have := congrArg List.flatten (List.dropLast_append_getLast hne2)
              simpa using this
            exact hsuf.trans ⟨_, rfl⟩
        rw [this, List.append_nil]
    rw [e, authLine_first P [120, 61, 34, 97] _ ⟨by decide, ⟨120, [61, 34, 97], rfl, by decide⟩, ⟨[120, 61, 34], 97, rfl, by decide⟩⟩
      (by decide) (word_b64 _ hx) (32 :: 34 :: 32 :: (algoEd25519 ++ 32 :: (Base64.encode (Spec.sshPublicBlob key) ++ y)))
      (.inr ⟨_, rfl⟩) (some { pk := other, comment := trimSpace (32 :: 34 :: 32 :: (algoEd25519 ++ 32 :: Base64.encode (Spec.sshPublicBlob key))), hash := pkhash P other })]
    · rfl
    · intro y' hy'
      rw [parseEncPubKey_good P other y' hko, hy', hy]

/-! ### Concrete cases -/

/-- A file with a comment, an RSA key, a plain key and a key with options. -/
example : (parseAuthorizedKeys toyPrims (ascii "# my keys\n\nssh-rsa AAAAB3NzaC1yc2EAAAAA me\n" ++
      Spec.keyLine (Base64.encode (Spec.sshPublicBlob (List.replicate 32 5))) (ascii "me @ home \r\n") ++
      ascii "no-pty,command=\"echo hi\" " ++ Spec.keyLine (Base64.encode (Spec.sshPublicBlob (List.replicate 32 6))) (ascii "you"))).map
    (fun pk => (pk.pk, pk.comment)) = [(List.replicate 32 5, ascii "me @ home"), (List.replicate 32 6, ascii "you")] := by
  decide +kernel

end Sigtool
