import Verif.Props.CommandLines
import Verif.Props.KeyTexts
import Verif.Spec.TestScript
/-!
# C113: the project's own test script, for every input
-/

namespace Sigtool
open Spec

/-! ### The command lines -/

theorem runs_letter {W : World} (hflags : W.flags = realFlags) (hl : ∀ s : Bytes, (∀ b ∈ s, b < 128) → W.lower s = s.map lowerByte)
    (c w : String) (h : (c, w) ∈ [("g", "generate"), ("s", "sign"), ("v", "verify"), ("e", "encrypt"), ("d", "decrypt")])
    (rest : List Bytes) : Runs W (word c :: rest) w rest := by
  have hp : Plain (word c) ∧ (∀ b ∈ word c, b < 128) ∧ (word c).map lowerByte ≠ [] ∧ (word c).map lowerByte <+: w.toUTF8.toList ∧
      w ∈ commandNames := by
    fin_cases h <;> (unfold Plain; decide +kernel)
  refine ⟨{}, word c, ?_, rfl, rfl, hp.2.2.2.2, ?_, ?_⟩
  · rw [hflags]
    show parseArgs topDefs false {} [] (word c :: rest) = _
    rw [parseArgs, if_pos ((plain_iff _).mp hp.1)]
    simp
  · rw [hl _ hp.2.1]; exact hp.2.2.1
  · rw [hl _ hp.2.1]; exact hp.2.2.2.1

theorem flag_word (opts : List Opt) (o : Opt) (w : Bytes) (hw : w = word "--" ++ word o.name) (ho : o ∈ opts) (ht : o.takes = false) :
    OptWord opts w [(o.name, word "true")] none := by
  subst hw; exact .flag o ho ht

theorem letter_word (opts : List Opt) (o : Opt) (c : Char) (w : Bytes) (hw : w = word "-" ++ letter c) (ho : o ∈ opts)
    (hl : o.letter = some c) (ht : o.takes = false) : OptWord opts w [(o.name, word "true")] none := by
  subst hw; exact .letters _ _ _ (.flag o c ho hl ht)

theorem gen_script (k : Bytes) (h : Plain k) : realFlags.gen [word "-E", word "FOO", k] = .ok { envpw := word "FOO" } [k] := by
  have hb : Begins genOptions [word "-E", word "FOO", k] ([] ++ ("env-password", word "FOO") :: []) [k] [] :=
    .optNext (word "-E") [] "env-password" _ _ [] _ []
      (next_word genOptions ⟨"env-password", some 'E', true⟩ 'E' _ (by decide) (by simp [genOptions]) rfl rfl) (begins_args _ _ (by simpa using h))
  refine ((C102_generate _).1 _ _).mpr ⟨_, .inl hb, ?_, ?_, ?_⟩
  · unfold Typed; simp only [List.nil_append]; decide +kernel
  · simp only [List.nil_append]; decide +kernel
  · simp only [List.nil_append]; rfl

theorem gen_script_overwrite (k : Bytes) (h : Plain k) :
    realFlags.gen [word "-E", word "FOO", word "--overwrite", k] = .ok { envpw := word "FOO", force := true } [k] := by
  have hb : Begins genOptions [word "-E", word "FOO", word "--overwrite", k]
      ([] ++ ("env-password", word "FOO") :: ([("overwrite", word "true")] ++ [])) [k] [] :=
    .optNext (word "-E") [] "env-password" _ _ _ _ []
      (next_word genOptions ⟨"env-password", some 'E', true⟩ 'E' _ (by decide) (by simp [genOptions]) rfl rfl)
    (.opt _ _ _ _ _ _ (flag_word genOptions ⟨"overwrite", none, false⟩ _ (by decide) (by simp [genOptions]) rfl)
      (begins_args _ _ (by simpa using h)))
  refine ((C102_generate _).1 _ _).mpr ⟨_, .inl hb, ?_, ?_, ?_⟩
  · unfold Typed; simp only [List.nil_append]; decide +kernel
  · simp only [List.nil_append]; decide +kernel
  · simp only [List.nil_append]; rfl

theorem sign_script (kn fn out : Bytes) (h1 : Plain kn) (h2 : Plain fn) :
    realFlags.sign [word "-E", word "FOO", kn, fn, word "-o", out] = .ok { envpw := word "FOO", output := out } [kn, fn] := by
  have hb : Begins signOptions [word "-E", word "FOO", kn, fn, word "-o", out]
      ([] ++ ("env-password", word "FOO") :: ([] ++ ("output", out) :: [])) [kn, fn] [] :=
    .optNext (word "-E") [] "env-password" _ _ _ _ []
      (next_word signOptions ⟨"env-password", some 'E', true⟩ 'E' _ (by decide) (by simp [signOptions]) rfl rfl)
    (.arg _ _ _ _ _ h1 (.arg _ _ _ _ _ h2 (.optNext (word "-o") [] "output" _ _ _ _ []
      (next_word signOptions ⟨"output", some 'o', true⟩ 'o' _ (by decide) (by simp [signOptions]) rfl rfl) (.here []))))
  refine ((C102_sign _).1 _ _).mpr ⟨_, .inl hb, ?_, ?_, ?_⟩
  · intro x hx o ho hn ht
    simp only [List.nil_append, List.mem_cons, List.not_mem_nil, or_false] at hx
    simp only [signOptions, List.mem_cons, List.not_mem_nil, or_false] at ho
    rcases hx with rfl | rfl <;> rcases ho with rfl | rfl | rfl | rfl | rfl <;> simp at hn ht
  · simp [text, on, trues]
    decide +kernel
  · simp [text, on, trues]
    decide +kernel

theorem verify_script (pn sn fn : Bytes) (h1 : Plain pn) (h2 : Plain sn) (h3 : Plain fn) :
    realFlags.verify [word "-q", pn, sn, fn] = .ok () [pn, sn, fn] := by
  have hb : Begins verifyOptions [word "-q", pn, sn, fn] ([("quiet", word "true")] ++ []) [pn, sn, fn] [] :=
    .opt _ _ _ _ _ _ (letter_word verifyOptions ⟨"quiet", some 'q', false⟩ 'q' _ (by decide) (by simp [verifyOptions]) rfl rfl)
      (begins_args _ _ (by simp [h1, h2, h3]))
  refine ((C102_verify _).2.1 _).mpr ⟨_, .inl hb, ?_, ?_⟩
  · unfold Typed; simp only [List.append_nil]; decide +kernel
  · simp only [List.append_nil]; decide +kernel

theorem enc_script (out : Bytes) (args : List Bytes) (h : ∀ w ∈ args, Plain w) :
    realFlags.enc (word "-E" :: word "FOO" :: word "-o" :: out :: args) = .ok { envpw := word "FOO", outfile := out } args := by
  have hb : Begins encOptions (word "-E" :: word "FOO" :: word "-o" :: out :: args)
      ([] ++ ("env-password", word "FOO") :: ([] ++ ("outfile", out) :: [])) args [] :=
    .optNext (word "-E") [] "env-password" _ _ _ _ []
      (next_word encOptions ⟨"env-password", some 'E', true⟩ 'E' _ (by decide) (by simp [encOptions]) rfl rfl)
    (.optNext (word "-o") [] "outfile" out args [] args []
      (next_word encOptions ⟨"outfile", some 'o', true⟩ 'o' _ (by decide) (by simp [encOptions]) rfl rfl) (begins_args _ _ h))
  refine ((C102_encrypt _).1 _ _).mpr ⟨_, .inl hb, ?_, ?_⟩
  · intro x hx o ho hn ht
    simp only [List.nil_append, List.mem_cons, List.not_mem_nil, or_false] at hx
    simp only [encOptions, List.mem_cons, List.not_mem_nil, or_false] at ho
    rcases hx with rfl | rfl <;> rcases ho with rfl | rfl | rfl | rfl | rfl | rfl <;> simp at hn ht
  · simp [text, on, trues]
    decide +kernel

theorem enc_script_signed (out key : Bytes) (args : List Bytes) (h : ∀ w ∈ args, Plain w) :
    realFlags.enc (word "-E" :: word "FOO" :: word "--overwrite" :: word "-o" :: out :: word "-s" :: key :: args) =
      .ok { envpw := word "FOO", outfile := out, sign := key, force := true } args := by
  have hb : Begins encOptions (word "-E" :: word "FOO" :: word "--overwrite" :: word "-o" :: out :: word "-s" :: key :: args)
      ([] ++ ("env-password", word "FOO") :: ([("overwrite", word "true")] ++ ([] ++ ("outfile", out) :: ([] ++ ("sign", key) :: [])))) args [] :=
    .optNext (word "-E") [] "env-password" _ _ _ _ []
      (next_word encOptions ⟨"env-password", some 'E', true⟩ 'E' _ (by decide) (by simp [encOptions]) rfl rfl)
    (.opt _ _ _ _ _ _ (flag_word encOptions ⟨"overwrite", none, false⟩ _ (by decide) (by simp [encOptions]) rfl)
    (.optNext (word "-o") [] "outfile" out _ _ args []
      (next_word encOptions ⟨"outfile", some 'o', true⟩ 'o' _ (by decide) (by simp [encOptions]) rfl rfl)
    (.optNext (word "-s") [] "sign" key args [] args []
      (next_word encOptions ⟨"sign", some 's', true⟩ 's' _ (by decide) (by simp [encOptions]) rfl rfl) (begins_args _ _ h))))
  refine ((C102_encrypt _).1 _ _).mpr ⟨_, .inl hb, ?_, ?_⟩
  · intro x hx o ho hn ht
    simp only [List.nil_append, List.cons_append, List.mem_cons, List.not_mem_nil, or_false] at hx
    simp only [encOptions, List.mem_cons, List.not_mem_nil, or_false] at ho
    rcases hx with rfl | rfl | rfl | rfl <;> rcases ho with rfl | rfl | rfl | rfl | rfl | rfl <;> simp at hn ht ⊢
    decide +kernel
  · simp [text, on, trues]
    decide +kernel

theorem dec_script (out : Bytes) (args : List Bytes) (h : ∀ w ∈ args, Plain w) :
    realFlags.dec (word "-E" :: word "FOO" :: word "-o" :: out :: args) = .ok { envpw := word "FOO", outfile := out } args := by
  have hb : Begins decOptions (word "-E" :: word "FOO" :: word "-o" :: out :: args)
      ([] ++ ("env-password", word "FOO") :: ([] ++ ("outfile", out) :: [])) args [] :=
    .optNext (word "-E") [] "env-password" _ _ _ _ []
      (next_word decOptions ⟨"env-password", some 'E', true⟩ 'E' _ (by decide) (by simp [decOptions]) rfl rfl)
    (.optNext (word "-o") [] "outfile" out args [] args []
      (next_word decOptions ⟨"outfile", some 'o', true⟩ 'o' _ (by decide) (by simp [decOptions]) rfl rfl) (begins_args _ _ h))
  refine ((C102_decrypt _).1 _ _).mpr ⟨_, .inl hb, ?_, ?_⟩
  · intro x hx o ho hn ht
    simp only [List.nil_append, List.mem_cons, List.not_mem_nil, or_false] at hx
    simp only [decOptions, List.mem_cons, List.not_mem_nil, or_false] at ho
    rcases hx with rfl | rfl <;> rcases ho with rfl | rfl | rfl | rfl | rfl | rfl <;> simp at hn ht
  · simp [text, on, trues]
    decide +kernel

theorem dec_script_signed (out key : Bytes) (args : List Bytes) (h : ∀ w ∈ args, Plain w) :
    realFlags.dec (word "-E" :: word "FOO" :: word "--overwrite" :: word "-o" :: out :: word "-v" :: key :: args) =
      .ok { envpw := word "FOO", outfile := out, sender := key, force := true } args := by
  have hb : Begins decOptions (word "-E" :: word "FOO" :: word "--overwrite" :: word "-o" :: out :: word "-v" :: key :: args)
      ([] ++ ("env-password", word "FOO") :: ([("overwrite", word "true")] ++ ([] ++ ("outfile", out) :: ([] ++ ("verify-sender", key) :: [])))) args [] :=
    .optNext (word "-E") [] "env-password" _ _ _ _ []
      (next_word decOptions ⟨"env-password", some 'E', true⟩ 'E' _ (by decide) (by simp [decOptions]) rfl rfl)
    (.opt _ _ _ _ _ _ (flag_word decOptions ⟨"overwrite", none, false⟩ _ (by decide) (by simp [decOptions]) rfl)
    (.optNext (word "-o") [] "outfile" out _ _ args []
      (next_word decOptions ⟨"outfile", some 'o', true⟩ 'o' _ (by decide) (by simp [decOptions]) rfl rfl)
    (.optNext (word "-v") [] "verify-sender" key args [] args []
      (next_word decOptions ⟨"verify-sender", some 'v', true⟩ 'v' _ (by decide) (by simp [decOptions]) rfl rfl) (begins_args _ _ h))))
  refine ((C102_decrypt _).1 _ _).mpr ⟨_, .inl hb, ?_, ?_⟩
  · intro x hx o ho hn ht
    simp only [List.nil_append, List.cons_append, List.mem_cons, List.not_mem_nil, or_false] at hx
    simp only [decOptions, List.mem_cons, List.not_mem_nil, or_false] at ho
    rcases hx with rfl | rfl | rfl | rfl <;> rcases ho with rfl | rfl | rfl | rfl | rfl | rfl <;> simp at hn ht ⊢
    decide +kernel
  · simp [text, on, trues]
    decide +kernel

/-! ### What a run leaves behind -/

/-- The two files of a key pair. -/
structure HasPair (D : Deps) (fs : FS) (kf pf : Path) (seed pw : Bytes) : Prop where
  pub : ∃ pk, readPublicKey D fs pf = .ok pk ∧ pk.pk = D.P.edPub seed ∧ pk.hash = (D.P.sha256 (D.P.edPub seed)).take 16
  key : ∃ sk, readPrivateKey D fs kf (some (.ok pw)) = .ok sk ∧ sk.Genuine D.P ∧ sk.pub.pk = D.P.edPub seed ∧
    sk.pub.hash = (D.P.sha256 (D.P.edPub seed)).take 16

theorem HasPair.same {D : Deps} {fs fs' : FS} {kf pf : Path} {seed pw : Bytes} {l : List Path} (h : HasPair D fs kf pf seed pw)
    (hs : SameBut fs fs' l) (h1 : kf ∉ l) (h2 : pf ∉ l) : HasPair D fs' kf pf seed pw := by
  obtain ⟨⟨pk, a1, a2, a3⟩, ⟨sk, b1, b2, b3, b4⟩⟩ := h
  obtain ⟨b, c1, c2⟩ := (readPublicKey_ok _ _ _ _).mp a1
  obtain ⟨b', d1, d2⟩ := (readPrivateKey_ok _ _ _ _ _).mp b1
  exact ⟨⟨pk, (readPublicKey_ok _ _ _ _).mpr ⟨b, by rw [(hs _ h2).1]; exact c1, c2⟩, a2, a3⟩,
    ⟨sk, (readPrivateKey_ok _ _ _ _ _).mpr ⟨b', by rw [(hs _ h1).1]; exact d1, d2⟩, b2, b3, b4⟩⟩

theorem file_of_read {fs : FS} {p : Path} {b : Bytes} (h : fs.read p = some b) : ∃ i, fs.dir p = some (.file i) := by
  unfold FS.read readIn at h
  match hd : fs.dir p with
  | none => rw [hd] at h; cases h
  | some .other => rw [hd] at h; cases h
  | some (.file i) => exact ⟨i, rfl⟩

theorem HasPair.files {D : Deps} {fs : FS} {kf pf : Path} {seed pw : Bytes} (h : HasPair D fs kf pf seed pw) :
    (∃ i, fs.dir kf = some (.file i)) ∧ ∃ i, fs.dir pf = some (.file i) := by
  obtain ⟨⟨pk, a1, a2, a3⟩, ⟨sk, b1, b2, b3, b4⟩⟩ := h
  obtain ⟨b, c1, c2⟩ := (readPublicKey_ok _ _ _ _).mp a1
  obtain ⟨b', d1, d2⟩ := (readPrivateKey_ok _ _ _ _ _).mp b1
  exact ⟨file_of_read d1, file_of_read c1⟩

theorem gen_runs (G : World) (L : Laws G.D.P) (YL : G.D.Y.Laws) (hY : G.D.Y.Reads []) (k pw typed : Bytes) (argv rest : List Bytes)
    (o : GenOpts) (M : Works G argv typed) (hr : Runs G argv "generate" rest) (hf : G.flags.gen rest = .ok o [k])
    (ho : o.comment = []) (hp : PassPhrase G o.nopw o.envpw pw) (hc : G.clean k = k)
    (h1 : CanCreate G.fs G.env1 (k ++ word ".key") o.force) (h2 : CanCreate G.fs G.env2 (k ++ word ".pub") o.force) :
    (G.main argv).exit = 0 ∧ SameBut G.fs (G.fs.run (G.main argv).sys) [k ++ word ".key", k ++ word ".pub"] ∧
      HasPair G.D (G.fs.run (G.main argv).sys) (k ++ word ".key") (k ++ word ".pub") G.seed pw := by
  have hm : G.main argv = genCmd G.D G.fs G.env1 G.env2 o.force k [] (.ok pw) G.seed G.salt := by
    rw [(C66_dispatch G M.normal.order argv rest _ hr).1 rfl]
    unfold World.gen
    rw [hf]
    dsimp only
    rw [hc, PassPhrase.genpw (W := G) hp, ho]
  have he : GenEnv G.fs G.env1 G.env2 k := by have := M.normal.genEnv hr hf; rwa [hc] at this
  have h0 : (genCmd G.D G.fs G.env1 G.env2 o.force k [] (.ok pw) G.seed G.salt).exit = 0 :=
    C79_generate_succeeds G.D L G.fs G.env1 G.env2 o.force k [] pw G.seed G.salt he h1 h2 M.file1.2 M.file2.2
  refine ⟨by rw [hm]; exact h0, ?_, ?_⟩
  · rw [hm]
    obtain ⟨_, _, _, _, _, _, h⟩ := C49_success G.D G.fs G.env1 G.env2 o.force k [] (.ok pw) G.seed G.salt he h0
    exact h
  · rw [hm]
    obtain ⟨pw', sk, pk, p1, p2, p3, p4, p5, p6, p7, p8⟩ := C49_pair_loads G.D L YL G.fs G.env1 G.env2 o.force k [] hY (.inl rfl)
      (.ok pw) G.seed G.salt M.seed M.salt he h0
    cases p1
    have hh : sk.pub.hash = (G.D.P.sha256 (G.D.P.edPub G.seed)).take 16 := by
      obtain ⟨s, _, _, q1, q2⟩ := p8
      rw [q2, ← p5, q1]; rfl
    exact ⟨⟨pk, p3, p6, p7 ▸ hh⟩, ⟨sk, p2, p8, p5, hh⟩⟩

theorem gen_refused (G : World) (k typed : Bytes) (argv rest : List Bytes)
    (o : GenOpts) (M : Works G argv typed) (hr : Runs G argv "generate" rest) (hf : G.flags.gen rest = .ok o [k])
    (ho : o.force = false) (hc : G.clean k = k) (h : G.fs.exists (k ++ word ".pub") = true) :
    (G.main argv).exit ≠ 0 ∧ G.fs.run (G.main argv).sys = G.fs := by
  rw [(C66_dispatch G M.normal.order argv rest _ hr).1 rfl]
  unfold World.gen
  rw [hf]
  dsimp only
  rw [hc, ho]
  unfold genCmd
  rw [if_pos (by show (!false && (G.fs.exists (k ++ word ".pub") || _)) = true; rw [h]; rfl)]
  exact ⟨by decide, rfl⟩

theorem sign_runs (S : World) (L : Laws S.D.P) (kf pf file sig content seed pw typed : Bytes) (argv rest : List Bytes) (o : SignOpts)
    (M : Works S argv typed) (hr : Runs S argv "sign" rest) (hf : S.flags.sign rest = .ok o [kf, file])
    (ho : o.output = sig) (hp : PassPhrase S o.nopw o.envpw pw) (hYf : S.D.Y.Reads (word "input=" ++ file))
    (hpair : HasPair S.D S.fs kf pf seed pw) (hin : S.fs.read file = some content) (hs : FileName sig)
    (hcr : CanCreate S.fs S.env1 sig o.force) :
    (S.main argv).exit = 0 ∧ SameBut S.fs (S.fs.run (S.main argv).sys) [sig] ∧
      ∃ s, SigFile S.D (S.fs.run (S.main argv).sys) sig s ∧ s.pkhash = (S.D.P.sha256 (S.D.P.edPub seed)).take 16 ∧
        ValidFileSig S.D.P (S.D.P.edPub seed) content s.sig := by
  have htgt : sigTarget o.output file = sig := by unfold sigTarget; rw [ho, if_neg hs.1]
  have hm : S.main argv = signCmd S.D S.fs S.env1 S.stdout o.output o.force (some (.ok pw)) none kf file := by
    rw [(C66_dispatch S M.normal.order argv _ _ hr).2.1 rfl]
    unfold World.sign
    rw [hf]
    dsimp only
    rw [show S.getpw o.nopw o.envpw = some (.ok pw) from PassPhrase.getpw (W := S) hp, M.maps]
  obtain ⟨_, sk, b1, b2, b3, b4⟩ := hpair
  obtain ⟨b, hb1, hb2⟩ := (readPrivateKey_ok _ _ _ _ _).mp b1
  have h0 : (S.main argv).exit = 0 := by
    rw [hm]
    exact (C79_sign_iff S.D S.fs S.env1 S.stdout o.output o.force _ none _ _).mpr
      ⟨.inr (by rw [htgt]; exact hcr), ⟨b, sk, hb1, hb2⟩, ⟨content, hin⟩, rfl⟩
  have ht : sigTarget o.output file ≠ S.env1.tmp := (M.normal.out _ (.sig _ _ _ _ _ hr hf)).1
  obtain ⟨b', sk', content', s, c1, c2, c3, c4, c5, c6, c7⟩ := C58_signature_partial S.D L S.fs S.env1 S.stdout o.output o.force
    (some (.ok pw)) none kf file hYf M.normal.fresh1 ht (by rw [htgt]; exact hs.dash) M.file1.2.1 M.file1.2.2.1
    M.file1.2.2.2.1 M.file1.2.2.2.2 (S.main argv) hm h0
  rw [hb1] at c1; cases c1
  rw [hb2] at c2; cases c2
  rw [hin] at c3; cases c3
  rw [htgt] at c4 c7
  exact ⟨h0, c7, s, c4, by rw [c5, b4], by rw [← b3]; exact c6 b2⟩

theorem verify_main (V : World) (typed : Bytes) (argv rest : List Bytes) (pn sn fn : Bytes)
    (M : Works V argv typed) (hr : Runs V argv "verify" rest) (hf : V.flags.verify rest = .ok () [pn, sn, fn]) :
    V.main argv = { exit := verifyCmd V.D V.fs none [pn, sn, fn] } := by
  rw [(C66_dispatch V M.normal.order argv _ _ hr).2.2.1 rfl]; unfold World.verify; rw [hf]; dsimp only; rw [M.maps]

/-- The argument is a key file and nothing else: its name has a dot. -/
theorem pair_arg {D : Deps} {fs : FS} {kf pf : Path} {seed pw : Bytes} (h : HasPair D fs kf pf seed pw) (hdot : 46 ∈ pf) (pk : PublicKey) :
    KeyArg D fs pf pk →
      pk.pk = D.P.edPub seed ∧ pk.hash = (D.P.sha256 (D.P.edPub seed)).take 16 := by
  obtain ⟨⟨pk', a1, a2, a3⟩, _⟩ := h
  obtain ⟨b, c1, c2⟩ := (readPublicKey_ok _ _ _ _).mp a1
  have hd := fromString_dot D.P _ hdot
  rintro (h | ⟨_, b', h1, h2⟩)
  · obtain ⟨e, he⟩ := hd
    rw [h] at he; cases he
  · rw [c1] at h1; cases h1
    rw [c2] at h2; cases h2
    exact ⟨a2, a3⟩

theorem pair_arg' {D : Deps} {fs : FS} {kf pf : Path} {seed pw : Bytes} (h : HasPair D fs kf pf seed pw) (hdot : 46 ∈ pf) :
    ∃ pk, KeyArg D fs pf pk ∧ pk.pk = D.P.edPub seed ∧ pk.hash = (D.P.sha256 (D.P.edPub seed)).take 16 := by
  obtain ⟨⟨pk, a1, a2, a3⟩, _⟩ := h
  obtain ⟨b, c1, c2⟩ := (readPublicKey_ok _ _ _ _).mp a1
  exact ⟨pk, .inr ⟨fromString_dot D.P _ hdot, b, c1, c2⟩, a2, a3⟩

theorem text_arg {D : Deps} {fs : FS} {text key : Bytes} (hk : key.length = 32) (ht : Base64Text text key) (pk : PublicKey) :
    KeyArg D fs text pk → pk.pk = key ∧ pk.hash = (D.P.sha256 key).take 16 := by
  obtain ⟨h1, h2, h3⟩ := C90_public_string D.P text
  have hu : ∀ x, Base64Text text x → x = key := by
    intro x hx
    have a := (C34_exact text x).mpr hx
    rw [(C34_exact text key).mpr ht] at a
    cases a; rfl
  rintro (h | ⟨⟨e, he⟩, _⟩)
  · rcases (h1 pk).mp h with ⟨key', ⟨q1, q2⟩, rfl⟩ | ⟨_, key', q1, q2, rfl⟩
    · have := congrArg List.length (hu _ q2)
      rw [hk] at this
      simp [sshPublicBlob, sshString, q1] at this
    · rw [hu _ q2]; exact ⟨rfl, rfl⟩
  · by_cases hf : ForeignField text
    · rw [h2.mpr hf] at he; cases he
    · rw [(h1 _).mpr (.inr ⟨hf, key, hk, ht, rfl⟩)] at he; cases he

theorem text_arg' {D : Deps} {fs : FS} {text key : Bytes} (hk : key.length = 32) (ht : Base64Text text key) (hf : ¬ ForeignField text) :
    ∃ pk, KeyArg D fs text pk ∧ pk.pk = key ∧ pk.hash = (D.P.sha256 key).take 16 :=
  ⟨_, .inl (((C90_public_string D.P text).1 _).mpr (.inr ⟨hf, key, hk, ht, rfl⟩)), rfl, rfl⟩

theorem Spec.Base64Text.plain {text x : Bytes} (h : Base64Text text x) : Plain text := by
  obtain ⟨ds, fill, h1, _, _, h4⟩ := h
  right; right
  intro hh
  have hm : (45 : UInt8) ∈ text := List.mem_of_mem_head? (by rw [hh]; rfl)
  have : (45 : UInt8) ∈ text.filter (fun c => c ≠ 10 ∧ c ≠ 13) := List.mem_filter.mpr ⟨hm, by decide⟩
  rw [h4, List.mem_append] at this
  rcases this with this | this
  · obtain ⟨n, hn, he⟩ := List.mem_map.mp this
    have ha : ∀ n : Fin 64, alphabet[n.1]?.getD 0 ≠ 45 := by decide +kernel
    exact ha ⟨n, h1 n hn⟩ he
  · have := List.eq_of_mem_replicate this
    cases this

/-- `encrypt` for one key pair, with or without a sender, and `decrypt`. -/
theorem enc_dec_runs (E X : World) (L : Laws E.D.P) (rk rp infile out plain content rseed rpw pw typed typed' : Bytes)
    (ev erest xv xrest : List Bytes) (eo : EncOpts) (xo : DecOpts)
    (ME : Works E ev typed) (MX : Works X xv typed') (hN : Next E ev X)
    (her : Runs E ev "encrypt" erest) (hef : E.flags.enc erest = .ok eo [rp, infile])
    (hxr : Runs X xv "decrypt" xrest) (hxf : X.flags.dec xrest = .ok xo [rk, out])
    (hbs : eo.blocksize = word "128k") (heo : eo.outfile = out) (hxo : xo.outfile = plain) (hxt : xo.test = false)
    (hname : ¬ NamesUser rp) (hi : infile ≠ ascii "-") (hout : FileName out) (hplain : FileName plain)
    (hin : E.fs.read infile = some content) (hR : HasPair E.D E.fs rk rp rseed rpw) (hseed : rseed.length = 32)
    (hep : PassPhrase E eo.nopw eo.envpw pw) (hxp : PassPhrase X xo.nopw xo.envpw rpw)
    (hd : out ≠ rk ∧ out ≠ rp)
    (hsender : (eo.sign = [] ∧ xo.sender = []) ∨ ∃ sk sp sseed, HasPair E.D E.fs sk sp sseed pw ∧ (sk ≠ [] ∧ sp ≠ []) ∧
      eo.sign = sk ∧ xo.sender = sp ∧ out ≠ sk ∧ out ≠ sp)
    (hc1 : CanCreate E.fs E.env1 out eo.force) (hpo : plain ≠ out)
    (hc2 : CanCreate E.fs X.env1 plain xo.force) :
    (E.main ev).exit = 0 ∧ SameBut E.fs X.fs [out] ∧ (X.main xv).exit = 0 ∧ (∃ c, X.fs.read out = some c) ∧
    SameBut X.fs (X.fs.run (X.main xv).sys) [plain] ∧ (X.fs.run (X.main xv).sys).read plain = some content := by
  obtain ⟨hXD, hXf⟩ := hN
  obtain ⟨home, hh, hauth⟩ := ME.home
  have hm : E.main ev = encryptCmd E.D E.fs E.env1 E.stdout out eo.force eo.sign (some (.ok pw)) (some 131072)
      (some (home ++ ascii "/.ssh/authorized_keys")) [(rp, E.rbuf 0)] infile (E.opened infile) E.coins E.coin := by
    rw [(C66_dispatch E ME.normal.order ev erest _ her).2.2.2.1 rfl]
    unfold World.encrypt
    rw [hef]
    dsimp only
    rw [hh, show E.getpw eo.nopw eo.envpw = some (.ok pw) from PassPhrase.getpw (W := E) hep, hbs, heo]
    rw [show E.parseSize (word "128k") = some 131072 from ME.size]
    rw [show [rp, infile].getLastD [] = infile from rfl, show E.input infile = E.opened infile by unfold World.input; rw [if_neg hi]]
    rfl
  have hw : E.coins.WF := ⟨ME.normal.coins.1, ME.normal.coins.2.1, ME.normal.coins.2.2⟩
  obtain ⟨⟨pk, hpk, hpe, _⟩, ⟨rsk, hrsk, hrg, hre, _⟩⟩ := id hR
  obtain ⟨b, hb1, hb2⟩ := (readPublicKey_ok _ _ _ _).mp hpk
  have hid : ∃ sk, IdentityArg E.D E.fs eo.sign (some (.ok pw)) sk ∧ ∀ s, sk = some s → s.Genuine E.D.P := by
    rcases hsender with ⟨h1, _⟩ | ⟨kf, pf, sseed, h1, h2, h3, h4, h5⟩
    · exact ⟨none, .inl ⟨h1, rfl⟩, by simp⟩
    · obtain ⟨_, ssk, q1, q2, _⟩ := h1
      obtain ⟨b', q3, q4⟩ := (readPrivateKey_ok _ _ _ _ _).mp q1
      rw [h3]
      exact ⟨some ssk, .inr ⟨h2.1, b', ssk, q3, q4, rfl⟩, by rintro _ ⟨⟩; exact q2⟩
  obtain ⟨sk, hsk, hgen⟩ := hid
  have h0 : (E.main ev).exit = 0 := by
    rw [hm]
    refine C79_encrypt_succeeds E.D L E.fs E.env1 E.stdout out eo.force eo.sign (some (.ok pw)) 131072 (home ++ ascii "/.ssh/authorized_keys")
      [(rp, E.rbuf 0)] infile (E.opened infile) E.coins E.coin sk hsk hgen (by simp) ?_ (.inr (exists_of_read hin)) hauth
      (ME.opened _ _ hin).2 hw (.inr ⟨⟨hout.1, hout.dash⟩, ME.file1.1, ME.file1.2.1, hc1.2⟩) ?_
    · intro q hq
      simp only [List.mem_singleton] at hq
      subst hq
      exact ⟨pk, .inr ⟨hname, b, hb1, hb2⟩, rseed, hseed, hpe⟩
    · rw [if_neg (by rintro (h | h); exacts [hout.1 h, hout.dash h])]
      exact ME.file1.2.2
  have ht : out ≠ E.env1.tmp := by have := (ME.normal.out _ (.enc erest _ _ her hef)).1; rwa [heo] at this
  obtain ⟨_, blk, auth, sk', pks, hdr, trailer, e1, e2, e3, e4, e5, e6, e7, e8⟩ := C50_exit_zero E.D L E.fs E.env1 E.stdout out eo.force eo.sign
    (some (.ok pw)) (some 131072) (some (home ++ ascii "/.ssh/authorized_keys")) [(rp, E.rbuf 0)] infile (E.opened infile) E.coins hw
    E.coin ME.normal.coin ME.normal.fresh1 ht (E.main ev) hm h0
  have e8 := e8 (by rintro (h | h); exacts [hout.1 h, hout.dash h])
  rw [← hXf] at e8
  have hc2 : CanCreate X.fs X.env1 plain xo.force := by
    unfold CanCreate at hc2 ⊢
    rwa [(e8.2 plain (by simpa using hpo)).2]
  have hm' : X.main xv = decryptCmd E.D X.fs X.env1 X.stdout plain xo.force false rk (some (.ok rpw)) xo.sender out
      (X.opened out) := by
    rw [(C66_dispatch X MX.normal.order xv xrest _ hxr).2.2.2.2.1 rfl]
    unfold World.decrypt
    rw [hxf]
    dsimp only
    rw [if_neg hout.1, hxt, hxo, show X.getpw xo.nopw xo.envpw = some (.ok rpw) from PassPhrase.getpw (W := X) hxp, hXD,
      show X.input out = X.opened out by unfold World.input; rw [if_neg hout.dash]]
  have hR' : HasPair E.D X.fs rk rp rseed rpw := hR.same e8.2 (by simpa using hd.1.symm) (by simpa using hd.2.symm)
  obtain ⟨_, rsk', hrsk', hrg', hre', _⟩ := hR'
  have ht2 : plain ≠ X.env1.tmp := by
    have := (MX.normal.out _ (.dec xrest _ _ hxr hxf hxt)).1; rwa [hxo] at this
  rcases C60_encrypt_decrypt E.D L E.fs E.env1 E.stdout out eo.force eo.sign (some (.ok pw)) 131072 (by norm_num)
    (home ++ ascii "/.ssh/authorized_keys") [(rp, E.rbuf 0)] (by simp [ME.rbuf]) (by simp) infile (E.opened infile) E.coins hw
    E.coin ME.normal.coin ME.normal.fresh1 ht ⟨hout.1, hout.dash⟩ (E.main ev) hm h0
    X.fs (by rw [hXf]) (X.opened out) (by rw [e8.1, (MX.opened _ _ e8.1).1]) rk (some (.ok rpw)) rsk' hrsk' hrg'
    ⟨_, List.mem_singleton_self _, pk, .inr ⟨hname, b, hb1, hb2⟩, by rw [hpe, hre']⟩ xo.sender
    (by
      intro h
      rcases hsender with ⟨_, h2⟩ | ⟨kf, pf, sseed, _, h2, h3, _⟩
      · exact h2
      · exact absurd (h3.symm.trans h) h2.1)
    (by
      intro h
      rcases hsender with ⟨h1, _⟩ | ⟨kf, pf, sseed, h1, h2, h3, h4, h5, h6⟩
      · exact absurd h1 h
      · obtain ⟨⟨spk, q1, q2, _⟩, _⟩ := h1.same e8.2 (by simpa using h5.symm) (by simpa using h6.symm)
        obtain ⟨_, ssk, q3, q4, q5, _⟩ := h1
        rw [h3, h4]
        exact ⟨ssk, spk, q3, q4, h2.2, q1, by rw [q2, q5]⟩)
    X.env1 X.stdout plain xo.force ⟨hplain.1, hplain.dash⟩ MX.normal.fresh1 ht2 ((newSafeFile_ok_iff _ _ _ _).mpr hc2)
    MX.file1.2.1 MX.file1.2.2.1 MX.file1.2.2.2.1 MX.file1.2.2.2.2 (X.main xv) hm' with h | h
  · exfalso
    obtain ⟨q, hq, pk', seed, h1, h2, h3, h4⟩ := h
    simp only [List.mem_singleton] at hq
    subst hq
    rcases h1 with ⟨h1, _⟩ | ⟨_, b', h5, h6⟩
    · exact hname h1
    · rw [hb1] at h5; cases h5
      rw [hb2] at h6; cases h6
      obtain ⟨s', k1, k2, k3, _⟩ := hrg'
      rw [h3] at k2
      have : seed = s' := (List.append_inj k2 (by omega)).1
      subst this
      exact h4.1 (by rw [hpe, ← hre', k3])
  · refine ⟨h0, e8.2, h.1, ⟨_, e8.1⟩, h.2.2, ?_⟩
    rw [h.2.1, (ME.opened _ _ hin).1]

/-- **C113** The project's own test script, for every file, every name, every pass phrase and all random choices: on a machine where
nothing goes wrong every command that should succeed exits with 0, `generate` without `--overwrite` refuses to replace the key pair and
changes nothing, both decrypted files equal the original, and besides the seven new files nothing has changed.  The two checks with the
wrong key exit with another status than 0 unless the two public keys have the same key hash.  Two conditions are not visible in the
script: the public key file must not look like a user name, and the text of the first public key must not look like an OpenSSH key of
another type (with such a key the script fails, see `C90_public_string`). -/
theorem C113_tests_sh (W : Nat → World) (L : Laws (W 0).D.P) (YL : (W 0).D.Y.Laws) (hY : (W 0).D.Y.Reads [])
    (k k2 file sig enc dec pks pks2 pw : Bytes)
    (hrun : RunsScript W (testScript k k2 file sig enc dec pks pks2) pw)
    -- the names
    (hk : FileName k) (hk2 : FileName k2) (hf : FileName file) (hs : FileName sig) (he : FileName enc) (hd : FileName dec)
    (hclean : ∀ i, (W i).clean k = k ∧ (W i).clean k2 = k2) (hname : ¬ NamesUser (k2 ++ word ".pub"))
    (hYf : (W 0).D.Y.Reads (word "input=" ++ file))
    -- the public keys as text
    (hpks : Base64Text pks ((W 0).D.P.edPub (W 2).seed)) (hpks2 : Base64Text pks2 ((W 0).D.P.edPub (W 3).seed))
    (hlook : ¬ ForeignField pks)
    -- the file is there, the other names are unused and different
    (content : Bytes) (hfile : (W 0).fs.read file = some content)
    (hun : ∀ p ∈ [k ++ word ".key", k ++ word ".pub", k2 ++ word ".key", k2 ++ word ".pub", sig, enc, dec], (W 0).fs.dir p = none)
    (hdi : [k ++ word ".key", k ++ word ".pub", k2 ++ word ".key", k2 ++ word ".pub", sig, enc, dec].Nodup) :
    (∃ refused wrong wrong', statuses W (testScript k k2 file sig enc dec pks pks2) =
        [0, refused, 0, 0, 0, 0, 0, wrong, wrong', 0, 0, 0, 0] ∧ refused ≠ 0 ∧
      (((W 0).D.P.sha256 ((W 0).D.P.edPub (W 2).seed)).take 16 ≠ ((W 0).D.P.sha256 ((W 0).D.P.edPub (W 3).seed)).take 16 →
        wrong ≠ 0 ∧ wrong' ≠ 0)) ∧
    (W 2).fs = (W 1).fs ∧
    (W 11).fs.read dec = some content ∧ (W 13).fs.read dec = some content ∧
    SameBut (W 0).fs (W 13).fs [k ++ word ".key", k ++ word ".pub", k2 ++ word ".key", k2 ++ word ".pub", sig, enc, dec] := by
  have hlen : (testScript k k2 file sig enc dec pks pks2).length = 13 := rfl
  obtain ⟨works, foo, lower, next⟩ := hrun
  rw [hlen] at foo lower
  simp only [List.nodup_cons, List.mem_cons, List.not_mem_nil, or_false, not_or] at hdi
  obtain ⟨⟨a1, a2, a3, a4, a5, a6⟩, ⟨b1, b2, b3, b4, b5⟩, ⟨c1, c2, c3, c4⟩, ⟨d1, d2, d3⟩, ⟨e1, e2⟩, f1, _⟩ := hdi
  simp only [List.mem_cons, List.not_mem_nil, or_false, forall_eq_or_imp, forall_eq] at hun
  obtain ⟨u1, u2, u3, u4, u5, u6, u7⟩ := hun
  have n1 := ne_of_read hfile u1
  have n2 := ne_of_read hfile u2
  have n3 := ne_of_read hfile u3
  have n4 := ne_of_read hfile u4
  have n5 := ne_of_read hfile u5
  have n6 := ne_of_read hfile u6
  have n7 := ne_of_read hfile u7
  have pp : ∀ i < 13, PassPhrase (W i) false (word "FOO") pw := by
    intro i hi
    have := PassPhrase.env (W := W i) (nopw := false) (envpw := word "FOO") rfl (by decide)
    rwa [foo i hi] at this
  -- the runs
  obtain ⟨t0, M0⟩ := works 0 (by rw [hlen]; decide)
  obtain ⟨t1, M1⟩ := works 1 (by rw [hlen]; decide)
  obtain ⟨t2, M2⟩ := works 2 (by rw [hlen]; decide)
  obtain ⟨t3, M3⟩ := works 3 (by rw [hlen]; decide)
  obtain ⟨t4, M4⟩ := works 4 (by rw [hlen]; decide)
  obtain ⟨t5, M5⟩ := works 5 (by rw [hlen]; decide)
  obtain ⟨t6, M6⟩ := works 6 (by rw [hlen]; decide)
  obtain ⟨t7, M7⟩ := works 7 (by rw [hlen]; decide)
  obtain ⟨t8, M8⟩ := works 8 (by rw [hlen]; decide)
  obtain ⟨t9, M9⟩ := works 9 (by rw [hlen]; decide)
  obtain ⟨t10, M10⟩ := works 10 (by rw [hlen]; decide)
  obtain ⟨t11, M11⟩ := works 11 (by rw [hlen]; decide)
  obtain ⟨t12, M12⟩ := works 12 (by rw [hlen]; decide)
  obtain ⟨D1, F1⟩ := next 0 (by rw [hlen]; decide)
  obtain ⟨D2, F2⟩ := next 1 (by rw [hlen]; decide)
  obtain ⟨D3, F3⟩ := next 2 (by rw [hlen]; decide)
  obtain ⟨D4, F4⟩ := next 3 (by rw [hlen]; decide)
  obtain ⟨D5, F5⟩ := next 4 (by rw [hlen]; decide)
  obtain ⟨D6, F6⟩ := next 5 (by rw [hlen]; decide)
  obtain ⟨D7, F7⟩ := next 6 (by rw [hlen]; decide)
  obtain ⟨D8, F8⟩ := next 7 (by rw [hlen]; decide)
  obtain ⟨D9, F9⟩ := next 8 (by rw [hlen]; decide)
  have N9 := next 9 (by rw [hlen]; decide)
  obtain ⟨D11, F11⟩ := next 10 (by rw [hlen]; decide)
  have N11 := next 11 (by rw [hlen]; decide)
  obtain ⟨D13, F13⟩ := next 12 (by rw [hlen]; decide)
  have D10 := N9.1
  have D12 := N11.1
  simp only [testScript, List.getElem_cons_zero, List.getElem_cons_succ] at M0 M1 M2 M3 M4 M5 M6 M7 M8 M9 M10 M11 M12
  simp only [testScript, List.getElem_cons_zero, List.getElem_cons_succ, Nat.zero_add, Nat.reduceAdd] at D1 D2 D3 D4 D5 D6 D7 D8 D9 D10 D11 D12 D13 F1 F2 F3 F4 F5 F6 F7 F8 F9 F11 F13 N9 N11
  have D2 := D2.trans D1
  have D3 := D3.trans D2
  have D4 := D4.trans D3
  have D5 := D5.trans D4
  have D6 := D6.trans D5
  have D7 := D7.trans D6
  have D8 := D8.trans D7
  have D9 := D9.trans D8
  have D11' := D11.trans (D10.trans D9)
  -- 0: generate
  have g0 := gen_runs (W 0) L YL hY k pw t0 _ _ { envpw := word "FOO" } M0 (runs_letter M0.flags (lower 0 (by decide)) "g" _ (by decide) _)
    (by rw [M0.flags]; exact gen_script k hk.plain) rfl (pp 0 (by decide)) (hclean 0).1 ⟨M0.file1.1, .inl u1⟩ ⟨M0.file2.1, .inl u2⟩
  obtain ⟨s0, x0, p0⟩ := g0
  rw [← F1] at x0 p0
  -- 1: refused
  have g1 := gen_refused (W 1) k t1 _ _ { envpw := word "FOO" } M1 (runs_letter M1.flags (lower 1 (by decide)) "g" _ (by decide) _)
    (by rw [M1.flags]; exact gen_script k hk.plain) rfl (hclean 1).1 (by
      obtain ⟨i, hi⟩ := p0.files.2
      unfold FS.exists; rw [hi]; rfl)
  obtain ⟨s1, x1⟩ := g1
  rw [← F2] at x1
  -- 2: overwritten
  have p0' : HasPair (W 2).D (W 2).fs (k ++ word ".key") (k ++ word ".pub") (W 0).seed pw := by rw [x1, D2]; exact p0
  have g2 := gen_runs (W 2) (by rw [D2]; exact L) (by rw [D2]; exact YL) (by rw [D2]; exact hY) k pw t2 _ _
    { envpw := word "FOO", force := true } M2 (runs_letter M2.flags (lower 2 (by decide)) "g" _ (by decide) _)
    (by rw [M2.flags]; exact gen_script_overwrite k hk.plain) rfl (pp 2 (by decide)) (hclean 2).1
    ⟨M2.file1.1, .inr ⟨rfl, p0'.files.1⟩⟩ ⟨M2.file2.1, .inr ⟨rfl, p0'.files.2⟩⟩
  obtain ⟨s2, x2, p2⟩ := g2
  rw [← F3] at x2 p2
  rw [x1] at x2
  have x2 : SameBut (W 0).fs (W 3).fs ([k ++ word ".key", k ++ word ".pub"] ++ [k ++ word ".key", k ++ word ".pub"]) := x0.trans x2
  -- 3: the second pair
  have g3 := gen_runs (W 3) (by rw [D3]; exact L) (by rw [D3]; exact YL) (by rw [D3]; exact hY) k2 pw t3 _ _
    { envpw := word "FOO" } M3 (runs_letter M3.flags (lower 3 (by decide)) "g" _ (by decide) _)
    (by rw [M3.flags]; exact gen_script k2 hk2.plain) rfl (pp 3 (by decide)) (hclean 3).2
    ⟨M3.file1.1, .inl (by rw [(x2 _ (by simp [Ne.symm a2, Ne.symm b1])).2]; exact u3)⟩
    ⟨M3.file2.1, .inl (by rw [(x2 _ (by simp [Ne.symm a3, Ne.symm b2])).2]; exact u4)⟩
  obtain ⟨s3, x3, p3⟩ := g3
  rw [← F4] at x3 p3
  have q3 : HasPair (W 4).D (W 4).fs (k ++ word ".key") (k ++ word ".pub") (W 2).seed pw := by
    rw [D4, ← D2]; exact p2.same x3 (by simp [a2, a3]) (by simp [b1, b2])
  rw [D3, ← D4] at p3
  have x3 := x2.trans x3
  -- 4: sign
  have hin4 : (W 4).fs.read file = some content := by
    rw [(x3 file (by simp [n1, n2, n3, n4])).1]; exact hfile
  have g4 := sign_runs (W 4) (by rw [D4]; exact L) (k ++ word ".key") (k ++ word ".pub") file sig content (W 2).seed pw t4 _ _ { envpw := word "FOO", output := sig } M4
    (runs_letter M4.flags (lower 4 (by decide)) "s" _ (by decide) _)
    (by rw [M4.flags]; exact sign_script _ _ _ (hk.append _).plain hf.plain) rfl (pp 4 (by decide)) (by rw [D4]; exact hYf) q3 hin4 hs
    ⟨M4.file1.1, .inl (by rw [(x3 _ (by simp [Ne.symm a4, Ne.symm b3, Ne.symm c2, Ne.symm d1])).2]; exact u5)⟩
  obtain ⟨s4, x4, sg, y1, y2, y3⟩ := g4
  rw [← F5] at x4 y1
  have q4 := q3.same x4 (by simp [a4]) (by simp [b3])
  have p4 := p3.same x4 (by simp [c2]) (by simp [d1])
  rw [D4, ← D5] at y1 y2 y3 q4 p4
  have hin5 : (W 5).fs.read file = some content := by rw [(x4 file (by simp [n5])).1]; exact hin4
  have x4 := x3.trans x4
  -- 5 to 8: verify
  have v5 := verify_main (W 5) t5 _ _ (k ++ word ".pub") sig file M5 (runs_letter M5.flags (lower 5 (by decide)) "v" _ (by decide) _)
    (by rw [M5.flags]; exact verify_script _ _ _ (hk.append _).plain hs.plain hf.plain)
  have v6 := verify_main (W 6) t6 _ _ pks sig file M6 (runs_letter M6.flags (lower 6 (by decide)) "v" _ (by decide) _)
    (by rw [M6.flags]; exact verify_script _ _ _ hpks.plain hs.plain hf.plain)
  have v7 := verify_main (W 7) t7 _ _ (k2 ++ word ".pub") sig file M7 (runs_letter M7.flags (lower 7 (by decide)) "v" _ (by decide) _)
    (by rw [M7.flags]; exact verify_script _ _ _ (hk2.append _).plain hs.plain hf.plain)
  have v8 := verify_main (W 8) t8 _ _ pks2 sig file M8 (runs_letter M8.flags (lower 8 (by decide)) "v" _ (by decide) _)
    (by rw [M8.flags]; exact verify_script _ _ _ hpks2.plain hs.plain hf.plain)
  have G6 : (W 6).fs = (W 5).fs := by rw [F6]; rw [v5]; rfl
  have G7 : (W 7).fs = (W 5).fs := by rw [F7]; rw [v6]; rw [G6]; rfl
  have G8 : (W 8).fs = (W 5).fs := by rw [F8]; rw [v7]; rw [G7]; rfl
  have G9 : (W 9).fs = (W 5).fs := by rw [F9]; rw [v8]; rw [G8]; rfl
  have kl : ∀ s : Bytes, s.length = 32 → ((W 5).D.P.edPub s).length = 32 := by
    intro s h; rw [D5]; exact L.ed_pub_len s h
  have s5 : ((W 5).main [word "v", word "-q", k ++ word ".pub", sig, file]).exit = 0 := by
    rw [v5]
    obtain ⟨pk, k1, k2, k3⟩ := pair_arg' q4 (pubName_dot k)
    exact (C48_exit_zero_iff _ _ _ _).mpr ⟨_, _, _, [], rfl, rfl, pk, sg, content, k1, y1, by rw [k3, y2], hin5, by rw [k2]; exact y3⟩
  have s6 : ((W 6).main [word "v", word "-q", pks, sig, file]).exit = 0 := by
    rw [v6, G6, D6, ← D5]
    obtain ⟨pk, k1, k2, k3⟩ := text_arg' (D := (W 5).D) (fs := (W 5).fs) (kl _ M2.seed) (by rw [D5]; exact hpks) hlook
    exact (C48_exit_zero_iff _ _ _ _).mpr ⟨_, _, _, [], rfl, rfl, pk, sg, content, k1, y1, by rw [k3, y2], hin5, by rw [k2]; exact y3⟩
  have wrong : ∀ arg, (∀ pk, KeyArg (W 5).D (W 5).fs arg pk →
        pk.hash = ((W 5).D.P.sha256 ((W 5).D.P.edPub (W 3).seed)).take 16) →
      ((W 0).D.P.sha256 ((W 0).D.P.edPub (W 2).seed)).take 16 ≠ ((W 0).D.P.sha256 ((W 0).D.P.edPub (W 3).seed)).take 16 →
      verifyCmd (W 5).D (W 5).fs none [arg, sig, file] ≠ 0 := by
    intro arg ha hne h0
    obtain ⟨pn, sn, fn, more, z1, _, pk, sg', content', z2, z3, z4, _⟩ := (C48_exit_zero_iff _ _ _ _).mp h0
    cases z1
    obtain ⟨b, w1, w2⟩ := z3
    obtain ⟨b', w3, w4⟩ := y1
    rw [w3] at w1; cases w1
    rw [w4] at w2; cases w2
    rw [ha pk z2, y2, D5] at z4
    exact hne z4.symm
  -- 9, 10: encrypt and decrypt
  have hin9 : (W 9).fs.read file = some content := by rw [G9]; exact hin5
  have q9 : HasPair (W 9).D (W 9).fs (k ++ word ".key") (k ++ word ".pub") (W 2).seed pw := by rw [G9, D9, ← D5]; exact q4
  have p9 : HasPair (W 9).D (W 9).fs (k2 ++ word ".key") (k2 ++ word ".pub") (W 3).seed pw := by rw [G9, D9, ← D5]; exact p4
  rw [← G9] at x4
  have o9 : (W 9).fs.dir enc = none := by
    rw [(x4 enc (by simp [Ne.symm a5, Ne.symm b4, Ne.symm c3, Ne.symm d2, Ne.symm e1])).2]; exact u6
  have o9' : (W 9).fs.dir dec = none := by
    rw [(x4 dec (by simp [Ne.symm a6, Ne.symm b5, Ne.symm c4, Ne.symm d3, Ne.symm e2])).2]; exact u7
  have r9 := runs_letter M9.flags (lower 9 (by decide)) "e" "encrypt" (by decide)
    [word "-E", word "FOO", word "-o", enc, k2 ++ word ".pub", file]
  have l9 : (W 9).flags.enc [word "-E", word "FOO", word "-o", enc, k2 ++ word ".pub", file] =
      .ok { envpw := word "FOO", outfile := enc } [k2 ++ word ".pub", file] := by
    rw [M9.flags]; exact enc_script _ _ (by simp [(hk2.append _).plain, hf.plain])
  have r10 := runs_letter M10.flags (lower 10 (by decide)) "d" "decrypt" (by decide)
    [word "-E", word "FOO", word "-o", dec, k2 ++ word ".key", enc]
  have l10 : (W 10).flags.dec [word "-E", word "FOO", word "-o", dec, k2 ++ word ".key", enc] =
      .ok { envpw := word "FOO", outfile := dec } [k2 ++ word ".key", enc] := by
    rw [M10.flags]; exact dec_script _ _ (by simp [(hk2.append _).plain, he.plain])
  obtain ⟨s9, x9, s10, ⟨cc, hcc⟩, x10, r11⟩ := enc_dec_runs (W 9) (W 10) (by rw [D9]; exact L) (k2 ++ word ".key") (k2 ++ word ".pub") file enc dec content (W 3).seed pw pw t9 t10 _ _ _ _
    { envpw := word "FOO", outfile := enc } { envpw := word "FOO", outfile := dec } M9 M10 N9 r9 l9 r10 l10 rfl rfl rfl rfl
    hname hf.dash he hd hin9 p9 M3.seed (pp 9 (by decide)) (pp 10 (by decide)) ⟨Ne.symm c3, Ne.symm d2⟩ (.inl ⟨rfl, rfl⟩)
    ⟨M9.file1.1, .inl o9⟩ (Ne.symm f1) ⟨M10.file1.1, .inl o9'⟩
  rw [← F11] at x10 r11
  -- 11, 12: with a sender
  have q11 : HasPair (W 11).D (W 11).fs (k ++ word ".key") (k ++ word ".pub") (W 2).seed pw := by
    rw [D11']; rw [D9] at q9
    exact (q9.same x9 (by simp [a5]) (by simp [b4])).same x10 (by simp [a6]) (by simp [b5])
  have p11 : HasPair (W 11).D (W 11).fs (k2 ++ word ".key") (k2 ++ word ".pub") (W 3).seed pw := by
    rw [D11']; rw [D9] at p9
    exact (p9.same x9 (by simp [c3]) (by simp [d2])).same x10 (by simp [c4]) (by simp [d3])
  have hin11 : (W 11).fs.read file = some content := by
    rw [(x10 file (by simp [n7])).1, (x9 file (by simp [n6])).1]; exact hin9
  have o11 : ∃ i, (W 11).fs.dir enc = some (.file i) := by
    rw [(x10 enc (by simp [f1])).2]; exact file_of_read hcc
  have o11' : ∃ i, (W 11).fs.dir dec = some (.file i) := file_of_read r11
  have l11 : (W 11).flags.enc [word "-E", word "FOO", word "--overwrite", word "-o", enc, word "-s", k ++ word ".key", k2 ++ word ".pub", file] =
      .ok { envpw := word "FOO", outfile := enc, sign := k ++ word ".key", force := true } [k2 ++ word ".pub", file] := by
    rw [M11.flags]; exact enc_script_signed _ _ _ (by simp [(hk2.append _).plain, hf.plain])
  have l12 : (W 12).flags.dec [word "-E", word "FOO", word "--overwrite", word "-o", dec, word "-v", k ++ word ".pub", k2 ++ word ".key", enc] =
      .ok { envpw := word "FOO", outfile := dec, sender := k ++ word ".pub", force := true } [k2 ++ word ".key", enc] := by
    rw [M12.flags]; exact dec_script_signed _ _ _ (by simp [(hk2.append _).plain, he.plain])
  obtain ⟨s11, x11, s12, _, x12, r13⟩ := enc_dec_runs (W 11) (W 12) (by rw [D11']; exact L) (k2 ++ word ".key") (k2 ++ word ".pub") file enc dec content (W 3).seed pw pw t11 t12 _ _ _ _
    { envpw := word "FOO", outfile := enc, sign := k ++ word ".key", force := true }
    { envpw := word "FOO", outfile := dec, sender := k ++ word ".pub", force := true } M11 M12 N11
    (runs_letter M11.flags (lower 11 (by decide)) "e" _ (by decide) _) l11 (runs_letter M12.flags (lower 12 (by decide)) "d" _ (by decide) _) l12
    rfl rfl rfl rfl hname hf.dash he hd hin11 p11 M3.seed (pp 11 (by decide)) (pp 12 (by decide)) ⟨Ne.symm c3, Ne.symm d2⟩
    (.inr ⟨_, _, (W 2).seed, q11, ⟨(hk.append _).1, (hk.append _).1⟩, rfl, rfl, Ne.symm a5, Ne.symm b4⟩)
    ⟨M11.file1.1, .inr ⟨rfl, o11⟩⟩ (Ne.symm f1) ⟨M12.file1.1, .inr ⟨rfl, o11'⟩⟩
  rw [← F13] at x12 r13
  refine ⟨⟨_, ((W 7).main [word "v", word "-q", k2 ++ word ".pub", sig, file]).exit,
    ((W 8).main [word "v", word "-q", pks2, sig, file]).exit, ?_, s1, fun hne => ⟨?_, ?_⟩⟩, x1, r11, r13, ?_⟩
  · simp only [statuses, testScript, List.zipIdx_cons, List.zipIdx_nil, List.map_cons, List.map_nil, Nat.zero_add, Nat.reduceAdd]
    rw [s0, s2, s3, s4, s5, s6, s9, s10, s11, s12]
  · rw [v7, G7, D7, ← D5]
    exact wrong _ (fun pk hpk => (pair_arg p4 (pubName_dot k2) pk hpk).2) hne
  · rw [v8, G8, D8, ← D5]
    exact wrong _ (fun pk hpk => (text_arg (kl _ M3.seed) (by rw [D5]; exact hpks2) pk hpk).2) hne
  · intro p hp
    simp only [List.mem_cons, List.not_mem_nil, or_false, not_or] at hp
    obtain ⟨z1, z2, z3, z4, z5, z6, z7⟩ := hp
    exact (((x4.trans x9).trans x10).trans (x11.trans x12)) p (by simp [z1, z2, z3, z4, z5, z6, z7])

end Sigtool
