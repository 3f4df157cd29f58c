import Verif.Props.Flags
import Verif.Props.MainEnd
import Verif.Props.MainPipe
import Verif.Props.CliComplete
import Verif.Spec.Machine
/-!
# C104: the walkthrough of the README

The command lines a user types, read by the program's own option parser, from the first run to the last.
-/

namespace Sigtool
open Spec

theorem runs_named {W : World} {argv : List Bytes} (hflags : W.flags = realFlags) (hlower : ∀ w ∈ commandNames, W.lower (word w) = word w)
    (w : String) (hw : w ∈ commandNames) (rest : List Bytes) (ha : argv = word w :: rest) : Runs W argv w rest := by
  subst ha
  have hp : Plain (word w) ∧ word w ≠ [] ∧ word w = w.toUTF8.toList := by
    unfold commandNames at hw
    fin_cases hw <;> (unfold Plain; decide +kernel)
  refine ⟨{}, word w, ?_, rfl, rfl, hw, ?_, ?_⟩
  · rw [hflags]
    show parseArgs topDefs false {} [] (word w :: rest) = _
    rw [parseArgs, if_pos ((plain_iff _).mp hp.1)]
    simp
  · rw [hlower w hw]; exact hp.2.1
  · rw [hlower w hw, hp.2.2]

theorem runs_word {W : World} {argv : List Bytes} {pw : Bytes} (M : Works W argv pw) (w : String) (hw : w ∈ commandNames) (rest : List Bytes)
    (ha : argv = word w :: rest) : Runs W argv w rest := runs_named M.flags M.lower w hw rest ha

theorem begins_args (opts : List Opt) : ∀ (ws : List Bytes), (∀ w ∈ ws, Plain w) → Begins opts ws [] ws []
  | [], _ => .here []
  | w :: ws, h => .arg w ws [] ws [] (h w (List.mem_cons_self ..)) (begins_args opts ws fun x hx => h x (List.mem_cons_of_mem _ hx))

theorem gen_line (bn : Bytes) (h : Plain bn) : realFlags.gen [bn] = .ok {} [bn] :=
  ((C102_generate [bn]).1 _ _).mpr ⟨[], .inl (begins_args _ [bn] (by simpa using h)), (fun x hx => by cases hx), by decide +kernel, by decide +kernel⟩

theorem sign_line (kn fn : Bytes) (h1 : Plain kn) (h2 : Plain fn) : realFlags.sign [kn, fn] = .ok {} [kn, fn] :=
  ((C102_sign _).1 _ _).mpr ⟨[], .inl (begins_args _ _ (by simp [h1, h2])), (fun x hx => by cases hx), by decide +kernel, by decide +kernel⟩

theorem verify_line (pn sn fn : Bytes) (h1 : Plain pn) (h2 : Plain sn) (h3 : Plain fn) :
    realFlags.verify [pn, sn, fn] = .ok () [pn, sn, fn] :=
  ((C102_verify _).2.1 _).mpr ⟨[], .inl (begins_args _ _ (by simp [h1, h2, h3])), (fun x hx => by cases hx), by decide +kernel⟩

theorem next_word (opts : List Opt) (o : Opt) (c : Char) (w : Bytes) (hw : w = word "-" ++ letter c) (ho : o ∈ opts) (hl : o.letter = some c)
    (ht : o.takes = true) : OptWord opts w [] (some o.name) := by
  subst hw; exact .letters _ _ _ (.next o c ho hl ht)

theorem enc_line (out : Bytes) (args : List Bytes) (h : ∀ w ∈ args, Plain w) :
    realFlags.enc (word "-o" :: out :: args) = .ok { outfile := out } args := by
  have hb : Begins encOptions (word "-o" :: out :: args) ([] ++ ("outfile", out) :: []) args [] :=
    .optNext (word "-o") [] "outfile" out args [] args []
      (next_word encOptions ⟨"outfile", some 'o', true⟩ 'o' _ (by decide) (by simp [encOptions]) rfl rfl) (begins_args _ _ h)
  refine ((C102_encrypt _).1 _ _).mpr ⟨_, .inl hb, ?_, ?_⟩
  · intro x hx o ho hn ht
    simp only [List.nil_append, List.mem_singleton] at hx
    subst hx
    simp only [encOptions, List.mem_cons, List.not_mem_nil, or_false] at ho
    rcases ho with rfl | rfl | rfl | rfl | rfl | rfl <;> simp at hn ht
  · simp [text, on, trues]
    decide +kernel

theorem enc_line_signed (key out : Bytes) (args : List Bytes) (h : ∀ w ∈ args, Plain w) :
    realFlags.enc (word "-s" :: key :: word "-o" :: out :: args) = .ok { outfile := out, sign := key } args := by
  have hb : Begins encOptions (word "-s" :: key :: word "-o" :: out :: args) ([] ++ ("sign", key) :: ([] ++ ("outfile", out) :: [])) args [] :=
    .optNext (word "-s") [] "sign" key _ _ args []
      (next_word encOptions ⟨"sign", some 's', true⟩ 's' _ (by decide) (by simp [encOptions]) rfl rfl)
    (.optNext (word "-o") [] "outfile" out args [] args []
      (next_word encOptions ⟨"outfile", some 'o', true⟩ 'o' _ (by decide) (by simp [encOptions]) rfl rfl) (begins_args _ _ h))
  refine ((C102_encrypt _).1 _ _).mpr ⟨_, .inl hb, ?_, ?_⟩
  · intro x hx o ho hn ht
    simp only [List.nil_append, List.mem_cons, List.not_mem_nil, or_false] at hx
    simp only [encOptions, List.mem_cons, List.not_mem_nil, or_false] at ho
    rcases hx with rfl | rfl <;> rcases ho with rfl | rfl | rfl | rfl | rfl | rfl <;> simp at hn ht
  · simp [text, on, trues]
    decide +kernel

theorem dec_line (out : Bytes) (args : List Bytes) (h : ∀ w ∈ args, Plain w) :
    realFlags.dec (word "-o" :: out :: args) = .ok { outfile := out } args := by
  have hb : Begins decOptions (word "-o" :: out :: args) ([] ++ ("outfile", out) :: []) args [] :=
    .optNext (word "-o") [] "outfile" out args [] args []
      (next_word decOptions ⟨"outfile", some 'o', true⟩ 'o' _ (by decide) (by simp [decOptions]) rfl rfl) (begins_args _ _ h)
  refine ((C102_decrypt _).1 _ _).mpr ⟨_, .inl hb, ?_, ?_⟩
  · intro x hx o ho hn ht
    simp only [List.nil_append, List.mem_singleton] at hx
    subst hx
    simp only [decOptions, List.mem_cons, List.not_mem_nil, or_false] at ho
    rcases ho with rfl | rfl | rfl | rfl | rfl | rfl <;> simp at hn ht
  · simp [text, on, trues]
    decide +kernel

theorem dec_line_signed (key out : Bytes) (args : List Bytes) (h : ∀ w ∈ args, Plain w) :
    realFlags.dec (word "-v" :: key :: word "-o" :: out :: args) = .ok { outfile := out, sender := key } args := by
  have hb : Begins decOptions (word "-v" :: key :: word "-o" :: out :: args) ([] ++ ("verify-sender", key) :: ([] ++ ("outfile", out) :: [])) args [] :=
    .optNext (word "-v") [] "verify-sender" key _ _ args []
      (next_word decOptions ⟨"verify-sender", some 'v', true⟩ 'v' _ (by decide) (by simp [decOptions]) rfl rfl)
    (.optNext (word "-o") [] "outfile" out args [] args []
      (next_word decOptions ⟨"outfile", some 'o', true⟩ 'o' _ (by decide) (by simp [decOptions]) rfl rfl) (begins_args _ _ h))
  refine ((C102_decrypt _).1 _ _).mpr ⟨_, .inl hb, ?_, ?_⟩
  · intro x hx o ho hn ht
    simp only [List.nil_append, List.mem_cons, List.not_mem_nil, or_false] at hx
    simp only [decOptions, List.mem_cons, List.not_mem_nil, or_false] at ho
    rcases hx with rfl | rfl <;> rcases ho with rfl | rfl | rfl | rfl | rfl | rfl <;> simp at hn ht
  · simp [text, on, trues]
    decide +kernel

/-- A successful `generate` on a working machine. -/
theorem gen_works (G : World) (L : Laws G.D.P) (YL : G.D.Y.Laws) (hY : G.D.Y.Reads []) (k pw : Bytes) (argv : List Bytes)
    (ha : argv = [word "generate", k]) (M : Works G argv pw) (hk : Plain k) (hc : G.clean k = k)
    (h1 : G.fs.dir (k ++ ascii ".key") = none) (h2 : G.fs.dir (k ++ ascii ".pub") = none) :
    Runs G argv "generate" [k] ∧ G.flags.gen [k] = .ok {} [k] ∧ PassPhrase G false [] pw ∧ (G.main argv).exit = 0 ∧
    SameBut G.fs (G.fs.run (G.main argv).sys) [k ++ ascii ".key", k ++ ascii ".pub"] ∧
    ∃ pk sk, readPublicKey G.D (G.fs.run (G.main argv).sys) (k ++ ascii ".pub") = .ok pk ∧ pk.pk = G.D.P.edPub G.seed ∧
      readPrivateKey G.D (G.fs.run (G.main argv).sys) (k ++ ascii ".key") (some (.ok pw)) = .ok sk ∧ sk.Genuine G.D.P ∧
      sk.pub.pk = G.D.P.edPub G.seed := by
  have hr := runs_word M "generate" (by decide) [k] ha
  have hf : G.flags.gen [k] = .ok {} [k] := by rw [M.flags]; exact gen_line k hk
  have hp : PassPhrase G false [] pw := .typed pw rfl rfl M.askpass
  have hm : G.main argv = genCmd G.D G.fs G.env1 G.env2 false k [] (.ok pw) G.seed G.salt := by
    rw [(C66_dispatch G M.normal.order argv [k] _ hr).1 rfl]
    unfold World.gen
    rw [hf]
    dsimp only
    rw [hc, PassPhrase.genpw (W := G) hp]
  have he : GenEnv G.fs G.env1 G.env2 k := by have := M.normal.genEnv hr hf; rwa [hc] at this
  have h0 : (genCmd G.D G.fs G.env1 G.env2 false k [] (.ok pw) G.seed G.salt).exit = 0 :=
    C79_generate_succeeds G.D L G.fs G.env1 G.env2 false k [] pw G.seed G.salt he ⟨M.file1.1, .inl h1⟩ ⟨M.file2.1, .inl h2⟩
      M.file1.2 M.file2.2
  refine ⟨hr, hf, hp, by rw [hm]; exact h0, ?_, ?_⟩
  · rw [hm]
    obtain ⟨_, _, _, _, _, _, h⟩ := C49_success G.D G.fs G.env1 G.env2 false k [] (.ok pw) G.seed G.salt he h0
    exact h
  · rw [hm]
    obtain ⟨pw', sk, pk, p1, p2, p3, p4, p5, p6, p7, p8⟩ := C49_pair_loads G.D L YL G.fs G.env1 G.env2 false k [] hY (.inl rfl)
      (.ok pw) G.seed G.salt M.seed M.salt he h0
    cases p1
    exact ⟨pk, sk, p3, p6, p2, p8, p5⟩

/-- A successful `encrypt` on a working machine. -/
theorem enc_works (E : World) (L : Laws E.D.P) (infile out rp sign epw : Bytes) (argv erest : List Bytes)
    (M : Works E argv epw) (hr : Runs E argv "encrypt" erest)
    (hf : E.flags.enc erest = .ok { outfile := out, sign := sign } [rp, infile])
    (content : Bytes) (hin : E.fs.read infile = some content) (hin' : infile ≠ ascii "-") (hname : ¬ NamesUser rp)
    (pk : PublicKey) (seed : Bytes) (hpk : readPublicKey E.D E.fs rp = .ok pk) (hs : seed.length = 32) (hps : pk.pk = E.D.P.edPub seed)
    (sk : Option PrivateKey) (hsk : IdentityArg E.D E.fs sign (some (.ok epw)) sk) (hgen : ∀ s, sk = some s → s.Genuine E.D.P)
    (hout : out ≠ [] ∧ out ≠ ascii "-") (hno : E.fs.dir out = none) :
    (E.main argv).exit = 0 ∧ SameBut E.fs (E.fs.run (E.main argv).sys) [out] ∧ Input E infile (E.opened infile) ∧
      ∃ c, (E.fs.run (E.main argv).sys).read out = some c := by
  obtain ⟨home, hh, hauth⟩ := M.home
  have hp : PassPhrase E false [] epw := .typed epw rfl rfl M.askpass
  have hi : E.input infile = E.opened infile := by unfold World.input; rw [if_neg hin']
  have hm : E.main argv = encryptCmd E.D E.fs E.env1 E.stdout out false sign (some (.ok epw)) (some 131072)
      (some (home ++ ascii "/.ssh/authorized_keys")) [(rp, E.rbuf 0)] infile (E.opened infile) E.coins E.coin := by
    rw [(C66_dispatch E M.normal.order argv erest _ hr).2.2.2.1 rfl]
    unfold World.encrypt
    rw [hf]
    dsimp only
    rw [hh, show E.getpw false [] = some (.ok epw) from PassPhrase.getpw (W := E) hp]
    rw [show E.parseSize (ascii "128k") = some 131072 from M.size]
    rw [show [rp, infile].getLastD [] = infile from rfl, hi]
    rfl
  have hw : E.coins.WF := ⟨M.normal.coins.1, M.normal.coins.2.1, M.normal.coins.2.2⟩
  obtain ⟨b, hb1, hb2⟩ := (readPublicKey_ok _ _ _ _).mp hpk
  have hex : E.fs.exists infile = true := by
    unfold FS.read readIn at hin
    unfold FS.exists
    cases h : E.fs.dir infile with
    | none => rw [h] at hin; cases hin
    | some _ => rfl
  have h0 : (E.main argv).exit = 0 := by
    rw [hm]
    refine C79_encrypt_succeeds E.D L E.fs E.env1 E.stdout out false sign (some (.ok epw)) 131072 (home ++ ascii "/.ssh/authorized_keys")
      [(rp, E.rbuf 0)] infile (E.opened infile) E.coins E.coin sk hsk hgen (by simp) ?_ (.inr hex) hauth (M.opened _ _ hin).2 hw ?_ ?_
    · intro r hr
      simp only [List.mem_singleton] at hr
      subst hr
      exact ⟨pk, .inr ⟨hname, b, hb1, hb2⟩, seed, hs, hps⟩
    · exact .inr ⟨hout, M.file1.1, M.file1.2.1, .inl hno⟩
    · rw [if_neg (by rintro (h | h); exacts [hout.1 h, hout.2 h])]
      exact M.file1.2.2
  have ht : out ≠ E.env1.tmp := (M.normal.out _ (.enc erest _ _ hr hf)).1
  obtain ⟨_, blk, auth, sk', pks, hdr, trailer, e1, e2, e3, e4, e5, e6, e7, e8⟩ := C50_exit_zero E.D L E.fs E.env1 E.stdout out false sign
    (some (.ok epw)) (some 131072) (some (home ++ ascii "/.ssh/authorized_keys")) [(rp, E.rbuf 0)] infile (E.opened infile) E.coins hw
    E.coin M.normal.coin M.normal.fresh1 ht (E.main argv) hm h0
  have hn : ¬ (out = [] ∨ out = ascii "-") := by rintro (h | h); exacts [hout.1 h, hout.2 h]
  exact ⟨h0, (e8 hn).2, .file _ hin', _, (e8 hn).1⟩

theorem Spec.FileName.plain {w : Bytes} (h : FileName w) : Plain w := .inr (.inr h.2)

theorem Spec.FileName.append {w : Bytes} (h : FileName w) (t : Bytes) : FileName (w ++ t) := by
  cases w with
  | nil => exact absurd rfl h.1
  | cons a b => exact ⟨by simp, by simpa using h.2⟩

theorem Spec.FileName.dash {w : Bytes} (h : FileName w) : w ≠ ascii "-" := by rintro rfl; exact h.2 (by decide +kernel)

theorem Spec.SameBut.trans {a b c : FS} {l m : List Path} (h : SameBut a b l) (h' : SameBut b c m) : SameBut a c (l ++ m) := by
  intro p hp
  have h1 := h p (fun x => hp (List.mem_append_left _ x))
  have h2 := h' p (fun x => hp (List.mem_append_right _ x))
  exact ⟨h2.1.trans h1.1, h2.2.trans h1.2⟩

theorem exists_of_read {fs : FS} {p : Path} {b : Bytes} (h : fs.read p = some b) : fs.exists p = true := by
  unfold FS.read readIn at h
  unfold FS.exists
  cases h' : fs.dir p with
  | none => rw [h'] at h; cases h
  | some _ => rfl

theorem ne_of_read {fs : FS} {p q : Path} {b : Bytes} (h : fs.read p = some b) (hq : fs.dir q = none) : p ≠ q := by
  rintro rfl
  unfold FS.read readIn at h
  rw [hq] at h
  cases h

/-- **C104** The walkthrough of the README without a sender: `generate K`, `encrypt -o C K.pub F`, `decrypt -o P K.key C`, with the
program's own option parser.  On a machine where nothing goes wrong all three exit with 0, `P` holds what `F` holds, and besides
the four new files nothing has changed. -/
theorem C104_encrypt_decrypt (G E X : World) (L : Laws G.D.P) (YL : G.D.Y.Laws) (hY : G.D.Y.Reads [])
    (k infile out plain pw epw : Bytes) (gv ev xv : List Bytes)
    (hgv : gv = [word "generate", k])
    (hev : ev = [word "encrypt", word "-o", out, k ++ word ".pub", infile])
    (hxv : xv = [word "decrypt", word "-o", plain, k ++ word ".key", out])
    (MG : Works G gv pw) (ME : Works E ev epw) (MX : Works X xv pw) (hGE : Next G gv E) (hEX : Next E ev X)
    -- the names
    (hk : FileName k) (hclean : G.clean k = k) (hname : ¬ NamesUser (k ++ word ".pub"))
    (hi : FileName infile) (ho : FileName out) (hp : FileName plain)
    -- the file is there, the other names are unused and different
    (content : Bytes) (hfile : G.fs.read infile = some content)
    (hun : ∀ p ∈ [k ++ word ".key", k ++ word ".pub", out, plain], G.fs.dir p = none)
    (hdi : [k ++ word ".key", k ++ word ".pub", out, plain].Nodup) :
    (G.main gv).exit = 0 ∧ (E.main ev).exit = 0 ∧ (X.main xv).exit = 0 ∧
    (X.fs.run (X.main xv).sys).read plain = some content ∧
    SameBut G.fs (X.fs.run (X.main xv).sys) [k ++ word ".key", k ++ word ".pub", out, plain] := by
  obtain ⟨hED, hEf⟩ := hGE
  obtain ⟨hXD, hXf⟩ := hEX
  simp only [List.nodup_cons, List.mem_cons, List.not_mem_nil, or_false, not_or] at hdi
  obtain ⟨⟨d1, d2, d3⟩, ⟨d4, d5⟩, d6, _⟩ := hdi
  simp only [List.mem_cons, List.not_mem_nil, or_false, forall_eq_or_imp, forall_eq] at hun
  obtain ⟨u1, u2, u3, u4⟩ := hun
  obtain ⟨g1, g2, g3, g4, g5, pk, sk, g6, g7, g8, g9, g10⟩ := gen_works G L YL hY k pw gv hgv MG hk.plain hclean u1 u2
  rw [← hEf] at g5 g6
  -- encrypt
  have e1 := runs_word ME "encrypt" (by decide) _ hev
  have e2 : E.flags.enc [word "-o", out, k ++ word ".pub", infile] = .ok { outfile := out } [k ++ word ".pub", infile] := by
    rw [ME.flags]; exact enc_line out _ (by simp [(hk.append _).plain, hi.plain])
  have hin : E.fs.read infile = some content := by
    rw [(g5 infile ?_).1]; exact hfile
    simp only [List.mem_cons, List.not_mem_nil, or_false, not_or]
    exact ⟨ne_of_read hfile u1, ne_of_read hfile u2⟩
  have hEno : ∀ q, q ≠ k ++ word ".key" → q ≠ k ++ word ".pub" → G.fs.dir q = none → E.fs.dir q = none := by
    intro q q1 q2 q3
    rw [(g5 q ?_).2]; exact q3
    simp only [List.mem_cons, List.not_mem_nil, or_false, not_or]
    exact ⟨q1, q2⟩
  rw [← hED] at g6 g7 L
  obtain ⟨f1, f2, f3, c, f4⟩ := enc_works E L infile out (k ++ word ".pub") [] epw ev _ ME e1 e2 content hin hi.dash hname pk G.seed g6
    MG.seed g7 none (.inl ⟨rfl, rfl⟩) (by simp) ⟨ho.1, ho.dash⟩ (hEno _ (Ne.symm d2) (Ne.symm d4) u3)
  -- decrypt
  have x1 := runs_word MX "decrypt" (by decide) _ hxv
  have x2 : X.flags.dec [word "-o", plain, k ++ word ".key", out] = .ok { outfile := plain } [k ++ word ".key", out] := by
    rw [MX.flags]; exact dec_line plain _ (by simp [(hk.append _).plain, ho.plain])
  rw [← hXf] at f2 f4
  have hpl : X.fs.dir plain = none := by
    rw [(f2 plain (by simpa using Ne.symm d6)).2]
    exact hEno _ (Ne.symm d3) (Ne.symm d5) u4
  have hkey : X.fs.read (k ++ word ".key") = E.fs.read (k ++ word ".key") := (f2 _ (by simpa using d2)).1
  have hcreate : ∃ cs, newSafeFile X.fs X.env1 0o600 plain false = .ok cs :=
    (newSafeFile_ok_iff X.fs X.env1 plain false).mpr ⟨MX.file1.1, .inl hpl⟩
  rcases C71_generate_encrypt_decrypt E.D L (by rw [hED]; exact YL) G hED.symm gv [k] [] MG.normal {} k pw g1 g2 (by rw [hED]; exact hY)
    (.inl rfl) MG.seed MG.salt g3 g4 E rfl ev _ [k ++ word ".pub"] infile ME.normal { outfile := out } 131072 e1 e2 (E.opened infile) f3
    (by rw [hclean]; simp) (by rw [hclean]; exact hname) (by rw [hEf]) (by simp) ME.rbuf ME.size (by norm_num) rfl ⟨ho.1, ho.dash⟩ f1
    X hXD xv _ MX.normal { outfile := plain } x1 (by rw [hclean]; exact x2) (by rw [hclean, ← hEf]; exact hkey) (by rw [hXf])
    (by rw [f4, (MX.opened _ _ f4).1]) (.typed pw rfl rfl MX.askpass) rfl rfl ⟨hp.1, hp.dash⟩ hcreate MX.file1.2.1 MX.file1.2.2.1
    MX.file1.2.2.2.1 MX.file1.2.2.2.2 with h | h
  · obtain ⟨home, i, arg, q, _, h2, h3, h4⟩ := h
    exfalso
    have hi0 : arg = k ++ word ".pub" := by
      cases i with
      | zero => simpa using h2.symm
      | succ i => simp at h2
    subst hi0
    rcases h3 with ⟨h3, _⟩ | ⟨_, b, h5, h6⟩
    · exact hname h3
    · obtain ⟨b', h7, h8⟩ := (readPublicKey_ok _ _ _ _).mp g6
      rw [h5] at h7; cases h7
      rw [h6] at h8; cases h8
      exact h4.1 g7
  · refine ⟨g4, f1, h.1, ?_, ?_⟩
    · rw [h.2.1, (ME.opened _ _ hin).1]
    · have := (SameBut.trans g5 f2).trans h.2.2
      exact this

/-- **C104** Signatures: `generate K`, `sign K.key F`, `verify K.pub F.sig F`, with the program's own option parser.  On a machine where
nothing goes wrong all three exit with 0 and besides the three new files nothing has changed.  If `verify` is run on another state of
the machine, in which the public key and the signature are the same but the content of `F` is not, then it does not exit with 0 unless
SHA-512 collides or the signature is forged. -/
theorem C104_sign_verify (G S V : World) (L : Laws G.D.P) (YL : G.D.Y.Laws) (hY : G.D.Y.Reads [])
    (k file pw vpw : Bytes) (gv sv vv : List Bytes)
    (hgv : gv = [word "generate", k])
    (hsv : sv = [word "sign", k ++ word ".key", file])
    (hvv : vv = [word "verify", k ++ word ".pub", file ++ word ".sig", file])
    (MG : Works G gv pw) (MS : Works S sv pw) (MV : Works V vv vpw) (hGS : Next G gv S) (hSV : Next S sv V)
    (hk : FileName k) (hclean : G.clean k = k) (hf : FileName file) (hYf : G.D.Y.Reads (word "input=" ++ file))
    (content : Bytes) (hfile : G.fs.read file = some content)
    (hun : ∀ p ∈ [k ++ word ".key", k ++ word ".pub", file ++ word ".sig"], G.fs.dir p = none)
    (hdi : [k ++ word ".key", k ++ word ".pub", file ++ word ".sig"].Nodup) :
    (G.main gv).exit = 0 ∧ (S.main sv).exit = 0 ∧ (V.main vv).exit = 0 ∧
    SameBut G.fs (V.fs.run (V.main vv).sys) [k ++ word ".key", k ++ word ".pub", file ++ word ".sig"] ∧
    ∀ (V' : World) (vpw' content' : Bytes), Works V' vv vpw' → V'.D = G.D →
      V'.fs.read (k ++ word ".pub") = V.fs.read (k ++ word ".pub") → V'.fs.read (file ++ word ".sig") = V.fs.read (file ++ word ".sig") →
      V'.fs.read file = some content' → content' ≠ content → (V'.main vv).exit = 0 →
      ∃ sig, Collides G.D.P (fileInput content) (fileInput content') ∨
        Collides G.D.P (messageInput (G.D.P.sha512 (fileInput content))) (messageInput (G.D.P.sha512 (fileInput content'))) ∨
        Forged G.D.P (G.D.P.edPub G.seed) [G.D.P.sha512 (messageInput (G.D.P.sha512 (fileInput content)))]
          (G.D.P.sha512 (messageInput (G.D.P.sha512 (fileInput content')))) sig := by
  obtain ⟨hSD, hSf⟩ := hGS
  obtain ⟨hVD, hVf⟩ := hSV
  simp only [List.nodup_cons, List.mem_cons, List.not_mem_nil, or_false, not_or] at hdi
  obtain ⟨⟨d1, d2⟩, d3, _⟩ := hdi
  simp only [List.mem_cons, List.not_mem_nil, or_false, forall_eq_or_imp, forall_eq] at hun
  obtain ⟨u1, u2, u3⟩ := hun
  obtain ⟨g1, g2, g3, g4, g5, pk, sk, g6, g7, g8, g9, g10⟩ := gen_works G L YL hY k pw gv hgv MG hk.plain hclean u1 u2
  rw [← hSf] at g5 g6 g8
  have s1 := runs_word MS "sign" (by decide) _ hsv
  have s2 : S.flags.sign [k ++ word ".key", file] = .ok {} [k ++ word ".key", file] := by
    rw [MS.flags]; exact sign_line _ _ (hk.append _).plain hf.plain
  have hin : S.fs.read file = some content := by
    rw [(g5 file ?_).1]; exact hfile
    simp only [List.mem_cons, List.not_mem_nil, or_false, not_or]
    exact ⟨ne_of_read hfile u1, ne_of_read hfile u2⟩
  have hno : S.fs.dir (file ++ word ".sig") = none := by
    rw [(g5 _ ?_).2]; exact u3
    simp only [List.mem_cons, List.not_mem_nil, or_false, not_or]
    exact ⟨Ne.symm d2, Ne.symm d3⟩
  have htgt : sigTarget [] file = file ++ word ".sig" := by
    unfold sigTarget
    rw [if_pos rfl]
    congr 1
    decide +kernel
  have hd : sigTarget [] file ≠ ascii "-" := by rw [htgt]; exact (hf.append _).dash
  have hsp : PassPhrase S false [] pw := .typed pw rfl rfl MS.askpass
  have hm : S.main sv = signCmd G.D S.fs S.env1 S.stdout [] false (some (.ok pw)) none (k ++ word ".key") file := by
    rw [(C66_dispatch S MS.normal.order sv _ _ s1).2.1 rfl]
    unfold World.sign
    rw [s2]
    dsimp only
    rw [show S.getpw false [] = some (.ok pw) from PassPhrase.getpw (W := S) hsp, MS.maps, hSD]
  obtain ⟨b, hb1, hb2⟩ := (readPrivateKey_ok _ _ _ _ _).mp g8
  have s0 : (S.main sv).exit = 0 := by
    rw [hm]
    refine (C79_sign_iff G.D S.fs S.env1 S.stdout [] false _ none _ _).mpr ⟨.inr ?_, ⟨b, sk, hb1, hb2⟩, ⟨content, hin⟩, rfl⟩
    rw [htgt]
    exact ⟨MS.file1.1, .inl hno⟩
  have ht : sigTarget [] file ≠ S.env1.tmp := (MS.normal.out _ (.sig _ _ _ _ _ s1 s2)).1
  obtain ⟨_, _, _, _, _, _, _, _, _, _, h5⟩ := C58_signature_partial G.D L S.fs S.env1 S.stdout [] false (some (.ok pw)) none
    (k ++ word ".key") file hYf MS.normal.fresh1 ht hd MS.file1.2.1 MS.file1.2.2.1 MS.file1.2.2.2.1 MS.file1.2.2.2.2 (S.main sv) hm s0
  rw [htgt, ← hVf] at h5
  have v1 := runs_word MV "verify" (by decide) _ hvv
  have v2 : V.flags.verify [k ++ word ".pub", file ++ word ".sig", file] = .ok () [k ++ word ".pub", file ++ word ".sig", file] := by
    rw [MV.flags]; exact verify_line _ _ _ (hk.append _).plain (hf.append _).plain hf.plain
  have hne : sigTarget [] file ≠ file := by rw [htgt]; exact (ne_of_read hfile u3).symm
  have hv := C72_generate_sign_verify G.D L YL G rfl gv [k] [] MG.normal {} k pw g1 g2 hY (.inl rfl) MG.seed MG.salt g3 g4
    S hSD sv _ [] MS.normal {} file s1 (by rw [hclean]; exact s2) (by rw [hSf]) (by rw [hSf]) hsp MS.maps hYf hd
    ⟨hne, by rw [htgt, hclean]; exact Ne.symm d3⟩ MS.file1.2.1 MS.file1.2.2.1 MS.file1.2.2.2.1 MS.file1.2.2.2.2 s0
    V (hVD.trans hSD) vv _ [] MV.normal.order v1 (by rw [hclean]; show _ = Parsed.ok () [_, sigTarget [] file, _]; rw [htgt]; exact v2)
    MV.maps (by intro p _; rw [hVf])
  refine ⟨g4, s0, hv.1, ?_, ?_⟩
  · rw [hv.2]
    exact Spec.SameBut.trans g5 h5
  · intro V' vpw' content' MV' hD' hp1 hp2 hp3 hnc h0
    have w1 := runs_word MV' "verify" (by decide) _ hvv
    have w2 : V'.flags.verify [k ++ word ".pub", file ++ word ".sig", file] = .ok () [k ++ word ".pub", file ++ word ".sig", file] := by
      rw [MV'.flags]; exact verify_line _ _ _ (hk.append _).plain (hf.append _).plain hf.plain
    have hm' : V'.main vv = { exit := verifyCmd G.D V'.fs none [k ++ word ".pub", file ++ word ".sig", file] } := by
      rw [(C66_dispatch V' MV'.normal.order vv _ _ w1).2.2.1 rfl]; unfold World.verify; rw [w2]; dsimp only; rw [MV'.maps, hD']
    rw [hm'] at h0
    obtain ⟨b', hb3, hb4⟩ := (readPublicKey_ok _ _ _ _).mp g6
    have hka : KeyArg G.D V'.fs (k ++ word ".pub") pk := by
      refine .inr ⟨fromString_dot _ _ (pubName_dot k), b', ?_, hb4⟩
      rw [hp1, (h5 _ (by simpa using d3)).1]; exact hb3
    obtain ⟨sig, _, hc⟩ := C59_changed_file G.D V'.fs none (k ++ word ".pub") (file ++ word ".sig") file [] pk hka content content' hnc hp3 h0
    rw [g7] at hc
    exact ⟨sig.sig, hc⟩

/-- **C104** The walkthrough of the README with a sender: `generate S`, `generate R`, `encrypt -s S.key -o C R.pub F`,
`decrypt -v S.pub -o P R.key C`, with the program's own option parser.  On a machine where nothing goes wrong all four exit with 0, `P`
holds what `F` holds, and besides the six new files nothing has changed. -/
theorem C104_signed (S R E X : World) (L : Laws S.D.P) (YL : S.D.Y.Laws) (hY : S.D.Y.Reads [])
    (s r infile out plain spw rpw : Bytes) (sv rv ev xv : List Bytes)
    (hsv : sv = [word "generate", s])
    (hrv : rv = [word "generate", r])
    (hev : ev = [word "encrypt", word "-s", s ++ word ".key", word "-o", out, r ++ word ".pub", infile])
    (hxv : xv = [word "decrypt", word "-v", s ++ word ".pub", word "-o", plain, r ++ word ".key", out])
    (MS : Works S sv spw) (MR : Works R rv rpw) (ME : Works E ev spw) (MX : Works X xv rpw)
    (hSR : Next S sv R) (hRE : Next R rv E) (hEX : Next E ev X)
    -- the names
    (hs : FileName s) (hsclean : S.clean s = s) (hr : FileName r) (hrclean : R.clean r = r) (hname : ¬ NamesUser (r ++ word ".pub"))
    (hi : FileName infile) (ho : FileName out) (hp : FileName plain)
    -- the file is there, the other names are unused and different
    (content : Bytes) (hfile : S.fs.read infile = some content)
    (hun : ∀ p ∈ [s ++ word ".key", s ++ word ".pub", r ++ word ".key", r ++ word ".pub", out, plain], S.fs.dir p = none)
    (hdi : [s ++ word ".key", s ++ word ".pub", r ++ word ".key", r ++ word ".pub", out, plain].Nodup) :
    (S.main sv).exit = 0 ∧ (R.main rv).exit = 0 ∧ (E.main ev).exit = 0 ∧ (X.main xv).exit = 0 ∧
    (X.fs.run (X.main xv).sys).read plain = some content ∧
    SameBut S.fs (X.fs.run (X.main xv).sys)
      [s ++ word ".key", s ++ word ".pub", r ++ word ".key", r ++ word ".pub", out, plain] := by
  obtain ⟨hRD, hRf⟩ := hSR
  obtain ⟨hED, hEf⟩ := hRE
  obtain ⟨hXD, hXf⟩ := hEX
  simp only [List.nodup_cons, List.mem_cons, List.not_mem_nil, or_false, not_or] at hdi
  obtain ⟨⟨d1, d2, d3, d4, d5⟩, ⟨d6, d7, d8, d9⟩, ⟨d10, d11, d12⟩, ⟨d13, d14⟩, d15, _⟩ := hdi
  simp only [List.mem_cons, List.not_mem_nil, or_false, forall_eq_or_imp, forall_eq] at hun
  obtain ⟨u1, u2, u3, u4, u5, u6⟩ := hun
  -- generate, for the sender
  obtain ⟨g1, g2, g3, g4, g5, spk, ssk, g6, g7, g8, g9, g10⟩ := gen_works S L YL hY s spw sv hsv MS hs.plain hsclean u1 u2
  rw [← hRf] at g5 g6 g8
  have hRno : ∀ q, q ≠ s ++ word ".key" → q ≠ s ++ word ".pub" → S.fs.dir q = none → R.fs.dir q = none := by
    intro q q1 q2 q3
    rw [(g5 q ?_).2]; exact q3
    simp only [List.mem_cons, List.not_mem_nil, or_false, not_or]
    exact ⟨q1, q2⟩
  -- generate, for the recipient
  obtain ⟨h1, h2, h3, h4, h5, rpk, rsk, h6, h7, h8, h9, h10⟩ := gen_works R (by rw [hRD]; exact L) (by rw [hRD]; exact YL)
    (by rw [hRD]; exact hY) r rpw rv hrv MR hr.plain hrclean (hRno _ (Ne.symm d2) (Ne.symm d6) u3) (hRno _ (Ne.symm d3) (Ne.symm d7) u4)
  rw [← hEf] at h5 h6 h8
  have hkeepS : ∀ q, q ≠ r ++ word ".key" → q ≠ r ++ word ".pub" → E.fs.read q = R.fs.read q ∧ E.fs.dir q = R.fs.dir q := by
    intro q q1 q2
    refine h5 q ?_
    simp only [List.mem_cons, List.not_mem_nil, or_false, not_or]
    exact ⟨q1, q2⟩
  have hin : E.fs.read infile = some content := by
    rw [(hkeepS infile (ne_of_read hfile u3) (ne_of_read hfile u4)).1, (g5 infile ?_).1]; exact hfile
    simp only [List.mem_cons, List.not_mem_nil, or_false, not_or]
    exact ⟨ne_of_read hfile u1, ne_of_read hfile u2⟩
  have hEout : E.fs.dir out = none := by
    rw [(hkeepS out (Ne.symm d11) (Ne.symm d13)).2]; exact hRno _ (Ne.symm d4) (Ne.symm d8) u5
  have hEplain : E.fs.dir plain = none := by
    rw [(hkeepS plain (Ne.symm d12) (Ne.symm d14)).2]; exact hRno _ (Ne.symm d5) (Ne.symm d9) u6
  have hEskey : E.fs.read (s ++ word ".key") = R.fs.read (s ++ word ".key") := (hkeepS _ d2 d3).1
  have hEspub : E.fs.read (s ++ word ".pub") = R.fs.read (s ++ word ".pub") := (hkeepS _ d6 d7).1
  -- encrypt
  have e1 := runs_word ME "encrypt" (by decide) _ hev
  have e2 : E.flags.enc [word "-s", s ++ word ".key", word "-o", out, r ++ word ".pub", infile] =
      .ok { outfile := out, sign := s ++ word ".key" } [r ++ word ".pub", infile] := by
    rw [ME.flags]; exact enc_line_signed _ _ _ (by simp [(hr.append _).plain, hi.plain])
  have hEDS : E.D = S.D := hED.trans hRD
  have hid : IdentityArg E.D E.fs (s ++ word ".key") (some (.ok spw)) (some ssk) := by
    obtain ⟨b, b1, b2⟩ := (readPrivateKey_ok _ _ _ _ _).mp g8
    exact .inr ⟨(hs.append _).1, b, ssk, by rw [hEskey]; exact b1, by rw [hEDS]; exact b2, rfl⟩
  rw [← hED] at h6 h7
  obtain ⟨f1, f2, f3, c, f4⟩ := enc_works E (by rw [hEDS]; exact L) infile out (r ++ word ".pub") (s ++ word ".key") spw ev _ ME e1 e2
    content hin hi.dash hname rpk R.seed h6 MR.seed h7 (some ssk) hid (by intro x hx; cases hx; rw [hEDS]; exact g9)
    ⟨ho.1, ho.dash⟩ hEout
  -- decrypt
  have x1 := runs_word MX "decrypt" (by decide) _ hxv
  have x2 : X.flags.dec [word "-v", s ++ word ".pub", word "-o", plain, r ++ word ".key", out] =
      .ok { outfile := plain, sender := s ++ word ".pub" } [r ++ word ".key", out] := by
    rw [MX.flags]; exact dec_line_signed _ _ _ (by simp [(hr.append _).plain, ho.plain])
  rw [← hXf] at f2
  have f4' : X.fs.read out = some c := by rw [hXf]; exact f4
  have hpl : X.fs.dir plain = none := by rw [(f2 plain (by simpa using Ne.symm d15)).2]; exact hEplain
  have hXkey : X.fs.read (r ++ word ".key") = E.fs.read (r ++ word ".key") := (f2 _ (by simpa using d11)).1
  have hXspub : X.fs.read (s ++ word ".pub") = E.fs.read (s ++ word ".pub") := (f2 _ (by simpa using d8)).1
  have hXout := MX.opened _ _ f4'
  rcases C80_signed_pipeline S.D L YL S rfl sv [s] [] MS.normal {} s spw g1 g2 hY (.inl rfl) MS.seed MS.salt g3 g4
    R hRD rv [r] [] MR.normal {} r rpw h1 h2 hY (.inl rfl) MR.seed MR.salt h3 h4
    E hEDS ev _ [r ++ word ".pub"] infile ME.normal { outfile := out, sign := s ++ word ".key" } 131072 e1 e2 (E.opened infile) f3
    (by rw [hrclean]; simp [word]) (by rw [hrclean]; exact hname) (by rw [hEf]) (by simp) ME.rbuf ME.size (by norm_num)
    (by rw [hsclean]) (.typed spw rfl rfl ME.askpass) (by rw [hsclean, ← hRf]; exact hEskey) ME.stdout f1
    c (.inr ⟨⟨ho.1, ho.dash⟩, f4⟩)
    X (hXD.trans hEDS) xv _ _ MX.normal { outfile := plain, sender := s ++ word ".pub" } x1 x2 (X.opened out)
    (by rw [hrclean]; exact .file _ _ _ ho.1 ho.dash (exists_of_read f4')) hXout.1
    (by rw [hrclean, ← hEf]; exact hXkey) (by rw [hsclean]) (by rw [hsclean, ← hRf]; exact hXspub.trans hEspub)
    (.typed rpw rfl rfl MX.askpass) rfl MX.stdout
    (.inr ⟨⟨hp.1, hp.dash⟩, MX.file1.1, MX.file1.2.1, .inl hpl⟩) MX.file1.2.2 with h | h
  · obtain ⟨home, i, arg, q, _, q2, q3, q4⟩ := h
    exfalso
    have hi0 : arg = r ++ word ".pub" := by
      cases i with
      | zero => simpa using q2.symm
      | succ i => simp at q2
    subst hi0
    rcases q3 with ⟨q3, _⟩ | ⟨_, b, q5, q6⟩
    · exact hname q3
    · obtain ⟨b', q7, q8⟩ := (readPublicKey_ok _ _ _ _).mp h6
      rw [q5] at q7; cases q7
      rw [hEDS, q6] at q8; cases q8
      rw [hEDS] at h7
      exact q4.1 h7
  · refine ⟨g4, h4, f1, h.1, ?_, ?_⟩
    · rcases h.2.1 with ⟨q1, _⟩ | ⟨_, q2⟩
      · rcases q1 with q1 | q1
        · exact absurd q1 hp.1
        · exact absurd q1 hp.dash
      · rw [q2, (ME.opened _ _ hin).1]
    · have := ((SameBut.trans g5 h5).trans f2).trans h.2.2
      exact this

end Sigtool
