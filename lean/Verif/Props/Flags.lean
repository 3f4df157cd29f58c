import Verif.FlagsTables
/-!
# C102, C103: command lines

C102: what a command line means. For every list of words, each command sees exactly the options and arguments that the grammar of
`Spec.Flags` gives it with the option table of the usage text.

C103: a command line that is not understood is not reported as success. It holds for the program and for `generate`, `sign` and
`verify`; for `encrypt` and `decrypt` it is false.
-/

namespace Sigtool
open Spec

/-- Solves "this field is set by this option and by no other". -/
local macro "one_field" d:ident : tactic => `(tactic| (
  simp only [$d:ident, List.mem_cons, List.not_mem_nil, or_false, forall_eq_or_imp, forall_eq]
  and_intros
  all_goals
    intro v x y h
    simp only [boolVarP, stringVarP, Option.map_eq_some_iff, Option.some.injEq] at h
    first
    | (obtain ⟨b, hb, hy⟩ := h
       subst hy
       first
       | rw [if_neg (by decide)]
       | (rw [if_pos (by decide)]; exact parseBool_some hb))
    | (subst h
       first
       | rw [if_neg (by decide)]
       | rw [if_pos (by decide)])))

/-- From the parser with `help` declared as an option to the grammar. -/
theorem withHelp_ok {α : Type} {defs : List (FlagDef (α × Bool))} {opts : List Opt} (T : Table defs opts) (S : Sets defs)
    (I : NamesInj opts) (x : α) (close : Settings → α) {h : Opt} (hh : h ∈ opts)
    (hπ : ∀ d ∈ defs, ∀ v x y, d.set v x = some y → y.2 = if d.name = ascii h.name then decide (v ∈ trues) else x.2)
    (hc : ∀ s, Named opts s → ∀ y, applyAll defs s (x, false) = some y → y.1 = close s) (line : List Bytes) (o : α) (args : List Bytes) :
    (parseArgs defs true (x, false) [] line).withHelp = .ok o args ↔
      ∃ s, Reads opts line s args ∧ Typed opts s ∧ ¬ on h.name s ∧ o = close s := by
  constructor
  · intro e
    cases e' : parseArgs defs true (x, false) [] line with
    | help => rw [e'] at e; cases e
    | bad => rw [e'] at e; cases e
    | ok o' args' =>
      rw [e'] at e
      obtain ⟨s, h1, h2⟩ := (parse_ok_iff T _ _ _ _).mp e'
      have hn := reads_named h1
      have hb := bool_field T I hh (·.2) hπ hn rfl h2
      simp only [Parsed.withHelp] at e
      by_cases c : on h.name s
      · simp [hb, c] at e
      · simp only [hb, c, decide_false, Bool.false_eq_true, if_false, Parsed.ok.injEq] at e
        obtain ⟨rfl, rfl⟩ := e
        exact ⟨s, h1, (applyAll_typed T S I hn _).mp ⟨_, h2⟩, c, hc s hn _ h2⟩
  · rintro ⟨s, h1, h2, h3, rfl⟩
    have hn := reads_named h1
    obtain ⟨y, hy⟩ := (applyAll_typed T S I hn (x, false)).mpr h2
    rw [(parse_ok_iff T _ _ _ _).mpr ⟨s, h1, hy⟩]
    have hb := bool_field T I hh (·.2) hπ hn rfl hy
    simp only [Parsed.withHelp]
    simp only [hb, h3, decide_false, Bool.false_eq_true, if_false, hc s hn _ hy]

theorem withHelp_help {α : Type} {defs : List (FlagDef (α × Bool))} {opts : List Opt} (T : Table defs opts) (S : Sets defs)
    (I : NamesInj opts) (x : α) {h : Opt} (hh : h ∈ opts)
    (hπ : ∀ d ∈ defs, ∀ v x y, d.set v x = some y → y.2 = if d.name = ascii h.name then decide (v ∈ trues) else x.2)
    (hd : ∃ d ∈ defs, d.name = ascii "help" ∧ d.short = some 104) (line : List Bytes) :
    (parseArgs defs true (x, false) [] line).withHelp = .help ↔
      ∃ s args, Reads opts line s args ∧ Typed opts s ∧ on h.name s := by
  constructor
  · intro e
    cases e' : parseArgs defs true (x, false) [] line with
    | help => exact absurd e' (parse_no_help true hd _ _ (le_refl _) _ _)
    | bad => rw [e'] at e; cases e
    | ok o' args' =>
      rw [e'] at e
      obtain ⟨s, h1, h2⟩ := (parse_ok_iff T _ _ _ _).mp e'
      have hn := reads_named h1
      have hb := bool_field T I hh (·.2) hπ hn rfl h2
      simp only [Parsed.withHelp] at e
      by_cases c : on h.name s
      · exact ⟨s, args', h1, (applyAll_typed T S I hn _).mp ⟨_, h2⟩, c⟩
      · simp [hb, c] at e
  · rintro ⟨s, args, h1, h2, h3⟩
    have hn := reads_named h1
    obtain ⟨y, hy⟩ := (applyAll_typed T S I hn (x, false)).mpr h2
    rw [(parse_ok_iff T _ _ _ _).mpr ⟨s, h1, hy⟩]
    have hb := bool_field T I hh (·.2) hπ hn rfl hy
    simp only [Parsed.withHelp]
    simp only [hb, h3, decide_true, if_true]

/-- C102, the program itself: its options come before the first argument, which is the command. -/
theorem C102_top (line : List Bytes) (o : TopOpts) (args : List Bytes) :
    realFlags.top line = .ok o args ↔ ∃ s, ReadsFirst topOptions line s args ∧ Typed topOptions s ∧
      o = { version := decide (on "version" s), help := decide (on "help" s), debug := decide (on "debug" s) } := by
  have f : ∀ s, Named topOptions s → ∀ y, applyAll topDefs s {} = some y →
      y = { version := decide (on "version" s), help := decide (on "help" s), debug := decide (on "debug" s) } := by
    intro s hn y h
    have h1 := bool_field topTable topInj (p := ⟨"version", some 'v', false⟩) (by simp [topOptions]) (·.version) (by one_field topDefs) hn rfl h
    have h2 := bool_field topTable topInj (p := ⟨"help", some 'h', false⟩) (by simp [topOptions]) (·.help) (by one_field topDefs) hn rfl h
    have h3 := bool_field topTable topInj (p := ⟨"debug", none, false⟩) (by simp [topOptions]) (·.debug) (by one_field topDefs) hn rfl h
    cases y
    simp only at h1 h2 h3
    rw [h1, h2, h3]
  have := parse_first_iff topTable line {} o args
  constructor
  · intro h
    obtain ⟨s, h1, h2⟩ := this.mp h
    have hn := readsFirst_named h1
    exact ⟨s, h1, (applyAll_typed topTable topSets topInj hn _).mp ⟨_, h2⟩, f s hn o h2⟩
  · rintro ⟨s, h1, h2, rfl⟩
    have hn := readsFirst_named h1
    obtain ⟨y, hy⟩ := (applyAll_typed topTable topSets topInj hn {}).mpr h2
    exact this.mpr ⟨s, h1, by rw [hy, f s hn y hy]⟩

/-- C102, `generate`. -/
theorem C102_generate (line : List Bytes) :
    (∀ o args, realFlags.gen line = .ok o args ↔ ∃ s, Reads genOptions line s args ∧ Typed genOptions s ∧ ¬ on "help" s ∧
      o = { nopw := decide (on "no-password" s), comment := text "comment" [] s, envpw := text "env-password" [] s
            force := decide (on "overwrite" s) }) ∧
    (realFlags.gen line = .help ↔ ∃ s args, Reads genOptions line s args ∧ Typed genOptions s ∧ on "help" s) := by
  have hπ : ∀ d ∈ genDefs, ∀ v x y, d.set v x = some y → y.2 = if d.name = ascii "help" then decide (v ∈ trues) else x.2 := by
    one_field genDefs
  refine ⟨fun o args => withHelp_ok genTable genSets genInj {} _ (h := ⟨"help", some 'h', false⟩) (by simp [genOptions]) hπ ?_ line o args,
    withHelp_help genTable genSets genInj {} (h := ⟨"help", some 'h', false⟩) (by simp [genOptions]) hπ ⟨_, List.mem_cons_self, rfl, rfl⟩ line⟩
  intro s hn y h
  have h1 := bool_field genTable genInj (p := ⟨"no-password", none, false⟩) (by simp [genOptions]) (·.1.nopw) (by one_field genDefs) hn rfl h
  have h2 := text_field genTable genInj (p := ⟨"comment", some 'c', true⟩) (by simp [genOptions]) (·.1.comment) (by one_field genDefs) hn h
  have h3 := text_field genTable genInj (p := ⟨"env-password", some 'E', true⟩) (by simp [genOptions]) (·.1.envpw) (by one_field genDefs) hn h
  have h4 := bool_field genTable genInj (p := ⟨"overwrite", none, false⟩) (by simp [genOptions]) (·.1.force) (by one_field genDefs) hn rfl h
  obtain ⟨⟨a, b, c, d⟩, e⟩ := y
  simp only at h1 h2 h3 h4
  rw [h1, h2, h3, h4]

/-- C102, `sign`. -/
theorem C102_sign (line : List Bytes) :
    (∀ o args, realFlags.sign line = .ok o args ↔ ∃ s, Reads signOptions line s args ∧ Typed signOptions s ∧ ¬ on "help" s ∧
      o = { nopw := decide (on "no-password" s), envpw := text "env-password" [] s, output := text "output" [] s
            force := decide (on "overwrite" s) }) ∧
    (realFlags.sign line = .help ↔ ∃ s args, Reads signOptions line s args ∧ Typed signOptions s ∧ on "help" s) := by
  have hπ : ∀ d ∈ signDefs, ∀ v x y, d.set v x = some y → y.2 = if d.name = ascii "help" then decide (v ∈ trues) else x.2 := by
    one_field signDefs
  refine ⟨fun o args => withHelp_ok signTable signSets signInj {} _ (h := ⟨"help", some 'h', false⟩) (by simp [signOptions]) hπ ?_ line o args,
    withHelp_help signTable signSets signInj {} (h := ⟨"help", some 'h', false⟩) (by simp [signOptions]) hπ ⟨_, List.mem_cons_self, rfl, rfl⟩ line⟩
  intro s hn y h
  have h1 := bool_field signTable signInj (p := ⟨"no-password", none, false⟩) (by simp [signOptions]) (·.1.nopw) (by one_field signDefs) hn rfl h
  have h2 := text_field signTable signInj (p := ⟨"output", some 'o', true⟩) (by simp [signOptions]) (·.1.output) (by one_field signDefs) hn h
  have h3 := text_field signTable signInj (p := ⟨"env-password", some 'E', true⟩) (by simp [signOptions]) (·.1.envpw) (by one_field signDefs) hn h
  have h4 := bool_field signTable signInj (p := ⟨"overwrite", none, false⟩) (by simp [signOptions]) (·.1.force) (by one_field signDefs) hn rfl h
  obtain ⟨⟨a, b, c, d⟩, e⟩ := y
  simp only at h1 h2 h3 h4
  rw [h1, h2, h3, h4]

/-- C102, `verify`. -/
theorem C102_verify (line : List Bytes) :
    (∀ quiet args, verifyFlags line = .ok quiet args ↔ ∃ s, Reads verifyOptions line s args ∧ Typed verifyOptions s ∧
      ¬ on "help" s ∧ quiet = decide (on "quiet" s)) ∧
    (∀ args, realFlags.verify line = .ok () args ↔ ∃ s, Reads verifyOptions line s args ∧ Typed verifyOptions s ∧ ¬ on "help" s) ∧
    (realFlags.verify line = .help ↔ ∃ s args, Reads verifyOptions line s args ∧ Typed verifyOptions s ∧ on "help" s) := by
  have hπ : ∀ d ∈ verifyDefs, ∀ v x y, d.set v x = some y → y.2 = if d.name = ascii "help" then decide (v ∈ trues) else x.2 := by
    one_field verifyDefs
  have h1 : ∀ quiet args, verifyFlags line = .ok quiet args ↔ ∃ s, Reads verifyOptions line s args ∧ Typed verifyOptions s ∧
      ¬ on "help" s ∧ quiet = decide (on "quiet" s) := by
    refine fun o args => withHelp_ok verifyTable verifySets verifyInj false (fun s => decide (on "quiet" s)) (h := ⟨"help", some 'h', false⟩)
      (by simp [verifyOptions]) hπ ?_ line o args
    intro s hn y h
    exact bool_field verifyTable verifyInj (p := ⟨"quiet", some 'q', false⟩) (by simp [verifyOptions]) (·.1) (by one_field verifyDefs) hn rfl h
  have h2 := withHelp_help verifyTable verifySets verifyInj false (h := ⟨"help", some 'h', false⟩) (by simp [verifyOptions]) hπ
    ⟨_, List.mem_cons_self, rfl, rfl⟩ line
  refine ⟨h1, ?_, ?_⟩
  · intro args
    have : realFlags.verify line = .ok () args ↔ ∃ q, verifyFlags line = .ok q args := by
      simp only [realFlags]
      cases verifyFlags line <;> simp
    rw [this]
    constructor
    · rintro ⟨q, h⟩
      obtain ⟨s, a, b, c, _⟩ := (h1 q args).mp h
      exact ⟨s, a, b, c⟩
    · rintro ⟨s, a, b, c⟩
      exact ⟨_, (h1 _ args).mpr ⟨s, a, b, c, rfl⟩⟩
  · have : realFlags.verify line = .help ↔ verifyFlags line = .help := by
      simp only [realFlags]
      cases verifyFlags line <;> simp
    rw [this]
    exact h2

/-- The parser without a declared `help` against the grammar. -/
theorem plain_ok {α : Type} {defs : List (FlagDef α)} {opts : List Opt} (T : Table defs opts) (S : Sets defs) (I : NamesInj opts)
    (x : α) (close : Settings → α) (hc : ∀ s, Named opts s → ∀ y, applyAll defs s x = some y → y = close s) (line : List Bytes)
    (o : α) (args : List Bytes) : parseArgs defs true x [] line = .ok o args ↔ ∃ s, Reads opts line s args ∧ Typed opts s ∧ o = close s := by
  rw [parse_ok_iff T]
  constructor
  · rintro ⟨s, h1, h2⟩
    have hn := reads_named h1
    exact ⟨s, h1, (applyAll_typed T S I hn _).mp ⟨_, h2⟩, hc s hn _ h2⟩
  · rintro ⟨s, h1, h2, rfl⟩
    have hn := reads_named h1
    obtain ⟨y, hy⟩ := (applyAll_typed T S I hn x).mpr h2
    exact ⟨s, h1, by rw [hy, hc s hn y hy]⟩

theorem plain_help {α : Type} {defs : List (FlagDef α)} {opts : List Opt} (T : Table defs opts) (S : Sets defs) (I : NamesInj opts)
    (hn : ∀ d ∈ defs, d.name ≠ ascii "help") (hl : ∀ d ∈ defs, d.short ≠ some 104) (x : α) (line : List Bytes) :
    parseArgs defs true x [] line = .help ↔
      ∃ s args w rest, Begins opts line s args (w :: rest) ∧ Typed opts s ∧ AsksHelp opts w := by
  rw [parse_help_iff T hn hl]
  constructor
  · rintro ⟨s, args, w, rest, o', h1, h2, h3⟩
    exact ⟨s, args, w, rest, h1, (applyAll_typed T S I (begins_named h1) _).mp ⟨_, h3⟩, h2⟩
  · rintro ⟨s, args, w, rest, h1, h2, h3⟩
    obtain ⟨y, hy⟩ := (applyAll_typed T S I (begins_named h1) x).mpr h2
    exact ⟨s, args, w, rest, y, h1, h3, hy⟩

/-- C102, `encrypt`. -/
theorem C102_encrypt (line : List Bytes) :
    (∀ o args, realFlags.enc line = .ok o args ↔ ∃ s, Reads encOptions line s args ∧ Typed encOptions s ∧
      o = { outfile := text "outfile" [] s, sign := text "sign" [] s, nopw := decide (on "no-password" s)
            envpw := text "env-password" [] s, blocksize := text "block-size" (word "128k") s, force := decide (on "overwrite" s) }) ∧
    (realFlags.enc line = .help ↔
      ∃ s args w rest, Begins encOptions line s args (w :: rest) ∧ Typed encOptions s ∧ AsksHelp encOptions w) := by
  refine ⟨fun o args => plain_ok encTable encSets encInj {} _ ?_ line o args,
    plain_help encTable encSets encInj (by decide) (by decide) {} line⟩
  intro s hn y h
  have h1 := bool_field encTable encInj (p := ⟨"no-password", none, false⟩) (by simp [encOptions]) (·.nopw) (by one_field encDefs) hn rfl h
  have h2 := text_field encTable encInj (p := ⟨"outfile", some 'o', true⟩) (by simp [encOptions]) (·.outfile) (by one_field encDefs) hn h
  have h3 := text_field encTable encInj (p := ⟨"env-password", some 'E', true⟩) (by simp [encOptions]) (·.envpw) (by one_field encDefs) hn h
  have h4 := bool_field encTable encInj (p := ⟨"overwrite", none, false⟩) (by simp [encOptions]) (·.force) (by one_field encDefs) hn rfl h
  have h5 := text_field encTable encInj (p := ⟨"sign", some 's', true⟩) (by simp [encOptions]) (·.sign) (by one_field encDefs) hn h
  have h6 := text_field encTable encInj (p := ⟨"block-size", some 'B', true⟩) (by simp [encOptions]) (·.blocksize) (by one_field encDefs) hn h
  cases y
  simp only at h1 h2 h3 h4 h5 h6
  rw [h1, h2, h3, h4, h5, h6]

/-- C102, `decrypt`. -/
theorem C102_decrypt (line : List Bytes) :
    (∀ o args, realFlags.dec line = .ok o args ↔ ∃ s, Reads decOptions line s args ∧ Typed decOptions s ∧
      o = { outfile := text "outfile" [] s, nopw := decide (on "no-password" s), envpw := text "env-password" [] s
            sender := text "verify-sender" [] s, test := decide (on "test" s), force := decide (on "overwrite" s) }) ∧
    (realFlags.dec line = .help ↔
      ∃ s args w rest, Begins decOptions line s args (w :: rest) ∧ Typed decOptions s ∧ AsksHelp decOptions w) := by
  refine ⟨fun o args => plain_ok decTable decSets decInj {} _ ?_ line o args,
    plain_help decTable decSets decInj (by decide) (by decide) {} line⟩
  intro s hn y h
  have h1 := bool_field decTable decInj (p := ⟨"no-password", none, false⟩) (by simp [decOptions]) (·.nopw) (by one_field decDefs) hn rfl h
  have h2 := text_field decTable decInj (p := ⟨"outfile", some 'o', true⟩) (by simp [decOptions]) (·.outfile) (by one_field decDefs) hn h
  have h3 := text_field decTable decInj (p := ⟨"env-password", some 'E', true⟩) (by simp [decOptions]) (·.envpw) (by one_field decDefs) hn h
  have h4 := bool_field decTable decInj (p := ⟨"overwrite", none, false⟩) (by simp [decOptions]) (·.force) (by one_field decDefs) hn rfl h
  have h5 := text_field decTable decInj (p := ⟨"verify-sender", some 'v', true⟩) (by simp [decOptions]) (·.sender) (by one_field decDefs) hn h
  have h6 := bool_field decTable decInj (p := ⟨"test", some 't', false⟩) (by simp [decOptions]) (·.test) (by one_field decDefs) hn rfl h
  cases y
  simp only at h1 h2 h3 h4 h5 h6
  rw [h1, h2, h3, h4, h5, h6]

/-! ### The command lines of the README -/

deriving instance DecidableEq for TopOpts, GenOpts, SignOpts, EncOpts, DecOpts
deriving instance DecidableEq for Parsed

/-- Words of a command line. -/
def words (l : List String) : List Bytes := l.map ascii

/-- The examples of `README.md` (lines 64-150) mean what the text beside them says, wherever the options stand. -/
theorem C102_readme :
    (realFlags.gen (words ["/tmp/testkey"]) = .ok {} (words ["/tmp/testkey"])) ∧
    (realFlags.sign (words ["--no-password", "/tmp/testkey.key", "archive.tar.gz"]) =
      .ok { nopw := true } (words ["/tmp/testkey.key", "archive.tar.gz"])) ∧
    (realFlags.sign (words ["-o", "archive.sig", "/tmp/testkey.key", "archive.tar.gz"]) =
      .ok { output := ascii "archive.sig" } (words ["/tmp/testkey.key", "archive.tar.gz"])) ∧
    (realFlags.verify (words ["/tmp/testkey.pub", "archive.sig", "archive.tar.gz"]) =
      .ok () (words ["/tmp/testkey.pub", "archive.sig", "archive.tar.gz"])) ∧
    (realFlags.enc (words ["-s", "sender.key", "to.pub", "-o", "archive.tar.gz.enc", "archive.tar.gz"]) =
      .ok { sign := ascii "sender.key", outfile := ascii "archive.tar.gz.enc" } (words ["to.pub", "archive.tar.gz"])) ∧
    (realFlags.dec (words ["-o", "archive.tar.gz", "-v", "sender.pub", "to.key", "archive.tar.gz.enc"]) =
      .ok { sender := ascii "sender.pub", outfile := ascii "archive.tar.gz" } (words ["to.key", "archive.tar.gz.enc"])) := by
  decide +kernel

/-- `sigtool gen -p` (`README.md:70`) is not a command line of the program. -/
theorem C102_readme_refuted : realFlags.gen (words ["-p", "/tmp/testkey"]) = .bad := by decide +kernel

/-- The hypotheses side of C102 is met: a line with grouped letters, a value in the same word, `--` and a repeated option. -/
theorem C102_nonvacuous : ∃ s, Reads decOptions (words ["-tvsender.pub", "to.key", "--outfile=a", "-o", "b", "--", "-x"]) s (words ["to.key", "-x"]) ∧
    Typed decOptions s ∧ on "test" s ∧ text "outfile" [] s = ascii "b" ∧ text "verify-sender" [] s = ascii "sender.pub" := by
  have h : realFlags.dec (words ["-tvsender.pub", "to.key", "--outfile=a", "-o", "b", "--", "-x"]) =
      .ok { test := true, sender := ascii "sender.pub", outfile := ascii "b" } (words ["to.key", "-x"]) := by decide +kernel
  obtain ⟨s, h1, h2, h3⟩ := ((C102_decrypt _).1 _ _).mp h
  simp only [DecOpts.mk.injEq] at h3
  obtain ⟨a, _, _, b, c, _⟩ := h3
  exact ⟨s, h1, h2, by simpa using c.symm, a.symm, b.symm⟩

/-! ### C103 -/

/-- C103 for the program itself and for `generate`, `sign` and `verify`: a line that is neither understood nor asks for help
ends with status 2, and nothing was written anywhere. -/
theorem C103_status_partial (W : World) (hW : W.flags = realFlags) (args : List Bytes) :
    ((¬ ∃ s rest, ReadsFirst topOptions args s rest ∧ Typed topOptions s) → W.main args = { exit := 2 }) ∧
    ((¬ ∃ s rest, Reads genOptions args s rest ∧ Typed genOptions s) → W.gen args = { exit := 2 }) ∧
    ((¬ ∃ s rest, Reads signOptions args s rest ∧ Typed signOptions s) → W.sign args = { exit := 2 }) ∧
    ((¬ ∃ s rest, Reads verifyOptions args s rest ∧ Typed verifyOptions s) → W.verify args = { exit := 2 }) := by
  refine ⟨?_, ?_, ?_, ?_⟩
  · intro h
    have : realFlags.top args = .bad := by
      cases e : realFlags.top args with
      | bad => rfl
      | help => exact absurd e (parse_no_help false ⟨_, List.mem_cons_of_mem _ List.mem_cons_self, rfl, rfl⟩ _ _ (le_refl _) _ _)
      | ok o r => obtain ⟨s, a, b, _⟩ := (C102_top args o r).mp e; exact absurd ⟨s, r, a, b⟩ h
    unfold World.main
    rw [hW, this]
  · intro h
    have : realFlags.gen args = .bad := by
      cases e : realFlags.gen args with
      | bad => rfl
      | help => obtain ⟨s, r, a, b, _⟩ := (C102_generate args).2.mp e; exact absurd ⟨s, r, a, b⟩ h
      | ok o r => obtain ⟨s, a, b, _⟩ := ((C102_generate args).1 o r).mp e; exact absurd ⟨s, r, a, b⟩ h
    unfold World.gen
    rw [hW, this]
  · intro h
    have : realFlags.sign args = .bad := by
      cases e : realFlags.sign args with
      | bad => rfl
      | help => obtain ⟨s, r, a, b, _⟩ := (C102_sign args).2.mp e; exact absurd ⟨s, r, a, b⟩ h
      | ok o r => obtain ⟨s, a, b, _⟩ := ((C102_sign args).1 o r).mp e; exact absurd ⟨s, r, a, b⟩ h
    unfold World.sign
    rw [hW, this]
  · intro h
    have : realFlags.verify args = .bad := by
      cases e : realFlags.verify args with
      | bad => rfl
      | help => obtain ⟨s, r, a, b, _⟩ := (C102_verify args).2.2.mp e; exact absurd ⟨s, r, a, b⟩ h
      | ok o r => obtain ⟨s, a, b, _⟩ := ((C102_verify args).2.1 r).mp e; exact absurd ⟨s, r, a, b⟩ h
    unfold World.verify
    rw [hW, this]

/-- C103 is false for `encrypt` and `decrypt`: a line that is not understood ends with status 0 and nothing was done. -/
theorem C103_status_refuted (W : World) (hW : W.flags = realFlags) (args : List Bytes) :
    ((¬ ∃ s rest, Reads encOptions args s rest ∧ Typed encOptions s) → W.encrypt args = { exit := 0 }) ∧
    ((¬ ∃ s rest, Reads decOptions args s rest ∧ Typed decOptions s) → W.decrypt args = { exit := 0 }) := by
  refine ⟨?_, ?_⟩
  · intro h
    unfold World.encrypt
    rw [hW]
    cases e : realFlags.enc args with
    | bad => rfl
    | help => rfl
    | ok o r => obtain ⟨s, a, b, _⟩ := ((C102_encrypt args).1 o r).mp e; exact absurd ⟨s, r, a, b⟩ h
  · intro h
    unfold World.decrypt
    rw [hW]
    cases e : realFlags.dec args with
    | bad => rfl
    | help => rfl
    | ok o r => obtain ⟨s, a, b, _⟩ := ((C102_decrypt args).1 o r).mp e; exact absurd ⟨s, r, a, b⟩ h

/-- The same from the command line of the program, whatever spelling of the command name was used. -/
theorem C103_main_refuted (W : World) (hW : W.flags = realFlags) (cmd : Bytes) (hc : Plain cmd) (args : List Bytes) :
    (selectCommand W.lower W.order cmd = some (ascii "encrypt") → (¬ ∃ s rest, Reads encOptions args s rest ∧ Typed encOptions s) →
      W.main (cmd :: args) = { exit := 0 }) ∧
    (selectCommand W.lower W.order cmd = some (ascii "decrypt") → (¬ ∃ s rest, Reads decOptions args s rest ∧ Typed decOptions s) →
      W.main (cmd :: args) = { exit := 0 }) := by
  have ht : W.flags.top (cmd :: args) = .ok {} (cmd :: args) := by
    rw [hW]
    show parseArgs topDefs false {} [] (cmd :: args) = _
    rw [parseArgs, if_pos ((plain_iff cmd).mp hc)]
    simp
  have hd1 : W.dispatch (ascii "encrypt") = some W.encrypt := by
    unfold World.dispatch
    rw [if_neg (by decide), if_neg (by decide), if_neg (by decide), if_pos rfl]
  have hd2 : W.dispatch (ascii "decrypt") = some W.decrypt := by
    unfold World.dispatch
    rw [if_neg (by decide), if_neg (by decide), if_neg (by decide), if_neg (by decide), if_pos rfl]
  refine ⟨fun hs hr => ?_, fun hs hr => ?_⟩
  · unfold World.main
    rw [ht]
    dsimp only
    rw [hs]
    dsimp only
    rw [hd1]
    exact (C103_status_refuted W hW args).1 hr
  · unfold World.main
    rw [ht]
    dsimp only
    rw [hs]
    dsimp only
    rw [hd2]
    exact (C103_status_refuted W hW args).2 hr

/-- Such lines exist: a misspelt option of `encrypt` and of `generate`, and a decryption with a missing value. -/
theorem C103_nonvacuous :
    (¬ ∃ s rest, Reads encOptions (words ["--outfle", "x", "to.pub", "in"]) s rest ∧ Typed encOptions s) ∧
    (¬ ∃ s rest, Reads decOptions (words ["to.key", "in", "-o"]) s rest ∧ Typed decOptions s) ∧
    (¬ ∃ s rest, Reads genOptions (words ["-p", "key"]) s rest ∧ Typed genOptions s) := by
  refine ⟨?_, ?_, ?_⟩
  · rintro ⟨s, r, a, b⟩
    have := ((C102_encrypt _).1 _ _).mpr ⟨s, a, b, rfl⟩
    have h : realFlags.enc (words ["--outfle", "x", "to.pub", "in"]) = .bad := by decide +kernel
    rw [h] at this
    cases this
  · rintro ⟨s, r, a, b⟩
    have := ((C102_decrypt _).1 _ _).mpr ⟨s, a, b, rfl⟩
    have h : realFlags.dec (words ["to.key", "in", "-o"]) = .bad := by decide +kernel
    rw [h] at this
    cases this
  · rintro ⟨s, r, a, b⟩
    by_cases c : on "help" s
    · have := (C102_generate _).2.mpr ⟨s, r, a, b, c⟩
      have h : realFlags.gen (words ["-p", "key"]) = .bad := by decide +kernel
      rw [h] at this
      cases this
    · have := ((C102_generate _).1 _ _).mpr ⟨s, a, b, c, rfl⟩
      have h : realFlags.gen (words ["-p", "key"]) = .bad := by decide +kernel
      rw [h] at this
      cases this

end Sigtool
