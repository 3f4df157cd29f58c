import Verif.Flags
import Verif.Spec.Flags
/-!
# FlagsLemmas: the flag parser against the grammar of command lines
-/

namespace Sigtool
open Spec

variable {α : Type}

/-- Store one setting. -/
def apply1 (defs : List (FlagDef α)) (n : String) (v : Bytes) (o : α) : Option α :=
  (defs.find? fun d => d.name == ascii n).bind fun d => d.set v o

/-- Store settings from left to right. -/
def applyAll (defs : List (FlagDef α)) : Settings → α → Option α
  | [], o => some o
  | x :: s, o => (apply1 defs x.1 x.2 o).bind (applyAll defs s)

theorem applyAll_append (defs : List (FlagDef α)) (s t : Settings) (o : α) :
    applyAll defs (s ++ t) o = (applyAll defs s o).bind (applyAll defs t) := by
  induction s generalizing o with
  | nil => rfl
  | cons x s ih =>
    simp only [List.cons_append, applyAll]
    cases apply1 defs x.1 x.2 o with
    | none => rfl
    | some o => exact ih o

/-- A table of declarations and the options of a usage text say the same. -/
structure Table (defs : List (FlagDef α)) (opts : List Opt) : Prop where
  byName : ∀ o ∈ opts, ∃ d, defs.find? (fun d => d.name == ascii o.name) = some d ∧ d.isBool = !o.takes ∧
    (d.isBool = true → ∀ x, ∃ y, d.set (ascii "true") x = some y)
  nameOf : ∀ d ∈ defs, ∃ o ∈ opts, d.name = ascii o.name
  byLetter : ∀ o ∈ opts, ∀ c, o.letter = some c → defs.find? (fun d => d.short == some (UInt8.ofNat c.toNat)) =
    defs.find? (fun d => d.name == ascii o.name)
  letterOf : ∀ d ∈ defs, ∀ b, d.short = some b → ∃ o ∈ opts, ∃ c, o.letter = some c ∧ b = UInt8.ofNat c.toNat
  good : ∀ o ∈ opts, 61 ∉ ascii o.name ∧ (ascii o.name).head? ≠ some 45 ∧ ascii o.name ≠ []
  noDash : ∀ d ∈ defs, d.short ≠ some 45
  noEq : ∀ d ∈ defs, d.short ≠ some 61

/-- What an option word does. -/
def parseWord (defs : List (FlagDef α)) (o : α) (s : Bytes) : ArgStep α :=
  if s.tail.head? = some 45 then parseLong defs o (s.drop 2) else parseShort defs o (s.drop 1)

/-- The specification's view of a step: settings `s` and maybe an option that takes the next word. -/
def Says (defs : List (FlagDef α)) (o : α) (s : Settings) : Option String → ArgStep α → Prop
  | none, r => r = .ofSet (applyAll defs s o)
  | some n, r => match applyAll defs s o with
    | none => r = .bad
    | some o1 => ∃ f, r = .need f ∧ ∀ v, f v = apply1 defs n v o1

section
variable {defs : List (FlagDef α)} {opts : List Opt} (T : Table defs opts)
include T

theorem Table.set1 {o : Opt} (ho : o ∈ opts) {d : FlagDef α} (h : defs.find? (fun d => d.name == ascii o.name) = some d)
    (v : Bytes) (x : α) : d.set v x = apply1 defs o.name v x := by
  unfold apply1; rw [h]; rfl

omit T in
theorem head_eq (w : Bytes) : (w.length > 1 ∧ w.head? = some 61) ↔ EqValue w := by
  constructor
  · rintro ⟨h1, h2⟩
    match w with
    | [] => simp at h2
    | c :: v =>
      simp only [List.head?_cons, Option.some.injEq] at h2
      subst h2
      exact ⟨v, by intro e; simp [e] at h1, rfl⟩
  · rintro ⟨v, hv, rfl⟩
    refine ⟨?_, rfl⟩
    simp only [word, List.length_append]
    have : 0 < v.length := List.length_pos_iff.mpr hv
    have : (ascii "=").length = 1 := rfl
    omega

theorem letters_says {w : Bytes} {s : Settings} {next : Option String} (h : Letters opts w s next) :
    ∀ o : α, Says defs o s next (parseShort defs o w) := by
  induction h with
  | flag p c hp hl ht =>
    intro o
    obtain ⟨d, hd, hb, hs⟩ := T.byName p hp
    have hb : d.isBool = true := by rw [hb, ht]; rfl
    obtain ⟨y, hy⟩ := hs hb o
    have hf := T.byLetter p hp c hl
    simp only [letter, parseShort]
    rw [hf, hd]
    simp only [Says, applyAll, ← T.set1 hp hd, hy]
    simp [hb]
    rfl
  | flags p c w s next hp hl ht hne _ ih =>
    intro o
    obtain ⟨d, hd, hb, hs⟩ := T.byName p hp
    have hb : d.isBool = true := by rw [hb, ht]; rfl
    obtain ⟨y, hy⟩ := hs hb o
    have hf := T.byLetter p hp c hl
    simp only [letter, List.singleton_append, parseShort]
    rw [hf, hd]
    dsimp only
    rw [if_neg (by rw [head_eq]; exact hne), if_pos hb, hy]
    have := ih y
    cases next with
    | none =>
      simp only [Says, applyAll, ← T.set1 hp hd, hy] at this ⊢
      exact this
    | some n =>
      simp only [Says, applyAll, ← T.set1 hp hd, hy] at this ⊢
      exact this
  | equals p c v hp hl hv =>
    intro o
    obtain ⟨d, hd, hb, hs⟩ := T.byName p hp
    have hf := T.byLetter p hp c hl
    have e : letter c ++ word "=" ++ v = UInt8.ofNat c.toNat :: (word "=" ++ v) := rfl
    rw [e]
    simp only [parseShort]
    rw [hf, hd]
    dsimp only
    rw [if_pos ((head_eq _).mpr ⟨v, hv, rfl⟩)]
    simp only [Says, applyAll, ← T.set1 hp hd]
    have : (word "=" ++ v).tail = v := rfl
    rw [this]
    cases d.set v o <;> rfl
  | value p c v hp hl ht hv hne =>
    intro o
    obtain ⟨d, hd, hb, hs⟩ := T.byName p hp
    have hb : d.isBool = false := by rw [hb, ht]; rfl
    have hf := T.byLetter p hp c hl
    simp only [letter, List.singleton_append, parseShort]
    rw [hf, hd]
    dsimp only
    rw [if_neg (by rw [head_eq]; exact hne), if_neg (by simp [hb]), if_pos (List.length_pos_iff.mpr hv)]
    simp only [Says, applyAll, ← T.set1 hp hd]
    cases d.set v o <;> rfl
  | next p c hp hl ht =>
    intro o
    obtain ⟨d, hd, hb, hs⟩ := T.byName p hp
    have hb : d.isBool = false := by rw [hb, ht]; rfl
    have hf := T.byLetter p hp c hl
    simp only [letter, parseShort]
    rw [hf, hd]
    dsimp only
    rw [if_neg (by simp), if_neg (by simp [hb]), if_neg (by simp)]
    simp only [Says, applyAll]
    exact ⟨_, rfl, fun v => T.set1 hp hd v o⟩

omit T in
theorem takeWhile_name {n v : Bytes} (h : 61 ∉ n) :
    (n ++ v).takeWhile (· ≠ 61) = n ++ v.takeWhile (· ≠ 61) ∧ (n ++ v).dropWhile (· ≠ 61) = v.dropWhile (· ≠ 61) := by
  induction n with
  | nil => exact ⟨rfl, rfl⟩
  | cons c n ih =>
    have hc : c ≠ 61 := fun e => h (by simp [e])
    have := ih (fun m => h (by simp [m]))
    rw [List.cons_append, List.takeWhile_cons_of_pos (by simpa using hc), List.dropWhile_cons_of_pos (by simpa using hc), this.1, this.2]
    exact ⟨rfl, rfl⟩

theorem optWord_says {w : Bytes} {s : Settings} {next : Option String} (h : OptWord opts w s next) (o : α) :
    Says defs o s next (parseWord defs o w) := by
  have long : ∀ p ∈ opts, ∀ v : Bytes, parseWord defs o (word "--" ++ word p.name ++ v) = parseLong defs o (word p.name ++ v) := by
    intro p hp v
    rfl
  have step : ∀ p ∈ opts, ∀ v : Bytes, ∃ c t, word p.name ++ v = c :: t ∧ ¬ (c = 45 ∨ c = 61) := by
    intro p hp v
    obtain ⟨h1, h2, h3⟩ := T.good p hp
    match e : ascii p.name with
    | [] => exact absurd e h3
    | c :: t =>
      rw [e] at h1 h2
      refine ⟨c, t ++ v, by simp [word, e], ?_⟩
      rintro (rfl | rfl)
      · simp at h2
      · simp at h1
  cases h with
  | equals p v hp =>
    rw [List.append_assoc, long p hp]
    obtain ⟨c, t, e, hc⟩ := step p hp (word "=" ++ v)
    obtain ⟨d, hd, hb, hs⟩ := T.byName p hp
    have tw := takeWhile_name (n := word p.name) (v := word "=" ++ v) (T.good p hp).1
    unfold parseLong
    rw [e]
    dsimp only
    rw [if_neg hc, ← e, tw.1, tw.2]
    have e1 : (word "=" ++ v).takeWhile (· ≠ 61) = [] := rfl
    have e2 : (word "=" ++ v).dropWhile (· ≠ 61) = 61 :: v := rfl
    rw [e1, e2, List.append_nil]
    simp only [word]
    rw [hd]
    simp only [Says, applyAll, ← T.set1 hp hd]
    cases d.set v o <;> rfl
  | flag p hp ht =>
    have := long p hp []
    rw [List.append_nil, List.append_nil] at this
    rw [this]
    obtain ⟨c, t, e, hc⟩ := step p hp []
    rw [List.append_nil] at e
    obtain ⟨d, hd, hb, hs⟩ := T.byName p hp
    have hb : d.isBool = true := by rw [hb, ht]; rfl
    have tw := takeWhile_name (n := word p.name) (v := []) (T.good p hp).1
    rw [List.append_nil] at tw
    unfold parseLong
    rw [e]
    dsimp only
    rw [if_neg hc, ← e, tw.1, tw.2]
    simp only [word, List.takeWhile_nil, List.append_nil, List.dropWhile_nil]
    rw [hd]
    dsimp only
    rw [if_pos hb]
    simp only [Says, applyAll, ← T.set1 hp hd]
    cases d.set (ascii "true") o <;> rfl
  | next p hp ht =>
    have := long p hp []
    rw [List.append_nil, List.append_nil] at this
    rw [this]
    obtain ⟨c, t, e, hc⟩ := step p hp []
    rw [List.append_nil] at e
    obtain ⟨d, hd, hb, hs⟩ := T.byName p hp
    have hb : d.isBool = false := by rw [hb, ht]; rfl
    have tw := takeWhile_name (n := word p.name) (v := []) (T.good p hp).1
    rw [List.append_nil] at tw
    unfold parseLong
    rw [e]
    dsimp only
    rw [if_neg hc, ← e, tw.1, tw.2]
    simp only [word, List.takeWhile_nil, List.append_nil, List.dropWhile_nil]
    rw [hd]
    dsimp only
    rw [if_neg (by simp [hb])]
    simp only [Says, applyAll]
    exact ⟨_, rfl, fun v => T.set1 hp hd v o⟩
  | letters w s next hl =>
    have hw : parseWord defs o (word "-" ++ w) = parseShort defs o w := by
      unfold parseWord
      rw [if_neg]
      · rfl
      · intro e
        have e' : w.head? = some 45 := e
        have key : ∀ {w s next}, Letters opts w s next → w.head? ≠ some 45 := by
          intro w s next h e
          have fin : ∀ p ∈ opts, ∀ c, p.letter = some c → UInt8.ofNat c.toNat ≠ 45 := by
            intro p hp c hc e
            obtain ⟨d, hd, _⟩ := T.byName p hp
            have := T.byLetter p hp c hc
            rw [hd, e] at this
            have hm := List.mem_of_find?_eq_some this
            have hs := List.find?_some this
            exact T.noDash d hm (by simpa using hs)
          cases h with
          | flag p c hp hl _ => exact fin p hp c hl (by simpa [letter] using e)
          | flags p c _ _ _ hp hl _ _ _ => exact fin p hp c hl (by simpa [letter] using e)
          | equals p c _ hp hl _ => exact fin p hp c hl (by simpa [letter] using e)
          | value p c _ hp hl _ _ _ => exact fin p hp c hl (by simpa [letter] using e)
          | next p c hp hl _ => exact fin p hp c hl (by simpa [letter] using e)
        exact key hl e'
    rw [hw]
    exact letters_says T hl o

/-- Every option word begins with `-`, has a second byte and is not `--`. -/
theorem optWord_shape {w : Bytes} {s : Settings} {next : Option String} (h : OptWord opts w s next) :
    ¬ (w.length < 2 ∨ w.head? ≠ some 45) ∧ w ≠ [45, 45] := by
  have ne : ∀ p ∈ opts, ∀ v : Bytes, ¬ ((word "--" ++ (word p.name ++ v)).length < 2 ∨ (word "--" ++ (word p.name ++ v)).head? ≠ some 45) ∧
      word "--" ++ (word p.name ++ v) ≠ [45, 45] := by
    intro p hp v
    have e : word "--" ++ (word p.name ++ v) = 45 :: 45 :: (word p.name ++ v) := rfl
    rw [e]
    refine ⟨by simp, ?_⟩
    intro h
    have : word p.name ++ v = [] := by simpa using h
    exact (T.good p hp).2.2 (List.append_eq_nil_iff.mp this).1
  cases h with
  | equals p v hp => rw [List.append_assoc, List.append_assoc]; exact ne p hp _
  | flag p hp _ => have := ne p hp []; rwa [List.append_nil] at this
  | next p hp _ => have := ne p hp []; rwa [List.append_nil] at this
  | letters w s next hl =>
    have key : w ≠ [] ∧ w ≠ [45] := by
      have fin : ∀ p ∈ opts, ∀ c, p.letter = some c → UInt8.ofNat c.toNat ≠ 45 := by
        intro p hp c hc e
        obtain ⟨d, hd, _⟩ := T.byName p hp
        have := T.byLetter p hp c hc
        rw [hd, e] at this
        exact T.noDash d (List.mem_of_find?_eq_some this) (by simpa using List.find?_some this)
      cases hl with
      | flag p c hp hl _ => exact ⟨by simp [letter], fun e => fin p hp c hl (by simpa [letter] using e)⟩
      | flags p c w _ _ hp hl _ _ hw =>
        refine ⟨by simp [letter], fun e => fin p hp c hl ?_⟩
        simp only [letter, List.singleton_append, List.cons.injEq] at e
        exact e.1
      | equals p c v hp hl _ =>
        refine ⟨by simp [letter], fun e => fin p hp c hl ?_⟩
        have : UInt8.ofNat c.toNat :: (word "=" ++ v) = [45] := e
        simp only [List.cons.injEq] at this
        exact this.1
      | value p c v hp hl _ _ _ =>
        refine ⟨by simp [letter], fun e => fin p hp c hl ?_⟩
        simp only [letter, List.singleton_append, List.cons.injEq] at e
        exact e.1
      | next p c hp hl _ => exact ⟨by simp [letter], fun e => fin p hp c hl (by simpa [letter] using e)⟩
    have e : word "-" ++ w = 45 :: w := rfl
    rw [e]
    constructor
    · intro h
      rcases h with h | h
      · simp only [List.length_cons] at h
        exact key.1 (List.length_eq_zero_iff.mp (by omega))
      · simp at h
    · intro h
      exact key.2 (by simpa using h)

omit T in
theorem plain_iff (w : Bytes) : Plain w ↔ (w.length < 2 ∨ w.head? ≠ some 45) := by
  unfold Plain
  constructor
  · rintro (rfl | rfl | h)
    · simp
    · left; decide
    · exact .inr h
  · rintro (h | h)
    · match w with
      | [] => exact .inl rfl
      | [c] =>
        by_cases e : c = 45
        · subst e; exact .inr (.inl rfl)
        · exact .inr (.inr (by simpa using e))
      | _ :: _ :: _ => simp at h
    · exact .inr (.inr h)

omit T in
theorem parseArgs_word (inter : Bool) (o : α) (acc : List Bytes) (w : Bytes) (rest : List Bytes) (h1 : ¬ Plain w) (h2 : w ≠ [45, 45]) :
    parseArgs defs inter o acc (w :: rest) = match parseWord defs o w with
      | .done o => parseArgs defs inter o acc rest
      | .help => .help
      | .bad => .bad
      | .need f =>
        match rest with
        | [] => .bad
        | v :: rest' =>
          match f v with
          | none => .bad
          | some o => parseArgs defs inter o acc rest' := by
  rw [parseArgs, if_neg (by rw [← plain_iff]; exact h1), if_neg h2]
  rfl

/-- The parser follows the grammar. -/
theorem begins_parse {line : List Bytes} {s : Settings} {args rest : List Bytes} (h : Begins opts line s args rest) :
    ∀ (inter : Bool) (_ : inter = true ∨ args = []) (o : α) (acc : List Bytes), parseArgs defs inter o acc line =
      match applyAll defs s o with
      | none => .bad
      | some o' => parseArgs defs inter o' (acc ++ args) rest := by
  induction h with
  | here rest => intro inter _ o acc; simp [applyAll]
  | arg w line s args rest hp _ ih =>
    intro inter hi o acc
    rcases hi with rfl | hi
    · rw [parseArgs, if_pos ((plain_iff w).mp hp), if_pos rfl, ih true (.inl rfl)]
      simp
    · cases hi
  | opt w s0 line s args rest hw _ ih =>
    intro inter hi o acc
    have hs := optWord_shape T hw
    rw [parseArgs_word inter o acc w line (by rw [plain_iff]; exact hs.1) hs.2]
    have := optWord_says T hw o
    simp only [Says] at this
    rw [this, applyAll_append]
    cases applyAll defs s0 o with
    | none => rfl
    | some o1 => exact ih inter hi o1 acc
  | optNext w s0 n v line s args rest hw _ ih =>
    intro inter hi o acc
    have hs := optWord_shape T hw
    rw [parseArgs_word inter o acc w _ (by rw [plain_iff]; exact hs.1) hs.2]
    have := optWord_says T hw o
    simp only [Says] at this
    rw [applyAll_append]
    cases e : applyAll defs s0 o with
    | none => rw [e] at this; dsimp only at this; rw [this]; rfl
    | some o1 =>
      rw [e] at this
      obtain ⟨f, hf, hv⟩ := this
      rw [hf]
      dsimp only
      rw [hv]
      simp only [Option.bind_some, applyAll]
      cases apply1 defs n v o1 with
      | none => rfl
      | some o2 => exact ih inter hi o2 acc

/-! ### Soundness: what the parser accepts is in the grammar -/

/-- The option behind a letter. -/
theorem Table.ofLetter {b : UInt8} {d : FlagDef α} (h : defs.find? (fun d => d.short == some b) = some d) :
    ∃ o ∈ opts, ∃ c, o.letter = some c ∧ b = UInt8.ofNat c.toNat ∧ d.isBool = !o.takes ∧
      (d.isBool = true → ∀ x, ∃ y, d.set (ascii "true") x = some y) ∧ ∀ v x, d.set v x = apply1 defs o.name v x := by
  have hs : d.short = some b := by simpa using List.find?_some h
  obtain ⟨o, ho, c, hc, rfl⟩ := T.letterOf d (List.mem_of_find?_eq_some h) b hs
  obtain ⟨d', hd, hb, ht⟩ := T.byName o ho
  have := T.byLetter o ho c hc
  rw [h, hd] at this
  cases this
  exact ⟨o, ho, c, hc, rfl, hb, ht, T.set1 ho hd⟩

theorem Table.ofName {n : Bytes} {d : FlagDef α} (h : defs.find? (fun d => d.name == n) = some d) :
    ∃ o ∈ opts, n = ascii o.name ∧ d.isBool = !o.takes ∧ ∀ v x, d.set v x = apply1 defs o.name v x := by
  have hs : d.name = n := by simpa using List.find?_some h
  obtain ⟨o, ho, hn⟩ := T.nameOf d (List.mem_of_find?_eq_some h)
  obtain ⟨d', hd, hb, ht⟩ := T.byName o ho
  rw [← hn, hs, h] at hd
  cases hd
  refine ⟨o, ho, by rw [← hs, hn], hb, T.set1 ho ?_⟩
  rw [← hn, hs, h]

/-- What a step means for the specification. -/
def Sound (defs : List (FlagDef α)) (o : α) (G : Settings → Option String → Prop) (H : Prop) : ArgStep α → Prop
  | .done o' => ∃ s, G s none ∧ applyAll defs s o = some o'
  | .need f => ∃ s n o1, G s (some n) ∧ applyAll defs s o = some o1 ∧ ∀ v, f v = apply1 defs n v o1
  | .help => H
  | .bad => True

/-- Help asked for by a letter. -/
def HelpLetters (opts : List Opt) (w : Bytes) : Prop :=
  ∃ (cs : List Char) (v : Bytes), (∀ c ∈ cs, ∃ o ∈ opts, o.letter = some c ∧ o.takes = false) ∧ w = cs.flatMap letter ++ letter 'h' ++ v

omit T in
theorem applyAll_one (n : String) (v : Bytes) (o : α) : applyAll defs [(n, v)] o = apply1 defs n v o := by
  simp only [applyAll]; cases apply1 defs n v o <;> rfl

omit T in
theorem sound_ofSet {o : α} {G : Settings → Option String → Prop} {H : Prop} {n : String} {v : Bytes} (h : G [(n, v)] none) :
    Sound defs o G H (.ofSet (apply1 defs n v o)) := by
  cases e : apply1 defs n v o with
  | none => trivial
  | some y => exact ⟨_, h, by rw [applyAll_one, e]⟩

theorem short_sound (w : Bytes) (hw : w ≠ []) (o : α) :
    Sound defs o (Letters opts w) (HelpLetters opts w) (parseShort defs o w) := by
  induction w generalizing o with
  | nil => exact absurd rfl hw
  | cons b cs ih =>
    unfold parseShort
    cases hd : defs.find? (fun d => d.short == some b) with
    | none =>
      dsimp only
      split
      · next e => exact ⟨[], cs, by simp, by rw [e]; rfl⟩
      · trivial
    | some d =>
      dsimp only
      obtain ⟨p, hp, c, hc, rfl, hb, ht, hset⟩ := T.ofLetter hd
      split
      · next e =>
        obtain ⟨v, hv, rfl⟩ := (head_eq cs).mp e
        have : (word "=" ++ v).tail = v := rfl
        rw [this, hset]
        exact sound_ofSet (Letters.equals p c v hp hc hv)
      · next e =>
        rw [head_eq] at e
        split
        · next hbool =>
          have htk : p.takes = false := by rw [hbool] at hb; simpa using hb.symm
          obtain ⟨y, hy⟩ := ht hbool o
          rw [hy]
          dsimp only
          rw [hset] at hy
          by_cases hcs : cs = []
          · subst hcs
            exact ⟨_, Letters.flag p c hp hc htk, by rw [applyAll_one]; exact hy⟩
          · have := ih hcs y
            cases e' : parseShort defs y cs with
            | bad => trivial
            | done o' =>
              rw [e'] at this
              obtain ⟨s, h1, h2⟩ := this
              exact ⟨_, Letters.flags p c cs s none hp hc htk e h1, by simp only [applyAll]; rw [hy]; exact h2⟩
            | need f =>
              rw [e'] at this
              obtain ⟨s, n, o1, h1, h2, h3⟩ := this
              exact ⟨_, n, o1, Letters.flags p c cs s _ hp hc htk e h1, by simp only [applyAll]; rw [hy]; exact h2, h3⟩
            | help =>
              rw [e'] at this
              obtain ⟨l, v, h1, h2⟩ := this
              refine ⟨c :: l, v, ?_, by rw [h2]; rfl⟩
              intro x hx
              rcases List.mem_cons.mp hx with rfl | hx
              · exact ⟨p, hp, hc, htk⟩
              · exact h1 x hx
        · next hbool =>
          have htk : p.takes = true := by
            cases h : p.takes with
            | true => rfl
            | false => rw [h] at hb; exact absurd hb hbool
          split
          · next hl =>
            rw [hset]
            exact sound_ofSet (Letters.value p c cs hp hc htk (List.length_pos_iff.mp hl) e)
          · next hl =>
            have : cs = [] := by
              cases cs with
              | nil => rfl
              | cons a b => simp at hl
            subst this
            exact ⟨[], p.name, o, Letters.next p c hp hc htk, rfl, fun v => hset v o⟩

theorem word_sound (w : Bytes) (h1 : ¬ Plain w) (h2 : w ≠ [45, 45]) (o : α) :
    Sound defs o (OptWord opts w) (AsksHelp opts w) (parseWord defs o w) := by
  rw [plain_iff] at h1
  obtain ⟨t, rfl, ht⟩ : ∃ t, w = 45 :: t ∧ t ≠ [] := by
    match w with
    | [] => simp at h1
    | [c] => simp at h1
    | c :: d :: t =>
      have : c = 45 := by
        by_contra e
        exact h1 (.inr (by simpa using e))
      exact ⟨d :: t, by rw [this], by simp⟩
  unfold parseWord
  split
  · next hd =>
    simp only [List.tail_cons] at hd
    obtain ⟨b, rfl⟩ : ∃ b, t = 45 :: b := by
      cases t with
      | nil => simp at hd
      | cons x b => exact ⟨b, by simp at hd; rw [hd]⟩
    have e0 : List.drop 2 (45 :: 45 :: b) = b := rfl
    rw [e0]
    unfold parseLong
    cases b with
    | nil => trivial
    | cons x b =>
      dsimp only
      split
      · trivial
      · have split0 := List.takeWhile_append_dropWhile (p := fun y : UInt8 => decide (y ≠ 61)) (l := x :: b)
        cases hf : defs.find? (fun d => d.name == (x :: b).takeWhile (fun y => decide (y ≠ 61))) with
        | none =>
          dsimp only
          split
          · next e =>
            left
            rw [e] at split0
            cases hd2 : (x :: b).dropWhile (fun y => decide (y ≠ 61)) with
            | nil => rw [hd2] at split0; exact ⟨[], .inl (by rw [← split0]; rfl)⟩
            | cons q v =>
              have hq : q = 61 := by
                have := List.head?_dropWhile_not (fun y : UInt8 => decide (y ≠ 61)) (x :: b)
                rw [hd2] at this
                simpa using this
              rw [hd2, hq] at split0
              exact ⟨v, .inr (by rw [← split0]; rfl)⟩
          · trivial
        | some d =>
          dsimp only
          obtain ⟨p, hp, hn, hb, hset⟩ := T.ofName hf
          rw [hn] at split0
          cases hd2 : (x :: b).dropWhile (fun y => decide (y ≠ 61)) with
          | nil =>
            dsimp only
            rw [hd2, List.append_nil] at split0
            have ew : (45 : UInt8) :: 45 :: x :: b = word "--" ++ word p.name := by rw [← split0]; rfl
            rw [ew]
            split
            · next hbool =>
              have htk : p.takes = false := by rw [hbool] at hb; simpa using hb.symm
              rw [hset]
              exact sound_ofSet (OptWord.flag p hp htk)
            · next hbool =>
              have htk : p.takes = true := by
                cases h : p.takes with
                | true => rfl
                | false => rw [h] at hb; exact absurd hb hbool
              exact ⟨[], p.name, o, OptWord.next p hp htk, rfl, fun v => hset v o⟩
          | cons q v =>
            dsimp only
            have hq : q = 61 := by
              have := List.head?_dropWhile_not (fun y : UInt8 => decide (y ≠ 61)) (x :: b)
              rw [hd2] at this
              simpa using this
            rw [hd2, hq] at split0
            have ew : (45 : UInt8) :: 45 :: x :: b = word "--" ++ word p.name ++ word "=" ++ v := by
              rw [← split0, List.append_assoc, List.append_assoc]; rfl
            rw [ew, hset]
            exact sound_ofSet (OptWord.equals p v hp)
  · have e0 : List.drop 1 (45 :: t) = t := rfl
    rw [e0]
    have := short_sound T t ht o
    cases e' : parseShort defs o t with
    | bad => trivial
    | done o' =>
      rw [e'] at this
      obtain ⟨s, a1, a2⟩ := this
      exact ⟨s, OptWord.letters t s none a1, a2⟩
    | need f =>
      rw [e'] at this
      obtain ⟨s, n, o1, a1, a2, a3⟩ := this
      exact ⟨s, n, o1, OptWord.letters t s _ a1, a2, a3⟩
    | help =>
      rw [e'] at this
      obtain ⟨l, v, a1, a2⟩ := this
      exact .inr ⟨l, v, a1, by rw [a2, List.append_assoc, List.append_assoc, List.append_assoc]; rfl⟩

/-- Whatever the parser reports, it has followed the grammar up to there. -/
theorem parse_sound (inter : Bool) : ∀ (k : Nat) (line : List Bytes), line.length ≤ k → ∀ (o : α) (acc : List Bytes),
    match parseArgs defs inter o acc line with
    | .ok o' args => ∃ s as, applyAll defs s o = some o' ∧ args = acc ++ as ∧
        if inter then Reads opts line s as else ReadsFirst opts line s as
    | .help => ∃ s as w rest o', applyAll defs s o = some o' ∧ Begins opts line s as (w :: rest) ∧ AsksHelp opts w ∧
        (inter = false → as = [])
    | .bad => True := by
  intro k
  induction k with
  | zero =>
    intro line hl o acc
    have : line = [] := by simpa using hl
    subst this
    simp only [parseArgs]
    refine ⟨[], [], rfl, by simp, ?_⟩
    split
    · exact .inl (.here [])
    · exact .inl ⟨.here [], rfl⟩
  | succ k ih =>
    intro line hl o acc
    cases line with
    | nil =>
      simp only [parseArgs]
      refine ⟨[], [], rfl, by simp, ?_⟩
      split
      · exact .inl (.here [])
      · exact .inl ⟨.here [], rfl⟩
    | cons w rest =>
      simp only [List.length_cons] at hl
      by_cases hp : Plain w
      · rw [parseArgs, if_pos ((plain_iff w).mp hp)]
        cases inter with
        | false =>
          simp only [Bool.false_eq_true, if_false]
          exact ⟨[], w :: rest, rfl, rfl, .inr (.inr ⟨w, rest, .here _, hp, rfl⟩)⟩
        | true =>
          simp only [if_true]
          have := ih rest (by omega) o (acc ++ [w])
          cases e : parseArgs defs true o (acc ++ [w]) rest with
          | bad => trivial
          | help =>
            rw [e] at this
            obtain ⟨s, as, w', rest', o', a1, a2, a3, _⟩ := this
            exact ⟨s, w :: as, w', rest', o', a1, .arg w _ _ _ _ hp a2, a3, by simp⟩
          | ok o' args =>
            rw [e] at this
            obtain ⟨s, as, a1, a2, a3⟩ := this
            simp only [if_true] at a3 ⊢
            refine ⟨s, w :: as, a1, by rw [a2]; simp, ?_⟩
            rcases a3 with a3 | ⟨b, a, a3, a4⟩
            · exact .inl (.arg w _ _ _ _ hp a3)
            · exact .inr ⟨w :: b, a, .arg w _ _ _ _ hp a3, by rw [a4]; rfl⟩
      · by_cases hd : w = [45, 45]
        · subst hd
          rw [parseArgs, if_neg (by rw [← plain_iff]; exact hp), if_pos rfl]
          refine ⟨[], rest, rfl, rfl, ?_⟩
          split
          · exact .inr ⟨[], rest, .here _, rfl⟩
          · exact .inr (.inl (.here _))
        · rw [parseArgs_word inter o acc w rest hp hd]
          have hs := word_sound T w hp hd o
          cases e : parseWord defs o w with
          | bad => trivial
          | help =>
            rw [e] at hs
            exact ⟨[], [], w, rest, o, rfl, .here _, hs, fun _ => rfl⟩
          | done o1 =>
            rw [e] at hs
            obtain ⟨s0, g, ha⟩ := hs
            dsimp only
            have := ih rest (by omega) o1 acc
            cases e : parseArgs defs inter o1 acc rest with
            | bad => trivial
            | help =>
              rw [e] at this
              obtain ⟨s, as, w', rest', o', a1, a2, a3, a4⟩ := this
              exact ⟨s0 ++ s, as, w', rest', o', by rw [applyAll_append, ha]; exact a1, .opt w s0 _ _ _ _ g a2, a3, a4⟩
            | ok o' args =>
              rw [e] at this
              obtain ⟨s, as, a1, a2, a3⟩ := this
              refine ⟨s0 ++ s, as, by rw [applyAll_append, ha]; exact a1, a2, ?_⟩
              cases inter with
              | true =>
                simp only [if_true] at a3 ⊢
                rcases a3 with a3 | ⟨b, a, a3, a4⟩
                · exact .inl (.opt w s0 _ _ _ _ g a3)
                · exact .inr ⟨b, a, .opt w s0 _ _ _ _ g a3, a4⟩
              | false =>
                simp only [Bool.false_eq_true, if_false] at a3 ⊢
                rcases a3 with ⟨a3, a4⟩ | a3 | ⟨w', r, a3, a4, a5⟩
                · exact .inl ⟨.opt w s0 _ _ _ _ g a3, a4⟩
                · exact .inr (.inl (.opt w s0 _ _ _ _ g a3))
                · exact .inr (.inr ⟨w', r, .opt w s0 _ _ _ _ g a3, a4, a5⟩)
          | need f =>
            rw [e] at hs
            obtain ⟨s0, n, o1, g, ha, hf⟩ := hs
            cases rest with
            | nil => trivial
            | cons v rest' =>
              simp only [List.length_cons] at hl
              dsimp only
              rw [hf v]
              cases hv : apply1 defs n v o1 with
              | none => trivial
              | some o2 =>
                dsimp only
                have happ : ∀ s, applyAll defs (s0 ++ (n, v) :: s) o = applyAll defs s o2 := by
                  intro s
                  rw [applyAll_append, ha]
                  simp only [Option.bind_some, applyAll]
                  rw [hv]; rfl
                have := ih rest' (by omega) o2 acc
                cases e : parseArgs defs inter o2 acc rest' with
                | bad => trivial
                | help =>
                  rw [e] at this
                  obtain ⟨s, as, w', rest'', o', a1, a2, a3, a4⟩ := this
                  exact ⟨_, as, w', rest'', o', (happ s).trans a1, .optNext w s0 n v _ _ _ _ g a2, a3, a4⟩
                | ok o' args =>
                  rw [e] at this
                  obtain ⟨s, as, a1, a2, a3⟩ := this
                  refine ⟨_, as, (happ s).trans a1, a2, ?_⟩
                  cases inter with
                  | true =>
                    simp only [if_true] at a3 ⊢
                    rcases a3 with a3 | ⟨b, a, a3, a4⟩
                    · exact .inl (.optNext w s0 n v _ _ _ _ g a3)
                    · exact .inr ⟨b, a, .optNext w s0 n v _ _ _ _ g a3, a4⟩
                  | false =>
                    simp only [Bool.false_eq_true, if_false] at a3 ⊢
                    rcases a3 with ⟨a3, a4⟩ | a3 | ⟨w', r, a3, a4, a5⟩
                    · exact .inl ⟨.optNext w s0 n v _ _ _ _ g a3, a4⟩
                    · exact .inr (.inl (.optNext w s0 n v _ _ _ _ g a3))
                    · exact .inr (.inr ⟨w', r, .optNext w s0 n v _ _ _ _ g a3, a4, a5⟩)

/-- Where `help` is no option and `h` no letter, a word that asks for help is reported as such. -/
theorem asksHelp_parse (hn : ∀ d ∈ defs, d.name ≠ ascii "help") (hl : ∀ d ∈ defs, d.short ≠ some 104) {w : Bytes}
    (h : AsksHelp opts w) (o : α) : parseWord defs o w = .help ∧ ¬ Plain w ∧ w ≠ [45, 45] := by
  have hfind : defs.find? (fun d => d.name == ascii "help") = none := by
    rw [List.find?_eq_none]; intro d hd; simpa using hn d hd
  have hfindl : defs.find? (fun d => d.short == some 104) = none := by
    rw [List.find?_eq_none]; intro d hd; simpa using hl d hd
  rcases h with ⟨v, h | h⟩ | ⟨cs, v, hc, rfl⟩
  · subst h
    refine ⟨?_, by rw [plain_iff]; decide, by decide⟩
    have : parseWord defs o (word "--help") = parseLong defs o (word "help") := rfl
    rw [this]
    have e : word "help" = 104 :: [101, 108, 112] := rfl
    unfold parseLong
    rw [e]
    dsimp only
    rw [if_neg (by decide), ← e]
    have : (word "help").takeWhile (fun y => decide (y ≠ 61)) = ascii "help" := rfl
    rw [this, hfind]
    simp
  · subst h
    refine ⟨?_, by rw [plain_iff]; simp [word, ascii], by simp [word, ascii]⟩
    have : parseWord defs o (word "--help=" ++ v) = parseLong defs o (word "help=" ++ v) := rfl
    rw [this]
    have e : word "help=" ++ v = 104 :: ([101, 108, 112, 61] ++ v) := rfl
    unfold parseLong
    rw [e]
    dsimp only
    rw [if_neg (by decide), ← e]
    have : (word "help=" ++ v).takeWhile (fun y => decide (y ≠ 61)) = ascii "help" := rfl
    rw [this, hfind]
    simp
  · have key : ∀ (cs : List Char), (∀ c ∈ cs, ∃ o ∈ opts, o.letter = some c ∧ o.takes = false) → ∀ o : α,
        parseShort defs o (cs.flatMap letter ++ letter 'h' ++ v) = .help := by
      intro cs
      induction cs with
      | nil =>
        intro _ o
        have : ([] : List Char).flatMap letter ++ letter 'h' ++ v = 104 :: v := rfl
        rw [this]
        unfold parseShort
        rw [hfindl]
        simp
      | cons c cs ih =>
        intro hc o
        obtain ⟨p, hp, hpl, hpt⟩ := hc c (by simp)
        have e : (c :: cs).flatMap letter ++ letter 'h' ++ v = UInt8.ofNat c.toNat :: (cs.flatMap letter ++ letter 'h' ++ v) := rfl
        rw [e]
        unfold parseShort
        obtain ⟨d, hd, hb, hs⟩ := T.byName p hp
        have hb : d.isBool = true := by rw [hb, hpt]; rfl
        rw [T.byLetter p hp c hpl, hd]
        dsimp only
        rw [if_neg, if_pos hb]
        · obtain ⟨y, hy⟩ := hs hb o
          rw [hy]
          exact ih (fun c' hc' => hc c' (by simp [hc'])) y
        · rintro ⟨_, h⟩
          cases cs with
          | nil => exact absurd h (by simp [letter])
          | cons c' cs' =>
            obtain ⟨p', hp', hpl', _⟩ := hc c' (by simp)
            have hh : UInt8.ofNat c'.toNat = 61 := by simpa [letter] using h
            obtain ⟨d', hd', _⟩ := T.byName p' hp'
            have := T.byLetter p' hp' c' hpl'
            rw [hd', hh] at this
            exact T.noEq d' (List.mem_of_find?_eq_some this) (by simpa using List.find?_some this)
    have e : word "-" ++ cs.flatMap letter ++ letter 'h' ++ v = 45 :: (cs.flatMap letter ++ letter 'h' ++ v) := by
      rw [List.append_assoc, List.append_assoc, List.append_assoc]; rfl
    have hne : (cs.flatMap letter ++ letter 'h' ++ v).head? ≠ some 45 := by
      cases cs with
      | nil => simp [letter]
      | cons c cs =>
        obtain ⟨p', hp', hpl', _⟩ := hc c (by simp)
        intro h
        have hh : UInt8.ofNat c.toNat = 45 := by simpa [letter] using h
        obtain ⟨d', hd', _⟩ := T.byName p' hp'
        have := T.byLetter p' hp' c hpl'
        rw [hd', hh] at this
        exact T.noDash d' (List.mem_of_find?_eq_some this) (by simpa using List.find?_some this)
    rw [e]
    refine ⟨?_, ?_, ?_⟩
    · unfold parseWord
      rw [if_neg (by exact hne)]
      exact key cs hc o
    · rw [plain_iff]; simp [letter]
    · intro h
      apply hne
      have : cs.flatMap letter ++ letter 'h' ++ v = [45] := by simpa using h
      rw [this]; rfl

/-- The parser and the grammar, complete. -/
theorem parse_ok_iff (line : List Bytes) (o o' : α) (args : List Bytes) :
    parseArgs defs true o [] line = .ok o' args ↔ ∃ s, Reads opts line s args ∧ applyAll defs s o = some o' := by
  constructor
  · intro h
    have := parse_sound T true line.length line (le_refl _) o []
    rw [h] at this
    obtain ⟨s, as, h1, h2, h3⟩ := this
    simp only [List.nil_append] at h2
    subst h2
    exact ⟨s, by simpa using h3, h1⟩
  · rintro ⟨s, h | ⟨b, a, h, rfl⟩, h2⟩
    · rw [begins_parse T h true (.inl rfl), h2]; simp [parseArgs]
    · rw [begins_parse T h true (.inl rfl), h2]
      simp [parseArgs, word, ascii]

theorem parse_first_iff (line : List Bytes) (o o' : α) (args : List Bytes) :
    parseArgs defs false o [] line = .ok o' args ↔ ∃ s, ReadsFirst opts line s args ∧ applyAll defs s o = some o' := by
  constructor
  · intro h
    have := parse_sound T false line.length line (le_refl _) o []
    rw [h] at this
    obtain ⟨s, as, h1, h2, h3⟩ := this
    simp only [List.nil_append] at h2
    subst h2
    exact ⟨s, by simpa using h3, h1⟩
  · rintro ⟨s, ⟨h, rfl⟩ | h | ⟨w, r, h, hw, rfl⟩, h2⟩
    · rw [begins_parse T h false (.inr rfl), h2]; simp [parseArgs]
    · rw [begins_parse T h false (.inr rfl), h2]
      simp [parseArgs, word, ascii]
    · rw [begins_parse T h false (.inr rfl), h2]
      dsimp only
      rw [parseArgs, if_pos ((plain_iff w).mp hw)]
      simp

theorem parse_help_iff (hn : ∀ d ∈ defs, d.name ≠ ascii "help") (hl : ∀ d ∈ defs, d.short ≠ some 104) (line : List Bytes) (o : α) :
    parseArgs defs true o [] line = .help ↔
      ∃ s args w rest o', Begins opts line s args (w :: rest) ∧ AsksHelp opts w ∧ applyAll defs s o = some o' := by
  constructor
  · intro h
    have := parse_sound T true line.length line (le_refl _) o []
    rw [h] at this
    obtain ⟨s, as, w, rest, o', h1, h2, h3, _⟩ := this
    exact ⟨s, as, w, rest, o', h2, h3, h1⟩
  · rintro ⟨s, as, w, rest, o', h2, h3, h1⟩
    obtain ⟨a1, a2, a3⟩ := asksHelp_parse T hn hl h3 o'
    rw [begins_parse T h2 true (.inl rfl), h1]
    dsimp only
    rw [parseArgs_word true o' _ w rest a2 a3, a1]

omit T in
/-- Where `help` is an option with the letter `h`, the parser never asks for help itself. -/
theorem parse_no_help (inter : Bool) (hn : ∃ d ∈ defs, d.name = ascii "help" ∧ d.short = some 104) : ∀ (k : Nat) (line : List Bytes),
    line.length ≤ k → ∀ (o : α) (acc : List Bytes), parseArgs defs inter o acc line ≠ .help := by
  have hA : ∀ (w : Bytes) (o : α), parseShort defs o w ≠ .help := by
    intro w
    induction w with
    | nil => intro o; simp [parseShort]
    | cons c cs ih =>
      intro o
      unfold parseShort
      cases hd : defs.find? (fun d => d.short == some c) with
      | none =>
        dsimp only
        split
        · next e =>
          obtain ⟨d, hd1, _, hd2⟩ := hn
          rw [List.find?_eq_none] at hd
          have := hd d hd1
          rw [hd2, e] at this
          simp at this
        · simp
      | some d =>
        dsimp only
        split
        · cases d.set cs.tail o <;> simp [ArgStep.ofSet]
        · split
          · cases d.set (ascii "true") o with
            | none => simp
            | some y => exact ih y
          · split
            · cases d.set cs o <;> simp [ArgStep.ofSet]
            · simp
  have hB : ∀ (w : Bytes) (o : α), parseLong defs o w ≠ .help := by
    intro w o
    unfold parseLong
    cases w with
    | nil => simp
    | cons c cs =>
      dsimp only
      split
      · simp
      · cases hd : defs.find? (fun d => d.name == (c :: cs).takeWhile (fun y => decide (y ≠ 61))) with
        | none =>
          dsimp only
          split
          · next e =>
            obtain ⟨d, hd1, hd2, _⟩ := hn
            rw [List.find?_eq_none] at hd
            have := hd d hd1
            rw [hd2, e] at this
            simp at this
          · simp
        | some d =>
          dsimp only
          cases (c :: cs).dropWhile (fun y => decide (y ≠ 61)) with
          | nil =>
            dsimp only
            split
            · cases d.set (ascii "true") o <;> simp [ArgStep.ofSet]
            · simp
          | cons q v => dsimp only; cases d.set v o <;> simp [ArgStep.ofSet]
  have hW : ∀ (w : Bytes) (o : α), parseWord defs o w ≠ .help := by
    intro w o
    unfold parseWord
    split
    · exact hB _ o
    · exact hA _ o
  intro k
  induction k with
  | zero =>
    intro line hl o acc
    have : line = [] := by simpa using hl
    subst this
    simp [parseArgs]
  | succ k ih =>
    intro line hl o acc
    cases line with
    | nil => simp [parseArgs]
    | cons w rest =>
      simp only [List.length_cons] at hl
      by_cases hp : Plain w
      · rw [parseArgs, if_pos ((plain_iff w).mp hp)]
        split
        · exact ih rest (by omega) _ _
        · simp
      · by_cases hd : w = [45, 45]
        · subst hd
          rw [parseArgs, if_neg (by rw [← plain_iff]; exact hp), if_pos rfl]
          simp
        · rw [parseArgs_word inter o acc w rest hp hd]
          have := hW w o
          cases e : parseWord defs o w with
          | bad => simp
          | help => exact absurd e this
          | done o1 => exact ih rest (by omega) _ _
          | need f =>
            cases rest with
            | nil => simp
            | cons v rest' =>
              simp only [List.length_cons] at hl
              dsimp only
              cases f v with
              | none => simp
              | some o2 => exact ih rest' (by omega) _ _

end
end Sigtool
