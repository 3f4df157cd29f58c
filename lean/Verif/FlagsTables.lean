import Verif.FlagsLemmas
/-!
# FlagsTables: the tables of the commands against the usage texts, and what options end up as
-/

namespace Sigtool
open Spec

variable {α : Type}

/-- `set` of the declarations: strings take anything, booleans take words for true and false. -/
structure Sets (defs : List (FlagDef α)) : Prop where
  str : ∀ d ∈ defs, d.isBool = false → ∀ v x, ∃ y, d.set v x = some y
  bool : ∀ d ∈ defs, d.isBool = true → ∀ v x, (∃ y, d.set v x = some y) ↔ (v ∈ trues ∨ v ∈ falses)

theorem parseBool_true (v : Bytes) : v ∈ trues ↔ parseBool v = some true := by
  unfold parseBool
  have : v ∈ trues ↔ (v = ascii "1" ∨ v = ascii "t" ∨ v = ascii "T" ∨ v = ascii "TRUE" ∨ v = ascii "true" ∨ v = ascii "True") := by
    simp [trues, word]
  rw [this]
  split
  · simp [*]
  · split <;> simp [*]

theorem parseBool_false (v : Bytes) (h : v ∉ trues) : v ∈ falses ↔ parseBool v = some false := by
  have h' : ¬ (v = ascii "1" ∨ v = ascii "t" ∨ v = ascii "T" ∨ v = ascii "TRUE" ∨ v = ascii "true" ∨ v = ascii "True") := by
    simpa [trues, word] using h
  have : v ∈ falses ↔ (v = ascii "0" ∨ v = ascii "f" ∨ v = ascii "F" ∨ v = ascii "FALSE" ∨ v = ascii "false" ∨ v = ascii "False") := by
    simp [falses, word]
  unfold parseBool
  rw [this, if_neg h']
  split <;> simp [*]

theorem parseBool_isSome (v : Bytes) : (∃ b, parseBool v = some b) ↔ (v ∈ trues ∨ v ∈ falses) := by
  by_cases h : v ∈ trues
  · simp only [h, true_or, iff_true]; exact ⟨true, (parseBool_true v).mp h⟩
  · rw [parseBool_false v h]
    constructor
    · rintro ⟨b, hb⟩
      cases b with
      | true => exact .inl ((parseBool_true v).mpr hb)
      | false => exact .inr hb
    · rintro (h' | h')
      · exact absurd h' h
      · exact ⟨false, h'⟩

theorem parseBool_some {v : Bytes} {b : Bool} (h : parseBool v = some b) : b = decide (v ∈ trues) := by
  cases b with
  | true => simp [parseBool_true, h]
  | false => symm; rw [decide_eq_false_iff_not, parseBool_true, h]; simp

theorem boolSet (n : String) (c : Option Char) (upd : α → Bool → α) (v : Bytes) (x : α) :
    (∃ y, (boolVarP n c upd).set v x = some y) ↔ (v ∈ trues ∨ v ∈ falses) := by
  rw [← parseBool_isSome]
  simp only [boolVarP]
  cases parseBool v <;> simp

/-! ### The value of an option -/

theorem text_nil (n : String) (d : Bytes) : text n d [] = d := rfl

theorem text_cons (n : String) (d : Bytes) (x : String × Bytes) (s : Settings) :
    text n d (x :: s) = text n (if x.1 = n then x.2 else d) s := by
  unfold text
  rw [List.filter_cons]
  by_cases h : x.1 = n
  · simp only [h, decide_true, if_true]
    cases e : s.filter (fun x => x.1 = n) with
    | nil => simp
    | cons y t => rw [List.getLast?_cons_cons, List.getLast?_eq_some_getLast (l := y :: t) (by simp)]; rfl
  · simp [h]

/-- The names a grammar can produce. -/
def Named (opts : List Opt) (s : Settings) : Prop := ∀ x ∈ s, ∃ o ∈ opts, o.name = x.1

theorem letters_named {opts : List Opt} {w : Bytes} {s : Settings} {next : Option String} (h : Letters opts w s next) :
    Named opts s ∧ ∀ n, next = some n → ∃ o ∈ opts, o.name = n := by
  induction h with
  | flag p c hp _ _ => exact ⟨by intro x hx; simp at hx; exact ⟨p, hp, by rw [hx]⟩, by simp⟩
  | flags p c w s next hp _ _ _ _ ih =>
    refine ⟨?_, ih.2⟩
    intro x hx
    rcases List.mem_cons.mp hx with rfl | hx
    · exact ⟨p, hp, rfl⟩
    · exact ih.1 x hx
  | equals p c v hp _ _ => exact ⟨by intro x hx; simp at hx; exact ⟨p, hp, by rw [hx]⟩, by simp⟩
  | value p c v hp _ _ _ _ => exact ⟨by intro x hx; simp at hx; exact ⟨p, hp, by rw [hx]⟩, by simp⟩
  | next p c hp _ _ => exact ⟨by simp [Named], by rintro n h; cases h; exact ⟨p, hp, rfl⟩⟩

theorem optWord_named {opts : List Opt} {w : Bytes} {s : Settings} {next : Option String} (h : OptWord opts w s next) :
    Named opts s ∧ ∀ n, next = some n → ∃ o ∈ opts, o.name = n := by
  cases h with
  | equals p v hp => exact ⟨by intro x hx; simp at hx; exact ⟨p, hp, by rw [hx]⟩, by simp⟩
  | flag p hp _ => exact ⟨by intro x hx; simp at hx; exact ⟨p, hp, by rw [hx]⟩, by simp⟩
  | next p hp _ => exact ⟨by simp [Named], by rintro n h; cases h; exact ⟨p, hp, rfl⟩⟩
  | letters w s next hl => exact letters_named hl

theorem begins_named {opts : List Opt} {line : List Bytes} {s : Settings} {args rest : List Bytes}
    (h : Begins opts line s args rest) : Named opts s := by
  induction h with
  | here => simp [Named]
  | arg _ _ _ _ _ _ _ ih => exact ih
  | opt w s0 line s args rest hw _ ih =>
    intro x hx
    rcases List.mem_append.mp hx with hx | hx
    · exact (optWord_named hw).1 x hx
    · exact ih x hx
  | optNext w s0 n v line s args rest hw _ ih =>
    intro x hx
    rcases List.mem_append.mp hx with hx | hx
    · exact (optWord_named hw).1 x hx
    · rcases List.mem_cons.mp hx with rfl | hx
      · exact (optWord_named hw).2 _ rfl
      · exact ih x hx

theorem reads_named {opts : List Opt} {line : List Bytes} {s : Settings} {args : List Bytes} (h : Reads opts line s args) :
    Named opts s := by
  rcases h with h | ⟨_, _, h, _⟩ <;> exact begins_named h

theorem readsFirst_named {opts : List Opt} {line : List Bytes} {s : Settings} {args : List Bytes}
    (h : ReadsFirst opts line s args) : Named opts s := by
  rcases h with ⟨h, _⟩ | h | ⟨_, _, h, _⟩ <;> exact begins_named h

/-- Different options have different names, and the names stay different as bytes. -/
def NamesInj (opts : List Opt) : Prop :=
  ∀ o ∈ opts, ∀ p ∈ opts, ascii o.name = ascii p.name → o.name = p.name ∧ o.takes = p.takes

section
variable {defs : List (FlagDef α)} {opts : List Opt} (T : Table defs opts) (S : Sets defs) (I : NamesInj opts)
include T S I

omit I in
theorem apply1_typed {n : String} {v : Bytes} {p : Opt} (hp : p ∈ opts) (hn : p.name = n) (x : α) :
    (∃ y, apply1 defs n v x = some y) ↔ (p.takes = false → v ∈ trues ∨ v ∈ falses) := by
  subst hn
  obtain ⟨d, hd, hb, _⟩ := T.byName p hp
  have hm := List.mem_of_find?_eq_some hd
  rw [← T.set1 hp hd]
  cases ht : p.takes with
  | true =>
    rw [ht] at hb
    have := S.str d hm hb v x
    simpa using this
  | false =>
    rw [ht] at hb
    rw [S.bool d hm hb v x]
    simp

theorem applyAll_typed {s : Settings} (hs : Named opts s) : ∀ x : α, (∃ y, applyAll defs s x = some y) ↔ Typed opts s := by
  induction s with
  | nil => intro x; simp [applyAll, Typed]
  | cons a s ih =>
    intro x
    obtain ⟨p, hp, hn⟩ := hs a (by simp)
    have hs' : Named opts s := fun y hy => hs y (by simp [hy])
    have h1 := apply1_typed T S (v := a.2) hp hn x
    have htyped : Typed opts (a :: s) ↔ ((p.takes = false → a.2 ∈ trues ∨ a.2 ∈ falses) ∧ Typed opts s) := by
      constructor
      · intro h
        exact ⟨h a (by simp) p hp hn, fun y hy => h y (by simp [hy])⟩
      · rintro ⟨h1, h2⟩ y hy q hq hqn hqt
        rcases List.mem_cons.mp hy with rfl | hy
        · exact h1 (by rw [(I p hp q hq (by rw [hn, hqn])).2, hqt])
        · exact h2 y hy q hq hqn hqt
    rw [htyped, ← h1]
    simp only [applyAll]
    cases e : apply1 defs a.1 a.2 x with
    | none => simp
    | some y => simpa using ih hs' y

omit S in
/-- A field that exactly one option sets, to its value. -/
theorem text_field {p : Opt} (hp : p ∈ opts) (π : α → Bytes)
    (hπ : ∀ d ∈ defs, ∀ v x y, d.set v x = some y → π y = if d.name = ascii p.name then v else π x) {s : Settings}
    (hs : Named opts s) : ∀ {x y : α}, applyAll defs s x = some y → π y = text p.name (π x) s := by
  induction s with
  | nil => intro x y h; cases h; rfl
  | cons a s ih =>
    intro x y h
    obtain ⟨q, hq, hn⟩ := hs a (by simp)
    have hs' : Named opts s := fun y hy => hs y (by simp [hy])
    simp only [applyAll] at h
    cases e : apply1 defs a.1 a.2 x with
    | none => rw [e] at h; simp at h
    | some x1 =>
      rw [e] at h
      rw [ih hs' h, text_cons]
      congr 1
      obtain ⟨d, hd, _⟩ := T.byName q hq
      rw [← hn, ← T.set1 hq hd] at e
      have hname : d.name = ascii q.name := by simpa using List.find?_some hd
      rw [hπ d (List.mem_of_find?_eq_some hd) _ _ _ e, hname, ← hn]
      by_cases h' : q.name = p.name
      · rw [if_pos h', if_pos (by rw [h'])]
      · rw [if_neg h', if_neg fun c => h' (I q hq p hp c).1]

omit S in
theorem bool_field {p : Opt} (hp : p ∈ opts) (π : α → Bool)
    (hπ : ∀ d ∈ defs, ∀ v x y, d.set v x = some y → π y = if d.name = ascii p.name then decide (v ∈ trues) else π x) {s : Settings}
    (hs : Named opts s) : ∀ {x y : α}, π x = false → applyAll defs s x = some y → π y = decide (on p.name s) := by
  have gen : ∀ {s}, Named opts s → ∀ (x y : α) (b : Bytes), π x = decide (b ∈ trues) → applyAll defs s x = some y →
      π y = decide (text p.name b s ∈ trues) := by
    intro s
    induction s with
    | nil => intro _ x y b hb h; cases h; exact hb
    | cons a s ih =>
      intro hs x y b hb h
      obtain ⟨q, hq, hn⟩ := hs a (by simp)
      have hs' : Named opts s := fun y hy => hs y (by simp [hy])
      simp only [applyAll] at h
      cases e : apply1 defs a.1 a.2 x with
      | none => rw [e] at h; simp at h
      | some x1 =>
        rw [e] at h
        rw [text_cons]
        refine ih hs' x1 y _ ?_ h
        obtain ⟨d, hd, _⟩ := T.byName q hq
        rw [← hn, ← T.set1 hq hd] at e
        have hname : d.name = ascii q.name := by simpa using List.find?_some hd
        rw [hπ d (List.mem_of_find?_eq_some hd) _ _ _ e, hname, ← hn]
        by_cases h' : q.name = p.name
        · rw [if_pos h', if_pos (by rw [h'])]
        · rw [if_neg h', if_neg fun c => h' (I q hq p hp c).1, hb]
  intro x y hx h
  exact gen hs x y (word "false") (by rw [hx]; decide) h

end

/-! ### The tables -/

theorem topTable : Table topDefs topOptions where
  byName := by
    simp only [topOptions, List.mem_cons, List.not_mem_nil, or_false, forall_eq_or_imp, forall_eq]
    exact ⟨⟨_, rfl, rfl, fun h x => ⟨_, rfl⟩⟩, ⟨_, rfl, rfl, fun h x => ⟨_, rfl⟩⟩, ⟨_, rfl, rfl, fun h x => ⟨_, rfl⟩⟩⟩
  nameOf := by
    simp only [topDefs, List.mem_cons, List.not_mem_nil, or_false, forall_eq_or_imp, forall_eq]
    exact ⟨⟨(⟨"version", some 'v', false⟩ : Opt), by simp [topOptions], rfl⟩, ⟨(⟨"help", some 'h', false⟩ : Opt), by simp [topOptions], rfl⟩, ⟨(⟨"debug", none, false⟩ : Opt), by simp [topOptions], rfl⟩⟩
  byLetter := by
    simp only [topOptions, List.mem_cons, List.not_mem_nil, or_false, forall_eq_or_imp, forall_eq]
    simp only [Option.some.injEq, forall_eq', reduceCtorEq, false_imp_iff, implies_true, and_true, true_and]
    exact ⟨rfl, rfl⟩
  letterOf := by simp [topDefs, topOptions, boolVarP, stringVarP]
  good := by decide
  noDash := by decide
  noEq := by decide

theorem topSets : Sets topDefs where
  str := by simp [topDefs, boolVarP, stringVarP]
  bool := by
    simp only [topDefs, List.mem_cons, List.not_mem_nil, or_false, forall_eq_or_imp, forall_eq]
    refine ⟨fun _ => boolSet _ _ _, fun _ => boolSet _ _ _, fun _ => boolSet _ _ _⟩

theorem topInj : NamesInj topOptions := by unfold NamesInj; decide

theorem genTable : Table genDefs genOptions where
  byName := by
    simp only [genOptions, List.mem_cons, List.not_mem_nil, or_false, forall_eq_or_imp, forall_eq]
    exact ⟨⟨_, rfl, rfl, fun h x => nomatch h⟩, ⟨_, rfl, rfl, fun h x => nomatch h⟩, ⟨_, rfl, rfl, fun h x => ⟨_, rfl⟩⟩, ⟨_, rfl, rfl, fun h x => ⟨_, rfl⟩⟩, ⟨_, rfl, rfl, fun h x => ⟨_, rfl⟩⟩⟩
  nameOf := by
    simp only [genDefs, List.mem_cons, List.not_mem_nil, or_false, forall_eq_or_imp, forall_eq]
    exact ⟨⟨(⟨"help", some 'h', false⟩ : Opt), by simp [genOptions], rfl⟩, ⟨(⟨"no-password", none, false⟩ : Opt), by simp [genOptions], rfl⟩, ⟨(⟨"comment", some 'c', true⟩ : Opt), by simp [genOptions], rfl⟩, ⟨(⟨"env-password", some 'E', true⟩ : Opt), by simp [genOptions], rfl⟩, ⟨(⟨"overwrite", none, false⟩ : Opt), by simp [genOptions], rfl⟩⟩
  byLetter := by
    simp only [genOptions, List.mem_cons, List.not_mem_nil, or_false, forall_eq_or_imp, forall_eq]
    simp only [Option.some.injEq, forall_eq', reduceCtorEq, false_imp_iff, implies_true, and_true, true_and]
    exact ⟨rfl, rfl, rfl⟩
  letterOf := by simp [genDefs, genOptions, boolVarP, stringVarP]
  good := by decide
  noDash := by decide
  noEq := by decide

theorem genSets : Sets genDefs where
  str := by simp [genDefs, boolVarP, stringVarP]
  bool := by
    simp only [genDefs, List.mem_cons, List.not_mem_nil, or_false, forall_eq_or_imp, forall_eq]
    refine ⟨fun _ => boolSet _ _ _, fun _ => boolSet _ _ _, (fun h => nomatch h), (fun h => nomatch h), fun _ => boolSet _ _ _⟩

theorem genInj : NamesInj genOptions := by unfold NamesInj; decide

theorem signTable : Table signDefs signOptions where
  byName := by
    simp only [signOptions, List.mem_cons, List.not_mem_nil, or_false, forall_eq_or_imp, forall_eq]
    exact ⟨⟨_, rfl, rfl, fun h x => nomatch h⟩, ⟨_, rfl, rfl, fun h x => ⟨_, rfl⟩⟩, ⟨_, rfl, rfl, fun h x => ⟨_, rfl⟩⟩, ⟨_, rfl, rfl, fun h x => nomatch h⟩, ⟨_, rfl, rfl, fun h x => ⟨_, rfl⟩⟩⟩
  nameOf := by
    simp only [signDefs, List.mem_cons, List.not_mem_nil, or_false, forall_eq_or_imp, forall_eq]
    exact ⟨⟨(⟨"help", some 'h', false⟩ : Opt), by simp [signOptions], rfl⟩, ⟨(⟨"no-password", none, false⟩ : Opt), by simp [signOptions], rfl⟩, ⟨(⟨"env-password", some 'E', true⟩ : Opt), by simp [signOptions], rfl⟩, ⟨(⟨"output", some 'o', true⟩ : Opt), by simp [signOptions], rfl⟩, ⟨(⟨"overwrite", none, false⟩ : Opt), by simp [signOptions], rfl⟩⟩
  byLetter := by
    simp only [signOptions, List.mem_cons, List.not_mem_nil, or_false, forall_eq_or_imp, forall_eq]
    simp only [Option.some.injEq, forall_eq', reduceCtorEq, false_imp_iff, implies_true, and_true, true_and]
    exact ⟨rfl, rfl, rfl⟩
  letterOf := by simp [signDefs, signOptions, boolVarP, stringVarP]
  good := by decide
  noDash := by decide
  noEq := by decide

theorem signSets : Sets signDefs where
  str := by simp [signDefs, boolVarP, stringVarP]
  bool := by
    simp only [signDefs, List.mem_cons, List.not_mem_nil, or_false, forall_eq_or_imp, forall_eq]
    refine ⟨fun _ => boolSet _ _ _, fun _ => boolSet _ _ _, (fun h => nomatch h), (fun h => nomatch h), fun _ => boolSet _ _ _⟩

theorem signInj : NamesInj signOptions := by unfold NamesInj; decide

theorem verifyTable : Table verifyDefs verifyOptions where
  byName := by
    simp only [verifyOptions, List.mem_cons, List.not_mem_nil, or_false, forall_eq_or_imp, forall_eq]
    exact ⟨⟨_, rfl, rfl, fun h x => ⟨_, rfl⟩⟩, ⟨_, rfl, rfl, fun h x => ⟨_, rfl⟩⟩⟩
  nameOf := by
    simp only [verifyDefs, List.mem_cons, List.not_mem_nil, or_false, forall_eq_or_imp, forall_eq]
    exact ⟨⟨(⟨"help", some 'h', false⟩ : Opt), by simp [verifyOptions], rfl⟩, ⟨(⟨"quiet", some 'q', false⟩ : Opt), by simp [verifyOptions], rfl⟩⟩
  byLetter := by
    simp only [verifyOptions, List.mem_cons, List.not_mem_nil, or_false, forall_eq_or_imp, forall_eq]
    simp only [Option.some.injEq, forall_eq', reduceCtorEq, false_imp_iff, implies_true, and_true, true_and]
    exact ⟨rfl, rfl⟩
  letterOf := by simp [verifyDefs, verifyOptions, boolVarP, stringVarP]
  good := by decide
  noDash := by decide
  noEq := by decide

theorem verifySets : Sets verifyDefs where
  str := by simp [verifyDefs, boolVarP, stringVarP]
  bool := by
    simp only [verifyDefs, List.mem_cons, List.not_mem_nil, or_false, forall_eq_or_imp, forall_eq]
    refine ⟨fun _ => boolSet _ _ _, fun _ => boolSet _ _ _⟩

theorem verifyInj : NamesInj verifyOptions := by unfold NamesInj; decide

theorem encTable : Table encDefs encOptions where
  byName := by
    simp only [encOptions, List.mem_cons, List.not_mem_nil, or_false, forall_eq_or_imp, forall_eq]
    exact ⟨⟨_, rfl, rfl, fun h x => nomatch h⟩, ⟨_, rfl, rfl, fun h x => nomatch h⟩, ⟨_, rfl, rfl, fun h x => ⟨_, rfl⟩⟩, ⟨_, rfl, rfl, fun h x => nomatch h⟩, ⟨_, rfl, rfl, fun h x => ⟨_, rfl⟩⟩, ⟨_, rfl, rfl, fun h x => nomatch h⟩⟩
  nameOf := by
    simp only [encDefs, List.mem_cons, List.not_mem_nil, or_false, forall_eq_or_imp, forall_eq]
    exact ⟨⟨(⟨"outfile", some 'o', true⟩ : Opt), by simp [encOptions], rfl⟩, ⟨(⟨"sign", some 's', true⟩ : Opt), by simp [encOptions], rfl⟩, ⟨(⟨"no-password", none, false⟩ : Opt), by simp [encOptions], rfl⟩, ⟨(⟨"env-password", some 'E', true⟩ : Opt), by simp [encOptions], rfl⟩, ⟨(⟨"block-size", some 'B', true⟩ : Opt), by simp [encOptions], rfl⟩, ⟨(⟨"overwrite", none, false⟩ : Opt), by simp [encOptions], rfl⟩⟩
  byLetter := by
    simp only [encOptions, List.mem_cons, List.not_mem_nil, or_false, forall_eq_or_imp, forall_eq]
    simp only [Option.some.injEq, forall_eq', reduceCtorEq, false_imp_iff, implies_true, and_true, true_and]
    exact ⟨rfl, rfl, rfl, rfl⟩
  letterOf := by simp [encDefs, encOptions, boolVarP, stringVarP]
  good := by decide
  noDash := by decide
  noEq := by decide

theorem encSets : Sets encDefs where
  str := by simp [encDefs, boolVarP, stringVarP]
  bool := by
    simp only [encDefs, List.mem_cons, List.not_mem_nil, or_false, forall_eq_or_imp, forall_eq]
    refine ⟨(fun h => nomatch h), (fun h => nomatch h), fun _ => boolSet _ _ _, (fun h => nomatch h), (fun h => nomatch h), fun _ => boolSet _ _ _⟩

theorem encInj : NamesInj encOptions := by unfold NamesInj; decide

theorem decTable : Table decDefs decOptions where
  byName := by
    simp only [decOptions, List.mem_cons, List.not_mem_nil, or_false, forall_eq_or_imp, forall_eq]
    exact ⟨⟨_, rfl, rfl, fun h x => nomatch h⟩, ⟨_, rfl, rfl, fun h x => ⟨_, rfl⟩⟩, ⟨_, rfl, rfl, fun h x => nomatch h⟩, ⟨_, rfl, rfl, fun h x => ⟨_, rfl⟩⟩, ⟨_, rfl, rfl, fun h x => ⟨_, rfl⟩⟩, ⟨_, rfl, rfl, fun h x => nomatch h⟩⟩
  nameOf := by
    simp only [decDefs, List.mem_cons, List.not_mem_nil, or_false, forall_eq_or_imp, forall_eq]
    exact ⟨⟨(⟨"outfile", some 'o', true⟩ : Opt), by simp [decOptions], rfl⟩, ⟨(⟨"no-password", none, false⟩ : Opt), by simp [decOptions], rfl⟩, ⟨(⟨"env-password", some 'E', true⟩ : Opt), by simp [decOptions], rfl⟩, ⟨(⟨"verify-sender", some 'v', true⟩ : Opt), by simp [decOptions], rfl⟩, ⟨(⟨"test", some 't', false⟩ : Opt), by simp [decOptions], rfl⟩, ⟨(⟨"overwrite", none, false⟩ : Opt), by simp [decOptions], rfl⟩⟩
  byLetter := by
    simp only [decOptions, List.mem_cons, List.not_mem_nil, or_false, forall_eq_or_imp, forall_eq]
    simp only [Option.some.injEq, forall_eq', reduceCtorEq, false_imp_iff, implies_true, and_true, true_and]
    exact ⟨rfl, rfl, rfl, rfl⟩
  letterOf := by simp [decDefs, decOptions, boolVarP, stringVarP]
  good := by decide
  noDash := by decide
  noEq := by decide

theorem decSets : Sets decDefs where
  str := by simp [decDefs, boolVarP, stringVarP]
  bool := by
    simp only [decDefs, List.mem_cons, List.not_mem_nil, or_false, forall_eq_or_imp, forall_eq]
    refine ⟨(fun h => nomatch h), fun _ => boolSet _ _ _, (fun h => nomatch h), (fun h => nomatch h), fun _ => boolSet _ _ _, fun _ => boolSet _ _ _⟩

theorem decInj : NamesInj decOptions := by unfold NamesInj; decide

end Sigtool
