import Verif.Cli
import Verif.Spec.Command
import Mathlib.Data.List.Perm.Basic
/-! # Selecting the command: C53 -/

namespace Sigtool

/-- All pairs that `Abbrev` looks at, in its order. -/
def abbrevPairs (words : List Bytes) : List (Bytes × Bytes) := words.flatMap fun w => (properPrefixes w).map fun ab => (w, ab)

theorem abbrev_fold_pairs (words : List Bytes) : ∀ st : List (Bytes × Bytes) × List Bytes,
    words.foldl (fun st w => (properPrefixes w).foldl (fun st ab => abbrevStep st w ab) st) st =
      (abbrevPairs words).foldl (fun st p => abbrevStep st p.1 p.2) st := by
  induction words with
  | nil => intro st; rfl
  | cons w ws ih =>
    intro st
    simp only [abbrevPairs, List.foldl_cons, List.flatMap_cons, List.foldl_append, List.foldl_map] at ih ⊢
    exact ih _

/-- If no abbreviation occurs twice, every one is entered. -/
theorem abbrev_fold_nodup : ∀ (ps : List (Bytes × Bytes)) (T : List (Bytes × Bytes)) (S : List Bytes),
    (ps.map (·.2)).Nodup → (∀ p ∈ ps, p.2 ∉ S) →
    ps.foldl (fun st p => abbrevStep st p.1 p.2) (T, S) =
      ((ps.map fun p => (p.2, p.1)).reverse ++ T, (ps.map (·.2)).reverse ++ S) := by
  intro ps
  induction ps with
  | nil => intro T S _ _; rfl
  | cons p ps ih =>
    intro T S hn hS
    simp only [List.map_cons, List.nodup_cons] at hn
    have h0 : S.count p.2 = 0 := List.count_eq_zero.mpr (hS p (by simp))
    simp only [List.foldl_cons]
    have hstep : abbrevStep (T, S) p.1 p.2 = ((p.2, p.1) :: T, p.2 :: S) := by
      unfold abbrevStep
      dsimp only
      rw [if_pos h0]
    rw [hstep, ih _ _ hn.2]
    · simp
    · intro q hq hmem
      rcases List.mem_cons.mp hmem with h | h
      · exact hn.1 (by rw [← h]; exact List.mem_map.mpr ⟨q, hq, rfl⟩)
      · exact hS q (List.mem_cons_of_mem _ hq) h

theorem mem_properPrefixes (w ab : Bytes) : ab ∈ properPrefixes w ↔ ab ≠ [] ∧ ab <+: w ∧ ab ≠ w := by
  unfold properPrefixes
  simp only [List.mem_map, List.mem_filter, List.mem_reverse, List.mem_range, decide_eq_true_eq, gt_iff_lt]
  constructor
  · rintro ⟨n, ⟨h1, h2⟩, rfl⟩
    have hl : (w.take n).length = n := by simp; omega
    refine ⟨?_, List.take_prefix _ _, ?_⟩
    · intro h; rw [h] at hl; simp at hl; omega
    · intro h; rw [h] at hl; omega
  · rintro ⟨h1, h2, h3⟩
    refine ⟨ab.length, ⟨?_, List.length_pos_of_ne_nil h1⟩, (List.prefix_iff_eq_take.mp h2).symm⟩
    rcases Nat.lt_or_ge ab.length w.length with h | h
    · exact h
    · exact absurd (h2.eq_of_length (Nat.le_antisymm h2.length_le h)) h3

theorem properPrefixes_nodup (w : Bytes) : (properPrefixes w).Nodup := by
  unfold properPrefixes
  refine List.Nodup.map_on ?_ ((List.nodup_reverse.mpr List.nodup_range).filter _)
  intro a ha b hb hab
  simp only [List.mem_filter, List.mem_reverse, List.mem_range] at ha hb
  have := congrArg List.length hab
  simp at this
  omega

/-- Distinct words of the list begin with distinct characters. -/
def DistinctHeads (words : List Bytes) : Prop :=
  ∀ w ∈ words, ∀ v ∈ words, w ≠ [] ∧ (w.head? = v.head? → w = v)

theorem prefix_head {a w : Bytes} (h : a <+: w) (ha : a ≠ []) : a.head? = w.head? := by
  obtain ⟨t, rfl⟩ := h
  cases a with
  | nil => exact absurd rfl ha
  | cons x xs => rfl

theorem abbrevPairs_nodup : ∀ words : List Bytes, words.Nodup → DistinctHeads words → ((abbrevPairs words).map (·.2)).Nodup := by
  intro words
  induction words with
  | nil => intro _ _; exact List.nodup_nil
  | cons w ws ih =>
    intro hn hd
    simp only [abbrevPairs, List.flatMap_cons, List.map_append]
    rw [List.nodup_cons] at hn
    rw [List.nodup_append]
    refine ⟨by simpa [List.map_map, Function.comp_def] using properPrefixes_nodup w,
      ih hn.2 fun a ha b hb => hd a (List.mem_cons_of_mem _ ha) b (List.mem_cons_of_mem _ hb), ?_⟩
    intro a ha b hb hab
    subst hab
    simp only [List.mem_map, List.mem_flatMap] at ha hb
    obtain ⟨p, ⟨ab, hab, rfl⟩, rfl⟩ := ha
    obtain ⟨q, ⟨v, hv, ab2, hab2, rfl⟩, hq⟩ := hb
    dsimp only at hq
    subst hq
    obtain ⟨h1, h2, _⟩ := (mem_properPrefixes w ab2).mp hab
    obtain ⟨_, h4, _⟩ := (mem_properPrefixes v ab2).mp hab2
    have := (hd w (by simp) v (List.mem_cons_of_mem _ hv)).2 ((prefix_head h2 h1).symm.trans (prefix_head h4 h1))
    exact hn.1 (this ▸ hv)

theorem mem_abbrevTable (words : List Bytes) (hn : words.Nodup) (hd : DistinctHeads words) (s w : Bytes) :
    (s, w) ∈ abbrevTable words ↔ w ∈ words ∧ s ≠ [] ∧ s <+: w := by
  unfold abbrevTable
  dsimp only
  rw [abbrev_fold_pairs, abbrev_fold_nodup _ _ _ (abbrevPairs_nodup words hn hd) (by simp)]
  simp only [List.append_nil, List.mem_append, List.mem_map, List.mem_reverse, Prod.mk.injEq, abbrevPairs, List.mem_flatMap]
  constructor
  · rintro (⟨v, hv, rfl, rfl⟩ | ⟨p, ⟨v, hv, ab, hab, rfl⟩, rfl, rfl⟩)
    · exact ⟨hv, (hd _ hv _ hv).1, List.prefix_refl _⟩
    · obtain ⟨h1, h2, _⟩ := (mem_properPrefixes _ _).mp hab
      exact ⟨hv, h1, h2⟩
  · rintro ⟨h1, h2, h3⟩
    by_cases h : s = w
    · exact .inl ⟨w, h1, h.symm, rfl⟩
    · exact .inr ⟨(w, s), ⟨w, h1, s, (mem_properPrefixes _ _).mpr ⟨h2, h3, h⟩, rfl⟩, rfl, rfl⟩

theorem lookup_some_mem {α β : Type} [BEq α] [LawfulBEq α] (a : α) (b : β) : ∀ l : List (α × β), l.lookup a = some b → (a, b) ∈ l := by
  intro l
  induction l with
  | nil => intro h; cases h
  | cons p l ih =>
    obtain ⟨x, y⟩ := p
    intro h
    rw [List.lookup_cons] at h
    split at h
    · rename_i hx
      cases h
      have := eq_of_beq hx
      subst this
      simp
    · exact List.mem_cons_of_mem _ (ih h)

theorem lookup_none_mem {α β : Type} [BEq α] [LawfulBEq α] (a : α) : ∀ l : List (α × β), l.lookup a = none → ∀ b, (a, b) ∉ l := by
  intro l
  induction l with
  | nil => intro _ b h; cases h
  | cons p l ih =>
    obtain ⟨x, y⟩ := p
    intro h b hb
    rw [List.lookup_cons] at h
    split at h
    · cases h
    · rename_i hx
      rcases List.mem_cons.mp hb with hb | hb
      · cases hb; simp at hx
      · exact ih h b hb

theorem abbrevGet_iff (words : List Bytes) (hn : words.Nodup) (hd : DistinctHeads words) (s w : Bytes) :
    abbrevGet words s = some w ↔ w ∈ words ∧ s ≠ [] ∧ s <+: w := by
  unfold abbrevGet
  constructor
  · intro h
    exact (mem_abbrevTable words hn hd s w).mp (lookup_some_mem _ _ _ h)
  · intro h
    match hl : (abbrevTable words).lookup s with
    | none => exact absurd ((mem_abbrevTable words hn hd s w).mpr h) (lookup_none_mem _ _ hl w)
    | some v =>
      obtain ⟨h1, h2, h3⟩ := (mem_abbrevTable words hn hd s v).mp (lookup_some_mem _ _ _ hl)
      have := (hd v h1 w h.1).2 ((prefix_head h3 h2).symm.trans (prefix_head h.2.2 h2))
      rw [this]

theorem commands_eq : commands = Spec.commandNames.map fun w => w.toUTF8.toList := by decide +kernel

theorem commands_nodup : commands.Nodup := by decide +kernel

theorem commands_heads : DistinctHeads commands := by
  unfold DistinctHeads
  decide +kernel

/-- **C53** For every order in which Go's map iteration delivers the command names, every version of `strings.ToLower` and every
first argument: a command is selected exactly if the lower-cased argument is a non-empty beginning of its name. So the choice
is unambiguous and does not depend on the order. -/
theorem C53_selects_iff (lower : Bytes → Bytes) (order : List Bytes) (ho : order.Perm commands) (arg : Bytes) (w : String) :
    selectCommand lower order arg = some w.toUTF8.toList ∧ w ∈ Spec.commandNames ↔ Spec.Abbreviates (lower arg) w := by
  unfold selectCommand
  rw [abbrevGet_iff order (ho.nodup_iff.mpr commands_nodup)
    (fun a ha b hb => commands_heads a (ho.mem_iff.mp ha) b (ho.mem_iff.mp hb))]
  unfold Spec.Abbreviates
  constructor
  · rintro ⟨⟨_, h1, h2⟩, h3⟩
    exact ⟨h3, h1, h2⟩
  · rintro ⟨h1, h2, h3⟩
    exact ⟨⟨ho.mem_iff.mpr (by rw [commands_eq]; exact List.mem_map.mpr ⟨w, h1, rfl⟩), h2, h3⟩, h1⟩

/-- **C53** (nothing else).  Whatever is selected is a command name. -/
theorem C53_only_commands (lower : Bytes → Bytes) (order : List Bytes) (ho : order.Perm commands) (arg v : Bytes)
    (h : selectCommand lower order arg = some v) : ∃ w ∈ Spec.commandNames, v = w.toUTF8.toList ∧ Spec.Abbreviates (lower arg) w := by
  have h' := h
  unfold selectCommand at h
  obtain ⟨h1, _, _⟩ := (abbrevGet_iff order (ho.nodup_iff.mpr commands_nodup)
    (fun a ha b hb => commands_heads a (ho.mem_iff.mp ha) b (ho.mem_iff.mp hb)) _ _).mp h
  have := ho.mem_iff.mp h1
  rw [commands_eq] at this
  obtain ⟨w, hw, rfl⟩ := List.mem_map.mp this
  exact ⟨w, hw, rfl, (C53_selects_iff lower order ho arg w).mp ⟨h', hw⟩⟩

/-- **C53** (order).  Two iteration orders select the same. -/
theorem C53_order_irrelevant (lower : Bytes → Bytes) (o1 o2 : List Bytes) (h1 : o1.Perm commands) (h2 : o2.Perm commands) (arg : Bytes) :
    selectCommand lower o1 arg = selectCommand lower o2 arg := by
  have key : ∀ a b : List Bytes, a.Perm commands → b.Perm commands → ∀ v, selectCommand lower a arg = some v →
      selectCommand lower b arg = some v := by
    intro a b ha hb v hv
    obtain ⟨w, hw, rfl, hab⟩ := C53_only_commands lower a ha arg v hv
    exact ((C53_selects_iff lower b hb arg w).mpr hab).1
  match ha : selectCommand lower o1 arg, hb : selectCommand lower o2 arg with
  | none, none => rfl
  | some v, none => have := key o1 o2 h1 h2 v ha; rw [hb] at this; cases this
  | none, some v => have := key o2 o1 h2 h1 v hb; rw [ha] at this; cases this
  | some v, some u => have := key o1 o2 h1 h2 v ha; rw [hb] at this; exact this.symm

/-- **C53** (ASCII arguments).  `strings.ToLower` of an ASCII string lower-cases each letter, so each non-empty prefix of a name in
any letter case selects its command. -/
theorem C53_ascii (lower : Bytes → Bytes) (hl : ∀ s : Bytes, (∀ b ∈ s, b < 128) → lower s = s.map Spec.lowerByte)
    (order : List Bytes) (ho : order.Perm commands) (arg : Bytes) (ha : ∀ b ∈ arg, b < 128) (w : String) (hw : w ∈ Spec.commandNames) :
    selectCommand lower order arg = some w.toUTF8.toList ↔ arg ≠ [] ∧ arg.map Spec.lowerByte <+: w.toUTF8.toList := by
  have := C53_selects_iff lower order ho arg w
  rw [hl arg ha] at this
  unfold Spec.Abbreviates at this
  constructor
  · intro h
    obtain ⟨_, h1, h2⟩ := this.mp ⟨h, hw⟩
    exact ⟨by simpa using h1, h2⟩
  · rintro ⟨h1, h2⟩
    exact (this.mpr ⟨hw, by simpa using h1, h2⟩).1

/-- `ENC` selects `encrypt`; `x` and the empty string select nothing, whatever the order. -/
example (order : List Bytes) (ho : order.Perm commands) :
    selectCommand (List.map Spec.lowerByte) order (ascii "ENC") = some (ascii "encrypt") ∧
    selectCommand (List.map Spec.lowerByte) order (ascii "x") = none ∧
    selectCommand (List.map Spec.lowerByte) order [] = none := by
  have e : ascii "encrypt" = "encrypt".toUTF8.toList := by decide +kernel
  refine ⟨?_, ?_, ?_⟩
  · rw [e]
    exact (C53_ascii (List.map Spec.lowerByte) (fun _ _ => rfl) order ho _ (by decide +kernel) "encrypt" (by decide)).mpr
      ⟨by decide +kernel, by decide +kernel⟩
  · rw [C53_order_irrelevant _ order commands ho (List.Perm.refl _)]
    decide +kernel
  · rw [C53_order_irrelevant _ order commands ho (List.Perm.refl _)]
    decide +kernel

/-! ### The abbreviation table for any list of words -/

/-- What the abbreviation table holds after any list of (word, beginning) pairs: exactly the beginnings that occurred once. -/
theorem abbrev_fold_mem : ∀ (ps done : List (Bytes × Bytes)) (T : List (Bytes × Bytes)) (S : List Bytes),
    S = (done.map (·.2)).reverse → (∀ ab w, (ab, w) ∈ T ↔ done.filter (fun p => p.2 = ab) = [(w, ab)]) →
    ∀ ab w, (ab, w) ∈ (ps.foldl (fun st p => abbrevStep st p.1 p.2) (T, S)).1 ↔
      (done ++ ps).filter (fun p => p.2 = ab) = [(w, ab)] := by
  intro ps
  induction ps with
  | nil => intro done T S _ hT ab w; simpa using hT ab w
  | cons p ps ih =>
    intro done T S hS hT ab w
    have e : done ++ p :: ps = (done ++ [p]) ++ ps := by simp
    rw [e, List.foldl_cons]
    have hc : S.count p.2 = (done.filter (fun q => q.2 = p.2)).length := by
      rw [hS, List.count_reverse, List.count_eq_countP, List.countP_map, List.countP_eq_length_filter]
      congr 1
      exact List.filter_congr fun a _ => by simp [Function.comp, beq_eq_decide]
    by_cases h0 : S.count p.2 = 0
    · have hstep : abbrevStep (T, S) p.1 p.2 = ((p.2, p.1) :: T, p.2 :: S) := by
        unfold abbrevStep
        dsimp only
        rw [if_pos h0]
      rw [hstep]
      refine ih (done ++ [p]) _ _ (by simp [hS]) ?_ ab w
      intro ab w
      rw [h0] at hc
      have hnil : done.filter (fun q => q.2 = p.2) = [] := List.length_eq_zero_iff.mp hc.symm
      rw [List.filter_append]
      by_cases hab : p.2 = ab
      · subst hab
        rw [hnil]
        have : (p.2, w) ∉ T := by
          intro hm
          have := (hT _ _).mp hm
          rw [hnil] at this
          cases this
        obtain ⟨p1, p2⟩ := p
        simp only [List.mem_cons, Prod.mk.injEq, this, or_false, true_and, List.nil_append, decide_true, List.filter_cons_of_pos,
          List.filter_nil, List.cons.injEq, and_true]
        exact eq_comm
      · have hab' : ¬ ab = p.2 := fun h => hab h.symm
        simp only [List.mem_cons, Prod.mk.injEq, hab', false_and, false_or, hT]
        simp [hab]
    · have hstep : abbrevStep (T, S) p.1 p.2 = (T.filter (fun e => e.1 ≠ p.2), p.2 :: S) := by
        unfold abbrevStep
        dsimp only
        rw [if_neg h0]
      rw [hstep]
      refine ih (done ++ [p]) _ _ (by simp [hS]) ?_ ab w
      intro ab w
      rw [List.filter_append]
      by_cases hab : p.2 = ab
      · subst hab
        have hl : (done.filter (fun q => q.2 = p.2)).length ≠ 0 := by rw [← hc]; exact h0
        constructor
        · intro h; simp at h
        · intro h
          have := congrArg List.length h
          simp at this
          simp only [ne_eq, List.length_eq_zero_iff, List.filter_eq_nil_iff] at hl
          exact absurd (fun a ha => by simpa using this a.1 a.2 ha) hl
      · have hab' : ¬ ab = p.2 := fun h => hab h.symm
        simp only [List.mem_filter, hT]
        simp [hab, hab']

/-- A list without repetition keeps one element under a filter exactly if that element is the only one which passes. -/
theorem filter_singleton {α : Type} (q : α → Bool) (a : α) : ∀ l : List α, l.Nodup →
    (l.filter q = [a] ↔ a ∈ l ∧ q a = true ∧ ∀ b ∈ l, q b = true → b = a) := by
  intro l hn
  constructor
  · intro h
    have ha : a ∈ l.filter q := by rw [h]; simp
    refine ⟨(List.mem_filter.mp ha).1, (List.mem_filter.mp ha).2, ?_⟩
    intro b hb hq
    have : b ∈ l.filter q := List.mem_filter.mpr ⟨hb, hq⟩
    rw [h] at this
    simpa using this
  · rintro ⟨h1, h2, h3⟩
    have hn' := hn.filter q
    have hall : ∀ b ∈ l.filter q, b = a := fun b hb => h3 b (List.mem_filter.mp hb).1 (List.mem_filter.mp hb).2
    have hm : a ∈ l.filter q := List.mem_filter.mpr ⟨h1, h2⟩
    match hl : l.filter q with
    | [] => rw [hl] at hm; cases hm
    | [x] => rw [hl] at hall; rw [hall x (by simp)]
    | x :: y :: t =>
      rw [hl] at hall hn'
      have hx := hall x (by simp)
      have hy := hall y (by simp)
      subst hx
      simp [hy] at hn'

theorem abbrevPairs_nodup' : ∀ words : List Bytes, words.Nodup → (abbrevPairs words).Nodup := by
  intro words hn
  unfold abbrevPairs
  rw [List.nodup_flatMap]
  refine ⟨fun w _ => (properPrefixes_nodup w).map fun a b h => (Prod.mk.inj h).2, ?_⟩
  refine hn.imp ?_
  intro a b hab
  intro p h1 h2
  simp only [List.mem_map] at h1 h2
  obtain ⟨x, _, rfl⟩ := h1
  obtain ⟨y, _, h⟩ := h2
  exact hab (Prod.mk.inj h).1.symm

theorem lookup_append' {α β : Type} [BEq α] (a : α) : ∀ l m : List (α × β), (l ++ m).lookup a = (l.lookup a).or (m.lookup a) := by
  intro l m
  induction l with
  | nil => simp
  | cons p l ih =>
    rw [List.cons_append, List.lookup_cons, List.lookup_cons]
    split <;> simp [*]

theorem lookup_diag (s : Bytes) : ∀ words : List Bytes, (words.map fun w => (w, w)).lookup s = if s ∈ words then some s else none := by
  intro words
  induction words with
  | nil => rfl
  | cons w ws ih =>
    rw [List.map_cons, List.lookup_cons, ih]
    by_cases h : s = w
    · subst h; simp
    · have : (s == w) = false := by simpa using h
      rw [this]
      simp [h]

/-- **C53** (any set of words, in any order).  The abbreviation table of any list of distinct words finds, for `s`, the word `s` itself
if it is in the list; otherwise the one word of which `s` is a non-empty beginning, provided there is exactly one.  An ambiguous
abbreviation finds nothing. -/
theorem C53_table (words : List Bytes) (hn : words.Nodup) (s w : Bytes) :
    abbrevGet words s = some w ↔
      (s ∈ words ∧ w = s) ∨ (s ∉ words ∧ s ≠ [] ∧ w ∈ words ∧ s <+: w ∧ ∀ v ∈ words, s <+: v → v = w) := by
  have hmem := abbrev_fold_mem (abbrevPairs words) [] [] [] rfl (by simp)
  simp only [List.nil_append] at hmem
  have hpair : ∀ ab v, (v, ab) ∈ abbrevPairs words ↔ v ∈ words ∧ ab ≠ [] ∧ ab <+: v ∧ ab ≠ v := by
    intro ab v
    unfold abbrevPairs
    simp only [List.mem_flatMap, List.mem_map, Prod.mk.injEq]
    constructor
    · rintro ⟨x, hx, y, hy, rfl, rfl⟩
      exact ⟨hx, (mem_properPrefixes _ _).mp hy⟩
    · rintro ⟨h1, h2⟩
      exact ⟨v, h1, ab, (mem_properPrefixes _ _).mpr h2, rfl, rfl⟩
  have hT : ∀ v, (s, v) ∈ ((abbrevPairs words).foldl (fun st p => abbrevStep st p.1 p.2) ([], [])).1 ↔
      (v ∈ words ∧ s ≠ [] ∧ s <+: v ∧ s ≠ v) ∧ ∀ u ∈ words, s <+: u → s ≠ u → u = v := by
    intro v
    rw [hmem, filter_singleton _ _ _ (abbrevPairs_nodup' words hn), hpair]
    constructor
    · rintro ⟨h1, _, h3⟩
      refine ⟨h1, fun u hu hp hne => ?_⟩
      exact (Prod.mk.inj (h3 (u, s) ((hpair s u).mpr ⟨hu, h1.2.1, hp, hne⟩) (by simp))).1
    · rintro ⟨h1, h2⟩
      refine ⟨h1, by simp, ?_⟩
      rintro ⟨u, ab⟩ hb hq
      have : ab = s := by simpa using hq
      subst this
      obtain ⟨g1, _, g3, g4⟩ := (hpair _ _).mp hb
      rw [h2 u g1 g3 g4]
  unfold abbrevGet abbrevTable
  dsimp only
  rw [abbrev_fold_pairs, lookup_append', lookup_diag]
  by_cases hs : s ∈ words
  · simp only [hs, if_true, Option.some_or, Option.some.injEq, true_and, not_true, false_and, or_false]
    exact eq_comm
  · have hne : ∀ u ∈ words, s ≠ u := fun u hu h => hs (h ▸ hu)
    simp only [hs, if_false, Option.none_or, false_and, not_false_iff, true_and, false_or]
    constructor
    · intro h
      obtain ⟨⟨h1, h2, h3, _⟩, h4⟩ := (hT w).mp (lookup_some_mem _ _ _ h)
      exact ⟨h2, h1, h3, fun v hv hp => h4 v hv hp (hne v hv)⟩
    · rintro ⟨h2, h1, h3, h4⟩
      have hm := (hT w).mpr ⟨⟨h1, h2, h3, hne w h1⟩, fun u hu hp _ => h4 u hu hp⟩
      match hl : (((abbrevPairs words).foldl (fun st p => abbrevStep st p.1 p.2) ([], [])).1).lookup s with
      | none => exact absurd hm (lookup_none_mem _ _ hl w)
      | some v =>
        have := ((hT v).mp (lookup_some_mem _ _ _ hl)).1
        rw [hl, h4 v this.1 this.2.2.1]

/-- With the words `sign` and `seal`, `s` is ambiguous, `se` finds `seal`. -/
example : abbrevGet [ascii "sign", ascii "seal"] (ascii "s") = none ∧
    abbrevGet [ascii "sign", ascii "seal"] (ascii "se") = some (ascii "seal") := by decide +kernel

end Sigtool
