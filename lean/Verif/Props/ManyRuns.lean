import Verif.Spec.ManyRuns
import Verif.Props.Main
/-! # Many runs on one machine (C94) -/

namespace Sigtool
open Spec

/-! ### One `SafeFile` among many -/

/-- A `SafeFile` used by some run. -/
structure Slot where
  env : SafeEnv
  target : Path
  content : Bytes
  ok : Bool
  calls : List Sys
  run : SafeRun env target content ok calls

/-- The calls of a run over a `SafeFile`. -/
inductive Slot.Own (s : Slot) : Sys → Prop
  | create (perm : Nat) : s.Own (.create s.env.tmp s.env.inode perm)
  | write (b : Bytes) : s.Own (.write s.env.inode b)
  | sync : s.Own (.sync s.env.inode)
  | rename : s.ok = true → s.Own (.rename s.env.tmp s.target)
  | remove : s.Own (.remove s.env.tmp)

theorem Slot.own (s : Slot) : ∀ c ∈ s.calls, s.Own c := by
  obtain ⟨env, target, content, ok, calls, run⟩ := s
  have wr : ∀ (ok : Bool) (calls : List Sys) (run : SafeRun env target content ok calls) (out : Bytes),
      ∀ c ∈ writeCalls env.inode out, Slot.Own ⟨env, target, content, ok, calls, run⟩ c := by
    intro ok calls run out c hc
    obtain ⟨b, _, rfl⟩ := List.mem_map.mp hc
    exact .write _
  intro c hc
  dsimp only at hc
  cases run with
  | nothing => cases hc
  | @failed perm out cl hcl =>
    have run' : SafeRun env target content false (preCalls env.tmp env.inode perm out ++ cl ++ abortCalls env) := .failed out cl hcl
    simp only [List.mem_append] at hc
    rcases hc with (hc | hc) | hc
    · rcases List.mem_cons.mp hc with rfl | hc
      · exact .create perm
      · exact wr _ _ _ out c hc
    · rcases hcl with rfl | rfl
      · cases hc
      · rw [List.mem_singleton] at hc; subst hc; exact .sync
    · unfold abortCalls at hc
      split at hc
      · cases hc
      · rw [List.mem_singleton] at hc; subst hc; exact .remove
  | @done perm =>
    simp only [List.mem_append, List.mem_singleton] at hc
    rcases hc with (hc | rfl) | rfl
    · rcases List.mem_cons.mp hc with rfl | hc
      · exact .create perm
      · exact wr _ _ _ content c hc
    · exact .sync
    · exact .rename rfl

/-- The first call creates the temporary file. -/
theorem Slot.first (s : Slot) {c : Sys} (h : [c] <+: s.calls) : ∃ perm, c = .create s.env.tmp s.env.inode perm := by
  obtain ⟨env, target, content, ok, calls, run⟩ := s
  obtain ⟨t, h⟩ := h
  dsimp only at h
  cases run with
  | nothing => simp at h
  | @failed perm out cl hcl => simp [preCalls] at h; exact ⟨perm, h.1⟩
  | @done perm => simp [preCalls] at h; exact ⟨perm, h.1⟩

/-- The rename is the last call. -/
theorem Slot.last (s : Slot) {d : List Sys} {a b : Path} (h : d ++ [.rename a b] <+: s.calls) : s.ok = true ∧
    d ++ [.rename a b] = s.calls ∧ ∃ perm, d = preCalls s.env.tmp s.env.inode perm s.content ++ [.sync s.env.inode] := by
  obtain ⟨env, target, content, ok, calls, run⟩ := s
  dsimp only at h ⊢
  have nr : ∀ i out, Sys.rename a b ∉ writeCalls i out := by
    intro i out hc
    obtain ⟨_, _, hc⟩ := List.mem_map.mp hc
    cases hc
  cases run with
  | nothing => simp at h
  | @failed perm out cl hcl =>
    exfalso
    have hm : Sys.rename a b ∈ preCalls env.tmp env.inode perm out ++ cl ++ abortCalls env := h.subset (by simp)
    simp only [preCalls, List.mem_append, List.mem_cons] at hm
    rcases hm with ((hm | hm) | hm) | hm
    · cases hm
    · exact nr _ _ hm
    · rcases hcl with rfl | rfl
      · cases hm
      · rw [List.mem_singleton] at hm; cases hm
    · unfold abortCalls at hm
      split at hm
      · cases hm
      · rw [List.mem_singleton] at hm; cases hm
  | @done perm =>
    refine ⟨rfl, ?_⟩
    rcases prefix_append_cases h with h | ⟨q, hq, hq2⟩
    · exfalso
      have hm := h.subset (show Sys.rename a b ∈ d ++ [.rename a b] by simp)
      simp only [preCalls, List.mem_append, List.mem_cons] at hm
      rcases hm with (hm | hm) | hm
      · cases hm
      · exact nr _ _ hm
      · rcases hm with hm | hm <;> cases hm
    · have hq3 : q = [.rename env.tmp target] := by
        match q, hq2, hq with
        | [], _, hq =>
          exfalso
          rw [List.append_nil] at hq
          have hm : Sys.rename a b ∈ preCalls env.tmp env.inode perm content ++ [Sys.sync env.inode] := hq ▸ (by simp)
          simp only [preCalls, List.mem_append, List.mem_cons] at hm
          rcases hm with (hm | hm) | hm
          · cases hm
          · exact nr _ _ hm
          · rcases hm with hm | hm <;> cases hm
        | x :: y, hq2, _ =>
          obtain ⟨t, ht⟩ := hq2
          simp only [List.cons_append, List.cons.injEq, List.append_eq_nil_iff] at ht
          rw [ht.1, ht.2.1]
      subst hq3
      refine ⟨hq, perm, ?_⟩
      have := List.append_inj' hq rfl
      exact this.1

/-- The file system without any file. -/
def blank : FS := { dir := fun _ => none, data := fun _ => [] }

/-- The invariant.  `d s` are the calls made for `s`, `live s` says more may follow. -/
structure Inv {σ : Type} (S : σ → Slot) (fs0 : FS) (calm : Prop) (fs : FS) (d : σ → List Sys) (live : σ → Prop) : Prop where
  pre : ∀ s, d s <+: (S s).calls
  dir : ∀ s, live s → fs.dir (S s).env.tmp = (blank.run (d s)).dir (S s).env.tmp
  data : ∀ s, live s → d s ≠ [] → fs.data (S s).env.inode = (blank.run (d s)).data (S s).env.inode ∧
    fs.dirty (S s).env.inode = (blank.run (d s)).dirty (S s).env.inode
  full : ∀ s, (S s).ok = true → d s = (S s).calls → fs.data (S s).env.inode = (S s).content ∧ fs.dirty (S s).env.inode = false
  dirs : ∀ p, OnDisk fs0 p → (∀ s, p ≠ (S s).env.tmp) → ∀ e ∈ fs.dir :: fs.journal, e p = fs0.dir p ∨
    ∃ s, (S s).ok = true ∧ (S s).target = p ∧ d s = (S s).calls ∧ e p = some (.file (S s).env.inode)
  rest : ∀ j, (∀ s, j ≠ (S s).env.inode) → fs0.dirty j = false → fs.data j = fs0.data j ∧ fs.dirty j = false
  tmp : ∀ s, d s = [] → ∀ e ∈ fs.dir :: fs.journal, e (S s).env.tmp = none
  calm : calm → ∀ s, (S s).ok = true → d s = (S s).calls →
    ∃ s', (S s').ok = true ∧ (S s').target = (S s).target ∧ d s' = (S s').calls ∧ fs.dir (S s).target = some (.file (S s').env.inode)

/-- The `SafeFile`s do not get in each other's way. -/
structure Clear {σ : Type} (S : σ → Slot) (fs0 : FS) : Prop where
  fresh : ∀ s, Fresh fs0 (S s).env.tmp (S s).env.inode
  tmp : ∀ s s', (S s).env.tmp = (S s').env.tmp → s = s'
  inode : ∀ s s', (S s).env.inode = (S s').env.inode → s = s'
  out : ∀ s s', (S s).ok = true → (S s).target ≠ (S s').env.tmp

theorem Slot.calls_ne (s : Slot) (h : s.ok = true) : s.calls ≠ [] := by
  obtain ⟨env, target, content, ok, calls, run⟩ := s
  dsimp only at h ⊢
  subst h
  cases run with
  | done => simp [preCalls]

theorem Inv.start {σ : Type} {S : σ → Slot} {fs0 : FS} (C : Clear S fs0) (calm : Prop) (live : σ → Prop) :
    Inv S fs0 calm fs0 (fun _ => []) live where
  pre _ := List.nil_prefix
  dir s _ := by rw [(C.fresh s).name fs0.dir (by simp)]; rfl
  data _ _ h := absurd rfl h
  full s h h' := absurd h'.symm ((S s).calls_ne h)
  dirs p hp _ e he := by
    left
    rcases List.mem_cons.mp he with rfl | he
    · rfl
    · exact hp.1 e he
  rest j _ hj := ⟨rfl, hj⟩
  tmp s _ e he := (C.fresh s).name e he
  calm _ s h h' := absurd h'.symm ((S s).calls_ne h)

theorem Inv.kill {σ : Type} {S : σ → Slot} {fs0 : FS} {calm : Prop} {fs : FS} {d : σ → List Sys} {live live' : σ → Prop}
    (I : Inv S fs0 calm fs d live) (h : ∀ s, live' s → live s) : Inv S fs0 calm fs d live' :=
  { I with dir := fun s hs => I.dir s (h s hs), data := fun s hs => I.data s (h s hs) }

theorem Inv.loss {σ : Type} {S : σ → Slot} {fs0 : FS} {fs : FS} {calm : Prop} {d : σ → List Sys} {live live' : σ → Prop}
    (I : Inv S fs0 calm fs d live) {dir : Dir} {data : Nat → Bytes} (hi : CrashImage fs dir data) (mode : Nat → Nat)
    (h : ∀ s, live' s → d s = []) : Inv S fs0 False { dir := dir, data := data, mode := mode } d live' where
  pre := I.pre
  dir s hs := by
    rw [h s hs]
    have : dir ∈ fs.dir :: fs.journal := by rcases hi.dir with h | h <;> simp [h]
    exact I.tmp s (h s hs) dir this
  data s hs hd := absurd (h s hs) hd
  full s ho hs := by
    obtain ⟨a, b⟩ := I.full s ho hs
    exact ⟨(hi.data _ b).trans a, rfl⟩
  dirs p hp ht e he := by
    have hed : e = dir := by simpa using he
    subst hed
    exact I.dirs p hp ht e (by rcases hi.dir with h | h <;> simp [h])
  rest j hj h0 := by
    obtain ⟨a, b⟩ := I.rest j hj h0
    exact ⟨(hi.data _ b).trans a, rfl⟩
  tmp s hs e he := by
    have hed : e = dir := by simpa using he
    subst hed
    exact I.tmp s hs e (by rcases hi.dir with h | h <;> simp [h])
  calm h := h.elim

/-- One more call for `s`. -/
theorem Inv.call {σ : Type} [DecidableEq σ] {S : σ → Slot} {fs0 : FS} {fs : FS} {calm : Prop} {d : σ → List Sys} {live : σ → Prop}
    (C : Clear S fs0) (I : Inv S fs0 calm fs d live) (s : σ) (c : Sys) (hl : live s) (hc : d s ++ [c] <+: (S s).calls) :
    Inv S fs0 calm (fs.step c) (setAt d s (d s ++ [c])) live := by
  have hown : (S s).Own c := (S s).own c (hc.subset (by simp))
  have hT : ∀ s', s' ≠ s → (S s').env.tmp ≠ (S s).env.tmp := fun s' h e => h (C.tmp _ _ e)
  have hN : ∀ s', s' ≠ s → (S s').env.inode ≠ (S s).env.inode := fun s' h e => h (C.inode _ _ e)
  have hdir := I.dir s hl
  have hdata := I.data s hl
  have erun : blank.run (d s ++ [c]) = (blank.run (d s)).step c := by rw [run_append]; rfl
  -- the effect on others
  have o1 : ∀ j, j ≠ (S s).env.inode → (fs.step c).data j = fs.data j ∧ (fs.step c).dirty j = fs.dirty j := by
    intro j hj
    cases hown <;> simp [FS.step, setAt_ne _ _ _ _ hj]
  have o2 : ∀ p, p ≠ (S s).env.tmp → ((S s).ok = true → p ≠ (S s).target) → (fs.step c).dir p = fs.dir p := by
    intro p hp hpt
    cases hown with
    | create => simp [FS.step, setAt_ne _ _ _ _ hp]
    | write => rfl
    | sync => rfl
    | rename ho => simp [FS.step, setAt_ne _ _ _ _ hp, setAt_ne _ _ _ _ (hpt ho)]
    | remove => simp [FS.step, setAt_ne _ _ _ _ hp]
  have o3 : ∀ e ∈ (fs.step c).journal, e ∈ fs.dir :: fs.journal := by
    intro e he
    cases hown with
    | create => exact he
    | write => exact List.mem_cons_of_mem _ he
    | sync => exact List.mem_cons_of_mem _ he
    | rename _ => exact he
    | remove => exact he
  -- a name that is not the target of a rename keeps its entry, a rename publishes the complete file
  have o4 : ∀ p, p ≠ (S s).env.tmp → (fs.step c).dir p = fs.dir p ∨
      ((S s).ok = true ∧ p = (S s).target ∧ d s ++ [c] = (S s).calls ∧ (fs.step c).dir p = some (.file (S s).env.inode)) := by
    intro p hp
    cases hown with
    | create => left; simp [FS.step, setAt_ne _ _ _ _ hp]
    | write => left; rfl
    | sync => left; rfl
    | remove => left; simp [FS.step, setAt_ne _ _ _ _ hp]
    | rename ho =>
      by_cases hpt : p = (S s).target
      · right
        obtain ⟨_, l2, perm, l3⟩ := (S s).last hc
        refine ⟨ho, hpt, l2, ?_⟩
        have e1 : fs.dir (S s).env.tmp = some (.file (S s).env.inode) := by
          rw [hdir, l3, run_append]
          show (blank.run _).dir _ = _
          unfold preCalls
          rw [(run_create_writes blank _ _ _).2, setAt_eq]
        simp only [FS.step]
        rw [setAt_ne _ _ _ _ hp, hpt, setAt_eq, e1]
      · left; simp [FS.step, setAt_ne _ _ _ _ hp, setAt_ne _ _ _ _ hpt]
  have hset : setAt d s (d s ++ [c]) s = d s ++ [c] := setAt_eq _ _ _
  have hoth : ∀ s', s' ≠ s → setAt d s (d s ++ [c]) s' = d s' := fun s' h => setAt_ne _ _ _ _ h
  have keep : ∀ s', (S s').ok = true → d s' = (S s').calls → s' ≠ s := by
    rintro s' _ h rfl
    have := hc.length_le
    rw [h] at this
    simp at this
  refine ⟨?_, ?_, ?_, ?_, ?_, ?_, ?_, ?_⟩
  · intro s'
    by_cases h : s' = s
    · subst h; rw [hset]; exact hc
    · rw [hoth s' h]; exact I.pre s'
  · intro s' hs'
    by_cases h : s' = s
    · subst h
      rw [hset, erun]
      cases hown with
      | create => simp [FS.step, setAt_eq]
      | write => exact hdir
      | sync => exact hdir
      | rename ho => simp [FS.step, setAt_eq]
      | remove => simp [FS.step, setAt_eq]
    · rw [hoth s' h, o2 _ (hT s' h) (fun ho => Ne.symm (C.out s s' ho))]
      exact I.dir s' hs'
  · intro s' hs' hd
    by_cases h : s' = s
    · subst h
      rw [hset, erun]
      by_cases h0 : d s' = []
      · rw [h0] at hc ⊢
        obtain ⟨perm, rfl⟩ := (S s').first hc
        simp [FS.step, setAt_eq]
      · obtain ⟨a, b⟩ := hdata h0
        cases hown with
        | create => simp [FS.step, setAt_eq]
        | write => simp [FS.step, setAt_eq, a]
        | sync => simp [FS.step, setAt_eq, a]
        | rename ho => exact ⟨a, b⟩
        | remove => exact ⟨a, b⟩
    · rw [hoth s' h] at hd ⊢
      rw [(o1 _ (hN s' h)).1, (o1 _ (hN s' h)).2]
      exact I.data s' hs' hd
  · intro s' ho hs'
    by_cases h : s' = s
    · subst h
      rw [hset] at hs'
      cases hr : S s' with
      | mk env target content ok calls run =>
        rw [hr] at ho hs' hc hdata hown
        dsimp only at ho hs' hc hdata ⊢
        subst ho
        cases run with
        | @done perm =>
          have hh := List.append_inj' hs' rfl
          obtain ⟨h1, h2⟩ := hh
          have h2 : c = .rename env.tmp target := by simpa using h2
          subst h2
          have hne : d s' ≠ [] := by rw [h1]; simp
          obtain ⟨a, b⟩ := hdata hne
          have e1 : blank.run (d s') = (blank.run (preCalls env.tmp env.inode perm content)).step (.sync env.inode) := by
            rw [h1, run_append]; rfl
          rw [e1] at a b
          constructor
          · show fs.data env.inode = content
            rw [a]
            exact (run_create_writes blank env.tmp env.inode content).1
          · show fs.dirty env.inode = false
            rw [b]
            simp [FS.step, setAt_eq]
    · rw [hoth s' h] at hs'
      rw [(o1 _ (hN s' h)).1, (o1 _ (hN s' h)).2]
      exact I.full s' ho hs'
  · intro p hp ht e he
    have old : ∀ e ∈ fs.dir :: fs.journal, e p = fs0.dir p ∨ ∃ s', (S s').ok = true ∧ (S s').target = p ∧
        setAt d s (d s ++ [c]) s' = (S s').calls ∧ e p = some (.file (S s').env.inode) := by
      intro e he
      rcases I.dirs p hp ht e he with h | ⟨s', h1, h2, h3, h4⟩
      · exact .inl h
      · exact .inr ⟨s', h1, h2, by rw [hoth s' (keep s' h1 h3)]; exact h3, h4⟩
    rcases List.mem_cons.mp he with rfl | he
    · rcases o4 p (ht s) with h | ⟨h1, h2, h3, h4⟩
      · rw [h]; exact old fs.dir (by simp)
      · exact .inr ⟨s, h1, h2.symm, by rw [hset]; exact h3, h4⟩
    · exact old e (o3 e he)
  · intro j hj h0
    rw [(o1 j (hj s)).1, (o1 j (hj s)).2]
    exact I.rest j hj h0
  · intro s' hs' e he
    have h : s' ≠ s := by
      rintro rfl
      rw [hset] at hs'
      simp at hs'
    rw [hoth s' h] at hs'
    rcases List.mem_cons.mp he with rfl | he
    · rw [o2 _ (hT s' h) (fun ho => Ne.symm (C.out s s' ho))]
      exact I.tmp s' hs' _ (by simp)
    · exact I.tmp s' hs' e (o3 e he)
  · intro hcalm s' ho hs'
    rcases o4 (S s').target (C.out s' s ho) with h | ⟨h1, h2, h3, h4⟩
    · by_cases he : s' = s
      · subst he
        rw [hset] at hs'
        refine ⟨s', ho, rfl, by rw [hset]; exact hs', ?_⟩
        cases hr : S s' with
        | mk env target content ok calls run =>
          rw [hr] at ho hs' h hdir
          dsimp only at ho hs' h hdir
          subst ho
          cases run with
          | @done perm =>
            obtain ⟨g1, g2⟩ := List.append_inj' hs' rfl
            have g2 : c = .rename env.tmp target := by simpa using g2
            subst g2
            have ht : target ≠ env.tmp := by have := C.out s' s' (by rw [hr]); rw [hr] at this; exact this
            show (fs.step (.rename env.tmp target)).dir target = _
            simp only [FS.step]
            rw [setAt_ne _ _ _ _ ht, setAt_eq, hdir, g1, run_append]
            show (blank.run _).dir _ = _
            unfold preCalls
            rw [(run_create_writes blank _ _ _).2, setAt_eq]
      · rw [hoth s' he] at hs'
        obtain ⟨t, t1, t2, t3, t4⟩ := I.calm hcalm s' ho hs'
        exact ⟨t, t1, t2, by rw [hoth t (keep t t1 t3)]; exact t3, h.trans t4⟩
    · exact ⟨s, h1, h2.symm, by rw [hset]; exact h3, h4⟩

/-! ### Runs of the program -/

/-- A run of the program uses two `SafeFile`s, one after the other. -/
theorem run_slots (r : Run) (L : Laws r.W.D.P) (N : Normal r.W r.argv) : ∃ s1 s2 : Slot, s1.env = r.W.env1 ∧ s2.env = r.W.env2 ∧
    r.calls = s1.calls ++ s2.calls ∧ (s1.ok = true → Output r.W r.argv s1.target ∧ r.leaves s1.target = some s1.content) ∧
    (s2.ok = true → Output r.W r.argv s2.target ∧ r.leaves s2.target = some s2.content) ∧
    ∀ p, p ≠ r.W.env1.tmp → p ≠ r.W.env2.tmp → r.leaves p = r.W.fs.read p ∨ (s1.ok = true ∧ s1.target = p) ∨
      (s2.ok = true ∧ s2.target = p) := by
  rcases main_shape r.W L r.argv N with ⟨target, content, ok, g1, g2, _⟩ | ⟨rest, o, bn, more, hr, hf, hm⟩
  · refine ⟨⟨r.W.env1, target, content, ok, _, g1⟩, ⟨r.W.env2, [], [], false, [], .nothing⟩, rfl, rfl, by simp [Run.calls], ?_, by simp, ?_⟩
    · intro ho
      dsimp only at ho ⊢
      subst ho
      exact ⟨g2 rfl, (g1.success r.W.fs N.fresh1 (N.out _ (g2 rfl)).1).1⟩
    · intro p h1 h2
      dsimp only
      cases ok with
      | false => exact .inl ((g1.failure r.W.fs N.fresh1).1 p h1).1
      | true =>
        by_cases hp : target = p
        · exact .inr (.inl ⟨rfl, hp⟩)
        · exact .inl ((g1.success r.W.fs N.fresh1 (N.out _ (g2 rfl)).1).2.2 p (Ne.symm hp) h1).1
  · have he := N.genEnv hr hf
    obtain ⟨text, pub, ok1, cs1, g1, g2⟩ := gen_shape r.W.D r.W.fs r.W.env1 r.W.env2 o.force (r.W.clean bn) o.comment
      (r.W.genpw o.nopw o.envpw) r.W.seed r.W.salt
    have e0 : r.calls = (genCmd r.W.D r.W.fs r.W.env1 r.W.env2 o.force (r.W.clean bn) o.comment (r.W.genpw o.nopw o.envpw)
      r.W.seed r.W.salt).sys := by unfold Run.calls; rw [hm]
    rcases g2 with ⟨rfl, h⟩ | ⟨rfl, ok2, cs2, g2, h⟩
    · refine ⟨⟨r.W.env1, _, text, false, cs1, g1⟩, ⟨r.W.env2, [], [], false, [], .nothing⟩, rfl, rfl, by simp [e0, h], by simp, by simp, ?_⟩
      intro p h1 h2
      left
      unfold Run.leaves
      rw [e0, h]
      exact ((g1.failure r.W.fs N.fresh1).1 p h1).1
    · have hf2 := g1.fresh r.W.fs he.fresh1 he.key1 r.W.env2.tmp r.W.env2.inode he.fresh2 he.tmp he.inode (Ne.symm he.key2)
      obtain ⟨a1, a2, a3⟩ := g1.success r.W.fs N.fresh1 he.key1
      refine ⟨⟨r.W.env1, _, text, true, cs1, g1⟩, ⟨r.W.env2, _, pub, ok2, cs2, g2⟩, rfl, rfl, by rw [e0, h], ?_, ?_, ?_⟩
      · intro _
        refine ⟨.key rest o bn more hr hf, ?_⟩
        unfold Run.leaves
        rw [e0, h, run_append]
        cases ok2 with
        | false => rw [((g2.failure _ hf2).1 _ he.key2).1]; exact a1
        | true => rw [((g2.success _ hf2 he.pub2).2.2 _ (keyName_ne_pubName _) he.key2).1]; exact a1
      · intro ho
        dsimp only at ho ⊢
        subst ho
        refine ⟨.pub rest o bn more hr hf, ?_⟩
        unfold Run.leaves
        rw [e0, h, run_append]
        exact (g2.success _ hf2 he.pub2).1
      · intro p h1 h2
        dsimp only
        unfold Run.leaves
        rw [e0, h, run_append]
        by_cases hk : keyName (r.W.clean bn) = p
        · exact .inr (.inl ⟨rfl, hk⟩)
        · cases ok2 with
          | false => left; rw [((g2.failure _ hf2).1 _ h2).1]; exact (a3 p (Ne.symm hk) h1).1
          | true =>
            by_cases hb : pubName (r.W.clean bn) = p
            · exact .inr (.inr ⟨rfl, hb⟩)
            · left; rw [((g2.success _ hf2 he.pub2).2.2 _ (Ne.symm hb) h2).1]; exact (a3 p (Ne.symm hk) h1).1

/-- The `SafeFile`s of all runs, and the invariant. -/
theorem reach_inv {ι : Type} [DecidableEq ι] (r : ι → Run) (L : ∀ k, Laws (r k).W.D.P) (fs : FS) (A : Apart r fs) (power : Bool)
    (m : Machine ι) (h : Reach r power fs m) : ∃ S : ι × Bool → Slot,
      (∀ k, (S (k, false)).env = (r k).W.env1 ∧ (S (k, true)).env = (r k).W.env2 ∧
        (r k).calls = (S (k, false)).calls ++ (S (k, true)).calls) ∧
      (∀ k b, (S (k, b)).ok = true → Output (r k).W (r k).argv (S (k, b)).target ∧
        (r k).leaves (S (k, b)).target = some (S (k, b)).content) ∧
      (∀ k p, p ≠ (r k).W.env1.tmp → p ≠ (r k).W.env2.tmp → (r k).leaves p = (r k).W.fs.read p ∨
        ∃ b, (S (k, b)).ok = true ∧ (S (k, b)).target = p) ∧ Clear S fs ∧
      Inv S fs (power = false) m.fs
        (fun s => if s.2 then (m.made s.1).drop (S (s.1, false)).calls.length else (m.made s.1).take (S (s.1, false)).calls.length)
        (fun s => ¬ m.dead s.1) := by
  choose s1 s2 e1 e2 ec o1 o2 o3 using fun k => run_slots (r k) (L k) (A.normal k)
  refine ⟨fun s => if s.2 then s2 s.1 else s1 s.1, ?_, ?_, ?_, ?_, ?_⟩
  · intro k; exact ⟨e1 k, e2 k, ec k⟩
  · intro k b; cases b
    · exact o1 k
    · exact o2 k
  · intro k p h1 h2
    rcases o3 k p h1 h2 with h | h | h
    · exact .inl h
    · exact .inr ⟨false, h⟩
    · exact .inr ⟨true, h⟩
  all_goals
    have C : Clear (fun s : ι × Bool => if s.2 then s2 s.1 else s1 s.1) fs := by
      refine ⟨?_, ?_, ?_, ?_⟩
      · rintro ⟨k, b⟩
        cases b
        · show Fresh fs (s1 k).env.tmp (s1 k).env.inode; rw [e1]; exact (A.fresh k).1
        · show Fresh fs (s2 k).env.tmp (s2 k).env.inode; rw [e2]; exact (A.fresh k).2
      · rintro ⟨j, b⟩ ⟨k, b'⟩ he
        by_cases hjk : j = k
        · subst hjk
          cases b <;> cases b' <;> simp only [if_true, if_false, Bool.false_eq_true, e1, e2] at he
          · rfl
          · exact absurd he.symm (A.normal j).tmp
          · exact absurd he (A.normal j).tmp
          · rfl
        · exfalso
          obtain ⟨t1, t2, t3⟩ := A.tmp j k hjk
          obtain ⟨_, t4, _⟩ := A.tmp k j (Ne.symm hjk)
          cases b <;> cases b' <;> simp only [if_true, if_false, Bool.false_eq_true, e1, e2] at he
          · exact t1 he
          · exact t2 he
          · exact t4 he.symm
          · exact t3 he
      · rintro ⟨j, b⟩ ⟨k, b'⟩ he
        by_cases hjk : j = k
        · subst hjk
          cases b <;> cases b' <;> simp only [if_true, if_false, Bool.false_eq_true, e1, e2] at he
          · rfl
          · exact absurd he.symm (A.normal j).inode
          · exact absurd he (A.normal j).inode
          · rfl
        · exfalso
          obtain ⟨t1, t2, t3⟩ := A.inode j k hjk
          obtain ⟨_, t4, _⟩ := A.inode k j (Ne.symm hjk)
          cases b <;> cases b' <;> simp only [if_true, if_false, Bool.false_eq_true, e1, e2] at he
          · exact t1 he
          · exact t2 he
          · exact t4 he.symm
          · exact t3 he
      · rintro ⟨j, b⟩ ⟨k, b'⟩ ho he
        have hO : Output (r j).W (r j).argv (if b then s2 j else s1 j).target := by
          cases b
          · exact (o1 j ho).1
          · exact (o2 j ho).1
        refine A.out j _ hO ⟨k, ?_⟩
        dsimp only at he
        rw [he]
        cases b'
        · left; simp [e1]
        · right; simp [e2]
  · exact C
  · dsimp only
    simp only [Bool.false_eq_true, if_false]
    induction h with
    | start =>
      have := Inv.start C (power = false) (fun _ => True)
      refine Inv.kill (live := fun _ => True) ?_ (fun _ _ => trivial)
      have e : (fun s : ι × Bool => if s.2 = true then List.drop (s1 s.1).calls.length ((Machine.start ι fs).made s.1)
          else List.take (s1 s.1).calls.length ((Machine.start ι fs).made s.1)) = fun _ => [] := by
        funext s; simp [Machine.start]
      rw [e]
      exact this
    | @next m m' h hs ih =>
      cases hs with
      | kill k => exact ih.kill (fun s hs hd => hs (.inr hd))
      | loss dir data hp hi =>
        have := ih.loss (live' := fun s => ¬ (m.made s.1 ≠ [] ∨ m.dead s.1)) hi m.fs.mode (by
          intro s hs
          have : m.made s.1 = [] := by
            by_contra hne
            exact hs (.inl hne)
          simp [this])
        exact { this with calm := fun hc => by rw [hp] at hc; cases hc }
      | call k c hd hc =>
        rw [ec k] at hc
        by_cases hlt : (m.made k).length < (s1 k).calls.length
        · have hc' : (m.made k) ++ [c] <+: (s1 k).calls := by
            exact List.prefix_of_prefix_length_le hc (List.prefix_append _ _) (by simp; omega)
          have := ih.call C (k, false) c hd (by
            dsimp only
            simp only [Bool.false_eq_true, if_false]
            rw [List.take_of_length_le (by omega)]
            exact hc')
          convert this using 1
          funext s
          obtain ⟨j, b⟩ := s
          by_cases hj : j = k
          · subst hj
            dsimp only
            rw [setAt_eq]
            cases b
            · rw [setAt_eq]
              simp only [Bool.false_eq_true, if_false]
              rw [List.take_of_length_le (by simp; omega), List.take_of_length_le (by omega)]
            · rw [setAt_ne _ _ _ _ (by simp)]
              simp only [if_true]
              rw [List.drop_eq_nil_of_le (by simp; omega), List.drop_eq_nil_of_le (by omega)]
          · dsimp only
            rw [setAt_ne _ _ _ _ hj, setAt_ne _ _ _ _ (by simp [hj])]
        · have hle : (s1 k).calls.length ≤ (m.made k).length := by omega
          have hc' : (m.made k).drop (s1 k).calls.length ++ [c] <+: (s2 k).calls := by
            have := hc.drop (s1 k).calls.length
            rw [List.drop_append_of_le_length hle, List.drop_left] at this
            exact this
          have := ih.call C (k, true) c hd (by
            dsimp only
            simp only [if_true]
            exact hc')
          convert this using 1
          funext s
          obtain ⟨j, b⟩ := s
          by_cases hj : j = k
          · subst hj
            dsimp only
            rw [setAt_eq]
            cases b
            · rw [setAt_ne _ _ _ _ (by simp)]
              simp only [Bool.false_eq_true, if_false]
              rw [List.take_append_of_le_length hle]
            · rw [setAt_eq]
              simp only [if_true]
              rw [List.drop_append_of_le_length hle]
          · dsimp only
            rw [setAt_ne _ _ _ _ hj, setAt_ne _ _ _ _ (by simp [hj])]

/-! ### C94 -/

/-- **C94** (atomic).  Any number of runs of the program, whatever their command lines, interleaved in any way, killed at any
moment, on a machine that may lose power at any moment and start again: at every instant, and after one more power loss, each file
that was on disk in the beginning holds what it held then, or all of what one of the runs that name it as an output writes to it. -/
theorem C94_atomic {ι : Type} [DecidableEq ι] (r : ι → Run) (L : ∀ k, Laws (r k).W.D.P) (fs : FS) (A : Apart r fs)
    (m : Machine ι) (h : Reach r true fs m) (dir : Dir) (data : Nat → Bytes) (hi : CrashImage m.fs dir data) (p : Path)
    (hp : OnDisk fs p) (ht : ¬ Temporary r p) :
    readIn dir data p = fs.read p ∨
    ∃ k, Output (r k).W (r k).argv p ∧ readIn dir data p = (r k).leaves p ∧ (readIn dir data p).isSome := by
  obtain ⟨S, hS, ho, _, C, I⟩ := reach_inv r L fs A true m h
  have htS : ∀ s, p ≠ (S s).env.tmp := by
    rintro ⟨k, b⟩ e
    refine ht ⟨k, ?_⟩
    cases b
    · left; rw [e, (hS k).1]
    · right; rw [e, (hS k).2.1]
  have hmem : dir ∈ m.fs.dir :: m.fs.journal := by rcases hi.dir with h | h <;> simp [h]
  rcases I.dirs p hp htS dir hmem with hd | ⟨⟨k, b⟩, h1, h2, h3, h4⟩
  · left
    unfold FS.read readIn
    rw [hd]
    match hm : fs.dir p with
    | none => rfl
    | some .other => rfl
    | some (.file j) =>
      dsimp only
      obtain ⟨a, b⟩ := I.rest j (fun s e => (C.fresh s).inode fs.dir (by simp) p (by rw [hm, e])) (hp.2 j hm)
      rw [hi.data j b, a]
  · right
    obtain ⟨g1, g2⟩ := ho k b h1
    obtain ⟨a1, a2⟩ := I.full (k, b) h1 h3
    have : readIn dir data p = some (S (k, b)).content := by
      unfold readIn
      rw [h4]
      dsimp only
      rw [hi.data _ a2, a1]
    rw [h2] at g1 g2
    exact ⟨k, g1, by rw [this, g2], by rw [this]; rfl⟩

/-- **C94** (nothing is lost).  Without power losses, once a run that changes `p` has made all its calls, `p` holds all of what that
run or another run that names `p` as an output writes to it, never again the old content or a mixture. -/
theorem C94_done {ι : Type} [DecidableEq ι] (r : ι → Run) (L : ∀ k, Laws (r k).W.D.P) (fs : FS) (A : Apart r fs)
    (m : Machine ι) (h : Reach r false fs m) (k : ι) (hk : m.made k = (r k).calls) (p : Path) (ht : ¬ Temporary r p)
    (hc : (r k).leaves p ≠ (r k).W.fs.read p) :
    ∃ j, Output (r j).W (r j).argv p ∧ m.fs.read p = (r j).leaves p ∧ (m.fs.read p).isSome := by
  obtain ⟨S, hS, ho, hch, C, I⟩ := reach_inv r L fs A false m h
  rcases hch k p (fun e => ht ⟨k, .inl e⟩) (fun e => ht ⟨k, .inr e⟩) with e | ⟨b, hb, hbt⟩
  · exact absurd e hc
  · have hd : (if b then (m.made k).drop (S (k, false)).calls.length else (m.made k).take (S (k, false)).calls.length) = (S (k, b)).calls := by
      rw [hk, (hS k).2.2]
      cases b <;> simp
    obtain ⟨⟨j, b'⟩, h1, h2, h3, h4⟩ := I.calm rfl (k, b) hb hd
    obtain ⟨g1, g2⟩ := ho j b' h1
    obtain ⟨a1, a2⟩ := I.full (j, b') h1 h3
    rw [h2, hbt] at g1 g2
    have : m.fs.read p = some (S (j, b')).content := by
      unfold FS.read readIn
      rw [← hbt, h4]
      dsimp only
      rw [a1]
    exact ⟨j, g1, by rw [this, g2], by rw [this]; rfl⟩

/-- **C95** (partial: only if no other run names the file).  Without power losses, once a run that changes `p` has made all its calls,
and no other run names `p` as an output, `p` holds what the run alone leaves there, whatever the other runs do. -/
theorem C95_alone_partial {ι : Type} [DecidableEq ι] (r : ι → Run) (L : ∀ k, Laws (r k).W.D.P) (fs : FS) (A : Apart r fs)
    (m : Machine ι) (h : Reach r false fs m) (k : ι) (hk : m.made k = (r k).calls) (p : Path) (ht : ¬ Temporary r p)
    (hc : (r k).leaves p ≠ (r k).W.fs.read p) (ho : ∀ j, j ≠ k → ¬ Output (r j).W (r j).argv p) :
    m.fs.read p = (r k).leaves p := by
  obtain ⟨j, h1, h2, _⟩ := C94_done r L fs A m h k hk p ht hc
  by_cases e : j = k
  · subst e; exact h2
  · exact absurd h1 (ho j e)

/-- **C94** (no litter).  A run that has made all its calls and was not stopped leaves no temporary file if removing files works,
whatever the other runs do. -/
theorem C94_no_litter {ι : Type} [DecidableEq ι] (r : ι → Run) (L : ∀ k, Laws (r k).W.D.P) (fs : FS) (A : Apart r fs)
    (power : Bool) (m : Machine ι) (h : Reach r power fs m) (k : ι) (hk : m.made k = (r k).calls) (hl : ¬ m.dead k)
    (hr1 : (r k).W.env1.removeErr = none) (hr2 : (r k).W.env2.removeErr = none) :
    m.fs.dir (r k).W.env1.tmp = none ∧ m.fs.dir (r k).W.env2.tmp = none := by
  obtain ⟨S, hS, ho, hch, C, I⟩ := reach_inv r L fs A power m h
  have one : ∀ b, (S (k, b)).env.removeErr = none → m.fs.dir (S (k, b)).env.tmp = none := by
    intro b hr
    rw [I.dir (k, b) hl]
    have hd : (if b then (m.made k).drop (S (k, false)).calls.length else (m.made k).take (S (k, false)).calls.length) = (S (k, b)).calls := by
      rw [hk, (hS k).2.2]
      cases b <;> simp
    dsimp only
    rw [hd]
    have hF : Fresh blank (S (k, b)).env.tmp (S (k, b)).env.inode := by
      constructor <;> simp [blank]
    have ht := C.out (k, b) (k, b)
    have hrun := (S (k, b)).run
    cases hok : (S (k, b)).ok with
    | false => rw [hok] at hrun; exact (hrun.failure blank hF).2 hr
    | true => rw [hok] at hrun; exact (hrun.success blank hF (ht hok)).2.1
  have h1 := one false
  have h2 := one true
  rw [(hS k).1] at h1
  rw [(hS k).2.1] at h2
  exact ⟨h1 hr1, h2 hr2⟩

end Sigtool
