import Verif.Props.ManyRuns
import Verif.Props.MainDemo
/-!
# Two runs at the same time (C94)

Two runs of `generate` with the same name on a file system that has neither of the files; both look before either writes.
-/

namespace Sigtool.ManyDemo
open Sigtool Spec CliDemo MainDemo

/-- The second run: its own random seed, temporary files and inodes. -/
def G2 : World := { world fs0 "t3" "t4" 3 4 ⟨[], .eof, false⟩ with seed := List.replicate 32 4 }

theorem g2Runs : Runs G2 gv "generate" [ascii "-E", ascii "PW", k] :=
  ⟨{}, ascii "GEN", rfl, rfl, rfl, by decide +kernel, by decide +kernel, by decide +kernel⟩

theorem gFlags (W : World) (h : W.flags = flags) : W.flags.gen [ascii "-E", ascii "PW", k] = .ok { envpw := ascii "PW" } [k] := by
  rw [h]; rfl

/-- The outputs of such a run. -/
theorem gOut {W : World} (hr : Runs W gv "generate" [ascii "-E", ascii "PW", k]) (hf : W.flags = flags) (hc : W.clean = id) {p : Path}
    (h : Output W gv p) : p = keyName k ∨ p = pubName k := by
  cases h with
  | key rest o bn more hr' hg =>
    obtain ⟨_, rfl⟩ := runs_unique hr hr'
    rw [gFlags W hf] at hg; cases hg
    left; rw [hc]; rfl
  | pub rest o bn more hr' hg =>
    obtain ⟨_, rfl⟩ := runs_unique hr hr'
    rw [gFlags W hf] at hg; cases hg
    right; rw [hc]; rfl
  | sig _ _ _ _ _ hr' => exact absurd (runs_unique hr hr').1 (by decide)
  | enc _ _ _ hr' => exact absurd (runs_unique hr hr').1 (by decide)
  | dec _ _ _ hr' => exact absurd (runs_unique hr hr').1 (by decide)

theorem g2Normal : Normal G2 gv where
  fresh1 := fs0_fresh _ _ (by decide +kernel) (by decide +kernel) (by decide)
  fresh2 := fs0_fresh _ _ (by decide +kernel) (by decide +kernel) (by decide)
  tmp := by decide +kernel
  inode := by decide
  out := by
    intro p hp
    rcases gOut g2Runs rfl rfl hp with rfl | rfl
    · exact ⟨by decide +kernel, by decide +kernel⟩
    · exact ⟨by decide +kernel, by decide +kernel⟩
  order := by exact commands.reverse_perm
  coins := ⟨by decide, by decide, by decide⟩
  coin := by decide

/-- The two runs. -/
def two : Bool → Run := fun b => if b then ⟨G2, gv⟩ else ⟨G, gv⟩

theorem twoApart : Apart two fs0 where
  normal b := by cases b; exacts [gNormal, g2Normal]
  fresh b := by cases b; exacts [⟨gNormal.fresh1, gNormal.fresh2⟩, ⟨g2Normal.fresh1, g2Normal.fresh2⟩]
  tmp := by decide +kernel
  inode := by decide +kernel
  out := by
    intro b p hp
    have hp : p = keyName k ∨ p = pubName k := by
      cases b
      · exact gOut gRuns rfl rfl hp
      · exact gOut g2Runs rfl rfl hp
    rintro ⟨b', h⟩
    rcases hp with rfl | rfl <;> cases b' <;> rcases h with h | h <;> exact absurd h (by decide +kernel)

end Sigtool.ManyDemo

namespace Sigtool
open Spec

/-- A run makes several calls in a row. -/
theorem Spec.Reach.calls {ι : Type} [DecidableEq ι] {r : ι → Run} {power : Bool} {fs : FS} (k : ι) (cs : List Sys) :
    ∀ {m : Machine ι}, Reach r power fs m → ¬ m.dead k → m.made k ++ cs <+: (r k).calls →
    Reach r power fs ⟨m.fs.run cs, setAt m.made k (m.made k ++ cs), m.dead⟩ := by
  induction cs with
  | nil =>
    intro m h hd _
    have : setAt m.made k (m.made k ++ []) = m.made := by
      funext j
      by_cases hj : j = k
      · subst hj; rw [setAt_eq, List.append_nil]
      · rw [setAt_ne _ _ _ _ hj]
    rw [this]
    exact h
  | cons c cs ih =>
    intro m h hd hp
    have h1 := Reach.next h (Happens.call m k c hd (List.IsPrefix.trans ⟨cs, by simp⟩ hp))
    have h2 := ih h1 hd (by dsimp only; rw [setAt_eq]; simpa using hp)
    have e : setAt (setAt m.made k (m.made k ++ [c])) k ((setAt m.made k (m.made k ++ [c]) k) ++ cs) =
        setAt m.made k (m.made k ++ c :: cs) := by
      funext j
      by_cases hj : j = k
      · subst hj; rw [setAt_eq, setAt_eq, setAt_eq]; simp
      · rw [setAt_ne _ _ _ _ hj, setAt_ne _ _ _ _ hj, setAt_ne _ _ _ _ hj]
    dsimp only at h2
    rw [e] at h2
    exact h2

/-- One run in the middle of another. -/
theorem reach_mixed (r : Bool → Run) (fs : FS) (a b : List Sys) (e : a ++ b = (r false).calls) :
    ∃ m, Reach r false fs m ∧ m.fs = fs.run (a ++ (r true).calls ++ b) ∧ ∀ b, m.made b = (r b).calls ∧ ¬ m.dead b := by
  have h1 := Reach.calls (r := r) (power := false) (fs := fs) false a .start (by simp [Machine.start])
    (by show a <+: _; rw [← e]; exact List.prefix_append _ _)
  have h2 := h1.calls true (r true).calls (by simp [Machine.start]) (by simp [Machine.start, setAt])
  have h3 := h2.calls false b (by simp [Machine.start]) (by simp [Machine.start, setAt, e])
  refine ⟨_, h3, ?_, ?_⟩
  · show ((fs.run a).run _).run _ = _
    rw [run_append, run_append]
  · intro b
    cases b <;> simp [Machine.start, setAt, e]

/-- A run is killed, the machine loses power, another run does its work. -/
theorem reach_loss (r : Bool → Run) (fs : FS) (n : Nat) :
    ∃ m, Reach r true fs m ∧ m.made true = (r true).calls ∧ m.made false = (r false).calls.take n ∧ ¬ m.dead true ∧ m.dead false := by
  have h1 := Reach.calls (r := r) (power := true) (fs := fs) false ((r false).calls.take n) .start (by simp [Machine.start])
    (by show _ <+: _; exact List.take_prefix _ _)
  have h2 := Reach.next h1 (.kill _ false)
  have h3 := Reach.next h2 (.loss _ _ _ rfl (CrashImage.kill _))
  have h4 := h3.calls true (r true).calls (by simp [Machine.start, setAt]) (by simp [Machine.start, setAt])
  exact ⟨_, h4, by simp [Machine.start, setAt], by simp [Machine.start, setAt], by simp [Machine.start, setAt], by simp⟩

end Sigtool

namespace Sigtool.ManyDemo
open Sigtool Spec CliDemo MainDemo

/-- The first run up to and including the renaming of the private key file. -/
def half : List Sys := ((two false).calls.takeWhile fun c => match c with | .rename _ _ => false | _ => true) ++ [.rename (ascii "t1") (keyName k)]

/-- The first run writes its private key file, the second run does all its work, the first run writes its public key file. -/
def mixed : List Sys := half ++ (two true).calls ++ (two false).calls.drop half.length

theorem half_eq : half ++ (two false).calls.drop half.length = (two false).calls := by decide +kernel

theorem mixed_reach : ∃ m, Reach two false fs0 m ∧ m.fs = fs0.run mixed ∧ ∀ b, m.made b = (two b).calls ∧ ¬ m.dead b :=
  reach_mixed two fs0 half _ half_eq

end Sigtool.ManyDemo

namespace Sigtool
open Spec CliDemo MainDemo ManyDemo

/-- **C95** (refuted: a pair of key files written by successful runs of `generate` belongs together, and without `--force` nothing is
overwritten).  Two runs of `generate` with the same name at the same time, both without `--force`, both successful: in the end the
private key file is that of the second run, which replaced that of the first, and the public key file is that of the first run.
The two keys do not belong together, and the private key of the first run is lost. -/
theorem C95_pair_refuted : ∃ (r : Bool → Run) (fs : FS) (m : Machine Bool), Apart r fs ∧ Reach r false fs m ∧
    (∀ b, (r b).W.fs.read = fs.read ∧ m.made b = (r b).calls ∧ ((r b).W.main (r b).argv).exit = 0 ∧
      ∃ rest o bn more, Runs (r b).W (r b).argv "generate" rest ∧ (r b).W.flags.gen rest = .ok o (bn :: more) ∧ o.force = false ∧
        (r b).W.clean bn = k) ∧
    m.fs.read (k ++ ascii ".key") = (r true).leaves (k ++ ascii ".key") ∧
    m.fs.read (k ++ ascii ".pub") = (r false).leaves (k ++ ascii ".pub") ∧
    (newPrivateKey (r true).W.D.P (r true).W.seed).pub.pk ≠ (newPrivateKey (r false).W.D.P (r false).W.seed).pub.pk ∧
    m.fs.read (k ++ ascii ".key") ≠ (r false).leaves (k ++ ascii ".key") := by
  obtain ⟨m, h1, h2, h3⟩ := mixed_reach
  refine ⟨two, fs0, m, twoApart, h1, ?_, ?_, ?_, ?_, ?_⟩
  · intro b
    refine ⟨?_, (h3 b).1, ?_, ?_⟩
    · cases b <;> rfl
    · cases b <;> decide +kernel
    · refine ⟨[ascii "-E", ascii "PW", k], { envpw := ascii "PW" }, k, [], ?_, ?_, rfl, ?_⟩
      · cases b; exacts [gRuns, g2Runs]
      · cases b <;> exact gFlags _ rfl
      · cases b <;> rfl
  · rw [h2]; decide +kernel
  · rw [h2]; decide +kernel
  · decide +kernel
  · rw [h2]; decide +kernel

/-- The hypotheses of `C94_atomic` and `C94_done` are met by these two runs. -/
example : ∃ m, Reach two false fs0 m ∧ OnDisk fs0 (keyName k) ∧ ¬ Temporary two (keyName k) ∧ m.made true = (two true).calls ∧
    (two true).leaves (keyName k) ≠ (two true).W.fs.read (keyName k) := by
  obtain ⟨m, h1, h2, h3⟩ := mixed_reach
  refine ⟨m, h1, ⟨by simp [fs0], by simp [fs0]⟩, ?_, (h3 true).1, by decide +kernel⟩
  rintro ⟨b, h⟩
  cases b <;> rcases h with h | h <;> exact absurd h (by decide +kernel)

/-- A history with a kill and a power loss: the first run is killed after 5 calls, the machine loses power, the second run does its work. -/
example : ∃ m, Reach two true fs0 m ∧ m.made true = (two true).calls ∧ m.made false = (two false).calls.take 5 ∧ ¬ m.dead true ∧ m.dead false :=
  reach_loss two fs0 5

end Sigtool
