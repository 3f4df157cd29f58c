import Verif.Spec.Program
/-!
# Spec.ManyRuns: any number of runs of the program on one machine

Runs are interleaved call by call in any order, may be killed at any moment, and the machine may lose power at any moment and
come back; runs that have made a call are then gone, others may still start.  Each run `k` has its own `World`, so what it read from
the files is not tied to the common file system: the theorems hold whatever the runs saw.
-/

namespace Sigtool.Spec

/-- One run of the program. -/
structure Run where
  W : World
  argv : List Bytes

/-- The file system calls the run makes when nobody stops it. -/
def Run.calls (r : Run) : List Sys := (r.W.main r.argv).sys

/-- What the run leaves at `p` when it is alone and nobody stops it. -/
def Run.leaves (r : Run) (p : Path) : Option Bytes := (r.W.fs.run r.calls).read p

/-- The machine: its file system, the calls each run has made so far, and the runs that were stopped. -/
structure Machine (ι : Type) where
  fs : FS
  made : ι → List Sys
  dead : ι → Prop

/-- The machine before any of the runs. -/
def Machine.start (ι : Type) (fs : FS) : Machine ι := ⟨fs, fun _ => [], fun _ => False⟩

/-- What may happen next; power losses only if `power`. -/
inductive Happens {ι : Type} [DecidableEq ι] (r : ι → Run) (power : Bool) : Machine ι → Machine ι → Prop
  /-- run `k` makes its next call -/
  | call (m : Machine ι) (k : ι) (c : Sys) : ¬ m.dead k → m.made k ++ [c] <+: (r k).calls →
      Happens r power m ⟨m.fs.step c, setAt m.made k (m.made k ++ [c]), m.dead⟩
  /-- run `k` is killed -/
  | kill (m : Machine ι) (k : ι) : Happens r power m ⟨m.fs, m.made, fun j => j = k ∨ m.dead j⟩
  /-- the machine loses power and is started again -/
  | loss (m : Machine ι) (dir : Dir) (data : Nat → Bytes) : power = true → CrashImage m.fs dir data →
      Happens r power m ⟨{ dir := dir, data := data, mode := m.fs.mode }, m.made, fun j => m.made j ≠ [] ∨ m.dead j⟩

/-- The histories. -/
inductive Reach {ι : Type} [DecidableEq ι] (r : ι → Run) (power : Bool) (fs : FS) : Machine ι → Prop
  | start : Reach r power fs (.start ι fs)
  | next {m m' : Machine ι} : Reach r power fs m → Happens r power m m' → Reach r power fs m'

/-- The name is that of a temporary file of one of the runs. -/
def Temporary {ι : Type} (r : ι → Run) (p : Path) : Prop := ∃ k, p = (r k).W.env1.tmp ∨ p = (r k).W.env2.tmp

/-- Names and inodes of temporary files are unused on the machine and not shared between runs. -/
structure Apart {ι : Type} (r : ι → Run) (fs : FS) : Prop where
  normal : ∀ k, Normal (r k).W (r k).argv
  fresh : ∀ k, Fresh fs (r k).W.env1.tmp (r k).W.env1.inode ∧ Fresh fs (r k).W.env2.tmp (r k).W.env2.inode
  tmp : ∀ j k, j ≠ k → (r j).W.env1.tmp ≠ (r k).W.env1.tmp ∧ (r j).W.env1.tmp ≠ (r k).W.env2.tmp ∧
    (r j).W.env2.tmp ≠ (r k).W.env2.tmp
  inode : ∀ j k, j ≠ k → (r j).W.env1.inode ≠ (r k).W.env1.inode ∧ (r j).W.env1.inode ≠ (r k).W.env2.inode ∧
    (r j).W.env2.inode ≠ (r k).W.env2.inode
  out : ∀ k p, Output (r k).W (r k).argv p → ¬ Temporary r p

end Sigtool.Spec
