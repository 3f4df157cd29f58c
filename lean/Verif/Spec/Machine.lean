import Verif.Flags
import Verif.Spec.Program
import Verif.Spec.Flags
/-!
# Spec.Machine: a run on a machine where nothing goes wrong
-/

namespace Sigtool.Spec

/-- No call on the file fails, from creating it to renaming it. -/
def FileWorks (env : SafeEnv) : Prop :=
  env.openErr = none ∧ (∀ k e, WEv.fail k e ∉ env.writes) ∧ env.syncErr = none ∧ env.closeErr = none ∧ env.renameErr = none

/-- A run of the program as it is (with its own option parser) on a machine where nothing goes wrong: no call on an output file
fails, files are read to their end and can be mapped into memory, the user has a home directory with a readable `authorized_keys`
file or none, the terminal delivers the pass phrase `pw`, and the random source what it is asked for. -/
structure Works (W : World) (argv : List Bytes) (pw : Bytes) : Prop where
  normal : Normal W argv
  flags : W.flags = realFlags
  lower : ∀ w ∈ commandNames, W.lower (word w) = word w
  file1 : FileWorks W.env1
  file2 : FileWorks W.env2
  maps : W.mapErr = none
  opened : ∀ p b, W.fs.read p = some b → (W.opened p).content = b ∧ (W.opened p).last = .eof
  home : ∃ h, W.home = some h ∧
    (W.fs.dir (h ++ ascii "/.ssh/authorized_keys") = none ∨ ∃ b, W.fs.read (h ++ ascii "/.ssh/authorized_keys") = some b)
  size : W.parseSize (word "128k") = some 131072
  askpass : W.askpass = .ok pw
  stdout : W.stdout.out = []
  seed : W.seed.length = 32
  salt : W.salt.length = 32
  rbuf : ∀ i, (W.rbuf i).length = 12

/-- A name that is not empty and does not begin with `-`. -/
def FileName (w : Bytes) : Prop := w ≠ [] ∧ w.head? ≠ some 45

/-- The next run on the same machine finds the files as the previous one left them. -/
def Next (A : World) (argv : List Bytes) (B : World) : Prop := B.D = A.D ∧ B.fs = A.fs.run (A.main argv).sys

end Sigtool.Spec
