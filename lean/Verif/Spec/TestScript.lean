import Verif.Spec.Machine
import Verif.Spec.KeyTexts
/-!
# Spec.TestScript: the commands of the project's own test script (`/repo/tests.sh:83-117`)
-/

namespace Sigtool.Spec

/-- The command lines of `tests.sh` after "generate keys" (`tests.sh:94-117`), in order.  `k`, `k2` are the names given to `generate`, `file` is the file
that is signed and encrypted, `pks`, `pks2` are the public keys as text (`$pk_str`, `$pk2_str`). -/
def testScript (k k2 file sig enc dec pks pks2 : Bytes) : List (List Bytes) :=
  [[word "g", word "-E", word "FOO", k],
   [word "g", word "-E", word "FOO", k],
   [word "g", word "-E", word "FOO", word "--overwrite", k],
   [word "g", word "-E", word "FOO", k2],
   [word "s", word "-E", word "FOO", k ++ word ".key", file, word "-o", sig],
   [word "v", word "-q", k ++ word ".pub", sig, file],
   [word "v", word "-q", pks, sig, file],
   [word "v", word "-q", k2 ++ word ".pub", sig, file],
   [word "v", word "-q", pks2, sig, file],
   [word "e", word "-E", word "FOO", word "-o", enc, k2 ++ word ".pub", file],
   [word "d", word "-E", word "FOO", word "-o", dec, k2 ++ word ".key", enc],
   [word "e", word "-E", word "FOO", word "--overwrite", word "-o", enc, word "-s", k ++ word ".key", k2 ++ word ".pub", file],
   [word "d", word "-E", word "FOO", word "--overwrite", word "-o", dec, word "-v", k ++ word ".pub", k2 ++ word ".key", enc]]

/-- The command lines of `tests.sh` with keys of `ssh-keygen` (`tests.sh:83-88`), in order: `ssk1`, `ssk2` are the private key files, `spks` is
the second word of the first public key file (`$spk1_str`). -/
def sshScript (ssk1 ssk2 file sig enc dec spks : Bytes) : List (List Bytes) :=
  [[word "s", word "--no-password", ssk1, word "-o", sig, file],
   [word "v", word "-q", ssk1 ++ word ".pub", sig, file],
   [word "v", word "-q", spks, sig, file],
   [word "e", word "--no-password", word "-o", enc, ssk2 ++ word ".pub", file],
   [word "d", word "--no-password", word "-o", dec, ssk2, enc]]

/-- The machine runs the commands one after the other: in run `i` the world is `W i`, and every run finds the files as the one before
left them.  Nothing goes wrong, and the variable `FOO` holds `pw` all the time.  (`tests.sh` does not export `FOO`, so there `pw` is
empty.) -/
structure RunsScript (W : Nat → World) (script : List (List Bytes)) (pw : Bytes) : Prop where
  works : ∀ i (h : i < script.length), ∃ typed, Works (W i) script[i] typed
  foo : ∀ i < script.length, (W i).getenv (word "FOO") = pw
  lower : ∀ i < script.length, ∀ s : Bytes, (∀ b ∈ s, b < 128) → (W i).lower s = s.map lowerByte
  next : ∀ i (h : i < script.length), Next (W i) script[i] (W (i + 1))

/-- The exit statuses of the runs. -/
def statuses (W : Nat → World) (script : List (List Bytes)) : List Nat := script.zipIdx.map fun a => ((W a.2).main a.1).exit

end Sigtool.Spec
