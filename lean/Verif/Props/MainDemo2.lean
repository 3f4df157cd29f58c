import Verif.Props.MainDemo
import Verif.Props.MainPipe
/-!
# A concrete signed pipeline: C80

`sigtool GEN -E PW k`, then `sigtool enc -s k.key k.pub -` from standard input to standard output, then
`sigtool dec -v k.pub k.key` from standard input to standard output.
-/

namespace Sigtool.MainDemo
open Sigtool Spec CliDemo

/-- A flag parser that knows `-s file` for `encrypt` and `-v file` for `decrypt`; the pass phrase is in the variable `PW`. -/
def flags2 : Flags where
  top := fun a => .ok {} a
  gen := fun a => .ok {} a
  sign := fun a => .ok {} a
  verify := fun a => .ok () a
  enc := fun a => match a with
    | x :: f :: xs => if x = ascii "-s" then .ok { sign := f, envpw := ascii "PW" } xs else .bad
    | xs => .ok {} xs
  dec := fun a => match a with
    | x :: f :: xs => if x = ascii "-v" then .ok { sender := f, envpw := ascii "PW" } xs else .bad
    | xs => .ok {} xs

def PE : World := { world fs1 "t5" "t6" 5 6 ⟨[], .eof, false⟩ with flags := flags2, stdin := ⟨[plain.take 7, plain.drop 7], .eof, true⟩ }
def pev : List Bytes := [ascii "enc", ascii "-s", keyName k, pubName k, ascii "-"]

def PX : World := { world fs1 "t7" "t8" 7 8 ⟨[], .eof, false⟩ with flags := flags2, stdin := ⟨[(PE.main pev).stdout], .eof, false⟩ }
def pxv : List Bytes := [ascii "dec", ascii "-v", pubName k, keyName k]

/-- The pipeline works, and nothing is left on disk. -/
example : (PE.main pev).exit = 0 ∧ (PX.main pxv).exit = 0 ∧ (PX.main pxv).stdout = plain ∧ (PX.main pxv).sys = [] := by decide +kernel

/-- Hypotheses of C80 about these runs: what `encrypt` produced, the pass phrases, the inputs, the output. -/
example : Produced PE.fs [] (PE.main pev) (PE.main pev).stdout ∧ PassPhrase PE false (ascii "PW") pw ∧
    Input PE (ascii "-") PE.stdin ∧ DecArgs PX [keyName k] (k ++ ascii ".key") PX.stdin ∧ PX.stdin.content = (PE.main pev).stdout ∧
    GoodOutput PX.fs PX.env1 PX.stdout [] false ∧ Runs PX pxv "decrypt" [ascii "-v", pubName k, keyName k] := by
  refine ⟨.inl ⟨.inl rfl, rfl⟩, ?_, .stdin, .stdin _, ?_, .inl ⟨.inl rfl, fun _ _ h => by cases h⟩,
    ⟨{}, ascii "dec", rfl, rfl, rfl, by decide +kernel, by decide +kernel, by decide +kernel⟩⟩
  · have : pw = PE.getenv (ascii "PW") := by decide +kernel
    rw [this]
    exact .env rfl (by decide)
  · unfold Reader.content PX
    simp

/-- Without `--verify-sender` the signed message is refused. -/
example : (PX.main [ascii "dec", ascii "-v", [], keyName k]).exit = 1 := by decide +kernel

end Sigtool.MainDemo
