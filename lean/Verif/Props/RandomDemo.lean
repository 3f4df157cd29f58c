import Verif.Props.RandomCli
import Verif.Props.MainDemo
/-! # C84: concrete runs -/

namespace Sigtool.MainDemo
open Sigtool Spec CliDemo

/-- A random source with `n` bytes, delivered in two pieces, that then fails. -/
def source (n : Nat) : Reader := ⟨[List.replicate (n / 3) 1, List.replicate (n - n / 3) 2], .io 5, false⟩

/-- `sigtool enc -o out k.pub in` needs 96 + 12 + 64 bytes: with 180 it succeeds and leaves 8, with 171 it crashes in the trailer,
with 100 in the nonce, with 90 when the encryptor is made; `generate` needs 64: with 63 it crashes, with 31 it reports an error. -/
example : (E.mainR ev (source 180)).1.exit = 0 ∧ (E.mainR ev (source 180)).2.content.length = 8 ∧
    (E.mainR ev (source 171)).1.exit = 2 ∧ (E.mainR ev (source 100)).1.exit = 2 ∧ (E.mainR ev (source 90)).1.exit = 2 ∧
    (G.mainR gv (source 64)).1.exit = 0 ∧ (G.mainR gv (source 63)).1.exit = 2 ∧ (G.mainR gv (source 31)).1.exit = 1 := by decide +kernel

/-- The container made with 180 bytes can be decrypted; the crash leaves no output file. -/
example : (fs1.run (E.mainR ev (source 180)).1.sys).exists (ascii "out") = true ∧
    (fs1.run (E.mainR ev (source 171)).1.sys).exists (ascii "out") = false ∧
    (fs1.run (E.mainR ev (source 171)).1.sys).exists (ascii "t5") = false ∧ (E.mainR ev (source 171)).1.sys.length > 100 := by decide +kernel

end Sigtool.MainDemo
