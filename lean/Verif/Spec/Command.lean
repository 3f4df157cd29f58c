import Verif.Base
/-! # Spec: the command names of `sigtool` -/

namespace Sigtool.Spec

/-- The six commands, as the usage message lists them, and `help`. -/
def commandNames : List String := ["generate", "sign", "verify", "encrypt", "decrypt", "help"]

/-- `arg` abbreviates the command `w`: it is a non-empty beginning of its name. -/
def Abbreviates (arg : Bytes) (w : String) : Prop := w ∈ commandNames ∧ arg ≠ [] ∧ arg <+: w.toUTF8.toList

/-- ASCII lower case of one byte. -/
def lowerByte (b : UInt8) : UInt8 := if 65 ≤ b ∧ b ≤ 90 then b + 32 else b

end Sigtool.Spec
