import Verif.Prims
/-!
# Spec: what a sigtool signature is

Written down independently of the code: the byte string that is hashed for a message and for a file, and what counts as
breaking the primitives.
-/

namespace Sigtool.Spec

/-- The hash input for a message: a fixed prefix, then the message. -/
def messageInput (m : Bytes) : Bytes := "sigtool signed message".toUTF8.toList ++ m

/-- The hash input for a file: its content, then its length as eight bytes, most significant first. -/
def fileInput (c : Bytes) : Bytes := c ++ (List.range 8).map fun i => UInt8.ofNat (c.length / 256 ^ (7 - i))

/-- Two different inputs with the same SHA-512 hash. -/
def Collides (P : Prims) (x y : Bytes) : Prop := x ≠ y ∧ P.sha512 x = P.sha512 y

/-- `sig` is a valid Ed25519 signature on `d` under `pk` although `d` is not among the strings `signed` that the owner of the
key signed: an existential forgery. -/
def Forged (P : Prims) (pk : Bytes) (signed : List Bytes) (d sig : Bytes) : Prop :=
  d ∉ signed ∧ P.edVerify pk d sig = true

end Sigtool.Spec
