import Verif.Spec.Outsider
import Verif.Spec.Adversary
import Verif.Spec.Sign
/-!
# Spec.Reaction: what a recipient of a changed file does, computed without any key, independent of the code

Whoever has a file and a changed file with the same header can say how many bytes a recipient gets and whether he sees an
error: he gets chunk after chunk as long as the two files agree, and the bare marker `80 00 00 00` ends a file at any place.
He only has to know whether the file is signed, because the trailer of an unsigned file is not compared with anything.
-/

namespace Sigtool.Spec

/-- `genuine` is what is left of the data of the file, `body` what is left of the data of the changed file. -/
def react (signed : Bool) : Nat → (genuine body : Bytes) → Nat × Bool
  | 0, _, _ => (0, false)
  | fuel + 1, genuine, body =>
    let word := (genuine.take 4).foldl (fun a b => a * 256 + b.toNat) 0
    let n := word % 2^31
    if body.take 4 = [0x80, 0, 0, 0] then (0, true)
    else if body.take (4 + n + 16) = genuine.take (4 + n + 16) then
      if 2^31 ≤ word then
        let trailer := (body.drop (4 + n + 16)).take 64
        if trailer.length = 64 ∧ (signed = true → trailer = genuine.drop (4 + n + 16)) then (n, true) else (0, false)
      else
        let r := react signed fuel (genuine.drop (4 + n + 16)) (body.drop (4 + n + 16))
        (n + r.1, r.2)
    else (0, false)

/-- The number of bytes a recipient gets, and whether there is no error. -/
def reaction (signed : Bool) (file changed : Bytes) : Nat × Bool :=
  react signed file.length (file.drop (front file).length) (changed.drop (front file).length)

/-- Somewhere in `body` stands a signature of `mac` other than `trailer`. -/
def OtherSignature (P : Prims) (pk mac trailer body : Bytes) : Prop :=
  ∃ tr : Bytes, tr.length = 64 ∧ tr ≠ trailer ∧ tr <:+: body ∧ P.edVerify pk (P.sha512 (messageInput mac)) tr = true

end Sigtool.Spec
