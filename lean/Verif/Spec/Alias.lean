import Verif.Alias
/-!
# Spec.Alias: the caller's own memory
-/

namespace Sigtool.Spec

/-- The caller makes no other key, and writes only to arrays of his own: those with `own` at the start and the buffers he makes
himself. He does not write to what the key handed out. -/
def OwnArraysOnly (P : Prims) (Y : Yaml) (pem : Bytes → Option PemBlock) : Shared → (own : Nat → Prop) → List MemOp → Prop
  | _, _, [] => True
  | s, own, op :: ops =>
    (∀ a v, op = .write a v → own a) ∧ (∀ a pw, op ≠ .load a pw) ∧
    OwnArraysOnly P Y pem (s.step P Y pem op).2
      (fun a => own a ∨ ∃ v, op = .alloc v ∧ (s.step P Y pem op).1 = .slice (.ok a)) ops

end Sigtool.Spec
