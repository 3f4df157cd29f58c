import Verif.Spec.Accepts
/-!
# Spec.Rewritten: what a recipient of a container can put in place of its contents

He has his root key from the header, like any other recipient of the container, and keeps the header as it is.
-/

namespace Sigtool.Spec

/-- The header with the fixed part before it and the digest after it, then `evil`, each byte a sealed chunk of its own, and the
empty end marker.  Nothing but the encoded header and the root key is needed to make this. -/
def rewritten (P : Prims) (hb key evil : Bytes) : Bytes :=
  let sum := P.sha256 (framed hb)
  framed hb ++ sum ++ (sealedMid P (sessionKeys P key sum).2.1 (sessionKeys P key sum).1 0 (evil.map fun b => [b]) ++ [0x80, 0, 0, 0])

/-- `file` was made from the container `input` by the owner of the private key `sk`, to whom `input` was also sent: it says
`evil`. -/
def Meddled (P : Prims) (input : Bytes) (sk : PrivateKey) (evil file : Bytes) : Prop :=
  ∃ hb h key body, hb.length ≤ 1048576 ∧ input = framed hb ++ P.sha256 (framed hb) ++ body ∧ Decodes hb h ∧ FirstOpened P h sk key ∧
    file = rewritten P hb key evil

/-- Both private keys get the same root key out of the container. -/
def SameRoot (P : Prims) (input : Bytes) (sk sk' : PrivateKey) : Prop :=
  ∃ hb h key body, hb.length ≤ 1048576 ∧ input = framed hb ++ P.sha256 (framed hb) ++ body ∧ Decodes hb h ∧ FirstOpened P h sk key ∧
    FirstOpened P h sk' key

end Sigtool.Spec
