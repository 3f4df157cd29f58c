import Verif.Spec.Recipient
import Verif.Spec.Sender
/-!
# Spec.Opening: what a private key gets out of a header, and what counts as proof of the sender, independent of the code
-/

namespace Sigtool.Spec

/-- The holder of the private key `sk` gets the root key `key` out of one of the wrapped keys of the header. -/
def OpensFor (P : Prims) (h : Header) (sk : PrivateKey) (key : Bytes) : Prop :=
  ∃ w ∈ h.keys, unwrapAs P (sk.sk.take 32) sk.pub.pk h.pk h.salt w = some key

/-- The header's sender field, opened with the root key, is a signature by `pk` that binds this header's ephemeral key, salt
and root key. -/
def SenderProof (P : Prims) (h : Header) (key : Bytes) (pk : PublicKey) : Prop :=
  ∃ sig, P.aeadOpen (senderSeal P key h.salt).1 (senderSeal P key h.salt).2 h.sender [] = some sig ∧ sig ≠ unsigned ∧
    ValidSignature P pk.pk (senderStatement P h.pk h.salt key) sig

end Sigtool.Spec
