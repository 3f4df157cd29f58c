import Verif.Spec.Edwards
import Verif.Spec.SshText
import Verif.Spec.Sign
/-!
# Specification for C122: a private key file that somebody changed
-/

namespace Sigtool.Spec

/-- XOR `delta` into `b`, from byte number `off` on. -/
def flipAt (off : Nat) (delta b : Bytes) : Bytes :=
  b.take off ++ xorBytes ((b.drop off).take delta.length) delta ++ b.drop (off + delta.length)

/-- Where the second half of the secret is in the private section of an Ed25519 key: after two check words (8 bytes), the key type
(4 + 11), the public key (4 + 32), a length (4) and the seed (32). -/
def publicHalf : Nat := 95

/-- What `SignFile` signs and `VerifyFile` checks for a file with this content. -/
def fileMessage (P : Prims) (content : Bytes) : Bytes := P.sha512 (messageInput (P.sha512 (fileInput content)))

/-- The number `k` of RFC 8032, sections 5.1.6 and 5.1.7. -/
def challenge (P : Prims) (R pk m : Bytes) : Nat := leNat (P.sha512 (R ++ pk ++ m)) % edOrder

/-- What everybody can compute from two signatures of the message `m` that have the same first half: (S - S') / (k - k') modulo
the order. -/
def stolen (P : Prims) (pk pk' m sig sig' : Bytes) : Nat :=
  (((leNat (sig.drop 32) : ZMod edOrder) - leNat (sig'.drop 32)) *
    ((challenge P (sig.take 32) pk m : ZMod edOrder) - challenge P (sig.take 32) pk' m)⁻¹).val

/-- A signature of `m` made with the number `a` in place of the private key, and any number `r`. -/
noncomputable def forge (P : Prims) (pk : Bytes) (a r : Nat) (m : Bytes) : Bytes :=
  (edBase.mul r).encode ++ leBytes 32 ((r + challenge P (edBase.mul r).encode pk m * a) % edOrder)

end Sigtool.Spec
