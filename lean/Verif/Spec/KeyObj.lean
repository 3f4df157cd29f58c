import Verif.KeyObj
import Verif.Spec.Recipient
/-!
# Spec.KeyObj: what a key object should be

A key object should act as the key that was loaded into it last.
-/

namespace Sigtool.Spec

/-- The text is an OpenSSH public key line. -/
def SSHPub (P : Prims) (b : Bytes) : Prop := ∃ k, parseSSHPublicKey P b = .ok (some k)

/-- The text is a public key: `MakePublicKey` accepts it. -/
def PubText (P : Prims) (Y : Yaml) (b : Bytes) : Prop := ∃ k, makePublicKey P Y b = .ok k

/-- The public key an object should hold after these calls: the last one loaded successfully (`start` if there is none). -/
inductive HoldsPub (P : Prims) (Y : Yaml) (start : Bytes) : List PubOp → Bytes → Prop
  | start : HoldsPub P Y start [] start
  | loaded (ops b k) : makePublicKey P Y b = .ok k → HoldsPub P Y start (ops ++ [.load b]) k.pk
  | refused (ops b x) : HoldsPub P Y start ops x → ¬ PubText P Y b → HoldsPub P Y start (ops ++ [.load b]) x
  | convert (ops x) : HoldsPub P Y start ops x → HoldsPub P Y start (ops ++ [.convert]) x
  | addTo (ops e rbuf x) : HoldsPub P Y start ops x → HoldsPub P Y start (ops ++ [.addTo e rbuf]) x

/-- No sigtool (YAML) key is loaded into an object that was used before. -/
def CarefulPub (P : Prims) (Y : Yaml) (ops : List PubOp) : Prop :=
  ∀ pre b post, ops = pre ++ .load b :: post → (∀ u ∈ pre, ∃ b', u = .load b') ∨ SSHPub P b ∨ ¬ PubText P Y b

/-- The same for private keys. -/
inductive HoldsPriv (P : Prims) (Y : Yaml) (pem : Bytes → Option PemBlock) (start : PrivateKey) : List PrivOp → PrivateKey → Prop
  | start : HoldsPriv P Y pem start [] start
  | loaded (ops b pw k) : makePrivateKey P Y pem b pw = .ok k → HoldsPriv P Y pem start (ops ++ [.load b pw]) k
  | refused (ops b pw x) : HoldsPriv P Y pem start ops x → (∀ k, makePrivateKey P Y pem b pw ≠ .ok k) →
      HoldsPriv P Y pem start (ops ++ [.load b pw]) x
  | convert (ops x) : HoldsPriv P Y pem start ops x → HoldsPriv P Y pem start (ops ++ [.convert]) x
  | setIn (ops d spk x) : HoldsPriv P Y pem start ops x → HoldsPriv P Y pem start (ops ++ [.setIn d spk]) x

def CarefulPriv (P : Prims) (Y : Yaml) (pem : Bytes → Option PemBlock) (ops : List PrivOp) : Prop :=
  ∀ pre b pw post, ops = pre ++ .load b pw :: post → (∀ u ∈ pre, ∃ b' pw', u = .load b' pw') ∨ looksOpenSSH b = true ∨
    ∀ k, makePrivateKey P Y pem b pw ≠ .ok k

end Sigtool.Spec
