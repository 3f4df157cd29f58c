import Verif.Curve
import Verif.Proto
/-!
# Spec.Recipient: key agreement with a recipient, independent of the code

From the comment at the top of `sign/encrypt.go`: an ephemeral Curve25519 key agrees with the recipient's converted
key on a shared secret; HKDF of it, salted with SHA-256 of header salt and a per-recipient nonce, gives the key and
nonce that wrap the root key, with the recipient's public key as additional data.
-/

namespace Sigtool.Spec

/-- Wrapping key and AEAD nonce for a shared secret. -/
def wrappingKey (P : Prims) (shared salt rxNonce : Bytes) : Bytes × Bytes :=
  let okm := P.hkdf512 shared (P.sha256 (salt ++ rxNonce)) (ascii "Receiver Key") 44
  (okm.take 32, okm.drop 32)

/-- The wrapped root key for the Ed25519 public key `pk`, made with the ephemeral scalar `esk`. -/
def wrapFor (P : Prims) (esk salt rootKey pk rxNonce : Bytes) : Option WrappedKey :=
  (P.x25519 esk (toMontgomery pk)).map fun shared =>
    { dkey := P.aeadSeal (wrappingKey P shared salt rxNonce).1 (wrappingKey P shared salt rxNonce).2 rootKey pk
      nonce := rxNonce }

/-- What the holder of the Ed25519 secret key with seed `seed` and public key `pk` gets out of a wrapped key, given
the ephemeral public key `epk`. -/
def unwrapAs (P : Prims) (seed pk epk salt : Bytes) (w : WrappedKey) : Option Bytes :=
  (P.x25519 (clamp ((P.sha512 seed).take 32)) epk).bind fun shared =>
    P.aeadOpen (wrappingKey P shared salt w.nonce).1 (wrappingKey P shared salt w.nonce).2 w.dkey pk

/-- A forgery against key wrapping: the blob wrapped for the public key `other` opens for the different key
`P.edPub seed`, although its additional data and key belong to `other`. -/
def WrapForgery (P : Prims) (esk salt rootKey other rxNonce seed : Bytes) : Prop :=
  other ≠ P.edPub seed ∧ ∃ epk w k, P.x25519 esk basepoint = some epk ∧
    wrapFor P esk salt rootKey other rxNonce = some w ∧ unwrapAs P seed (P.edPub seed) epk salt w = some k

end Sigtool.Spec
