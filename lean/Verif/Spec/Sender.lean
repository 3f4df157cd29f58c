import Verif.Spec.Container
/-!
# Spec.Sender: how a sender identifies himself, independent of the code

From the comment at the top of `sign/encrypt.go`: the sender signs a hash of magic, version, ephemeral key, salt and root
key; the signature (or 64 zero bytes) is sealed with a key derived from the root key; the trailer is a signature over an
HMAC of all chunk lengths and plaintexts.
-/

namespace Sigtool.Spec

/-- Key and nonce that seal the sender's signature in the header. -/
def senderSeal (P : Prims) (rootKey salt : Bytes) : Bytes × Bytes :=
  let okm := P.hkdf512 rootKey salt (ascii "Sender Sig") 44
  (okm.take 32, okm.drop 32)

/-- What the sender signs. -/
def senderStatement (P : Prims) (ephemeralPk salt rootKey : Bytes) : Bytes :=
  P.sha256 (ascii "SigTool" ++ [3] ++ ephemeralPk ++ salt ++ rootKey)

/-- `sig` is a signature of message `m` by the holder of the public key `pk`, in the sense of the library. -/
def ValidSignature (P : Prims) (pk m sig : Bytes) : Prop :=
  P.edVerify pk (P.sha512 (ascii "sigtool signed message" ++ m)) sig = true

/-- Nobody signed: 64 zero bytes stand for the signature. -/
def unsigned : Bytes := List.replicate 64 0

/-- The trailer `tr` makes the chunks `other` pass for the sender's although he sent `chunks`: either `tr` is a signature
for a message the sender did not sign in this session (he signed `statement` and the HMAC of his chunks), or the HMAC of
the two chunk sequences is the same, or the HMAC of `other` is the header statement. -/
def TrailerForgery (P : Prims) (pk hmacKey statement : Bytes) (chunks other : List Bytes) (tr : Bytes) : Prop :=
  other ≠ chunks ∧
  ((ValidSignature P pk (P.hmac256 hmacKey (macInput other)) tr ∧
      P.hmac256 hmacKey (macInput other) ≠ P.hmac256 hmacKey (macInput chunks) ∧
      P.hmac256 hmacKey (macInput other) ≠ statement) ∨
   (macInput other ≠ macInput chunks ∧ P.hmac256 hmacKey (macInput other) = P.hmac256 hmacKey (macInput chunks)) ∨
   P.hmac256 hmacKey (macInput other) = statement)

end Sigtool.Spec
