import Verif.Curve
/-! # Sign: message and file signatures (`sign/sign.go`, `sign/iomisc.go`) -/

namespace Sigtool

/-- `Signature` (`sign/sign.go:34-37`). -/
structure Signature where
  sig : Bytes
  pkhash : Bytes := []
deriving DecidableEq, Repr

/-- What is hashed before signing (`sign/sign.go:45-48,167-170`): `SHA-512("sigtool signed message" || ck)`. -/
def signDigest (P : Prims) (ck : Bytes) : Bytes := P.sha512 (ascii "sigtool signed message" ++ ck)

/-- `SignMessage` (`sign/sign.go:44-63`).  `ed25519.Sign` panics if the key does not have 64 bytes.  The comment
argument is unused by the code. -/
def signMessage (P : Prims) (sk : PrivateKey) (ck : Bytes) : Res Signature :=
  if sk.sk.length ≠ 64 then .panic "ed25519: bad private key length"
  else .ok { sig := P.edSign sk.sk (signDigest P ck), pkhash := sk.pub.hash }

/-- `VerifyMessage` (`sign/sign.go:166-174`).  `ed25519.Verify` panics if the key does not have 32 bytes. -/
def verifyMessage (P : Prims) (pk : PublicKey) (ck : Bytes) (sig : Signature) : Res Bool :=
  if pk.pk.length ≠ 32 then .panic "ed25519: bad public key length"
  else .ok (P.edVerify pk.pk (signDigest P ck) sig.sig)

/-- `IsPKMatch` (`sign/sign.go:149-151`). -/
def isPKMatch (pk : PublicKey) (sig : Signature) : Bool := ctEq pk.hash sig.pkhash

/-- `fileCksum(fn, sha512.New())` (`sign/iomisc.go:46-67`) for a file that can be opened and mapped and holds
`content`: hash of the content followed by its 64-bit big-endian length. -/
def fileCksum (P : Prims) (content : Bytes) : Bytes := P.sha512 (content ++ be64 content.length)

/-- `SignFile` (`sign/sign.go:70-78`) for a readable file. -/
def signFile (P : Prims) (sk : PrivateKey) (content : Bytes) : Res Signature :=
  signMessage P sk (fileCksum P content)

/-- `VerifyFile` (`sign/sign.go:155-162`) for a readable file. -/
def verifyFile (P : Prims) (pk : PublicKey) (content : Bytes) (sig : Signature) : Res Bool :=
  verifyMessage P pk (fileCksum P content) sig

end Sigtool
