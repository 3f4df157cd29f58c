import Verif.Prims
import Verif.Spec.Wire
/-!
# Spec.Container: the documented format of an encrypted file, independent of the code

From the comment at the top of `sign/encrypt.go` and `README.md` ("Technical Details"): fixed header (magic,
version, length), variable header, SHA-256 of both; then the chunks, each a big-endian 32-bit length whose top bit
marks the last one, followed by AES-GCM ciphertext and tag, nonce = block number then session nonce, additional
data = the length word; then a 64-byte trailer.
-/

namespace Sigtool.Spec

/-- Cut into full blocks followed by one final shorter block, empty if the length is a multiple of `bs`. -/
def encryptChunks (bs : Nat) (pt : Bytes) : List Bytes :=
  if h : bs = 0 ∨ pt.length < bs then [pt]
  else pt.take bs :: encryptChunks bs (pt.drop bs)
termination_by pt.length
decreasing_by simp; omega

/-- Cut into full blocks, the final one of length at most `bs`; empty only if there are no data at all. -/
def streamChunks (bs : Nat) (pt : Bytes) : List Bytes :=
  if h : bs = 0 ∨ pt.length ≤ bs then [pt]
  else pt.take bs :: streamChunks bs (pt.drop bs)
termination_by pt.length
decreasing_by simp; omega

/-- Big-endian 32-bit length word; the last chunk has the top bit set. -/
def lengthWord (n : Nat) (last : Bool) : Bytes := be32 (n + if last then 2^31 else 0)

/-- One chunk on the wire. `i` is the block number, of which the low 32 bits enter the nonce. -/
def sealedChunk (P : Prims) (key nonce : Bytes) (i : Nat) (last : Bool) (chunk : Bytes) : Bytes :=
  lengthWord chunk.length last ++
    P.aeadSeal key (be32 i ++ nonce.drop 4) chunk (lengthWord chunk.length last)

/-- The chunks on the wire, the final one marked. -/
def sealedBody (P : Prims) (key nonce : Bytes) : Nat → List Bytes → Bytes
  | _, [] => []
  | i, [c] => sealedChunk P key nonce i true c
  | i, c :: cs => sealedChunk P key nonce i false c ++ sealedBody P key nonce (i + 1) cs

/-- Chunks on the wire, none of them marked as the last. -/
def sealedMid (P : Prims) (key nonce : Bytes) : Nat → List Bytes → Bytes
  | _, [] => []
  | i, c :: cs => sealedChunk P key nonce i false c ++ sealedMid P key nonce (i + 1) cs

/-- What the trailer signature covers: every length word and every plaintext chunk. -/
def macInput : List Bytes → Bytes
  | [] => []
  | [c] => lengthWord c.length true ++ c
  | c :: cs => lengthWord c.length false ++ c ++ macInput cs

/-- Fixed and variable header. -/
def headerPart (h : Header) : Bytes :=
  ascii "SigTool" ++ [3] ++ be32 (headerBytes h).length ++ headerBytes h

/-- Session nonce (12), data key (32), HMAC key (32): one HKDF-SHA512 output, salted with the header checksum. -/
def sessionKeys (P : Prims) (rootKey cksum : Bytes) : Bytes × Bytes × Bytes :=
  let okm := P.hkdf512 rootKey cksum (ascii "Data Key Expansion") 76
  (okm.take 12, (okm.drop 12).take 32, okm.drop 44)

/-- A whole container. -/
def container (P : Prims) (h : Header) (rootKey : Bytes) (chunks : List Bytes) (trailer : Bytes) : Bytes :=
  let cksum := P.sha256 (headerPart h)
  let (nonce, key, _) := sessionKeys P rootKey cksum
  headerPart h ++ cksum ++ sealedBody P key nonce 0 chunks ++ trailer

end Sigtool.Spec

namespace Sigtool
export Spec (sealedMid)
end Sigtool
