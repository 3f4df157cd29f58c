import Verif.Proto
/-!
# Spec.Wire: the protobuf wire format of the header, written independently of the codec

This is the encoding of `README.md` "Format of the Encrypted File" / `internal/pb/hdr.proto` in the published
protobuf wire format: a base-128 varint is least significant group first with a continuation bit; a
length-delimited field is a tag byte `8*field+2`, a varint length, the bytes; empty scalar fields are omitted.
-/

namespace Sigtool.Spec

/-- Base-128 varint. -/
def varint (v : Nat) : Bytes :=
  if v < 128 then [UInt8.ofNat v] else UInt8.ofNat (v % 128 + 128) :: varint (v / 128)
termination_by v

/-- A length-delimited field, always present. -/
def delimited (tag : UInt8) (x : Bytes) : Bytes := tag :: (varint x.length ++ x)

/-- A length-delimited field, omitted when empty. -/
def field (tag : UInt8) (x : Bytes) : Bytes := if x = [] then [] else delimited tag x

/-- `message wrapped_key { bytes d_key = 1; bytes nonce = 2; }` -/
def wrappedKeyBytes (k : WrappedKey) : Bytes := field 0x0a k.dkey ++ field 0x12 k.nonce

/-- `message header { uint32 chunk_size = 1; bytes salt = 2; bytes pk = 3; bytes sender = 4;
repeated wrapped_key keys = 5; }` -/
def headerBytes (h : Header) : Bytes :=
  (if h.chunkSize = 0 then [] else 0x08 :: varint h.chunkSize) ++
  field 0x12 h.salt ++ field 0x1a h.pk ++ field 0x22 h.sender ++
  h.keys.flatMap fun k => delimited 0x2a (wrappedKeyBytes k)

end Sigtool.Spec
