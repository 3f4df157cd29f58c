import Verif.Base
/-!
# Proto: the protobuf header codec

`internal/pb/hdr.proto`, `internal/pb/hdr_vtproto.pb.go`, and the three helpers of
`github.com/planetscale/vtprotobuf/protohelpers` that the generated code calls (`EncodeVarint`, `SizeOfVarint`,
`Skip`; these are dependencies, modelled from their published source, not from `/repo`).
-/

namespace Sigtool

/-- `pb.WrappedKey` (`internal/pb/hdr.pb.go`, `hdr.proto:26-29`): one recipient's wrapped copy of the root key. -/
structure WrappedKey where
  dkey : Bytes := []
  nonce : Bytes := []
  unknown : Bytes := []
deriving DecidableEq, Repr

/-- `pb.Header` (`internal/pb/hdr.pb.go`, `hdr.proto:14-20`).  `chunkSize` is a `uint32` (kept below `2^32` by
every function that sets it). Simplification: an absent and an empty byte field are the same. -/
structure Header where
  chunkSize : Nat := 0
  salt : Bytes := []
  pk : Bytes := []
  sender : Bytes := []
  keys : List WrappedKey := []
  unknown : Bytes := []
deriving DecidableEq, Repr

namespace Proto

/-- `protohelpers.SizeOfVarint`: `(bits.Len64(x|1) + 6) / 7`. -/
def sizeOfVarint (x : Nat) : Nat := (Nat.log2 (x ||| 1) + 1 + 6) / 7

/-- The bytes that `protohelpers.EncodeVarint` stores:
`for v >= 1<<7 { dAtA[offset] = uint8(v&0x7f | 0x80); v >>= 7; offset++ }; dAtA[offset] = uint8(v)`. -/
def encVarint (v : Nat) : Bytes :=
  if v ≥ 1 <<< 7 then UInt8.ofNat ((v &&& 0x7f) ||| 0x80) :: encVarint (v >>> 7)
  else [UInt8.ofNat v]
termination_by v
decreasing_by rw [Nat.shiftRight_eq_div_pow]; simp at *; omega

/-- `WrappedKey.SizeVT` (`hdr_vtproto.pb.go:170-186`). -/
def WrappedKey.size (m : WrappedKey) : Nat :=
  (if m.dkey.length > 0 then 1 + m.dkey.length + sizeOfVarint m.dkey.length else 0) +
  (if m.nonce.length > 0 then 1 + m.nonce.length + sizeOfVarint m.nonce.length else 0) +
  m.unknown.length

/-- `Header.SizeVT` (`hdr_vtproto.pb.go:139-168`). -/
def Header.size (m : Header) : Nat :=
  (if m.chunkSize ≠ 0 then 1 + sizeOfVarint m.chunkSize else 0) +
  (if m.salt.length > 0 then 1 + m.salt.length + sizeOfVarint m.salt.length else 0) +
  (if m.pk.length > 0 then 1 + m.pk.length + sizeOfVarint m.pk.length else 0) +
  (if m.sender.length > 0 then 1 + m.sender.length + sizeOfVarint m.sender.length else 0) +
  (m.keys.map fun e => 1 + WrappedKey.size e + sizeOfVarint (WrappedKey.size e)).sum +
  m.unknown.length

/-- The buffer being filled from the back, and the Go index `i` (everything from `i` on is written). -/
structure Buf where
  data : Bytes
  i : Nat
deriving DecidableEq, Repr

/-- Store `x` at `data[off:]`; Go panics when the range does not fit. -/
def poke (data : Bytes) (off : Nat) (x : Bytes) : Res Bytes :=
  if off + x.length ≤ data.length then .ok (data.take off ++ x ++ data.drop (off + x.length))
  else .panic "index out of range"

/-- `i -= len(x); copy(dAtA[i:], x)`, or `i--; dAtA[i] = tag` for a single byte; a negative index panics. -/
def Buf.put (b : Buf) (x : Bytes) : Res Buf :=
  if x.length ≤ b.i then (poke b.data (b.i - x.length) x).bind fun d => .ok ⟨d, b.i - x.length⟩
  else .panic "slice bounds out of range"

/-- `i = protohelpers.EncodeVarint(dAtA, i, v)`: step back by `SizeOfVarint(v)`, then store forwards. -/
def Buf.putVarint (b : Buf) (v : Nat) : Res Buf :=
  if sizeOfVarint v ≤ b.i then
    (poke b.data (b.i - sizeOfVarint v) (encVarint v)).bind fun d => .ok ⟨d, b.i - sizeOfVarint v⟩
  else .panic "index out of range"

/-- A length-delimited field with one-byte tag, written backwards: content, length, tag; skipped when empty
(`hdr_vtproto.pb.go:63-68` and the three like it, `122-135`). -/
def Buf.putField (b : Buf) (tag : UInt8) (x : Bytes) : Res Buf :=
  if x.length > 0 then
    (b.put x).bind fun b => (b.putVarint x.length).bind fun b => b.put [tag]
  else .ok b

/-- `WrappedKey.MarshalToSizedBufferVT` (`hdr_vtproto.pb.go:110-137`). -/
def WrappedKey.marshalTo (m : WrappedKey) (b : Buf) : Res Buf :=
  (b.put m.unknown).bind fun b =>
  (b.putField 0x12 m.nonce).bind fun b =>
  b.putField 0xa m.dkey

/-- The loop over `m.Keys` from the last to the first (`hdr_vtproto.pb.go:51-62`); the list passed in is already
reversed. -/
def marshalKeys : List WrappedKey → Buf → Res Buf
  | [], b => .ok b
  | k :: ks, b =>
    (WrappedKey.marshalTo k b).bind fun b' =>
    (b'.putVarint (b.i - b'.i)).bind fun b' =>
    (b'.put [0x2a]).bind fun b' => marshalKeys ks b'

/-- `Header.MarshalToSizedBufferVT` (`hdr_vtproto.pb.go:39-90`). -/
def Header.marshalToSized (m : Header) (b : Buf) : Res Buf :=
  (b.put m.unknown).bind fun b =>
  (marshalKeys m.keys.reverse b).bind fun b =>
  (b.putField 0x22 m.sender).bind fun b =>
  (b.putField 0x1a m.pk).bind fun b =>
  (b.putField 0x12 m.salt).bind fun b =>
  if m.chunkSize ≠ 0 then
    (b.putVarint m.chunkSize).bind fun b => b.put [0x8]
  else .ok b

/-- `Header.MarshalTo(buf)` on a zeroed buffer of `Size()` bytes, as `Encryptor.start` calls it
(`internal/pb/helpers.go:10-12`, `sign/encrypt.go:226-242`): the resulting buffer. -/
def Header.marshal (m : Header) : Res Bytes :=
  (Header.marshalToSized m ⟨List.replicate (Header.size m) 0, Header.size m⟩).bind fun b => .ok b.data

/-- The varint loop that the generated decoder repeats for every field (for example
`hdr_vtproto.pb.go:194-206`), accumulating into a `w`-bit integer. Returns the value and the next index. -/
def varintLoop (d : Bytes) (w : Nat) (i shift acc : Nat) : Res (Nat × Nat) :=
  if shift ≥ 64 then .err .intOverflow
  else if h : i ≥ d.length then .err .unexpectedEOF
  else
    let b := d[i]
    let acc' := acc ||| (((b.toNat &&& 0x7f) <<< shift) % 2^w)
    if b < 0x80 then .ok (acc', i + 1)
    else varintLoop d w (i + 1) (shift + 7) acc'
termination_by d.length - i

/-- `d[lo:hi]` on a slice whose capacity is its length. -/
def goSlice (d : Bytes) (lo hi : Nat) : Res Bytes :=
  if lo ≤ hi ∧ hi ≤ d.length then .ok ((d.drop lo).take (hi - lo))
  else .panic "slice bounds out of range"

/-- A length-delimited value at index `i` (`hdr_vtproto.pb.go:240-269` and its copies).  `byteLen` and
`postIndex` are 64-bit signed: a set top bit means negative. -/
def lenDelim (d : Bytes) (i : Nat) : Res (Bytes × Nat) :=
  (varintLoop d 64 i 0 0).bind fun (byteLen, i) =>
    if byteLen ≥ 2^63 then .err .invalidLength
    else if i + byteLen ≥ 2^63 then .err .invalidLength
    else if i + byteLen > d.length then .err .unexpectedEOF
    else (goSlice d i (i + byteLen)).bind fun s => .ok (s, i + byteLen)

/-- The body of `protohelpers.Skip`'s loop: skip one wire element starting at `i` at group depth `depth`. -/
def skipLoop (d : Bytes) : Nat → Nat → Nat → Res Nat
  | 0, _, _ => .panic "out of fuel"
  | fuel + 1, i, depth =>
    if i ≥ d.length then .err .unexpectedEOF
    else
      (varintLoop d 64 i 0 0).bind fun (wire, i) =>
      let finish (i depth : Nat) : Res Nat :=
        if i ≥ 2^63 then .err .invalidLength
        else if depth = 0 then .ok i
        else skipLoop d fuel i depth
      match wire &&& 0x7 with
      | 0 => (varintLoop d 64 i 0 0).bind fun (_, i) => finish i depth
      | 1 => finish (i + 8) depth
      | 2 => (varintLoop d 64 i 0 0).bind fun (len, i) =>
          if len ≥ 2^63 then .err .invalidLength else finish (i + len) depth
      | 3 => finish i (depth + 1)
      | 4 => if depth = 0 then .err .endOfGroup else finish i (depth - 1)
      | 5 => finish (i + 4) depth
      | _ => .err (.msg "proto: illegal wireType")

/-- `protohelpers.Skip(dAtA)`: number of bytes taken by the first wire element. -/
def skip (d : Bytes) : Res Nat := skipLoop d (d.length + 1) 0 0

/-- The default case of both decoders: keep an unknown field verbatim (`hdr_vtproto.pb.go:372-385`, `491-504`).
Returns the bytes kept and the next index. -/
def unknownField (d : Bytes) (pre : Nat) : Res (Bytes × Nat) :=
  (skip (d.drop pre)).bind fun skippy =>
    if pre + skippy ≥ 2^63 then .err .invalidLength
    else if pre + skippy > d.length then .err .unexpectedEOF
    else (goSlice d pre (pre + skippy)).bind fun s => .ok (s, pre + skippy)

/-- Decode a field tag at `i` (`hdr_vtproto.pb.go:193-215`): field number and wire type. -/
def fieldTag (d : Bytes) (i : Nat) : Res (Nat × Nat × Nat) :=
  (varintLoop d 64 i 0 0).bind fun (wire, i) =>
    let fieldNum := (wire >>> 3) % 2^32
    let wireType := wire &&& 0x7
    if wireType = 4 then .err (.msg "proto: wiretype end group for non-group")
    else if fieldNum = 0 ∨ fieldNum ≥ 2^31 then .err (.msg "proto: illegal tag")
    else .ok (fieldNum, wireType, i)

/-- One round of `WrappedKey.UnmarshalVT` (`hdr_vtproto.pb.go:397-505`). -/
def WrappedKey.step (d : Bytes) (m : WrappedKey) (i : Nat) : Res (WrappedKey × Nat) :=
  (fieldTag d i).bind fun (fieldNum, wireType, j) =>
    match fieldNum with
    | 1 => if wireType ≠ 2 then .err (.msg "proto: wrong wireType for field DKey")
           else (lenDelim d j).bind fun (s, k) => .ok ({ m with dkey := s }, k)
    | 2 => if wireType ≠ 2 then .err (.msg "proto: wrong wireType for field Nonce")
           else (lenDelim d j).bind fun (s, k) => .ok ({ m with nonce := s }, k)
    | _ => (unknownField d i).bind fun (s, k) => .ok ({ m with unknown := m.unknown ++ s }, k)

/-- `WrappedKey.UnmarshalVT` (`hdr_vtproto.pb.go:394-512`): rounds until the input is used up. -/
def WrappedKey.loop (d : Bytes) : Nat → WrappedKey → Nat → Res WrappedKey
  | 0, _, _ => .panic "out of fuel"
  | fuel + 1, m, i =>
    if i < d.length then (WrappedKey.step d m i).bind fun (m, i) => WrappedKey.loop d fuel m i
    else if i > d.length then .err .unexpectedEOF
    else .ok m

def WrappedKey.unmarshal (d : Bytes) : Res WrappedKey := WrappedKey.loop d (d.length + 1) {} 0

/-- One round of `Header.UnmarshalVT` (`hdr_vtproto.pb.go:191-387`). -/
def Header.step (d : Bytes) (m : Header) (i : Nat) : Res (Header × Nat) :=
  (fieldTag d i).bind fun (fieldNum, wireType, j) =>
    match fieldNum with
    | 1 => if wireType ≠ 0 then .err (.msg "proto: wrong wireType for field ChunkSize")
           else (varintLoop d 32 j 0 0).bind fun (v, k) => .ok ({ m with chunkSize := v }, k)
    | 2 => if wireType ≠ 2 then .err (.msg "proto: wrong wireType for field Salt")
           else (lenDelim d j).bind fun (s, k) => .ok ({ m with salt := s }, k)
    | 3 => if wireType ≠ 2 then .err (.msg "proto: wrong wireType for field Pk")
           else (lenDelim d j).bind fun (s, k) => .ok ({ m with pk := s }, k)
    | 4 => if wireType ≠ 2 then .err (.msg "proto: wrong wireType for field Sender")
           else (lenDelim d j).bind fun (s, k) => .ok ({ m with sender := s }, k)
    | 5 => if wireType ≠ 2 then .err (.msg "proto: wrong wireType for field Keys")
           else (lenDelim d j).bind fun (s, k) =>
             (WrappedKey.unmarshal s).bind fun w => .ok ({ m with keys := m.keys ++ [w] }, k)
    | _ => (unknownField d i).bind fun (s, k) => .ok ({ m with unknown := m.unknown ++ s }, k)

/-- `Header.UnmarshalVT` (`hdr_vtproto.pb.go:188-393`). -/
def Header.loop (d : Bytes) : Nat → Header → Nat → Res Header
  | 0, _, _ => .panic "out of fuel"
  | fuel + 1, m, i =>
    if i < d.length then (Header.step d m i).bind fun (m, i) => Header.loop d fuel m i
    else if i > d.length then .err .unexpectedEOF
    else .ok m

/-- `Header.Unmarshal` (`internal/pb/helpers.go:14-16`) into a zero header. -/
def Header.unmarshal (d : Bytes) : Res Header := Header.loop d (d.length + 1) {} 0

end Proto
end Sigtool
