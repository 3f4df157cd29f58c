import Verif.IO
import Verif.Proto
import Verif.Sign
/-!
# Encrypt: the container writer (`sign/encrypt.go:82-356,644-796,863-881`)

Random bytes are arguments.  `Res Unit` is an `error` result, with `panic` for a crash.
-/

namespace Sigtool

/-- `chunkSize` (`sign/encrypt.go:87`). -/
def defaultChunk : Nat := 4 * 1048576
/-- `maxChunkSize` (`sign/encrypt.go:88`). -/
def maxChunk : Nat := 1 <<< 30
/-- `_EOF` (`sign/encrypt.go:89`). -/
def eofBit : Nat := 1 <<< 31
/-- `_Magic` (`sign/encrypt.go:91`). -/
def magic : Bytes := ascii "SigTool"
/-- `_SigtoolVersion` (`sign/encrypt.go:85`). -/
def version : UInt8 := 3

/-- `expand` (`sign/encrypt.go:864-871`): HKDF-SHA512.  (It panics beyond 255 hash lengths; all callers ask for
at most 76 bytes.) -/
def expand (P : Prims) (n : Nat) (shared salt ad : Bytes) : Bytes := P.hkdf512 shared salt ad n

/-- One AEAD `Seal` call, as recorded in the ghost log of an encryptor. -/
structure SealRec where
  key : Bytes
  nonce : Bytes
  ad : Bytes
  pt : Bytes
deriving DecidableEq, Repr

/-- `Encryptor` (`sign/encrypt.go:106-125`).  `ae` is the AES-GCM instance, given by its key; `hmac` is the
running HMAC, given by its key and the bytes written; `bufLen` is `len(e.buf)`.  `seals` is a ghost field: every
data `Seal` call made so far. -/
structure Encryptor where
  hdr : Header
  key : Bytes
  encSK : Bytes
  sender : Option PrivateKey
  auth : Bool
  nonce : Bytes := []
  ae : Option Bytes := none
  hmac : Option (Bytes × Bytes) := none
  bufLen : Nat := 0
  started : Bool := false
  stream : Bool := false
  seals : List SealRec := []
deriving DecidableEq, Repr

/-- The random bytes drawn by `NewEncryptor`, in order: ephemeral scalar (32), root key (32), salt (32). -/
structure EncCoins where
  csk : Bytes
  key : Bytes
  salt : Bytes
deriving DecidableEq, Repr

/-- The block size selection of `NewEncryptor` (`sign/encrypt.go:130-139`); `blksize` is a `uint64`. -/
def chooseBlock (blksize : Nat) : Nat :=
  if blksize = 0 then defaultChunk else if blksize > maxChunk then maxChunk else blksize

/-- What the sender signs (`sign/encrypt.go:653-664`, `730-738`). -/
def senderDigest (P : Prims) (pk salt key : Bytes) : Bytes :=
  P.sha256 (magic ++ [version] ++ pk ++ salt ++ key)

/-- Key and nonce that wrap the sender signature (`sign/encrypt.go:674-677`, `701-704`). -/
def senderKey (P : Prims) (key salt : Bytes) : Bytes × Bytes :=
  let buf := expand P (32 + 12) key salt (ascii "Sender Sig")
  (buf.take 32, buf.drop 32)

/-- `addSenderSig` (`sign/encrypt.go:645-696`): the new `Sender` field and `auth` flag. -/
def senderField (P : Prims) (sender : Option PrivateKey) (pk salt key : Bytes) : Res (Bytes × Bool) :=
  let wrapSig (sig : Bytes) (auth : Bool) : Res (Bytes × Bool) :=
    let (ekey, nonce) := senderKey P key salt
    .ok (P.aeadSeal ekey nonce sig [], auth)
  match sender with
  | none => wrapSig (List.replicate 64 0) false
  | some sk =>
    (Res.wrapErr "wrap: can't sign" (signMessage P sk (senderDigest P pk salt key))).bind fun s =>
      wrapSig s.sig true

/-- `NewEncryptor` (`sign/encrypt.go:129-167`), including `newSender` (`873-881`). -/
def newEncryptor (P : Prims) (sk : Option PrivateKey) (blksize : Nat) (c : EncCoins) : Res Encryptor :=
  let csk := clamp c.csk
  match P.x25519 csk basepoint with
  | none => .err (.wrap "encrypt" (.msg "bad input point: low order point"))
  | some epk =>
    (Res.wrapErr "encrypt" (senderField P sk epk c.salt c.key)).bind fun (sf, auth) =>
    .ok { hdr := { chunkSize := chooseBlock blksize, salt := c.salt, pk := epk, sender := sf }
          key := c.key, encSK := csk, sender := sk, auth := auth }

/-- Key-encryption key and nonce for one recipient (`sign/encrypt.go:765-777`, `807-817`). -/
def kekOf (P : Prims) (sekrit salt rbuf : Bytes) : Bytes × Bytes :=
  let buf := expand P (32 + 12) sekrit (P.sha256 (salt ++ rbuf)) (ascii "Receiver Key")
  (buf.take 32, buf.drop 32)

/-- `wrapKey` (`sign/encrypt.go:758-796`); `rbuf` are its 12 random bytes. -/
def Encryptor.wrapKey (P : Prims) (e : Encryptor) (pk : PublicKey) (rbuf : Bytes) : Res WrappedKey :=
  if pk.pk.length > 32 then .panic "index out of range"
  else
    match P.x25519 e.encSK (toCurve25519PK pk.pk) with
    | none => .err (.wrap "wrap" (.msg "bad input point: low order point"))
    | some sekrit =>
      let (kek, nonce) := kekOf P sekrit e.hdr.salt rbuf
      .ok { dkey := P.aeadSeal kek nonce e.key pk.pk, nonce := rbuf }

/-- `AddRecipient` (`sign/encrypt.go:170-181`). -/
def Encryptor.addRecipient (P : Prims) (e : Encryptor) (pk : PublicKey) (rbuf : Bytes) : Res Unit × Encryptor :=
  if e.started then (.err .encStarted, e)
  else
    match e.wrapKey P pk rbuf with
    | .ok w => (.ok (), { e with hdr := { e.hdr with keys := e.hdr.keys ++ [w] } })
    | .err x => (.err x, e)
    | .panic x => (.panic x, e)

/-- Data nonce, data key, HMAC key from root key and header checksum (`sign/encrypt.go:249-259`, `488-496`). -/
def dataKeys (P : Prims) (key cksum : Bytes) : Bytes × Bytes × Bytes :=
  let buf := expand P (32 + 32 + 12) key cksum (ascii "Data Key Expansion")
  (buf.take 12, (buf.drop 12).take 32, (buf.drop 12).drop 32)

/-- `start` (`sign/encrypt.go:225-284`). -/
def Encryptor.start (P : Prims) (e : Encryptor) (wr : Writer) : Res Unit × Encryptor × Writer :=
  let varSize := Proto.Header.size e.hdr
  match Proto.Header.marshal e.hdr with
  | .panic x => (.panic x, e, wr)
  | .err x => (.err (.wrap "encrypt: can't marshal header" x), e, wr)
  | .ok varHdr =>
    let pre := magic ++ [version] ++ be32 varSize ++ varHdr
    let cksum := P.sha256 pre
    let (nonce, dkey, hmackey) := dataKeys P e.key cksum
    let e1 := { e with nonce := nonce, ae := some dkey }
    match fullwrite (pre ++ cksum) wr with
    | (some x, wr) => (.err (.wrap "encrypt" x), e1, wr)
    | (none, wr) =>
      (.ok (), { e1 with hmac := some (hmackey, []), bufLen := e.hdr.chunkSize + 4 + 16, started := true }, wr)

/-- `writeTrailer` (`sign/encrypt.go:331-356`); `coin` are the 64 random bytes used when there is no sender. -/
def Encryptor.writeTrailer (P : Prims) (e : Encryptor) (wr : Writer) (coin : Bytes) : Res Unit × Writer :=
  let put (tr : Bytes) : Res Unit × Writer :=
    match fullwrite tr wr with
    | (some x, wr) => (.err (.wrap "encrypt: trailer" x), wr)
    | (none, wr) => (.ok (), wr)
  if e.auth then
    match e.hmac, e.sender with
    | some (hk, hd), some sk =>
      match signMessage P sk (P.hmac256 hk hd) with
      | .ok s => put s.sig
      | .err x => (.err (.wrap "encrypt: trailer" x), wr)
      | .panic x => (.panic x, wr)
    | _, _ => (.panic "nil pointer dereference", wr)
  else put coin

/-- The length word of a chunk (`sign/encrypt.go:292-298`): `uint32(len(pt))`, with the top bit for the last. -/
def lenWord (n : Nat) (eof : Bool) : Nat := if eof then (n % 2^32) ||| eofBit else n % 2^32

/-- The nonce of chunk `i` (`sign/encrypt.go:300-303`, `589-590`): the session nonce with its first four bytes
replaced by the block number. -/
def chunkNonce (nonce : Bytes) (i : Nat) : Bytes := be32 i ++ nonce.drop 4

/-- `encrypt` (`sign/encrypt.go:291-326`): exactly one block.  `i` is a `uint32`. -/
def Encryptor.encryptBlock (P : Prims) (e : Encryptor) (pt : Bytes) (wr : Writer) (i : Nat) (eof : Bool)
    (coin : Bytes) : Res Unit × Encryptor × Writer :=
  let b := be32 (lenWord pt.length eof)
  let nonce := chunkNonce e.nonce i
  match e.ae with
  | none => (.panic "nil pointer dereference", e, wr)
  | some dkey =>
    let ct := P.aeadSeal dkey nonce pt b
    let e := { e with seals := e.seals ++ [⟨dkey, nonce, b, pt⟩] }
    if ct.length + 4 > e.bufLen then (.panic "slice bounds out of range", e, wr)
    else
      match fullwrite (b ++ ct) wr with
      | (some x, wr) => (.err (.wrap "encrypt" x), e, wr)
      | (none, wr) =>
        match e.hmac with
        | none => (.panic "nil pointer dereference", e, wr)
        | some (hk, hd) =>
          let e := { e with hmac := some (hk, hd ++ b ++ pt) }
          if eof then
            let (r, wr) := e.writeTrailer P wr coin
            (r, e, wr)
          else (.ok (), e, wr)

/-- How `Encrypt` reacts to a read error (`sign/encrypt.go:202-209`): these three mean "end of input". -/
def isEndOfInput (x : Err) : Bool := x == .eof || x == .closedPipe || x == .unexpectedEOF

/-- The block loop of `Encrypt` (`sign/encrypt.go:198-219`).  `i` wraps around as a `uint32`. The fuel used by
`Encryptor.encrypt` suffices when the chunk size is positive: every round but the last consumes input. -/
def Encryptor.encryptLoop (P : Prims) (coin : Bytes) :
    Nat → Encryptor → Reader → Writer → Nat → Res Unit × Encryptor × Reader × Writer
  | 0, e, rd, wr, _ => (.panic "does not terminate", e, rd, wr)
  | fuel + 1, e, rd, wr, i =>
    let (buf, err, rd) := readFull rd e.hdr.chunkSize
    let eof? : Res Bool :=
      match err with
      | none => .ok false
      | some x => if isEndOfInput x then .ok true else .err (.wrap "encrypt: I/O read error" x)
    match eof? with
    | .err x => (.err x, e, rd, wr)
    | .panic x => (.panic x, e, rd, wr)
    | .ok eof =>
      match e.encryptBlock P buf wr i eof coin with
      | (.ok (), e, wr) =>
        if eof then (.ok (), e, rd, wr)
        else Encryptor.encryptLoop P coin fuel e rd wr ((i + 1) % 2^32)
      | (.err x, e, wr) => (.err x, e, rd, wr)
      | (.panic x, e, wr) => (.panic x, e, rd, wr)

/-- `Encrypt` (`sign/encrypt.go:184-222`). -/
def Encryptor.encrypt (P : Prims) (e : Encryptor) (rd : Reader) (wr : Writer) (coin : Bytes) :
    Res Unit × Encryptor × Reader × Writer :=
  if e.stream then (.err .encIsStream, e, rd, wr)
  else
    let body (e : Encryptor) (wr : Writer) : Res Unit × Encryptor × Reader × Writer :=
      match Encryptor.encryptLoop P coin (rd.content.length + 1) e rd wr 0 with
      | (.ok (), e, rd, wr) =>
        match wr.close with
        | (some x, wr) => (.err x, e, rd, wr)
        | (none, wr) => (.ok (), e, rd, wr)
      | r => r
    if e.started then body e wr
    else
      match e.start P wr with
      | (.ok (), e, wr) => body e wr
      | (.err x, e, wr) => (.err x, e, rd, wr)
      | (.panic x, e, wr) => (.panic x, e, rd, wr)

end Sigtool
