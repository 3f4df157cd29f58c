import Verif.Encrypt
/-!
# Decrypt: the container reader (`sign/encrypt.go:358-642,698-753,798-845`)
-/

namespace Sigtool

/-- `Decryptor` (`sign/encrypt.go:359-376`); `ae`, `hmac`, `bufLen` as in `Encryptor`; `none` is a nil pointer. -/
structure Decryptor where
  hdr : Header
  rd : Reader
  hdrsum : Bytes
  ae : Option Bytes := none
  hmac : Option (Bytes × Bytes) := none
  sender : Option PublicKey := none
  bufLen : Nat := 0
  nonce : Bytes := []
  key : Option Bytes := none
  auth : Bool := false
  eof : Bool := false
  stream : Bool := false
deriving DecidableEq, Repr

/-- The checks of `NewDecryptor` after decoding (`sign/encrypt.go:441-458`). -/
def checkHeader (h : Header) : Option Err :=
  if h.chunkSize = 0 ∨ h.chunkSize ≥ maxChunk then some (.msg "decrypt: invalid chunkSize")
  else if h.salt.length ≠ 32 then some (.msg "decrypt: invalid nonce length")
  else if h.keys.length = 0 then some .noWrappedKeys
  else if h.keys.any (fun w => w.dkey.length ≤ 32) then some (.msg "decrypt: wrapped key: wrong-size encrypted key")
  else none

/-- `NewDecryptor` (`sign/encrypt.go:380-461`).  The second component is the reader afterwards (also on error). -/
def newDecryptor (P : Prims) (rd : Reader) : Res Decryptor × Reader :=
  match readFull rd 12 with
  | (_, some x, rd) => (.err (.wrap "decrypt: err while reading header" x), rd)
  | (b, none, rd) =>
    if b.take 7 ≠ magic then (.err .notSigTool, rd)
    else if b[7]? ≠ some version then (.err (.msg "decrypt: Unsupported version"), rd)
    else
      let varSize := be32dec (b.drop 8)
      if varSize > 1048576 then (.err .headerTooBig, rd)
      else if varSize < 32 then (.err .headerTooSmall, rd)
      else
        match readFull rd (varSize + 32) with
        | (_, some x, rd) => (.err (.wrap "decrypt: error while reading header" x), rd)
        | (varBuf, none, rd) =>
          let verify := varBuf.drop varSize
          let cksum := P.sha256 (b ++ varBuf.take varSize)
          if !ctEq verify cksum then (.err .badHeader, rd)
          else
            match Proto.Header.unmarshal (varBuf.take varSize) with
            | .err x => (.err (.wrap "decrypt: decode error" x), rd)
            | .panic x => (.panic x, rd)
            | .ok h =>
              match checkHeader h with
              | some x => (.err x, rd)
              | none => (.ok { hdr := h, rd := rd, hdrsum := cksum }, rd)

/-- `unwrapKey` (`sign/encrypt.go:800-845`): `some key`, or `none` for "not the right recipient". -/
def Decryptor.unwrapKey (P : Prims) (d : Decryptor) (w : WrappedKey) (sk : PrivateKey) : Res (Option Bytes) :=
  (toCurve25519SK P sk).bind fun ourSK =>
    match P.x25519 ourSK d.hdr.pk with
    | none => .err (.wrap "unwrap" (.msg "bad input point"))
    | some sekrit =>
      let (kek, nonce) := kekOf P sekrit d.hdr.salt w.nonce
      if w.dkey.length ≠ 32 + 16 then .err (.msg "unwrap: incorrect decrypt bytes")
      else .ok (P.aeadOpen kek nonce w.dkey sk.pub.pk)

/-- The loop over the wrapped keys in `SetPrivateKey` (`sign/encrypt.go:469-481`): the first that unwraps. -/
def Decryptor.findKey (P : Prims) (d : Decryptor) (sk : PrivateKey) : List WrappedKey → Res (Option Bytes)
  | [] => .ok none
  | w :: ws =>
    match d.unwrapKey P w sk with
    | .err x => .err (.wrap "decrypt: can't unwrap key" x)
    | .panic x => .panic x
    | .ok (some k) => .ok (some k)
    | .ok none => d.findKey P sk ws

/-- `verifySender` (`sign/encrypt.go:700-753`): the new value of `auth`, or an error. -/
def Decryptor.verifySender (P : Prims) (d : Decryptor) (key : Bytes) (senderPk : Option PublicKey) : Res Bool :=
  let (ekey, nonce) := senderKey P key d.hdr.salt
  match P.aeadOpen ekey nonce d.hdr.sender [] with
  | none => .err (.wrap "unwrap: can't open sender info" (.msg "cipher: message authentication failed"))
  | some sig =>
    if !ctEq (List.replicate 64 0) sig then
      match senderPk with
      | none => .err .noSenderPK
      | some pk =>
        (verifyMessage P pk (senderDigest P d.hdr.pk d.hdr.salt key) { sig := sig }).bind fun ok =>
          if ok then .ok true else .err .badSender
    else .ok d.auth

/-- `SetPrivateKey` (`sign/encrypt.go:465-517`).  On failure after the key was found, the fields `key` and
`sender` stay set. -/
def Decryptor.setPrivateKey (P : Prims) (d : Decryptor) (sk : PrivateKey) (senderPk : Option PublicKey) :
    Res Unit × Decryptor :=
  match d.findKey P sk d.hdr.keys with
  | .err x => (.err x, d)
  | .panic x => (.panic x, d)
  | .ok none => (.err .badKey, d)
  | .ok (some key) =>
    let d := { d with key := some key, sender := senderPk }
    match d.verifySender P key senderPk with
    | .err x => (.err (.wrap "decrypt" x), d)
    | .panic x => (.panic x, d)
    | .ok auth =>
      let (nonce, dkey, hmackey) := dataKeys P key d.hdrsum
      (.ok (), { d with auth := auth, nonce := nonce, hmac := some (hmackey, []), ae := some dkey,
                        bufLen := d.hdr.chunkSize + 16 })

/-- `processTrailer` (`sign/encrypt.go:617-642`). -/
def Decryptor.processTrailer (P : Prims) (d : Decryptor) (pt : Bytes) : Res (Bytes × Bool) × Decryptor :=
  match readFull d.rd 64 with
  | (_, some x, rd) => (.err (.wrap "decrypt: premature EOF while reading trailer" x), { d with rd := rd })
  | (tr, none, rd) =>
    let d := { d with rd := rd }
    if !d.auth then (.ok (pt, true), d)
    else
      match d.hmac, d.sender with
      | some (hk, hd), some pk =>
        match verifyMessage P pk (P.hmac256 hk hd) { sig := tr } with
        | .ok true => (.ok (pt, true), d)
        | .ok false => (.err .badTrailer, d)
        | .err x => (.err x, d)
        | .panic x => (.panic x, d)
      | _, _ => (.panic "nil pointer dereference", d)

/-- `eof := (m & _EOF) > 0` (`sign/encrypt.go:571`). -/
def wordEof (m : Nat) : Bool := decide ((m &&& eofBit) > 0)

/-- `m &= (_EOF - 1)` (`sign/encrypt.go:572`). -/
def wordLen (m : Nat) : Nat := m &&& (eofBit - 1)

/-- `decrypt` (`sign/encrypt.go:560-615`): exactly one chunk; the plaintext and whether it was the last. -/
def Decryptor.decryptBlock (P : Prims) (d : Decryptor) (i : Nat) : Res (Bytes × Bool) × Decryptor :=
  match d.ae with
  | none => (.panic "nil pointer dereference", d)
  | some dkey =>
    match readFull d.rd 4 with
    | (_, some _, rd) => (.err (.msg "decrypt: premature EOF while reading header block"), { d with rd := rd })
    | (b, none, rd) =>
      let d := { d with rd := rd }
      let m := be32dec b
      let eof := wordEof m
      let m := wordLen m
      if m > d.hdr.chunkSize then (.err (.msg "decrypt: chunksize is too large"), d)
      else if m = 0 then
        if !eof then (.err (.msg "decrypt: zero-sized chunk without EOF"), d)
        else (.ok ([], true), d)
      else
        let z := (m + 16) % 2^32
        if z > d.bufLen then (.panic "slice bounds out of range", d)
        else
          match readFull d.rd z with
          | (_, some x, rd) => (.err (.wrap "decrypt: premature EOF while reading block" x), { d with rd := rd })
          | (ct, none, rd) =>
            let d := { d with rd := rd }
            match P.aeadOpen dkey (chunkNonce d.nonce i) ct b with
            | none => (.err (.wrap "decrypt: can't decrypt chunk" (.msg "cipher: message authentication failed")), d)
            | some pt =>
              if pt.length % 2^32 ≠ m then (.err (.msg "decrypt: partial unsealed bytes"), d)
              else
                match d.hmac with
                | none => (.panic "nil pointer dereference", d)
                | some (hk, hd) =>
                  let d := { d with hmac := some (hk, hd ++ b ++ pt) }
                  if eof then d.processTrailer P pt else (.ok (pt, false), d)

/-- The loop of `Decrypt` (`sign/encrypt.go:539-556`).  The fuel used by `Decryptor.decrypt` suffices: every
round consumes at least four bytes or fails. -/
def Decryptor.decryptLoop (P : Prims) : Nat → Decryptor → Writer → Nat → Res Unit × Decryptor × Writer
  | 0, d, wr, _ => (.panic "does not terminate", d, wr)
  | fuel + 1, d, wr, i =>
    match d.decryptBlock P i with
    | (.err x, d) => (.err x, d, wr)
    | (.panic x, d) => (.panic x, d, wr)
    | (.ok (c, eof), d) =>
      match (if c.length > 0 then fullwrite c wr else (none, wr)) with
      | (some x, wr) => (.err (.wrap "decrypt" x), d, wr)
      | (none, wr) =>
        if eof then (.ok (), { d with eof := true }, wr)
        else Decryptor.decryptLoop P fuel d wr ((i + 1) % 2^32)

/-- `Decrypt` (`sign/encrypt.go:526-557`). -/
def Decryptor.decrypt (P : Prims) (d : Decryptor) (wr : Writer) : Res Unit × Decryptor × Writer :=
  match d.key with
  | none => (.err .noKey, d, wr)
  | some _ =>
    if d.stream then (.err .decStarted, d, wr)
    else if d.eof then (.err .eof, d, wr)
    else Decryptor.decryptLoop P (d.rd.content.length + 1) d wr 0

end Sigtool
