import Verif.History
import Verif.Cli
/-!
# Random: the calls with the random source they draw from (`sign/rand.go`)

Elsewhere in the model the random bytes a call uses are arguments of it. Here the calls draw them from `rand.Reader`, an
`io.Reader` like any other: it may deliver its bytes in pieces, and it may fail. `Verif.Props.Random` shows that the two
agree.
-/

namespace Sigtool

/-- `randRead`, `randBuf` (`sign/rand.go:34-45`): `none` is the panic. -/
def randBuf (rnd : Reader) (n : Nat) : Option Bytes × Reader :=
  match readFull rnd n with
  | (b, none, rnd) => (some b, rnd)
  | (_, some _, rnd) => (none, rnd)

/-- The panic of `randRead` (`sign/rand.go:36-38`). -/
def noRandom : String := "can't read random data"

/-- `NewEncryptor` (`sign/encrypt.go:129-167`) with `newSender` (`:873-881`): ephemeral scalar, root key, salt. -/
def newEncryptorR (P : Prims) (rnd : Reader) (sk : Option PrivateKey) (blksize : Nat) : Res Encryptor × Reader :=
  match randBuf rnd 32 with
  | (none, rnd) => (.panic noRandom, rnd)
  | (some csk, rnd) =>
    let csk := clamp csk
    match P.x25519 csk basepoint with
    | none => (.err (.wrap "encrypt" (.msg "bad input point: low order point")), rnd)
    | some epk =>
      match randBuf rnd 32 with
      | (none, rnd) => (.panic noRandom, rnd)
      | (some key, rnd) =>
        match randBuf rnd 32 with
        | (none, rnd) => (.panic noRandom, rnd)
        | (some salt, rnd) =>
          ((Res.wrapErr "encrypt" (senderField P sk epk salt key)).bind fun (sf, auth) =>
            .ok { hdr := { chunkSize := chooseBlock blksize, salt := salt, pk := epk, sender := sf }
                  key := key, encSK := csk, sender := sk, auth := auth }, rnd)

/-- `wrapKey` (`sign/encrypt.go:758-796`): the nonce is drawn after the key agreement. -/
def Encryptor.wrapKeyR (P : Prims) (e : Encryptor) (pk : PublicKey) (rnd : Reader) : Res WrappedKey × Reader :=
  if pk.pk.length > 32 then (.panic "index out of range", rnd)
  else
    match P.x25519 e.encSK (toCurve25519PK pk.pk) with
    | none => (.err (.wrap "wrap" (.msg "bad input point: low order point")), rnd)
    | some sekrit =>
      match randBuf rnd 12 with
      | (none, rnd) => (.panic noRandom, rnd)
      | (some rbuf, rnd) =>
        let (kek, nonce) := kekOf P sekrit e.hdr.salt rbuf
        (.ok { dkey := P.aeadSeal kek nonce e.key pk.pk, nonce := rbuf }, rnd)

/-- `AddRecipient` (`sign/encrypt.go:170-181`). -/
def Encryptor.addRecipientR (P : Prims) (e : Encryptor) (pk : PublicKey) (rnd : Reader) : Res Unit × Encryptor × Reader :=
  if e.started then (.err .encStarted, e, rnd)
  else
    match e.wrapKeyR P pk rnd with
    | (.ok w, rnd) => (.ok (), { e with hdr := { e.hdr with keys := e.hdr.keys ++ [w] } }, rnd)
    | (.err x, rnd) => (.err x, e, rnd)
    | (.panic x, rnd) => (.panic x, e, rnd)

/-- `writeTrailer` (`sign/encrypt.go:331-356`): random bytes if there is no sender. -/
def Encryptor.writeTrailerR (P : Prims) (e : Encryptor) (wr : Writer) (rnd : Reader) : Res Unit × Writer × Reader :=
  let put (tr : Bytes) (rnd : Reader) : Res Unit × Writer × Reader :=
    match fullwrite tr wr with
    | (some x, wr) => (.err (.wrap "encrypt: trailer" x), wr, rnd)
    | (none, wr) => (.ok (), wr, rnd)
  if e.auth then
    match e.hmac, e.sender with
    | some (hk, hd), some sk =>
      match signMessage P sk (P.hmac256 hk hd) with
      | .ok s => put s.sig rnd
      | .err x => (.err (.wrap "encrypt: trailer" x), wr, rnd)
      | .panic x => (.panic x, wr, rnd)
    | _, _ => (.panic "nil pointer dereference", wr, rnd)
  else
    match randBuf rnd 64 with
    | (none, rnd) => (.panic noRandom, wr, rnd)
    | (some coin, rnd) => put coin rnd

/-- `encrypt` (`sign/encrypt.go:291-326`). -/
def Encryptor.encryptBlockR (P : Prims) (e : Encryptor) (pt : Bytes) (wr : Writer) (i : Nat) (eof : Bool)
    (rnd : Reader) : Res Unit × Encryptor × Writer × Reader :=
  let b := be32 (lenWord pt.length eof)
  let nonce := chunkNonce e.nonce i
  match e.ae with
  | none => (.panic "nil pointer dereference", e, wr, rnd)
  | some dkey =>
    let ct := P.aeadSeal dkey nonce pt b
    let e := { e with seals := e.seals ++ [⟨dkey, nonce, b, pt⟩] }
    if ct.length + 4 > e.bufLen then (.panic "slice bounds out of range", e, wr, rnd)
    else
      match fullwrite (b ++ ct) wr with
      | (some x, wr) => (.err (.wrap "encrypt" x), e, wr, rnd)
      | (none, wr) =>
        match e.hmac with
        | none => (.panic "nil pointer dereference", e, wr, rnd)
        | some (hk, hd) =>
          let e := { e with hmac := some (hk, hd ++ b ++ pt) }
          if eof then
            let (r, wr, rnd) := e.writeTrailerR P wr rnd
            (r, e, wr, rnd)
          else (.ok (), e, wr, rnd)

/-- The block loop of `Encrypt` (`sign/encrypt.go:198-219`). -/
def Encryptor.encryptLoopR (P : Prims) :
    Nat → Encryptor → Reader → Writer → Nat → Reader → Res Unit × Encryptor × Reader × Writer × Reader
  | 0, e, rd, wr, _, rnd => (.panic "does not terminate", e, rd, wr, rnd)
  | fuel + 1, e, rd, wr, i, rnd =>
    let (buf, err, rd) := readFull rd e.hdr.chunkSize
    let eof? : Res Bool :=
      match err with
      | none => .ok false
      | some x => if isEndOfInput x then .ok true else .err (.wrap "encrypt: I/O read error" x)
    match eof? with
    | .err x => (.err x, e, rd, wr, rnd)
    | .panic x => (.panic x, e, rd, wr, rnd)
    | .ok eof =>
      match e.encryptBlockR P buf wr i eof rnd with
      | (.ok (), e, wr, rnd) =>
        if eof then (.ok (), e, rd, wr, rnd)
        else Encryptor.encryptLoopR P fuel e rd wr ((i + 1) % 2^32) rnd
      | (.err x, e, wr, rnd) => (.err x, e, rd, wr, rnd)
      | (.panic x, e, wr, rnd) => (.panic x, e, rd, wr, rnd)

/-- `Encrypt` (`sign/encrypt.go:184-222`). -/
def Encryptor.encryptR (P : Prims) (e : Encryptor) (rd : Reader) (wr : Writer) (rnd : Reader) :
    Res Unit × Encryptor × Reader × Writer × Reader :=
  if e.stream then (.err .encIsStream, e, rd, wr, rnd)
  else
    let body (e : Encryptor) (wr : Writer) : Res Unit × Encryptor × Reader × Writer × Reader :=
      match Encryptor.encryptLoopR P (rd.content.length + 1) e rd wr 0 rnd with
      | (.ok (), e, rd, wr, rnd) =>
        match wr.close with
        | (some x, wr) => (.err x, e, rd, wr, rnd)
        | (none, wr) => (.ok (), e, rd, wr, rnd)
      | r => r
    if e.started then body e wr
    else
      match e.start P wr with
      | (.ok (), e, wr) => body e wr
      | (.err x, e, wr) => (.err x, e, rd, wr, rnd)
      | (.panic x, e, wr) => (.panic x, e, rd, wr, rnd)

/-- `Close` of a stream writer (`sign/stream.go:89-103`). (`NewStreamWriter` and `Write` draw nothing: only the last chunk is followed
by a trailer.) -/
def EncWriter.closeR (P : Prims) (e : Encryptor) (w : EncWriter) (rnd : Reader) : Res Unit × Encryptor × EncWriter × Reader :=
  match w.err with
  | some x => (.err x, e, w, rnd)
  | none =>
    match e.encryptBlockR P w.buf w.wr w.blk true rnd with
    | (.err x, e, wr, rnd) => (.err x, e, { w with wr := wr, err := some x }, rnd)
    | (.panic x, e, wr, rnd) => (.panic x, e, { w with wr := wr }, rnd)
    | (.ok (), e, wr, rnd) =>
      match wr.close with
      | (some x, wr) => (.err x, e, { w with wr := wr, buf := [], err := some .closed }, rnd)
      | (none, wr) => (.ok (), e, { w with wr := wr, buf := [], err := some .closed }, rnd)

/-! ### Histories -/

/-- A call on an `Encryptor` or on a stream writer it handed out. -/
inductive Call where
  | add (pk : PublicKey)
  | encrypt (rd : Reader) (wr : Writer)
  | openStream (wr : Writer)
  | write (k : Nat) (b : Bytes)
  | close (k : Nat)
deriving DecidableEq, Repr

/-- What can be seen of a call: its result, what the destination received, how often it was closed, what is left of the input. -/
structure Seen where
  call : Call
  res : Res Unit
  wrote : Bytes := []
  closed : Nat := 0
  left : Option Reader := none
deriving DecidableEq, Repr

/-- One call; the random source is passed on to the next. (`none`: there is no such stream writer.) -/
def EncState.stepR (P : Prims) (s : EncState) (rnd : Reader) (c : Call) : Option (Seen × EncState × Reader) :=
  match c with
  | .add pk =>
    match s.enc.addRecipientR P pk rnd with
    | (r, e, rnd) => some ({ call := c, res := r }, { s with enc := e }, rnd)
  | .encrypt rd wr =>
    match s.enc.encryptR P rd wr rnd with
    | (r, e, rd', wr', rnd) =>
      some ({ call := c, res := r, wrote := wr'.out.drop wr.out.length, closed := wr'.closes - wr.closes, left := some rd' },
        { s with enc := e }, rnd)
  | .openStream wr =>
    match s.enc.newStreamWriter P wr with
    | (r, e, wr') =>
      some ({ call := c, res := r.unit, wrote := wr'.out.drop wr.out.length, closed := wr'.closes - wr.closes },
        { enc := e, streams := match r with | .ok w => s.streams ++ [w] | _ => s.streams }, rnd)
  | .write k b =>
    match s.streams[k]? with
    | none => none
    | some w =>
      match w.write P s.enc b with
      | (r, e, w') =>
        some ({ call := c, res := r.unit, wrote := w'.wr.out.drop w.wr.out.length, closed := w'.wr.closes - w.wr.closes },
          { enc := e, streams := s.streams.set k w' }, rnd)
  | .close k =>
    match s.streams[k]? with
    | none => none
    | some w =>
      match w.closeR P s.enc rnd with
      | (r, e, w', rnd) =>
        some ({ call := c, res := r, wrote := w'.wr.out.drop w.wr.out.length, closed := w'.wr.closes - w.wr.closes },
          { enc := e, streams := s.streams.set k w' }, rnd)

/-- The calls `seen` were made one after another on the encryptor `e0`, with the random source `rnd0`, and lead to the state `s` with
the rest of the source `rnd`. A crash ends the history. -/
inductive HistoryR (P : Prims) (e0 : Encryptor) (rnd0 : Reader) : List Seen → EncState → Reader → Prop
  | start : HistoryR P e0 rnd0 [] { enc := e0 } rnd0
  | call {seen : List Seen} {s s' : EncState} {rnd rnd' : Reader} {c : Call} {v : Seen} (h : HistoryR P e0 rnd0 seen s rnd)
      (live : ∀ v ∈ seen, v.res.isPanic = false) (hstep : s.stepR P rnd c = some (v, s', rnd')) : HistoryR P e0 rnd0 (seen ++ [v]) s' rnd'

end Sigtool
