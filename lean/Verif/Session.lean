import Verif.Stream
/-!
# Session: the call sequences users of the library make

These are compositions of API calls, as in `src/crypt.go` and in the package examples; no behaviour of their
own.
-/

namespace Sigtool

/-- `AddRecipient` for each recipient in turn, stopping at the first error; each comes with the 12 random bytes
the call draws. -/
def Encryptor.addRecipients (P : Prims) (e : Encryptor) : List (PublicKey × Bytes) → Res Unit × Encryptor
  | [] => (.ok (), e)
  | (pk, rbuf) :: rs =>
    match e.addRecipient P pk rbuf with
    | (.ok (), e) => e.addRecipients P rs
    | (.err x, e) => (.err x, e)
    | (.panic x, e) => (.panic x, e)

/-- `NewEncryptor`, then `AddRecipient` for each recipient. -/
def setupEncryptor (P : Prims) (sender : Option PrivateKey) (blksize : Nat) (c : EncCoins)
    (rcpts : List (PublicKey × Bytes)) : Res Encryptor :=
  (newEncryptor P sender blksize c).bind fun e =>
    match e.addRecipients P rcpts with
    | (.ok (), e) => .ok e
    | (.err x, _) => .err x
    | (.panic x, _) => .panic x

/-- `NewDecryptor`, `SetPrivateKey`. -/
def setupDecryptor (P : Prims) (rd : Reader) (sk : PrivateKey) (senderPk : Option PublicKey) : Res Decryptor :=
  (newDecryptor P rd).1.bind fun d =>
    match d.setPrivateKey P sk senderPk with
    | (.ok (), d) => .ok d
    | (.err x, _) => .err x
    | (.panic x, _) => .panic x

/-- `Write` for each buffer, then `Close`; the results of the calls up to the first failure. -/
def EncWriter.writeAll (P : Prims) (e : Encryptor) (w : EncWriter) (coin : Bytes) :
    List Bytes → Res Unit × Encryptor × EncWriter
  | [] => w.close P e coin
  | b :: bs =>
    match w.write P e b with
    | (.ok n, e, w) =>
      if n = b.length then w.writeAll P e coin bs else (.err (.msg "short write"), e, w)
    | (.err x, e, w) => (.err x, e, w)
    | (.panic x, e, w) => (.panic x, e, w)

/-- `NewStreamWriter`, `Write` for each buffer, `Close`; the destination afterwards. -/
def streamEncrypt (P : Prims) (e : Encryptor) (wr : Writer) (coin : Bytes) (bufs : List Bytes) : Res Unit × Writer :=
  match e.newStreamWriter P wr with
  | (.ok w, e, _) => let (r, _, w) := w.writeAll P e coin bufs; (r, w.wr)
  | (.err x, _, wr) => (.err x, wr)
  | (.panic x, _, wr) => (.panic x, wr)

/-- `Read` with each buffer size in turn; the results in order and the final state. -/
def EncReader.readAll (P : Prims) (d : Decryptor) (r : EncReader) :
    List Nat → List (Res Bytes) × Decryptor × EncReader
  | [] => ([], d, r)
  | cap :: caps =>
    match r.read P d cap with
    | (res, d, r) => let (rs, d, r) := r.readAll P d caps; (res :: rs, d, r)

end Sigtool
