import Verif.Decrypt
/-! # Stream: `io.WriteCloser` and `io.Reader` front ends (`sign/stream.go`) -/

namespace Sigtool

/-- `encWriter` (`sign/stream.go:22-29`).  `buf` holds the `n` bytes buffered so far (`w.buf[:w.n]`); the
encryptor it points to is passed and returned by the methods, since several writers can share it. -/
structure EncWriter where
  buf : Bytes := []
  wr : Writer
  blk : Nat := 0
  err : Option Err := none
deriving DecidableEq, Repr

/-- `NewStreamWriter` (`sign/stream.go:36-52`). -/
def Encryptor.newStreamWriter (P : Prims) (e : Encryptor) (wr : Writer) : Res EncWriter × Encryptor × Writer :=
  let done (e : Encryptor) (wr : Writer) : Res EncWriter × Encryptor × Writer :=
    (.ok { wr := wr }, { e with stream := true }, wr)
  if e.started then done e wr
  else
    match e.start P wr with
    | (.ok (), e, wr) => done e wr
    | (.err x, e, wr) => (.err x, e, wr)
    | (.panic x, e, wr) => (.panic x, e, wr)

/-- The loop of `Write` (`sign/stream.go:65-84`).  Every round either copies at least one byte, or flushes a
buffer that an earlier call filled; that can happen only in the first round, so `len(b)+2` rounds are enough.
Returns `none` when all bytes were taken. -/
def EncWriter.writeLoop (P : Prims) :
    Nat → Encryptor → EncWriter → Bytes → Res Unit × Encryptor × EncWriter
  | 0, e, w, _ => (.panic "does not terminate", e, w)
  | fuel + 1, e, w, b =>
    if b.length = 0 then (.ok (), e, w)
    else
      let max := e.hdr.chunkSize
      let z := min (max - w.buf.length) b.length
      let w := { w with buf := w.buf ++ b.take z }
      let b := b.drop z
      if w.buf.length = max ∧ b.length > 0 then
        match e.encryptBlock P w.buf w.wr w.blk false [] with
        | (.ok (), e, wr) =>
          EncWriter.writeLoop P fuel e { w with wr := wr, buf := [], blk := (w.blk + 1) % 2^32 } b
        | (.err x, e, wr) => (.err x, e, { w with wr := wr, err := some x })
        | (.panic x, e, wr) => (.panic x, e, { w with wr := wr })
      else EncWriter.writeLoop P fuel e w b

/-- `Write` (`sign/stream.go:55-86`): the count and the error. -/
def EncWriter.write (P : Prims) (e : Encryptor) (w : EncWriter) (b : Bytes) : Res Nat × Encryptor × EncWriter :=
  match w.err with
  | some x => (.err x, e, w)
  | none =>
    if b.length = 0 then (.ok 0, e, w)
    else
      match EncWriter.writeLoop P (b.length + 2) e w b with
      | (.ok (), e, w) => (.ok b.length, e, w)
      | (.err x, e, w) => (.err x, e, w)
      | (.panic x, e, w) => (.panic x, e, w)

/-- `Close` (`sign/stream.go:89-103`); `coin` are the random trailer bytes. -/
def EncWriter.close (P : Prims) (e : Encryptor) (w : EncWriter) (coin : Bytes) : Res Unit × Encryptor × EncWriter :=
  match w.err with
  | some x => (.err x, e, w)
  | none =>
    match e.encryptBlock P w.buf w.wr w.blk true coin with
    | (.err x, e, wr) => (.err x, e, { w with wr := wr, err := some x })
    | (.panic x, e, wr) => (.panic x, e, { w with wr := wr })
    | (.ok (), e, wr) =>
      match wr.close with
      | (some x, wr) => (.err x, e, { w with wr := wr, buf := [], err := some .closed })
      | (none, wr) => (.ok (), e, { w with wr := wr, buf := [], err := some .closed })

/-- `encReader` (`sign/stream.go:106-112`). -/
structure EncReader where
  unread : Bytes := []
  blk : Nat := 0
  err : Option Err := none
deriving DecidableEq, Repr

/-- `NewStreamReader` (`sign/stream.go:117-131`). -/
def Decryptor.newStreamReader (d : Decryptor) : Res EncReader × Decryptor :=
  match d.key with
  | none => (.err .noKey, d)
  | some _ =>
    if d.eof then (.err .eof, d)
    else (.ok {}, { d with stream := true })

/-- `Read` (`sign/stream.go:134-163`) into a buffer of `cap` bytes: the bytes delivered, or an error (in which
case no byte is delivered). -/
def EncReader.read (P : Prims) (d : Decryptor) (r : EncReader) (cap : Nat) : Res Bytes × Decryptor × EncReader :=
  match r.err with
  | some x => (.err x, d, r)
  | none =>
    let deliver (d : Decryptor) (r : EncReader) : Res Bytes × Decryptor × EncReader :=
      if r.unread.length > 0 then
        (.ok (r.unread.take cap), d, { r with unread := r.unread.drop cap })
      else (.err .eof, d, { r with err := some .eof })
    if r.unread.length = 0 then
      if d.eof then (.err .eof, d, { r with err := some .eof })
      else
        match d.decryptBlock P r.blk with
        | (.err x, d) => (.err x, d, { r with err := some x })
        | (.panic x, d) => (.panic x, d, r)
        | (.ok (buf, eof), d) =>
          deliver { d with eof := eof } { r with unread := buf, blk := (r.blk + 1) % 2^32 }
    else deliver d r

end Sigtool
