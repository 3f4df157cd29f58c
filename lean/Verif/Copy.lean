import Verif.Session
/-!
# Copy: `io.Copy` and `io.ReadAll` on the stream objects

The stream writer is an `io.WriteCloser` and the stream reader an `io.Reader` (`sign/stream.go:31,114`); users hand them to
`io.Copy`, `io.CopyBuffer` and `io.ReadAll`. These three are functions of the Go standard library (`io/io.go`, `copyBuffer`
and `ReadAll`); neither stream object implements `WriterTo` or `ReaderFrom`, and a source or destination that does is outside
this model.
-/

namespace Sigtool

/-- `io.ErrShortWrite`. -/
def errShortWrite : Err := .msg "short write"

/-- `io.CopyBuffer(w, rd, buf)` with `len(buf) = size` (`io.Copy`: 32 KiB) into a stream writer: the loop of `copyBuffer`.
The count and the error (`none`: nil). `n` is the count so far. -/
def copyIn (P : Prims) (size : Nat) :
    Nat → Encryptor → EncWriter → Reader → Nat → Res (Nat × Option Err) × Encryptor × EncWriter
  | 0, e, w, _, _ => (.panic "does not terminate", e, w)
  | fuel + 1, e, w, rd, n =>
    match rd.read size with
    | (b, er, rd) =>
      -- `if er != nil { if er != EOF { err = er }; break }`
      let after (e : Encryptor) (w : EncWriter) (n : Nat) : Res (Nat × Option Err) × Encryptor × EncWriter :=
        match er with
        | none => copyIn P size fuel e w rd n
        | some x => (.ok (n, if x = .eof then none else some x), e, w)
      if b.length > 0 then
        match w.write P e b with
        | (.ok m, e, w) => if m ≠ b.length then (.ok (n + m, some errShortWrite), e, w) else after e w (n + m)
        | (.err x, e, w) => (.ok (n, some x), e, w)
        | (.panic x, e, w) => (.panic x, e, w)
      else after e w n

/-- `io.CopyBuffer(dst, r, buf)` with `len(buf) = size` from a stream reader. -/
def copyOut (P : Prims) (size : Nat) :
    Nat → Decryptor → EncReader → Writer → Nat → Res (Nat × Option Err) × Decryptor × EncReader × Writer
  | 0, d, r, dst, _ => (.panic "does not terminate", d, r, dst)
  | fuel + 1, d, r, dst, n =>
    match r.read P d size with
    | (.ok b, d, r) =>
      if b.length > 0 then
        match dst.write b with
        | (m, some x, dst) => (.ok (n + m, some x), d, r, dst)
        | (m, none, dst) =>
          if m ≠ b.length then (.ok (n + m, some errShortWrite), d, r, dst) else copyOut P size fuel d r dst (n + m)
      else copyOut P size fuel d r dst n
    | (.err x, d, r) => (.ok (n, if x = .eof then none else some x), d, r, dst)
    | (.panic x, d, r) => (.panic x, d, r, dst)

/-- `io.ReadAll(r)` from a stream reader; `free i` is the free space of the growing buffer in round `i`. -/
def ioReadAll (P : Prims) (free : Nat → Nat) :
    Nat → Nat → Decryptor → EncReader → Bytes → Res (Bytes × Option Err) × Decryptor × EncReader
  | 0, _, d, r, _ => (.panic "does not terminate", d, r)
  | fuel + 1, i, d, r, acc =>
    match r.read P d (free i) with
    | (.ok b, d, r) => ioReadAll P free fuel (i + 1) d r (acc ++ b)
    | (.err x, d, r) => (.ok (acc, if x = .eof then none else some x), d, r)
    | (.panic x, d, r) => (.panic x, d, r)

end Sigtool
