import Verif.Stream
import Verif.Decrypt
import Verif.Main
/-!
# Debug: what the library prints on standard error (`sign/encrypt.go:280-281`, `510-511`, `892-911`)

`fmt.Sprintf` with `%x` on byte slices is lower-case hexadecimal, two digits for each byte. A failing write to standard error
is not looked at, and `Sync` has no effect on what is printed.
-/

namespace Sigtool

/-- A lower-case hexadecimal digit. -/
def hexDigit (n : Nat) : UInt8 := UInt8.ofNat (if n < 10 then 48 + n else 87 + n)

/-- `%x` of a byte slice. -/
def hex : Bytes → Bytes
  | [] => []
  | b :: t => hexDigit (b.toNat / 16) :: hexDigit (b.toNat % 16) :: hex t

/-- `debug` (`sign/encrypt.go:900-911`), with the value of `_debug` as an argument and the formatted text: what is written to
standard error. (`z[n-1]` crashes on an empty text; none of the two callers has one.) -/
def debugText (level : Int) (z : Bytes) : Bytes :=
  if level ≤ 0 then [] else if z.getLast? = some 10 then z else z ++ [10]

/-- The two formatted texts (`sign/encrypt.go:280-281`, `510-511`): they differ in the first word. -/
def keysText (who : String) (cksum dkey nonce hmackey : Bytes) : Bytes :=
  ascii who ++ ascii ":\n\thdr-cksum: " ++ hex cksum ++ ascii "\n\taes-key: " ++ hex dkey ++ ascii "\n\tnonce: " ++ hex nonce ++
    ascii "\n\thmac-key: " ++ hex hmackey ++ ascii "\n"

/-- `start` (`sign/encrypt.go:225-284`) with the text it prints (`280-281`): it prints last, when everything has succeeded. -/
def Encryptor.startD (P : Prims) (level : Int) (e : Encryptor) (wr : Writer) : (Res Unit × Encryptor × Writer) × Bytes :=
  let varSize := Proto.Header.size e.hdr
  match Proto.Header.marshal e.hdr with
  | .panic x => ((.panic x, e, wr), [])
  | .err x => ((.err (.wrap "encrypt: can't marshal header" x), e, wr), [])
  | .ok varHdr =>
    let pre := magic ++ [version] ++ be32 varSize ++ varHdr
    let cksum := P.sha256 pre
    let (nonce, dkey, hmackey) := dataKeys P e.key cksum
    let e1 := { e with nonce := nonce, ae := some dkey }
    match fullwrite (pre ++ cksum) wr with
    | (some x, wr) => ((.err (.wrap "encrypt" x), e1, wr), [])
    | (none, wr) =>
      ((.ok (), { e1 with hmac := some (hmackey, []), bufLen := e.hdr.chunkSize + 4 + 16, started := true }, wr),
        debugText level (keysText "encrypt" cksum dkey nonce hmackey))

/-- `Encrypt` (`sign/encrypt.go:184-222`) with the text it prints: only `start` prints. -/
def Encryptor.encryptD (P : Prims) (level : Int) (e : Encryptor) (rd : Reader) (wr : Writer) (coin : Bytes) :
    (Res Unit × Encryptor × Reader × Writer) × Bytes :=
  if e.stream then ((.err .encIsStream, e, rd, wr), [])
  else
    let body (e : Encryptor) (wr : Writer) : Res Unit × Encryptor × Reader × Writer :=
      match Encryptor.encryptLoop P coin (rd.content.length + 1) e rd wr 0 with
      | (.ok (), e, rd, wr) =>
        match wr.close with
        | (some x, wr) => (.err x, e, rd, wr)
        | (none, wr) => (.ok (), e, rd, wr)
      | r => r
    if e.started then (body e wr, [])
    else
      match e.startD P level wr with
      | ((.ok (), e, wr), t) => (body e wr, t)
      | ((.err x, e, wr), t) => ((.err x, e, rd, wr), t)
      | ((.panic x, e, wr), t) => ((.panic x, e, rd, wr), t)

/-- `NewStreamWriter` (`sign/stream.go:36-52`) with the text it prints: only `start` prints. -/
def Encryptor.newStreamWriterD (P : Prims) (level : Int) (e : Encryptor) (wr : Writer) :
    (Res EncWriter × Encryptor × Writer) × Bytes :=
  let done (e : Encryptor) (wr : Writer) : Res EncWriter × Encryptor × Writer :=
    (.ok { wr := wr }, { e with stream := true }, wr)
  if e.started then (done e wr, [])
  else
    match e.startD P level wr with
    | ((.ok (), e, wr), t) => (done e wr, t)
    | ((.err x, e, wr), t) => ((.err x, e, wr), t)
    | ((.panic x, e, wr), t) => ((.panic x, e, wr), t)

/-- `SetPrivateKey` (`sign/encrypt.go:465-517`) with the text it prints (`510-511`). -/
def Decryptor.setPrivateKeyD (P : Prims) (level : Int) (d : Decryptor) (sk : PrivateKey) (senderPk : Option PublicKey) :
    (Res Unit × Decryptor) × Bytes :=
  match d.findKey P sk d.hdr.keys with
  | .err x => ((.err x, d), [])
  | .panic x => ((.panic x, d), [])
  | .ok none => ((.err .badKey, d), [])
  | .ok (some key) =>
    let d := { d with key := some key, sender := senderPk }
    match d.verifySender P key senderPk with
    | .err x => ((.err (.wrap "decrypt" x), d), [])
    | .panic x => ((.panic x, d), [])
    | .ok auth =>
      let (nonce, dkey, hmackey) := dataKeys P key d.hdrsum
      ((.ok (), { d with auth := auth, nonce := nonce, hmac := some (hmackey, []), ae := some dkey,
                         bufLen := d.hdr.chunkSize + 16 }),
        debugText level (keysText "decrypt" d.hdrsum dkey nonce hmackey))

/-- `_debug` when a command runs (`sign/encrypt.go:892-898`, `src/sigtool.go:82-84`): 0, or 1 after `sign.Debug(1)`. -/
def TopOpts.level (o : TopOpts) : Int := if o.debug then 1 else 0

end Sigtool
