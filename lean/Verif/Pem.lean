import Verif.Ssh
/-!
# Pem: `pem.Decode` of Go's standard library

Called at `sign/ssh.go:42`. Its source is not in the sandbox; this follows `encoding/pem/pem.go` as of Go 1.19 and later. In the rest of the
model the decoder is a parameter (`Deps.pem`); here it is written out.
-/

namespace Sigtool.Pem

/-- `bytes.Cut`: what is before and after the first `sep`. -/
def cut (sep : Bytes) : Bytes → Option (Bytes × Bytes)
  | [] => if sep = [] then some ([], []) else none
  | c :: t => if sep.isPrefixOf (c :: t) then some ([], (c :: t).drop sep.length) else (cut sep t).map fun x => (c :: x.1, x.2)

/-- `bytes.TrimRight(_, " \t")`. -/
def trimRight (l : Bytes) : Bytes := (l.reverse.dropWhile fun c => c == 32 || c == 9).reverse

/-- `getLine`: the first line, without its end and spaces before it, and the rest. -/
def getLine (data : Bytes) : Bytes × Bytes :=
  match cut [10] data with
  | none => (trimRight data, [])
  | some (l, rest) => (trimRight (if l.getLast? = some 13 then l.dropLast else l), rest)

def pemStart : Bytes := ascii "\n-----BEGIN "
def pemEnd : Bytes := ascii "\n-----END "
def dashes : Bytes := ascii "-----"

/-- The loop over the header lines; whether there were any, whether one is `DEK-Info` (what `x509.IsEncryptedPEMBlock` asks,
`sign/ssh.go:47`), and the rest. `none`: the text ends. -/
def headers : Nat → Bytes → Bool → Bool → Option (Bool × Bool × Bytes)
  | 0, _, _, _ => none
  | n + 1, rest, any, dek =>
    if rest = [] then none
    else
      match cut [58] (getLine rest).1 with
      | none => some (any, dek, rest)
      | some (k, _) => headers n (getLine rest).2 true (dek || trimSpace k == ascii "DEK-Info")

/-- One round of the loop of `Decode`. -/
inductive Round
  | stop
  | again (rest : Bytes)
  | found (b : PemBlock)
deriving DecidableEq

/-- The body of the loop, behind a `-----BEGIN `. -/
def round (rest : Bytes) : Round :=
  let (typeLine, rest) := getLine rest
  if ¬ dashes.isSuffixOf typeLine then .again rest
  else
    let typ := typeLine.take (typeLine.length - 5)
    match headers (rest.length + 1) rest false false with
    | none => .stop
    | some (any, dek, rest) =>
      let ends : Option (Nat × Nat) :=
        if any = false ∧ (pemEnd.drop 1).isPrefixOf rest then some (0, pemEnd.length - 1)
        else (cut pemEnd rest).map fun x => (x.1.length, x.1.length + pemEnd.length)
      match ends with
      | none => .again rest
      | some (endIndex, trailerIndex) =>
        let trailer := rest.drop trailerIndex
        let n := typ.length + 5
        if trailer.length < n then .again rest
        else if ¬ (typ.isPrefixOf (trailer.take n) ∧ dashes.isSuffixOf (trailer.take n)) then .again rest
        else if (getLine (trailer.drop n)).1 ≠ [] then .again rest
        else if endIndex = 0 then .found { typ := typ, legacyEncrypted := dek, bytes := [] }
        else
          let text := (rest.take endIndex).filter fun c => !(c == 32 || c == 9)
          match Base64.decode text with
          | none => .again rest
          | some b => .found { typ := typ, legacyEncrypted := dek, bytes := b, slack := Base64.decodedLen text - b.length }

def decodeLoop : Nat → Bytes → Option PemBlock
  | 0, _ => none
  | n + 1, rest =>
    match (if (pemStart.drop 1).isPrefixOf rest then some (rest.drop (pemStart.length - 1)) else (cut pemStart rest).map (·.2)) with
    | none => none
    | some rest =>
      match round rest with
      | .stop => none
      | .found b => some b
      | .again rest => decodeLoop n rest

/-- `pem.Decode`. -/
def decode (data : Bytes) : Option PemBlock := decodeLoop (data.length + 1) data

example : decode (ascii "junk\n-----BEGIN A B-----\nDEK-Info: x\n\nAQ ID\nBA==\n-----END A B-----  \nmore") =
    some { typ := ascii "A B", legacyEncrypted := true, bytes := [1, 2, 3, 4], slack := 2 } := by decide +kernel
example : decode (ascii "-----BEGIN A-----\n-----END A-----") = some { typ := ascii "A", bytes := [] } := by decide +kernel
example : decode (ascii "-----BEGIN A-----\nAQID\n-----END B-----\n") = none := by decide +kernel
example : decode (ascii "x-----BEGIN A-----\nAQID\n-----END A-----\n") = none := by decide +kernel
example : decode (ascii "-----BEGIN A--\n-----BEGIN B-----\nAQID\n-----END B-----\n") = some { typ := ascii "B", bytes := [1, 2, 3] } := by
  decide +kernel

end Sigtool.Pem
