import Verif.Spec.Container
/-!
# Specification for C124: reading an encrypted file with the help of a printed text

A procedure that has a text and a file, and no key of anybody. It looks for two lines of the text, reads the hexadecimal digits
there, and opens the chunks of the file one by one.
-/

namespace Sigtool.Spec

/-- The value of a hexadecimal digit. -/
def unhexDigit (c : UInt8) : Option Nat :=
  if 48 ≤ c.toNat ∧ c.toNat ≤ 57 then some (c.toNat - 48)
  else if 97 ≤ c.toNat ∧ c.toNat ≤ 102 then some (c.toNat - 87) else none

/-- The bytes that hexadecimal digits stand for. -/
def unhex : Bytes → Option Bytes
  | [] => some []
  | [_] => none
  | a :: b :: t => do
    let x ← unhexDigit a
    let y ← unhexDigit b
    let r ← unhex t
    return UInt8.ofNat (16 * x + y) :: r

/-- The lines of a text. -/
def textLines : Bytes → List Bytes
  | [] => [[]]
  | c :: t =>
    match textLines t with
    | [] => [[]]
    | l :: ls => if c = 10 then [] :: l :: ls else (c :: l) :: ls

/-- The first line that starts with `name`: the bytes given by the digits behind the name. -/
def lineValue (name : String) (text : Bytes) : Option Bytes :=
  match (textLines text).find? (fun l => (ascii name).isPrefixOf l) with
  | none => none
  | some l => unhex (l.drop (ascii name).length)

/-- Open the chunks of a body, from number `i`, until the one that is marked as the last. -/
def readBody (P : Prims) (key nonce : Bytes) : Nat → Nat → Bytes → Option Bytes
  | 0, _, _ => none
  | fuel + 1, i, b =>
    let word := be32dec b
    let n := word % 2^31
    if n = 0 then (if 2^31 ≤ word then some [] else none)
    else do
      let p ← P.aeadOpen key (be32 i ++ nonce.drop 4) ((b.drop 4).take (n + 16)) (b.take 4)
      if 2^31 ≤ word then return p
      let r ← readBody P key nonce fuel (i + 1) (b.drop (4 + (n + 16)))
      return p ++ r

/-- Read a file with the help of a text: the length of the variable header is at offset 8, the chunks start after it and the
checksum of 32 bytes. -/
def readWith (P : Prims) (text file : Bytes) : Option Bytes := do
  let key ← lineValue "\taes-key: " text
  let nonce ← lineValue "\tnonce: " text
  readBody P key nonce file.length 0 (file.drop (12 + be32dec (file.drop 8) + 32))

end Sigtool.Spec
