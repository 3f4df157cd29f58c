import Verif.Base
/-!
# Spec.Base64: RFC 4648 section 4, independent of the code

A byte string is a sequence of bits, most significant first; groups of six bits (the last one filled up with zeros) select
characters of the alphabet; `=` fills the text up to a multiple of four.
-/

namespace Sigtool.Spec

/-- The alphabet as RFC 4648 table 1 prints it. -/
def alphabet : Bytes := ascii "ABCDEFGHIJKLMNOPQRSTUVWXYZabcdefghijklmnopqrstuvwxyz0123456789+/"

/-- The eight bits of a byte, most significant first. -/
def byteBits (b : UInt8) : List Bool := [7, 6, 5, 4, 3, 2, 1, 0].map fun i => b.toNat.testBit i

/-- The number that bits denote, most significant first. -/
def bitsVal (bs : List Bool) : Nat := bs.foldl (fun a b => 2 * a + b.toNat) 0

/-- Cut into groups of six bits, the last filled up with zeros. -/
def sextets : List Bool → List Nat
  | a :: b :: c :: d :: e :: f :: t => bitsVal [a, b, c, d, e, f] :: sextets t
  | [] => []
  | l => [bitsVal (l ++ List.replicate (6 - l.length) false)]

/-- The base64 text of a byte string. -/
def base64 (x : Bytes) : Bytes :=
  let cs := (sextets (x.flatMap byteBits)).map fun n => alphabet[n]?.getD 0
  cs ++ List.replicate ((4 - cs.length % 4) % 4) (UInt8.ofNat 61)

/-- RFC 4648 section 10. -/
example : base64 (ascii "foobar") = ascii "Zm9vYmFy" ∧ base64 (ascii "fooba") = ascii "Zm9vYmE=" ∧
    base64 (ascii "foob") = ascii "Zm9vYg==" ∧ base64 [] = [] := by decide +kernel

end Sigtool.Spec
