import Verif.Proto
/-!
# Spec.Grammar: which byte strings are an encoded header, as a grammar

The published protobuf wire format read as a grammar, for the two messages of `internal/pb/hdr.proto`. It says which bytes
stand for which header, without saying how to find out: no indexes, no loops. Differences from the strict format that this
program shows are spelled out where they occur.
-/

namespace Sigtool.Spec

/-- The number written in base 128, least significant digit first; the top bit of each byte does not count. -/
def groups : Bytes → Nat
  | [] => 0
  | b :: bs => b.toNat % 128 + 128 * groups bs

/-- All bytes but the last have the top bit set, the last has not. -/
def Continued : Bytes → Prop
  | [] => False
  | [b] => b.toNat < 128
  | b :: bs => 128 ≤ b.toNat ∧ Continued bs

/-- A varint: at most ten bytes; what does not fit into 64 bits is cut off (a strict reader would refuse it). Leading zero
digits are allowed. -/
structure Varint (bs : Bytes) (v : Nat) : Prop where
  shape : Continued bs
  short : bs.length ≤ 10
  value : v = groups bs % 2^64

/-- A tag: a varint holding field number and wire type. Only 32 bits of the field number count. -/
def Tag (bs : Bytes) (num typ : Nat) : Prop := ∃ v, Varint bs v ∧ num = v / 8 % 2^32 ∧ typ = v % 8

mutual
/-- One field with its tag, of any of the five wire types. -/
inductive Element : Nat → Bytes → Prop where
  | varint {t b : Bytes} {num v : Nat} (ht : Tag t num 0) (hb : Varint b v) : Element num (t ++ b)
  | fixed64 {t b : Bytes} {num : Nat} (ht : Tag t num 1) (hb : b.length = 8) : Element num (t ++ b)
  | bytes {t l b : Bytes} {num : Nat} (ht : Tag t num 2) (hl : Varint l b.length) : Element num (t ++ l ++ b)
  /-- A group. The field number of its end tag is not compared with that of its start tag. -/
  | group {t b e : Bytes} {num any : Nat} (ht : Tag t num 3) (hb : Elements b) (he : Tag e any 4) : Element num (t ++ b ++ e)
  | fixed32 {t b : Bytes} {num : Nat} (ht : Tag t num 5) (hb : b.length = 4) : Element num (t ++ b)
/-- Any number of fields; inside a group the field numbers are not looked at. -/
inductive Elements : Bytes → Prop where
  | nil : Elements []
  | cons {a b : Bytes} {num : Nat} (ha : Element num a) (hb : Elements b) : Elements (a ++ b)
end

/-- A field the message does not know, kept verbatim. -/
def Unknown (known : List Nat) (e : Bytes) : Prop := ∃ num, Element num e ∧ 0 < num ∧ num < 2^31 ∧ num ∉ known

/-- The bytes of a `wrapped_key` message, and what they stand for: of a field that occurs several times the last one counts;
unknown fields are kept. -/
inductive DecodesKey : Bytes → WrappedKey → Prop where
  | empty : DecodesKey [] {}
  | dkey {d t l x : Bytes} {w : WrappedKey} (h : DecodesKey d w) (ht : Tag t 1 2) (hl : Varint l x.length) :
      DecodesKey (d ++ (t ++ l ++ x)) { w with dkey := x }
  | nonce {d t l x : Bytes} {w : WrappedKey} (h : DecodesKey d w) (ht : Tag t 2 2) (hl : Varint l x.length) :
      DecodesKey (d ++ (t ++ l ++ x)) { w with nonce := x }
  | other {d e : Bytes} {w : WrappedKey} (h : DecodesKey d w) (he : Unknown [1, 2] e) :
      DecodesKey (d ++ e) { w with unknown := w.unknown ++ e }

/-- The bytes of a `header` message, and what they stand for: of a scalar field that occurs several times the last one
counts, wrapped keys accumulate in order, unknown fields are kept. The chunk size is cut off at 32 bits. -/
inductive Decodes : Bytes → Header → Prop where
  | empty : Decodes [] {}
  | chunkSize {d t b : Bytes} {h : Header} {v : Nat} (hd : Decodes d h) (ht : Tag t 1 0) (hb : Varint b v) :
      Decodes (d ++ (t ++ b)) { h with chunkSize := v % 2^32 }
  | salt {d t l x : Bytes} {h : Header} (hd : Decodes d h) (ht : Tag t 2 2) (hl : Varint l x.length) :
      Decodes (d ++ (t ++ l ++ x)) { h with salt := x }
  | pk {d t l x : Bytes} {h : Header} (hd : Decodes d h) (ht : Tag t 3 2) (hl : Varint l x.length) :
      Decodes (d ++ (t ++ l ++ x)) { h with pk := x }
  | sender {d t l x : Bytes} {h : Header} (hd : Decodes d h) (ht : Tag t 4 2) (hl : Varint l x.length) :
      Decodes (d ++ (t ++ l ++ x)) { h with sender := x }
  | key {d t l x : Bytes} {h : Header} {w : WrappedKey} (hd : Decodes d h) (ht : Tag t 5 2) (hl : Varint l x.length)
      (hw : DecodesKey x w) : Decodes (d ++ (t ++ l ++ x)) { h with keys := h.keys ++ [w] }
  | other {d e : Bytes} {h : Header} (hd : Decodes d h) (he : Unknown [1, 2, 3, 4, 5] e) :
      Decodes (d ++ e) { h with unknown := h.unknown ++ e }

end Sigtool.Spec
