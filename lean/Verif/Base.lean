/-!
# Base: bytes, fixed-width words, Go outcomes and errors

Conventions shared by every module of the model.
-/

namespace Sigtool

/-- A Go `[]byte`.  Aliasing is modelled only where a property needs it. -/
abbrev Bytes := List UInt8

/-- Bytes of an ASCII string literal (`[]byte("...")`). -/
def ascii (s : String) : Bytes := s.toList.map fun c => UInt8.ofNat c.toNat

/-- The `error` values that sigtool returns or passes on.

* the sentinels are `sign/errors.go:21-45`;
* `eof`, `unexpectedEOF`, `closedPipe` are the `io` package sentinels; `io n` stands for any other I/O error
  (`n` tells different ones apart);
* `intOverflow`, `invalidLength`, `endOfGroup` are the vtprotobuf `protohelpers` sentinels;
* `msg` is `fmt.Errorf` without `%w`, `wrap` is `fmt.Errorf` with `%w`.  Simplification: the formatted
  arguments of a message are not kept, only its constant text. -/
inductive Err where
  | eof | unexpectedEOF | closedPipe | io (n : Nat)
  | closed | noKey | encStarted | decStarted | encIsStream | notSigTool
  | headerTooBig | headerTooSmall | badHeader | noWrappedKeys | badKey | badTrailer
  | badSender | noSenderPK
  | incorrectPassword | noPEM | badPublicKey | keyTooShort | badTrailers | badFormat
  | badLength | badPadding
  | intOverflow | invalidLength | endOfGroup
  | msg (s : String)
  | wrap (s : String) (e : Err)
deriving DecidableEq, Repr

/-- `errors.Is(e, target)`: unwrap through `%w`. -/
def Err.is (target : Err) : Err → Bool
  | .wrap s e => (Err.wrap s e == target) || Err.is target e
  | e => e == target

/-- What a Go call can do: return a value, return an error, or crash. -/
inductive Res (α : Type) where
  | ok (a : α)
  | err (e : Err)
  | panic (why : String)
deriving DecidableEq, Repr

namespace Res
variable {α β : Type}

/-- `if err != nil { return err }` sequencing. -/
def bind (r : Res α) (f : α → Res β) : Res β :=
  match r with
  | ok a => f a
  | err e => err e
  | panic w => panic w

/-- `if err != nil { return fmt.Errorf("...: %w", err) }`. -/
def wrapErr (s : String) (r : Res α) : Res α :=
  match r with
  | ok a => ok a
  | err e => err (.wrap s e)
  | panic w => panic w

def isPanic : Res α → Bool
  | panic _ => true
  | _ => false

def isOk : Res α → Bool
  | ok _ => true
  | _ => false

@[simp] theorem bind_ok (a : α) (f : α → Res β) : (ok a).bind f = f a := rfl
@[simp] theorem bind_err (e : Err) (f : α → Res β) : (err e : Res α).bind f = err e := rfl
@[simp] theorem bind_panic (w : String) (f : α → Res β) : (panic w : Res α).bind f = panic w := rfl
end Res

/-- `binary.BigEndian.PutUint32` (Go standard library): the low 32 bits of `n`, most significant byte first. -/
def be32 (n : Nat) : Bytes :=
  [UInt8.ofNat (n / 2^24), UInt8.ofNat (n / 2^16), UInt8.ofNat (n / 2^8), UInt8.ofNat n]

/-- `binary.BigEndian.PutUint64`. -/
def be64 (n : Nat) : Bytes := be32 (n / 2^32) ++ be32 n

/-- `binary.BigEndian.Uint32(b)`: reads the first four bytes.  (Go panics on fewer than four; every call site
in sigtool checks or fixes the length, and the model of each call site repeats that check.) -/
def be32dec : Bytes → Nat
  | a :: b :: c :: d :: _ => a.toNat * 2^24 + b.toNat * 2^16 + c.toNat * 2^8 + d.toNat
  | _ => 0

@[simp] theorem be32_length (n : Nat) : (be32 n).length = 4 := rfl
@[simp] theorem be64_length (n : Nat) : (be64 n).length = 8 := rfl

theorem be32dec_be32 (n : Nat) (t : Bytes) : be32dec (be32 n ++ t) = n % 2^32 := by
  simp only [be32, List.cons_append, List.nil_append, be32dec, UInt8.toNat_ofNat']
  omega

theorem be32dec_lt (b : Bytes) : be32dec b < 2^32 := by
  match b with
  | a :: b :: c :: d :: t =>
    simp only [be32dec]
    have := a.toNat_lt; have := b.toNat_lt; have := c.toNat_lt; have := d.toNat_lt
    omega
  | [] | [_] | [_, _] | [_, _, _] => simp [be32dec]

theorem be32_be32dec (b : Bytes) (h : b.length = 4) : be32 (be32dec b) = b := by
  match b, h with
  | [a, b, c, d], _ =>
    have ha := a.toNat_lt; have hb := b.toNat_lt; have hc := c.toNat_lt; have hd := d.toNat_lt
    simp only [be32, be32dec, List.cons.injEq, and_true]
    refine ⟨?_, ?_, ?_, ?_⟩ <;> apply UInt8.toNat_inj.mp <;> rw [UInt8.toNat_ofNat'] <;> omega

theorem be32_inj {m n : Nat} (hm : m < 2^32) (hn : n < 2^32) (h : be32 m = be32 n) : m = n := by
  have h1 := be32dec_be32 m []
  have h2 := be32dec_be32 n []
  rw [List.append_nil] at h1 h2
  rw [h, h2, Nat.mod_eq_of_lt hm, Nat.mod_eq_of_lt hn] at h1
  exact h1.symm

theorem be32_mod (n : Nat) : be32 (n % 2^32) = be32 n := by
  simp only [be32, List.cons.injEq, and_true]
  refine ⟨?_, ?_, ?_, ?_⟩ <;> apply UInt8.toNat_inj.mp <;> simp only [UInt8.toNat_ofNat'] <;> omega

theorem be64_inj {m n : Nat} (hm : m < 2^64) (hn : n < 2^64) (h : be64 m = be64 n) : m = n := by
  have hl : be32 (m / 2^32) = be32 (n / 2^32) := (List.append_inj h (by simp)).1
  have hr : be32 m = be32 n := (List.append_inj h (by simp)).2
  have e1 := be32_inj (by omega) (by omega) hl
  rw [← be32_mod m, ← be32_mod n] at hr
  have e2 := be32_inj (Nat.mod_lt _ (by decide)) (Nat.mod_lt _ (by decide)) hr
  omega

/-- `subtle.ConstantTimeCompare(x, y) == 1`: equal length and equal content. -/
def ctEq (x y : Bytes) : Bool := x == y

end Sigtool
