import Verif.Spec.Game
/-!
# Spec.ManyFiles: secrecy of many files for the same recipients, independent of the code

The spy sees the public keys, then `q` times: he picks two plaintexts of equal length, knowing all files so far, and is given
a file with one of them, always the first or always the second.  At the end he says which.
-/

namespace Sigtool.Spec

/-- The random bytes of one file: trailer (64), root key (32), ephemeral scalar (32), salt (32), a nonce per recipient. -/
abbrev Draw (n : Nat) := Coins 64 × Coins 32 × Coins 32 × Coins 32 × (Fin n → Coins 12)

def Draw.job {n : Nat} (pks : Fin n → Bytes) (plain : Bytes) : Draw n → Job n
  | (coin, key, csk, salt, nonces) =>
    { csk := csk.bytes, key := key.bytes, salt := salt.bytes, pks, nonces := fun i => (nonces i).bytes
      coin := coin.bytes, plain }

/-- A spy who chooses each pair of plaintexts knowing the files before it. -/
structure LongSpy (n : Nat) where
  Tape : Type
  [fin : Fintype Tape]
  plain : Tape → (pks : Fin n → Bytes) → (files : List Bytes) → Bool → Bytes
  guess : Tape → (pks : Fin n → Bytes) → (files : List Bytes) → Bool

attribute [instance] LongSpy.fin

def LongSpy.Fair {n : Nat} (A : LongSpy n) (limit : Nat) : Prop :=
  ∀ t pks fs, (A.plain t pks fs false).length = (A.plain t pks fs true).length ∧ (A.plain t pks fs true).length < limit

variable {n : Nat} (P : Prims) (enc : Job n → Bytes) (A : LongSpy n)

/-- The files he has seen after one more for each of `ds`, all with plaintext `b`. -/
def LongSpy.watch (t : A.Tape) (pks : Fin n → Bytes) (b : Bool) : List Bytes → List (Draw n) → List Bytes
  | fs, [] => fs
  | fs, d :: ds => LongSpy.watch t pks b (fs ++ [enc (d.job pks (A.plain t pks fs b))]) ds

/-- The probability that he says 1 after `q` files with plaintext `b`. -/
def LongSpy.odds (q : Nat) (b : Bool) : ℚ :=
  mean fun t : A.Tape => mean fun seeds : Fin n → Coins 32 => mean fun ds : Fin q → Draw n =>
    let pks := fun i => P.edPub (seeds i).bytes
    yes (A.guess t pks (A.watch enc t pks b [] (List.ofFn ds)))

def LongSpy.advantage (q : Nat) : ℚ := |A.odds P enc q false - A.odds P enc q true|

/-- The spy on one file who makes the first `k` files himself with the second plaintext, and those after the file he is
given with the first one. -/
def LongSpy.spy (q k : Nat) : Spy n :=
  let before (t : A.Tape) (ds : Fin q → Draw n) (pks : Fin n → Bytes) := A.watch enc t pks true [] ((List.ofFn ds).take k)
  { Tape := A.Tape × (Fin q → Draw n)
    plain := fun (t, ds) pks b => A.plain t pks (before t ds pks) b
    guess := fun (t, ds) pks file =>
      A.guess t pks (A.watch enc t pks false (before t ds pks ++ [file]) ((List.ofFn ds).drop (k + 1))) }

end Sigtool.Spec
