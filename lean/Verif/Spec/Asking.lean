import Verif.Spec.Reaction
/-!
# Spec.Asking: secrecy when the recipients' reactions can be seen, independent of the code

As in `Spec/Game.lean`, but before he says which of the two plaintexts was encrypted the spy may give any recipient, one after
the other, `q` changed files with the same header, and each time learns how many bytes the recipient gets and whether there
is an error.  (Or, to see the difference, he learns everything the recipient gets.)
-/

namespace Sigtool.Spec

/-- A spy who asks and is given answers in `R`: his own random bytes, two plaintexts for given public keys, the next question after given answers (a
recipient and a file for him), and his verdict after the last answer. -/
structure Asker (n : Nat) (R : Type) where
  Tape : Type
  [fin : Fintype Tape]
  plain : Tape → (pks : Fin n → Bytes) → Bool → Bytes
  ask : Tape → (pks : Fin n → Bytes) → (file : Bytes) → List R → Fin n × Bytes
  guess : Tape → (pks : Fin n → Bytes) → (file : Bytes) → List R → Bool

attribute [instance] Asker.fin

variable {n : Nat} {R : Type}

/-- The two plaintexts have the same length, below `limit`. -/
def Asker.Fair (A : Asker n R) (limit : Nat) : Prop :=
  ∀ t pks, (A.plain t pks false).length = (A.plain t pks true).length ∧ (A.plain t pks true).length < limit

/-- The answers to his first `q` questions. -/
def Asker.answers (A : Asker n R) (t : A.Tape) (pks : Fin n → Bytes) (file : Bytes) (answer : Fin n × Bytes → R) :
    Nat → List R
  | 0 => []
  | q + 1 =>
    let l := A.answers t pks file answer q
    l ++ [answer (A.ask t pks file l)]

/-- A file with another header gets no answer. -/
def ifSameHeader (file : Bytes) (refuse : R) (answer : Fin n × Bytes → R) (query : Fin n × Bytes) : R :=
  if front query.2 = front file then answer query else refuse

/-- The probability that he says 1 when plaintext `b` is encrypted by `enc`, and files are read by `read`; `shown` is what he sees of what
the recipient gets. -/
def Asker.odds (P : Prims) (enc : Job n → Bytes) (read : (seed file : Bytes) → Bytes × Bool)
    (shown : Bytes × Bool → R) (A : Asker n R) (q : Nat) (b : Bool) : ℚ :=
  mean fun t : A.Tape => mean fun coin : Coins 64 => mean fun key : Coins 32 =>
  mean fun seeds : Fin n → Coins 32 => mean fun csk : Coins 32 => mean fun salt : Coins 32 =>
  mean fun nonces : Fin n → Coins 12 =>
    let pks := fun i => P.edPub (seeds i).bytes
    let file := enc
      { csk := csk.bytes, key := key.bytes, salt := salt.bytes, pks, nonces := fun i => (nonces i).bytes
        coin := coin.bytes, plain := A.plain t pks b }
    let answer := ifSameHeader file (shown ([], false)) fun query => shown (read (seeds query.1).bytes query.2)
    yes (A.guess t pks file (A.answers t pks file answer q))

/-- How well he tells the two plaintexts apart. -/
def Asker.advantage (P : Prims) (enc : Job n → Bytes) (read : (seed file : Bytes) → Bytes × Bool)
    (shown : Bytes × Bool → R) (A : Asker n R) (q : Nat) : ℚ :=
  |A.odds P enc read shown q false - A.odds P enc read shown q true|

/-- How many bytes, and whether there is no error. -/
def countOnly (got : Bytes × Bool) : Nat × Bool := (got.1.length, got.2)

/-- A spy who does not ask anybody: he answers himself. -/
def Asker.alone (A : Asker n (Nat × Bool)) (signed : Bool) (q : Nat) : Spy n :=
  { Tape := A.Tape
    plain := A.plain
    guess := fun t pks file => A.guess t pks file
      (A.answers t pks file (ifSameHeader file (0, false) fun query => reaction signed file query.2) q) }

/-- One who changes the file to what would be asked in the `q`-th question if all before were answered like that. -/
def Asker.changer (A : Asker n (Nat × Bool)) (signed : Bool) (b : Bool) (q : Nat) : Tamperer n :=
  { Tape := A.Tape
    plain := fun t pks => A.plain t pks b
    change := fun t pks file => A.ask t pks file
      (A.answers t pks file (ifSameHeader file (0, false) fun query => reaction signed file query.2) q) }

open Classical in
/-- The probability that the changed file contains another signature, by `pk`, of what the sender signed in the trailer. -/
noncomputable def Tamperer.resigns (P : Prims) (pk : Bytes) (enc : Job n → Bytes) (cut : Bytes → List Bytes) (A : Tamperer n) : ℚ :=
  mean fun t : A.Tape => mean fun coin : Coins 64 => mean fun key : Coins 32 =>
  mean fun seeds : Fin n → Coins 32 => mean fun csk : Coins 32 => mean fun salt : Coins 32 =>
  mean fun nonces : Fin n → Coins 12 =>
    let pks := fun i => P.edPub (seeds i).bytes
    let file := enc
      { csk := csk.bytes, key := key.bytes, salt := salt.bytes, pks, nonces := fun i => (nonces i).bytes
        coin := coin.bytes, plain := A.plain t pks }
    let changed := (A.change t pks file).2
    let sum := (front file).drop ((front file).length - 32)
    let mac := P.hmac256 (sessionKeys P key.bytes sum).2.2 (macInput (cut (A.plain t pks)))
    yes (decide (OtherSignature P pk mac (file.drop (file.length - 64)) (changed.drop (front file).length)))

/-- How likely one of his files is not read as he expects. -/
noncomputable def Tamperer.surprise (P : Prims) (S : Setting) (signer : Option Bytes) (enc : Job n → Bytes) (A : Tamperer n) : ℚ :=
  A.bound P S + match signer with
    | some pk => A.resigns P pk enc S.cut
    | none => 0

/-- The bound for a spy who asks `q` times: that for the spy who asks nobody, and a surprise in one of the questions. -/
noncomputable def Asker.bound (P : Prims) (S : Setting) (signer : Option Bytes) (enc : Job n → Bytes) (A : Asker n (Nat × Bool)) (q : Nat) : ℚ :=
  (A.alone signer.isSome q).bound P S +
    ∑ j ∈ Finset.range q, ((A.changer signer.isSome false j).surprise P S signer enc +
      (A.changer signer.isSome true j).surprise P S signer enc)

end Sigtool.Spec
