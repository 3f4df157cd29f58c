import Verif.Spec.Symbolic
/-!
# Spec.SymbolicTest: what an attacker can see by comparing the results of his computations

Two worlds in which the same things are handed to the attacker, made from different secrets. He computes in the same way in both - a
`Recipe` does not depend on the world - and compares: are two results the same bytes, does a box open, does a signature verify, how
long is a result? If no such test ever turns out differently he cannot tell in which of the worlds he is. (Static equivalence of
Abadi and Fournet.)
-/

namespace Sigtool.Spec.Symbolic

/-- The number of bytes, given those of the secrets. -/
def Term.size (len : Secret → Nat) : Term → Nat
  | .bytes b => b.length
  | .secret s => len s
  | .cat a b => a.size len + b.size len
  | .take n t => min n (t.size len)
  | .drop n t => t.size len - n
  | .sha256 _ => 32
  | .sha512 _ => 64
  | .hmac _ _ => 32
  | .hkdf _ _ _ n => n
  | .scrypt _ _ => 32
  | .box _ _ t _ => t.size len + 16
  | .edPub _ => 32
  | .edSign _ _ => 64
  | .clamp t => t.size len
  | .base => 32
  | .mul _ _ => 32
  | .mont _ => 32

/-- The things handed to the attacker. -/
inductive Handle
  | file (n : Nat)
  | publicKey (i : Nat)
  | keyFile (i : Nat) (salt : Bytes)
  | signature (i : Nat) (m : Bytes)
  | seed (i : Nat)
  | pass (i : Nat)
  /-- What he is told is piece `i` of the plaintext of file `n`. -/
  | plaintext (n i : Nat)

/-- How the attacker computes. -/
inductive Recipe
  | given (h : Handle)
  | bytes (b : Bytes)
  | cat (a b : Recipe)
  | take (n : Nat) (t : Recipe)
  | drop (n : Nat) (t : Recipe)
  | sha256 (t : Recipe)
  | sha512 (t : Recipe)
  | hmac (key t : Recipe)
  | hkdf (ikm salt : Recipe) (info : Bytes) (n : Nat)
  | scrypt (pass salt : Recipe)
  | box (key nonce t ad : Recipe)
  /-- Opens a box with a key. -/
  | opened (key t : Recipe)
  | edPub (seed : Recipe)
  | edSign (sk t : Recipe)
  | clamp (t : Recipe)
  | base
  | mul (scalar point : Recipe)
  | mont (pk : Recipe)

/-- What a recipe gives, if `given h t` says that `h` is the term `t`. There may be several terms, which are different ways of writing
the same bytes: besides `Eqv`, the first `n` bytes of `a ++ b` are `a` if `a` has `n` bytes, and the first `n` bytes of `t` followed by
the rest are `t`. A recipe gives nothing if a box in it does not open. -/
inductive Gives (len : Secret → Nat) (given : Handle → Term → Prop) : Recipe → Term → Prop
  | given {h t} : given h t → Gives len given (.given h) t
  | eqv {R t u} : Eqv t u → Gives len given R t → Gives len given R u
  | bytes (b) : Gives len given (.bytes b) (.bytes b)
  | cat {A B a b} : Gives len given A a → Gives len given B b → Gives len given (.cat A B) (.cat a b)
  | join {A B n t} : Gives len given A (.take n t) → Gives len given B (.drop n t) → Gives len given (.cat A B) t
  | take {R n t} : Gives len given R t → Gives len given (.take n R) (.take n t)
  | drop {R n t} : Gives len given R t → Gives len given (.drop n R) (.drop n t)
  | left {R a b} : Gives len given R (.cat a b) → Gives len given (.take (a.size len) R) a
  | right {R a b} : Gives len given R (.cat a b) → Gives len given (.drop (a.size len) R) b
  | sha256 {R t} : Gives len given R t → Gives len given (.sha256 R) (.sha256 t)
  | sha512 {R t} : Gives len given R t → Gives len given (.sha512 R) (.sha512 t)
  | hmac {A B a b} : Gives len given A a → Gives len given B b → Gives len given (.hmac A B) (.hmac a b)
  | hkdf {A B a b i n} : Gives len given A a → Gives len given B b → Gives len given (.hkdf A B i n) (.hkdf a b i n)
  | scrypt {A B a b} : Gives len given A a → Gives len given B b → Gives len given (.scrypt A B) (.scrypt a b)
  | box {K N T A k n t a} : Gives len given K k → Gives len given N n → Gives len given T t → Gives len given A a →
      Gives len given (.box K N T A) (.box k n t a)
  | opened {K T k n t a} : Gives len given K k → Gives len given T (.box k n t a) → Gives len given (.opened K T) t
  | edPub {R t} : Gives len given R t → Gives len given (.edPub R) (.edPub t)
  | edSign {A B a b} : Gives len given A a → Gives len given B b → Gives len given (.edSign A B) (.edSign a b)
  | clamp {R t} : Gives len given R t → Gives len given (.clamp R) (.clamp t)
  | base : Gives len given .base .base
  | mul {A B a b} : Gives len given A a → Gives len given B b → Gives len given (.mul A B) (.mul a b)
  | mont {R t} : Gives len given R t → Gives len given (.mont R) (.mont t)

/-- Test: two computations have the same result. (With `A = B`: the computation succeeds.) -/
def Same (len : Secret → Nat) (given : Handle → Term → Prop) (A B : Recipe) : Prop :=
  ∃ t, Gives len given A t ∧ Gives len given B t

/-- Test: `Sig` is a signature of `M` that verifies with the public key `Pk`. -/
def Verifies (len : Secret → Nat) (given : Handle → Term → Prop) (Pk M Sig : Recipe) : Prop :=
  ∃ s m, Gives len given Pk (.edPub s) ∧ Gives len given M m ∧ Gives len given Sig (.edSign (.cat s (.edPub s)) m)

/-- Test: the result has `n` bytes. -/
def HasSize (len : Secret → Nat) (given : Handle → Term → Prop) (A : Recipe) (n : Nat) : Prop :=
  ∃ t, Gives len given A t ∧ t.size len = n

/-- No test tells the two worlds apart. -/
structure Indistinguishable (len : Secret → Nat) (given given' : Handle → Term → Prop) : Prop where
  same : ∀ A B, Same len given A B ↔ Same len given' A B
  verifies : ∀ Pk M Sig, Verifies len given Pk M Sig ↔ Verifies len given' Pk M Sig
  size : ∀ A n, HasSize len given A n ↔ HasSize len given' A n

/-! ### The worlds -/

/-- What the attacker is told about the plaintext of a file. -/
inductive Told
  | nothing
  | truth
  | lie
deriving DecidableEq

structure World where
  files : Nat → File
  told : Nat → Told

/-- What is handed to an attacker who controls the people in `bad`. -/
inductive World.Given (w : World) (bad : Nat → Prop) : Handle → Term → Prop
  | file (n) : w.Given bad (.file n) (encrypted n (w.files n))
  | publicKey (i) : w.Given bad (.publicKey i) (.edPub (Symbolic.seed i))
  | keyFile (i salt) : w.Given bad (.keyFile i salt) (sealedKey i salt)
  | signature (i m) : w.Given bad (.signature i m) (signed i (.bytes m))
  | seed (i) : bad i → w.Given bad (.seed i) (Symbolic.seed i)
  | pass (i) : bad i → w.Given bad (.pass i) (.secret (.pass i))
  | truth (n i) : w.told n = .truth → w.Given bad (.plaintext n i) (.secret (.chunk n i))
  | lie (n i) : w.told n = .lie → w.Given bad (.plaintext n i) (.secret (.decoy n i))

/-- The worlds differ in nothing but this: who the recipients outside `bad` are; and, for the files that have no recipient in `bad`, who
the sender is, if there is one, and whether what the attacker is told about the plaintext is true. No two recipients of a file have
got the same random nonce. -/
structure Alike (bad : Nat → Prop) (w w' : World) : Prop where
  blk : ∀ n, (w.files n).blk = (w'.files n).blk
  salt : ∀ n, (w.files n).salt = (w'.files n).salt
  sizes : ∀ n, (w.files n).sizes = (w'.files n).sizes
  coin : ∀ n, (w.files n).coin = (w'.files n).coin
  rcpts : ∀ n, List.Forall₂ (fun r r' => r.2 = r'.2 ∧ (r.1 = r'.1 ∨ (¬ bad r.1 ∧ ¬ bad r'.1))) (w.files n).rcpts (w'.files n).rcpts
  nonces : ∀ n, ((w.files n).rcpts.map Prod.snd).Nodup
  sender : ∀ n, (w.files n).sender = (w'.files n).sender ∨
    ((∀ r ∈ (w.files n).rcpts, ¬ bad r.1) ∧ (w.files n).sender.isSome ∧ (w'.files n).sender.isSome)
  told : ∀ n, w.told n = w'.told n ∨ ((∀ r ∈ (w.files n).rcpts, ¬ bad r.1) ∧ w.told n ≠ .nothing ∧ w'.told n ≠ .nothing)

end Sigtool.Spec.Symbolic
