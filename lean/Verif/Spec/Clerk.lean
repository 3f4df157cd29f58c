import Verif.Spec.Forge
import Verif.Spec.Cli
/-!
# Spec.Clerk: forgery, played with the commands `sigtool sign` and `sigtool verify`

A clerk has a private key in a file.  For a swindler he runs `sigtool sign` as often as the swindler likes, with all files,
options and failures as the swindler likes - only the key file is his own, and he does not sign that one - and shows him the
exit status, every file system call and the standard output.  He also uses the key for encrypted files, as in
`Spec/Forge.lean`.  At the end the swindler presents files and arguments of `sigtool verify`.  He wins if it exits with 0
although its first argument denotes the clerk's public key and the clerk was never told to sign a file with the content of the
one that is verified.
-/

namespace Sigtool.Spec

/-- Where the private key is, and how it is protected: the text of the key file for a seed. -/
structure Clerk where
  keyfile : Path
  inode : Nat
  text : (seed : Bytes) → Bytes
  getpw : GetPw

/-- The key file holds the key made from the seed. -/
def Clerk.Holds (D : Deps) (O : Clerk) : Prop :=
  ∀ seed, seed.length = 32 → makePrivateKey D.P D.Y D.pem (O.text seed) O.getpw = .ok (newPrivateKey D.P seed)

/-- A file system with the clerk's key file in it. -/
def Clerk.install (O : Clerk) (text : Bytes) (fs : FS) : FS :=
  { fs with
    dir := fun p => if p = O.keyfile then some (.file O.inode) else fs.dir p
    data := fun i => if i = O.inode then text else fs.data i }

/-- What the swindler decides about a run of `sigtool sign`. -/
structure Order where
  fs : FS
  env : SafeEnv
  stdout : Writer := {}
  output : Path := []
  force : Bool := false
  mapErr : Option Err := none
  file : Path

/-- The file to be signed is not the key file, under that name or another. -/
def Order.legal (O : Clerk) (r : Order) : Prop := r.file ≠ O.keyfile ∧ r.fs.dir r.file ≠ some (.file O.inode)

inductive Demand where
  | sign (r : Order)
  | other (u : Use)

open Classical in
/-- What the clerk does (`use` says what the program does with the key otherwise, cf. `Forger.odds`). -/
noncomputable def Clerk.does (D : Deps) (O : Clerk) (use : Bytes → Use → Bytes) (seed : Bytes) : Demand → Outcome
  | .sign r =>
    if r.legal O then
      signCmd D (O.install (O.text seed) r.fs) r.env r.stdout r.output r.force O.getpw r.mapErr O.keyfile r.file
    else { exit := 1 }
  | .other u => { exit := 0, stdout := use seed u }

/-- The content of the file that the clerk was told to sign. -/
def Demand.contents : Demand → Option Bytes
  | .sign r => r.fs.read r.file
  | .other u => u.contents

/-- Own random bytes; for a public key, a dialogue that ends with files and arguments for `verify`. -/
structure Swindler where
  Tape : Type
  [fin : Fintype Tape]
  play : Tape → (pk : Bytes) → Play Demand Outcome (FS × List Bytes)

attribute [instance] Swindler.fin

/-- `verify` is deceived. -/
def Deceived (D : Deps) (pk : Bytes) (signed : List Bytes) (fs : FS) (args : List Bytes) : Prop :=
  verifyCmd D fs none args = 0 ∧ ∃ pn sn fn more, args = pn :: sn :: fn :: more ∧ (∃ k, KeyArg D fs pn k ∧ k.pk = pk) ∧
    ∃ content, fs.read fn = some content ∧ content ∉ signed

open Classical in
/-- The probability that the swindler wins. -/
noncomputable def Swindler.odds (D : Deps) (O : Clerk) (use : Bytes → Use → Bytes) (F : Swindler) : ℚ :=
  mean fun t : F.Tape => mean fun seed : Coins 32 =>
    let pk := D.P.edPub seed.bytes
    let (ds, fs, args) := (F.play t pk).run (O.does D use seed.bytes)
    yes (decide (Deceived D pk (ds.filterMap Demand.contents) fs args))

/-! ### From a swindler to a forger -/

/-- What `sign` does with the text of a signature or an error, if the key file holds `text`. -/
def report (D : Deps) (O : Clerk) (text : Bytes) (r : Order) (t : Option Bytes) : Outcome :=
  if sigTarget r.output r.file = ascii "-" then
    match t with
    | some t => { exit := 0, stdout := (r.stdout.write t).2.2.out }
    | none => { exit := 1 }
  else
    match newSafeFile (O.install text r.fs) r.env 0o644 (sigTarget r.output r.file) r.force with
    | .ok _ =>
      match t with
      | some t =>
        let w := fullwrite t (r.env.writer (sigTarget r.output r.file))
        { exit := 0, sys := safeCalls r.env 0o644 (sigTarget r.output r.file) w.2.close.2 w.1.isSome }
      | none =>
        { exit := 1, sys := safeCalls r.env 0o644 (sigTarget r.output r.file) (r.env.writer (sigTarget r.output r.file)) false }
    | .err _ => { exit := 1 }
    | .panic _ => { exit := 2 }

open Classical in
/-- How a demand is met by one who has no key but may ask for the uses of `Spec/Forge.lean`. -/
noncomputable def Demand.answer (D : Deps) (O : Clerk) (pk : Bytes) : Demand → Play Use Bytes Outcome
  | .sign r =>
    if r.legal O then
      match r.fs.read r.file, r.mapErr with
      | some c, none =>
        .ask (.sign c) fun s =>
          .done (report D O [] r (some (Signature.marshal D.Y ⟨s, pkhash D.P pk⟩ (ascii "input=" ++ r.file))))
      | _, _ => .done (report D O [] r none)
    else .done { exit := 1 }
  | .other u => .ask u fun b => .done { exit := 0, stdout := b }

/-- The content and the signature that are presented. -/
def presented (D : Deps) (fs : FS) (args : List Bytes) : Bytes × Bytes :=
  match args with
  | _ :: sn :: fn :: _ =>
    ((fs.read fn).getD [], match readSignature D fs sn with
      | .ok s => s.sig
      | _ => [])
  | _ => ([], [])

/-- A forger in the sense of `Spec/Forge.lean`. -/
noncomputable def Swindler.forger (D : Deps) (O : Clerk) (F : Swindler) : Forger :=
  { Tape := F.Tape
    play := fun t pk => ((F.play t pk).through (Demand.answer D O pk)).andThen fun (fs, args) => .done (presented D fs args) }

end Sigtool.Spec
