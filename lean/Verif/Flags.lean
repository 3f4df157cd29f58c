import Verif.Main
/-!
# Flags: the options each command declares, and the flag parser

The tables are those of `src/*.go`. The parser is `github.com/opencoff/pflag` (a fork of `spf13/pflag`), whose source is not in
the sandbox; `FlagSet.parseArgs`, `parseLongArg` and `parseSingleShortArg` are written down from memory.
-/

namespace Sigtool

/-- A declared flag. `set` stores a value (`flag.Value.Set`), `none` is its error. For a boolean flag `NoOptDefVal` is `"true"`,
for a string flag it is empty. -/
structure FlagDef (α : Type) where
  name : Bytes
  short : Option UInt8
  isBool : Bool
  set : Bytes → α → Option α

/-- `strconv.ParseBool`. -/
def parseBool (v : Bytes) : Option Bool :=
  if v = ascii "1" ∨ v = ascii "t" ∨ v = ascii "T" ∨ v = ascii "TRUE" ∨ v = ascii "true" ∨ v = ascii "True" then some true
  else if v = ascii "0" ∨ v = ascii "f" ∨ v = ascii "F" ∨ v = ascii "FALSE" ∨ v = ascii "false" ∨ v = ascii "False" then some false
  else none

/-- `BoolVarP`. -/
def boolVarP {α : Type} (name : String) (short : Option Char) (upd : α → Bool → α) : FlagDef α :=
  { name := ascii name, short := short.map fun c => UInt8.ofNat c.toNat, isBool := true
    set := fun v o => (parseBool v).map (upd o) }

/-- `StringVarP`. -/
def stringVarP {α : Type} (name : String) (short : Option Char) (upd : α → Bytes → α) : FlagDef α :=
  { name := ascii name, short := short.map fun c => UInt8.ofNat c.toNat, isBool := false, set := fun v o => some (upd o v) }

/-- What one argument that is an option does: it sets something, it needs the next argument as a value, it asks for help that is
not declared as a flag (`ErrHelp`), or it is an error. -/
inductive ArgStep (α : Type) where
  | done (o : α)
  | need (set : Bytes → Option α)
  | help
  | bad

/-- `fn(flag, value)`. -/
def ArgStep.ofSet {α : Type} : Option α → ArgStep α
  | some o => .done o
  | none => .bad

/-- `parseLongArg` for what follows `--`. -/
def parseLong {α : Type} (defs : List (FlagDef α)) (o : α) (body : Bytes) : ArgStep α :=
  match body with
  | [] => .bad
  | c :: _ =>
    if c = 45 ∨ c = 61 then .bad
    else
      let name := body.takeWhile (· ≠ 61)
      match defs.find? (fun d => d.name == name) with
      | none => if name = ascii "help" then .help else .bad
      | some d =>
        match body.dropWhile (· ≠ 61) with
        | _ :: v => .ofSet (d.set v o)
        | [] => if d.isBool then .ofSet (d.set (ascii "true") o) else .need fun v => d.set v o

/-- `parseShortArg` (the loop over `parseSingleShortArg`) for what follows `-`. -/
def parseShort {α : Type} (defs : List (FlagDef α)) : α → Bytes → ArgStep α
  | o, [] => .done o
  | o, c :: cs =>
    match defs.find? (fun d => d.short == some c) with
    | none => if c = 104 then .help else .bad
    | some d =>
      if cs.length > 1 ∧ cs.head? = some 61 then .ofSet (d.set cs.tail o)
      else if d.isBool then
        match d.set (ascii "true") o with
        | none => .bad
        | some o => parseShort defs o cs
      else if cs.length > 0 then .ofSet (d.set cs o)
      else .need fun v => d.set v o

/-- `parseArgs`: the options and the arguments that remain (after those in `acc`). -/
def parseArgs {α : Type} (defs : List (FlagDef α)) (interspersed : Bool) : α → List Bytes → List Bytes → Parsed α
  | o, acc, [] => .ok o acc
  | o, acc, s :: rest =>
    if s.length < 2 ∨ s.head? ≠ some 45 then
      if interspersed then parseArgs defs interspersed o (acc ++ [s]) rest else .ok o (acc ++ s :: rest)
    else if s = [45, 45] then .ok o (acc ++ rest)
    else
      match if s.tail.head? = some 45 then parseLong defs o (s.drop 2) else parseShort defs o (s.drop 1) with
      | .done o => parseArgs defs interspersed o acc rest
      | .help => .help
      | .bad => .bad
      | .need f =>
        match rest with
        | [] => .bad
        | v :: rest' =>
          match f v with
          | none => .bad
          | some o => parseArgs defs interspersed o acc rest'

/-- `main` (`src/sigtool.go:33-38`); `SetInterspersed(false)`. -/
def topDefs : List (FlagDef TopOpts) :=
  [boolVarP "version" (some 'v') fun o b => { o with version := b },
   boolVarP "help" (some 'h') fun o b => { o with help := b },
   boolVarP "debug" none fun o b => { o with debug := b }]

/-- `gen` (`src/gen.go:32-37`); the second component is `help`. -/
def genDefs : List (FlagDef (GenOpts × Bool)) :=
  [boolVarP "help" (some 'h') fun o b => (o.1, b),
   boolVarP "no-password" none fun o b => ({ o.1 with nopw := b }, o.2),
   stringVarP "comment" (some 'c') fun o v => ({ o.1 with comment := v }, o.2),
   stringVarP "env-password" (some 'E') fun o v => ({ o.1 with envpw := v }, o.2),
   boolVarP "overwrite" none fun o b => ({ o.1 with force := b }, o.2)]

/-- `signify` (`src/sign.go:33-38`). -/
def signDefs : List (FlagDef (SignOpts × Bool)) :=
  [boolVarP "help" (some 'h') fun o b => (o.1, b),
   boolVarP "no-password" none fun o b => ({ o.1 with nopw := b }, o.2),
   stringVarP "env-password" (some 'E') fun o v => ({ o.1 with envpw := v }, o.2),
   stringVarP "output" (some 'o') fun o v => ({ o.1 with output := v }, o.2),
   boolVarP "overwrite" none fun o b => ({ o.1 with force := b }, o.2)]

/-- `verify` (`src/verify.go:27-29`); the components are `quiet` and `help`. -/
def verifyDefs : List (FlagDef (Bool × Bool)) :=
  [boolVarP "help" (some 'h') fun o b => (o.1, b),
   boolVarP "quiet" (some 'q') fun o b => (b, o.2)]

/-- `encrypt` (`src/crypt.go:44-49`); help is not declared, so `-h` and `--help` are `ErrHelp`. -/
def encDefs : List (FlagDef EncOpts) :=
  [stringVarP "outfile" (some 'o') fun o v => { o with outfile := v },
   stringVarP "sign" (some 's') fun o v => { o with sign := v },
   boolVarP "no-password" none fun o b => { o with nopw := b },
   stringVarP "env-password" (some 'E') fun o v => { o with envpw := v },
   stringVarP "block-size" (some 'B') fun o v => { o with blocksize := v },
   boolVarP "overwrite" none fun o b => { o with force := b }]

/-- `decrypt` (`src/crypt.go:227-232`). -/
def decDefs : List (FlagDef DecOpts) :=
  [stringVarP "outfile" (some 'o') fun o v => { o with outfile := v },
   boolVarP "no-password" none fun o b => { o with nopw := b },
   stringVarP "env-password" (some 'E') fun o v => { o with envpw := v },
   stringVarP "verify-sender" (some 'v') fun o v => { o with sender := v },
   boolVarP "test" (some 't') fun o b => { o with test := b },
   boolVarP "overwrite" none fun o b => { o with force := b }]

/-- `if help { ...; os.Exit(0) }` after parsing. -/
def Parsed.withHelp {α : Type} : Parsed (α × Bool) → Parsed α
  | .help => .help
  | .bad => .bad
  | .ok o args => if o.2 then .help else .ok o.1 args

/-- Options of `verify`, with `--quiet`. -/
def verifyFlags (args : List Bytes) : Parsed Bool := (parseArgs verifyDefs true (false, false) [] args).withHelp

/-- The parser with the tables of the program. -/
def realFlags : Flags where
  top := parseArgs topDefs false {} []
  gen args := (parseArgs genDefs true ({}, false) [] args).withHelp
  sign args := (parseArgs signDefs true ({}, false) [] args).withHelp
  verify args := match verifyFlags args with
    | .help => .help
    | .bad => .bad
    | .ok _ args => .ok () args
  enc := parseArgs encDefs true {} []
  dec := parseArgs decDefs true {} []

end Sigtool
