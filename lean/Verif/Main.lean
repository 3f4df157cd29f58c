import Verif.Cli
/-!
# Main: the whole program (`src/sigtool.go`, `src/die.go`, and the beginning of each command)

From the command line to the exit status: global options, selection of the command, its options, its argument count, where
the pass phrase comes from, the command itself (module `Cli`), and the exit handlers.

The flag parser (`github.com/opencoff/pflag`) is a parameter (`Flags`): an arbitrary function from arguments to "asks for help",
"does not parse" or options and the remaining arguments. What is asked of the operating system is collected in `World`.
-/

namespace Sigtool

/-- Result of parsing flags: `help` (the help text is printed, exit status 0), `bad` (the usage text is printed, then with
`flag.ExitOnError` exit status 2), or the options and the arguments that remain. -/
inductive Parsed (α : Type) where
  | help
  | bad
  | ok (opts : α) (args : List Bytes)

/-- Global options (`src/sigtool.go:33-37`); `--debug` only adds terminal output (`Debug.lean`). -/
structure TopOpts where
  version : Bool := false
  help : Bool := false
  debug : Bool := false

/-- Options of `generate` (`src/gen.go:32-37`). -/
structure GenOpts where
  nopw : Bool := false
  comment : Bytes := []
  envpw : Bytes := []
  force : Bool := false

/-- Options of `sign` (`src/sign.go:33-38`). -/
structure SignOpts where
  nopw : Bool := false
  envpw : Bytes := []
  output : Bytes := []
  force : Bool := false

/-- Options of `encrypt` (`src/crypt.go:43-48`); the default block size is `"128k"` (`:39`). -/
structure EncOpts where
  outfile : Bytes := []
  sign : Bytes := []
  nopw : Bool := false
  envpw : Bytes := []
  blocksize : Bytes := ascii "128k"
  force : Bool := false

/-- Options of `decrypt` (`src/crypt.go:227-232`). -/
structure DecOpts where
  outfile : Bytes := []
  nopw : Bool := false
  envpw : Bytes := []
  sender : Bytes := []
  test : Bool := false
  force : Bool := false

/-- The flag parser, for the global options and for each command. `--quiet` of `verify` only affects terminal output. -/
structure Flags where
  top : List Bytes → Parsed TopOpts
  gen : List Bytes → Parsed GenOpts
  sign : List Bytes → Parsed SignOpts
  verify : List Bytes → Parsed Unit
  enc : List Bytes → Parsed EncOpts
  dec : List Bytes → Parsed DecOpts

/-- Everything a run takes from outside its command line. -/
structure World where
  D : Deps
  fs : FS
  flags : Flags
  /-- `strings.ToLower` -/
  lower : Bytes → Bytes
  /-- the order in which ranging over the command map delivers the names -/
  order : List Bytes
  /-- `os.Getenv`: empty for an unset variable -/
  getenv : Bytes → Bytes
  /-- what asking for a pass phrase on the terminal yields -/
  askpass : Except Err Bytes
  /-- `path.Clean` -/
  clean : Bytes → Bytes
  /-- `utils.ParseSize` -/
  parseSize : Bytes → Option Nat
  /-- `os.UserHomeDir` -/
  home : Option Path
  stdin : Reader
  /-- what reading the named file delivers once it is open -/
  opened : Path → Reader
  stdout : Writer := {}
  /-- the `SafeFile`s of the run, in the order of creation (`generate` uses two) -/
  env1 : SafeEnv
  env2 : SafeEnv
  /-- failure to map the file to sign or verify into memory -/
  mapErr : Option Err := none
  /-- random bytes: key seed and salt (`generate`), session (`encrypt`), one nonce per recipient argument, trailer -/
  seed : Bytes
  salt : Bytes
  coins : EncCoins
  rbuf : Nat → Bytes
  coin : Bytes

/-- The pass phrase callback of `sign`, `encrypt` and `decrypt` (`src/sign.go:84-100`, `src/crypt.go:63-76`, `:254-269`):
nothing with `--no-password`, else the environment variable, else the terminal. Simplification: when the terminal fails the
code calls `Die` inside the callback; here the callback returns an error, which every caller turns into `Die`. -/
def World.getpw (W : World) (nopw : Bool) (envpw : Bytes) : GetPw :=
  some (if nopw then .ok [] else if envpw ≠ [] then .ok (W.getenv envpw) else W.askpass)

/-- The pass phrase of `generate` (`src/gen.go:72-88`). -/
def World.genpw (W : World) (nopw : Bool) (envpw : Bytes) : Except Err Bytes :=
  if nopw then .ok [] else if envpw ≠ [] then .ok (W.getenv envpw) else W.askpass

/-- `gen` (`src/gen.go:27-100`). -/
def World.gen (W : World) (args : List Bytes) : Outcome :=
  match W.flags.gen args with
  | .help => { exit := 0 }
  | .bad => { exit := 2 }
  | .ok o args =>
    match args with
    | [] => { exit := 1 }
    | bn :: _ =>
      genCmd W.D W.fs W.env1 W.env2 o.force (W.clean bn) o.comment (W.genpw o.nopw o.envpw) W.seed W.salt

/-- `signify` (`src/sign.go:28-116`). -/
def World.sign (W : World) (args : List Bytes) : Outcome :=
  match W.flags.sign args with
  | .help => { exit := 0 }
  | .bad => { exit := 2 }
  | .ok o args =>
    match args with
    | kn :: fn :: _ =>
      signCmd W.D W.fs W.env1 W.stdout o.output o.force (W.getpw o.nopw o.envpw) W.mapErr kn fn
    | _ => { exit := 1 }

/-- `verify` (`src/verify.go:24-96`). -/
def World.verify (W : World) (args : List Bytes) : Outcome :=
  match W.flags.verify args with
  | .help => { exit := 0 }
  | .bad => { exit := 2 }
  | .ok () args => { exit := verifyCmd W.D W.fs W.mapErr args }

/-- What reading the input argument delivers: standard input for `-`, else the file. -/
def World.input (W : World) (infile : Path) : Reader := if infile = ascii "-" then W.stdin else W.opened infile

/-- `encrypt` (`src/crypt.go:31-201`): the last argument is the input, the others are recipients. With fewer than two
arguments the private key is still read first, then `Die`. When the options do not parse, the parser prints the usage text before
it returns the error (`failf`), and the usage function of this command ends with `os.Exit(0)` (`:34-36`, `:374`). -/
def World.encrypt (W : World) (args : List Bytes) : Outcome :=
  match W.flags.enc args with
  | .help => { exit := 0 }
  | .bad => { exit := 0 }
  | .ok o args =>
    let infile := args.getLastD []
    encryptCmd W.D W.fs W.env1 W.stdout o.outfile o.force o.sign (W.getpw o.nopw o.envpw) (W.parseSize o.blocksize)
      (W.home.map fun h => h ++ ascii "/.ssh/authorized_keys")
      (args.dropLast.zipIdx.map fun a => (a.1, W.rbuf a.2)) infile (W.input infile) W.coins W.coin

/-- `decrypt` (`src/crypt.go:216-352`): key, and input or standard input. An input argument that is the empty string fails in
`mustOpen` (`:280`), after the keys were read. Options that do not parse: as in `encrypt` (`:218-220`, `:390`). -/
def World.decrypt (W : World) (args : List Bytes) : Outcome :=
  match W.flags.dec args with
  | .help => { exit := 0 }
  | .bad => { exit := 0 }
  | .ok o args =>
    match args with
    | [] => { exit := 1 }
    | [key] =>
      decryptCmd W.D W.fs W.env1 W.stdout o.outfile o.force o.test key (W.getpw o.nopw o.envpw) o.sender (ascii "-") W.stdin
    | key :: infile :: _ =>
      if infile = [] then
        match readPrivateKey W.D W.fs key (W.getpw o.nopw o.envpw) with
        | .err _ => { exit := 1 }
        | .panic _ => { exit := 2 }
        | .ok _ =>
          if o.sender = [] then { exit := 1 }
          else
            match readPublicKey W.D W.fs o.sender with
            | .panic _ => { exit := 2 }
            | _ => { exit := 1 }
      else
        decryptCmd W.D W.fs W.env1 W.stdout o.outfile o.force o.test key (W.getpw o.nopw o.envpw) o.sender infile (W.input infile)

/-- The function the command map holds under a name (`src/sigtool.go:54-64`); `none`: not in the map. -/
def World.dispatch (W : World) (cmd : Bytes) : Option (List Bytes → Outcome) :=
  if cmd = ascii "generate" then some W.gen
  else if cmd = ascii "sign" then some W.sign
  else if cmd = ascii "verify" then some W.verify
  else if cmd = ascii "encrypt" then some W.encrypt
  else if cmd = ascii "decrypt" then some W.decrypt
  else if cmd = ascii "help" then some fun _ => { exit := 0 }
  else none

/-- `main` (`src/sigtool.go:30-92`): version, help, missing command, unknown command, else run the command. -/
def World.main (W : World) (argv : List Bytes) : Outcome :=
  match W.flags.top argv with
  | .help => { exit := 0 }
  | .bad => { exit := 2 }
  | .ok o args =>
    if o.version then { exit := 0 }
    else if o.help then { exit := 0 }
    else
      match args with
      | [] => { exit := 1 }
      | cmd :: rest =>
        match selectCommand W.lower W.order cmd with
        | none => { exit := 1 }
        | some canon =>
          match W.dispatch canon with
          | none => { exit := 1 }
          | some f => f rest

end Sigtool
