import Verif.Random
import Verif.Main
/-!
# RandomCli: the commands that need random bytes, with the random source they draw from

`generate` and `encrypt` (`src/gen.go`, `src/crypt.go`) as in `Verif.Cli`, but drawing from `rand.Reader` instead of getting
their random bytes as arguments. The random source may fail: `NewPrivateKey` then returns an error, everything else panics; a
panic runs the deferred `Abort` and ends the program with exit status 2. Not modelled here: the random suffix of the name of a
temporary file, which `SafeFile` draws itself (it is part of `SafeEnv`).
-/

namespace Sigtool

/-- `gen` (`src/gen.go:27-100`), with `NewPrivateKey` (`sign/keys.go:117-131`, an error is `Die`) and the salt drawn by `Serialize`
(`sign/keys.go:225-228`, a panic). Once it has its random bytes it goes on as `genCmd`. -/
def genCmdR (D : Deps) (fs : FS) (env1 env2 : SafeEnv) (force : Bool) (clean comment : Bytes) (pw : Except Err Bytes)
    (rnd : Reader) : Outcome × Reader :=
  if !force && (fs.exists (pubName clean) || fs.exists (keyName clean)) then ({ exit := 1 }, rnd)
  else
    match pw with
    | .error _ => ({ exit := 1 }, rnd)
    | .ok pw =>
      match randBuf rnd 32 with
      | (none, rnd) => ({ exit := 1 }, rnd)
      | (some seed, rnd) =>
        match randBuf rnd 32 with
        | (none, rnd) => ({ exit := 2 }, rnd)
        | (some salt, rnd) => (genCmd D fs env1 env2 force clean comment (.ok pw) seed salt, rnd)

/-- The loop over the recipients (`src/crypt.go:163-194`). -/
def addAllR (D : Deps) (fs : FS) (pka : List PublicKey) : Encryptor → Nat → List Bytes → Reader → Res (Encryptor × Nat) × Reader
  | e, errs, [], rnd => (.ok (e, errs), rnd)
  | e, errs, fn :: rs, rnd =>
    match resolveRecipient D fs pka fn with
    | .panic w => (.panic w, rnd)
    | .err x => (.err x, rnd)
    | .ok none => addAllR D fs pka e (errs + 1) rs rnd
    | .ok (some pk) =>
      match e.addRecipientR D.P pk rnd with
      | (.ok (), e, rnd) => addAllR D fs pka e errs rs rnd
      | (.err x, _, rnd) => (.err x, rnd)
      | (.panic w, _, rnd) => (.panic w, rnd)

/-- From `NewEncryptor` to the end (`src/crypt.go:158-200`). -/
def encryptBodyR (D : Deps) (fs : FS) (pka : List PublicKey) (sk : Option PrivateKey) (blksize : Nat) (rcpts : List Bytes)
    (rd rnd : Reader) (wr : Writer) : Res Nat × Writer × Reader :=
  match newEncryptorR D.P rnd sk blksize with
  | (.err x, rnd) => (.err x, wr, rnd)
  | (.panic w, rnd) => (.panic w, wr, rnd)
  | (.ok e, rnd) =>
    match addAllR D fs pka e 0 rcpts rnd with
    | (.err x, rnd) => (.err x, wr, rnd)
    | (.panic w, rnd) => (.panic w, wr, rnd)
    | (.ok (e, errs), rnd) =>
      if errs > 0 then (.err (.msg "Too many errors!"), wr, rnd)
      else
        match e.encryptR D.P rd wr rnd with
        | (.ok (), _, _, wr, rnd) => (.ok 0, wr.close.2, rnd)
        | (.err x, _, _, wr, rnd) => (.err x, wr, rnd)
        | (.panic w, _, _, wr, rnd) => (.panic w, wr, rnd)

/-- `withOutput` (`src/crypt.go:123-156`) for a body that draws. -/
def withOutputR (fs : FS) (env : SafeEnv) (perm : Nat) (stdout : Writer) (outfile : Path) (force : Bool)
    (body : Writer → Res Nat × Writer × Reader) (rnd : Reader) : Outcome × Reader :=
  if outfile = [] ∨ outfile = ascii "-" then
    match body stdout with
    | (r, w, rnd) => ({ exit := exitOf r, stdout := w.out }, rnd)
  else
    match newSafeFile fs env perm outfile force with
    | .err _ => ({ exit := 1 }, rnd)
    | .panic _ => ({ exit := 2 }, rnd)
    | .ok _ =>
      match body (env.writer outfile) with
      | (r, w, rnd) => ({ exit := exitOf r, sys := safeCalls env perm outfile w false }, rnd)

/-- `encrypt` (`src/crypt.go:31-201`). -/
def encryptCmdR (D : Deps) (fs : FS) (env : SafeEnv) (stdout : Writer) (outfile : Path) (force : Bool) (keyfile : Path)
    (getpw : GetPw) (blksize : Option Nat) (authkeys : Option Path) (rcpts : List Bytes) (infile : Path)
    (rd rnd : Reader) : Outcome × Reader :=
  match blksize with
  | none => ({ exit := 1 }, rnd)
  | some blksize =>
    let key : Res (Option PrivateKey) :=
      if keyfile = [] then .ok none else (readPrivateKey D fs keyfile getpw).bind fun sk => .ok (some sk)
    match key with
    | .err _ => ({ exit := 1 }, rnd)
    | .panic _ => ({ exit := 2 }, rnd)
    | .ok sk =>
      if rcpts = [] then ({ exit := 1 }, rnd)
      else if infile ≠ ascii "-" ∧ fs.exists infile = false then ({ exit := 1 }, rnd)
      else
        match authkeys with
        | none => ({ exit := 1 }, rnd)
        | some auth =>
          if fs.exists auth = true ∧ fs.read auth = none then ({ exit := 1 }, rnd)
          else
            let pka := parseAuthorizedKeys D.P ((fs.read auth).getD [])
            withOutputR fs env 0o600 stdout outfile force (encryptBodyR D fs pka sk blksize rcpts rd rnd) rnd

/-- `gen` (`src/gen.go:27-100`). -/
def World.genR (W : World) (args : List Bytes) (rnd : Reader) : Outcome × Reader :=
  match W.flags.gen args with
  | .help => ({ exit := 0 }, rnd)
  | .bad => ({ exit := 2 }, rnd)
  | .ok o args =>
    match args with
    | [] => ({ exit := 1 }, rnd)
    | bn :: _ => genCmdR W.D W.fs W.env1 W.env2 o.force (W.clean bn) o.comment (W.genpw o.nopw o.envpw) rnd

/-- `encrypt` (`src/crypt.go:31-201`). -/
def World.encryptR (W : World) (args : List Bytes) (rnd : Reader) : Outcome × Reader :=
  match W.flags.enc args with
  | .help => ({ exit := 0 }, rnd)
  | .bad => ({ exit := 0 }, rnd)
  | .ok o args =>
    let infile := args.getLastD []
    encryptCmdR W.D W.fs W.env1 W.stdout o.outfile o.force o.sign (W.getpw o.nopw o.envpw) (W.parseSize o.blocksize)
      (W.home.map fun h => h ++ ascii "/.ssh/authorized_keys") args.dropLast infile (W.input infile) rnd

/-- The command map (`src/sigtool.go:54-64`): only `generate` and `encrypt` draw. (Ed25519 signing gets `rand.Reader` as an argument,
`sign/sign.go:51`, and ignores it.) -/
def World.dispatchR (W : World) (cmd : Bytes) : Option (List Bytes → Reader → Outcome × Reader) :=
  if cmd = ascii "generate" then some W.genR
  else if cmd = ascii "encrypt" then some W.encryptR
  else (W.dispatch cmd).map fun f args rnd => (f args, rnd)

/-- `main` (`src/sigtool.go:30-92`). -/
def World.mainR (W : World) (argv : List Bytes) (rnd : Reader) : Outcome × Reader :=
  match W.flags.top argv with
  | .help => ({ exit := 0 }, rnd)
  | .bad => ({ exit := 2 }, rnd)
  | .ok o args =>
    if o.version then ({ exit := 0 }, rnd)
    else if o.help then ({ exit := 0 }, rnd)
    else
      match args with
      | [] => ({ exit := 1 }, rnd)
      | cmd :: rest =>
        match selectCommand W.lower W.order cmd with
        | none => ({ exit := 1 }, rnd)
        | some canon =>
          match W.dispatchR canon with
          | none => ({ exit := 1 }, rnd)
          | some f => f rest rnd

end Sigtool
