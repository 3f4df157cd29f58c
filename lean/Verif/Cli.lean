import Verif.Files
import Verif.Keys
import Verif.Session
/-!
# Cli: the commands of the `sigtool` program (`src/*.go`)

A command is modelled after flag parsing: its inputs are the parsed options, the file system, and what the environment
supplies (pass phrase, random bytes, behaviour of the files it opens); its outcome is the exit status and the file system
calls it made.  `Die` is exit status 1, a crash of the Go runtime is exit status 2; both run the registered clean-up
(`AtExit(sf.Abort)` and `defer sf.Abort()`).  Messages on the terminal: `Terminal.lean`.
-/

namespace Sigtool

/-- Exit status of a run that ends with this result: `Die` exits with 1 (`src/die.go:26-29`), an uncaught panic with 2. -/
def exitOf : Res Nat → Nat
  | .ok n => n
  | .err _ => 1
  | .panic _ => 2

/-- What a command did: its exit status, its file system calls, and what it wrote to standard output. -/
structure Outcome where
  exit : Nat
  sys : List Sys := []
  stdout : Bytes := []
deriving DecidableEq, Repr

/-- Dependencies that the commands share: primitives, YAML library, `pem.Decode`. -/
structure Deps where
  P : Prims
  Y : Yaml
  pem : Bytes → Option PemBlock

/-- `ioutil.ReadFile`. -/
def readFile (fs : FS) (fn : Path) : Res Bytes := orErr (fs.read fn) (.msg "can't open or read")

/-- `ReadPrivateKey` (`sign/keys.go:135-146`). -/
def readPrivateKey (D : Deps) (fs : FS) (fn : Path) (getpw : GetPw) : Res PrivateKey :=
  (readFile fs fn).bind fun b => makePrivateKey D.P D.Y D.pem b getpw

/-- `ReadPublicKey` (`sign/keys.go:347-360`). -/
def readPublicKey (D : Deps) (fs : FS) (fn : Path) : Res PublicKey :=
  (readFile fs fn).bind fun b => makePublicKey D.P D.Y b

/-- `ReadSignature` (`sign/sign.go:84-92`). -/
def readSignature (D : Deps) (fs : FS) (fn : Path) : Res Signature :=
  (readFile fs fn).bind fun b => unmarshalSig D.Y b

/-! ### verify -/

/-- The key named by the first argument (`src/verify.go:59-66`): a string, else a file. -/
def verifyKey (D : Deps) (fs : FS) (pn : Bytes) : Res (Option PublicKey) :=
  match makePublicKeyFromString D.P pn with
  | .ok o => .ok o
  | .panic w => .panic w
  | .err _ => (readPublicKey D fs pn).bind fun pk => .ok (some pk)

/-- `verify` (`src/verify.go:24-96`) on the arguments that remain after the flags.  `mapErr` is a failure to map the file into
memory (`sign/iomisc.go:54-60`). `sig.IsPKMatch(pk)` dereferences `pk`, which may be nil. -/
def verifyCmd (D : Deps) (fs : FS) (mapErr : Option Err) (args : List Bytes) : Nat :=
  match args with
  | pn :: sn :: fn :: _ =>
    exitOf <|
      (verifyKey D fs pn).bind fun pk? =>
      (readSignature D fs sn).bind fun sig =>
      match pk? with
      | none => .panic "nil pointer dereference"
      | some pk =>
        if !isPKMatch pk sig then .err (.msg "Wrong public key")
        else
          (readFile fs fn).bind fun content =>
          match mapErr with
          | some e => .err e
          | none => (verifyFile D.P pk content sig).bind fun ok => .ok (if ok then 0 else 1)
  | _ => 1

/-! ### generate -/

/-- `fmt.Sprintf("%s.pub", path.Clean(bn))` and `.key` (`src/gen.go:61-62`); `clean` is the cleaned prefix. -/
def pubName (clean : Bytes) : Path := clean ++ ascii ".pub"

def keyName (clean : Bytes) : Path := clean ++ ascii ".key"

/-- `gen` (`src/gen.go:27-100`; `Serialize`, `sign/keys.go:213-219,413-425`) with a prefix argument (without one it is exit status 1).  `seed` and `salt` are the random
bytes drawn; `pw` the pass phrase (`[]` with `--no-password`); a failure to read a pass phrase is `Die`. Simplification: the
random source does not fail. -/
def genCmd (D : Deps) (fs : FS) (env1 env2 : SafeEnv) (force : Bool) (clean comment : Bytes) (pw : Except Err Bytes)
    (seed salt : Bytes) : Outcome :=
  if !force && (fs.exists (pubName clean) || fs.exists (keyName clean)) then { exit := 1 }
  else
    match pw with
    | .error _ => { exit := 1 }
    | .ok pw =>
      let sk := newPrivateKey D.P seed
      match sk.marshal D.P D.Y comment pw salt with
      | .err _ => { exit := 1 }
      | .panic _ => { exit := 2 }
      | .ok text =>
        match writeFile fs env1 0o600 (keyName clean) text force with
        | (.err _, cs) => { exit := 1, sys := cs }
        | (.panic _, cs) => { exit := 2, sys := cs }
        | (.ok (), cs) =>
          match writeFile (fs.run cs) env2 0o644 (pubName clean) (sk.pub.marshal D.Y comment) force with
          | (.err _, cs2) => { exit := 1, sys := cs ++ cs2 }
          | (.panic _, cs2) => { exit := 2, sys := cs ++ cs2 }
          | (.ok (), cs2) => { exit := 0, sys := cs ++ cs2 }

/-! ### Commands that write through a `SafeFile` -/

/-- The `SafeFile` as an `io.WriteCloser`: its writes behave as the environment says, its `Close` fails if fsync, close or
rename does. -/
def SafeEnv.writer (env : SafeEnv) (target : Path) : Writer :=
  { script := env.writes, closeErr := (closeCalls env target).1 }

/-- The file system calls of a run over a `SafeFile` that ends with `w` having received `w.out`; `w.closes` says whether
`Close` was called (a second call does nothing) and `bad` whether an earlier write had failed, in which case `Close` aborts. -/
def safeCalls (env : SafeEnv) (perm : Nat) (target : Path) (w : Writer) (bad : Bool) : List Sys :=
  preCalls env.tmp env.inode perm w.out ++
    (if w.closes = 0 || bad then abortCalls env
     else
      match closeCalls env target with
      | (none, cl) => cl
      | (some _, cl) => cl ++ abortCalls env)

/-- Run `body` with the named output (`src/crypt.go:123-156`, `289-322`): standard output for `""` and `"-"`, else a `SafeFile`.
The check that input and output are the same file (`src/crypt.go:126-142`, `294-308`) is dead code: it looks at the outer
variable `inf`, which is nil because `inf := mustOpen(...)` declares a new one; for the same reason the mode stays `perm`. -/
def withOutput (fs : FS) (env : SafeEnv) (perm : Nat) (stdout : Writer) (outfile : Path) (force : Bool)
    (body : Writer → Res Nat × Writer) : Outcome :=
  if outfile = [] ∨ outfile = ascii "-" then
    let (r, w) := body stdout
    { exit := exitOf r, stdout := w.out }
  else
    match newSafeFile fs env perm outfile force with
    | .err _ => { exit := 1 }
    | .panic _ => { exit := 2 }
    | .ok _ =>
      let (r, w) := body (env.writer outfile)
      { exit := exitOf r, sys := safeCalls env perm outfile w false }

/-! ### sign -/

/-- `signify` (`src/sign.go:28-116`) with two arguments: the output is created first; results of `Write` and `Close` are
ignored. -/
def signCmd (D : Deps) (fs : FS) (env : SafeEnv) (stdout : Writer) (output : Path) (force : Bool) (getpw : GetPw)
    (mapErr : Option Err) (kn fn : Path) : Outcome :=
  let outf := if output = [] then fn ++ ascii ".sig" else output
  let sigText : Res Bytes :=
    (readPrivateKey D fs kn getpw).bind fun sk =>
    (readFile fs fn).bind fun content =>
    match mapErr with
    | some e => .err e
    | none => (signFile D.P sk content).bind fun sig => .ok (sig.marshal D.Y (ascii "input=" ++ fn))
  if outf = ascii "-" then
    match sigText with
    | .ok t => let (_, _, w) := stdout.write t; { exit := 0, stdout := w.out }
    | .err _ => { exit := 1 }
    | .panic _ => { exit := 2 }
  else
    match newSafeFile fs env 0o644 outf force with
    | .err _ => { exit := 1 }
    | .panic _ => { exit := 2 }
    | .ok _ =>
      match sigText with
      | .ok t =>
        let (e, w) := fullwrite t (env.writer outf)
        let (_, w) := w.close
        { exit := 0, sys := safeCalls env 0o644 outf w e.isSome }
      | .err _ => { exit := 1, sys := safeCalls env 0o644 outf (env.writer outf) false }
      | .panic _ => { exit := 2, sys := safeCalls env 0o644 outf (env.writer outf) false }

/-! ### encrypt -/

/-- `strings.Index(fn, "@") > 0` (`src/crypt.go:169`). -/
def namesUser (fn : Bytes) : Bool :=
  match indexOf (ascii "@") fn with
  | some n => n > 0
  | none => false

/-- `keymap` (`src/crypt.go:116-121`): comment to key; later entries replace earlier ones. -/
def keymapGet (pka : List PublicKey) (name : Bytes) : Option PublicKey := pka.reverse.find? fun pk => pk.comment == name

/-- One recipient argument (`src/crypt.go:168-189`): `.ok none` is "warn, count an error, go on". -/
def resolveRecipient (D : Deps) (fs : FS) (pka : List PublicKey) (fn : Bytes) : Res (Option PublicKey) :=
  if namesUser fn then .ok (keymapGet pka fn)
  else
    match readPublicKey D fs fn with
    | .ok pk => .ok (some pk)
    | .err _ => .ok none
    | .panic w => .panic w

/-- The loop over the recipients (`src/crypt.go:163-194`); each argument comes with the random bytes its `AddRecipient` draws.
The result is the encryptor and the number of errors. -/
def addAll (D : Deps) (fs : FS) (pka : List PublicKey) : Encryptor → Nat → List (Bytes × Bytes) → Res (Encryptor × Nat)
  | e, errs, [] => .ok (e, errs)
  | e, errs, (fn, rbuf) :: rs =>
    match resolveRecipient D fs pka fn with
    | .panic w => .panic w
    | .err x => .err x
    | .ok none => addAll D fs pka e (errs + 1) rs
    | .ok (some pk) =>
      match e.addRecipient D.P pk rbuf with
      | (.ok (), e) => addAll D fs pka e errs rs
      | (.err x, _) => .err x
      | (.panic w, _) => .panic w

/-- From `NewEncryptor` to the end (`src/crypt.go:158-200`).  `Encrypt` closes the output itself. -/
def encryptBody (D : Deps) (fs : FS) (pka : List PublicKey) (sk : Option PrivateKey) (blksize : Nat) (c : EncCoins)
    (rcpts : List (Bytes × Bytes)) (rd : Reader) (coin : Bytes) (wr : Writer) : Res Nat × Writer :=
  match (newEncryptor D.P sk blksize c).bind fun e => addAll D fs pka e 0 rcpts with
  | .err x => (.err x, wr)
  | .panic w => (.panic w, wr)
  | .ok (e, errs) =>
    if errs > 0 then (.err (.msg "Too many errors!"), wr)
    else
      match e.encrypt D.P rd wr coin with
      | (.ok (), _, _, wr) => (.ok 0, wr.close.2)
      | (.err x, _, _, wr) => (.err x, wr)
      | (.panic w, _, _, wr) => (.panic w, wr)

/-- `encrypt` (`src/crypt.go:31-201`).  `rcpts` are the recipient arguments (all but the last argument) with their random
bytes; `blksize` is the parsed `-B` option (`none`: it does not parse); `authkeys` the path of the authorized_keys file
(`none`: no home directory); `rd` what reading the input delivers. -/
def encryptCmd (D : Deps) (fs : FS) (env : SafeEnv) (stdout : Writer) (outfile : Path) (force : Bool) (keyfile : Path)
    (getpw : GetPw) (blksize : Option Nat) (authkeys : Option Path) (rcpts : List (Bytes × Bytes)) (infile : Path)
    (rd : Reader) (c : EncCoins) (coin : Bytes) : Outcome :=
  match blksize with
  | none => { exit := 1 }
  | some blksize =>
    let key : Res (Option PrivateKey) :=
      if keyfile = [] then .ok none else (readPrivateKey D fs keyfile getpw).bind fun sk => .ok (some sk)
    match key with
    | .err _ => { exit := 1 }
    | .panic _ => { exit := 2 }
    | .ok sk =>
      if rcpts = [] then { exit := 1 }
      else if infile ≠ ascii "-" ∧ fs.exists infile = false then { exit := 1 }
      else
        match authkeys with
        | none => { exit := 1 }
        | some auth =>
          if fs.exists auth = true ∧ fs.read auth = none then { exit := 1 }
          else
            let pka := parseAuthorizedKeys D.P ((fs.read auth).getD [])
            withOutput fs env 0o600 stdout outfile force (encryptBody D fs pka sk blksize c rcpts rd coin)

/-! ### decrypt -/

/-- From `NewDecryptor` to the end (`src/crypt.go:324-350`).  The result of `Close` is ignored. -/
def decryptBody (P : Prims) (rd : Reader) (sk : PrivateKey) (pk : Option PublicKey) (wr : Writer) : Res Nat × Writer :=
  match setupDecryptor P rd sk pk with
  | .err x => (.err x, wr)
  | .panic w => (.panic w, wr)
  | .ok d =>
    match d.decrypt P wr with
    | (.ok (), _, wr) => (.ok 0, wr.close.2)
    | (.err x, _, wr) => (.err x, wr)
    | (.panic w, _, wr) => (.panic w, wr)

/-- `decrypt` (`src/crypt.go:216-352`) with at least one argument.  `test` is `-t`: the plaintext is discarded. -/
def decryptCmd (D : Deps) (fs : FS) (env : SafeEnv) (stdout : Writer) (outfile : Path) (force test : Bool) (keyfile : Path)
    (getpw : GetPw) (pubkey : Path) (infile : Path) (rd : Reader) : Outcome :=
  match readPrivateKey D fs keyfile getpw with
  | .err _ => { exit := 1 }
  | .panic _ => { exit := 2 }
  | .ok sk =>
    let pk : Res (Option PublicKey) :=
      if pubkey = [] then .ok none else (readPublicKey D fs pubkey).bind fun pk => .ok (some pk)
    match pk with
    | .err _ => { exit := 1 }
    | .panic _ => { exit := 2 }
    | .ok pk =>
      if infile ≠ [] ∧ infile ≠ ascii "-" ∧ fs.exists infile = false then { exit := 1 }
      else if test then { exit := exitOf (decryptBody D.P rd sk pk {}).1 }
      else withOutput fs env 0o600 stdout outfile force (decryptBody D.P rd sk pk)

/-! ### Selecting the command -/

/-- `utils.Abbrev(words)` (`github.com/opencoff/go-utils`, the algorithm of Perl's `Text::Abbrev`): count for each proper
prefix how often it was seen; the first time it is entered, the second time removed; afterwards every word is entered under
its own name.  `table` and `seen` are association lists. -/
def abbrevStep (st : List (Bytes × Bytes) × List Bytes) (w ab : Bytes) : List (Bytes × Bytes) × List Bytes :=
  let n := st.2.count ab
  if n = 0 then ((ab, w) :: st.1, ab :: st.2)
  else (st.1.filter (fun e => e.1 ≠ ab), ab :: st.2)

/-- The proper non-empty prefixes of a word, longest first. -/
def properPrefixes (w : Bytes) : List Bytes := ((List.range w.length).reverse.filter (· > 0)).map fun n => w.take n

def abbrevTable (words : List Bytes) : List (Bytes × Bytes) :=
  let st := words.foldl (fun st w => (properPrefixes w).foldl (fun st ab => abbrevStep st w ab) st) ([], [])
  words.map (fun w => (w, w)) ++ st.1

/-- `ab[s]`: words entered last replace the others. -/
def abbrevGet (words : List Bytes) (s : Bytes) : Option Bytes := (abbrevTable words).lookup s

/-- The six commands (`src/sigtool.go:54-64`). -/
def commands : List Bytes :=
  [ascii "generate", ascii "sign", ascii "verify", ascii "encrypt", ascii "decrypt", ascii "help"]

/-- The command selected by the first argument (`src/sigtool.go:66-80`); `order` is the order in which Go's map iteration
delivers the command names and `lower` is `strings.ToLower`. -/
def selectCommand (lower : Bytes → Bytes) (order : List Bytes) (arg : Bytes) : Option Bytes := abbrevGet order (lower arg)

end Sigtool
