import Verif.Cli
/-!
# Terminal: what `verify` and `decrypt` print

The commands of `Cli` again, with what they print.  Of the messages on standard error (`Warn`, `Die`, the trace of a crash) only
the kind is modelled, not the text.
-/

namespace Sigtool

/-- A message on standard error: `Die` (`src/die.go:26-29`), the trace of the Go runtime, and the two calls of `Warn` in `decrypt`
(`src/crypt.go:339,349`). -/
inductive Notice where
  | died
  | crashed
  | missingSender
  | encFileOK
deriving DecidableEq, Repr

/-- Exit status, standard output, standard error. -/
structure Said where
  exit : Nat
  stdout : Bytes := []
  notices : List Notice := []
deriving DecidableEq, Repr

/-- The two lines `verify` can print (`src/verify.go:88-92`). -/
def resultLine (fn sn : Bytes) (ok : Bool) : Bytes :=
  fn ++ ascii ": Signature " ++ sn ++ (if ok then ascii " verified\n" else ascii " verification failure\n")

/-- The checks of `verify` (`src/verify.go:54-80`), up to the answer of `VerifyFile`. -/
def verifyCheck (D : Deps) (fs : FS) (mapErr : Option Err) (pn sn fn : Bytes) : Res Bool :=
  (verifyKey D fs pn).bind fun pk? =>
  (readSignature D fs sn).bind fun sig =>
  match pk? with
  | none => .panic "nil pointer dereference"
  | some pk =>
    if !isPKMatch pk sig then .err (.msg "Wrong public key")
    else
      (readFile fs fn).bind fun content =>
      match mapErr with
      | some e => .err e
      | none => verifyFile D.P pk content sig

/-- `verify` with its output (`src/verify.go:24-96`); `quiet` is `--quiet`. -/
def verifySays (D : Deps) (fs : FS) (mapErr : Option Err) (quiet : Bool) (args : List Bytes) : Said :=
  match args with
  | pn :: sn :: fn :: _ =>
    match verifyCheck D fs mapErr pn sn fn with
    | .err _ => { exit := 1, notices := [.died] }
    | .panic _ => { exit := 2, notices := [.crashed] }
    | .ok ok => { exit := if ok then 0 else 1, stdout := if quiet then [] else resultLine fn sn ok }
  | _ => { exit := 1, notices := [.died] }

/-- The messages of `decrypt` from `NewDecryptor` to the end (`src/crypt.go:324-350`). -/
def decryptBodyNotices (P : Prims) (rd : Reader) (sk : PrivateKey) (pk : Option PublicKey) (test : Bool) (wr : Writer) : List Notice :=
  match setupDecryptor P rd sk pk with
  | .err _ => [.died]
  | .panic _ => [.crashed]
  | .ok d =>
    let warning : List Notice := if pk = none ∧ d.auth = true then [.missingSender] else []
    match d.decrypt P wr with
    | (.ok (), _, _) => warning ++ (if test then [.encFileOK] else [])
    | (.err _, _, _) => warning ++ [.died]
    | (.panic _, _, _) => warning ++ [.crashed]

/-- The messages of `decrypt` (`src/crypt.go:216-352`); arguments as for `decryptCmd`. -/
def decryptNotices (D : Deps) (fs : FS) (env : SafeEnv) (stdout : Writer) (outfile : Path) (force test : Bool) (keyfile : Path)
    (getpw : GetPw) (pubkey : Path) (infile : Path) (rd : Reader) : List Notice :=
  match readPrivateKey D fs keyfile getpw with
  | .err _ => [.died]
  | .panic _ => [.crashed]
  | .ok sk =>
    let pk : Res (Option PublicKey) :=
      if pubkey = [] then .ok none else (readPublicKey D fs pubkey).bind fun pk => .ok (some pk)
    match pk with
    | .err _ => [.died]
    | .panic _ => [.crashed]
    | .ok pk =>
      if infile ≠ [] ∧ infile ≠ ascii "-" ∧ fs.exists infile = false then [.died]
      else if test then decryptBodyNotices D.P rd sk pk test {}
      else if outfile = [] ∨ outfile = ascii "-" then decryptBodyNotices D.P rd sk pk test stdout
      else
        match newSafeFile fs env 0o600 outfile force with
        | .err _ => [.died]
        | .panic _ => [.crashed]
        | .ok _ => decryptBodyNotices D.P rd sk pk test (env.writer outfile)

end Sigtool
