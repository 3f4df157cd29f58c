import Verif.IO
/-!
# Files: the file system, crashes and `fio.SafeFile` (`sign/iomisc.go`, `github.com/opencoff/go-fio`)

A run of a program is a list of file system calls (`Sys`) that took effect; a crash is a prefix of that list, followed (for a
power loss) by the choice of a crash image.  `fio.SafeFile` is a dependency and is modelled from its documentation: write to a
temporary file next to the target, `Close` = fsync, close, rename; `Abort` removes the temporary file unless `Close`
succeeded.
-/

namespace Sigtool

abbrev Path := Bytes

/-- What a directory entry refers to. -/
inductive Node where
  | file (inode : Nat)
  | other
deriving DecidableEq, Repr

/-- A directory: names to nodes.  Simplification: no symbolic links, one flat name space, permissions are recorded (`FS.mode`) but
nobody is denied access. -/
abbrev Dir := Path → Option Node

/-- The file system as running programs see it, and what stable storage is guaranteed to hold: `journal` are the earlier
directory states that may still be the one on disk, `dirty` the files whose content is not on disk. `mode` are the permission
bits of the files; the umask, which can only take bits away, is left out. -/
structure FS where
  dir : Dir
  journal : List Dir := []
  data : Nat → Bytes
  dirty : Nat → Bool := fun _ => false
  mode : Nat → Nat := fun _ => 0

/-- The content of a file, if there is a regular file of that name. -/
def readIn (dir : Dir) (data : Nat → Bytes) (p : Path) : Option Bytes :=
  match dir p with
  | some (.file i) => some (data i)
  | _ => none

/-- `ioutil.ReadFile(p)`: the content, or an error. -/
def FS.read (fs : FS) (p : Path) : Option Bytes := readIn fs.dir fs.data p

/-- `os.Stat(p)` succeeds. -/
def FS.exists (fs : FS) (p : Path) : Bool := (fs.dir p).isSome

/-- File system calls that took effect. -/
inductive Sys where
  /-- `open(p, O_WRONLY|O_CREATE|O_TRUNC, perm)` of a new file, which gets inode `i`. -/
  | create (p : Path) (i : Nat) (perm : Nat)
  /-- `write`: append to the open file. -/
  | write (i : Nat) (b : Bytes)
  /-- `fsync`. -/
  | sync (i : Nat)
  | rename (a b : Path)
  | remove (p : Path)
deriving DecidableEq, Repr

/-- Point update. -/
def setAt {α β : Type} [DecidableEq α] (f : α → β) (a : α) (b : β) : α → β := fun x => if x = a then b else f x

/-- The effect of a call. Directory changes are pushed on the journal: they reach the disk in order, at some later time. -/
def FS.step (fs : FS) : Sys → FS
  | .create p i perm =>
    { fs with dir := setAt fs.dir p (some (.file i)), journal := fs.dir :: fs.journal, data := setAt fs.data i [],
              dirty := setAt fs.dirty i true, mode := setAt fs.mode i perm }
  | .write i b => { fs with data := setAt fs.data i (fs.data i ++ b), dirty := setAt fs.dirty i true }
  | .sync i => { fs with dirty := setAt fs.dirty i false }
  | .rename a b => { fs with dir := setAt (setAt fs.dir b (fs.dir a)) a none, journal := fs.dir :: fs.journal }
  | .remove p => { fs with dir := setAt fs.dir p none, journal := fs.dir :: fs.journal }

/-- A run. -/
def FS.run (fs : FS) (cs : List Sys) : FS := cs.foldl FS.step fs

/-- What the environment decides about one `SafeFile`: the random name of the temporary file, its inode, and which calls
fail. `writes` is the behaviour of successive `write` calls. -/
structure SafeEnv where
  tmp : Path
  inode : Nat
  openErr : Option Err := none
  writes : List WEv := []
  syncErr : Option Err := none
  closeErr : Option Err := none
  renameErr : Option Err := none
  removeErr : Option Err := none

/-- `fio.NewSafeFile(target, opts, flags, perm)`: refuse an existing target without `OPT_OVERWRITE` or one that is not a regular file;
create the temporary file. -/
def newSafeFile (fs : FS) (env : SafeEnv) (perm : Nat) (target : Path) (ovwrite : Bool) : Res (List Sys) :=
  match fs.dir target with
  | some _ =>
    if !ovwrite then .err (.msg "safefile: won't overwrite existing file")
    else
      match fs.dir target with
      | some .other => .err (.msg "safefile: not a regular file")
      | _ => match env.openErr with
        | some e => .err e
        | none => .ok [.create env.tmp env.inode perm]
  | none => match env.openErr with
    | some e => .err e
    | none => .ok [.create env.tmp env.inode perm]

/-- The writes, one byte at a time so that every prefix is a crash point. -/
def writeCalls (i : Nat) (out : Bytes) : List Sys := out.map fun b => .write i [b]

/-- Creating the temporary file and writing to it. -/
def preCalls (tmp : Path) (i perm : Nat) (out : Bytes) : List Sys := .create tmp i perm :: writeCalls i out

/-- `SafeFile.Abort` of a file that was not closed successfully. -/
def abortCalls (env : SafeEnv) : List Sys :=
  match env.removeErr with
  | some _ => []
  | none => [.remove env.tmp]

/-- `SafeFile.Close` of a file without write errors: the error, if any, and the calls. -/
def closeCalls (env : SafeEnv) (target : Path) : Option Err × List Sys :=
  match env.syncErr with
  | some e => (some e, [])
  | none =>
    match env.closeErr with
    | some e => (some e, [.sync env.inode])
    | none =>
      match env.renameErr with
      | some e => (some e, [.sync env.inode])
      | none => (none, [.sync env.inode, .rename env.tmp target])

/-- `writeFile` (`sign/iomisc.go:28-43`): the result and the calls made.  `defer sf.Abort()` does nothing after a successful
`Close`. -/
def writeFile (fs : FS) (env : SafeEnv) (perm : Nat) (target : Path) (content : Bytes) (ovwrite : Bool) : Res Unit × List Sys :=
  match newSafeFile fs env perm target ovwrite with
  | .err e => (.err e, [])
  | .panic w => (.panic w, [])
  | .ok cs =>
    match fullwrite content { script := env.writes } with
    | (some e, w) => (.err e, cs ++ writeCalls env.inode w.out ++ abortCalls env)
    | (none, w) =>
      match closeCalls env target with
      | (some e, cl) => (.err e, cs ++ writeCalls env.inode w.out ++ cl ++ abortCalls env)
      | (none, cl) => (.ok (), cs ++ writeCalls env.inode w.out ++ cl)

end Sigtool
