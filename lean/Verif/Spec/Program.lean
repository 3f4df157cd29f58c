import Verif.Main
import Verif.Spec.Cli
import Verif.Spec.Command
import Verif.Spec.Files
/-!
# Spec.Program: what a `sigtool` command line asks for

Which command it selects and which files it names as outputs. Independent of what the commands do.
-/

namespace Sigtool.Spec

/-- The command line selects the command `w` with the arguments `rest`: no `--version` or `--help`, and the first argument
abbreviates `w` (in any letter case). -/
def Runs (W : World) (argv : List Bytes) (w : String) (rest : List Bytes) : Prop :=
  ∃ o cmd, W.flags.top argv = .ok o (cmd :: rest) ∧ o.version = false ∧ o.help = false ∧ Abbreviates (W.lower cmd) w

/-- The files that a command line names as outputs: the two key files of `generate`, the signature file of `sign`, the `-o` file
of `encrypt`, the `-o` file of `decrypt` without `--test`. -/
inductive Output (W : World) (argv : List Bytes) : Path → Prop
  | key (rest o bn more) : Runs W argv "generate" rest → W.flags.gen rest = .ok o (bn :: more) →
      Output W argv (W.clean bn ++ ascii ".key")
  | pub (rest o bn more) : Runs W argv "generate" rest → W.flags.gen rest = .ok o (bn :: more) →
      Output W argv (W.clean bn ++ ascii ".pub")
  | sig (rest o kn fn more) : Runs W argv "sign" rest → W.flags.sign rest = .ok o (kn :: fn :: more) →
      Output W argv (sigTarget o.output fn)
  | enc (rest o args) : Runs W argv "encrypt" rest → W.flags.enc rest = .ok o args → Output W argv o.outfile
  | dec (rest o args) : Runs W argv "decrypt" rest → W.flags.dec rest = .ok o args → o.test = false → Output W argv o.outfile

/-- The pass phrase of a command with these options: empty with `--no-password`, else the value of the environment variable that
`--env-password` names, else what is typed at the terminal. -/
inductive PassPhrase (W : World) (nopw : Bool) (envpw : Bytes) : Bytes → Prop
  | none : nopw = true → PassPhrase W nopw envpw []
  | env : nopw = false → envpw ≠ [] → PassPhrase W nopw envpw (W.getenv envpw)
  | typed (pw) : nopw = false → envpw = [] → W.askpass = .ok pw → PassPhrase W nopw envpw pw

/-- What the input argument of `encrypt` stands for: standard input for `-`, else what reading the file delivers. -/
inductive Input (W : World) : Bytes → Reader → Prop
  | stdin : Input W (ascii "-") W.stdin
  | file (f) : f ≠ ascii "-" → Input W f (W.opened f)

/-- The arguments of `decrypt`: the private key file, and an input file, `-` or nothing (standard input). -/
inductive DecArgs (W : World) : List Bytes → Path → Reader → Prop
  | stdin (key) : DecArgs W [key] key W.stdin
  | dash (key more) : DecArgs W (key :: ascii "-" :: more) key W.stdin
  | file (key f more) : f ≠ [] → f ≠ ascii "-" → W.fs.exists f = true → DecArgs W (key :: f :: more) key (W.opened f)

/-- What a run may take for granted: the temporary files get unused names and inodes, different from each other and from the
files named as outputs; the map iteration delivers each command name once; the random source delivers what was asked for. -/
structure Normal (W : World) (argv : List Bytes) : Prop where
  fresh1 : Fresh W.fs W.env1.tmp W.env1.inode
  fresh2 : Fresh W.fs W.env2.tmp W.env2.inode
  tmp : W.env2.tmp ≠ W.env1.tmp
  inode : W.env2.inode ≠ W.env1.inode
  out : ∀ p, Output W argv p → p ≠ W.env1.tmp ∧ p ≠ W.env2.tmp
  order : W.order.Perm commands
  coins : W.coins.csk.length = 32 ∧ W.coins.key.length = 32 ∧ W.coins.salt.length = 32
  coin : W.coin.length = 64

end Sigtool.Spec
