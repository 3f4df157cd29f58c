import Verif.Base
/-!
# Spec.Flags: command lines, independent of the parser

The grammar of options: `--name=value`, `--name value`, `--name` (no value), `-x value`, `-xvalue`, `-x=value`, letters of options
without a value written together, arguments between options, `--` before arguments that may begin with `-`. The tables of options
are those of the usage texts.
-/

namespace Sigtool.Spec

/-- An option: long name, letter, whether it takes a value. -/
structure Opt where
  name : String
  letter : Option Char := none
  takes : Bool := true

/-- Bytes of an ASCII text. -/
abbrev word (s : String) : Bytes := ascii s

def letter (c : Char) : Bytes := [UInt8.ofNat c.toNat]

/-- What a command line sets: names of options and values, from left to right. -/
abbrev Settings := List (String × Bytes)

/-- `=` and something. -/
def EqValue (w : Bytes) : Prop := ∃ v, v ≠ [] ∧ w = word "=" ++ v

/-- Letters after one `-`: what they set, and the option that takes the next word as its value, if any. -/
inductive Letters (opts : List Opt) : Bytes → Settings → Option String → Prop
  | flag (o : Opt) (c : Char) : o ∈ opts → o.letter = some c → o.takes = false →
      Letters opts (letter c) [(o.name, word "true")] none
  | flags (o : Opt) (c : Char) (w : Bytes) (s : Settings) (next : Option String) : o ∈ opts → o.letter = some c →
      o.takes = false → ¬ EqValue w → Letters opts w s next →
      Letters opts (letter c ++ w) ((o.name, word "true") :: s) next
  | equals (o : Opt) (c : Char) (v : Bytes) : o ∈ opts → o.letter = some c → v ≠ [] →
      Letters opts (letter c ++ word "=" ++ v) [(o.name, v)] none
  | value (o : Opt) (c : Char) (v : Bytes) : o ∈ opts → o.letter = some c → o.takes = true → v ≠ [] → ¬ EqValue v →
      Letters opts (letter c ++ v) [(o.name, v)] none
  | next (o : Opt) (c : Char) : o ∈ opts → o.letter = some c → o.takes = true → Letters opts (letter c) [] (some o.name)

/-- One word that is an option. -/
inductive OptWord (opts : List Opt) : Bytes → Settings → Option String → Prop
  | equals (o : Opt) (v : Bytes) : o ∈ opts → OptWord opts (word "--" ++ word o.name ++ word "=" ++ v) [(o.name, v)] none
  | flag (o : Opt) : o ∈ opts → o.takes = false → OptWord opts (word "--" ++ word o.name) [(o.name, word "true")] none
  | next (o : Opt) : o ∈ opts → o.takes = true → OptWord opts (word "--" ++ word o.name) [] (some o.name)
  | letters (w : Bytes) (s : Settings) (next : Option String) : Letters opts w s next → OptWord opts (word "-" ++ w) s next

/-- A word that is an argument wherever it stands: `-` alone, the empty word, or a word that does not begin with `-`. -/
def Plain (w : Bytes) : Prop := w = [] ∨ w = word "-" ∨ w.head? ≠ some 45

/-- The beginning of a command line: options and arguments among them, and what follows. -/
inductive Begins (opts : List Opt) : List Bytes → Settings → List Bytes → List Bytes → Prop
  | here (rest : List Bytes) : Begins opts rest [] [] rest
  | arg (w : Bytes) (line : List Bytes) (s : Settings) (args rest : List Bytes) : Plain w → Begins opts line s args rest →
      Begins opts (w :: line) s (w :: args) rest
  | opt (w : Bytes) (s0 : Settings) (line : List Bytes) (s : Settings) (args rest : List Bytes) :
      OptWord opts w s0 none → Begins opts line s args rest → Begins opts (w :: line) (s0 ++ s) args rest
  | optNext (w : Bytes) (s0 : Settings) (n : String) (v : Bytes) (line : List Bytes) (s : Settings) (args rest : List Bytes) :
      OptWord opts w s0 (some n) → Begins opts line s args rest →
      Begins opts (w :: v :: line) (s0 ++ (n, v) :: s) args rest

/-- A complete command line: what it sets and its arguments. -/
def Reads (opts : List Opt) (line : List Bytes) (s : Settings) (args : List Bytes) : Prop :=
  Begins opts line s args [] ∨ ∃ before after, Begins opts line s before (word "--" :: after) ∧ args = before ++ after

/-- A complete command line of the program itself: the options before the first argument, which is the command. -/
def ReadsFirst (opts : List Opt) (line : List Bytes) (s : Settings) (args : List Bytes) : Prop :=
  (Begins opts line s [] [] ∧ args = []) ∨ Begins opts line s [] (word "--" :: args) ∨
    ∃ w rest, Begins opts line s [] (w :: rest) ∧ Plain w ∧ args = w :: rest

/-- Words for true and false. -/
def trues : List Bytes := ["1", "t", "T", "TRUE", "true", "True"].map word
def falses : List Bytes := ["0", "f", "F", "FALSE", "false", "False"].map word

/-- Options without a value are only set to words for true or false. -/
def Typed (opts : List Opt) (s : Settings) : Prop :=
  ∀ x ∈ s, ∀ o ∈ opts, o.name = x.1 → o.takes = false → x.2 ∈ trues ∨ x.2 ∈ falses

/-- The value of an option: the last one given, else the default. -/
def text (name : String) (default : Bytes) (s : Settings) : Bytes :=
  ((s.filter fun x => x.1 = name).getLast?.map (·.2)).getD default

/-- Whether an option without a value is on: by the last occurrence. -/
def on (name : String) (s : Settings) : Prop := text name (word "false") s ∈ trues

instance (name : String) (s : Settings) : Decidable (on name s) := inferInstanceAs (Decidable (_ ∈ _))

/-- A word that asks for help where `help` is not an option: `--help`, or `h` after letters of options without a value. -/
def AsksHelp (opts : List Opt) (w : Bytes) : Prop :=
  (∃ v : Bytes, w = word "--help" ∨ w = word "--help=" ++ v) ∨
  ∃ (cs : List Char) (v : Bytes), (∀ c ∈ cs, ∃ o ∈ opts, o.letter = some c ∧ o.takes = false) ∧ w = word "-" ++ cs.flatMap letter ++ letter 'h' ++ v

/-! ### The options of each command, from the usage texts -/

def topOptions : List Opt :=
  [⟨"help", some 'h', false⟩, ⟨"version", some 'v', false⟩, ⟨"debug", none, false⟩]

def genOptions : List Opt :=
  [⟨"comment", some 'c', true⟩, ⟨"env-password", some 'E', true⟩, ⟨"help", some 'h', false⟩, ⟨"no-password", none, false⟩,
   ⟨"overwrite", none, false⟩]

def signOptions : List Opt :=
  [⟨"env-password", some 'E', true⟩, ⟨"help", some 'h', false⟩, ⟨"no-password", none, false⟩, ⟨"output", some 'o', true⟩,
   ⟨"overwrite", none, false⟩]

def verifyOptions : List Opt := [⟨"help", some 'h', false⟩, ⟨"quiet", some 'q', false⟩]

def encOptions : List Opt :=
  [⟨"block-size", some 'B', true⟩, ⟨"env-password", some 'E', true⟩, ⟨"no-password", none, false⟩, ⟨"outfile", some 'o', true⟩,
   ⟨"overwrite", none, false⟩, ⟨"sign", some 's', true⟩]

def decOptions : List Opt :=
  [⟨"env-password", some 'E', true⟩, ⟨"no-password", none, false⟩, ⟨"outfile", some 'o', true⟩, ⟨"overwrite", none, false⟩,
   ⟨"test", some 't', false⟩, ⟨"verify-sender", some 'v', true⟩]

end Sigtool.Spec
