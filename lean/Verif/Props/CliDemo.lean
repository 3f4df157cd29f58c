import Verif.Props.CliEnd
/-!
# A concrete session of the program

Toy primitives and YAML library, a small file system.  The examples show that the hypotheses of C47-C52 and C58-C60 are met by
non-trivial runs: a generated key pair, a signature, a container for two recipients (a key file and a user of the
`authorized_keys` file) with a sender, and failures of various kinds.
-/

namespace Sigtool.CliDemo
open Sigtool Spec

/-- Toy dependencies. -/
def D : Deps := ⟨toyPrims, toyYaml, fun _ => none⟩

/-- The file to be signed and encrypted. -/
def plain : Bytes := [1, 2, 3, 4, 5, 6, 7, 8, 9, 10]

/-- One user, `bob@x`. -/
def authText : Bytes :=
  ascii "ssh-ed25519 " ++ Base64.encode (sshString (ascii "ssh-ed25519") ++ sshString (List.replicate 32 77)) ++ ascii " bob@x\n"

def fs0 : FS where
  dir := fun p => if p = ascii "in" then some (.file 0) else if p = ascii "auth" then some (.file 10) else none
  data := fun i => if i = 0 then plain else if i = 10 then authText else []

def env (name : String) (i : Nat) : SafeEnv := { tmp := ascii name, inode := i }

def seed : Bytes := List.replicate 32 3
def salt : Bytes := List.replicate 32 8
def pw : Bytes := ascii "secret"
def k : Bytes := ascii "k"

/-! ### generate -/

def gen : Outcome := genCmd D fs0 (env "t1" 1) (env "t2" 2) false k [] (.ok pw) seed salt

def fs1 : FS := fs0.run gen.sys

theorem gen_exit : gen.exit = 0 := by decide +kernel

/-- A name that is not in the directory. -/
theorem fs0_fresh (name : String) (i : Nat) (h1 : ascii name ≠ ascii "in") (h2 : ascii name ≠ ascii "auth") (hi : i ≠ 0 ∧ i ≠ 10) :
    Fresh fs0 (ascii name) i := by
  constructor
  · intro d hd
    simp only [fs0, List.mem_singleton] at hd
    subst hd
    simp [h1, h2]
  · intro d hd p
    simp only [fs0, List.mem_singleton] at hd
    subst hd
    dsimp only
    split
    · intro h; cases h; exact hi.1 rfl
    · split
      · intro h; cases h; exact hi.2 rfl
      · simp

theorem gen_env : GenEnv fs0 (env "t1" 1) (env "t2" 2) k where
  fresh1 := fs0_fresh _ _ (by decide +kernel) (by decide +kernel) (by decide)
  fresh2 := fs0_fresh _ _ (by decide +kernel) (by decide +kernel) (by decide)
  tmp := by decide +kernel
  inode := by decide
  key1 := by decide +kernel
  pub1 := by decide +kernel
  key2 := by decide +kernel
  pub2 := by decide +kernel

/-- C49: the generated pair loads, with the pass phrase. -/
example : ∃ pw' sk pk, (.ok pw : Except Err Bytes) = .ok pw' ∧ readPrivateKey D fs1 (keyName k) (some (.ok pw')) = .ok sk ∧
      readPublicKey D fs1 (pubName k) = .ok pk ∧
      sk.sk = seed ++ D.P.edPub seed ∧ sk.pub.pk = D.P.edPub seed ∧ pk.pk = D.P.edPub seed ∧ sk.pub.hash = pk.hash ∧
      sk.Genuine D.P :=
  C49_pair_loads D toyLaws toyYaml_laws fs0 _ _ false k [] (toyYaml_reads _) (.inl rfl) (.ok pw) seed salt (by decide) (by decide)
    gen_env gen_exit

/-- C49: a second `generate` fails. -/
example : genCmd D fs1 (env "t3" 3) (env "t4" 4) false k [] (.ok pw) seed salt = { exit := 1 } := by decide +kernel

/-- C49: the second file cannot be written: exit status 1 and only the private key file is there. -/
example : let o := genCmd D fs0 (env "t1" 1) { env "t2" 2 with syncErr := some .eof } false k [] (.ok pw) seed salt
    o.exit = 1 ∧ (fs0.run o.sys).exists (keyName k) = true ∧ (fs0.run o.sys).exists (pubName k) = false ∧
      (fs0.run o.sys).exists (ascii "t2") = false := by decide +kernel

/-! ### sign and verify -/

def sg : Outcome := signCmd D fs1 (env "t3" 3) {} [] false (some (.ok pw)) none (keyName k) (ascii "in")

def fs2 : FS := fs1.run sg.sys

/-- C48, C58, C59: the signature is made and accepted. -/
example : sg.exit = 0 ∧ verifyCmd D fs2 none [pubName k, ascii "in.sig", ascii "in"] = 0 := by decide +kernel

/-- C58: with `-o -` the same text goes to standard output. -/
example : let o := signCmd D fs1 (env "t3" 3) {} (ascii "-") false (some (.ok pw)) none (keyName k) (ascii "in")
    (o.exit, o.sys, some o.stdout) = (0, [], (fs1.run sg.sys).read (ascii "in.sig")) := by decide +kernel

/-- C58: without the pass phrase no signature is made and nothing is written. -/
example : let o := signCmd D fs1 (env "t3" 3) {} [] false (some (.ok (ascii "wrong"))) none (keyName k) (ascii "in")
    o.exit = 1 ∧ (fs1.run o.sys).exists (ascii "in.sig") = false ∧ (fs1.run o.sys).exists (ascii "t3") = false := by decide +kernel

/-- C58 (refuted part): renaming fails, exit status 0, no signature file. -/
example : let o := signCmd D fs1 { env "t3" 3 with renameErr := some .eof } {} [] false (some (.ok pw)) none (keyName k) (ascii "in")
    o.exit = 0 ∧ (fs1.run o.sys).exists (ascii "in.sig") = false := by decide +kernel

/-- C48, C59: the signature is rejected for another file and for another key; a missing argument is an error. -/
example : verifyCmd D fs2 none [pubName k, ascii "in.sig", ascii "auth"] = 1 ∧
    verifyCmd D fs2 none [pubName k, ascii "in", ascii "in"] = 1 ∧
    verifyCmd D fs2 none [pubName k, ascii "in.sig"] = 1 ∧
    verifyCmd D fs2 (some .eof) [pubName k, ascii "in.sig", ascii "in"] = 1 := by decide +kernel

/-- C48 (refuted part): 32 zero bytes in base64 as the key. -/
example : verifyCmd D fs2 none [Base64.encode (List.replicate 32 0), ascii "in.sig", ascii "in"] = 2 := by decide +kernel

/-! ### encrypt and decrypt -/

def coins : EncCoins := ⟨List.replicate 32 7, List.replicate 32 8, List.replicate 32 9⟩
def coin : Bytes := List.replicate 64 6

def rcpts : List (Bytes × Bytes) := [(ascii "bob@x", List.replicate 12 4), (pubName k, List.replicate 12 5)]

/-- Encrypt `in` to `out`, signed with the generated key, for `bob@x` and the generated key itself, block size 4. -/
def enc : Outcome :=
  encryptCmd D fs1 (env "t5" 5) {} (ascii "out") false (keyName k) (some (.ok pw)) (some 4) (some (ascii "auth")) rcpts (ascii "in")
    ⟨[plain.take 7, plain.drop 7], .eof, true⟩ coins coin

def fs3 : FS := fs1.run enc.sys

/-- C50: it succeeds. -/
theorem enc_exit : enc.exit = 0 ∧ fs3.exists (ascii "t5") = false := by decide +kernel

/-- C50: with a user that is not in the file nothing is written. -/
def encEve : Outcome :=
  encryptCmd D fs1 (env "t5" 5) {} (ascii "out") false [] none (some 4) (some (ascii "auth"))
    ((ascii "eve@x", List.replicate 12 4) :: rcpts) (ascii "in") ⟨[plain], .eof, true⟩ coins coin

example : encEve.exit = 1 ∧ (fs1.run encEve.sys).exists (ascii "out") = false := by decide +kernel

def dec (force : Bool) (sync : Option Err) (out : Path) : Outcome :=
  decryptCmd D fs3 { env "t6" 6 with syncErr := sync } {} out force false (keyName k) (some (.ok pw)) (pubName k) (ascii "out")
    ⟨[(fs3.read (ascii "out")).getD []], .eof, false⟩

/-- C51, C60: it decrypts. -/
example : (dec false none (ascii "out2")).exit = 0 ∧ (fs3.run (dec false none (ascii "out2")).sys).read (ascii "out2") = some plain := by
  decide +kernel

/-- C51 (refuted part): fsync fails, exit status 0, no output file. -/
example : (dec false (some .eof) (ascii "out2")).exit = 0 ∧
    (fs3.run (dec false (some .eof) (ascii "out2")).sys).exists (ascii "out2") = false := by decide +kernel

/-- C52: onto its own input, without and with `--overwrite`. -/
example : (dec false none (ascii "out")).exit = 1 ∧ (dec false none (ascii "out")).sys = [] ∧ (dec true none (ascii "out")).exit = 0 ∧
    (fs3.run (dec true none (ascii "out")).sys).read (ascii "out") = some plain := by decide +kernel

/-- C51: a truncated container: exit status 1 and nothing is written. -/
def decTrunc : Outcome :=
  decryptCmd D fs3 (env "t6" 6) {} (ascii "out2") false false (keyName k) (some (.ok pw)) (pubName k) (ascii "out")
    ⟨[((fs3.read (ascii "out")).getD []).dropLast], .eof, false⟩

example : decTrunc.exit = 1 ∧ (fs3.run decTrunc.sys).exists (ascii "out2") = false ∧
    (fs3.run decTrunc.sys).exists (ascii "t6") = false := by decide +kernel

end Sigtool.CliDemo
