import Verif.Props.MainPw
import Verif.Props.MainEnd
import Verif.Props.CliDemo
/-!
# Concrete command lines

A small flag parser and a small world: the hypotheses of C66-C72 are met by non-trivial runs of the whole program.
-/

namespace Sigtool.MainDemo
open Sigtool Spec CliDemo

/-- A flag parser that knows `--version`, and for each command `-E variable` and `-o file` in this order. -/
def flags : Flags where
  top := fun a => match a with
    | [] => .ok {} []
    | x :: xs => if x = ascii "--version" then .ok { version := true } xs else if x = ascii "-?" then .bad else .ok {} (x :: xs)
  gen := fun a => match a with
    | x :: e :: xs => if x = ascii "-E" then .ok { envpw := e } xs else .ok {} (x :: e :: xs)
    | xs => .ok {} xs
  sign := fun a => match a with
    | x :: e :: xs => if x = ascii "-E" then .ok { envpw := e } xs else .ok {} (x :: e :: xs)
    | xs => .ok {} xs
  verify := fun a => .ok () a
  enc := fun a => match a with
    | x :: f :: xs => if x = ascii "-o" then .ok { outfile := f } xs else .ok {} (x :: f :: xs)
    | xs => .ok {} xs
  dec := fun a => match a with
    | x :: e :: y :: f :: xs =>
      if x = ascii "-E" ∧ y = ascii "-o" then .ok { envpw := e, outfile := f } xs else .ok {} (x :: e :: y :: f :: xs)
    | xs => .ok {} xs

/-- The world in which the program runs on the file system `fs`: variable `PW` is set, there is no terminal. -/
def world (fs : FS) (t1 t2 : String) (i1 i2 : Nat) (infile : Reader) : World where
  D := CliDemo.D
  fs := fs
  flags := flags
  lower := fun s => s.map Spec.lowerByte
  order := commands.reverse
  getenv := fun e => if e = ascii "PW" then pw else []
  askpass := .error .eof
  clean := id
  parseSize := fun _ => some 4
  home := some (ascii "h")
  stdin := ⟨[], .eof, false⟩
  opened := fun _ => infile
  env1 := env t1 i1
  env2 := env t2 i2
  seed := seed
  salt := salt
  coins := coins
  rbuf := fun i => List.replicate 12 (UInt8.ofNat i)
  coin := coin

/-- `sigtool GEN -E PW k` -/
def G : World := world fs0 "t1" "t2" 1 2 ⟨[], .eof, false⟩
def gv : List Bytes := [ascii "GEN", ascii "-E", ascii "PW", k]

theorem gRuns : Runs G gv "generate" [ascii "-E", ascii "PW", k] :=
  ⟨{}, ascii "GEN", rfl, rfl, rfl, by decide +kernel, by decide +kernel, by decide +kernel⟩

theorem gMain : G.main gv = gen := by decide +kernel

/-- C66: letter case does not matter; ambiguous, unknown and missing commands exit with 1, `--version` with 0, options that do not
parse with 2. -/
example : (G.main [ascii "x", k]).exit = 1 ∧ (G.main [ascii "generates", k]).exit = 1 ∧ (G.main []).exit = 1 ∧
    (G.main [ascii "--version"]).exit = 0 ∧ (G.main [ascii "-?"]).exit = 2 ∧ (G.main [ascii "HELP"]).exit = 0 := by decide +kernel

/-- C66: nothing is selected by `generates`. -/
example : ∀ w rest, ¬ Runs G [ascii "generates", k] w rest := by
  rintro w rest ⟨o, cmd, h1, _, _, h4⟩
  have h : G.flags.top [ascii "generates", k] = .ok {} [ascii "generates", k] := by
    show flags.top _ = _
    unfold flags
    dsimp only
    rw [if_neg (by decide +kernel), if_neg (by decide +kernel)]
  rw [h] at h1
  cases h1
  have hw := h4.1
  simp only [commandNames, List.mem_cons, List.not_mem_nil, or_false] at hw
  rcases hw with rfl | rfl | rfl | rfl | rfl | rfl <;> exact absurd h4.2.2 (by decide +kernel)

/-- Outputs of a command line that selects `w`. -/
theorem output_runs {W : World} {argv : List Bytes} {p : Path} (h : Output W argv p) : ∃ w rest, Runs W argv w rest := by
  cases h <;> exact ⟨_, _, by assumption⟩

theorem runs_unique {W : World} {argv r r' : List Bytes} {v w : String} (h : Runs W argv v r) (h' : Runs W argv w r') :
    v = w ∧ r = r' := by
  obtain ⟨o, c, h1, _, _, h2⟩ := h
  obtain ⟨o', c', h1', _, _, h2'⟩ := h'
  rw [h1] at h1'
  cases h1'
  exact ⟨abbreviates_unique h2 h2', rfl⟩

theorem gNormal : Normal G gv where
  fresh1 := fs0_fresh _ _ (by decide +kernel) (by decide +kernel) (by decide)
  fresh2 := fs0_fresh _ _ (by decide +kernel) (by decide +kernel) (by decide)
  tmp := by decide +kernel
  inode := by decide
  out := by
    intro p hp
    have hf : G.flags.gen [ascii "-E", ascii "PW", k] = .ok { envpw := ascii "PW" } [k] := by rfl
    cases hp with
    | key rest o bn more hr hg =>
      obtain ⟨_, rfl⟩ := runs_unique gRuns hr
      rw [hf] at hg; cases hg
      exact ⟨by decide +kernel, by decide +kernel⟩
    | pub rest o bn more hr hg =>
      obtain ⟨_, rfl⟩ := runs_unique gRuns hr
      rw [hf] at hg; cases hg
      exact ⟨by decide +kernel, by decide +kernel⟩
    | sig _ _ _ _ _ hr => exact absurd (runs_unique gRuns hr).1 (by decide)
    | enc _ _ _ hr => exact absurd (runs_unique gRuns hr).1 (by decide)
    | dec _ _ _ hr => exact absurd (runs_unique gRuns hr).1 (by decide)
  order := by exact commands.reverse_perm
  coins := ⟨by decide, by decide, by decide⟩
  coin := by decide

/-- C67, C68: every crash point of `generate`, for the input file. -/
example (pre : List Sys) (hpre : pre <+: (G.main gv).sys) (dir : Dir) (data : Nat → Bytes) (hi : CrashImage (fs0.run pre) dir data) :
    readIn dir data (ascii "in") = fs0.read (ascii "in") ∨
    readIn dir data (ascii "in") = (fs0.run (G.main gv).sys).read (ascii "in") :=
  C68_all_or_nothing G toyLaws gv gNormal pre hpre dir data hi _ ⟨by simp [fs0, G, world], by simp [fs0, G, world]⟩
    (by decide +kernel) (by decide +kernel)

/-- C69: the missing terminal plays no role. -/
example : ¬ MayAsk G gv := by
  have hf : G.flags.gen [ascii "-E", ascii "PW", k] = .ok { envpw := ascii "PW" } [k] := by rfl
  intro h
  cases h with
  | gen rest o args hr hg hn he =>
    obtain ⟨_, rfl⟩ := runs_unique gRuns hr
    rw [hf] at hg; cases hg
    exact absurd he (by decide +kernel)
  | sign _ _ _ hr => exact absurd (runs_unique gRuns hr).1 (by decide)
  | enc _ _ _ hr => exact absurd (runs_unique gRuns hr).1 (by decide)
  | dec _ _ _ hr => exact absurd (runs_unique gRuns hr).1 (by decide)

/-- C69: with nothing said about the pass phrase the terminal decides. -/
example : (G.main [ascii "g", k]).exit = 1 ∧ (World.main { G with askpass := .ok pw } [ascii "g", k]).exit = 0 := by decide +kernel

/-- `sigtool s -E PW k.key in` and `sigtool v k.pub in.sig in` -/
def S : World := world fs1 "t3" "t4" 3 4 ⟨[], .eof, false⟩
def sv : List Bytes := [ascii "s", ascii "-E", ascii "PW", keyName k, ascii "in"]
def V : World := world fs2 "t5" "t6" 5 6 ⟨[], .eof, false⟩
def vv : List Bytes := [ascii "v", pubName k, ascii "in.sig", ascii "in"]

/-- C72 -/
example : S.main sv = sg ∧ (V.main vv).exit = 0 ∧ (V.main [ascii "v", pubName k, ascii "in.sig"]).exit = 1 := by decide +kernel

/-- `sigtool enc -o out k.pub in`: the input arrives in two pieces. -/
def E : World := world fs1 "t5" "t6" 5 6 ⟨[plain.take 7, plain.drop 7], .eof, true⟩
def ev : List Bytes := [ascii "enc", ascii "-o", ascii "out", pubName k, ascii "in"]

def fs4 : FS := fs1.run (E.main ev).sys

/-- `sigtool dec -E PW -o plain k.key out` -/
def X : World := world fs4 "t7" "t8" 7 8 ⟨[(fs4.read (ascii "out")).getD []], .eof, false⟩
def xv : List Bytes := [ascii "dec", ascii "-E", ascii "PW", ascii "-o", ascii "plain", keyName k, ascii "out"]

/-- C71, C70: the session works. -/
example : (E.main ev).exit = 0 ∧ (X.main xv).exit = 0 ∧ (fs4.run (X.main xv).sys).read (ascii "plain") = some plain := by
  decide +kernel

/-- An empty input argument is an error; so is a missing one. -/
example : (X.main [ascii "dec", ascii "-E", ascii "PW", ascii "-o", ascii "plain", keyName k, []]).exit = 1 ∧
    (X.main [ascii "dec"]).exit = 1 ∧ (E.main [ascii "enc", ascii "-o", ascii "out", ascii "in"]).exit = 1 := by decide +kernel

end Sigtool.MainDemo
