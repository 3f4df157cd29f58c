import Verif.Props.CommandLines
import Verif.Props.MainDemo
/-!
# Concrete machines for C104

The hypotheses of C104 are met by sequences of runs with the program's own option parser.
-/

namespace Sigtool.CommandLinesDemo
open Sigtool Spec CliDemo

/-- The call gives nothing the name `t` or the inode `i`. -/
def Apart (t : Path) (i : Nat) : Sys → Bool
  | .create p j _ => p != t && j != i
  | .rename _ b => b != t
  | _ => true

theorem fresh_step {fs : FS} {t : Path} {i : Nat} (h : Fresh fs t i) (c : Sys) (hc : Apart t i c = true) : Fresh (fs.step c) t i := by
  have h1 : fs.dir t = none := h.name _ (List.mem_cons_self ..)
  have h2 : ∀ p, fs.dir p ≠ some (.file i) := h.inode _ (List.mem_cons_self ..)
  cases c with
  | create p j m =>
    simp only [Apart, Bool.and_eq_true, bne_iff_ne] at hc
    constructor
    · intro d hd
      rcases List.mem_cons.mp hd with rfl | hd
      · simp only [FS.step, setAt]; rw [if_neg (Ne.symm hc.1)]; exact h1
      · exact h.name d hd
    · intro d hd q
      rcases List.mem_cons.mp hd with rfl | hd
      · simp only [FS.step, setAt]
        split
        · intro e; cases e; exact hc.2 rfl
        · exact h2 q
      · exact h.inode d hd q
  | write j b => exact ⟨h.name, h.inode⟩
  | sync j => exact ⟨h.name, h.inode⟩
  | rename a b =>
    simp only [Apart, bne_iff_ne] at hc
    constructor
    · intro d hd
      rcases List.mem_cons.mp hd with rfl | hd
      · simp only [FS.step, setAt]
        split
        · rfl
        · rw [if_neg (Ne.symm hc)]; exact h1
      · exact h.name d hd
    · intro d hd q
      rcases List.mem_cons.mp hd with rfl | hd
      · simp only [FS.step, setAt]
        split
        · simp
        · split
          · exact h2 a
          · exact h2 q
      · exact h.inode d hd q
  | remove p =>
    constructor
    · intro d hd
      rcases List.mem_cons.mp hd with rfl | hd
      · simp only [FS.step, setAt]
        split
        · rfl
        · exact h1
      · exact h.name d hd
    · intro d hd q
      rcases List.mem_cons.mp hd with rfl | hd
      · simp only [FS.step, setAt]
        split
        · simp
        · exact h2 q
      · exact h.inode d hd q

theorem fresh_run {t : Path} {i : Nat} : ∀ (cs : List Sys) (fs : FS), Fresh fs t i → cs.all (Apart t i) = true → Fresh (fs.run cs) t i
  | [], _, h, _ => h
  | c :: cs, fs, h, hc => by
    simp only [List.all_cons, Bool.and_eq_true] at hc
    exact fresh_run cs (fs.step c) (fresh_step h c hc.1) hc.2

/-- A machine where nothing goes wrong, with the file system `fs`; the pass phrase is always the same. -/
def mach (fs : FS) (t1 t2 : String) (i1 i2 : Nat) : World where
  D := CliDemo.D
  fs := fs
  flags := realFlags
  lower := fun s => s.map Spec.lowerByte
  order := commands.reverse
  getenv := fun _ => []
  askpass := .ok pw
  clean := id
  parseSize := fun s => if s = ascii "128k" then some 131072 else none
  home := some (ascii "h")
  stdin := ⟨[], .eof, false⟩
  opened := fun p => ⟨[(fs.read p).getD []], .eof, false⟩
  env1 := env t1 i1
  env2 := env t2 i2
  seed := seed
  salt := salt
  coins := coins
  rbuf := fun i => List.replicate 12 (UInt8.ofNat i)
  coin := coin

theorem lower_names : ∀ w ∈ commandNames, (word w).map Spec.lowerByte = word w := by
  intro w hw; unfold commandNames at hw; fin_cases hw <;> decide +kernel

theorem mach_works (fs : FS) (t1 t2 : String) (i1 i2 : Nat) (argv : List Bytes)
    (f1 : Fresh fs (ascii t1) i1) (f2 : Fresh fs (ascii t2) i2) (ht : ascii t2 ≠ ascii t1) (hi : i2 ≠ i1)
    (ho : ∀ p, Output (mach fs t1 t2 i1 i2) argv p → p ≠ ascii t1 ∧ p ≠ ascii t2)
    (hh : fs.dir (ascii "h/.ssh/authorized_keys") = none) : Works (mach fs t1 t2 i1 i2) argv pw where
  normal := {
    fresh1 := f1
    fresh2 := f2
    tmp := ht
    inode := hi
    out := ho
    order := by exact commands.reverse_perm
    coins := ⟨rfl, rfl, rfl⟩
    coin := rfl }
  flags := rfl
  lower := lower_names
  file1 := ⟨rfl, (fun _ _ h => by cases h), rfl, rfl, rfl⟩
  file2 := ⟨rfl, (fun _ _ h => by cases h), rfl, rfl, rfl⟩
  maps := rfl
  opened := by
    intro p b h
    have e : fs.read p = some b := h
    constructor
    · simp [mach, Reader.content, e]
    · rfl
  home := ⟨ascii "h", rfl, .inl (by rw [show ascii "h" ++ ascii "/.ssh/authorized_keys" = ascii "h/.ssh/authorized_keys" by decide +kernel]; exact hh)⟩
  size := by show (if word "128k" = ascii "128k" then some 131072 else none) = some 131072; decide +kernel
  askpass := rfl
  stdout := rfl
  seed := rfl
  salt := rfl
  rbuf := by intro i; simp [mach]

theorem mach_next (fs : FS) (t1 t2 : String) (i1 i2 : Nat) (u1 u2 : String) (j1 j2 : Nat) (argv : List Bytes) :
    Next (mach fs t1 t2 i1 i2) argv (mach (fs.run ((mach fs t1 t2 i1 i2).main argv).sys) u1 u2 j1 j2) := ⟨rfl, rfl⟩

theorem mach_runs (fs : FS) (t1 t2 : String) (i1 i2 : Nat) (w : String) (hw : w ∈ commandNames) (rest : List Bytes) :
    Runs (mach fs t1 t2 i1 i2) (word w :: rest) w rest :=
  runs_named rfl lower_names w hw rest rfl

theorem gen_outputs (fs : FS) (t1 t2 : String) (i1 i2 : Nat) (b : Bytes) (hb : Plain b) (p : Path)
    (h : Output (mach fs t1 t2 i1 i2) [word "generate", b] p) : p = b ++ word ".key" ∨ p = b ++ word ".pub" := by
  have hr := mach_runs fs t1 t2 i1 i2 "generate" (by decide) [b]
  have hf : (mach fs t1 t2 i1 i2).flags.gen [b] = .ok {} [b] := gen_line b hb
  cases h with
  | key rest o bn more hr' hg =>
    obtain ⟨_, rfl⟩ := MainDemo.runs_unique hr hr'
    rw [hf] at hg; cases hg; exact .inl rfl
  | pub rest o bn more hr' hg =>
    obtain ⟨_, rfl⟩ := MainDemo.runs_unique hr hr'
    rw [hf] at hg; cases hg; exact .inr rfl
  | sig _ _ _ _ _ hr' => exact absurd (MainDemo.runs_unique hr hr').1 (by decide)
  | enc _ _ _ hr' => exact absurd (MainDemo.runs_unique hr hr').1 (by decide)
  | dec _ _ _ hr' => exact absurd (MainDemo.runs_unique hr hr').1 (by decide)

theorem enc_outputs (fs : FS) (t1 t2 : String) (i1 i2 : Nat) (line : List Bytes) (o : EncOpts) (args : List Bytes)
    (hf : realFlags.enc line = .ok o args) (p : Path)
    (h : Output (mach fs t1 t2 i1 i2) (word "encrypt" :: line) p) : p = o.outfile := by
  have hr := mach_runs fs t1 t2 i1 i2 "encrypt" (by decide) line
  cases h with
  | enc rest o' a hr' hg =>
    obtain ⟨_, rfl⟩ := MainDemo.runs_unique hr hr'
    rw [show (mach fs t1 t2 i1 i2).flags.enc line = .ok o args from hf] at hg; cases hg; rfl
  | key _ _ _ _ hr' => exact absurd (MainDemo.runs_unique hr hr').1 (by decide)
  | pub _ _ _ _ hr' => exact absurd (MainDemo.runs_unique hr hr').1 (by decide)
  | sig _ _ _ _ _ hr' => exact absurd (MainDemo.runs_unique hr hr').1 (by decide)
  | dec _ _ _ hr' => exact absurd (MainDemo.runs_unique hr hr').1 (by decide)

theorem dec_outputs (fs : FS) (t1 t2 : String) (i1 i2 : Nat) (line : List Bytes) (o : DecOpts) (args : List Bytes)
    (hf : realFlags.dec line = .ok o args) (p : Path)
    (h : Output (mach fs t1 t2 i1 i2) (word "decrypt" :: line) p) : p = o.outfile := by
  have hr := mach_runs fs t1 t2 i1 i2 "decrypt" (by decide) line
  cases h with
  | dec rest o' a hr' hg =>
    obtain ⟨_, rfl⟩ := MainDemo.runs_unique hr hr'
    rw [show (mach fs t1 t2 i1 i2).flags.dec line = .ok o args from hf] at hg; cases hg; rfl
  | key _ _ _ _ hr' => exact absurd (MainDemo.runs_unique hr hr').1 (by decide)
  | pub _ _ _ _ hr' => exact absurd (MainDemo.runs_unique hr hr').1 (by decide)
  | sig _ _ _ _ _ hr' => exact absurd (MainDemo.runs_unique hr hr').1 (by decide)
  | enc _ _ _ hr' => exact absurd (MainDemo.runs_unique hr hr').1 (by decide)

theorem sign_outputs (fs : FS) (t1 t2 : String) (i1 i2 : Nat) (kn fn : Bytes) (h1 : Plain kn) (h2 : Plain fn) (p : Path)
    (h : Output (mach fs t1 t2 i1 i2) [word "sign", kn, fn] p) : p = fn ++ word ".sig" := by
  have hr := mach_runs fs t1 t2 i1 i2 "sign" (by decide) [kn, fn]
  have hf : (mach fs t1 t2 i1 i2).flags.sign [kn, fn] = .ok {} [kn, fn] := sign_line kn fn h1 h2
  cases h with
  | sig rest o kn' fn' more hr' hg =>
    obtain ⟨_, rfl⟩ := MainDemo.runs_unique hr hr'
    rw [hf] at hg; cases hg; rw [show word ".sig" = ascii ".sig" by decide +kernel]; simp [sigTarget]; decide +kernel
  | key _ _ _ _ hr' => exact absurd (MainDemo.runs_unique hr hr').1 (by decide)
  | pub _ _ _ _ hr' => exact absurd (MainDemo.runs_unique hr hr').1 (by decide)
  | enc _ _ _ hr' => exact absurd (MainDemo.runs_unique hr hr').1 (by decide)
  | dec _ _ _ hr' => exact absurd (MainDemo.runs_unique hr hr').1 (by decide)

theorem verify_outputs (fs : FS) (t1 t2 : String) (i1 i2 : Nat) (line : List Bytes) (p : Path)
    (h : Output (mach fs t1 t2 i1 i2) (word "verify" :: line) p) : False := by
  have hr := mach_runs fs t1 t2 i1 i2 "verify" (by decide) line
  cases h with
  | key _ _ _ _ hr' => exact absurd (MainDemo.runs_unique hr hr').1 (by decide)
  | pub _ _ _ _ hr' => exact absurd (MainDemo.runs_unique hr hr').1 (by decide)
  | sig _ _ _ _ _ hr' => exact absurd (MainDemo.runs_unique hr hr').1 (by decide)
  | enc _ _ _ hr' => exact absurd (MainDemo.runs_unique hr hr').1 (by decide)
  | dec _ _ _ hr' => exact absurd (MainDemo.runs_unique hr hr').1 (by decide)

def s : Bytes := ascii "s"
def r : Bytes := ascii "r"
def inn : Bytes := ascii "in"

theorem fs0_new (t : String) (i : Nat) (h : (ascii t != ascii "in" && ascii t != ascii "auth" && i != 0 && i != 10) = true) :
    Fresh fs0 (ascii t) i := by
  simp only [Bool.and_eq_true, bne_iff_ne] at h
  exact fs0_fresh t i h.1.1.1 h.1.1.2 ⟨h.1.2, h.2⟩

/-- A name and inode that none of the runs uses. -/
theorem next_new {fs fs' : FS} {cs : List Sys} (hfs : fs' = fs.run cs) (t : String) (i : Nat) (h : Fresh fs (ascii t) i)
    (h' : cs.all (Apart (ascii t) i) = true) : Fresh fs' (ascii t) i := by subst hfs; exact fresh_run _ _ h h'

/-! ### `generate s`, `generate r`, `encrypt -s s.key -o c r.pub in`, `decrypt -v s.pub -o p r.key c` -/

def S : World := mach fs0 "t1" "t2" 1 2
def sv : List Bytes := [word "generate", s]
def fsA : FS := fs0.run (S.main sv).sys
def R : World := mach fsA "t3" "t4" 3 4
def rv : List Bytes := [word "generate", r]
def fsB : FS := fsA.run (R.main rv).sys
def E : World := mach fsB "t5" "t6" 5 6
def ev : List Bytes := [word "encrypt", word "-s", s ++ word ".key", word "-o", ascii "c", r ++ word ".pub", inn]
def fsC : FS := fsB.run (E.main ev).sys
def X : World := mach fsC "t7" "t8" 7 8
def xv : List Bytes := [word "decrypt", word "-v", s ++ word ".pub", word "-o", ascii "p", r ++ word ".key", ascii "c"]

theorem names : FileName s ∧ FileName r ∧ FileName inn ∧ FileName (ascii "c") ∧ FileName (ascii "p") ∧
    ¬ NamesUser (r ++ word ".pub") ∧ ¬ NamesUser (s ++ word ".pub") := by unfold FileName NamesUser; decide +kernel

theorem Sworks : Works S sv pw :=
  mach_works fs0 "t1" "t2" 1 2 sv (fs0_new _ _ (by decide +kernel)) (fs0_new _ _ (by decide +kernel)) (by decide +kernel) (by decide)
    (fun p hp => by rcases gen_outputs _ _ _ _ _ _ names.1.plain p hp with rfl | rfl <;> decide +kernel) (by decide +kernel)

theorem fsA_new (t : String) (i : Nat) (h : (ascii t != ascii "in" && ascii t != ascii "auth" && i != 0 && i != 10) = true)
    (h' : (S.main sv).sys.all (Apart (ascii t) i) = true) : Fresh fsA (ascii t) i :=
  next_new (cs := (S.main sv).sys) rfl t i (fs0_new t i h) h'

theorem Rworks : Works R rv pw :=
  mach_works fsA "t3" "t4" 3 4 rv (fsA_new _ _ (by decide +kernel) (by decide +kernel)) (fsA_new _ _ (by decide +kernel) (by decide +kernel))
    (by decide +kernel) (by decide)
    (fun p hp => by rcases gen_outputs _ _ _ _ _ _ names.2.1.plain p hp with rfl | rfl <;> decide +kernel) (by decide +kernel)

theorem Eworks : Works E ev pw :=
  mach_works fsB "t5" "t6" 5 6 ev
    (next_new (cs := (R.main rv).sys) rfl _ _ (fsA_new _ _ (by decide +kernel) (by decide +kernel)) (by decide +kernel))
    (next_new (cs := (R.main rv).sys) rfl _ _ (fsA_new _ _ (by decide +kernel) (by decide +kernel)) (by decide +kernel))
    (by decide +kernel) (by decide)
    (fun p hp => by
      rw [enc_outputs _ _ _ _ _ _ _ _ (enc_line_signed _ _ _ (by unfold Plain; decide +kernel)) p hp]
      exact ⟨(by decide +kernel : ascii "c" ≠ ascii "t5"), (by decide +kernel : ascii "c" ≠ ascii "t6")⟩)
    (by decide +kernel)

theorem Xworks : Works X xv pw :=
  mach_works fsC "t7" "t8" 7 8 xv
    (next_new (cs := (E.main ev).sys) rfl _ _
      (next_new (cs := (R.main rv).sys) rfl _ _ (fsA_new _ _ (by decide +kernel) (by decide +kernel)) (by decide +kernel)) (by decide +kernel))
    (next_new (cs := (E.main ev).sys) rfl _ _
      (next_new (cs := (R.main rv).sys) rfl _ _ (fsA_new _ _ (by decide +kernel) (by decide +kernel)) (by decide +kernel)) (by decide +kernel))
    (by decide +kernel) (by decide)
    (fun p hp => by
      rw [dec_outputs _ _ _ _ _ _ _ _ (dec_line_signed _ _ _ (by unfold Plain; decide +kernel)) p hp]
      exact ⟨(by decide +kernel : ascii "p" ≠ ascii "t7"), (by decide +kernel : ascii "p" ≠ ascii "t8")⟩)
    (by decide +kernel)

theorem nextSR : Next S sv R := mach_next _ _ _ _ _ _ _ _ _ _

theorem nextRE : Next R rv E := mach_next _ _ _ _ _ _ _ _ _ _

theorem nextEX : Next E ev X := mach_next _ _ _ _ _ _ _ _ _ _

/-- C104_signed on these machines. -/
example : (X.fs.run (X.main xv).sys).read (ascii "p") = some plain :=
  (C104_signed S R E X toyLaws toyYaml_laws (toyYaml_reads _) s r inn (ascii "c") (ascii "p") pw pw sv rv ev xv rfl rfl rfl rfl
    Sworks Rworks Eworks Xworks nextSR nextRE nextEX names.1 rfl names.2.1 rfl
    names.2.2.2.2.2.1 names.2.2.1 names.2.2.2.1 names.2.2.2.2.1
    plain (by decide +kernel) (by decide +kernel) (by decide +kernel)).2.2.2.2.1

/-- Checked by running it. -/
example : (X.main xv).exit = 0 ∧ (X.fs.run (X.main xv).sys).read (ascii "p") = some plain := by decide +kernel

/-! ### `generate s`, `encrypt -o c s.pub in`, `decrypt -o p s.key c` -/

def E' : World := mach fsA "t3" "t4" 3 4
def ev' : List Bytes := [word "encrypt", word "-o", ascii "c", s ++ word ".pub", inn]
def fsD : FS := fsA.run (E'.main ev').sys
def X' : World := mach fsD "t5" "t6" 5 6
def xv' : List Bytes := [word "decrypt", word "-o", ascii "p", s ++ word ".key", ascii "c"]

theorem E'works : Works E' ev' pw :=
  mach_works fsA "t3" "t4" 3 4 ev' (fsA_new _ _ (by decide +kernel) (by decide +kernel)) (fsA_new _ _ (by decide +kernel) (by decide +kernel))
    (by decide +kernel) (by decide)
    (fun p hp => by
      rw [enc_outputs _ _ _ _ _ _ _ _ (enc_line _ _ (by unfold Plain; decide +kernel)) p hp]
      exact ⟨(by decide +kernel : ascii "c" ≠ ascii "t3"), (by decide +kernel : ascii "c" ≠ ascii "t4")⟩)
    (by decide +kernel)

theorem X'works : Works X' xv' pw :=
  mach_works fsD "t5" "t6" 5 6 xv'
    (next_new (cs := (E'.main ev').sys) rfl _ _ (fsA_new _ _ (by decide +kernel) (by decide +kernel)) (by decide +kernel))
    (next_new (cs := (E'.main ev').sys) rfl _ _ (fsA_new _ _ (by decide +kernel) (by decide +kernel)) (by decide +kernel))
    (by decide +kernel) (by decide)
    (fun p hp => by
      rw [dec_outputs _ _ _ _ _ _ _ _ (dec_line _ _ (by unfold Plain; decide +kernel)) p hp]
      exact ⟨(by decide +kernel : ascii "p" ≠ ascii "t5"), (by decide +kernel : ascii "p" ≠ ascii "t6")⟩)
    (by decide +kernel)

theorem nextSE' : Next S sv E' := mach_next _ _ _ _ _ _ _ _ _ _

theorem nextEX' : Next E' ev' X' := mach_next _ _ _ _ _ _ _ _ _ _

/-- C104_encrypt_decrypt on these machines. -/
example : (X'.main xv').exit = 0 :=
  (C104_encrypt_decrypt S E' X' toyLaws toyYaml_laws (toyYaml_reads _) s inn (ascii "c") (ascii "p") pw pw sv ev' xv' rfl rfl rfl
    Sworks E'works X'works nextSE' nextEX' names.1 rfl names.2.2.2.2.2.2 names.2.2.1 names.2.2.2.1 names.2.2.2.2.1
    plain (by decide +kernel) (by decide +kernel) (by decide +kernel)).2.2.1

/-! ### `generate s`, `sign s.key in`, `verify s.pub in.sig in` -/

def T : World := mach fsA "t3" "t4" 3 4
def tv : List Bytes := [word "sign", s ++ word ".key", inn]
def fsE : FS := fsA.run (T.main tv).sys
def V : World := mach fsE "t5" "t6" 5 6
def vv : List Bytes := [word "verify", s ++ word ".pub", inn ++ word ".sig", inn]

theorem Tworks : Works T tv pw :=
  mach_works fsA "t3" "t4" 3 4 tv (fsA_new _ _ (by decide +kernel) (by decide +kernel)) (fsA_new _ _ (by decide +kernel) (by decide +kernel))
    (by decide +kernel) (by decide)
    (fun p hp => by
      rw [sign_outputs _ _ _ _ _ _ _ (names.1.append _).plain names.2.2.1.plain p hp]; decide +kernel)
    (by decide +kernel)

theorem Vworks : Works V vv pw :=
  mach_works fsE "t5" "t6" 5 6 vv
    (next_new (cs := (T.main tv).sys) rfl _ _ (fsA_new _ _ (by decide +kernel) (by decide +kernel)) (by decide +kernel))
    (next_new (cs := (T.main tv).sys) rfl _ _ (fsA_new _ _ (by decide +kernel) (by decide +kernel)) (by decide +kernel))
    (by decide +kernel) (by decide)
    (fun p hp => (verify_outputs _ _ _ _ _ _ p hp).elim)
    (by decide +kernel)

theorem nextST : Next S sv T := mach_next _ _ _ _ _ _ _ _ _ _

theorem nextTV : Next T tv V := mach_next _ _ _ _ _ _ _ _ _ _

/-- C104_sign_verify on these machines. -/
example : (V.main vv).exit = 0 :=
  (C104_sign_verify S T V toyLaws toyYaml_laws (toyYaml_reads _) s inn pw pw sv tv vv rfl rfl rfl Sworks Tworks Vworks nextST nextTV
    names.1 rfl names.2.2.1 (toyYaml_reads _) plain (by decide +kernel) (by decide +kernel) (by decide +kernel)).2.2.1

end Sigtool.CommandLinesDemo
