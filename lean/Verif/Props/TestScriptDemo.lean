import Verif.Props.TestScript
import Verif.Props.CommandLinesDemo
import Verif.Props.ManyRuns
/-!
# A concrete machine for C113

Thirteen runs of the program that meet the hypotheses of C113.
-/

namespace Sigtool.TestScriptDemo
open Sigtool Spec CliDemo CommandLinesDemo

theorem Own_apart (s : Slot) (t : Path) (i : Nat) (h1 : t ≠ s.env.tmp) (h2 : i ≠ s.env.inode) (h3 : s.ok = true → s.target ≠ t) :
    s.calls.all (CommandLinesDemo.Apart t i) = true := by
  rw [List.all_eq_true]
  intro c hc
  cases s.own c hc with
  | create perm => simp [CommandLinesDemo.Apart, Ne.symm h1, Ne.symm h2]
  | write b => rfl
  | sync => rfl
  | rename ho => simp [CommandLinesDemo.Apart, h3 ho]
  | remove => rfl

/-- A name and an inode that a run does not use are unused after the run. -/
theorem still_fresh (W : World) (L : Laws W.D.P) (argv : List Bytes) (N : Normal W argv) (t : Path) (i : Nat) (h : Fresh W.fs t i)
    (h1 : t ≠ W.env1.tmp ∧ t ≠ W.env2.tmp) (h2 : i ≠ W.env1.inode ∧ i ≠ W.env2.inode) (h3 : ∀ p, Output W argv p → p ≠ t) :
    Fresh (W.fs.run (W.main argv).sys) t i := by
  refine fresh_run _ _ h ?_
  rcases main_shape W L argv N with ⟨target, content, ok, hs, ho, _⟩ | ⟨rest, o, bn, more, hr, hf, hm⟩
  · exact Own_apart ⟨_, _, _, _, _, hs⟩ t i h1.1 h2.1 (fun hk => h3 _ (ho hk))
  · rw [hm]
    have k1 := h3 _ (.key _ _ _ _ hr hf)
    have k2 := h3 _ (.pub _ _ _ _ hr hf)
    obtain ⟨text, pub, ok1, cs1, q1, q2⟩ := gen_shape W.D W.fs W.env1 W.env2 o.force (W.clean bn) o.comment (W.genpw o.nopw o.envpw) W.seed W.salt
    rcases q2 with ⟨_, q2⟩ | ⟨_, ok2, cs2, q3, q2⟩
    · rw [q2]; exact Own_apart ⟨_, _, _, _, _, q1⟩ t i h1.1 h2.1 (fun _ => k1)
    · rw [q2, List.all_append, Bool.and_eq_true]
      exact ⟨Own_apart ⟨_, _, _, _, _, q1⟩ t i h1.1 h2.1 (fun _ => k1), Own_apart ⟨_, _, _, _, _, q3⟩ t i h1.2 h2.2 (fun _ => k2)⟩

/-! ### The outputs of the command lines -/

theorem out_gen {W : World} {argv rest : List Bytes} {o : GenOpts} {k p : Bytes} (hr : Runs W argv "generate" rest)
    (hf : W.flags.gen rest = .ok o [k]) (h : Output W argv p) : p = W.clean k ++ word ".key" ∨ p = W.clean k ++ word ".pub" := by
  cases h with
  | key _ _ _ _ hr' hg => obtain ⟨_, rfl⟩ := MainDemo.runs_unique hr hr'; rw [hf] at hg; cases hg; exact .inl rfl
  | pub _ _ _ _ hr' hg => obtain ⟨_, rfl⟩ := MainDemo.runs_unique hr hr'; rw [hf] at hg; cases hg; exact .inr rfl
  | sig _ _ _ _ _ hr' => exact absurd (MainDemo.runs_unique hr hr').1 (by decide)
  | enc _ _ _ hr' => exact absurd (MainDemo.runs_unique hr hr').1 (by decide)
  | dec _ _ _ hr' => exact absurd (MainDemo.runs_unique hr hr').1 (by decide)

theorem out_sign {W : World} {argv rest : List Bytes} {o : SignOpts} {kn fn p : Bytes} (hr : Runs W argv "sign" rest)
    (hf : W.flags.sign rest = .ok o [kn, fn]) (h : Output W argv p) : p = sigTarget o.output fn := by
  cases h with
  | sig _ _ _ _ _ hr' hg => obtain ⟨_, rfl⟩ := MainDemo.runs_unique hr hr'; rw [hf] at hg; cases hg; rfl
  | key _ _ _ _ hr' => exact absurd (MainDemo.runs_unique hr hr').1 (by decide)
  | pub _ _ _ _ hr' => exact absurd (MainDemo.runs_unique hr hr').1 (by decide)
  | enc _ _ _ hr' => exact absurd (MainDemo.runs_unique hr hr').1 (by decide)
  | dec _ _ _ hr' => exact absurd (MainDemo.runs_unique hr hr').1 (by decide)

theorem out_verify {W : World} {argv rest : List Bytes} {p : Bytes} (hr : Runs W argv "verify" rest) (h : Output W argv p) : False := by
  cases h with
  | sig _ _ _ _ _ hr' => exact absurd (MainDemo.runs_unique hr hr').1 (by decide)
  | key _ _ _ _ hr' => exact absurd (MainDemo.runs_unique hr hr').1 (by decide)
  | pub _ _ _ _ hr' => exact absurd (MainDemo.runs_unique hr hr').1 (by decide)
  | enc _ _ _ hr' => exact absurd (MainDemo.runs_unique hr hr').1 (by decide)
  | dec _ _ _ hr' => exact absurd (MainDemo.runs_unique hr hr').1 (by decide)

theorem out_enc {W : World} {argv rest args : List Bytes} {o : EncOpts} {p : Bytes} (hr : Runs W argv "encrypt" rest)
    (hf : W.flags.enc rest = .ok o args) (h : Output W argv p) : p = o.outfile := by
  cases h with
  | enc _ _ _ hr' hg => obtain ⟨_, rfl⟩ := MainDemo.runs_unique hr hr'; rw [hf] at hg; cases hg; rfl
  | sig _ _ _ _ _ hr' => exact absurd (MainDemo.runs_unique hr hr').1 (by decide)
  | key _ _ _ _ hr' => exact absurd (MainDemo.runs_unique hr hr').1 (by decide)
  | pub _ _ _ _ hr' => exact absurd (MainDemo.runs_unique hr hr').1 (by decide)
  | dec _ _ _ hr' => exact absurd (MainDemo.runs_unique hr hr').1 (by decide)

theorem out_dec {W : World} {argv rest args : List Bytes} {o : DecOpts} {p : Bytes} (hr : Runs W argv "decrypt" rest)
    (hf : W.flags.dec rest = .ok o args) (h : Output W argv p) : p = o.outfile := by
  cases h with
  | dec _ _ _ hr' hg => obtain ⟨_, rfl⟩ := MainDemo.runs_unique hr hr'; rw [hf] at hg; cases hg; rfl
  | sig _ _ _ _ _ hr' => exact absurd (MainDemo.runs_unique hr hr').1 (by decide)
  | key _ _ _ _ hr' => exact absurd (MainDemo.runs_unique hr hr').1 (by decide)
  | pub _ _ _ _ hr' => exact absurd (MainDemo.runs_unique hr hr').1 (by decide)
  | enc _ _ _ hr' => exact absurd (MainDemo.runs_unique hr hr').1 (by decide)

/-! ### The machine -/

def seedAt (i : Nat) : Bytes := List.replicate 32 (UInt8.ofNat i)
def pks : Bytes := Base64.encode (toyPrims.edPub (seedAt 2))
def pks2 : Bytes := Base64.encode (toyPrims.edPub (seedAt 3))

def script : List (List Bytes) :=
  testScript (ascii "k") (ascii "m") (ascii "in") (ascii "s1") (ascii "e1") (ascii "d1") pks pks2

/-- Names for temporary files: `ttt...` and `uuu...`. -/
def tmp1 (i : Nat) : Path := List.replicate (i + 2) 116
def tmp2 (i : Nat) : Path := List.replicate (i + 2) 117

/-- The machine in run `i`; `FOO` is not set. -/
def world (i : Nat) (fs : FS) : World :=
  { mach fs "x" "y" 0 0 with env1 := { tmp := tmp1 i, inode := 20 + 2 * i }, env2 := { tmp := tmp2 i, inode := 21 + 2 * i }, seed := seedAt i }

def fsAt : Nat → FS
  | 0 => fs0
  | i + 1 => (fsAt i).run ((world i (fsAt i)).main (script[i]?.getD [])).sys

def W (i : Nat) : World := world i (fsAt i)

theorem lower_all (i : Nat) : ∀ s : Bytes, (∀ b ∈ s, b < 128) → (W i).lower s = s.map lowerByte := fun _ _ => rfl

def outputs : List Path := [ascii "k.key", ascii "k.pub", ascii "m.key", ascii "m.pub", ascii "s1", ascii "e1", ascii "d1"]

theorem outputs_of (X : World) (hfl : X.flags = realFlags) (hlo : ∀ s : Bytes, (∀ b ∈ s, b < 128) → X.lower s = s.map lowerByte)
    (hcl : ∀ b, X.clean b = b) (i : Nat) (hi : i < 13) (p : Path) (h : Output X (script[i]?.getD []) p) : p ∈ outputs := by
  have e1 : ascii "k" ++ word ".key" = ascii "k.key" := by decide +kernel
  have e2 : ascii "k" ++ word ".pub" = ascii "k.pub" := by decide +kernel
  have e3 : ascii "m" ++ word ".key" = ascii "m.key" := by decide +kernel
  have e4 : ascii "m" ++ word ".pub" = ascii "m.pub" := by decide +kernel
  have es : sigTarget (ascii "s1") (ascii "in") = ascii "s1" := by decide +kernel
  have pk : Plain (ascii "k") := by unfold Plain; decide +kernel
  have pm : Plain (ascii "m") := by unfold Plain; decide +kernel
  have pin : Plain (ascii "in") := by unfold Plain; decide +kernel
  have pe : Plain (ascii "e1") := by unfold Plain; decide +kernel
  have pkk : Plain (ascii "k" ++ word ".key") := by unfold Plain; decide +kernel
  have pmk : Plain (ascii "m" ++ word ".key") := by unfold Plain; decide +kernel
  have pmp : Plain (ascii "m" ++ word ".pub") := by unfold Plain; decide +kernel
  have gen : ∀ k, ascii "k" = k ∨ ascii "m" = k → p = X.clean k ++ word ".key" ∨ p = X.clean k ++ word ".pub" → p ∈ outputs := by
    intro k hk hp
    rw [hcl] at hp
    revert k
    rintro k (rfl | rfl) (rfl | rfl)
    · rw [e1]; simp [outputs]
    · rw [e2]; simp [outputs]
    · rw [e3]; simp [outputs]
    · rw [e4]; simp [outputs]
  match i, hi with
  | 0, _ => exact gen _ (.inl rfl) (out_gen (runs_letter hfl hlo "g" _ (by decide) _) (by rw [hfl]; exact gen_script _ pk) h)
  | 1, _ => exact gen _ (.inl rfl) (out_gen (runs_letter hfl hlo "g" _ (by decide) _) (by rw [hfl]; exact gen_script _ pk) h)
  | 2, _ => exact gen _ (.inl rfl) (out_gen (runs_letter hfl hlo "g" _ (by decide) _) (by rw [hfl]; exact gen_script_overwrite _ pk) h)
  | 3, _ => exact gen _ (.inr rfl) (out_gen (runs_letter hfl hlo "g" _ (by decide) _) (by rw [hfl]; exact gen_script _ pm) h)
  | 4, _ =>
    have := out_sign (runs_letter hfl hlo "s" _ (by decide) _) (by rw [hfl]; exact sign_script _ _ _ pkk pin) h
    rw [this]; show sigTarget (ascii "s1") (ascii "in") ∈ _; rw [es]; simp [outputs]
  | 5, _ => exact (out_verify (runs_letter hfl hlo "v" _ (by decide) _) h).elim
  | 6, _ => exact (out_verify (runs_letter hfl hlo "v" _ (by decide) _) h).elim
  | 7, _ => exact (out_verify (runs_letter hfl hlo "v" _ (by decide) _) h).elim
  | 8, _ => exact (out_verify (runs_letter hfl hlo "v" _ (by decide) _) h).elim
  | 9, _ =>
    rw [out_enc (runs_letter hfl hlo "e" _ (by decide) _) (by rw [hfl]; exact enc_script _ _ (by simp [pmp, pin])) h]; simp [outputs]
  | 10, _ =>
    rw [out_dec (runs_letter hfl hlo "d" _ (by decide) _) (by rw [hfl]; exact dec_script _ _ (by simp [pmk, pe])) h]; simp [outputs]
  | 11, _ =>
    rw [out_enc (runs_letter hfl hlo "e" _ (by decide) _) (by rw [hfl]; exact enc_script_signed _ _ _ (by simp [pmp, pin])) h]; simp [outputs]
  | 12, _ =>
    rw [out_dec (runs_letter hfl hlo "d" _ (by decide) _) (by rw [hfl]; exact dec_script_signed _ _ _ (by simp [pmk, pe])) h]; simp [outputs]

theorem outputs_only (i : Nat) (hi : i < 13) (p : Path) (h : Output (W i) (script[i]?.getD []) p) : p ∈ outputs :=
  outputs_of (W i) rfl (lower_all i) (fun _ => rfl) i hi p h

theorem outputs_not_tmp (i : Nat) : tmp1 i ∉ outputs ∧ tmp2 i ∉ outputs := by
  have key : ∀ p ∈ outputs, ∃ b ∈ p, b ≠ 116 ∧ b ≠ 117 := by unfold outputs; decide +kernel
  constructor
  · intro h
    obtain ⟨b, hb, h1, _⟩ := key _ h
    exact h1 (List.eq_of_mem_replicate hb)
  · intro h
    obtain ⟨b, hb, _, h1⟩ := key _ h
    exact h1 (List.eq_of_mem_replicate hb)

theorem tmp_ne (i j : Nat) : tmp1 i ≠ tmp2 j := by
  unfold tmp1 tmp2
  intro h
  rw [show i + 2 = (i + 1) + 1 from rfl, show j + 2 = (j + 1) + 1 from rfl, List.replicate_succ, List.replicate_succ] at h
  have := (List.cons.inj h).1
  cases this

theorem tmp1_inj (i j : Nat) (h : tmp1 i = tmp1 j) : i = j := by
  have := congrArg List.length h; simpa [tmp1] using this

theorem tmp2_inj (i j : Nat) (h : tmp2 i = tmp2 j) : i = j := by
  have := congrArg List.length h; simpa [tmp2] using this

/-- What no run up to `i` uses. -/
def Unused (i : Nat) (t : Path) (n : Nat) : Prop :=
  t ≠ ascii "in" ∧ t ≠ ascii "auth" ∧ n ≠ 0 ∧ n ≠ 10 ∧ t ∉ outputs ∧ ∀ j < i, t ≠ tmp1 j ∧ t ≠ tmp2 j ∧ n ≠ 20 + 2 * j ∧ n ≠ 21 + 2 * j

theorem unused1 (i : Nat) : Unused i (tmp1 i) (20 + 2 * i) := by
  have key : ∀ p ∈ [ascii "in", ascii "auth"], ∃ b ∈ p, b ≠ 116 ∧ b ≠ 117 := by decide +kernel
  have ne : ∀ p ∈ [ascii "in", ascii "auth"], tmp1 i ≠ p := by
    rintro p hp rfl
    obtain ⟨b, hb, h1, _⟩ := key _ hp
    exact h1 (List.eq_of_mem_replicate hb)
  refine ⟨ne _ (by simp), ne _ (by simp), by omega, by omega, (outputs_not_tmp i).1, fun j hj => ⟨fun h => ?_, tmp_ne _ _, by omega, by omega⟩⟩
  have := tmp1_inj _ _ h; omega

theorem unused2 (i : Nat) : Unused i (tmp2 i) (21 + 2 * i) := by
  have key : ∀ p ∈ [ascii "in", ascii "auth"], ∃ b ∈ p, b ≠ 116 ∧ b ≠ 117 := by decide +kernel
  have ne : ∀ p ∈ [ascii "in", ascii "auth"], tmp2 i ≠ p := by
    rintro p hp rfl
    obtain ⟨b, hb, _, h1⟩ := key _ hp
    exact h1 (List.eq_of_mem_replicate hb)
  refine ⟨ne _ (by simp), ne _ (by simp), by omega, by omega, (outputs_not_tmp i).2, fun j hj => ⟨(tmp_ne _ _).symm, fun h => ?_, by omega, by omega⟩⟩
  have := tmp2_inj _ _ h; omega

theorem fresh_at : ∀ i ≤ 13, ∀ t n, Unused i t n → Fresh (fsAt i) t n
  | 0, _, t, n, h => by
    have := h
    obtain ⟨h1, h2, h3, h4, _⟩ := h
    constructor
    · intro d hd
      simp only [fsAt, fs0, List.mem_singleton] at hd
      subst hd
      simp [h1, h2]
    · intro d hd q
      simp only [fsAt, fs0, List.mem_singleton] at hd
      subst hd
      dsimp only
      split
      · intro e; cases e; exact h3 rfl
      · split
        · intro e; cases e; exact h4 rfl
        · simp
  | i + 1, hi, t, n, h => by
    obtain ⟨h1, h2, h3, h4, h5, h6⟩ := h
    have hn := h6 i (by omega)
    have f : ∀ t n, Unused i t n → Fresh (fsAt i) t n := fresh_at i (by omega)
    have out := outputs_only i (by omega)
    refine still_fresh (W i) toyLaws _ ?_ t n (f t n ⟨h1, h2, h3, h4, h5, fun j hj => h6 j (by omega)⟩) ⟨hn.1, hn.2.1⟩ ⟨hn.2.2.1, hn.2.2.2⟩
      (fun p hp e => h5 (e ▸ out p hp))
    exact {
      fresh1 := f _ _ (unused1 i)
      fresh2 := f _ _ (unused2 i)
      tmp := (tmp_ne i i).symm
      inode := by show 21 + 2 * i ≠ 20 + 2 * i; omega
      out := fun p hp => ⟨fun (e : p = tmp1 i) => (outputs_not_tmp i).1 (e ▸ out p hp), fun (e : p = tmp2 i) => (outputs_not_tmp i).2 (e ▸ out p hp)⟩
      order := by exact commands.reverse_perm
      coins := ⟨rfl, rfl, rfl⟩
      coin := rfl }

theorem works (i : Nat) (hi : i < 13) : Works (W i) (script[i]?.getD []) pw where
  normal := {
      fresh1 := fresh_at i (by omega) _ _ (unused1 i)
      fresh2 := fresh_at i (by omega) _ _ (unused2 i)
      tmp := (tmp_ne i i).symm
      inode := by show 21 + 2 * i ≠ 20 + 2 * i; omega
      out := fun p hp => ⟨fun (e : p = tmp1 i) => (outputs_not_tmp i).1 (e ▸ outputs_only i hi p hp), fun (e : p = tmp2 i) => (outputs_not_tmp i).2 (e ▸ outputs_only i hi p hp)⟩
      order := by exact commands.reverse_perm
      coins := ⟨rfl, rfl, rfl⟩
      coin := rfl }
  flags := rfl
  lower := lower_names
  file1 := ⟨rfl, (fun _ _ h => by cases h), rfl, rfl, rfl⟩
  file2 := ⟨rfl, (fun _ _ h => by cases h), rfl, rfl, rfl⟩
  maps := rfl
  opened := by
    intro p b h
    have e : (fsAt i).read p = some b := h
    constructor
    · simp [W, world, mach, Reader.content, e]
    · rfl
  home := by
    refine ⟨ascii "h", rfl, .inl ?_⟩
    rw [show ascii "h" ++ ascii "/.ssh/authorized_keys" = ascii "h/.ssh/authorized_keys" by decide +kernel]
    have key : ∃ b ∈ ascii "h/.ssh/authorized_keys", b ≠ 116 ∧ b ≠ 117 := by decide +kernel
    refine (fresh_at i (by omega) (ascii "h/.ssh/authorized_keys") 1 ⟨by decide +kernel, by decide +kernel, by decide, by decide,
      by unfold outputs; decide +kernel, fun j _ => ⟨?_, ?_, by omega, by omega⟩⟩).name _ (List.mem_cons_self ..)
    · intro h
      rw [h] at key
      obtain ⟨b, hb, h1, _⟩ := key
      exact h1 (List.eq_of_mem_replicate hb)
    · intro h
      rw [h] at key
      obtain ⟨b, hb, _, h1⟩ := key
      exact h1 (List.eq_of_mem_replicate hb)
  size := by show (if word "128k" = ascii "128k" then some 131072 else none) = some 131072; decide +kernel
  askpass := rfl
  stdout := rfl
  seed := by show (seedAt i).length = 32; simp [seedAt]
  salt := rfl
  rbuf := by intro j; show (List.replicate 12 _).length = 12; simp

theorem runs : RunsScript W script [] where
  works i h := ⟨pw, by
    have hl : i < 13 := h
    have := works i hl
    rwa [List.getElem?_eq_getElem h] at this⟩
  foo _ _ := rfl
  lower i _ := lower_all i
  next i h := by
    refine ⟨rfl, ?_⟩
    show fsAt (i + 1) = _
    rw [fsAt, List.getElem?_eq_getElem h]
    rfl

/-- C113 on this machine: the thirteen exit statuses (the wrong key is refused). -/
example : ∃ refused wrong wrong', statuses W script = [0, refused, 0, 0, 0, 0, 0, wrong, wrong', 0, 0, 0, 0] ∧ refused ≠ 0 ∧
    wrong ≠ 0 ∧ wrong' ≠ 0 := by
  have h := C113_tests_sh W toyLaws toyYaml_laws (toyYaml_reads _) (ascii "k") (ascii "m") (ascii "in") (ascii "s1") (ascii "e1") (ascii "d1")
    pks pks2 [] runs (by unfold FileName; decide +kernel) (by unfold FileName; decide +kernel) (by unfold FileName; decide +kernel)
    (by unfold FileName; decide +kernel) (by unfold FileName; decide +kernel) (by unfold FileName; decide +kernel)
    (fun _ => ⟨rfl, rfl⟩) (by unfold NamesUser; decide +kernel) (toyYaml_reads _)
    ((C34_exact _ _).mp (Base64.decode_encode _)) ((C34_exact _ _).mp (Base64.decode_encode _))
    (by
      intro h
      have := ((C90_public_string toyPrims pks).2.1).mpr h
      have h2 : ¬ (makePublicKeyFromString toyPrims pks = .ok none) := by decide +kernel
      exact h2 this)
    plain (by decide +kernel) (by decide +kernel) (by decide +kernel)
  obtain ⟨⟨a, b, c, h1, h2, h3⟩, _⟩ := h
  exact ⟨a, b, c, h1, h2, h3 (by show ¬ (_ = _); decide +kernel)⟩

end Sigtool.TestScriptDemo
