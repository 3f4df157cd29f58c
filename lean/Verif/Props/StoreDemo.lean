import Verif.Props.Kinds
import Verif.Props.CommandLinesDemo
/-! # A concrete history for C117 and C118: the first test of the package, and some more -/

namespace Sigtool.StoreDemo
open Sigtool Spec

/-- The hypotheses about reading one kind as another are met. -/
theorem toyYaml_skips (comment : Bytes) : SkipsEntries toyYaml comment := by
  have miss2 : ∀ (key k1 k2 : String) (a b : Bytes) (o1 : Bool),
      (∀ c ∈ ascii k1 ++ ascii ": ", c ≠ 10) → (∀ c ∈ ascii k2 ++ ascii ": ", c ≠ 10) →
      (∀ v, (ascii key ++ ascii ": ").isPrefixOf (ascii "comment" ++ ascii ": " ++ v) = false) →
      (∀ v, (ascii key ++ ascii ": ").isPrefixOf (ascii k1 ++ ascii ": " ++ v) = false) →
      (∀ v, (ascii key ++ ascii ": ").isPrefixOf (ascii k2 ++ ascii ": " ++ v) = false) →
      fieldOf (ascii key) (cutLines (toyYaml.line "comment" comment true ++ (toyYaml.line k1 a o1 ++ (toyYaml.line k2 b false ++ [])))) =
        fieldOf (ascii key) (cutLines []) := by
    intro key k1 k2 a b o1 g1 g2 h0 h1 h2
    rw [fieldOf_line_miss _ _ _ _ _ (by decide +kernel) h0, fieldOf_line_miss _ _ _ _ _ g1 h1, fieldOf_line_miss _ _ _ _ _ g2 h2]
  have com2 : ∀ (k1 k2 : String) (a b : Bytes) (o1 : Bool),
      (∀ c ∈ ascii k1 ++ ascii ": ", c ≠ 10) → (∀ c ∈ ascii k2 ++ ascii ": ", c ≠ 10) →
      (∀ v, (ascii "comment" ++ ascii ": ").isPrefixOf (ascii k1 ++ ascii ": " ++ v) = false) →
      (∀ v, (ascii "comment" ++ ascii ": ").isPrefixOf (ascii k2 ++ ascii ": " ++ v) = false) →
      toyField "comment" (toyYaml.line "comment" comment true ++ (toyYaml.line k1 a o1 ++ (toyYaml.line k2 b false ++ []))) = comment := by
    intro k1 k2 a b o1 g1 g2 h1 h2
    unfold toyField
    rw [fieldOf_line_hit _ _ _ _ (by decide +kernel), fieldOf_line_miss _ _ _ _ _ g1 h1, fieldOf_line_miss _ _ _ _ _ g2 h2]
    split
    · rename_i h; rw [h.2]; decide +kernel
    · simp [toyUnscalar_scalar]
  have com3 : ∀ a b tl : Bytes, tl = ascii "algo: scrypt-sha256\nZ: 524288\nr: 8\np: 1\n" →
      toyField "comment" (toyYaml.line "comment" comment true ++ (toyYaml.line "esk" a false ++ (toyYaml.line "salt" b true ++
        tl))) = comment := by
    intro a b tl htl
    unfold toyField
    rw [fieldOf_line_hit _ _ _ _ (by decide +kernel), fieldOf_line_miss _ _ _ _ _ (by decide +kernel) (fun _ => rfl),
      fieldOf_line_miss _ _ _ _ _ (by decide +kernel) (fun _ => rfl)]
    split
    · rename_i h; rw [h.2, htl]; decide +kernel
    · simp [toyUnscalar_scalar]
  have miss3 : ∀ (key : String) (a b tl : Bytes), tl = ascii "algo: scrypt-sha256\nZ: 524288\nr: 8\np: 1\n" →
      (∀ v, (ascii key ++ ascii ": ").isPrefixOf (ascii "comment" ++ ascii ": " ++ v) = false) →
      (∀ v, (ascii key ++ ascii ": ").isPrefixOf (ascii "esk" ++ ascii ": " ++ v) = false) →
      (∀ v, (ascii key ++ ascii ": ").isPrefixOf (ascii "salt" ++ ascii ": " ++ v) = false) →
      fieldOf (ascii key) (cutLines (toyYaml.line "comment" comment true ++ (toyYaml.line "esk" a false ++ (toyYaml.line "salt" b true ++
        tl)))) = fieldOf (ascii key) (cutLines tl) := by
    intro key a b tl htl h0 h1 h2
    rw [fieldOf_line_miss _ _ _ _ _ (by decide +kernel) h0, fieldOf_line_miss _ _ _ _ _ (by decide +kernel) h1,
      fieldOf_line_miss _ _ _ _ _ (by decide +kernel) h2]
  have none2 : ∀ key ∈ ["esk", "salt", "algo", "Z", "r", "p", "pk", "hash", "pkhash", "signature"],
      fieldOf (ascii key) (cutLines []) = none := by decide +kernel
  have none3 : ∀ key ∈ ["pk", "hash", "pkhash", "signature"],
      fieldOf (ascii key) (cutLines (ascii "algo: scrypt-sha256\nZ: 524288\nr: 8\np: 1\n")) = none := by decide +kernel
  have priv2 : ∀ (k1 k2 : String) (a b : Bytes) (o1 : Bool),
      (∀ c ∈ ascii k1 ++ ascii ": ", c ≠ 10) → (∀ c ∈ ascii k2 ++ ascii ": ", c ≠ 10) →
      (∀ key ∈ ["comment", "esk", "salt", "algo", "Z", "r", "p"], ∀ v, (ascii key ++ ascii ": ").isPrefixOf (ascii k1 ++ ascii ": " ++ v) = false) →
      (∀ key ∈ ["comment", "esk", "salt", "algo", "Z", "r", "p"], ∀ v, (ascii key ++ ascii ": ").isPrefixOf (ascii k2 ++ ascii ": " ++ v) = false) →
      toyYaml.readPriv (toyYaml.line "comment" comment true ++ (toyYaml.line k1 a o1 ++ (toyYaml.line k2 b false ++ []))) =
        some { comment := comment } := by
    intro k1 k2 a b o1 g1 g2 h1 h2
    have c := com2 k1 k2 a b o1 g1 g2 (h1 _ (by simp)) (h2 _ (by simp))
    have m : ∀ key, key ∈ ["esk", "salt", "algo", "Z", "r", "p"] →
        (∀ v, (ascii key ++ ascii ": ").isPrefixOf (ascii "comment" ++ ascii ": " ++ v) = false) →
        fieldOf (ascii key) (cutLines (toyYaml.line "comment" comment true ++ (toyYaml.line k1 a o1 ++ (toyYaml.line k2 b false ++ [])))) = none := by
      intro key hk h0
      rw [miss2 key k1 k2 a b o1 g1 g2 h0 (h1 key (List.mem_cons_of_mem _ hk)) (h2 key (List.mem_cons_of_mem _ hk))]
      exact none2 key (List.mem_append_left ["pk", "hash", "pkhash", "signature"] hk)
    generalize hT : toyYaml.line "comment" comment true ++ (toyYaml.line k1 a o1 ++ (toyYaml.line k2 b false ++ [])) = T at c m
    show some (⟨toyField "comment" T, toyField "esk" T, toyField "salt" T, (fieldOf (ascii "algo") (cutLines T)).getD [], toyInt "Z" T,
      toyInt "r" T, toyInt "p" T⟩ : PrivDoc) = _
    unfold toyInt
    rw [c]
    unfold toyField
    rw [m "esk" (by simp) (fun _ => rfl), m "salt" (by simp) (fun _ => rfl), m "algo" (by simp) (fun _ => rfl),
      m "Z" (by simp) (fun _ => rfl), m "r" (by simp) (fun _ => rfl), m "p" (by simp) (fun _ => rfl)]
    rfl
  have all : ∀ (q : String → Prop), q "comment" → q "esk" → q "salt" → q "algo" → q "Z" → q "r" → q "p" →
      ∀ key ∈ ["comment", "esk", "salt", "algo", "Z", "r", "p"], q key := by
    intro q a b c d e f g key hk
    simp only [List.mem_cons, List.not_mem_nil, or_false] at hk
    rcases hk with rfl | rfl | rfl | rfl | rfl | rfl | rfl <;> assumption
  have ep : ∀ a b, toyYaml.pubText ⟨comment, a, b⟩ = toyYaml.line "comment" comment true ++ (toyYaml.line "pk" a false ++
      (toyYaml.line "hash" b false ++ [])) := by intro a b; simp [Yaml.pubText]
  have es : ∀ a b, toyYaml.sigText ⟨comment, a, b⟩ = toyYaml.line "comment" comment true ++ (toyYaml.line "pkhash" a true ++
      (toyYaml.line "signature" b false ++ [])) := by intro a b; simp [Yaml.sigText]
  have ek : ∀ a b, toyYaml.privText comment a b = toyYaml.line "comment" comment true ++ (toyYaml.line "esk" a false ++
      (toyYaml.line "salt" b true ++ ascii "algo: scrypt-sha256\nZ: 524288\nr: 8\np: 1\n")) := by intro a b; simp [Yaml.privText]
  refine ⟨fun a b => ?_, fun a b => ?_, fun a b => ?_, fun a b => ?_, fun a b => ?_, fun a b => ?_⟩
  · rw [ep]
    exact priv2 "pk" "hash" _ _ false (by decide +kernel) (by decide +kernel)
      (all _ (fun _ => rfl) (fun _ => rfl) (fun _ => rfl) (fun _ => rfl) (fun _ => rfl) (fun _ => rfl) (fun _ => rfl))
      (all _ (fun _ => rfl) (fun _ => rfl) (fun _ => rfl) (fun _ => rfl) (fun _ => rfl) (fun _ => rfl) (fun _ => rfl))
  · rw [es]
    exact priv2 "pkhash" "signature" _ _ true (by decide +kernel) (by decide +kernel)
      (all _ (fun _ => rfl) (fun _ => rfl) (fun _ => rfl) (fun _ => rfl) (fun _ => rfl) (fun _ => rfl) (fun _ => rfl))
      (all _ (fun _ => rfl) (fun _ => rfl) (fun _ => rfl) (fun _ => rfl) (fun _ => rfl) (fun _ => rfl) (fun _ => rfl))
  · rw [ek]
    generalize htl : ascii "algo: scrypt-sha256\nZ: 524288\nr: 8\np: 1\n" = tl
    have c := com3 (Base64.encode a) (Base64.encode b) tl htl.symm
    have m1 := miss3 "pk" (Base64.encode a) (Base64.encode b) tl htl.symm (fun _ => rfl) (fun _ => rfl) (fun _ => rfl)
    have m2 := miss3 "hash" (Base64.encode a) (Base64.encode b) tl htl.symm (fun _ => rfl) (fun _ => rfl) (fun _ => rfl)
    rw [← htl, none3 "pk" (by simp), htl] at m1
    rw [← htl, none3 "hash" (by simp), htl] at m2
    generalize toyYaml.line "comment" comment true ++ (toyYaml.line "esk" (Base64.encode a) false ++
      (toyYaml.line "salt" (Base64.encode b) true ++ tl)) = T at c m1 m2
    show some (⟨toyField "comment" T, toyField "pk" T, toyField "hash" T⟩ : PubDoc) = _
    rw [c]
    unfold toyField
    rw [m1, m2]
    rfl
  · rw [es]
    have c := com2 "pkhash" "signature" (Base64.encode a) (Base64.encode b) true (by decide +kernel) (by decide +kernel) (fun _ => rfl) (fun _ => rfl)
    have m1 := miss2 "pk" "pkhash" "signature" (Base64.encode a) (Base64.encode b) true (by decide +kernel) (by decide +kernel)
      (fun _ => rfl) (fun _ => rfl) (fun _ => rfl)
    have m2 := miss2 "hash" "pkhash" "signature" (Base64.encode a) (Base64.encode b) true (by decide +kernel) (by decide +kernel)
      (fun _ => rfl) (fun _ => rfl) (fun _ => rfl)
    rw [none2 "pk" (by simp)] at m1
    rw [none2 "hash" (by simp)] at m2
    generalize toyYaml.line "comment" comment true ++ (toyYaml.line "pkhash" (Base64.encode a) true ++
      (toyYaml.line "signature" (Base64.encode b) false ++ [])) = T at c m1 m2
    show some (⟨toyField "comment" T, toyField "pk" T, toyField "hash" T⟩ : PubDoc) = _
    rw [c]
    unfold toyField
    rw [m1, m2]
    rfl
  · rw [ek]
    generalize htl : ascii "algo: scrypt-sha256\nZ: 524288\nr: 8\np: 1\n" = tl
    have c := com3 (Base64.encode a) (Base64.encode b) tl htl.symm
    have m1 := miss3 "pkhash" (Base64.encode a) (Base64.encode b) tl htl.symm (fun _ => rfl) (fun _ => rfl) (fun _ => rfl)
    have m2 := miss3 "signature" (Base64.encode a) (Base64.encode b) tl htl.symm (fun _ => rfl) (fun _ => rfl) (fun _ => rfl)
    rw [← htl, none3 "pkhash" (by simp), htl] at m1
    rw [← htl, none3 "signature" (by simp), htl] at m2
    generalize toyYaml.line "comment" comment true ++ (toyYaml.line "esk" (Base64.encode a) false ++
      (toyYaml.line "salt" (Base64.encode b) true ++ tl)) = T at c m1 m2
    show some (⟨toyField "comment" T, toyField "pkhash" T, toyField "signature" T⟩ : SigDoc) = _
    rw [c]
    unfold toyField
    rw [m1, m2]
    rfl
  · rw [ep]
    have c := com2 "pk" "hash" (Base64.encode a) (Base64.encode b) false (by decide +kernel) (by decide +kernel) (fun _ => rfl) (fun _ => rfl)
    have m1 := miss2 "pkhash" "pk" "hash" (Base64.encode a) (Base64.encode b) false (by decide +kernel) (by decide +kernel)
      (fun _ => rfl) (fun _ => rfl) (fun _ => rfl)
    have m2 := miss2 "signature" "pk" "hash" (Base64.encode a) (Base64.encode b) false (by decide +kernel) (by decide +kernel)
      (fun _ => rfl) (fun _ => rfl) (fun _ => rfl)
    rw [none2 "pkhash" (by simp)] at m1
    rw [none2 "signature" (by simp)] at m2
    generalize toyYaml.line "comment" comment true ++ (toyYaml.line "pk" (Base64.encode a) false ++
      (toyYaml.line "hash" (Base64.encode b) false ++ [])) = T at c m1 m2
    show some (⟨toyField "comment" T, toyField "pkhash" T, toyField "signature" T⟩ : SigDoc) = _
    rw [c]
    unfold toyField
    rw [m1, m2]
    rfl

/-! ### The history -/

def D : Deps := ⟨toyPrims, toyYaml, fun _ => none⟩

def sk : PrivateKey := demoSk

/-- One file, `f`. -/
def fs0 : FS := { dir := fun p => if p = ascii "f" then some (.file 0) else none, data := fun _ => [1, 2, 3] }

def env (t : String) (i : Nat) : SafeEnv := { tmp := ascii t, inode := i }

theorem fs0_fresh (t : String) (i : Nat) (h : (ascii t != ascii "f" && i != 0) = true) : Fresh fs0 (ascii t) i := by
  simp only [Bool.and_eq_true, bne_iff_ne] at h
  constructor
  · intro d hd
    simp only [fs0, List.mem_singleton] at hd
    subst hd
    exact if_neg h.1
  · intro d hd p
    simp only [fs0, List.mem_singleton] at hd
    subst hd
    dsimp only
    split
    · intro e; cases e; exact h.2 rfl
    · simp

def sg : Signature := ⟨toyPrims.edSign sk.sk (signDigest toyPrims (fileCksum toyPrims [1, 2, 3])), sk.pub.hash⟩

theorem sg_made : signNamed D fs0 none sk (ascii "f") = .ok sg := by decide +kernel

def salt : Bytes := List.replicate 32 9

/-- The public key; again without the overwrite flag; the private key; the signature; a signature over the private key file, on a
full disk. -/
def c1 : SaveCall := ⟨.pub sk.pub, ascii "t.pub", ascii "mine", true, [], env "x1" 1⟩
def c2 : SaveCall := ⟨.pub sk.pub, ascii "t.pub", [], false, [], env "x2" 2⟩
def c3 : SaveCall := ⟨.priv sk (ascii "abc"), ascii "t.key", [], true, salt, env "x3" 3⟩
def c4 : SaveCall := ⟨.sig sg, ascii "f.sig", [], false, [], env "x4" 4⟩
def c5 : SaveCall := ⟨.sig sg, ascii "t.key", [], true, [], { env "x5" 5 with writes := [.short 3, .fail 1 (.io 28)] }⟩

def s1 : FS := fs0.run (c1.run D fs0).2
def s2 : FS := s1.run (c2.run D s1).2
def s3 : FS := s2.run (c3.run D s2).2
def s4 : FS := s3.run (c4.run D s3).2
def s5 : FS := s4.run (c5.run D s4).2

/-- Another program cuts `f`. -/
def s6 : FS := { s5 with data := fun i => if i = 0 then [1, 2] else s5.data i }

def hist : List StoreEvent :=
  [.saved c1 (c1.run D fs0).1, .saved c2 (c2.run D s1).1, .saved c3 (c3.run D s2).1, .saved c4 (c4.run D s3).1, .saved c5 (c5.run D s4).1,
    .changed (ascii "f") (some [1, 2])]

theorem next {fs : FS} (cs : List Sys) (t : String) (i : Nat) (h : Fresh fs (ascii t) i)
    (h' : cs.all (CommandLinesDemo.Apart (ascii t) i) = true) : Fresh (fs.run cs) (ascii t) i := CommandLinesDemo.fresh_run _ _ h h'

theorem hist_is : StoreHistory D fs0 hist s6 := by
  have f1 : Fresh fs0 (ascii "x1") 1 := fs0_fresh _ _ (by decide +kernel)
  have f2 : Fresh s1 (ascii "x2") 2 := next _ _ _ (fs0_fresh _ _ (by decide +kernel)) (by decide +kernel)
  have f3 : Fresh s2 (ascii "x3") 3 :=
    next _ _ _ (next _ _ _ (fs0_fresh _ _ (by decide +kernel)) (by decide +kernel)) (by decide +kernel)
  have f4 : Fresh s3 (ascii "x4") 4 :=
    next _ _ _ (next _ _ _ (next _ _ _ (fs0_fresh _ _ (by decide +kernel)) (by decide +kernel)) (by decide +kernel)) (by decide +kernel)
  have f5 : Fresh s4 (ascii "x5") 5 :=
    next _ _ _ (next _ _ _ (next _ _ _ (next _ _ _ (fs0_fresh _ _ (by decide +kernel)) (by decide +kernel)) (by decide +kernel))
      (by decide +kernel)) (by decide +kernel)
  have h1 := StoreHistory.save (D := D) c1 (.start (fs := fs0)) f1 (by decide +kernel)
  have h2 := StoreHistory.save c2 h1 f2 (by decide +kernel)
  have h3 := StoreHistory.save c3 h2 f3 (by decide +kernel)
  have h4 := StoreHistory.save c4 h3 f4 (by decide +kernel)
  have h5 := StoreHistory.save c5 h4 f5 (by decide +kernel)
  refine StoreHistory.change (s := s5) (s' := s6) (ascii "f") (some [1, 2]) h5 ⟨by decide +kernel, fun q _ => ?_, ?_⟩
  · show s6.dir q = s5.dir q
    unfold s6; dsimp only
  intro q i hq hd
  refine ⟨?_, by unfold s6; dsimp only⟩
  show (if i = 0 then [1, 2] else s5.data i) = s5.data i
  rw [if_neg]
  rintro rfl
  -- only `f` is inode 0
  have dir : s5.dir q = (if q = ascii "f" then some (.file 0) else if q = ascii "t.pub" then some (.file 1) else
      if q = ascii "t.key" then some (.file 3) else if q = ascii "f.sig" then some (.file 4) else none) := by
    have key : ∀ (s : FS) (c : SaveCall) (q : Path) (hf : Fresh s c.env.tmp c.env.inode) (hn : c.name ≠ c.env.tmp),
        (c.run D s).1 ≠ .ok () → q ≠ c.env.tmp → (s.run (c.run D s).2).dir q = s.dir q :=
      fun s c q hf hn hr hq => ((SaveCall.step D s c hf hn q hq).2 (fun h => hr h.1)).2.1
    by_cases e0 : q = ascii "f"
    · subst e0; decide +kernel
    by_cases e1 : q = ascii "t.pub"
    · subst e1; decide +kernel
    by_cases e2 : q = ascii "t.key"
    · subst e2; decide +kernel
    by_cases e3 : q = ascii "f.sig"
    · subst e3; decide +kernel
    rw [if_neg e0, if_neg e1, if_neg e2, if_neg e3]
    by_cases x1 : q = ascii "x1"
    · subst x1; decide +kernel
    by_cases x2 : q = ascii "x2"
    · subst x2; decide +kernel
    by_cases x3 : q = ascii "x3"
    · subst x3; decide +kernel
    by_cases x4 : q = ascii "x4"
    · subst x4; decide +kernel
    by_cases x5 : q = ascii "x5"
    · subst x5; decide +kernel
    have st : ∀ (s : FS) (c : SaveCall), Fresh s c.env.tmp c.env.inode → c.name ≠ c.env.tmp → q ≠ c.env.tmp → q ≠ c.name →
        (s.run (c.run D s).2).dir q = s.dir q :=
      fun s c hf hn hq hq2 => ((SaveCall.step D s c hf hn q hq).2 (fun h => hq2 h.2)).2.1
    have a1 : s1.dir q = fs0.dir q := by
      have hx : q ≠ c1.env.tmp := x1
      have hy : q ≠ c1.name := e1
      unfold s1
      exact st fs0 c1 f1 (by decide +kernel) hx hy
    have a2 : s2.dir q = s1.dir q := by
      have hx : q ≠ c2.env.tmp := x2
      have hy : q ≠ c2.name := e1
      unfold s2
      exact st s1 c2 f2 (by decide +kernel) hx hy
    have a3 : s3.dir q = s2.dir q := by
      have hx : q ≠ c3.env.tmp := x3
      have hy : q ≠ c3.name := e2
      unfold s3
      exact st s2 c3 f3 (by decide +kernel) hx hy
    have a4 : s4.dir q = s3.dir q := by
      have hx : q ≠ c4.env.tmp := x4
      have hy : q ≠ c4.name := e3
      unfold s4
      exact st s3 c4 f4 (by decide +kernel) hx hy
    have a5 : s5.dir q = s4.dir q := by
      have hx : q ≠ c5.env.tmp := x5
      have hy : q ≠ c5.name := e2
      unfold s5
      exact st s4 c5 f5 (by decide +kernel) hx hy
    have a0 : fs0.dir q = none := if_neg e0
    rw [a5, a4, a3, a2, a1, a0]
  have hd : s5.dir q = some (.file 0) := hd
  rw [dir, if_neg hq] at hd
  revert hd
  repeat' split
  all_goals (intro hd; cases hd)

/-- What the calls returned: only the second and the last failed. -/
example : (c1.run D fs0).1 = .ok () ∧ (c2.run D s1).1 = .err (.msg "safefile: won't overwrite existing file") ∧
    (c3.run D s2).1 = .ok () ∧ (c4.run D s3).1 = .ok () ∧ (c5.run D s4).1 = .err (.io 28) := by decide +kernel

theorem notTemp (p : String) (h : (["x1", "x2", "x3", "x4", "x5"].all fun t => ascii t != ascii p) = true) : NotTemp (ascii p) hist := by
  intro c r hm
  simp only [List.all_cons, List.all_nil, Bool.and_true, Bool.and_eq_true, bne_iff_ne] at h
  obtain ⟨h1, h2, h3, h4, h5⟩ := h
  simp only [hist, List.mem_cons, StoreEvent.saved.injEq, List.not_mem_nil, or_false, reduceCtorEq] at hm
  rcases hm with ⟨rfl, _⟩ | ⟨rfl, _⟩ | ⟨rfl, _⟩ | ⟨rfl, _⟩ | ⟨rfl, _⟩
  · exact h1
  · exact h2
  · exact h3
  · exact h4
  · exact h5

theorem r1 : (c1.run D fs0).1 = .ok () := by decide +kernel
theorem r2 : (c2.run D s1).1 = .err (.msg "safefile: won't overwrite existing file") := by decide +kernel
theorem r3 : (c3.run D s2).1 = .ok () := by decide +kernel
theorem r4 : (c4.run D s3).1 = .ok () := by decide +kernel
theorem r5 : (c5.run D s4).1 = .err (.io 28) := by decide +kernel

theorem known_pub : known hist (ascii "t.pub") = .holds c1 := by
  unfold hist; rw [r1, r2, r3, r4, r5]; rfl
theorem known_priv : known hist (ascii "t.key") = .holds c3 := by
  unfold hist; rw [r1, r2, r3, r4, r5]; rfl
theorem known_sig : known hist (ascii "f.sig") = .holds c4 := by
  unfold hist; rw [r1, r2, r3, r4, r5]; rfl
theorem known_file : known hist (ascii "f") = .raw (some [1, 2]) := by
  unfold hist; rw [r1, r2, r3, r4, r5]; rfl

theorem proper1 : Proper D c1 := ⟨toyYaml_reads _, [], sk.pub.pk, by decide +kernel⟩
theorem proper3 : Proper D c3 := ⟨toyYaml_reads _, demoSk_genuine, .inl rfl, by decide +kernel⟩
theorem proper4 : Proper D c4 := ⟨toyYaml_reads _, trivial⟩

/-- C117 in this history. -/
example : (∃ pk', readPublicKey D s6 (ascii "t.pub") = .ok pk' ∧ pk'.pk = sk.pub.pk ∧ pk'.hash = sk.pub.hash) ∧
    modeOf s6 (ascii "t.pub") = some 0o644 :=
  C117_last_save D toyLaws toyYaml_laws fs0 s6 hist hist_is _ (notTemp _ (by decide +kernel)) c1 known_pub proper1

example : Loads D s6 (ascii "t.key") c3 ∧ modeOf s6 (ascii "t.key") = some 0o600 :=
  C117_last_save D toyLaws toyYaml_laws fs0 s6 hist hist_is _ (notTemp _ (by decide +kernel)) c3 known_priv proper3

/-- The wrong pass phrases of the test are refused. -/
example : readPrivateKey D s6 (ascii "t.key") (some (.ok (ascii "def"))) = .err (.msg "unmarshal priv key: wrong password") ∧
    readPrivateKey D s6 (ascii "t.key") (some (.ok [])) = .err (.msg "unmarshal priv key: wrong password") := by decide +kernel

example : s6.read (ascii "f") = some [1, 2] :=
  (C117_untouched D fs0 s6 hist hist_is _ (notTemp _ (by decide +kernel))).2 _ known_file

example : (∀ u, ((⟨.sig sg, ascii "f.sig", [], false, [], env "y" 9⟩ : SaveCall).run D s6).1 ≠ .ok u) ∧
    ((⟨.sig sg, ascii "f.sig", [], false, [], env "y" 9⟩ : SaveCall).run D s6).2 = [] :=
  C117_refuses D fs0 s6 hist hist_is _ (notTemp _ (by decide +kernel)) c4 known_sig _ rfl rfl

example := C117_sign_flow D toyLaws toyYaml_laws fs0 s6 hist hist_is sk demoSk_genuine fs0 (ascii "f") sg sg_made (ascii "t.pub") (ascii "f.sig")
  (notTemp _ (by decide +kernel)) (notTemp _ (by decide +kernel)) c1 c4 known_pub rfl proper1 known_sig rfl proper4 [[1, 2, 3]]

/-- ... and the truncated file is refused. -/
example : (readPublicKey D s6 (ascii "t.pub")).bind (fun pk => verifyNamed D s6 none pk (ascii "f") sg) = .ok false := by decide +kernel

/-- C118 in this history: the test gives the public key to the reader of private keys. -/
example : ∀ getpw, ∃ e, readPrivateKey D s6 (ascii "t.pub") getpw = .err e :=
  (C118_keys D toyLaws toyYaml_laws fs0 s6 hist hist_is _ (notTemp _ (by decide +kernel)) c1 known_pub proper1 trivial
    (.inr (by decide +kernel)) (toyYaml_skips _)).1 (by decide)

example : (∃ e, readPublicKey D s6 (ascii "t.key") = .err e) ∧ ∃ e, readPublicKey D s6 (ascii "f.sig") = .err e :=
  ⟨(C118_keys D toyLaws toyYaml_laws fs0 s6 hist hist_is _ (notTemp _ (by decide +kernel)) c3 known_priv proper3 trivial
    (.inl rfl) (toyYaml_skips _)).2 (by decide),
   (C118_keys D toyLaws toyYaml_laws fs0 s6 hist hist_is _ (notTemp _ (by decide +kernel)) c4 known_sig proper4 ⟨by decide +kernel, by decide +kernel⟩
    (.inl rfl) (toyYaml_skips _)).2 (by decide)⟩

example : readSignature D s6 (ascii "t.key") = .ok ⟨[], []⟩ :=
  C118_signatures_refuted D fs0 s6 hist hist_is _ (notTemp _ (by decide +kernel)) c3 known_priv (toyYaml_skips _) (by decide)

example : verifyCmd D s6 none [ascii "t.pub", ascii "t.key", ascii "f"] ≠ 0 :=
  (C118_signatures_partial D toyLaws fs0 s6 hist hist_is _ (notTemp _ (by decide +kernel)) c3 known_priv (toyYaml_skips _) (by decide)).2 _ _ _ _

end Sigtool.StoreDemo
