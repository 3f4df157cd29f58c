import Verif.Props.SymbolicDemo
/-!
# C111: a signed file cannot be passed on as another one (attacker who computes with terms)
-/

namespace Sigtool
open Spec
open Spec.Symbolic

theorem eqv_sha256 {t u : Term} (h : Eqv t u) :
    (∀ a, t = .sha256 a → ∃ b, u = .sha256 b ∧ Eqv a b) ∧ (∀ b, u = .sha256 b → ∃ a, t = .sha256 a ∧ Eqv a b) := by
  induction h with
  | refl t => exact ⟨fun a h => ⟨a, h, .refl _⟩, fun a h => ⟨a, h, .refl _⟩⟩
  | symm _ ih =>
    refine ⟨fun a h => ?_, fun a h => ?_⟩
    · obtain ⟨b, h1, h2⟩ := ih.2 a h; exact ⟨b, h1, .symm h2⟩
    · obtain ⟨b, h1, h2⟩ := ih.1 a h; exact ⟨b, h1, .symm h2⟩
  | trans _ _ ih1 ih2 =>
    refine ⟨fun a h => ?_, fun a h => ?_⟩
    · obtain ⟨b, h1, h2⟩ := ih1.1 a h
      obtain ⟨c, h3, h4⟩ := ih2.1 b h1
      exact ⟨c, h3, .trans h2 h4⟩
    · obtain ⟨b, h1, h2⟩ := ih2.2 a h
      obtain ⟨c, h3, h4⟩ := ih1.2 b h1
      exact ⟨c, h3, .trans h4 h2⟩
  | sha256 e _ =>
    refine ⟨fun a h => ?_, fun a h => ?_⟩
    · cases h; exact ⟨_, rfl, e⟩
    · cases h; exact ⟨_, rfl, e⟩
  | _ => exact ⟨fun _ h => (by cases h), fun _ h => (by cases h)⟩

theorem eqv_hkdf {t u : Term} (h : Eqv t u) :
    (∀ a b i n, t = .hkdf a b i n → ∃ a' b', u = .hkdf a' b' i n ∧ Eqv a a' ∧ Eqv b b') ∧
    (∀ a b i n, u = .hkdf a b i n → ∃ a' b', t = .hkdf a' b' i n ∧ Eqv a' a ∧ Eqv b' b) := by
  induction h with
  | refl t => exact ⟨fun a b i n h => ⟨a, b, h, .refl _, .refl _⟩, fun a b i n h => ⟨a, b, h, .refl _, .refl _⟩⟩
  | symm _ ih =>
    refine ⟨fun a b i n h => ?_, fun a b i n h => ?_⟩
    · obtain ⟨a', b', h1, h2, h3⟩ := ih.2 a b i n h; exact ⟨a', b', h1, .symm h2, .symm h3⟩
    · obtain ⟨a', b', h1, h2, h3⟩ := ih.1 a b i n h; exact ⟨a', b', h1, .symm h2, .symm h3⟩
  | trans _ _ ih1 ih2 =>
    refine ⟨fun a b i n h => ?_, fun a b i n h => ?_⟩
    · obtain ⟨a', b', h1, h2, h3⟩ := ih1.1 a b i n h
      obtain ⟨a'', b'', h4, h5, h6⟩ := ih2.1 a' b' i n h1
      exact ⟨a'', b'', h4, .trans h2 h5, .trans h3 h6⟩
    · obtain ⟨a', b', h1, h2, h3⟩ := ih2.2 a b i n h
      obtain ⟨a'', b'', h4, h5, h6⟩ := ih1.2 a' b' i n h1
      exact ⟨a'', b'', h4, .trans h5 h2, .trans h6 h3⟩
  | hkdf e1 e2 _ _ =>
    refine ⟨fun a b i n h => ?_, fun a b i n h => ?_⟩
    · cases h; exact ⟨_, _, rfl, e1, e2⟩
    · cases h; exact ⟨_, _, rfl, e1, e2⟩
  | _ => exact ⟨fun _ _ _ _ h => (by cases h), fun _ _ _ _ h => (by cases h)⟩

theorem eqv_drop_hkdf {t u : Term} (h : Eqv t u) :
    (∀ k a b i n, t = .drop k (.hkdf a b i n) → ∃ a' b', u = .drop k (.hkdf a' b' i n) ∧ Eqv a a' ∧ Eqv b b') ∧
    (∀ k a b i n, u = .drop k (.hkdf a b i n) → ∃ a' b', t = .drop k (.hkdf a' b' i n) ∧ Eqv a' a ∧ Eqv b' b) := by
  induction h with
  | refl t => exact ⟨fun k a b i n h => ⟨a, b, h, .refl _, .refl _⟩, fun k a b i n h => ⟨a, b, h, .refl _, .refl _⟩⟩
  | symm _ ih =>
    refine ⟨fun k a b i n h => ?_, fun k a b i n h => ?_⟩
    · obtain ⟨a', b', h1, h2, h3⟩ := ih.2 k a b i n h; exact ⟨a', b', h1, .symm h2, .symm h3⟩
    · obtain ⟨a', b', h1, h2, h3⟩ := ih.1 k a b i n h; exact ⟨a', b', h1, .symm h2, .symm h3⟩
  | trans _ _ ih1 ih2 =>
    refine ⟨fun k a b i n h => ?_, fun k a b i n h => ?_⟩
    · obtain ⟨a', b', h1, h2, h3⟩ := ih1.1 k a b i n h
      obtain ⟨a'', b'', h4, h5, h6⟩ := ih2.1 k a' b' i n h1
      exact ⟨a'', b'', h4, .trans h2 h5, .trans h3 h6⟩
    · obtain ⟨a', b', h1, h2, h3⟩ := ih2.2 k a b i n h
      obtain ⟨a'', b'', h4, h5, h6⟩ := ih1.2 k a' b' i n h1
      exact ⟨a'', b'', h4, .trans h5 h2, .trans h6 h3⟩
  | drop e _ =>
    refine ⟨fun k a b i n h => ?_, fun k a b i n h => ?_⟩
    · cases h
      obtain ⟨a', b', rfl, h⟩ := (eqv_hkdf e).1 _ _ _ _ rfl
      exact ⟨a', b', rfl, h⟩
    · cases h
      obtain ⟨a', b', rfl, h⟩ := (eqv_hkdf e).2 _ _ _ _ rfl
      exact ⟨a', b', rfl, h⟩
  | _ => exact ⟨fun _ _ _ _ _ h => (by cases h), fun _ _ _ _ _ h => (by cases h)⟩

/-- **C111** The attacker of C107, who may be a recipient of signed files.  If he can compute the trailer by which a file with the header `h`,
the root key `r` and the contents `x` counts as coming from a person outside `bad`, then that person has made a file with this
very header (so with these recipients, in this order), this root key and these contents.  In particular a recipient cannot pass on
the contents as a file of the sender to someone else, nor a file to which recipients were added, or from which some were removed. -/
theorem C111_passing_on (files : Nat → File) (bad told : Nat → Prop) (i : Nat) (hi : ¬ bad i) (r h x : Term)
    (hk : Knows (Start files bad told)
      (Symbolic.signed i (.hmac (.drop 44 (.hkdf r (.sha256 h) (ascii "Data Key Expansion") 76)) x))) :
    ∃ n, (files n).sender = some i ∧ Eqv h (header n (files n)) ∧ Eqv r (.secret (.root n)) ∧ Eqv x (macked n 0 (files n).sizes) := by
  obtain ⟨n, h1, h2, h3⟩ := C108_trailer files bad told i hi _ x hk
  obtain ⟨a, b, h4, h5, h6⟩ := (eqv_drop_hkdf h2).1 _ _ _ _ _ rfl
  cases h4
  obtain ⟨c, h7, h8⟩ := (eqv_sha256 h6).1 _ rfl
  cases h7
  exact ⟨n, h1, h8, h5, h3⟩

/-! ### Equal headers have the same recipients -/

/-- The additional data of the boxes, in order. -/
def boxesOf : Term → List Term
  | .cat a b => boxesOf a ++ boxesOf b
  | .box _ _ _ ad => [ad]
  | _ => []

theorem forall₂_refl (l : List Term) : List.Forall₂ Eqv l l := by
  induction l with
  | nil => exact .nil
  | cons a l ih => exact .cons (.refl a) ih

theorem forall₂_symm {l m : List Term} (h : List.Forall₂ Eqv l m) : List.Forall₂ Eqv m l := by
  induction h with
  | nil => exact .nil
  | cons e _ ih => exact .cons (.symm e) ih

theorem forall₂_trans {l m n : List Term} (h : List.Forall₂ Eqv l m) (h' : List.Forall₂ Eqv m n) : List.Forall₂ Eqv l n := by
  induction h generalizing n with
  | nil => exact h'
  | cons e _ ih => cases h' with | cons e' t' => exact .cons (.trans e e') (ih t')

theorem forall₂_append {l m l' m' : List Term} (h : List.Forall₂ Eqv l m) (h' : List.Forall₂ Eqv l' m') :
    List.Forall₂ Eqv (l ++ l') (m ++ m') := by
  induction h with
  | nil => exact h'
  | cons e _ ih => exact .cons e ih

theorem eqv_boxes {t u : Term} (h : Eqv t u) : List.Forall₂ Eqv (boxesOf t) (boxesOf u) := by
  induction h with
  | refl t => exact forall₂_refl _
  | symm _ ih => exact forall₂_symm ih
  | trans _ _ ih1 ih2 => exact forall₂_trans ih1 ih2
  | assoc a b c => simp only [boxesOf, List.append_assoc]; exact forall₂_refl _
  | cat _ _ h1 h2 => exact forall₂_append h1 h2
  | box _ _ _ e _ _ _ _ => exact .cons e .nil
  | _ => exact .nil

theorem boxesOf_cats (ts : List Term) : boxesOf (cats ts) = ts.flatMap boxesOf := by
  induction ts with
  | nil => rfl
  | cons t ts ih => show boxesOf t ++ boxesOf (cats ts) = _; rw [ih]; rfl

theorem boxesOf_header (n : Nat) (f : File) : boxesOf (header n f) = .bytes [] :: f.rcpts.map fun r => .edPub (Symbolic.seed r.1) := by
  have : ∀ l : List (Nat × Bytes), (l.map fun r => Term.cat (.bytes [0x2a, 64, 0x0a, 48]) (.cat (wrapped n f r) (.bytes ([0x12, 12] ++ r.2)))).flatMap
      boxesOf = l.map fun r => .edPub (Symbolic.seed r.1) := by
    intro l
    induction l with
    | nil => rfl
    | cons r l ih => rw [List.map_cons, List.flatMap_cons, ih]; rfl
  show [] ++ ([] ++ ([] ++ ([.bytes []] ++ boxesOf (cats _)))) = _
  rw [boxesOf_cats, this]
  rfl

theorem eqv_seed_pub {i j : Nat} (h : Eqv (.edPub (Symbolic.seed i)) (.edPub (Symbolic.seed j))) : i = j := by
  have := congrArg Look.ed (look_eqv (fun k => k == i) (fun _ => false) (fun _ => false) h)
  by_contra hne
  have hj : (j == i) = false := by simpa using fun e => hne e.symm
  simp [Symbolic.seed, look, Look.plain, lookSecret, hidden, hj] at this

/-- **C111** (recipients).  The header in `C111_passing_on` determines the recipients: if a trailer that the attacker can compute makes a
file described by `f` (with any number, key and contents) count as coming from a person outside `bad`, that person has made a file for the
same recipients in the same order. -/
theorem C111_recipients (files : Nat → File) (bad told : Nat → Prop) (i : Nat) (hi : ¬ bad i) (m : Nat) (f : File) (r x : Term)
    (hk : Knows (Start files bad told)
      (Symbolic.signed i (.hmac (.drop 44 (.hkdf r (.sha256 (header m f)) (ascii "Data Key Expansion") 76)) x))) :
    ∃ n, (files n).sender = some i ∧ (files n).rcpts.map (·.1) = f.rcpts.map (·.1) ∧ Eqv x (macked n 0 (files n).sizes) := by
  obtain ⟨n, h1, h2, _, h3⟩ := C111_passing_on files bad told i hi r _ x hk
  refine ⟨n, h1, ?_, h3⟩
  have := eqv_boxes h2
  rw [boxesOf_header, boxesOf_header] at this
  cases this with
  | cons _ h =>
    have : ∀ l l' : List (Nat × Bytes), List.Forall₂ Eqv (l.map fun r => .edPub (Symbolic.seed r.1)) (l'.map fun r => .edPub (Symbolic.seed r.1)) →
        l'.map (·.1) = l.map (·.1) := by
      intro l
      induction l with
      | nil =>
        intro l' h
        cases l' with
        | nil => rfl
        | cons a l' => cases h
      | cons a l ih =>
        intro l' h
        cases l' with
        | nil => cases h
        | cons b l' =>
          cases h with
          | cons e t => rw [List.map_cons, List.map_cons, ih l' t, eqv_seed_pub e]
    exact this _ _ h

/-- In the demo session Carol knows everything in Alice's file and its trailer, but she does not get a trailer by which a file for Bob only
counts as one of Alice's, whatever the contents. -/
example : (∃ r x, Knows (Start (fun _ => Demo.file) (fun i => i = 3) (fun _ => True))
      (Symbolic.signed 1 (.hmac (.drop 44 (.hkdf r (.sha256 (header 0 Demo.file)) (ascii "Data Key Expansion") 76)) x))) ∧
    ∀ m r x, ¬ Knows (Start (fun _ => Demo.file) (fun i => i = 3) (fun _ => True)) (Symbolic.signed 1
      (.hmac (.drop 44 (.hkdf r (.sha256 (header m { Demo.file with rcpts := [(2, [])] })) (ascii "Data Key Expansion") 76)) x)) := by
  refine ⟨⟨_, _, (Knows.known (Start.file (corrupt := fun i => i = 3) (told := fun _ => True) (files := fun _ => Demo.file) 0)).right.right.right⟩,
    fun m r x h => ?_⟩
  obtain ⟨n, _, h, _⟩ := C111_recipients _ _ _ 1 (by decide) m _ r x h
  exact absurd h (by decide)

end Sigtool
