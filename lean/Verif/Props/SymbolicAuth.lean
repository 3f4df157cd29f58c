import Verif.Props.Symbolic
/-!
# C108: nobody else can make a sender's signatures (attacker who computes with terms)
-/

namespace Sigtool
open Spec
open Spec.Symbolic

/-! ### Equal terms have equal parts -/

def lastPart : Term → Term
  | .cat _ b => lastPart b
  | t => t

theorem eqv_sha512 {t u : Term} (h : Eqv t u) :
    (∀ a, t = .sha512 a → ∃ b, u = .sha512 b ∧ Eqv a b) ∧ (∀ b, u = .sha512 b → ∃ a, t = .sha512 a ∧ Eqv a b) := by
  induction h with
  | refl t => exact ⟨fun a h => ⟨a, h, .refl _⟩, fun a h => ⟨a, h, .refl _⟩⟩
  | symm _ ih =>
    refine ⟨fun a h => ?_, fun a h => ?_⟩
    · obtain ⟨b, h1, h2⟩ := ih.2 a h; exact ⟨b, h1, .symm h2⟩
    · obtain ⟨b, h1, h2⟩ := ih.1 a h; exact ⟨b, h1, .symm h2⟩
  | trans _ _ ih1 ih2 =>
    refine ⟨fun a h => ?_, fun a h => ?_⟩
    · obtain ⟨b, h1, h2⟩ := ih1.1 a h
      obtain ⟨c, h3, h4⟩ := ih2.1 b h1
      exact ⟨c, h3, .trans h2 h4⟩
    · obtain ⟨b, h1, h2⟩ := ih2.2 a h
      obtain ⟨c, h3, h4⟩ := ih1.2 b h1
      exact ⟨c, h3, .trans h4 h2⟩
  | sha512 e _ =>
    refine ⟨fun a h => ?_, fun a h => ?_⟩
    · cases h; exact ⟨_, rfl, e⟩
    · cases h; exact ⟨_, rfl, e⟩
  | _ => exact ⟨fun _ h => (by cases h), fun _ h => (by cases h)⟩

theorem eqv_last_sha256 {t u : Term} (h : Eqv t u) :
    (∀ a, lastPart t = .sha256 a → ∃ b, lastPart u = .sha256 b ∧ Eqv a b) ∧
    (∀ b, lastPart u = .sha256 b → ∃ a, lastPart t = .sha256 a ∧ Eqv a b) := by
  induction h with
  | refl t => exact ⟨fun a h => ⟨a, h, .refl _⟩, fun a h => ⟨a, h, .refl _⟩⟩
  | symm _ ih =>
    refine ⟨fun a h => ?_, fun a h => ?_⟩
    · obtain ⟨b, h1, h2⟩ := ih.2 a h; exact ⟨b, h1, .symm h2⟩
    · obtain ⟨b, h1, h2⟩ := ih.1 a h; exact ⟨b, h1, .symm h2⟩
  | trans _ _ ih1 ih2 =>
    refine ⟨fun a h => ?_, fun a h => ?_⟩
    · obtain ⟨b, h1, h2⟩ := ih1.1 a h
      obtain ⟨c, h3, h4⟩ := ih2.1 b h1
      exact ⟨c, h3, .trans h2 h4⟩
    · obtain ⟨b, h1, h2⟩ := ih2.2 a h
      obtain ⟨c, h3, h4⟩ := ih1.2 b h1
      exact ⟨c, h3, .trans h4 h2⟩
  | sha256 e _ =>
    refine ⟨fun a h => ?_, fun a h => ?_⟩
    · cases h; exact ⟨_, rfl, e⟩
    · cases h; exact ⟨_, rfl, e⟩
  | cat _ _ _ ih => exact ih
  | assoc => exact ⟨fun a h => ⟨a, h, .refl _⟩, fun a h => ⟨a, h, .refl _⟩⟩
  | _ => exact ⟨fun _ h => (by cases h), fun _ h => (by cases h)⟩

theorem eqv_last_hmac {t u : Term} (h : Eqv t u) :
    (∀ k a, lastPart t = .hmac k a → ∃ k' b, lastPart u = .hmac k' b ∧ Eqv k k' ∧ Eqv a b) ∧
    (∀ k b, lastPart u = .hmac k b → ∃ k' a, lastPart t = .hmac k' a ∧ Eqv k' k ∧ Eqv a b) := by
  induction h with
  | refl t => exact ⟨fun k a h => ⟨k, a, h, .refl _, .refl _⟩, fun k a h => ⟨k, a, h, .refl _, .refl _⟩⟩
  | symm _ ih =>
    refine ⟨fun k a h => ?_, fun k a h => ?_⟩
    · obtain ⟨k', b, h1, h2, h3⟩ := ih.2 k a h; exact ⟨k', b, h1, .symm h2, .symm h3⟩
    · obtain ⟨k', b, h1, h2, h3⟩ := ih.1 k a h; exact ⟨k', b, h1, .symm h2, .symm h3⟩
  | trans _ _ ih1 ih2 =>
    refine ⟨fun k a h => ?_, fun k a h => ?_⟩
    · obtain ⟨k', b, h1, h2, h3⟩ := ih1.1 k a h
      obtain ⟨k'', c, h4, h5, h6⟩ := ih2.1 k' b h1
      exact ⟨k'', c, h4, .trans h2 h5, .trans h3 h6⟩
    · obtain ⟨k', b, h1, h2, h3⟩ := ih2.2 k a h
      obtain ⟨k'', c, h4, h5, h6⟩ := ih1.2 k' b h1
      exact ⟨k'', c, h4, .trans h5 h2, .trans h6 h3⟩
  | hmac e1 e2 _ _ =>
    refine ⟨fun k a h => ?_, fun k a h => ?_⟩
    · cases h; exact ⟨_, _, rfl, e1, e2⟩
    · cases h; exact ⟨_, _, rfl, e1, e2⟩
  | cat _ _ _ ih => exact ih
  | assoc => exact ⟨fun k a h => ⟨k, a, h, .refl _, .refl _⟩, fun k a h => ⟨k, a, h, .refl _, .refl _⟩⟩
  | _ => exact ⟨fun _ _ h => (by cases h), fun _ _ h => (by cases h)⟩

/-! ### The signatures the attacker can get -/

section
variable (files : Nat → File) (corrupt lost known : Nat → Bool)

/-- The signature is one that has been made. -/
def Made (s m : Term) : Prop :=
  ∃ i m', Eqv s (secretKey i) ∧ HasSigned files i m' ∧ Eqv m (.sha512 (.cat (.bytes (ascii "sigtool signed message")) m'))

/-- No signature can be got out of the term unless it has been made, or the attacker knows the key. -/
def Clean : Term → Prop
  | .cat a b => Clean a ∧ Clean b
  | .take _ t => Clean t
  | .drop _ t => Clean t
  | .box k _ t _ => (look corrupt lost known k).pub = true → Clean t
  | .edSign s m => (look corrupt lost known s).pub = true ∨ Made files s m
  | _ => True

theorem clean_eqv {t u : Term} (h : Eqv t u) : Clean files corrupt lost known t ↔ Clean files corrupt lost known u := by
  induction h with
  | refl => exact Iff.rfl
  | symm _ ih => exact ih.symm
  | trans _ _ ih1 ih2 => exact ih1.trans ih2
  | assoc => simp only [Clean, and_assoc]
  | cat _ _ h1 h2 => simp only [Clean, h1, h2]
  | take _ h | drop _ h => simp only [Clean, h]
  | box e _ _ _ _ _ h _ => simp only [Clean, look_eqv corrupt lost known e, h]
  | edSign e1 e2 _ _ =>
    simp only [Clean, look_eqv corrupt lost known e1]
    refine or_congr_right ⟨fun ⟨i, m, h1, h2, h3⟩ => ⟨i, m, .trans (.symm e1) h1, h2, .trans (.symm e2) h3⟩,
      fun ⟨i, m, h1, h2, h3⟩ => ⟨i, m, .trans e1 h1, h2, .trans e2 h3⟩⟩
  | _ => simp only [Clean, and_self]

theorem knows_clean {K : Term → Prop} (hK : ∀ t, K t → (look corrupt lost known t).pub = true) (hC : ∀ t, K t → Clean files corrupt lost known t)
    {t : Term} (h : Knows K t) : Clean files corrupt lost known t := by
  induction h with
  | known h => exact hC _ h
  | eqv e _ ih => exact (clean_eqv files corrupt lost known e).mp ih
  | cat _ _ h1 h2 => exact ⟨h1, h2⟩
  | left _ h => exact h.1
  | right _ h => exact h.2
  | take _ h | drop _ h => exact h
  | join _ _ h _ => exact h
  | box _ _ _ _ _ _ h _ => exact fun _ => h
  | opened _ k h _ => exact h (knows_pub corrupt lost known hK k)
  | edSign k _ _ _ => exact .inl (knows_pub corrupt lost known hK k)
  | _ => trivial

theorem clean_cats (ts : List Term) (h : ∀ t ∈ ts, Clean files corrupt lost known t) : Clean files corrupt lost known (cats ts) := by
  induction ts with
  | nil => trivial
  | cons t ts ih => exact ⟨h t (by simp), ih fun t ht => h t (List.mem_cons_of_mem _ ht)⟩

theorem clean_body (n : Nat) (f : File) : ∀ (ks : List Nat) (i : Nat), Clean files corrupt lost known (body n f i ks) := by
  intro ks
  induction ks with
  | nil => intro i; trivial
  | cons k ks ih => intro i; exact ⟨trivial, fun _ => trivial, ih _⟩

theorem clean_start (bad told : Nat → Prop) (t : Term) (h : Start files bad told t) : Clean files corrupt lost known t := by
  cases h with
  | file n =>
    have hh : Clean files corrupt lost known (header n (files n)) := by
      refine ⟨trivial, trivial, trivial, fun _ => ?_, clean_cats _ _ _ _ _ ?_⟩
      · cases hs : (files n).sender with
        | none => trivial
        | some i => exact .inr ⟨i, _, .refl _, .header n hs, .refl _⟩
      · intro t ht
        obtain ⟨r, _, rfl⟩ := List.mem_map.mp ht
        exact ⟨trivial, fun _ => trivial, trivial⟩
    refine ⟨hh, trivial, clean_body _ _ _ _ _ _ _ _, ?_⟩
    rw [trailer]
    cases hs : (files n).sender with
    | none => trivial
    | some i => exact .inr ⟨i, _, .refl _, .trailer n hs, .refl _⟩
  | publicKey i => trivial
  | keyFile i salt => exact fun _ => ⟨trivial, trivial⟩
  | signature i m => exact .inr ⟨i, _, .refl _, .message m, .refl _⟩
  | seed i h => trivial
  | pass i h => trivial
  | plaintext n i h => trivial

end

theorem eqv_secretKey {i j : Nat} (h : Eqv (secretKey i) (secretKey j)) : i = j := by
  have := congrArg Look.pub (look_eqv (fun k => k == i) (fun _ => false) (fun _ => false) h)
  simp only [secretKey, Symbolic.seed, look, Look.plain, lookSecret, Bool.and_true, beq_self_eq_true] at this
  exact (beq_iff_eq.mp this.symm).symm

open Classical in
theorem signed_made (files : Nat → File) (bad told : Nat → Prop) (i : Nat) (hi : ¬ bad i) (m : Term)
    (h : Knows (Start files bad told) (Symbolic.signed i m)) : ∃ m', HasSigned files i m' ∧
      Eqv (.cat (.bytes (ascii "sigtool signed message")) m) (.cat (.bytes (ascii "sigtool signed message")) m') := by
  have := knows_clean files (fun i => decide (bad i)) (fun n => decide (∃ r ∈ (files n).rcpts, bad r.1)) (fun n => decide (told n)) (K := Start files bad told)
    (look_start _ _ _ files bad told (fun i => by simp) (fun n => by simp) (fun n => by simp)) (clean_start files _ _ _ bad told) h
  rcases this with h | ⟨j, m', h1, h2, h3⟩
  · simp only [secretKey, Symbolic.seed, look, Look.plain, lookSecret, Bool.and_true] at h
    exact absurd (by simpa using h) hi
  · have := eqv_secretKey h1
    subst this
    obtain ⟨b, hb, he⟩ := (eqv_sha512 h3).1 _ rfl
    cases hb
    exact ⟨m', h2, he⟩

/-- **C108** (header).  The attacker of C107, who may be a recipient: if he can compute the signature that identifies a person not in
`bad` as the sender of some header (with whatever ephemeral key, salt and root key), that person has made a file with the same
ephemeral key, salt and root key. -/
theorem C108_header (files : Nat → File) (bad told : Nat → Prop) (i : Nat) (hi : ¬ bad i) (t : Term)
    (h : Knows (Start files bad told) (Symbolic.signed i (.sha256 t))) : ∃ n, (files n).sender = some i ∧
      Eqv t (.cat (.bytes (ascii "SigTool" ++ [3])) (.cat (ephemeralPk n) (.cat (.bytes (files n).salt) (.secret (.root n))))) := by
  obtain ⟨m', h1, h2⟩ := signed_made files bad told i hi _ h
  obtain ⟨b, hb, he⟩ := (eqv_last_sha256 h2).1 t rfl
  cases h1 with
  | header n hn => cases hb; exact ⟨n, hn, he⟩
  | trailer n hn => cases hb
  | message m => cases hb

/-- **C108** (trailer).  If he can compute the signature for the contents `x` under the HMAC key `k`, that person has made a file with
exactly these contents and this HMAC key (which depends on all of its header). -/
theorem C108_trailer (files : Nat → File) (bad told : Nat → Prop) (i : Nat) (hi : ¬ bad i) (k x : Term)
    (h : Knows (Start files bad told) (Symbolic.signed i (.hmac k x))) : ∃ n, (files n).sender = some i ∧
      Eqv k (.drop 44 (bodyKeys n (files n))) ∧ Eqv x (macked n 0 (files n).sizes) := by
  obtain ⟨m', h1, h2⟩ := signed_made files bad told i hi _ h
  obtain ⟨k', b, hb, he⟩ := (eqv_last_hmac h2).1 k x rfl
  cases h1 with
  | header n hn => cases hb
  | trailer n hn => cases hb; exact ⟨n, hn, he⟩
  | message m => cases hb

end Sigtool
