import Verif.Props.SymbolicDemo
/-!
# C109: what it would take to find out who the recipients and the sender are (attacker who computes with terms)
-/

namespace Sigtool
open Spec
open Spec.Symbolic

open Classical in
/-- **C109** (recipients).  The attacker of C107, who may be the sender or one of the recipients: he cannot compute the secret shared with any
person outside `bad`, nor the key with which the root key would be wrapped for that person, with whatever nonce.  So whichever persons
outside `bad` the recipients are, he cannot open what is wrapped for them, nor wrap the root key (which he may know) for a candidate to see
if this is what the file contains. -/
theorem C109_recipients (files : Nat → File) (bad told : Nat → Prop) (n j : Nat) (hj : ¬ bad j) :
    ¬ Knows (Start files bad told) (.mul (.clamp (.secret (.ephemeral n))) (.mont (.edPub (Symbolic.seed j)))) ∧
    ∀ salt : Term, ¬ Knows (Start files bad told) (.take 32 (.hkdf (.mul (.clamp (.secret (.ephemeral n))) (.mont (.edPub (Symbolic.seed j))))
      salt (ascii "Receiver Key") 44)) := by
  have key := fun t => knows_pub (fun i => decide (bad i)) (fun n => decide (∃ r ∈ (files n).rcpts, bad r.1)) (fun n => decide (told n))
    (K := Start files bad told) (look_start _ _ _ files bad told (fun i => by simp) (fun n => by simp) (fun n => by simp)) (t := t)
  refine ⟨fun h => ?_, fun salt h => ?_⟩
  · have := key _ h
    simp [Symbolic.seed, look, Look.plain, Look.point, lookSecret, hidden, hj] at this
  · have := key _ h
    simp [Symbolic.seed, look, Look.plain, Look.point, lookSecret, hidden, hj] at this

open Classical in
/-- **C109** (sender).  If none of the recipients is in `bad`, the attacker can compute neither of the two messages that the sender of the
file has signed, although he has the second signature and may know the plaintext: so he cannot check signatures against the public key
of a candidate.  He does not even get to see whether the header holds a signature or zeroes. -/
theorem C109_sender (files : Nat → File) (bad told : Nat → Prop) (n : Nat) (hn : ∀ r ∈ (files n).rcpts, ¬ bad r.1) :
    ¬ Knows (Start files bad told) (.sha512 (.cat (.bytes (ascii "sigtool signed message"))
      (.sha256 (.cat (.bytes (ascii "SigTool" ++ [3])) (.cat (ephemeralPk n) (.cat (.bytes (files n).salt) (.secret (.root n)))))))) ∧
    ¬ Knows (Start files bad told) (.sha512 (.cat (.bytes (ascii "sigtool signed message"))
      (.hmac (.drop 44 (bodyKeys n (files n))) (macked n 0 (files n).sizes)))) ∧
    ¬ Knows (Start files bad told) (.take 32 (.hkdf (.secret (.root n)) (.bytes (files n).salt) (ascii "Sender Sig") 44)) := by
  have key := fun t => knows_pub (fun i => decide (bad i)) (fun n => decide (∃ r ∈ (files n).rcpts, bad r.1)) (fun n => decide (told n))
    (K := Start files bad told) (look_start _ _ _ files bad told (fun i => by simp) (fun n => by simp) (fun n => by simp)) (t := t)
  have hlost : decide (∃ r ∈ (files n).rcpts, bad r.1) = false := by
    rw [decide_eq_false_iff_not]; rintro ⟨r, hr, h⟩; exact hn r hr h
  refine ⟨fun h => ?_, fun h => ?_, fun h => ?_⟩
  · have := key _ h
    simp only [look, Look.plain, lookSecret, hlost, Bool.and_false, Bool.false_eq_true] at this
  · have := key _ h
    simp only [bodyKeys, look, Look.plain, lookSecret, hlost, Bool.and_false, Bool.false_and, Bool.false_eq_true] at this
  · have := key _ h
    simp only [look, Look.plain, lookSecret, hlost, Bool.false_and, Bool.false_eq_true] at this

/-- In the demo session (Alice sends to Bob and Carol): Carol cannot test whether Bob is the other recipient, nor anyone else; and outsiders
cannot test whether Alice is the sender, even if they know the plaintext. Bob can compute the shared secret. -/
example : (¬ Knows (Start (fun _ => Demo.file) (fun i => i = 3) (fun _ => True))
      (.mul (.clamp (.secret (.ephemeral 0))) (.mont (.edPub (Symbolic.seed 2))))) ∧
    (¬ Knows (Start (fun _ => Demo.file) (fun i => 3 < i) (fun _ => True)) (.sha512 (.cat (.bytes (ascii "sigtool signed message"))
      (.hmac (.drop 44 (bodyKeys 0 Demo.file)) (macked 0 0 [4, 2]))))) ∧
    Knows (Start (fun _ => Demo.file) (fun i => i = 2) (fun _ => True))
      (.mul (.clamp (.secret (.ephemeral 0))) (.mont (.edPub (Symbolic.seed 2)))) := by
  refine ⟨(C109_recipients _ _ _ 0 2 (by decide)).1, (C109_sender (fun _ => Demo.file) _ _ 0 (by decide)).2.1, ?_⟩
  refine .eqv (.trans (.swap _ _ _) (.mul (.refl _) (.symm (.mont _)))) (.mul (.clamp (.take (.sha512 (.known (.seed 2 rfl))))) ?_)
  exact (Knows.known (Start.file (corrupt := fun i => i = 2) (told := fun _ => True) (files := fun _ => Demo.file) 0)).left.right.left

end Sigtool
