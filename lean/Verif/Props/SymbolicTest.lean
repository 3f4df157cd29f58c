import Verif.Spec.SymbolicTest
import Verif.Props.SymbolicAnon
/-!
# C116: nobody can tell who the recipients and the sender are, or check a guess about the plaintext (attacker who computes with terms)
-/

namespace Sigtool
open Spec
open Spec.Symbolic

/-! ### Recipes compute what the attacker can know -/

/-- **C116** (the attacker is that of C107).  What some recipe gives is what an attacker can compute from the things he is handed. -/
theorem C116_recipes (len : Secret → Nat) (given : Handle → Term → Prop) (t : Term) :
    (∃ R, Gives len given R t) ↔ Knows (fun u => ∃ h, given h u) t := by
  constructor
  · rintro ⟨R, h⟩
    induction h with
    | given h => exact .known ⟨_, h⟩
    | eqv e _ ih => exact .eqv e ih
    | bytes b => exact .bytes b
    | cat _ _ h1 h2 => exact .cat h1 h2
    | join _ _ h1 h2 => exact .join h1 h2
    | take _ h => exact .take h
    | drop _ h => exact .drop h
    | left _ h => exact .left h
    | right _ h => exact .right h
    | sha256 _ h => exact .sha256 h
    | sha512 _ h => exact .sha512 h
    | hmac _ _ h1 h2 => exact .hmac h1 h2
    | hkdf _ _ h1 h2 => exact .hkdf h1 h2
    | scrypt _ _ h1 h2 => exact .scrypt h1 h2
    | box _ _ _ _ h1 h2 h3 h4 => exact .box h1 h2 h3 h4
    | opened _ _ h1 h2 => exact .opened h2 h1
    | edPub _ h => exact .edPub h
    | edSign _ _ h1 h2 => exact .edSign h1 h2
    | clamp _ h => exact .clamp h
    | base => exact .base
    | mul _ _ h1 h2 => exact .mul h1 h2
    | mont _ h => exact .mont h
  · intro h
    induction h with
    | known h => obtain ⟨x, h⟩ := h; exact ⟨_, .given h⟩
    | eqv e _ ih => obtain ⟨_, h⟩ := ih; exact ⟨_, .eqv e h⟩
    | bytes b => exact ⟨_, .bytes b⟩
    | cat _ _ h1 h2 => obtain ⟨_, h1⟩ := h1; obtain ⟨_, h2⟩ := h2; exact ⟨_, .cat h1 h2⟩
    | left _ h => obtain ⟨_, h⟩ := h; exact ⟨_, .left h⟩
    | right _ h => obtain ⟨_, h⟩ := h; exact ⟨_, .right h⟩
    | take _ h => obtain ⟨_, h⟩ := h; exact ⟨_, .take h⟩
    | drop _ h => obtain ⟨_, h⟩ := h; exact ⟨_, .drop h⟩
    | join _ _ h1 h2 => obtain ⟨_, h1⟩ := h1; obtain ⟨_, h2⟩ := h2; exact ⟨_, .join h1 h2⟩
    | sha256 _ h => obtain ⟨_, h⟩ := h; exact ⟨_, .sha256 h⟩
    | sha512 _ h => obtain ⟨_, h⟩ := h; exact ⟨_, .sha512 h⟩
    | hmac _ _ h1 h2 => obtain ⟨_, h1⟩ := h1; obtain ⟨_, h2⟩ := h2; exact ⟨_, .hmac h1 h2⟩
    | hkdf _ _ h1 h2 => obtain ⟨_, h1⟩ := h1; obtain ⟨_, h2⟩ := h2; exact ⟨_, .hkdf h1 h2⟩
    | scrypt _ _ h1 h2 => obtain ⟨_, h1⟩ := h1; obtain ⟨_, h2⟩ := h2; exact ⟨_, .scrypt h1 h2⟩
    | box _ _ _ _ h1 h2 h3 h4 =>
      obtain ⟨_, h1⟩ := h1; obtain ⟨_, h2⟩ := h2; obtain ⟨_, h3⟩ := h3; obtain ⟨_, h4⟩ := h4; exact ⟨_, .box h1 h2 h3 h4⟩
    | opened _ _ h1 h2 => obtain ⟨_, h1⟩ := h1; obtain ⟨_, h2⟩ := h2; exact ⟨_, .opened h2 h1⟩
    | edPub _ h => obtain ⟨_, h⟩ := h; exact ⟨_, .edPub h⟩
    | edSign _ _ h1 h2 => obtain ⟨_, h1⟩ := h1; obtain ⟨_, h2⟩ := h2; exact ⟨_, .edSign h1 h2⟩
    | clamp _ h => obtain ⟨_, h⟩ := h; exact ⟨_, .clamp h⟩
    | base => exact ⟨_, .base⟩
    | mul _ _ h1 h2 => obtain ⟨_, h1⟩ := h1; obtain ⟨_, h2⟩ := h2; exact ⟨_, .mul h1 h2⟩
    | mont _ h => obtain ⟨_, h⟩ := h; exact ⟨_, .mont h⟩

theorem Spec.Symbolic.Eqv.size {len : Secret → Nat} {t u : Term} (h : Eqv t u) : t.size len = u.size len := by
  induction h with
  | refl => rfl
  | symm _ ih => exact ih.symm
  | trans _ _ h1 h2 => exact h1.trans h2
  | bytes_cat | bytes_take | bytes_drop | assoc => simp [Term.size, Nat.add_assoc]
  | swap | mont | clamp_clamp => rfl
  | cat _ _ h1 h2 => simp only [Term.size, h1, h2]
  | take _ h | drop _ h | clamp _ h => simp only [Term.size, h]
  | sha256 | sha512 | hmac | hkdf | scrypt | edPub | edSign | mul | montc => rfl
  | box _ _ _ _ _ _ h _ => simp only [Term.size, h]

/-! ### What distinguishes terms -/

/-- The secret occurs in the term. -/
def occ (s : Secret) : Term → Prop
  | .bytes _ => False
  | .secret u => u = s
  | .cat a b => occ s a ∨ occ s b
  | .take _ t => occ s t
  | .drop _ t => occ s t
  | .sha256 t => occ s t
  | .sha512 t => occ s t
  | .hmac k t => occ s k ∨ occ s t
  | .hkdf a b _ _ => occ s a ∨ occ s b
  | .scrypt a b => occ s a ∨ occ s b
  | .box k n t ad => occ s k ∨ occ s n ∨ occ s t ∨ occ s ad
  | .edPub t => occ s t
  | .edSign a b => occ s a ∨ occ s b
  | .clamp t => occ s t
  | .base => False
  | .mul a b => occ s a ∨ occ s b
  | .mont t => occ s t

theorem occ_eqv {s : Secret} {t u : Term} (h : Eqv t u) : occ s t ↔ occ s u := by
  induction h with
  | refl => rfl
  | symm _ ih => exact ih.symm
  | trans _ _ h1 h2 => exact h1.trans h2
  | bytes_cat | bytes_take | bytes_drop | assoc => simp [occ, or_assoc]
  | swap => simp only [occ]; exact or_left_comm
  | mont => simp [occ]
  | clamp_clamp => rfl
  | cat _ _ h1 h2 | hmac _ _ h1 h2 | hkdf _ _ h1 h2 | scrypt _ _ h1 h2 | edSign _ _ h1 h2 | mul _ _ h1 h2 => simp only [occ, h1, h2]
  | box _ _ _ _ h1 h2 h3 h4 => simp only [occ, h1, h2, h3, h4]
  | take _ h | drop _ h | sha256 _ h | sha512 _ h | edPub _ h | clamp _ h | montc _ h => simpa only [occ] using h

/-- The bytes of a term without secrets and functions. -/
def lit : Term → Option Bytes
  | .bytes b => some b
  | .cat a b => do return (← lit a) ++ (← lit b)
  | .take n t => (lit t).map (·.take n)
  | .drop n t => (lit t).map (·.drop n)
  | _ => none

theorem lit_eqv {t u : Term} (h : Eqv t u) : lit t = lit u := by
  induction h with
  | refl => rfl
  | symm _ ih => exact ih.symm
  | trans _ _ h1 h2 => exact h1.trans h2
  | bytes_cat | bytes_take | bytes_drop | swap | mont | clamp_clamp => rfl
  | assoc a b c => simp only [lit]; cases lit a <;> cases lit b <;> cases lit c <;> simp
  | cat _ _ h1 h2 => simp only [lit, h1, h2]
  | take _ h | drop _ h => simp only [lit, h]
  | _ => rfl

/-- `b` is hashed with SHA-256 somewhere in the term. -/
def hashes (b : Bytes) : Term → Prop
  | .bytes _ => False
  | .secret _ => False
  | .cat x y => hashes b x ∨ hashes b y
  | .take _ t => hashes b t
  | .drop _ t => hashes b t
  | .sha256 t => lit t = some b ∨ hashes b t
  | .sha512 t => hashes b t
  | .hmac k t => hashes b k ∨ hashes b t
  | .hkdf x y _ _ => hashes b x ∨ hashes b y
  | .scrypt x y => hashes b x ∨ hashes b y
  | .box k n t ad => hashes b k ∨ hashes b n ∨ hashes b t ∨ hashes b ad
  | .edPub t => hashes b t
  | .edSign x y => hashes b x ∨ hashes b y
  | .clamp t => hashes b t
  | .base => False
  | .mul x y => hashes b x ∨ hashes b y
  | .mont t => hashes b t

theorem hashes_eqv {b : Bytes} {t u : Term} (h : Eqv t u) : hashes b t ↔ hashes b u := by
  induction h with
  | refl => rfl
  | symm _ ih => exact ih.symm
  | trans _ _ h1 h2 => exact h1.trans h2
  | bytes_cat | bytes_take | bytes_drop | assoc => simp [hashes, or_assoc]
  | swap => simp only [hashes]; exact or_left_comm
  | mont => simp [hashes]
  | clamp_clamp => rfl
  | cat _ _ h1 h2 | hmac _ _ h1 h2 | hkdf _ _ h1 h2 | scrypt _ _ h1 h2 | edSign _ _ h1 h2 | mul _ _ h1 h2 => simp only [hashes, h1, h2]
  | box _ _ _ _ h1 h2 h3 h4 => simp only [hashes, h1, h2, h3, h4]
  | sha256 e h => simp only [hashes, h, lit_eqv e]
  | take _ h | drop _ h | sha512 _ h | edPub _ h | clamp _ h | montc _ h => simpa only [hashes] using h

/-! ### From one world to the other -/

/-- What the wrapping key and its nonce are cut from. -/
def wrapOkm (n : Nat) (f : File) (r : Nat × Bytes) : Term :=
  .hkdf (.mul (.clamp (.secret (.ephemeral n))) (.mont (.edPub (Symbolic.seed r.1))))
    (.sha256 (.cat (.bytes f.salt) (.bytes r.2))) (ascii "Receiver Key") 44

def senderOkm (n : Nat) (f : File) : Term := .hkdf (.secret (.root n)) (.bytes f.salt) (ascii "Sender Sig") 44

def senderMessage (n : Nat) (f : File) : Term := match f.sender with | none => .bytes unsigned | some i => headerSignature n f i

def chunkBox (n : Nat) (f : File) (i : Nat) (ad : Bytes) : Term :=
  .box (.take 32 (.drop 12 (bodyKeys n f))) (.cat (.bytes (be32 i)) (.drop 4 (.take 12 (bodyKeys n f))))
        (.secret (.chunk n i)) (.bytes ad)

def trailerMessage (n : Nat) (f : File) : Term :=
  .sha512 (.cat (.bytes (ascii "sigtool signed message")) (.hmac (.drop 44 (bodyKeys n f)) (macked n 0 f.sizes)))

open Classical in
noncomputable def pick (S : Term → Prop) (t : Term) : Term := if h : ∃ u, S u then h.choose else t

theorem pick_pos {S : Term → Prop} {t u : Term} (hu : S u) (h : ∀ v, S v → v = u) : pick S t = u := by
  have hx : ∃ u, S u := ⟨u, hu⟩
  rw [pick, dif_pos hx]
  exact h _ hx.choose_spec

theorem pick_neg {S : Term → Prop} {t : Term} (h : ∀ v, ¬ S v) : pick S t = t := by
  rw [pick, dif_neg (fun ⟨v, hv⟩ => h v hv)]

theorem pick_cases (S : Term → Prop) (t : Term) : S (pick S t) ∨ (pick S t = t ∧ ∀ v, ¬ S v) := by
  by_cases h : ∃ u, S u
  · left; rw [pick, dif_pos h]; exact h.choose_spec
  · right; exact ⟨by rw [pick, dif_neg h], fun v hv => h ⟨v, hv⟩⟩

theorem pick_eqv (S : Term → Prop) {t u : Term} (h : Eqv t u) : Eqv (pick S t) (pick S u) := by
  by_cases hx : ∃ v, S v
  · rw [pick, pick, dif_pos hx, dif_pos hx]; exact .refl _
  · rw [pick, pick, dif_neg hx, dif_neg hx]; exact h

section
variable (bad : Nat → Prop) (w w' : World)

/-- None of the recipients is in `bad`. -/
def Closed (f : File) : Prop := ∀ r ∈ f.rcpts, ¬ bad r.1

/-- The boxes that are different in the two worlds, with what they are in the second one. -/
inductive Special (k t ad : Term) : Term → Prop
  | wrapped (n r r') : (r, r') ∈ (w.files n).rcpts.zip (w'.files n).rcpts → ¬ bad r.1 → Eqv k (.take 32 (wrapOkm n (w.files n) r)) →
      Eqv t (.secret (.root n)) → Special k t ad (wrapped n (w'.files n) r')
  | sender (n) : Closed bad (w.files n) → Eqv k (.take 32 (senderOkm n (w.files n))) → Eqv t (senderMessage n (w.files n)) →
      Special k t ad (Symbolic.senderField n (w'.files n))
  | chunk (n i b) : Closed bad (w.files n) → Eqv k (.take 32 (.drop 12 (bodyKeys n (w.files n)))) → Eqv t (.secret (.chunk n i)) →
      Eqv ad (.bytes b) → Special k t ad (chunkBox n (w'.files n) i b)

/-- The same for signatures. -/
inductive SpecialSig (m : Term) : Term → Prop
  | trailer (n) : Closed bad (w.files n) → (w.files n).sender.isSome → Eqv m (trailerMessage n (w.files n)) →
      SpecialSig m (trailer n (w'.files n))

open Classical in
noncomputable def moveSecret : Secret → Secret
  | .chunk n i => if w.told n = .truth ∧ w'.told n = .lie then .decoy n i else .chunk n i
  | .decoy n i => if w.told n = .lie ∧ w'.told n = .truth then .chunk n i else .decoy n i
  | s => s

/-- The term of the second world that corresponds to one of the first. -/
noncomputable def move : Term → Term
  | .bytes b => .bytes b
  | .secret s => .secret (moveSecret w w' s)
  | .cat a b => .cat (move a) (move b)
  | .take n t => .take n (move t)
  | .drop n t => .drop n (move t)
  | .sha256 t => .sha256 (move t)
  | .sha512 t => .sha512 (move t)
  | .hmac k t => .hmac (move k) (move t)
  | .hkdf a b i n => .hkdf (move a) (move b) i n
  | .scrypt a b => .scrypt (move a) (move b)
  | .box k n t ad => pick (Special bad w w' k t ad) (.box (move k) (move n) (move t) (move ad))
  | .edPub s => .edPub (move s)
  | .edSign s m => pick (SpecialSig bad w w' m) (.edSign (move s) (move m))
  | .clamp t => .clamp (move t)
  | .base => .base
  | .mul s p => .mul (move s) (move p)
  | .mont p => .mont (move p)

theorem Special.congr {k k' t t' a a' : Term} (hk : Eqv k k') (ht : Eqv t t') (ha : Eqv a a') {u : Term}
    (h : Special bad w w' k t a u) : Special bad w w' k' t' a' u := by
  cases h with
  | wrapped n r r' h1 h2 h3 h4 => exact .wrapped n r r' h1 h2 (.trans hk.symm h3) (.trans ht.symm h4)
  | sender n h1 h2 h3 => exact .sender n h1 (.trans hk.symm h2) (.trans ht.symm h3)
  | chunk n i b h1 h2 h3 h4 => exact .chunk n i b h1 (.trans hk.symm h2) (.trans ht.symm h3) (.trans ha.symm h4)

theorem SpecialSig.congr {m m' : Term} (hm : Eqv m m') {u : Term} (h : SpecialSig bad w w' m u) : SpecialSig bad w w' m' u := by
  cases h with
  | trailer n h1 h2 h3 => exact .trailer n h1 h2 (.trans hm.symm h3)

theorem move_eqv {t u : Term} (h : Eqv t u) : Eqv (move bad w w' t) (move bad w w' u) := by
  induction h with
  | refl => exact .refl _
  | symm _ ih => exact .symm ih
  | trans _ _ h1 h2 => exact .trans h1 h2
  | bytes_cat a b => exact .bytes_cat a b
  | bytes_take n b => exact .bytes_take n b
  | bytes_drop n b => exact .bytes_drop n b
  | assoc => exact .assoc _ _ _
  | swap => exact .swap _ _ _
  | mont => exact .mont _
  | clamp_clamp => exact .clamp_clamp _
  | cat _ _ h1 h2 => exact .cat h1 h2
  | take _ h => exact .take h
  | drop _ h => exact .drop h
  | sha256 _ h => exact .sha256 h
  | sha512 _ h => exact .sha512 h
  | hmac _ _ h1 h2 => exact .hmac h1 h2
  | hkdf _ _ h1 h2 => exact .hkdf h1 h2
  | scrypt _ _ h1 h2 => exact .scrypt h1 h2
  | @box k k' n n' t t' a a' e1 e2 e3 e4 h1 h2 h3 h4 =>
    have : Special bad w w' k t a = Special bad w w' k' t' a' := by
      funext u; exact propext ⟨.congr bad w w' e1 e3 e4, .congr bad w w' e1.symm e3.symm e4.symm⟩
    simp only [move, this]
    exact pick_eqv _ (.box h1 h2 h3 h4)
  | edPub _ h => exact .edPub h
  | @edSign s s' m m' e1 e2 h1 h2 =>
    have : SpecialSig bad w w' m = SpecialSig bad w w' m' := by
      funext u; exact propext ⟨.congr bad w w' e2, .congr bad w w' e2.symm⟩
    simp only [move, this]
    exact pick_eqv _ (.edSign h1 h2)
  | clamp _ h => exact .clamp h
  | mul _ _ h1 h2 => exact .mul h1 h2
  | montc _ h => exact .montc h

end

/-! ### Which secrets occur where -/

theorem occ_wrapOkm (s : Secret) (n : Nat) (f : File) (r : Nat × Bytes) : occ s (wrapOkm n f r) ↔ s = .ephemeral n ∨ s = .seed r.1 := by
  simp only [wrapOkm, Symbolic.seed, occ, or_false, eq_comm]

theorem hashes_wrapOkm (b : Bytes) (n : Nat) (f : File) (r : Nat × Bytes) : hashes b (wrapOkm n f r) ↔ f.salt ++ r.2 = b := by
  simp [wrapOkm, Symbolic.seed, hashes, lit]

theorem occ_senderOkm (s : Secret) (n : Nat) (f : File) : occ s (senderOkm n f) ↔ s = .root n := by
  simp only [senderOkm, occ, or_false, eq_comm]

theorem occ_bodyKeys (n : Nat) (f : File) : occ (.root n) (bodyKeys n f) ∧ occ (.ephemeral n) (bodyKeys n f) := by
  constructor
  · exact .inl rfl
  · exact .inr (.inr (.inl (.inl rfl)))

theorem occ_cats (s : Secret) (ts : List Term) : occ s (cats ts) ↔ ∃ t ∈ ts, occ s t := by
  induction ts with
  | nil => simp [cats, occ]
  | cons t ts ih =>
    show occ s t ∨ occ s (cats ts) ↔ _
    rw [ih]; simp

/-- The root key in a header is that of its file. -/
theorem occ_header (m n : Nat) (f : File) (h : occ (.root m) (header n f)) : m = n := by
  simp only [header, ephemeralPk, Symbolic.senderField, occ, occ_cats, List.mem_map, or_false, false_or] at h
  rcases h with h | h | h
  · simp_all
  · cases hs : f.sender <;> rw [hs] at h <;> simp [headerSignature, Symbolic.signed, ephemeralPk, secretKey, Symbolic.seed, occ] at h <;> simp_all
  · obtain ⟨t, ⟨r, _, rfl⟩, h⟩ := h
    simp [wrapped, Symbolic.seed, occ] at h
    simp_all

theorem occ_macked (m n : Nat) : ∀ (ks : List Nat) (i : Nat), ¬ occ (.root m) (macked n i ks)
  | [], _, h => h
  | _ :: ks, i, h => by
    simp only [macked, occ, false_or] at h
    rcases h with h | h
    · cases h
    · exact occ_macked m n ks _ h

theorem occ_trailerMessage (m n : Nat) (f : File) : occ (.root m) (trailerMessage n f) ↔ m = n := by
  constructor
  · intro h
    simp only [trailerMessage, bodyKeys, occ, false_or] at h
    rcases h with (h | h) | h
    · cases h; rfl
    · exact occ_header m n f h
    · exact absurd h (occ_macked m n _ _)
  · rintro rfl
    exact .inr (.inl (.inl rfl))

/-! ### The boxes that move -/

section
variable {bad : Nat → Prop} {w w' : World}

theorem zip_unique (A : Alike bad w w') (n : Nat) {r r' q q' : Nat × Bytes}
    (h1 : (r, r') ∈ (w.files n).rcpts.zip (w'.files n).rcpts) (h2 : (q, q') ∈ (w.files n).rcpts.zip (w'.files n).rcpts)
    (h : r.2 = q.2) : r' = q' := by
  have hn := A.nonces n
  revert h1 h2 hn
  generalize (w.files n).rcpts = a
  generalize (w'.files n).rcpts = b
  intro h1 h2 hn
  induction a generalizing b with
  | nil => simp at h1
  | cons x xs ih =>
    cases b with
    | nil => simp at h1
    | cons y ys =>
      simp only [List.zip_cons_cons, List.mem_cons, Prod.mk.injEq, List.map_cons, List.nodup_cons] at h1 h2 hn
      rcases h1 with ⟨rfl, rfl⟩ | h1 <;> rcases h2 with ⟨rfl, rfl⟩ | h2
      · rfl
      · exact absurd (List.mem_map.mpr ⟨q, (List.of_mem_zip h2).1, h.symm⟩) hn.1
      · exact absurd (List.mem_map.mpr ⟨r, (List.of_mem_zip h1).1, h⟩) hn.1
      · exact ih ys h1 h2 hn.2

/-- A key with which the root key is wrapped does not occur anywhere else. -/
theorem Special.unique (A : Alike bad w w') {k t ad u v : Term} (h1 : Special bad w w' k t ad u) (h2 : Special bad w w' k t ad v) : u = v := by
  cases h1 with
  | wrapped n r r' a1 a2 a3 a4 =>
    cases h2 with
    | wrapped m q q' b1 b2 b3 b4 =>
      have e : m = n := by
        have := (occ_eqv (s := .root n) (.trans a4.symm b4)).mp rfl
        cases this; rfl
      subst e
      have hh : (w.files m).salt ++ q.2 = (w.files m).salt ++ r.2 := by
        have := (hashes_eqv (b := (w.files m).salt ++ r.2) (.trans a3.symm b3)).mp
        simp only [hashes, hashes_wrapOkm] at this
        exact this trivial
      rw [zip_unique A m a1 b1 (List.append_cancel_left hh).symm]
    | sender m b1 b2 b3 =>
      have := (occ_eqv (s := .ephemeral n) (.trans a3.symm b2)).mp
      simp only [occ, occ_wrapOkm, occ_senderOkm] at this
      simp at this
    | chunk m i b b1 b2 b3 b4 =>
      have := (occ_eqv (s := .root n) (.trans a4.symm b3)).mp rfl
      cases this
  | sender n a1 a2 a3 =>
    cases h2 with
    | wrapped m q q' b1 b2 b3 b4 =>
      have := (occ_eqv (s := .ephemeral m) (.trans a2.symm b3)).mpr
      simp only [occ, occ_wrapOkm, occ_senderOkm] at this
      simp at this
    | sender m b1 b2 b3 =>
      have := (occ_eqv (s := .root n) (.trans a2.symm b2)).mp
      simp only [occ, occ_senderOkm, Secret.root.injEq, true_imp_iff] at this
      rw [this]
    | chunk m i b b1 b2 b3 b4 =>
      have := (occ_eqv (s := .ephemeral m) (.trans a2.symm b2)).mpr
      simp only [occ, (occ_bodyKeys m _).2, occ_senderOkm] at this
      simp at this
  | chunk n i b a1 a2 a3 a4 =>
    cases h2 with
    | wrapped m q q' b1 b2 b3 b4 =>
      have := (occ_eqv (s := .root m) (.trans a3.symm b4)).mpr rfl
      cases this
    | sender m b1 b2 b3 =>
      have := (occ_eqv (s := .ephemeral n) (.trans a2.symm b2)).mp
      simp only [occ, (occ_bodyKeys n _).2, occ_senderOkm] at this
      simp at this
    | chunk m j c b1 b2 b3 b4 =>
      have e := (occ_eqv (s := .chunk n i) (.trans a3.symm b3)).mp rfl
      cases e
      have := lit_eqv (.trans a4.symm b4)
      simp only [lit, Option.some.injEq] at this
      rw [this]

theorem SpecialSig.unique {m u v : Term} (h1 : SpecialSig bad w w' m u) (h2 : SpecialSig bad w w' m v) : u = v := by
  cases h1 with
  | trailer n a1 a2 a3 =>
    cases h2 with
    | trailer m b1 b2 b3 =>
      have := (occ_eqv (s := .root n) (.trans a3.symm b3)).mp
      simp only [occ_trailerMessage, true_imp_iff] at this
      rw [this]

theorem move_special (A : Alike bad w w') {k n t ad u : Term} (h : Special bad w w' k t ad u) : move bad w w' (.box k n t ad) = u :=
  pick_pos h fun _ hv => hv.unique A h

theorem move_box {k n t ad : Term} (h : ∀ u, ¬ Special bad w w' k t ad u) :
    move bad w w' (.box k n t ad) = .box (move bad w w' k) (move bad w w' n) (move bad w w' t) (move bad w w' ad) := pick_neg h

theorem move_specialSig {s m u : Term} (h : SpecialSig bad w w' m u) : move bad w w' (.edSign s m) = u :=
  pick_pos h fun _ hv => hv.unique h

theorem move_edSign {s m : Term} (h : ∀ u, ¬ SpecialSig bad w w' m u) :
    move bad w w' (.edSign s m) = .edSign (move bad w w' s) (move bad w w' m) := pick_neg h

/-! ### The attacker does not know the keys of the boxes that move -/

open Classical in
/-- What the attacker may know of a term. -/
noncomputable def may (bad : Nat → Prop) (w : World) (t : Term) : Bool :=
  (look (fun i => decide (bad i)) (fun n => decide (∃ r ∈ (w.files n).rcpts, bad r.1)) (fun _ => true) t).pub

theorem may_eqv {t u : Term} (h : Eqv t u) : may bad w t = may bad w u := by
  classical
  simp only [may, look_eqv _ _ _ h]

theorem closed_lost {n : Nat} (h : Closed bad (w.files n)) : ¬ ∃ r ∈ (w.files n).rcpts, bad r.1 := fun ⟨r, hr, hb⟩ => h r hr hb

theorem Special.secret {k t ad u : Term} (h : Special bad w w' k t ad u) : may bad w k = false := by
  classical
  cases h with
  | wrapped n r r' h1 h2 h3 h4 =>
    rw [may_eqv h3]
    simp [may, wrapOkm, Symbolic.seed, look, Look.plain, Look.point, lookSecret, Sigtool.hidden, h2]
    decide
  | sender n h1 h2 h3 =>
    rw [may_eqv h2]
    have := closed_lost h1
    simp only [may, senderOkm, look, Look.plain, lookSecret, decide_eq_false this, Bool.false_and]
  | chunk n i b h1 h2 h3 h4 =>
    rw [may_eqv h2]
    have := closed_lost h1
    simp only [may, bodyKeys, look, Look.plain, lookSecret, decide_eq_false this, Bool.false_and]

theorem SpecialSig.secret {m u : Term} (h : SpecialSig bad w w' m u) : may bad w m = false := by
  classical
  cases h with
  | trailer n h1 h2 h3 =>
    rw [may_eqv h3]
    have := closed_lost h1
    simp only [may, trailerMessage, bodyKeys, look, Look.plain, lookSecret, decide_eq_false this, Bool.false_and, Bool.and_false]

theorem gives_may {len : Secret → Nat} {R : Recipe} {t : Term} (h : Gives len (w.Given bad) R t) : may bad w t = true := by
  classical
  refine knows_pub _ _ _ (K := fun u => ∃ h, w.Given bad h u) ?_ ((C116_recipes len _ t).mp ⟨R, h⟩)
  rintro u ⟨h, hu⟩
  have st := look_start (fun i => decide (bad i)) (fun n => decide (∃ r ∈ (w.files n).rcpts, bad r.1)) (fun _ => true) w.files bad
    (fun _ => True) (fun i => by simp) (fun n => by simp) (fun n => by simp)
  cases hu with
  | file n => exact st _ (.file n)
  | publicKey i => exact st _ (.publicKey i)
  | keyFile i salt => exact st _ (.keyFile i salt)
  | signature i m => exact st _ (.signature i m)
  | seed i h => exact st _ (.seed i h)
  | pass i h => exact st _ (.pass i h)
  | truth n i h => exact st _ (.plaintext n i trivial)
  | lie n i h => rfl

/-! ### What the attacker is handed moves from one world to the other -/

theorem Spec.Symbolic.Alike.closed (A : Alike bad w w') (n : Nat) (h : Closed bad (w.files n)) : Closed bad (w'.files n) := by
  have := A.rcpts n
  unfold Closed at h ⊢
  revert this h
  generalize (w.files n).rcpts = a
  generalize (w'.files n).rcpts = b
  intro h h2
  induction h2 with
  | nil => intro r hr; cases hr
  | cons h1 _ ih =>
    intro r hr
    rcases List.mem_cons.mp hr with rfl | hr
    · rcases h1.2 with e | e
      · rw [← e]; exact h _ (List.mem_cons_self)
      · exact e.2
    · exact ih (fun r hr => h r (List.mem_cons_of_mem _ hr)) r hr

theorem Spec.Symbolic.Alike.length (A : Alike bad w w') (n : Nat) : (w.files n).rcpts.length = (w'.files n).rcpts.length := (A.rcpts n).length_eq

theorem move_ephemeral (n : Nat) : move bad w w' (ephemeralPk n) = ephemeralPk n := rfl

theorem move_secretKey (i : Nat) : move bad w w' (secretKey i) = secretKey i := rfl

theorem move_wrapped (A : Alike bad w w') (n : Nat) {r r' : Nat × Bytes} (h : (r, r') ∈ (w.files n).rcpts.zip (w'.files n).rcpts)
    (hr : r.2 = r'.2 ∧ (r.1 = r'.1 ∨ (¬ bad r.1 ∧ ¬ bad r'.1))) :
    move bad w w' (wrapped n (w.files n) r) = wrapped n (w'.files n) r' := by
  by_cases hb : bad r.1
  · have e : r = r' := by
      rcases hr.2 with e | e
      · exact Prod.ext e hr.1
      · exact absurd hb e.1
    subst e
    have hs : ∀ u, ¬ Special bad w w' (.take 32 (wrapOkm n (w.files n) r)) (.secret (.root n)) (.edPub (Symbolic.seed r.1)) u := by
      intro u hu
      cases hu with
      | wrapped m q q' b1 b2 b3 b4 =>
        have := (occ_eqv (s := .seed r.1) b3).mp
        simp only [occ, occ_wrapOkm] at this
        simp at this
        exact b2 (this ▸ hb)
      | sender m b1 b2 b3 =>
        have := (occ_eqv (s := .ephemeral n) b2).mp
        simp only [occ, occ_wrapOkm, occ_senderOkm] at this
        simp at this
      | chunk m i b b1 b2 b3 b4 =>
        have := (occ_eqv (s := .root n) b3).mp rfl
        cases this
    have := move_box (n := .drop 32 (wrapOkm n (w.files n) r)) hs
    simp only [wrapped]
    simp only [wrapOkm] at this
    rw [this]
    simp only [move, moveSecret, Symbolic.seed, A.salt n]
  · exact move_special A (.wrapped n r r' h hb (.refl _) (.refl _))

theorem move_headerSignature (A : Alike bad w w') (n i : Nat) (hn : ¬ Closed bad (w.files n)) :
    move bad w w' (headerSignature n (w.files n) i) = headerSignature n (w'.files n) i := by
  simp only [headerSignature, Symbolic.signed]
  rw [move_edSign]
  · simp only [move, move_secretKey, move_ephemeral, A.salt n, moveSecret]
  · intro u hu
    cases hu with
    | trailer m h1 h2 h3 =>
      have := (occ_eqv (s := .root m) h3).mpr ((occ_trailerMessage m m _).mpr rfl)
      simp [occ, ephemeralPk] at this
      subst this
      exact hn h1

theorem move_senderField (A : Alike bad w w') (n : Nat) :
    move bad w w' (Symbolic.senderField n (w.files n)) = Symbolic.senderField n (w'.files n) := by
  by_cases hc : Closed bad (w.files n)
  · exact move_special A (.sender n hc (.refl _) (.refl _))
  · have hsend : (w.files n).sender = (w'.files n).sender := by
      rcases A.sender n with h | h
      · exact h
      · exact absurd h.1 hc
    have hs : ∀ t ad u, ¬ Special bad w w' (.take 32 (senderOkm n (w.files n))) t ad u := by
      intro t ad u hu
      cases hu with
      | wrapped m q q' b1 b2 b3 b4 =>
        have := (occ_eqv (s := .ephemeral m) b3).mpr
        simp only [occ, occ_wrapOkm, occ_senderOkm] at this
        simp at this
      | sender m b1 b2 b3 =>
        have := (occ_eqv (s := .root n) b2).mp
        simp only [occ, occ_senderOkm, Secret.root.injEq, true_imp_iff] at this
        subst this
        exact hc b1
      | chunk m i b b1 b2 b3 b4 =>
        have := (occ_eqv (s := .ephemeral m) b2).mpr
        simp only [occ, (occ_bodyKeys m _).2, occ_senderOkm] at this
        simp at this
    have e := fun t ad => move_box (n := .drop 32 (senderOkm n (w.files n))) (hs t ad)
    simp only [senderOkm] at e
    simp only [Symbolic.senderField]
    rw [e, ← hsend]
    cases (w.files n).sender with
    | none => simp only [move, moveSecret, A.salt n]
    | some i => simp only [move, moveSecret, A.salt n, move_headerSignature A n i hc]

theorem move_cats (ts us : List Term) (h : List.Forall₂ (fun t u => move bad w w' t = u) ts us) : move bad w w' (cats ts) = cats us := by
  induction h with
  | nil => rfl
  | cons h _ ih => exact congrArg₂ Term.cat h ih

theorem move_header (A : Alike bad w w') (n : Nat) : move bad w w' (header n (w.files n)) = header n (w'.files n) := by
  have hw : move bad w w' (cats ((w.files n).rcpts.map fun r =>
      .cat (.bytes [0x2a, 64, 0x0a, 48]) (.cat (wrapped n (w.files n) r) (.bytes ([0x12, 12] ++ r.2))))) =
      cats ((w'.files n).rcpts.map fun r => .cat (.bytes [0x2a, 64, 0x0a, 48]) (.cat (wrapped n (w'.files n) r) (.bytes ([0x12, 12] ++ r.2)))) := by
    have key : ∀ r r', (r, r') ∈ (w.files n).rcpts.zip (w'.files n).rcpts → r.2 = r'.2 ∧ (r.1 = r'.1 ∨ (¬ bad r.1 ∧ ¬ bad r'.1)) →
      move bad w w' (wrapped n (w.files n) r) = wrapped n (w'.files n) r' := fun r r' h1 h2 => move_wrapped A n h1 h2
    have hf := A.rcpts n
    revert key hf
    generalize (w.files n).rcpts = a
    generalize (w'.files n).rcpts = b
    intro key hf
    induction hf with
    | nil => rfl
    | @cons r r' rs rs' h1 h2 ih =>
      have e := key r r' (by simp) h1
      have ih := ih fun q q' h => key q q' (by simp [h])
      rw [List.map_cons, List.map_cons]
      show Term.cat (.cat (.bytes _) (.cat (move bad w w' (wrapped n (w.files n) r)) (.bytes _))) (move bad w w' (cats _)) = _
      rw [e, ih, h1.1]
      rfl
  simp only [header, move]
  rw [hw, move_senderField A, move_ephemeral, A.blk n, A.salt n, A.length n]

theorem move_bodyKeys (A : Alike bad w w') (n : Nat) : move bad w w' (bodyKeys n (w.files n)) = bodyKeys n (w'.files n) := by
  simp only [bodyKeys, move, moveSecret, move_header A]

theorem moveSecret_open (A : Alike bad w w') (n i : Nat) (hc : ¬ Closed bad (w.files n)) : moveSecret w w' (.chunk n i) = .chunk n i := by
  simp only [moveSecret]
  rw [if_neg]
  rintro ⟨h1, h2⟩
  rcases A.told n with h | h
  · rw [h1, h2] at h; cases h
  · exact hc h.1

theorem move_body (A : Alike bad w w') (n : Nat) : ∀ (ks : List Nat) (i : Nat),
    move bad w w' (body n (w.files n) i ks) = body n (w'.files n) i ks
  | [], _ => rfl
  | k :: ks, i => by
    have ih := move_body A n ks (i + 1)
    have e : move bad w w' (chunkBox n (w.files n) i (lengthWord k ks.isEmpty)) = chunkBox n (w'.files n) i (lengthWord k ks.isEmpty) := by
      by_cases hc : Closed bad (w.files n)
      · exact move_special A (.chunk n i _ hc (.refl _) (.refl _) (.refl _))
      · have hs : ∀ ad u, ¬ Special bad w w' (.take 32 (.drop 12 (bodyKeys n (w.files n)))) (.secret (.chunk n i)) ad u := by
          intro ad u hu
          cases hu with
          | wrapped m q q' b1 b2 b3 b4 =>
            have := (occ_eqv (s := .root m) b4).mpr rfl
            cases this
          | sender m b1 b2 b3 =>
            have := (occ_eqv (s := .ephemeral n) b2).mp
            simp only [occ, (occ_bodyKeys n _).2, occ_senderOkm] at this
            simp at this
          | chunk m j b b1 b2 b3 b4 =>
            have := (occ_eqv (s := .chunk n i) b3).mp rfl
            cases this
            exact hc b1
        rw [chunkBox, move_box (hs _)]
        simp only [move, move_bodyKeys A, moveSecret_open A n i hc]
        rfl
    show Term.cat (.bytes _) (.cat (move bad w w' (chunkBox n (w.files n) i (lengthWord k ks.isEmpty))) (move bad w w' (body n (w.files n) (i + 1) ks))) = _
    rw [e, ih]
    rfl

theorem move_macked (A : Alike bad w w') (n : Nat) (hc : ¬ Closed bad (w.files n)) : ∀ (ks : List Nat) (i : Nat),
    move bad w w' (macked n i ks) = macked n i ks
  | [], _ => rfl
  | k :: ks, i => by simp only [macked, move, move_macked A n hc ks, moveSecret_open A n i hc]

theorem move_trailer (A : Alike bad w w') (n : Nat) : move bad w w' (trailer n (w.files n)) = trailer n (w'.files n) := by
  cases hs : (w.files n).sender with
  | none =>
    have hs' : (w'.files n).sender = none := by
      rcases A.sender n with h | h
      · rw [← h, hs]
      · rw [hs] at h; cases h.2.1
    simp only [trailer, hs, hs', move, A.coin n]
  | some i =>
    have e : trailer n (w.files n) = .edSign (secretKey i) (trailerMessage n (w.files n)) := by simp only [trailer, hs]; rfl
    rw [e]
    by_cases hc : Closed bad (w.files n)
    · exact move_specialSig (.trailer n hc (by rw [hs]; rfl) (.refl _))
    · have hs' : (w'.files n).sender = some i := by
        rcases A.sender n with h | h
        · rw [← h, hs]
        · exact absurd h.1 hc
      rw [move_edSign]
      · simp only [trailer, hs', Symbolic.signed, trailerMessage, move, move_secretKey, move_bodyKeys A, move_macked A n hc, A.sizes n]
      · intro u hu
        cases hu with
        | trailer m h1 h2 h3 =>
          have := (occ_eqv (s := .root m) h3).mpr ((occ_trailerMessage m m _).mpr rfl)
          rw [occ_trailerMessage] at this
          subst this
          exact hc h1

theorem move_given (A : Alike bad w w') {h : Handle} {t : Term} (hg : w.Given bad h t) : w'.Given bad h (move bad w w' t) := by
  cases hg with
  | file n =>
    have : move bad w w' (encrypted n (w.files n)) = encrypted n (w'.files n) := by
      simp only [encrypted, move, move_header A, move_body A, move_trailer A, A.sizes n]
    rw [this]; exact .file n
  | publicKey i => exact .publicKey i
  | keyFile i salt =>
    have : move bad w w' (sealedKey i salt) = sealedKey i salt := by
      rw [sealedKey, move_box]
      · rfl
      · intro u hu
        cases hu with
        | wrapped m q q' b1 b2 b3 b4 =>
          have := (occ_eqv (s := .root m) b4).mpr rfl
          simp [occ, secretKey, Symbolic.seed] at this
        | sender m b1 b2 b3 =>
          have := (occ_eqv (s := .root m) b2).mpr
          simp [occ, occ_senderOkm] at this
        | chunk m j b b1 b2 b3 b4 =>
          have := (occ_eqv (s := .chunk m j) b3).mpr rfl
          simp [occ, secretKey, Symbolic.seed] at this
    rw [this]; exact .keyFile i salt
  | signature i m =>
    have : move bad w w' (Symbolic.signed i (.bytes m)) = Symbolic.signed i (.bytes m) := by
      rw [Symbolic.signed, move_edSign]
      · rfl
      · intro u hu
        cases hu with
        | trailer m h1 h2 h3 =>
          have := (occ_eqv (s := .root m) h3).mpr ((occ_trailerMessage m m _).mpr rfl)
          simp [occ] at this
    rw [this]; exact .signature i m
  | seed i h => exact .seed i h
  | pass i h => exact .pass i h
  | truth n i h =>
    cases hw : w'.told n with
    | nothing =>
      rcases A.told n with e | e
      · rw [h, hw] at e; cases e
      · exact absurd hw e.2.2
    | truth =>
      have : move bad w w' (.secret (.chunk n i)) = .secret (.chunk n i) := by simp [move, moveSecret, hw]
      rw [this]; exact .truth n i hw
    | lie =>
      have : move bad w w' (.secret (.chunk n i)) = .secret (.decoy n i) := by simp [move, moveSecret, h, hw]
      rw [this]; exact .lie n i hw
  | lie n i h =>
    cases hw : w'.told n with
    | nothing =>
      rcases A.told n with e | e
      · rw [h, hw] at e; cases e
      · exact absurd hw e.2.2
    | truth =>
      have : move bad w w' (.secret (.decoy n i)) = .secret (.chunk n i) := by simp [move, moveSecret, h, hw]
      rw [this]; exact .truth n i hw
    | lie =>
      have : move bad w w' (.secret (.decoy n i)) = .secret (.decoy n i) := by simp [move, moveSecret, hw]
      rw [this]; exact .lie n i hw

theorem move_size (A : Alike bad w w') {len : Secret → Nat} (hl : ∀ n i, len (.decoy n i) = len (.chunk n i)) (t : Term) :
    (move bad w w' t).size len = t.size len := by
  induction t with
  | secret s =>
    cases s with
    | chunk n i => simp only [move, moveSecret, Term.size]; split <;> simp [hl]
    | decoy n i => simp only [move, moveSecret, Term.size]; split <;> simp [hl]
    | _ => rfl
  | cat a b h1 h2 => simp only [move, Term.size, h1, h2]
  | take n t h | drop n t h => simp only [move, Term.size, h]
  | clamp t h => simp only [move, Term.size, h]
  | box k n t ad h1 h2 h3 h4 =>
    rcases pick_cases (Special bad w w' k t ad) (.box (move bad w w' k) (move bad w w' n) (move bad w w' t) (move bad w w' ad)) with h | h
    · show (pick _ _).size len = _
      generalize pick _ _ = u at h
      cases h with
      | wrapped m r r' b1 b2 b3 b4 => simp only [wrapped, Term.size, b4.size]
      | sender m b1 b2 b3 =>
        have : (senderMessage m (w.files m)).size len = 64 := by
          unfold senderMessage; cases (w.files m).sender <;> rfl
        have e : (senderMessage m (w'.files m)).size len = 64 := by
          unfold senderMessage; cases (w'.files m).sender <;> rfl
        show (senderMessage m (w'.files m)).size len + 16 = t.size len + 16
        rw [b3.size, this, e]
      | chunk m i b b1 b2 b3 b4 => simp only [chunkBox, Term.size, b3.size]
    · show (pick _ _).size len = _
      rw [h.1]
      simp only [Term.size, h3]
  | edSign s m h1 h2 =>
    rcases pick_cases (SpecialSig bad w w' m) (.edSign (move bad w w' s) (move bad w w' m)) with h | h
    · show (pick _ _).size len = _
      generalize pick _ _ = u at h
      cases h with
      | trailer n b1 b2 b3 =>
        have : ∃ i, (w'.files n).sender = some i := by
          rcases A.sender n with h | h
          · rw [h] at b2; exact Option.isSome_iff_exists.mp b2
          · exact Option.isSome_iff_exists.mp h.2.2
        obtain ⟨i, hi⟩ := this
        simp only [trailer, hi]
        rfl
    · show (pick _ _).size len = _
      rw [h.1]; rfl
  | _ => rfl

/-- Whatever a recipe gives in the first world moves to what it gives in the second. -/
theorem move_gives (A : Alike bad w w') {len : Secret → Nat} (hl : ∀ n i, len (.decoy n i) = len (.chunk n i)) {R : Recipe} {t : Term}
    (h : Gives len (w.Given bad) R t) : Gives len (w'.Given bad) R (move bad w w' t) := by
  have nos : ∀ {k : Term} {K : Recipe}, Gives len (w.Given bad) K k → ∀ t ad u, ¬ Special bad w w' k t ad u := by
    intro k K hk t ad u hs
    have := hs.secret
    rw [gives_may hk] at this
    cases this
  induction h with
  | given h => exact .given (move_given A h)
  | eqv e _ ih => exact .eqv (move_eqv bad w w' e) ih
  | bytes b => exact .bytes b
  | cat _ _ h1 h2 => exact .cat h1 h2
  | join _ _ h1 h2 => exact .join h1 h2
  | take _ h => exact .take h
  | drop _ h => exact .drop h
  | @left R a b _ h =>
    rw [← move_size A hl a]
    exact .left h
  | @right R a b _ h =>
    rw [← move_size A hl a]
    exact .right h
  | sha256 _ h => exact .sha256 h
  | sha512 _ h => exact .sha512 h
  | hmac _ _ h1 h2 => exact .hmac h1 h2
  | hkdf _ _ h1 h2 => exact .hkdf h1 h2
  | scrypt _ _ h1 h2 => exact .scrypt h1 h2
  | box hk _ _ _ h1 h2 h3 h4 =>
    rw [move_box (nos hk _ _)]
    exact .box h1 h2 h3 h4
  | opened hk _ h1 h2 =>
    rw [move_box (nos hk _ _)] at h2
    exact .opened h1 h2
  | edPub _ h => exact .edPub h
  | edSign _ hm h1 h2 =>
    rw [move_edSign]
    · exact .edSign h1 h2
    · intro u hu
      have := hu.secret
      rw [gives_may hm] at this
      cases this
  | clamp _ h => exact .clamp h
  | base => exact .base
  | mul _ _ h1 h2 => exact .mul h1 h2
  | mont _ h => exact .mont h

theorem Spec.Symbolic.Alike.symm (A : Alike bad w w') : Alike bad w' w where
  blk n := (A.blk n).symm
  salt n := (A.salt n).symm
  sizes n := (A.sizes n).symm
  coin n := (A.coin n).symm
  rcpts n := (A.rcpts n).flip.imp fun _ _ h => ⟨h.1.symm, h.2.imp Eq.symm And.symm⟩
  nonces n := by
    have e : (w'.files n).rcpts.map Prod.snd = (w.files n).rcpts.map Prod.snd := by
      have := A.rcpts n
      revert this
      generalize (w.files n).rcpts = a
      generalize (w'.files n).rcpts = b
      intro h
      induction h with
      | nil => rfl
      | cons h _ ih => simp only [List.map_cons, ih, h.1]
    rw [e]; exact A.nonces n
  sender n := (A.sender n).imp Eq.symm fun h => ⟨A.closed n h.1, h.2.2, h.2.1⟩
  told n := (A.told n).imp Eq.symm fun h => ⟨A.closed n h.1, h.2.2, h.2.1⟩

theorem alike_tests (A : Alike bad w w') {len : Secret → Nat} (hl : ∀ n i, len (.decoy n i) = len (.chunk n i)) :
    (∀ X Y, Same len (w.Given bad) X Y → Same len (w'.Given bad) X Y) ∧
    (∀ Pk M Sig, Verifies len (w.Given bad) Pk M Sig → Verifies len (w'.Given bad) Pk M Sig) ∧
    (∀ X n, HasSize len (w.Given bad) X n → HasSize len (w'.Given bad) X n) := by
  refine ⟨?_, ?_, ?_⟩
  · rintro X Y ⟨t, h1, h2⟩
    exact ⟨_, move_gives A hl h1, move_gives A hl h2⟩
  · rintro Pk M Sig ⟨s, m, h1, h2, h3⟩
    refine ⟨move bad w w' s, _, move_gives A hl h1, move_gives A hl h2, ?_⟩
    have := move_gives A hl h3
    rw [move_edSign] at this
    · exact this
    · intro u hu
      have := hu.secret
      rw [gives_may h2] at this
      cases this
  · rintro X n ⟨t, h1, rfl⟩
    exact ⟨_, move_gives A hl h1, move_size A hl t⟩

end

/-- **C116**  An attacker controls the people in `bad` and has any number of files, everyone's public key and key file and signatures of
everyone on messages of his choice.  In two worlds that differ only in who the recipients outside `bad` are and, for the files without a
recipient in `bad`, in who the sender is and in whether the plaintext he was told is the true one (or made up, of the same lengths),
everything he can compute and compare comes out the same.  So he cannot find out who the recipients are, except the ones he controls;
and if he controls none of them, he can neither find out who the sender is (he may control the sender, or know the plaintext) nor check
a guess about the plaintext. -/
theorem C116_indistinguishable (bad : Nat → Prop) (w w' : World) (A : Alike bad w w') (len : Secret → Nat)
    (hl : ∀ n i, len (.decoy n i) = len (.chunk n i)) : Indistinguishable len (w.Given bad) (w'.Given bad) := by
  obtain ⟨a1, a2, a3⟩ := alike_tests A hl
  obtain ⟨b1, b2, b3⟩ := alike_tests A.symm hl
  exact ⟨fun X Y => ⟨a1 X Y, b1 X Y⟩, fun X Y Z => ⟨a2 X Y Z, b2 X Y Z⟩, fun X n => ⟨a3 X n, b3 X n⟩⟩

/-! ### A recipient can check a guess about the plaintext -/

/-- The recipe does not use what the attacker is told about plaintexts. -/
def Untold : Recipe → Prop
  | .given (.plaintext _ _) => False
  | .given _ => True
  | .bytes _ => True
  | .cat a b => Untold a ∧ Untold b
  | .take _ t => Untold t
  | .drop _ t => Untold t
  | .sha256 t => Untold t
  | .sha512 t => Untold t
  | .hmac a b => Untold a ∧ Untold b
  | .hkdf a b _ _ => Untold a ∧ Untold b
  | .scrypt a b => Untold a ∧ Untold b
  | .box k n t a => Untold k ∧ Untold n ∧ Untold t ∧ Untold a
  | .opened k t => Untold k ∧ Untold t
  | .edPub t => Untold t
  | .edSign a b => Untold a ∧ Untold b
  | .clamp t => Untold t
  | .base => True
  | .mul a b => Untold a ∧ Untold b
  | .mont t => Untold t

theorem gives_untold {len : Secret → Nat} {w : World} {bad : Nat → Prop} (hw : ∀ n, w.told n = .nothing) {R : Recipe} {t : Term}
    (h : Gives len (w.Given bad) R t) : Untold R := by
  induction h with
  | given h =>
    cases h with
    | truth n i h | lie n i h => rw [hw] at h; cases h
    | _ => trivial
  | eqv _ _ ih => exact ih
  | bytes | base => trivial
  | cat _ _ h1 h2 | join _ _ h1 h2 | hmac _ _ h1 h2 | hkdf _ _ h1 h2 | scrypt _ _ h1 h2 | edSign _ _ h1 h2 | mul _ _ h1 h2
  | opened _ _ h1 h2 => exact ⟨h1, h2⟩
  | take _ h | drop _ h | left _ h | right _ h | sha256 _ h | sha512 _ h | edPub _ h | clamp _ h | mont _ h => exact h
  | box _ _ _ _ h1 h2 h3 h4 => exact ⟨h1, h2, h3, h4⟩

theorem decoy_header (m j n : Nat) (f : File) : ¬ occ (.decoy m j) (header n f) := by
  intro h
  simp only [header, ephemeralPk, Symbolic.senderField, occ, occ_cats, List.mem_map, or_false, false_or] at h
  rcases h with h | h | h
  · cases h
  · cases hs : f.sender <;> rw [hs] at h <;> simp [headerSignature, Symbolic.signed, ephemeralPk, secretKey, Symbolic.seed, occ] at h
  · obtain ⟨t, ⟨r, _, rfl⟩, h⟩ := h
    simp [wrapped, Symbolic.seed, occ] at h

theorem decoy_body (m j n : Nat) (f : File) : ∀ (ks : List Nat) (i : Nat), ¬ occ (.decoy m j) (body n f i ks)
  | [], _ => fun h => h
  | k :: ks, i => by
    have := decoy_body m j n f ks (i + 1)
    simp [body, bodyKeys, occ, decoy_header, this]

theorem decoy_macked (m j n : Nat) : ∀ (ks : List Nat) (i : Nat), ¬ occ (.decoy m j) (macked n i ks)
  | [], _ => fun h => h
  | k :: ks, i => by
    have := decoy_macked m j n ks (i + 1)
    simp [macked, occ, this]

theorem gives_decoy {len : Secret → Nat} {w : World} {bad : Nat → Prop} (m j : Nat) {R : Recipe} {t : Term}
    (h : Gives len (w.Given bad) R t) (hR : Untold R) : ¬ occ (.decoy m j) t := by
  induction h with
  | given h =>
    cases h with
    | file n =>
      have ht : ¬ occ (.decoy m j) (trailer n (w.files n)) := by
        unfold trailer
        cases (w.files n).sender with
        | none => exact fun h => h
        | some i => simp [Symbolic.signed, secretKey, Symbolic.seed, bodyKeys, occ, decoy_header, decoy_macked]
      simp [encrypted, occ, decoy_header, decoy_body, ht]
    | publicKey i => simp [occ, Symbolic.seed]
    | keyFile i salt => simp [occ, sealedKey, secretKey, Symbolic.seed]
    | signature i x => simp [occ, Symbolic.signed, secretKey, Symbolic.seed]
    | seed i h => simp [occ, Symbolic.seed]
    | pass i h => simp [occ]
    | truth n i h | lie n i h => exact absurd hR (fun h => h)
  | eqv e _ ih => rw [← occ_eqv e]; exact ih hR
  | bytes | base => exact fun h => h
  | cat _ _ h1 h2 | hmac _ _ h1 h2 | hkdf _ _ h1 h2 | scrypt _ _ h1 h2 | edSign _ _ h1 h2 | mul _ _ h1 h2 =>
    exact fun h => h.elim (h1 hR.1) (h2 hR.2)
  | join _ _ h1 h2 => exact h1 hR.1
  | take _ h | drop _ h | sha256 _ h | sha512 _ h | edPub _ h | clamp _ h | mont _ h => exact h hR
  | left _ h => exact fun hx => h hR (.inl hx)
  | right _ h => exact fun hx => h hR (.inr hx)
  | box _ _ _ _ h1 h2 h3 h4 => exact fun h => h.elim (h1 hR.1) fun h => h.elim (h2 hR.2.1) fun h => h.elim (h3 hR.2.2.1) (h4 hR.2.2.2)
  | opened _ _ h1 h2 => exact fun hx => h2 hR.2 (.inr (.inr (.inl hx)))

theorem gives_mono {len : Secret → Nat} {g g' : Handle → Term → Prop} (hg : ∀ h t, g h t → g' h t) {R : Recipe} {t : Term}
    (h : Gives len g R t) : Gives len g' R t := by
  induction h with
  | given h => exact .given (hg _ _ h)
  | eqv e _ ih => exact .eqv e ih
  | bytes b => exact .bytes b
  | cat _ _ h1 h2 => exact .cat h1 h2
  | join _ _ h1 h2 => exact .join h1 h2
  | take _ h => exact .take h
  | drop _ h => exact .drop h
  | left _ h => exact .left h
  | right _ h => exact .right h
  | sha256 _ h => exact .sha256 h
  | sha512 _ h => exact .sha512 h
  | hmac _ _ h1 h2 => exact .hmac h1 h2
  | hkdf _ _ h1 h2 => exact .hkdf h1 h2
  | scrypt _ _ h1 h2 => exact .scrypt h1 h2
  | box _ _ _ _ h1 h2 h3 h4 => exact .box h1 h2 h3 h4
  | opened _ _ h1 h2 => exact .opened h1 h2
  | edPub _ h => exact .edPub h
  | edSign _ _ h1 h2 => exact .edSign h1 h2
  | clamp _ h => exact .clamp h
  | base => exact .base
  | mul _ _ h1 h2 => exact .mul h1 h2
  | mont _ h => exact .mont h

theorem gives_handle {len : Secret → Nat} {g : Handle → Term → Prop} {R : Recipe} {t : Term} (h : Gives len g R t) :
    ∀ x, R = .given x → ∃ u, g x u ∧ Eqv u t := by
  induction h with
  | given h => rintro x ⟨⟩; exact ⟨_, h, .refl _⟩
  | eqv e _ ih => intro x hx; obtain ⟨u, h1, h2⟩ := ih x hx; exact ⟨u, h1, .trans h2 e⟩
  | _ => intro x hx; cases hx

/-- **C116** (the tests are not too weak).  If the attacker controls a recipient of the file, one and the same test succeeds in the world
where he was told the plaintext, and fails in any world with the same files where he was told something else. -/
theorem C116_recipient (bad : Nat → Prop) (w w' : World) (hf : w.files = w'.files) (n : Nat) (r : Nat × Bytes) (hr : r ∈ (w.files n).rcpts)
    (hb : bad r.1) (i : Nat) (hi : i < (w.files n).sizes.length) (ht : w.told n = .truth) (hl : w'.told n = .lie) (len : Secret → Nat) :
    ∃ X, Same len (w.Given bad) X (.given (.plaintext n i)) ∧ ¬ Same len (w'.Given bad) X (.given (.plaintext n i)) := by
  let w0 : World := ⟨w.files, fun _ => .nothing⟩
  have hk := (C107_recipient w.files bad (fun _ => False) n r hr hb).2 i hi
  have hmono : ∀ t, Knows (Start w.files bad fun _ => False) t → Knows (fun u => ∃ h, w0.Given bad h u) t := by
    intro t h
    have st : ∀ u, Start w.files bad (fun _ => False) u → ∃ h, w0.Given bad h u := by
      intro u hu
      cases hu with
      | file m => exact ⟨_, World.Given.file (w := w0) m⟩
      | publicKey j => exact ⟨_, .publicKey j⟩
      | keyFile j s => exact ⟨_, .keyFile j s⟩
      | signature j m => exact ⟨_, .signature j m⟩
      | seed j h => exact ⟨_, .seed j h⟩
      | pass j h => exact ⟨_, .pass j h⟩
      | plaintext m j h => exact h.elim
    induction h with
    | known h => exact .known (st _ h)
    | eqv e _ ih => exact .eqv e ih
    | bytes b => exact .bytes b
    | cat _ _ h1 h2 => exact .cat h1 h2
    | left _ h => exact .left h
    | right _ h => exact .right h
    | take _ h => exact .take h
    | drop _ h => exact .drop h
    | join _ _ h1 h2 => exact .join h1 h2
    | sha256 _ h => exact .sha256 h
    | sha512 _ h => exact .sha512 h
    | hmac _ _ h1 h2 => exact .hmac h1 h2
    | hkdf _ _ h1 h2 => exact .hkdf h1 h2
    | scrypt _ _ h1 h2 => exact .scrypt h1 h2
    | box _ _ _ _ h1 h2 h3 h4 => exact .box h1 h2 h3 h4
    | opened _ _ h1 h2 => exact .opened h1 h2
    | edPub _ h => exact .edPub h
    | edSign _ _ h1 h2 => exact .edSign h1 h2
    | clamp _ h => exact .clamp h
    | base => exact .base
    | mul _ _ h1 h2 => exact .mul h1 h2
    | mont _ h => exact .mont h
  obtain ⟨X, hX⟩ := (C116_recipes len (w0.Given bad) _).mpr (hmono _ hk)
  refine ⟨X, ⟨_, gives_mono ?_ hX, .given (.truth n i ht)⟩, ?_⟩
  · intro h t hg
    cases hg with
    | file m => exact World.Given.file (w := w) m
    | publicKey j => exact .publicKey j
    | keyFile j s => exact .keyFile j s
    | signature j m => exact .signature j m
    | seed j h => exact .seed j h
    | pass j h => exact .pass j h
    | truth m j h | lie m j h => cases h
  · rintro ⟨t, h1, h2⟩
    obtain ⟨u, hu, e⟩ := gives_handle h2 _ rfl
    cases hu with
    | truth _ _ h => rw [hl] at h; cases h
    | lie _ _ _ =>
      exact gives_decoy n i h1 (gives_untold (w := w0) (fun _ => rfl) hX) ((occ_eqv e).mp rfl)

/-! ### Examples -/

namespace Demo

/-- As `Demo.file`, with Dave (4) instead of Bob as a recipient. -/
def file2 : File := { file with rcpts := [(4, List.replicate 12 4), (3, List.replicate 12 5)] }

/-- As `Demo.file`, from Erin (5) to Dave and Frank (6). -/
def file3 : File := { file with rcpts := [(4, List.replicate 12 4), (6, List.replicate 12 5)], sender := some 5 }

/-- Carol is a recipient of both files and cannot tell whether Bob or Dave is the other one. -/
theorem alike2 : Alike (fun i => i = 3) ⟨fun _ => file, fun _ => .truth⟩ ⟨fun _ => file2, fun _ => .truth⟩ where
  blk _ := rfl
  salt _ := rfl
  sizes _ := rfl
  coin _ := rfl
  rcpts _ := .cons ⟨rfl, .inr ⟨by decide, by decide⟩⟩ (.cons ⟨rfl, .inl rfl⟩ .nil)
  nonces _ := show (file.rcpts.map Prod.snd).Nodup by decide
  sender _ := .inl rfl
  told _ := .inl rfl

/-- Alice (1) and Erin (5) themselves, for whom others send the files in their names with fresh random keys, cannot tell which of the two
worlds it is, nor whether they were told the true plaintext. -/
theorem alike3 : Alike (fun i => i = 1 ∨ i = 5) ⟨fun _ => file, fun _ => .truth⟩ ⟨fun _ => file3, fun _ => .lie⟩ where
  blk _ := rfl
  salt _ := rfl
  sizes _ := rfl
  coin _ := rfl
  rcpts _ := .cons ⟨rfl, .inr ⟨by decide, by decide⟩⟩ (.cons ⟨rfl, .inr ⟨by decide, by decide⟩⟩ .nil)
  nonces _ := show (file.rcpts.map Prod.snd).Nodup by decide
  sender _ := .inr ⟨show ∀ r ∈ file.rcpts, ¬ (r.1 = 1 ∨ r.1 = 5) by decide, rfl, rfl⟩
  told _ := .inr ⟨show ∀ r ∈ file.rcpts, ¬ (r.1 = 1 ∨ r.1 = 5) by decide, nofun, nofun⟩

end Demo

example : Indistinguishable (fun _ => 32) (World.Given ⟨fun _ => Demo.file, fun _ => .truth⟩ fun i => i = 3)
    (World.Given ⟨fun _ => Demo.file2, fun _ => .truth⟩ fun i => i = 3) := C116_indistinguishable _ _ _ Demo.alike2 _ fun _ _ => rfl

/-- Carol can check what she was told about the plaintext. -/
example : ∃ X, Same (fun _ => 32) (World.Given ⟨fun _ => Demo.file, fun _ => .truth⟩ fun i => i = 3) X (.given (.plaintext 0 1)) ∧
    ¬ Same (fun _ => 32) (World.Given ⟨fun _ => Demo.file, fun _ => .lie⟩ fun i => i = 3) X (.given (.plaintext 0 1)) :=
  C116_recipient (fun i => i = 3) ⟨fun _ => Demo.file, fun _ => .truth⟩ ⟨fun _ => Demo.file, fun _ => .lie⟩ rfl 0 (3, List.replicate 12 5)
    (by simp [Demo.file]) rfl 1 (by simp [Demo.file]) rfl rfl _

end Sigtool
