import Verif.Spec.SymbolicHelp
import Verif.Props.SymbolicForward
import Verif.Props.Accepts
import Verif.Props.AnyBody
/-!
# C112: recipients who decrypt for the attacker do not help him with other files
-/

namespace Sigtool
open Spec
open Spec.Symbolic

theorem eqv_take_drop_hkdf {t u : Term} (h : Eqv t u) :
    (∀ l k a b i n, t = .take l (.drop k (.hkdf a b i n)) → ∃ a' b', u = .take l (.drop k (.hkdf a' b' i n)) ∧ Eqv a a' ∧ Eqv b b') ∧
    (∀ l k a b i n, u = .take l (.drop k (.hkdf a b i n)) → ∃ a' b', t = .take l (.drop k (.hkdf a' b' i n)) ∧ Eqv a' a ∧ Eqv b' b) := by
  induction h with
  | refl t => exact ⟨fun l k a b i n h => ⟨a, b, h, .refl _, .refl _⟩, fun l k a b i n h => ⟨a, b, h, .refl _, .refl _⟩⟩
  | symm _ ih =>
    refine ⟨fun l k a b i n h => ?_, fun l k a b i n h => ?_⟩
    · obtain ⟨a', b', h1, h2, h3⟩ := ih.2 l k a b i n h; exact ⟨a', b', h1, .symm h2, .symm h3⟩
    · obtain ⟨a', b', h1, h2, h3⟩ := ih.1 l k a b i n h; exact ⟨a', b', h1, .symm h2, .symm h3⟩
  | trans _ _ ih1 ih2 =>
    refine ⟨fun l k a b i n h => ?_, fun l k a b i n h => ?_⟩
    · obtain ⟨a', b', h1, h2, h3⟩ := ih1.1 l k a b i n h
      obtain ⟨a'', b'', h4, h5, h6⟩ := ih2.1 l k a' b' i n h1
      exact ⟨a'', b'', h4, .trans h2 h5, .trans h3 h6⟩
    · obtain ⟨a', b', h1, h2, h3⟩ := ih2.2 l k a b i n h
      obtain ⟨a'', b'', h4, h5, h6⟩ := ih1.2 l k a' b' i n h1
      exact ⟨a'', b'', h4, .trans h5 h2, .trans h6 h3⟩
  | take e _ =>
    refine ⟨fun l k a b i n h => ?_, fun l k a b i n h => ?_⟩
    · cases h
      obtain ⟨a', b', rfl, h⟩ := (eqv_drop_hkdf e).1 _ _ _ _ _ rfl
      exact ⟨a', b', rfl, h⟩
    · cases h
      obtain ⟨a', b', rfl, h⟩ := (eqv_drop_hkdf e).2 _ _ _ _ _ rfl
      exact ⟨a', b', rfl, h⟩
  | _ => exact ⟨fun _ _ _ _ _ _ h => (by cases h), fun _ _ _ _ _ _ h => (by cases h)⟩

section
variable (files : Nat → File) (corrupt lost known : Nat → Bool)

/-- A box made by honest people: its key is not one for chunks, or it is a chunk of a file. -/
def MadeBox (k t : Term) : Prop :=
  ∃ k', Eqv k k' ∧ ((∃ a b i n, k' = .take 32 (.hkdf a b i n)) ∨ (∃ a b, k' = .scrypt a b) ∨
    ∃ n i, k' = .take 32 (.drop 12 (bodyKeys n (files n))) ∧ Eqv t (.secret (.chunk n i)))

/-- Every box the attacker can get out of the term is made by honest people, or the attacker could have the contents. -/
def Boxes : Term → Prop
  | .cat a b => Boxes a ∧ Boxes b
  | .take _ t => Boxes t
  | .drop _ t => Boxes t
  | .box k _ t _ => Boxes t ∧ (((look corrupt lost known t).pub = true ∧ Clean files corrupt lost known t) ∨ MadeBox files k t)
  | _ => True

theorem boxes_eqv {t u : Term} (h : Eqv t u) : Boxes files corrupt lost known t ↔ Boxes files corrupt lost known u := by
  induction h with
  | refl => exact Iff.rfl
  | symm _ ih => exact ih.symm
  | trans _ _ ih1 ih2 => exact ih1.trans ih2
  | assoc => simp only [Boxes, and_assoc]
  | cat _ _ h1 h2 => simp only [Boxes, h1, h2]
  | take _ h | drop _ h => simp only [Boxes, h]
  | box e1 _ e2 _ _ _ h _ =>
    simp only [Boxes, h, look_eqv corrupt lost known e2, clean_eqv files corrupt lost known e2]
    refine and_congr_right fun _ => or_congr_right ⟨fun ⟨k, a, b⟩ => ⟨k, .trans (.symm e1) a, ?_⟩, fun ⟨k, a, b⟩ => ⟨k, .trans e1 a, ?_⟩⟩
    · rcases b with b | b | ⟨n, i, b, c⟩
      · exact .inl b
      · exact .inr (.inl b)
      · exact .inr (.inr ⟨n, i, b, .trans (.symm e2) c⟩)
    · rcases b with b | b | ⟨n, i, b, c⟩
      · exact .inl b
      · exact .inr (.inl b)
      · exact .inr (.inr ⟨n, i, b, .trans e2 c⟩)
  | _ => simp only [Boxes, and_self]

theorem knows_boxes {K : Term → Prop} (hK : ∀ t, K t → (look corrupt lost known t).pub = true) (hC : ∀ t, K t → Clean files corrupt lost known t)
    (hB : ∀ t, K t → Boxes files corrupt lost known t) {t : Term} (h : Knows K t) : Boxes files corrupt lost known t := by
  induction h with
  | known h => exact hB _ h
  | eqv e _ ih => exact (boxes_eqv files corrupt lost known e).mp ih
  | cat _ _ h1 h2 => exact ⟨h1, h2⟩
  | left _ h => exact h.1
  | right _ h => exact h.2
  | take _ h | drop _ h => exact h
  | join _ _ h _ => exact h
  | box _ _ h _ _ _ h' _ => exact ⟨h', .inl ⟨knows_pub corrupt lost known hK h, knows_clean files corrupt lost known hK hC h⟩⟩
  | opened _ _ h _ => exact h.1
  | _ => trivial

theorem boxes_cats (ts : List Term) (h : ∀ t ∈ ts, Boxes files corrupt lost known t) : Boxes files corrupt lost known (cats ts) := by
  induction ts with
  | nil => trivial
  | cons t ts ih => exact ⟨h t (by simp), ih fun t ht => h t (List.mem_cons_of_mem _ ht)⟩

theorem boxes_body (n : Nat) : ∀ (ks : List Nat) (i : Nat), Boxes files corrupt lost known (body n (files n) i ks) := by
  intro ks
  induction ks with
  | nil => intro i; trivial
  | cons k ks ih => intro i; exact ⟨trivial, ⟨trivial, .inr ⟨_, .refl _, .inr (.inr ⟨n, i, rfl, .refl _⟩)⟩⟩, ih _⟩

theorem boxes_start (bad told : Nat → Prop) (t : Term) (h : Start files bad told t) : Boxes files corrupt lost known t := by
  cases h with
  | file n =>
    have hh : Boxes files corrupt lost known (header n (files n)) := by
      refine ⟨trivial, trivial, trivial, ⟨?_, .inr ⟨_, .refl _, .inl ⟨_, _, _, _, rfl⟩⟩⟩, boxes_cats _ _ _ _ _ ?_⟩
      · cases hs : (files n).sender with
        | none => trivial
        | some i => trivial
      · intro t ht
        obtain ⟨r, _, rfl⟩ := List.mem_map.mp ht
        exact ⟨trivial, ⟨trivial, .inr ⟨_, .refl _, .inl ⟨_, _, _, _, rfl⟩⟩⟩, trivial⟩
    refine ⟨hh, trivial, boxes_body _ _ _ _ _ _ _, ?_⟩
    rw [trailer]
    cases hs : (files n).sender with
    | none => trivial
    | some i => trivial
  | publicKey i => trivial
  | keyFile i salt => exact ⟨⟨trivial, trivial⟩, .inr ⟨_, .refl _, .inr (.inl ⟨_, _, rfl⟩)⟩⟩
  | signature i m => trivial
  | seed i h => trivial
  | pass i h => trivial
  | plaintext n i h => trivial

end

/-! ### Different files have different headers -/

/-- The key of the first box. -/
def firstKey : Term → Option Term
  | .cat a b => (firstKey a).or (firstKey b)
  | .box k _ _ _ => some k
  | _ => none

theorem eqv_firstKey {t u : Term} (h : Eqv t u) : (firstKey t = none ↔ firstKey u = none) ∧ ∀ a b, firstKey t = some a → firstKey u = some b → Eqv a b := by
  induction h with
  | refl t => exact ⟨Iff.rfl, fun a b h1 h2 => by rw [h1] at h2; cases h2; exact .refl _⟩
  | symm _ ih => exact ⟨ih.1.symm, fun a b h1 h2 => .symm (ih.2 b a h2 h1)⟩
  | @trans t u v _ _ ih1 ih2 =>
    refine ⟨ih1.1.trans ih2.1, fun a b h1 h2 => ?_⟩
    cases hu : firstKey u with
    | none => rw [ih1.1.mpr hu] at h1; cases h1
    | some c => exact .trans (ih1.2 a c h1 hu) (ih2.2 c b hu h2)
  | assoc a b c =>
    simp only [firstKey, Option.or_assoc]
    exact ⟨trivial, fun a b h1 h2 => by rw [h1] at h2; cases h2; exact .refl _⟩
  | @cat a a' b b' _ _ ih1 ih2 =>
    simp only [firstKey, Option.or_eq_none_iff, ih1.1, ih2.1, true_and]
    intro x y h1 h2
    cases ha : firstKey a with
    | none =>
      rw [ha] at h1
      rw [ih1.1.mp ha] at h2
      exact ih2.2 x y h1 h2
    | some k =>
      cases ha' : firstKey a' with
      | none => rw [ih1.1.mpr ha'] at ha; cases ha
      | some k' =>
        rw [ha] at h1; rw [ha'] at h2
        cases h1; cases h2
        exact ih1.2 _ _ ha ha'
  | box e _ _ _ _ _ _ _ => exact ⟨by simp [firstKey], fun a b h1 h2 => by cases h1; cases h2; exact e⟩
  | _ => exact ⟨by simp [firstKey], fun a b h1 h2 => by cases h1⟩

theorem eqv_header {n m : Nat} {f g : File} (h : Eqv (header n f) (header m g)) : n = m := by
  have h1 := (eqv_firstKey h).2 _ _ rfl rfl
  have h2 := congrArg Look.pub (look_eqv (fun _ => false) (fun k => k == n) (fun _ => false) h1)
  by_contra hne
  have hj : (m == n) = false := by simpa using fun e => hne e.symm
  simp [look, Look.plain, lookSecret, hj] at h2

section
variable (files : Nat → File) (bad told asked : Nat → Prop)

open Classical in
noncomputable abbrev isBad (i : Nat) : Bool := decide (bad i)

open Classical in
noncomputable abbrev isLost (n : Nat) : Bool := decide (∃ r ∈ (files n).rcpts, bad r.1)

open Classical in
noncomputable abbrev isKnown (n : Nat) : Bool := decide (told n ∨ asked n)

theorem start_mono (t : Term) (h : Start files bad told t) : Start files bad (fun n => told n ∨ asked n) t := by
  cases h with
  | file n => exact .file n
  | publicKey i => exact .publicKey i
  | keyFile i salt => exact .keyFile i salt
  | signature i m => exact .signature i m
  | seed i h => exact .seed i h
  | pass i h => exact .pass i h
  | plaintext n i h => exact .plaintext n i (.inl h)

theorem after_inv (k : Nat) : ∀ t, After files bad told asked k t →
    (look (isBad bad) (isLost files bad) (isKnown told asked) t).pub = true ∧
    Clean files (isBad bad) (isLost files bad) (isKnown told asked) t ∧ Boxes files (isBad bad) (isLost files bad) (isKnown told asked) t := by
  induction k with
  | zero =>
    intro t h
    have h := start_mono files bad told asked t h
    exact ⟨look_start _ _ _ files bad _ (fun i => by simp) (fun n => by simp) (fun n => by simp) t h, clean_start _ _ _ _ _ _ t h,
      boxes_start _ _ _ _ _ _ t h⟩
  | succ k ih =>
    intro t h
    rcases h with h | h
    · exact ih t h
    · cases h with
      | chunk i h epk salt nonce r n m ad hr _ _ _ _ _ hb =>
        have := knows_boxes files (isBad bad) (isLost files bad) (isKnown told asked) (fun t h => (ih t h).1) (fun t h => (ih t h).2.1)
          (fun t h => (ih t h).2.2) hb
        obtain ⟨h1, ⟨h2, h3⟩ | ⟨k', h2, h3⟩⟩ := this
        · exact ⟨h2, h3, h1⟩
        · obtain ⟨a, b, rfl, _, h4⟩ := (eqv_take_drop_hkdf h2).1 _ _ _ _ _ _ rfl
          rcases h3 with ⟨_, _, _, _, h3⟩ | ⟨_, _, h3⟩ | ⟨f, j, h3, h5⟩
          · cases h3
          · cases h3
          · cases h3
            obtain ⟨b, hb, h6⟩ := (eqv_sha256 h4).1 _ rfl
            cases hb
            have hf : asked f := Classical.byContradiction fun hf => hr ⟨f, hf, h6⟩
            refine ⟨?_, (clean_eqv _ _ _ _ h5).mpr trivial, h1⟩
            rw [look_eqv _ _ _ h5]
            simp [look, Look.plain, lookSecret, hf]

theorem after_signed (k : Nat) (i : Nat) (hi : ¬ bad i) (m : Term)
    (h : Knows (After files bad told asked k) (Symbolic.signed i m)) : ∃ m', HasSigned files i m' ∧
      Eqv (.cat (.bytes (ascii "sigtool signed message")) m) (.cat (.bytes (ascii "sigtool signed message")) m') := by
  have := knows_clean files (isBad bad) (isLost files bad) (isKnown told asked) (fun t h => (after_inv files bad told asked k t h).1)
    (fun t h => (after_inv files bad told asked k t h).2.1) h
  rcases this with h | ⟨j, m', h1, h2, h3⟩
  · simp only [secretKey, Symbolic.seed, look, Look.plain, lookSecret, Bool.and_true] at h
    exact absurd (by simpa using h) hi
  · have := eqv_secretKey h1
    subst this
    obtain ⟨b, hb, he⟩ := (eqv_sha512 h3).1 _ rfl
    cases hb
    exact ⟨m', h2, he⟩

/-- **C112** (secrecy).  The attacker of C107, for whom in addition everyone decrypts whatever files he can compute, as often as he likes -
only nothing with the header of a file not in `asked`.  He can compute neither the root key of a file none of whose recipients is in
`bad`, nor (unless he was told, or asked for this very file) any chunk of its plaintext, nor the signature of its sender; nor the seed
or pass phrase of anyone not in `bad`. -/
theorem C112_secrecy (k : Nat) :
    (∀ n, (∀ r ∈ (files n).rcpts, ¬ bad r.1) →
      ¬ Knows (After files bad told asked k) (.secret (.root n)) ∧
      (¬ told n → ¬ asked n → ∀ i, ¬ Knows (After files bad told asked k) (.secret (.chunk n i))) ∧
      ∀ i, ¬ Knows (After files bad told asked k) (headerSignature n (files n) i)) ∧
    ∀ i, ¬ bad i → ¬ Knows (After files bad told asked k) (Symbolic.seed i) ∧ ¬ Knows (After files bad told asked k) (.secret (.pass i)) := by
  have key := fun t => knows_pub (isBad bad) (isLost files bad) (isKnown told asked) (K := After files bad told asked k)
    (fun t h => (after_inv files bad told asked k t h).1) (t := t)
  refine ⟨fun n hn => ?_, fun i hi => ⟨fun h => ?_, fun h => ?_⟩⟩
  · have hlost : isLost files bad n = false := by
      rw [decide_eq_false_iff_not]; rintro ⟨r, hr, h⟩; exact hn r hr h
    refine ⟨fun h => ?_, fun ht ha i h => ?_, fun i h => ?_⟩
    · have := key _ h; simp only [look, Look.plain, lookSecret, hlost] at this; cases this
    · have := key _ h; simp only [look, Look.plain, lookSecret, hlost] at this
      simp only [Bool.false_or, decide_eq_true_eq] at this
      exact this.elim ht ha
    · have := key _ h
      simp only [headerSignature, Symbolic.signed, look, Look.plain, lookSecret, hlost] at this
      simp [ephemeralPk, look, Look.plain, Look.point, hidden] at this
  · have := key _ h; simp only [Symbolic.seed, look, Look.plain, lookSecret] at this; exact hi (by simpa using this)
  · have := key _ h; simp only [look, Look.plain, lookSecret] at this; exact hi (by simpa using this)

/-- **C112** (signatures).  C108 and C111 hold for this attacker as well: who is not in `bad` has made the file to which the signature in
a header or a trailer belongs. -/
theorem C112_signatures (k : Nat) (i : Nat) (hi : ¬ bad i) :
    (∀ t, Knows (After files bad told asked k) (Symbolic.signed i (.sha256 t)) → ∃ n, (files n).sender = some i ∧
      Eqv t (.cat (.bytes (ascii "SigTool" ++ [3])) (.cat (ephemeralPk n) (.cat (.bytes (files n).salt) (.secret (.root n)))))) ∧
    ∀ r h x, Knows (After files bad told asked k)
      (Symbolic.signed i (.hmac (.drop 44 (.hkdf r (.sha256 h) (ascii "Data Key Expansion") 76)) x)) →
      ∃ n, (files n).sender = some i ∧ Eqv h (header n (files n)) ∧ Eqv r (.secret (.root n)) ∧ Eqv x (macked n 0 (files n).sizes) := by
  refine ⟨fun t h => ?_, fun r hd x h => ?_⟩
  · obtain ⟨m', h1, h2⟩ := after_signed files bad told asked k i hi _ h
    obtain ⟨b, hb, he⟩ := (eqv_last_sha256 h2).1 t rfl
    cases h1 with
    | header n hn => cases hb; exact ⟨n, hn, he⟩
    | trailer n hn => cases hb
    | message m => cases hb
  · obtain ⟨m', h1, h2⟩ := after_signed files bad told asked k i hi _ h
    obtain ⟨k', b, hb, he, hx⟩ := (eqv_last_hmac h2).1 _ x rfl
    cases h1 with
    | header n hn => cases hb
    | trailer n hn =>
      cases hb
      obtain ⟨a, b, h4, h5, h6⟩ := (eqv_drop_hkdf he).1 _ _ _ _ _ rfl
      cases h4
      obtain ⟨c, h7, h8⟩ := (eqv_sha256 h6).1 _ rfl
      cases h7
      exact ⟨n, hn, h8, h5, hx⟩
    | message m => cases hb

/-- **C112** (the help is real).  Without controlling a recipient and without being told, the attacker gets the plaintext of a file that he
may hand to one of its recipients. -/
theorem C112_asked (n : Nat) (r : Nat × Bytes) (hr : r ∈ (files n).rcpts) (ha : asked n) :
    ∀ i, i < (files n).sizes.length → Knows (After files bad told asked 1) (.secret (.chunk n i)) := by
  have kf : Knows (After files bad told asked 0) (encrypted n (files n)) := .known (Start.file (corrupt := bad) (told := told) (files := files) n)
  have kh := kf.left
  have kw : Knows (After files bad told asked 0) (wrapped n (files n) r) := by
    have : ∀ (ts : List Term), Knows (After files bad told asked 0) (cats ts) → ∀ t ∈ ts, Knows (After files bad told asked 0) t := by
      intro ts
      induction ts with
      | nil => intro _ t h; cases h
      | cons u ts ih =>
        intro h t ht
        rcases List.mem_cons.mp ht with rfl | ht
        · exact Knows.left h
        · exact ih (Knows.right h) t ht
    exact (this _ kh.right.right.right.right _ (List.mem_map.mpr ⟨r, hr, rfl⟩)).right.left
  have kd : Eqv (.mul (.clamp (.secret (.ephemeral n))) (.mont (.edPub (Symbolic.seed r.1))))
      (.mul (.clamp (.take 32 (.sha512 (Symbolic.seed r.1)))) (ephemeralPk n)) :=
    .trans (.mul (.refl _) (.mont _)) (.swap _ _ _)
  have ko : Eqv (.hkdf (.mul (.clamp (.secret (.ephemeral n))) (.mont (.edPub (Symbolic.seed r.1))))
      (.sha256 (.cat (.bytes (files n).salt) (.bytes r.2))) (ascii "Receiver Key") 44)
      (unwrapKeys r.1 (ephemeralPk n) (.bytes (files n).salt) (.bytes r.2)) := .hkdf kd (.refl _)
  have kw' := Knows.eqv (.box (.take ko) (.drop ko) (.refl _) (.refl _)) kw
  have : ∀ (ls : List Nat) (j : Nat), Knows (After files bad told asked 0) (body n (files n) j ls) →
      ∀ i, i < ls.length → Knows (After files bad told asked 1) (.secret (.chunk n (j + i))) := by
    intro ls
    induction ls with
    | nil => intro j _ i hi; simp at hi
    | cons l ls ih =>
      intro j h i hi
      cases i with
      | zero =>
        refine .known (.inr (.chunk r.1 _ (ephemeralPk n) (.bytes (files n).salt) (.bytes r.2) _ _ _ _ ?_ kh kh.right.left (.bytes _) (.bytes _) kw'
          h.right.left))
        rintro ⟨m, hm, he⟩
        exact hm (eqv_header he ▸ ha)
      | succ i =>
        have := ih (j + 1) h.right.right i (by simpa using hi)
        rw [show j + (i + 1) = j + 1 + i by omega]
        exact this
  intro i hi
  have := this _ 0 kf.right.right.left i hi
  rwa [Nat.zero_add] at this

end

theorem decodesKey_parts {d : Bytes} {w : WrappedKey} (h : DecodesKey d w) : w.dkey <:+: d ∧ w.nonce <:+: d := by
  induction h with
  | empty => exact ⟨⟨[], [], rfl⟩, ⟨[], [], rfl⟩⟩
  | dkey _ _ _ ih => exact ⟨⟨_, [], by simp [← List.append_assoc]; rfl⟩, ih.2.trans ⟨[], _, rfl⟩⟩
  | nonce _ _ _ ih => exact ⟨ih.1.trans ⟨[], _, rfl⟩, ⟨_, [], by simp [← List.append_assoc]; rfl⟩⟩
  | other _ _ ih => exact ⟨ih.1.trans ⟨[], _, rfl⟩, ih.2.trans ⟨[], _, rfl⟩⟩

/-- The fields are parts of the header's bytes. -/
theorem decodes_parts {d : Bytes} {h : Header} (g : Decodes d h) :
    h.salt <:+: d ∧ h.pk <:+: d ∧ ∀ w ∈ h.keys, w.dkey <:+: d ∧ w.nonce <:+: d := by
  have up : ∀ {x d e : Bytes}, x <:+: d → x <:+: d ++ e := fun h => h.trans ⟨[], _, rfl⟩
  have last : ∀ (d t l x : Bytes), x <:+: d ++ (t ++ l ++ x) := fun d t l x => ⟨d ++ t ++ l, [], by simp⟩
  induction g with
  | empty => exact ⟨⟨[], [], rfl⟩, ⟨[], [], rfl⟩, fun w hw => (by cases hw)⟩
  | chunkSize _ _ _ ih | sender _ _ _ ih | other _ _ ih => exact ⟨up ih.1, up ih.2.1, fun w hw => ⟨up (ih.2.2 w hw).1, up (ih.2.2 w hw).2⟩⟩
  | salt _ _ _ ih => exact ⟨last _ _ _ _, up ih.2.1, fun w hw => ⟨up (ih.2.2 w hw).1, up (ih.2.2 w hw).2⟩⟩
  | pk _ _ _ ih => exact ⟨up ih.1, last _ _ _ _, fun w hw => ⟨up (ih.2.2 w hw).1, up (ih.2.2 w hw).2⟩⟩
  | key _ _ _ hw' ih =>
    refine ⟨up ih.1, up ih.2.1, fun w hw => ?_⟩
    rcases List.mem_append.mp hw with hw | hw
    · exact ⟨up (ih.2.2 w hw).1, up (ih.2.2 w hw).2⟩
    · rw [List.mem_singleton.mp hw]
      exact ⟨(decodesKey_parts hw').1.trans (last _ _ _ _), (decodesKey_parts hw').2.trans (last _ _ _ _)⟩

/-- **C112** (the model of decrypting allows at least what `Decrypt` does).  Whatever the input, whoever decrypts (the person with seed `s`),
and whatever the result: what `Decrypt` delivers is an initial part of the contents of chunks; each is sealed with the key
that belongs to the header bytes `h` with which the input starts, and to a root key `r` that is wrapped for this person, as in
`Spec.Symbolic.Decrypted`. -/
theorem C112_decrypt (P : Prims) (L : Laws P) (env : Secret → Bytes) (i : Nat) (hs : (env (.seed i)).length = 32) (rd : Reader)
    (spk : Option PublicKey) (d : Decryptor) (h : setupDecryptor P rd (newPrivateKey P (env (.seed i))) spk = .ok d) (wr : Writer)
    (res : Res Unit) (d' : Decryptor) (wr' : Writer) (hdec : d.decrypt P wr = (res, d', wr')) :
    ∃ (h r : Bytes) (frames : List Frame) (p rest : Bytes), rd.content = h ++ P.sha256 h ++ frames.flatMap (fun f => f.word ++ f.ct) ++ rest ∧
      wr'.out = wr.out ++ p ∧ p <+: (frames.map Frame.pt).flatten ∧
      (∃ epk salt nonce w : Bytes, w <:+: h ∧ epk <:+: h ∧ salt <:+: h ∧ nonce <:+: h ∧
        w = (Term.box (.take 32 (unwrapKeys i (.bytes epk) (.bytes salt) (.bytes nonce)))
          (.drop 32 (unwrapKeys i (.bytes epk) (.bytes salt) (.bytes nonce))) (.bytes r) (.edPub (Symbolic.seed i))).eval P env) ∧
      ∀ f ∈ frames, ∃ n : Bytes, f.ct = (Term.box (.take 32 (.drop 12 (.hkdf (.bytes r) (.sha256 (.bytes h)) (ascii "Data Key Expansion") 76)))
        (.bytes n) (.bytes f.pt) (.bytes f.word)).eval P env := by
  have hl : 32 ≤ (newPrivateKey P (env (.seed i))).sk.length := by
    show 32 ≤ (env (.seed i) ++ _).length
    rw [List.length_append]; omega
  have htk : (newPrivateKey P (env (.seed i))).sk.take 32 = env (.seed i) := by
    show (env (.seed i) ++ _).take 32 = _
    rw [List.take_append_of_le_length (by omega), List.take_of_length_le (by omega)]
  obtain ⟨key, hkey, frames, rest, p, h1, h2, h3, h4, _⟩ := C54_only_authenticated P L rd _ spk d h wr res d' wr' hdec
  obtain ⟨hb, ho, hsum⟩ := (setup_iff P L rd _ hl spk d.hdr key d.auth d.rd.content d.hdrsum).mp ⟨d, h, rfl, hkey, rfl, rfl, rfl⟩
  obtain ⟨p1, p2, p3⟩ := decodes_parts ho.decodes
  have inf : ∀ {x : Bytes}, x <:+: hb → x <:+: framed hb := fun g => g.trans ⟨ascii "SigTool" ++ [3] ++ be32 hb.length, [], by rw [framed]; simp⟩
  refine ⟨framed hb, key, frames, p, rest, ?_, h3, h4, ?_, ?_⟩
  · rw [ho.layout, h1]; simp
  · obtain ⟨w, hw, hu⟩ : ∃ w ∈ d.hdr.keys, unwrapAs P ((newPrivateKey P (env (.seed i))).sk.take 32) (newPrivateKey P (env (.seed i))).pub.pk
        d.hdr.pk d.hdr.salt w = some key := by
      obtain ⟨a, w, b, e, _, _, hu⟩ := ho.opened
      exact ⟨w, by rw [e]; simp, hu⟩
    refine ⟨d.hdr.pk, d.hdr.salt, w.nonce, w.dkey, inf (p3 w hw).1, inf p2, inf p1, inf (p3 w hw).2, ?_⟩
    rw [htk] at hu
    unfold unwrapAs at hu
    obtain ⟨shared, e1, e2⟩ := Option.bind_eq_some_iff.mp hu
    have hlen := L.hkdf_len shared (P.sha256 (d.hdr.salt ++ w.nonce)) (ascii "Receiver Key") 44 (by decide)
    have := L.seal_open _ _ _ _ _ (by simp [wrappingKey, hlen]) (by simp [wrappingKey, hlen]) e2
    rw [this]
    simp only [unwrapKeys, Term.eval, Symbolic.seed, e1]
    rfl
  · intro f hf
    obtain ⟨j, hj⟩ := List.getElem?_of_mem hf
    obtain ⟨v1, v2, v3, v4⟩ := h2 j f hj
    have hlen := L.hkdf_len key d.hdrsum (ascii "Data Key Expansion") 76 (by decide)
    refine ⟨be32 j ++ (sessionKeys P key d.hdrsum).1.drop 4, ?_⟩
    · have := L.seal_open _ _ _ _ _ (by simp [sessionKeys, hlen]) (by simp [sessionKeys, hlen]) v2
      rw [this, hsum]
      rfl

/-- C112: Bob decrypts file 1 for an attacker who controls nobody; the attacker then knows it, but nothing of file 0. -/
example : Knows (After (fun _ => Demo.file) (fun _ => False) (fun _ => False) (fun n => n = 1) 1) (.secret (.chunk 1 0)) ∧
    ∀ k i, ¬ Knows (After (fun _ => Demo.file) (fun _ => False) (fun _ => False) (fun n => n = 1) k) (.secret (.chunk 0 i)) :=
  ⟨C112_asked (fun _ => Demo.file) (fun _ => False) (fun _ => False) (fun n => n = 1) 1 (2, List.replicate 12 4) (by decide) rfl 0 (by decide),
    fun k i => ((C112_secrecy (fun _ => Demo.file) (fun _ => False) (fun _ => False) (fun n => n = 1) k).1 0 (fun _ _ h => h)).2.1
      (fun h => h) (by decide) i⟩

end Sigtool
