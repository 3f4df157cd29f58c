import Verif.Spec.ManyFiles
import Verif.Props.Game
/-!
# C128: encryption hides the contents of many files

The game of `Spec/ManyFiles.lean`, played with the files that sigtool writes: a spy who sees any number of files for the same
recipients, from the same sender, and chooses the plaintexts as he goes.
-/

namespace Sigtool
open Spec (Coins mean yes Spy Job Setting LongSpy Draw encryptChunks streamChunks)

/-- One of several independent draws may be drawn again. -/
theorem mean_update {ι α : Type} [Fintype ι] [DecidableEq ι] [Fintype α] [Nonempty α] (k : ι) (f : (ι → α) → ℚ) :
    mean f = mean fun r : ι → α => mean fun x : α => f (Function.update r k x) := by
  have transfer : ∀ g : (ι → α) → ℚ, mean g = mean fun p : α × ({j // j ≠ k} → α) => g ((Equiv.funSplitAt k α).symm p) := by
    intro g
    unfold Spec.mean
    rw [Fintype.card_congr (Equiv.funSplitAt k α), ← (Equiv.funSplitAt k α).symm.sum_comp]
  rw [transfer f, transfer]
  refine (mean_prod _).trans (Eq.trans ?_ (mean_prod _).symm)
  refine Eq.trans ?_ (mean_congr fun y => mean_comm _).symm
  have key : ∀ (y x : α) (rest : {j // j ≠ k} → α),
      Function.update ((Equiv.funSplitAt k α).symm (y, rest)) k x = (Equiv.funSplitAt k α).symm (x, rest) := by
    intro y x rest
    funext j
    by_cases h : j = k
    · subst h; simp [Equiv.funSplitAt]
    · simp [Equiv.funSplitAt, h]
  simp only [key]
  rw [mean_const]

section
variable {n : Nat} (P : Prims) (enc : Job n → Bytes) (A : LongSpy n)

theorem watch_append (t : A.Tape) (pks : Fin n → Bytes) (b : Bool) : ∀ (ds es : List (Draw n)) (fs : List Bytes),
    A.watch enc t pks b fs (ds ++ es) = A.watch enc t pks b (A.watch enc t pks b fs ds) es := by
  intro ds
  induction ds with
  | nil => intro es fs; rfl
  | cons d ds ih => intro es fs; rw [List.cons_append, LongSpy.watch, LongSpy.watch, ih]

/-- The first `k` files with the second plaintext, the rest with the first. -/
def hybrid (q k : Nat) : ℚ :=
  mean fun t : A.Tape => mean fun seeds : Fin n → Coins 32 => mean fun ds : Fin q → Draw n =>
    yes (A.guess t (fun i => P.edPub (seeds i).bytes) (A.watch enc t (fun i => P.edPub (seeds i).bytes) false
      (A.watch enc t (fun i => P.edPub (seeds i).bytes) true [] ((List.ofFn ds).take k)) ((List.ofFn ds).drop k)))

theorem hybrid_zero (q : Nat) : A.odds P enc q false = hybrid P enc A q 0 := rfl

theorem hybrid_last (q : Nat) : A.odds P enc q true = hybrid P enc A q q := by
  refine mean_congr fun t => mean_congr fun seeds => mean_congr fun ds => ?_
  rw [List.take_of_length_le (by simp), List.drop_of_length_le (by simp)]
  rfl

/-- The file in place `k`, drawn afresh, with plaintext `b`. -/
theorem spy_odds (q k : Nat) (hk : k < q) (b : Bool) :
    (A.spy enc q k).odds P enc b = hybrid P enc A q (if b then k + 1 else k) := by
  have lhs : (A.spy enc q k).odds P enc b =
      mean fun t : A.Tape => mean fun seeds : Fin n → Coins 32 => mean fun ds : Fin q → Draw n => mean fun x : Draw n =>
        yes (A.guess t (fun i => P.edPub (seeds i).bytes) (A.watch enc t (fun i => P.edPub (seeds i).bytes) false
          (A.watch enc t (fun i => P.edPub (seeds i).bytes) true [] ((List.ofFn ds).take k) ++
            [enc (x.job (fun i => P.edPub (seeds i).bytes) (A.plain t (fun i => P.edPub (seeds i).bytes)
              (A.watch enc t (fun i => P.edPub (seeds i).bytes) true [] ((List.ofFn ds).take k)) b))])
          ((List.ofFn ds).drop (k + 1)))) := by
    unfold Spy.odds
    refine (mean_prod _).trans ?_
    refine mean_congr fun t => ?_
    refine Eq.trans (mean_congr fun ds => Eq.trans (mean_congr fun coin => mean_comm _) (mean_comm _)) ?_
    refine (mean_comm _).trans ?_
    refine mean_congr fun seeds => mean_congr fun ds => ?_
    refine Eq.trans ?_ (mean_prod _).symm
    refine mean_congr fun coin => ?_
    refine Eq.trans ?_ (mean_prod _).symm
    refine mean_congr fun key => ?_
    refine Eq.trans ?_ (mean_prod _).symm
    refine mean_congr fun csk => ?_
    refine Eq.trans ?_ (mean_prod _).symm
    exact mean_congr fun salt => mean_congr fun nonces => rfl
  rw [lhs]
  refine mean_congr fun t => mean_congr fun seeds => ?_
  refine Eq.trans ?_ (mean_update (⟨k, hk⟩ : Fin q) _).symm
  refine mean_congr fun ds => mean_congr fun x => ?_
  have hset : List.ofFn (Function.update ds ⟨k, hk⟩ x) = (List.ofFn ds).set k x := by
    apply List.ext_getElem
    · simp
    · intro j h1 h2
      simp only [List.length_ofFn] at h1
      rw [List.getElem_ofFn, List.getElem_set]
      by_cases h : k = j
      · subst h; simp
      · rw [if_neg h, Function.update_of_ne (by simp [Fin.ext_iff]; omega), List.getElem_ofFn]
  have hlen : k < (List.ofFn ds).length := by simpa using hk
  rw [hset]
  have ht : ((List.ofFn ds).set k x).take k = (List.ofFn ds).take k := by
    rw [List.take_set, List.set_eq_of_length_le (by simp)]
  have hd : ((List.ofFn ds).set k x).drop (k + 1) = (List.ofFn ds).drop (k + 1) := by
    exact List.drop_set_of_lt (by omega)
  have hk' : ((List.ofFn ds).set k x).drop k = x :: (List.ofFn ds).drop (k + 1) := by
    rw [List.drop_eq_getElem_cons (by simpa using hk), hd]; simp
  cases b
  · simp only [Bool.false_eq_true, if_false]
    rw [ht, hk', LongSpy.watch]
  · simp only [if_true]
    rw [hd, List.take_succ_eq_append_getElem (by simpa using hk), ht, watch_append, LongSpy.watch, LongSpy.watch]
    simp

/-- Telling many files apart comes down to telling one. -/
theorem many_files (q : Nat) : A.advantage P enc q ≤ ∑ k ∈ Finset.range q, (A.spy enc q k).advantage P enc := by
  have : ∀ j, j ≤ q → |hybrid P enc A q 0 - hybrid P enc A q j| ≤
      ∑ k ∈ Finset.range j, (A.spy enc q k).advantage P enc := by
    intro j
    induction j with
    | zero => intro _; simp
    | succ j ih =>
      intro hj
      rw [Finset.sum_range_succ]
      have h1 : |hybrid P enc A q j - hybrid P enc A q (j + 1)| = (A.spy enc q j).advantage P enc := by
        unfold Spy.advantage
        rw [spy_odds P enc A q j (by omega), spy_odds P enc A q j (by omega)]
        rfl
      rw [← h1]
      have e : hybrid P enc A q 0 - hybrid P enc A q (j + 1) =
          (hybrid P enc A q 0 - hybrid P enc A q j) + (hybrid P enc A q j - hybrid P enc A q (j + 1)) := by ring
      rw [e]
      exact (abs_add_le _ _).trans (add_le_add (ih (by omega)) le_rfl)
  unfold LongSpy.advantage
  rw [hybrid_zero, hybrid_last]
  exact this q le_rfl

end

/-- **C128.** For every number of recipients, sender or none, block size and way the input arrives, every spy who sees `q`
files for the same recipients, one after the other, and picks two plaintexts of equal length for each of them when he has
seen the files before it: whether always the first or always the second was encrypted he tells no better than the sum of what
the explicit players of C126 achieve for the `q` spies on a single file made from him. -/
theorem C128_encrypt {n : Nat} (P : Prims) (L : Laws P) (sender : Option PrivateKey) (hs : SenderSized sender) (blk : Nat)
    (reader : Bytes → Reader) (hr : ∀ p, (reader p).content = p ∧ isEndOfInput (reader p).last = true)
    (A : LongSpy n) (hA : A.Fair (effectiveBlock blk * 2^32)) (q : Nat) :
    let S : Setting :=
      { sender := sender.map (·.sk), block := effectiveBlock blk, cut := encryptChunks (effectiveBlock blk) }
    let one := fun k => A.spy (encrypted P sender blk reader) q k
    A.advantage P (encrypted P sender blk reader) q ≤ ∑ k ∈ Finset.range q, (one k).bound P S ∧
      ∀ k, (∀ b, ((one k).wrap P S b).Valid) ∧ ((one k).body P S).Valid := by
  intro S one
  have hone : ∀ k, (one k).Fair (effectiveBlock blk * 2^32) := fun k t pks => hA _ _ _
  have h := fun k => C126_encrypt P L sender hs blk reader hr (one k) (hone k)
  exact ⟨(many_files P _ A q).trans (Finset.sum_le_sum fun k _ => (h k).1), fun k => (h k).2⟩

/-- **C128**, the stream writer. -/
theorem C128_stream {n : Nat} (P : Prims) (L : Laws P) (sender : Option PrivateKey) (hs : SenderSized sender) (blk : Nat)
    (buffers : Bytes → List Bytes) (hr : ∀ p, (buffers p).flatten = p)
    (A : LongSpy n) (hA : A.Fair (effectiveBlock blk * 2^32)) (q : Nat) :
    let S : Setting :=
      { sender := sender.map (·.sk), block := effectiveBlock blk, cut := streamChunks (effectiveBlock blk) }
    let one := fun k => A.spy (streamed P sender blk buffers) q k
    A.advantage P (streamed P sender blk buffers) q ≤ ∑ k ∈ Finset.range q, (one k).bound P S ∧
      ∀ k, (∀ b, ((one k).wrap P S b).Valid) ∧ ((one k).body P S).Valid := by
  intro S one
  have hone : ∀ k, (one k).Fair (effectiveBlock blk * 2^32) := fun k t pks => hA _ _ _
  have h := fun k => C126_stream P L sender hs blk buffers hr (one k) (hone k)
  exact ⟨(many_files P _ A q).trans (Finset.sum_le_sum fun k _ => (h k).1), fun k => (h k).2⟩

/-! ### A concrete case -/

namespace LongDemo

/-- Wants one byte 0 or 1 each time, and looks at the last file. -/
def reader : LongSpy 2 where
  Tape := Unit
  plain _ _ fs b := [if b then 1 else UInt8.ofNat (2 * fs.length)]
  guess _ _ fs := match fs.getLast? with
    | some f => f.reverse[80]? == some 1
    | none => false

theorem fair : reader.Fair (effectiveBlock 0 * 2^32) := by
  intro t pks fs
  exact ⟨rfl, by simp only [reader, List.length_singleton]; decide⟩

theorem odds_eq (b : Bool) : reader.odds toyPrims (encrypted toyPrims none 0 GameDemo.input) 3 b = yes b := by
  unfold LongSpy.odds
  have hne : Nonempty reader.Tape := inferInstanceAs (Nonempty Unit)
  refine Eq.trans (mean_congr fun t => mean_congr fun seeds => mean_congr fun ds => ?_)
    (b := mean fun t => mean fun seeds => mean fun ds => yes b) ?_
  · have : List.ofFn ds = [ds 0, ds 1, ds 2] := rfl
    rw [this]
    generalize ds 2 = d
    obtain ⟨coin, key, csk, salt, nonces⟩ := d
    simp only [LongSpy.watch, reader, List.nil_append, List.getLast?_append, List.getLast?_singleton, Option.some_or,
      Draw.job]
    rw [GameDemo.reads]
    cases b <;> rfl
  · simp only [mean_const]

end LongDemo

/-- The hypotheses of `C128_encrypt` are met; with the toy primitives this spy always wins, so the sum is at least 1. -/
example : LongDemo.reader.advantage toyPrims (encrypted toyPrims none 0 GameDemo.input) 3 = 1 ∧
    1 ≤ ∑ k ∈ Finset.range 3, (LongDemo.reader.spy (encrypted toyPrims none 0 GameDemo.input) 3 k).bound toyPrims
      { sender := none, block := effectiveBlock 0, cut := encryptChunks (effectiveBlock 0) } := by
  have h : LongDemo.reader.advantage toyPrims (encrypted toyPrims none 0 GameDemo.input) 3 = 1 := by
    unfold LongSpy.advantage
    rw [LongDemo.odds_eq, LongDemo.odds_eq]
    norm_num [yes]
  exact ⟨h, h ▸ (C128_encrypt toyPrims toyLaws none (by simp [SenderSized]) 0 GameDemo.input GameDemo.input_ok
    LongDemo.reader LongDemo.fair 3).1⟩

end Sigtool
