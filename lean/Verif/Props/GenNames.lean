import Verif.Props.GoPath
import Verif.Props.CommandLines
/-!
# C114: which files `generate` writes
-/

namespace Sigtool
open Spec

theorem words_append (q r : Bytes) : pathWords (q ++ 47 :: r) = pathWords q ++ pathWords r := by
  induction q with
  | nil => simp [pathWords]
  | cons c q ih =>
    rw [List.cons_append, pathWords, pathWords, ih]
    by_cases h : c = 47
    · rw [if_pos h, if_pos h]; rfl
    · rw [if_neg h, if_neg h]
      cases hq : pathWords q with
      | nil => exact absurd hq (words_ne q)
      | cons w ws => rfl

theorem rooted_append (p s : Bytes) (h : p ≠ []) : Rooted (p ++ s) ↔ Rooted p := by
  obtain ⟨c, p, rfl⟩ := List.exists_cons_of_ne_nil h
  rfl

/-- The last word of the path is a proper name. -/
def Spec.EndsInName (k w : Bytes) : Prop := PathName w ∧ (k = w ∨ ∃ q, k = q ++ 47 :: w)

theorem endsInName_place {k w : Bytes} (h : EndsInName k w) (s : Bytes) (hs : PathName (w ++ s)) :
    ∃ pl : Place, pl.Ok (decide (Rooted k)) ∧ place k = { pl with names := w :: pl.names } ∧
      place (k ++ s) = { pl with names := (w ++ s) :: pl.names } ∧ (Rooted (k ++ s) ↔ Rooted k) := by
  obtain ⟨hw, hk⟩ := h
  have step : ∀ (r : Bool) (pl : Place) (v : Bytes), PathName v → pl.step r v = { pl with names := v :: pl.names } := by
    intro r pl v hv
    unfold Place.step; rw [if_neg (by rintro (e | e); exacts [hv.1 e, hv.2.1 e]), if_neg hv.2.2.1]
  have hne : k ≠ [] := by
    rcases hk with rfl | ⟨q, rfl⟩
    · exact hw.1
    · simp
  have hr := rooted_append k s hne
  rcases hk with rfl | ⟨q, rfl⟩
  · refine ⟨{}, Ok_start _, ?_, ?_, hr⟩
    · unfold place; rw [words_plain k hw.2.2.2, List.foldl_cons, step _ _ _ hw]; rfl
    · unfold place; rw [words_plain _ hs.2.2.2, List.foldl_cons, step _ _ _ hs]; rfl
  · refine ⟨(pathWords q).foldl (Place.step (decide (Rooted (q ++ 47 :: w)))) {}, fold_ok _ (Ok_start _) (words_no q), ?_, ?_, hr⟩
    · unfold place
      rw [words_append, List.foldl_append, words_plain w hw.2.2.2]
      simp only [List.foldl_cons, List.foldl_nil]
      rw [step _ _ _ hw]
    · unfold place
      rw [show decide (Rooted (q ++ 47 :: w ++ s)) = decide (Rooted (q ++ 47 :: w)) from decide_eq_decide.mpr hr,
        List.append_assoc, List.cons_append, words_append, List.foldl_append, words_plain _ hs.2.2.2]
      simp only [List.foldl_cons, List.foldl_nil]
      rw [step _ _ _ hs]

/-- **C114** (the names one expects).  If the last word of the argument is a proper name, the files that `generate` writes lead to the same
place as the argument with `.key` and `.pub` appended; if the argument is a direct path, they have exactly these names. -/
theorem C114_names (k : Bytes) :
    (∀ w, EndsInName k w → SamePlace (GoPath.clean k ++ ascii ".key") (k ++ ascii ".key") ∧
      SamePlace (GoPath.clean k ++ ascii ".pub") (k ++ ascii ".pub")) ∧
    (GoPath.clean k = k ↔ Direct k) := by
  refine ⟨?_, ?_⟩
  · intro w h
    have key : ∀ s, PathName (w ++ s) → SamePlace (GoPath.clean k ++ s) (k ++ s) := by
      intro s hs
      obtain ⟨pl, h1, h2, h3, h4⟩ := endsInName_place h s hs
      have hw : PathName w := h.1
      have e := clean_eq k
      rw [h2] at e
      have ew : (Place.mk pl.up (w :: pl.names)).words = pl.words ++ [w] := by simp [Place.words]
      have es : (pl.words ++ [w ++ s]) = List.replicate pl.up (ascii "..") ++ (pl.names.reverse ++ [w ++ s]) := by simp [Place.words]
      have hnames : ∀ n ∈ pl.names.reverse ++ [w ++ s], PathName n := by
        intro n hn
        rcases List.mem_append.mp hn with hn | hn
        · exact h1.names n (List.mem_reverse.mp hn)
        · rw [List.mem_singleton.mp hn]; exact hs
      have ejoin : joinWords (pl.words ++ [w]) ++ s = joinWords (pl.words ++ [w ++ s]) := by
        rw [joinWords_snoc, joinWords_snoc]
        split <;> simp
      have hpos : 0 < (joinWords (pl.words ++ [w])).length := joinWords_pos _ (by simp) (fun x hx => by
        rcases List.mem_append.mp hx with hx | hx
        · exact (h1.word x hx).1
        · rw [List.mem_singleton.mp hx]; exact hw.1)
      by_cases hr : Rooted k
      · rw [decide_eq_true hr] at e h1
        have h0 := h1.up rfl
        have e1 : render true { pl with names := w :: pl.names } = 47 :: joinWords (pl.words ++ [w]) := by unfold render; rw [ew]; rfl
        rw [e1, if_neg (by simp)] at e
        rw [e, List.cons_append, ejoin]
        refine ⟨⟨fun _ => h4.mpr hr, fun _ => rfl⟩, ?_⟩
        rw [h3, es, h0, List.replicate_zero, List.nil_append, place_root _ hnames]
        simp [h0]
      · rw [decide_eq_false hr] at e h1
        have e1 : render false { pl with names := w :: pl.names } = joinWords (pl.words ++ [w]) := by unfold render; rw [ew]; rfl
        rw [e1, if_neg (by intro h0; rw [h0] at hpos; simp at hpos)] at e
        rw [e, ejoin, es]
        obtain ⟨a, b⟩ := place_rel pl.up _ hnames (by simp)
        refine ⟨⟨fun h => absurd h a, fun h => absurd (h4.mp h) hr⟩, ?_⟩
        rw [b, h3]
        simp
    have hsuf : ∀ s : Bytes, 47 ∉ s → 2 < s.length → PathName (w ++ s) := by
      intro s h47 hl
      have hlen : ∀ x : Bytes, x.length ≤ 2 → w ++ s ≠ x := by
        rintro x hx rfl
        rw [List.length_append] at hx; omega
      refine ⟨hlen [] (by simp), hlen _ (by decide +kernel), hlen _ (by decide +kernel), ?_⟩
      intro hm
      rcases List.mem_append.mp hm with hm | hm
      · exact h.1.2.2.2 hm
      · exact h47 hm
    exact ⟨key _ (hsuf _ (by decide +kernel) (by decide +kernel)), key _ (hsuf _ (by decide +kernel) (by decide +kernel))⟩
  · constructor
    · intro h
      have := ((C114_clean k (GoPath.clean k)).mp rfl).1
      rwa [h] at this
    · exact clean_direct k

/-- **C114** (trailing slash).  A slash at the end does not matter: `generate dir/` does not write into `dir`. -/
theorem C114_slash (d : Bytes) (h : d ≠ []) : GoPath.clean (d ++ [47]) = GoPath.clean d := by
  refine clean_same _ _ ⟨rooted_append d _ h, ?_⟩
  unfold place
  rw [show decide (Rooted (d ++ [47])) = decide (Rooted d) from decide_eq_decide.mpr (rooted_append d _ h), words_append, List.foldl_append]
  simp [pathWords, Place.step]

/-- **C114** (generate).  With Go's `path.Clean`: for every argument there is exactly one direct path `B` to the same place.  If the program
exits with 0, `B.key` and `B.pub` hold the new pair and nothing else has changed; if not, nothing has changed besides `B.key` and
left-over temporary files.  Without `--overwrite`, if one of the two files is there, the program fails and changes nothing.  Two arguments
that lead to the same place have the same effect. -/
theorem C114_generate (W : World) (hcl : W.clean = GoPath.clean) (argv rest more : List Bytes) (o : GenOpts) (bn : Bytes) (N : Normal W argv)
    (hr : Runs W argv "generate" rest) (hf : W.flags.gen rest = .ok o (bn :: more)) :
    ∃ B, (∀ q, q = B ↔ Direct q ∧ SamePlace q bn) ∧
      ((W.main argv).exit = 0 → ∃ pw text, PassPhrase W o.nopw o.envpw pw ∧
        (newPrivateKey W.D.P W.seed).marshal W.D.P W.D.Y o.comment pw W.salt = .ok text ∧
        (W.fs.run (W.main argv).sys).read (B ++ ascii ".key") = some text ∧
        (W.fs.run (W.main argv).sys).read (B ++ ascii ".pub") = some ((newPrivateKey W.D.P W.seed).pub.marshal W.D.Y o.comment) ∧
        SameBut W.fs (W.fs.run (W.main argv).sys) [B ++ ascii ".key", B ++ ascii ".pub"]) ∧
      ((W.main argv).exit ≠ 0 → SameBut W.fs (W.fs.run (W.main argv).sys) [B ++ ascii ".key", W.env1.tmp, W.env2.tmp]) ∧
      (o.force = false → (W.fs.exists (B ++ ascii ".key") = true ∨ W.fs.exists (B ++ ascii ".pub") = true) →
        (W.main argv).exit ≠ 0 ∧ (W.main argv).sys = []) ∧
      ∀ argv' rest' bn' more', Runs W argv' "generate" rest' → W.flags.gen rest' = .ok o (bn' :: more') → SamePlace bn' bn →
        W.main argv' = W.main argv := by
  have hm : ∀ argv rest bn more, Runs W argv "generate" rest → W.flags.gen rest = .ok o (bn :: more) →
      W.main argv = genCmd W.D W.fs W.env1 W.env2 o.force (GoPath.clean bn) o.comment (W.genpw o.nopw o.envpw) W.seed W.salt := by
    intro argv rest bn more hr hf
    rw [(C66_dispatch W N.order argv rest _ hr).1 rfl]
    unfold World.gen
    rw [hf]
    dsimp only
    rw [hcl]
  have he : GenEnv W.fs W.env1 W.env2 (GoPath.clean bn) := by have := N.genEnv hr hf; rwa [hcl] at this
  refine ⟨GoPath.clean bn, C114_clean bn, ?_, ?_, ?_, ?_⟩
  · intro h0
    rw [hm _ _ _ _ hr hf] at h0 ⊢
    obtain ⟨pw, text, h1, h2, h3, h4, h5⟩ := C49_success _ _ _ _ _ _ _ _ _ _ he h0
    refine ⟨pw, text, ?_, h2, h3, h4, h5⟩
    unfold World.genpw at h1
    split at h1
    · cases h1; rename_i hn; exact .none hn
    · rename_i hn
      split at h1
      · rename_i he'; cases h1; exact .env (by simpa using hn) he'
      · rename_i he'; exact .typed pw (by simpa using hn) (by simpa using he') h1
  · intro h0
    rw [hm _ _ _ _ hr hf] at h0 ⊢
    exact (C49_failure _ _ _ _ _ _ _ _ _ _ he h0).1
  · intro hfo hex
    rw [hm _ _ _ _ hr hf, hfo]
    unfold genCmd
    rw [if_pos]
    · exact ⟨by decide, rfl⟩
    · show (!false && (W.fs.exists (GoPath.clean bn ++ ascii ".pub") || W.fs.exists (GoPath.clean bn ++ ascii ".key"))) = true
      rcases hex with h | h <;> simp [h]
  · intro argv' rest' bn' more' hr' hf' hs
    rw [hm _ _ _ _ hr hf, hm _ _ _ _ hr' hf', clean_same _ _ hs]

/-! ### Examples -/

example : Direct (ascii "keys/alice") ∧ EndsInName (ascii "keys/alice") (ascii "alice") := by
  refine ⟨.rel 0 [ascii "keys", ascii "alice"] ?_ (by simp), ⟨?_, .inr ⟨ascii "keys", by decide +kernel⟩⟩⟩ <;> unfold PathName <;> decide +kernel

example : SamePlace (ascii "./keys//x/../alice/") (ascii "keys/alice") := by unfold SamePlace; decide +kernel

/-- No name at all: the files are `..key` and `..pub`. -/
example : GoPath.clean [] ++ ascii ".key" = ascii "..key" ∧ ¬ SamePlace (GoPath.clean [] ++ ascii ".key") ([] ++ ascii ".key") := by
  unfold SamePlace; decide +kernel

end Sigtool
