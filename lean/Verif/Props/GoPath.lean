import Mathlib.Data.List.Basic
import Mathlib.Data.List.Induction
import Mathlib.Data.List.TakeWhile
import Verif.GoPath
import Verif.Spec.Path
/-!
# `path.Clean` computes the direct path to the same place
-/

namespace Sigtool
open Spec

/-! ### Words -/

theorem words_ne (p : Bytes) : pathWords p ≠ [] := by
  cases p with
  | nil => simp [pathWords]
  | cons c p =>
    unfold pathWords
    split
    · simp
    · split <;> simp

theorem words_eq (p : Bytes) : pathWords p = p.takeWhile (· ≠ 47) ::
    (match p.dropWhile (· ≠ 47) with | [] => [] | _ :: r => pathWords r) := by
  induction p with
  | nil => rfl
  | cons c p ih =>
    by_cases h : c = 47
    · subst h; simp [pathWords]
    · rw [pathWords, if_neg h, ih]
      simp [h]

theorem words_plain (w : Bytes) (h : 47 ∉ w) : pathWords w = [w] := by
  induction w with
  | nil => rfl
  | cons c w ih =>
    simp only [List.mem_cons, not_or] at h
    rw [pathWords, if_neg (Ne.symm h.1), ih h.2]

theorem words_slash (w r : Bytes) (h : 47 ∉ w) : pathWords (w ++ 47 :: r) = w :: pathWords r := by
  induction w with
  | nil => simp [pathWords]
  | cons c w ih =>
    simp only [List.mem_cons, not_or] at h
    rw [List.cons_append, pathWords, if_neg (Ne.symm h.1), ih h.2]

theorem joinWords_cons (w : Bytes) (ws : List Bytes) (h : ws ≠ []) : joinWords (w :: ws) = w ++ 47 :: joinWords ws := by
  cases ws with
  | nil => exact absurd rfl h
  | cons => rfl

theorem joinWords_snoc (l : List Bytes) (w : Bytes) : joinWords (l ++ [w]) = if l = [] then w else joinWords l ++ 47 :: w := by
  induction l with
  | nil => rfl
  | cons a l ih =>
    rw [List.cons_append, joinWords_cons _ _ (by simp), ih, if_neg (List.cons_ne_nil _ _)]
    cases l with
    | nil => rfl
    | cons b l => rw [if_neg (by simp), joinWords_cons a _ (by simp)]; simp

theorem joinWords_length_le (l m : List Bytes) : (joinWords l).length ≤ (joinWords (l ++ m)).length := by
  induction m using List.reverseRecOn with
  | nil => simp
  | append_singleton m w ih =>
    rw [← List.append_assoc, joinWords_snoc]
    split
    · rename_i h
      have : l = [] := (List.append_eq_nil_iff.mp h).1
      subst this; simp [joinWords]
    · simp only [List.length_append, List.length_cons]; omega

theorem joinWords_pos (l : List Bytes) (h : l ≠ []) (hw : ∀ w ∈ l, w ≠ []) : 0 < (joinWords l).length := by
  cases l with
  | nil => exact absurd rfl h
  | cons a l =>
    have ha := List.length_pos_iff.mpr (hw a (by simp))
    cases l with
    | nil => simpa [joinWords] using ha
    | cons b l => rw [joinWords_cons _ _ (by simp), List.length_append]; omega

theorem words_join (l : List Bytes) (h : l ≠ []) (hw : ∀ w ∈ l, 47 ∉ w) : pathWords (joinWords l) = l := by
  induction l with
  | nil => exact absurd rfl h
  | cons a l ih =>
    cases l with
    | nil => exact words_plain a (hw a (by simp))
    | cons b l =>
      rw [joinWords_cons _ _ (by simp), words_slash _ _ (hw a (by simp)), ih (by simp) (fun w hm => hw w (by simp [hm]))]

/-! ### Places as text -/

structure Spec.Place.Ok (rooted : Bool) (pl : Place) : Prop where
  up : rooted = true → pl.up = 0
  names : ∀ n ∈ pl.names, PathName n

def Spec.Place.words (pl : Place) : List Bytes := List.replicate pl.up (ascii "..") ++ pl.names.reverse

def render (rooted : Bool) (pl : Place) : Bytes := (if rooted then [47] else []) ++ joinWords pl.words

def stop (rooted : Bool) (pl : Place) : Nat := if rooted then 1 else (joinWords (List.replicate pl.up (ascii ".."))).length

theorem dots_plain : ascii ".." ≠ [] ∧ (47 : UInt8) ∉ ascii ".." ∧ ascii ".." = [46, 46] ∧ ascii "." = [46] := by decide +kernel

theorem Spec.Place.Ok.word {rooted : Bool} {pl : Place} (h : pl.Ok rooted) (w : Bytes) (hw : w ∈ pl.words) : w ≠ [] ∧ 47 ∉ w := by
  rcases List.mem_append.mp hw with hw | hw
  · rw [List.eq_of_mem_replicate hw]; exact ⟨dots_plain.1, dots_plain.2.1⟩
  · have := h.names w (List.mem_reverse.mp hw); exact ⟨this.1, this.2.2.2⟩

theorem takeWhile_no (l : Bytes) : (47 : UInt8) ∉ l.takeWhile (· ≠ 47) := by
  intro h
  have := List.mem_takeWhile_imp h
  simp at this

theorem words_no (p : Bytes) : ∀ w ∈ pathWords p, 47 ∉ w := by
  induction p with
  | nil => simp [pathWords]
  | cons c p ih =>
    rw [pathWords]
    split
    · intro w hw
      rcases List.mem_cons.mp hw with rfl | hw
      · simp
      · exact ih w hw
    · rename_i hc
      split
      · simp [Ne.symm hc]
      · rename_i w ws e
        rw [e] at ih
        intro x hx
        rcases List.mem_cons.mp hx with rfl | hx
        · simp [Ne.symm hc, ih w (by simp)]
        · exact ih x (by simp [hx])

theorem step_ok {rooted : Bool} {pl : Place} (h : pl.Ok rooted) (w : Bytes) (hw : 47 ∉ w) : (pl.step rooted w).Ok rooted := by
  unfold Place.step
  split
  · exact h
  · rename_i h1
    split
    · split
      · rename_i n ns e
        exact ⟨h.up, fun m hm => h.names m (by rw [e]; simp [hm])⟩
      · split
        · exact h
        · rename_i hr
          exact ⟨fun hh => absurd hh hr, h.names⟩
    · rename_i h2
      refine ⟨h.up, fun n hn => ?_⟩
      rcases List.mem_cons.mp hn with rfl | hn
      · exact ⟨fun e => h1 (.inl e), fun e => h1 (.inr e), h2, hw⟩
      · exact h.names n hn

theorem fold_ok {rooted : Bool} (ws : List Bytes) : ∀ {pl : Place}, pl.Ok rooted → (∀ w ∈ ws, 47 ∉ w) → (ws.foldl (Place.step rooted) pl).Ok rooted := by
  induction ws with
  | nil => intro pl h _; exact h
  | cons w ws ih => intro pl h hw; exact ih (step_ok h w (hw w (by simp))) (fun x hx => hw x (by simp [hx]))

/-! ### The loop -/

theorem back_slash (A w : Bytes) (dot : Nat) (hd : dot ≤ A.length) (hw : 47 ∉ w) : ∀ k, k ≤ w.length →
    GoPath.backLoop (A ++ 47 :: w) dot (A.length + k) = A.length
  | 0, _ => by
    match h : A.length with
    | 0 => rfl
    | n + 1 =>
      rw [Nat.add_zero, GoPath.backLoop, if_neg]
      rintro ⟨_, h2⟩
      apply h2
      rw [show n + 1 = A.length from h.symm, List.getElem?_append_right (le_refl _)]; simp
  | k + 1, hk => by
    rw [show A.length + (k + 1) = (A.length + k) + 1 by omega, GoPath.backLoop, if_pos, back_slash A w dot hd hw k (by omega)]
    refine ⟨by omega, ?_⟩
    rw [List.getElem?_append_right (by omega), show A.length + k + 1 - A.length = k + 1 by omega, List.getElem?_cons_succ,
      List.getElem?_eq_getElem (by omega)]
    intro e
    exact hw (Option.some.inj e ▸ List.getElem_mem _)

theorem back_first (A w : Bytes) (hw : 47 ∉ w) : ∀ k, k < w.length → GoPath.backLoop (A ++ w) A.length (A.length + k) = A.length
  | 0, _ => by
    match h : A.length with
    | 0 => rfl
    | n + 1 => rw [Nat.add_zero, GoPath.backLoop, if_neg]; omega
  | k + 1, hk => by
    rw [show A.length + (k + 1) = (A.length + k) + 1 by omega, GoPath.backLoop, if_pos, back_first A w hw k (by omega)]
    refine ⟨by omega, ?_⟩
    rw [List.getElem?_append_right (by omega), show A.length + k + 1 - A.length = k + 1 by omega, List.getElem?_eq_getElem (by omega)]
    intro e
    exact hw (Option.some.inj e ▸ List.getElem_mem _)

/-- Going back removes the last name. -/
theorem back_render {rooted : Bool} {up : Nat} {w : Bytes} {ns : List Bytes} (h : Place.Ok rooted ⟨up, w :: ns⟩) :
    stop rooted ⟨up, w :: ns⟩ < (render rooted ⟨up, w :: ns⟩).length ∧
    (render rooted ⟨up, w :: ns⟩).take (GoPath.backLoop (render rooted ⟨up, w :: ns⟩) (stop rooted ⟨up, w :: ns⟩)
      ((render rooted ⟨up, w :: ns⟩).length - 1)) = render rooted ⟨up, ns⟩ := by
  have hn := h.names w (by simp)
  have hwp := List.length_pos_iff.mpr hn.1
  have e : (Place.mk up (w :: ns)).words = (Place.mk up ns).words ++ [w] := by simp [Place.words]
  by_cases hl : (Place.mk up ns).words = []
  · have hup : up = 0 := by
      have := congrArg List.length hl
      simp [Place.words] at this; exact this.1
    have e2 : render rooted ⟨up, w :: ns⟩ = (if rooted then [47] else []) ++ w := by
      unfold render; rw [e, joinWords_snoc, if_pos hl]
    have e3 : stop rooted ⟨up, w :: ns⟩ = (if rooted then [(47 : UInt8)] else []).length := by
      unfold stop; subst hup; cases rooted <;> rfl
    have e4 : render rooted ⟨up, ns⟩ = (if rooted then [47] else []) := by unfold render; rw [hl]; simp [joinWords]
    rw [e2, e3, e4]
    refine ⟨by simp only [List.length_append]; omega, ?_⟩
    rw [show ((if rooted then [(47 : UInt8)] else []) ++ w).length - 1 = (if rooted then [(47 : UInt8)] else []).length + (w.length - 1) by
      simp only [List.length_append]; omega, back_first _ _ hn.2.2.2 _ (by omega)]
    simp
  · have e2 : render rooted ⟨up, w :: ns⟩ = render rooted ⟨up, ns⟩ ++ 47 :: w := by
      unfold render; rw [e, joinWords_snoc, if_neg hl]; simp
    have hd : stop rooted ⟨up, w :: ns⟩ ≤ (render rooted ⟨up, ns⟩).length := by
      unfold stop render
      cases rooted
      · simp only [Bool.false_eq_true, if_false, List.nil_append]
        exact joinWords_length_le _ _
      · simp
    rw [e2]
    refine ⟨by simp only [List.length_append, List.length_cons]; omega, ?_⟩
    rw [show (render rooted ⟨up, ns⟩ ++ 47 :: w).length - 1 = (render rooted ⟨up, ns⟩).length + w.length by simp,
      back_slash _ _ _ hd hn.2.2.2 _ (le_refl _)]
    simp

theorem cleanLoop_eq (rooted : Bool) : ∀ (fuel : Nat) (rest : Bytes) (pl : Place), pl.Ok rooted → rest.length < fuel →
    GoPath.cleanLoop rooted fuel (render rooted pl) (stop rooted pl) rest = render rooted ((pathWords rest).foldl (Place.step rooted) pl) := by
  intro fuel
  obtain ⟨-, -, edd, ed⟩ := dots_plain
  induction fuel with
  | zero => intro rest _ _ h; omega
  | succ fuel ih =>
    intro rest pl hpl hlen
    match rest with
    | [] =>
      rw [GoPath.cleanLoop]
      simp [pathWords, Place.step]
    | c :: rest =>
      rw [List.length_cons] at hlen
      -- after a word comes nothing, or a slash
      have nop : ∀ (r : Bytes) (pl : Place), (pathWords ([] ++ r)).foldl (Place.step rooted) pl =
          (pathWords r).foldl (Place.step rooted) pl := fun _ _ => rfl
      have after : ∀ (w r : Bytes) (pl : Place), 47 ∉ w → (r = [] ∨ r.head? = some 47) →
          (pathWords (w ++ r)).foldl (Place.step rooted) pl = (pathWords r).foldl (Place.step rooted) (pl.step rooted w) := by
        intro w r pl hw hr
        match r, hr with
        | [], _ => rw [List.append_nil, words_plain w hw]; simp [pathWords, Place.step]
        | d :: r, hr =>
          have : d = 47 := by simpa using hr
          subst this
          rw [words_slash w r hw, show pathWords (47 :: r) = [] :: pathWords r by simp [pathWords]]
          simp only [List.foldl_cons]
          congr 1
      rw [GoPath.cleanLoop]
      by_cases h1 : c = 47
      · subst h1
        rw [if_pos rfl, ih rest pl hpl (by omega), show pathWords (47 :: rest) = [] :: pathWords rest by simp [pathWords], List.foldl_cons,
          show pl.step rooted [] = pl by simp [Place.step]]
      · rw [if_neg h1]
        by_cases h2 : c = 46 ∧ (rest = [] ∨ rest.head? = some 47)
        · rw [if_pos h2, ih rest pl hpl (by omega), h2.1]
          rw [show (46 : UInt8) :: rest = [46] ++ rest from rfl, after [46] rest pl (by decide) h2.2,
            show pl.step rooted [46] = pl by unfold Place.step; rw [if_pos (.inr ed.symm)]]
        · rw [if_neg h2]
          by_cases h3 : c = 46 ∧ rest.head? = some 46 ∧ (rest.tail = [] ∨ rest.tail.head? = some 47)
          · rw [if_pos h3]
            obtain ⟨rfl, h4, h5⟩ := h3
            match rest, h4 with
            | d :: rest, h4 =>
              have : d = 46 := by simpa using h4
              subst this
              rw [List.tail_cons] at h5 ⊢
              rw [show (46 : UInt8) :: 46 :: rest = [46, 46] ++ rest from rfl, after [46, 46] rest pl (by decide) h5]
              have hstep : pl.step rooted [46, 46] = (match pl.names with
                  | _ :: ns => { pl with names := ns }
                  | [] => if rooted then pl else { pl with up := pl.up + 1 }) := by
                unfold Place.step
                rw [if_neg (by rw [ed]; decide), if_pos edd.symm]
                cases pl.names <;> rfl
              rw [List.length_cons] at hlen
              match pl, hpl, hstep with
              | ⟨up, []⟩, hpl, hstep =>
                have el : (render rooted ⟨up, []⟩).length = stop rooted ⟨up, []⟩ := by
                  unfold render stop
                  cases rooted
                  · simp [Place.words]
                  · have := hpl.up rfl
                    dsimp only at this
                    subst this; rfl
                rw [if_neg (by omega)]
                cases rooted
                · dsimp only at hstep
                  rw [hstep, if_pos (by rfl)]
                  rw [show (if false = true then Place.mk up [] else ⟨up + 1, []⟩) = ⟨up + 1, []⟩ from rfl]
                  have e1 : (if (render false ⟨up, []⟩).length > 0 then render false ⟨up, []⟩ ++ [47] else render false ⟨up, []⟩) ++ [46, 46] =
                      render false ⟨up + 1, []⟩ := by
                    have hup : ∀ u, render false ⟨u, []⟩ = joinWords (List.replicate u (ascii "..")) := by
                      intro u; simp [render, Place.words]
                    rw [hup, hup, List.replicate_succ', joinWords_snoc]
                    by_cases hu : up = 0
                    · subst hu; simp [joinWords, edd]
                    · rw [if_pos (joinWords_pos _ (by simpa using hu) (fun w hw => by rw [List.eq_of_mem_replicate hw]; exact dots_plain.1)),
                        if_neg (by simpa using hu), edd]
                      simp
                  dsimp only
                  rw [e1]
                  have e2 : (render false ⟨up + 1, []⟩).length = stop false ⟨up + 1, []⟩ := by simp [render, stop, Place.words]
                  rw [e2]
                  exact ih rest _ ⟨fun h => (by cases h), fun n hn => (by cases hn)⟩ (by omega)
                · dsimp only at hstep
                  rw [hstep, if_neg (by decide), if_pos rfl]
                  exact ih rest _ hpl (by omega)
              | ⟨up, w :: ns⟩, hpl, hstep =>
                dsimp only at hstep
                rw [hstep]
                obtain ⟨b1, b2⟩ := back_render hpl
                rw [if_pos b1, b2, show stop rooted ⟨up, w :: ns⟩ = stop rooted ⟨up, ns⟩ from rfl]
                exact ih rest _ ⟨hpl.up, fun n hn => hpl.names n (by simp [hn])⟩ (by omega)
          · rw [if_neg h3]
            dsimp only
            have hsplit : (c :: rest).takeWhile (· ≠ 47) ++ (c :: rest).dropWhile (· ≠ 47) = c :: rest := List.takeWhile_append_dropWhile
            have hw := takeWhile_no (c :: rest)
            have hr : (c :: rest).dropWhile (· ≠ 47) = [] ∨ ((c :: rest).dropWhile (· ≠ 47)).head? = some 47 := by
              cases hd : (c :: rest).dropWhile (· ≠ 47) with
              | nil => exact .inl rfl
              | cons d r =>
                right
                have := List.head?_dropWhile_not (p := (· ≠ (47 : UInt8))) (c :: rest)
                rw [hd] at this
                simpa using this
            have hc : (c :: rest).takeWhile (· ≠ 47) = c :: rest.takeWhile (· ≠ 47) := by simp [h1]
            have hlt : ((c :: rest).dropWhile (· ≠ 47)).length ≤ rest.length := by
              have := congrArg List.length hsplit
              rw [hc] at this
              simp only [List.length_append, List.length_cons] at this ⊢
              omega
            generalize hwd : (c :: rest).takeWhile (· ≠ 47) = w at *
            generalize hrd : (c :: rest).dropWhile (· ≠ 47) = r at *
            have hne : ¬ (w = [] ∨ w = ascii ".") := by
              rintro (e | e)
              · rw [e] at hc; cases hc
              · rw [e, ed] at hsplit
                simp only [List.cons_append, List.nil_append, List.cons.injEq] at hsplit
                exact h2 ⟨hsplit.1.symm, by rw [← hsplit.2]; exact hr⟩
            have hne2 : w ≠ ascii ".." := by
              intro e
              rw [e, edd] at hsplit
              simp only [List.cons_append, List.nil_append, List.cons.injEq] at hsplit
              exact h3 ⟨hsplit.1.symm, by rw [← hsplit.2]; rfl, by rw [← hsplit.2]; exact hr⟩
            rw [← hsplit, after w r pl hw hr]
            have hstep : pl.step rooted w = { pl with names := w :: pl.names } := by
              unfold Place.step; rw [if_neg hne, if_neg hne2]
            rw [hstep]
            have hok : Place.Ok rooted { pl with names := w :: pl.names } := by rw [← hstep]; exact step_ok hpl w hw
            have e1 : (if (rooted && (render rooted pl).length != 1 || !rooted && (render rooted pl).length != 0) = true then render rooted pl ++ [47]
                else render rooted pl) ++ w = render rooted { pl with names := w :: pl.names } := by
              have e : (Place.mk pl.up (w :: pl.names)).words = pl.words ++ [w] := by simp [Place.words]
              unfold render
              rw [e, joinWords_snoc]
              by_cases hl : pl.words = []
              · rw [hl, if_pos rfl]
                cases rooted <;> simp [joinWords]
              · have := joinWords_pos _ hl (fun x hx => (hpl.word x hx).1)
                rw [if_neg hl]
                cases rooted
                · have : (joinWords pl.words).length ≠ 0 := by omega
                  simp [List.length_eq_zero_iff.not.mp this]
                · have : (joinWords pl.words).length ≠ 0 := by omega
                  simp [List.length_eq_zero_iff.not.mp this]
            rw [e1, show stop rooted pl = stop rooted { pl with names := w :: pl.names } from rfl]
            exact ih r _ hok (by omega)

theorem Ok_start (rooted : Bool) : Place.Ok rooted {} := ⟨fun _ => rfl, fun n hn => by cases hn⟩

theorem clean_eq (p : Bytes) : GoPath.clean p =
    if render (decide (Rooted p)) (place p) = [] then ascii "." else render (decide (Rooted p)) (place p) := by
  rw [dots_plain.2.2.2]
  match p with
  | [] => rfl
  | c :: rest =>
    unfold GoPath.clean
    dsimp only
    by_cases h : c = 47
    · subst h
      have hr : Rooted (47 :: rest) := rfl
      have := cleanLoop_eq true ((47 :: rest).length + 1) rest {} (Ok_start true) (by simp; omega)
      rw [show render true {} = [47] from rfl, show stop true {} = 1 from rfl] at this
      rw [if_pos rfl, this]
      unfold place
      rw [decide_eq_true hr, show pathWords (47 :: rest) = [] :: pathWords rest by simp [pathWords], List.foldl_cons,
        show Place.step true {} [] = {} by simp [Place.step]]
    · have hr : ¬ Rooted (c :: rest) := by simp [Rooted, h]
      have := cleanLoop_eq false ((c :: rest).length + 1) (c :: rest) {} (Ok_start false) (by simp)
      rw [show render false {} = [] from rfl, show stop false {} = 0 from rfl] at this
      rw [if_neg h, this]
      unfold place
      rw [decide_eq_false hr]

theorem place_ok (p : Bytes) : (place p).Ok (decide (Rooted p)) := fold_ok _ (Ok_start _) (words_no p)

theorem fold_names (rooted : Bool) : ∀ (ns : List Bytes) (pl : Place), (∀ n ∈ ns, PathName n) →
    ns.foldl (Place.step rooted) pl = { pl with names := ns.reverse ++ pl.names }
  | [], _, _ => rfl
  | n :: ns, pl, h => by
    have hn := h n (by simp)
    rw [List.foldl_cons, show pl.step rooted n = { pl with names := n :: pl.names } by
      unfold Place.step; rw [if_neg (by rintro (e | e); exacts [hn.1 e, hn.2.1 e]), if_neg hn.2.2.1],
      fold_names rooted ns _ (fun m hm => h m (by simp [hm]))]
    simp

theorem fold_up : ∀ (k u : Nat), (List.replicate k (ascii "..")).foldl (Place.step false) ⟨u, []⟩ = ⟨u + k, []⟩
  | 0, _ => rfl
  | k + 1, u => by
    rw [List.replicate_succ, List.foldl_cons, show Place.step false ⟨u, []⟩ (ascii "..") = ⟨u + 1, []⟩ by
      unfold Place.step; rw [if_neg (by decide +kernel), if_pos rfl]; rfl, fold_up k (u + 1)]
    congr 1; omega

theorem joinWords_head (l : List Bytes) (hl : l ≠ []) (h : ∀ w ∈ l, w ≠ [] ∧ 47 ∉ w) : ¬ Rooted (joinWords l) := by
  match l with
  | [] => exact absurd rfl hl
  | w :: ws =>
    obtain ⟨h1, h2⟩ := h w (by simp)
    obtain ⟨c, w', rfl⟩ := List.exists_cons_of_ne_nil h1
    have : (joinWords ((c :: w') :: ws)).head? = some c := by cases ws <;> rfl
    intro hr
    unfold Rooted at hr
    rw [this] at hr
    cases hr
    exact h2 (by simp)

theorem place_root (ns : List Bytes) (h : ∀ n ∈ ns, PathName n) : place (47 :: joinWords ns) = ⟨0, ns.reverse⟩ := by
  unfold place
  rw [show pathWords (47 :: joinWords ns) = [] :: pathWords (joinWords ns) by simp [pathWords], List.foldl_cons,
    show Place.step (decide (Rooted (47 :: joinWords ns))) {} [] = {} by simp [Place.step]]
  by_cases hn : ns = []
  · subst hn; rfl
  · rw [words_join ns hn (fun w hw => (h w hw).2.2.2), fold_names _ ns _ h]; simp

theorem place_rel (k : Nat) (ns : List Bytes) (h : ∀ n ∈ ns, PathName n) (hne : List.replicate k (ascii "..") ++ ns ≠ []) :
    ¬ Rooted (joinWords (List.replicate k (ascii "..") ++ ns)) ∧ place (joinWords (List.replicate k (ascii "..") ++ ns)) = ⟨k, ns.reverse⟩ := by
  have hw : ∀ w ∈ List.replicate k (ascii "..") ++ ns, w ≠ [] ∧ 47 ∉ w := by
    intro w hw
    rcases List.mem_append.mp hw with hw | hw
    · rw [List.eq_of_mem_replicate hw]; exact ⟨dots_plain.1, dots_plain.2.1⟩
    · exact ⟨(h w hw).1, (h w hw).2.2.2⟩
  have hr := joinWords_head _ hne hw
  refine ⟨hr, ?_⟩
  unfold place
  rw [decide_eq_false hr, words_join _ hne (fun w h => (hw w h).2), List.foldl_append, show ({} : Place) = ⟨0, []⟩ from rfl, fold_up,
    fold_names _ _ _ h]
  simp

/-- A direct path is what `path.Clean` makes of it. -/
theorem clean_direct (q : Bytes) (h : Direct q) : GoPath.clean q = q := by
  rw [clean_eq]
  cases h with
  | here => decide +kernel
  | root ns hn =>
    have hr : Rooted (47 :: joinWords ns) := rfl
    rw [place_root ns hn, decide_eq_true hr]
    simp [render, Place.words]
  | rel k ns hn hne =>
    obtain ⟨hr, hp⟩ := place_rel k ns hn hne
    have e : render false ⟨k, ns.reverse⟩ = joinWords (List.replicate k (ascii "..") ++ ns) := by simp [render, Place.words]
    rw [hp, decide_eq_false hr, e, if_neg]
    intro h0
    have := joinWords_pos _ hne (fun w hw => by
      rcases List.mem_append.mp hw with hw | hw
      · rw [List.eq_of_mem_replicate hw]; exact dots_plain.1
      · exact (hn w hw).1)
    rw [h0] at this
    simp at this

theorem clean_same (p q : Bytes) (h : SamePlace p q) : GoPath.clean p = GoPath.clean q := by
  rw [clean_eq, clean_eq, h.2, show decide (Rooted p) = decide (Rooted q) from decide_eq_decide.mpr h.1]

/-- **C114** (`path.Clean`).  It returns the one direct path that leads to the same place. -/
theorem C114_clean (p : Bytes) : ∀ q, q = GoPath.clean p ↔ Direct q ∧ SamePlace q p := by
  have key : Direct (GoPath.clean p) ∧ SamePlace (GoPath.clean p) p := by
    have hok := place_ok p
    rw [clean_eq]
    generalize hpl : place p = pl at hok
    obtain ⟨up, ns⟩ := pl
    have hns : ∀ n ∈ ns.reverse, PathName n := fun n hn => hok.names n (List.mem_reverse.mp hn)
    by_cases hr : Rooted p
    · rw [decide_eq_true hr] at hok ⊢
      have h0 := hok.up rfl
      dsimp only at h0
      subst h0
      have e : render true ⟨0, ns⟩ = 47 :: joinWords ns.reverse := by simp [render, Place.words]
      rw [e, if_neg (by simp)]
      refine ⟨.root _ hns, ⟨fun _ => hr, fun _ => rfl⟩, ?_⟩
      rw [place_root _ hns, hpl, List.reverse_reverse]
    · rw [decide_eq_false hr] at hok ⊢
      have e : render false ⟨up, ns⟩ = joinWords (List.replicate up (ascii "..") ++ ns.reverse) := by simp [render, Place.words]
      rw [e]
      by_cases hne : List.replicate up (ascii "..") ++ ns.reverse = []
      · rw [hne, if_pos (by rfl)]
        have hup : up = 0 ∧ ns = [] := by simpa using hne
        rw [hup.1, hup.2] at hpl
        exact ⟨.here, ⟨fun h => absurd h (by decide +kernel), fun h => absurd h hr⟩, by rw [hpl]; decide +kernel⟩
      · rw [if_neg]
        · obtain ⟨a, b⟩ := place_rel up ns.reverse hns hne
          exact ⟨.rel _ _ hns hne, ⟨fun h => absurd h a, fun h => absurd h hr⟩, by rw [b, hpl, List.reverse_reverse]⟩
        · intro h0
          have := joinWords_pos _ hne (fun w hw => by
            rcases List.mem_append.mp hw with hw | hw
            · rw [List.eq_of_mem_replicate hw]; exact dots_plain.1
            · exact (hns w hw).1)
          rw [h0] at this
          simp at this
  intro q
  constructor
  · rintro rfl; exact key
  · rintro ⟨h1, h2⟩
    rw [← clean_direct q h1]
    exact clean_same q p h2

end Sigtool
