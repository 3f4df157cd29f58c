import Verif.RandomCli
import Verif.Props.Random
import Verif.Props.CliOutput
import Verif.Props.Main
/-!
# C84, for the program: a run uses fresh random bytes, or fails without changing a file
-/

namespace Sigtool

/-- The loop over the recipients. -/
theorem addAllR_spec (D : Deps) (fs : FS) (pka : List PublicKey) : ∀ (args : List Bytes) (e : Encryptor) (n : Nat) (rnd rnd' : Reader)
    (r : Res (Encryptor × Nat)), addAllR D fs pka e n args rnd = (r, rnd') →
    (∃ rbufs drawn, rbufs.length = args.length ∧ (∀ b ∈ rbufs, b.length = 12) ∧ addAll D fs pka e n (args.zip rbufs) = r ∧
      drawn.Sublist rbufs ∧ rnd.content = drawn.flatten ++ rnd'.content ∧
      (∀ e' m, r = .ok (e', m) → e'.auth = e.auth ∧ n ≤ m ∧ (m = n → drawn = rbufs))) ∨
    r = .panic noRandom := by
  intro args
  induction args with
  | nil =>
    intro e n rnd rnd' r h
    unfold addAllR at h
    cases h
    left
    refine ⟨[], [], rfl, by simp, by simp [addAll], .slnil, rfl, ?_⟩
    intro e' m h; cases h; exact ⟨rfl, le_refl _, fun _ => rfl⟩
  | cons fn rs ih =>
    intro e n rnd rnd' r h
    have zero : (List.replicate 12 0 : Bytes).length = 12 := by simp
    have zeros : ∀ b ∈ List.replicate (fn :: rs).length (List.replicate 12 0 : Bytes), b.length = 12 := by
      intro b hb; rw [List.eq_of_mem_replicate hb]; simp
    unfold addAllR at h
    cases hr : resolveRecipient D fs pka fn with
    | panic w =>
      rw [hr] at h
      cases h
      left
      refine ⟨List.replicate (fn :: rs).length (List.replicate 12 0), [], by simp, zeros, ?_, List.nil_sublist _, rfl, by simp⟩
      simp only [List.length_cons, List.replicate_succ, List.zip_cons_cons, addAll, hr]
    | err w =>
      rw [hr] at h
      cases h
      left
      refine ⟨List.replicate (fn :: rs).length (List.replicate 12 0), [], by simp, zeros, ?_, List.nil_sublist _, rfl, by simp⟩
      simp only [List.length_cons, List.replicate_succ, List.zip_cons_cons, addAll, hr]
    | ok o =>
      rw [hr] at h
      cases o with
      | none =>
        rcases ih _ _ _ _ _ h with ⟨rbufs, drawn, g1, g2, g3, g4, g5, g6⟩ | g
        · left
          refine ⟨List.replicate 12 0 :: rbufs, drawn, by simp [g1], ?_, ?_, .cons _ g4, g5, ?_⟩
          · intro b hb
            rcases List.mem_cons.mp hb with rfl | hb
            · simp
            · exact g2 b hb
          · simp only [List.zip_cons_cons, addAll, hr]; exact g3
          · intro e' m hm
            obtain ⟨k1, k2, _⟩ := g6 e' m hm
            exact ⟨k1, by omega, fun h => by omega⟩
        · exact .inr g
      | some pk =>
        dsimp only at h
        rcases ha : e.addRecipientR D.P pk rnd with ⟨r1, e1, rnd1⟩
        rw [ha] at h
        rcases addRecipientR_spec D.P _ _ _ _ _ _ ha with ⟨coin, d, g1, g2, g3, g4, g5⟩ | ⟨rfl, _, _⟩
        · cases r1 with
          | ok u =>
            have hd := g3 rfl
            subst hd
            dsimp only at h
            rcases ih _ _ _ _ _ h with ⟨rbufs, drawn, k1, k2, k3, k4, k5, k6⟩ | k
            · left
              refine ⟨d :: rbufs, d :: drawn, by simp [k1], ?_, ?_, .cons_cons _ k4, by rw [g4, k5]; simp, ?_⟩
              · intro b hb
                rcases List.mem_cons.mp hb with rfl | hb
                · exact g1
                · exact k2 b hb
              · simp only [List.zip_cons_cons, addAll, hr, g5]; exact k3
              · intro e' m hm
                obtain ⟨j1, j2, j3⟩ := k6 e' m hm
                exact ⟨by rw [j1, add_auth _ _ _ _ _ _ g5], j2, fun h => by rw [j3 h]⟩
            · exact .inr k
          | err x =>
            cases h
            left
            refine ⟨coin :: List.replicate rs.length (List.replicate 12 0), if d = [] then [] else [d], by simp, ?_, ?_, ?_, ?_, by simp⟩
            · intro b hb
              rcases List.mem_cons.mp hb with rfl | hb
              · exact g1
              · rw [List.eq_of_mem_replicate hb]; simp
            · simp only [List.zip_cons_cons, addAll, hr, g5]
            · split
              · exact List.nil_sublist _
              · rcases g2 with rfl | h
                · exact List.cons_sublist_cons.mpr (List.nil_sublist _)
                · contradiction
            · rw [g4]; split <;> simp [*]
          | panic x =>
            cases h
            left
            refine ⟨coin :: List.replicate rs.length (List.replicate 12 0), if d = [] then [] else [d], by simp, ?_, ?_, ?_, ?_, by simp⟩
            · intro b hb
              rcases List.mem_cons.mp hb with rfl | hb
              · exact g1
              · rw [List.eq_of_mem_replicate hb]; simp
            · simp only [List.zip_cons_cons, addAll, hr, g5]
            · split
              · exact List.nil_sublist _
              · rcases g2 with rfl | h
                · exact List.cons_sublist_cons.mpr (List.nil_sublist _)
                · contradiction
            · rw [g4]; split <;> simp [*]
        · cases h
          exact .inr rfl

/-- The random bytes of a run of `encrypt`, in the order in which they are drawn. -/
def Spec.encryptPieces (c : EncCoins) (rbufs : List Bytes) (coin : Bytes) : List Bytes := [c.csk, c.key, c.salt] ++ rbufs ++ [coin]

/-- `drawn` are the pieces taken from the random source: some of them, in order, none twice; if the run succeeds, all of them, apart
from the trailer if there is a sender. -/
structure Spec.EncryptDraws (c : EncCoins) (rbufs : List Bytes) (coin : Bytes) (signed success : Prop) (drawn : List Bytes) : Prop where
  wf : c.WF
  nonces : ∀ b ∈ rbufs, b.length = 12
  trailer : coin.length = 64
  once : drawn.Sublist (Spec.encryptPieces c rbufs coin)
  all : success → drawn = [c.csk, c.key, c.salt] ++ rbufs ++ [coin] ∨ (signed ∧ drawn = [c.csk, c.key, c.salt] ++ rbufs)

theorem encryptBodyR_spec (D : Deps) (fs : FS) (pka : List PublicKey) (sk : Option PrivateKey) (blk : Nat) (args : List Bytes)
    (rd rnd rnd' : Reader) (wr wr' : Writer) (r : Res Nat) (h : encryptBodyR D fs pka sk blk args rd rnd wr = (r, wr', rnd')) :
    (∃ c rbufs coin drawn, rbufs.length = args.length ∧ encryptBody D fs pka sk blk c (args.zip rbufs) rd coin wr = (r, wr') ∧
      Spec.EncryptDraws c rbufs coin (sk ≠ none) (r = .ok 0) drawn ∧ rnd.content = drawn.flatten ++ rnd'.content) ∨
    (r = .panic noRandom ∧ wr'.closes = wr.closes) := by
  unfold encryptBodyR at h
  rcases hn : newEncryptorR D.P rnd sk blk with ⟨r1, rnd1⟩
  rw [hn] at h
  rcases newEncryptorR_spec D.P rnd rnd1 sk blk r1 hn with ⟨c, d, h1, h2, h3, h4, h5⟩ | ⟨rfl, _⟩
  · -- what was drawn so far
    have hd3 : ∃ dl : List Bytes, dl.flatten = d ∧ dl.Sublist [c.csk, c.key, c.salt] ∧ (∀ e, r1 = .ok e → dl = [c.csk, c.key, c.salt]) := by
      rcases h3 with h3 | h3
      · exact ⟨[c.csk, c.key, c.salt], by simp [h3], List.Sublist.refl _, fun _ _ => rfl⟩
      · by_cases ho : ∃ e, r1 = .ok e
        · obtain ⟨e, he⟩ := ho
          exact ⟨[c.csk, c.key, c.salt], by simp [h4 e he], List.Sublist.refl _, fun _ _ => rfl⟩
        · exact ⟨[c.csk], by simp [h3], by simp, fun e he => absurd ⟨e, he⟩ ho⟩
    obtain ⟨dl, q1, q2, q3⟩ := hd3
    have zl : (List.replicate args.length (List.replicate 12 0 : Bytes)).length = args.length := by simp
    have zeros : ∀ b ∈ List.replicate args.length (List.replicate 12 0 : Bytes), b.length = 12 := by
      intro b hb; rw [List.eq_of_mem_replicate hb]; simp
    cases r1 with
    | err x =>
      cases h
      left
      refine ⟨c, _, List.replicate 64 0, dl, zl, ?_, ⟨h1, zeros, by simp, ?_, by simp⟩, by rw [h2, q1]⟩
      · unfold encryptBody; rw [h5]; rfl
      · unfold Spec.encryptPieces; rw [List.append_assoc]; exact q2.trans (List.sublist_append_left _ _)
    | panic x =>
      cases h
      left
      refine ⟨c, _, List.replicate 64 0, dl, zl, ?_, ⟨h1, zeros, by simp, ?_, by simp⟩, by rw [h2, q1]⟩
      · unfold encryptBody; rw [h5]; rfl
      · unfold Spec.encryptPieces; rw [List.append_assoc]; exact q2.trans (List.sublist_append_left _ _)
    | ok e =>
      have hdl := q3 e rfl
      subst hdl
      dsimp only at h
      rcases ha : addAllR D fs pka e 0 args rnd1 with ⟨r2, rnd2⟩
      rw [ha] at h
      rcases addAllR_spec D fs pka args e 0 rnd1 rnd2 r2 ha with ⟨rbufs, drawn, g1, g2, g3, g4, g5, g6⟩ | rfl
      · have hcont : rnd.content = ([c.csk, c.key, c.salt] ++ drawn).flatten ++ rnd2.content := by
          rw [h2, ← q1, g5]; simp
        have hsub : ([c.csk, c.key, c.salt] ++ drawn).Sublist ([c.csk, c.key, c.salt] ++ rbufs) := List.Sublist.append (List.Sublist.refl _) g4
        cases r2 with
        | err x =>
          cases h
          left
          refine ⟨c, rbufs, List.replicate 64 0, _, g1, ?_, ⟨h1, g2, by simp, hsub.trans (List.sublist_append_left _ _), by simp⟩, hcont⟩
          unfold encryptBody; rw [h5]; simp only [Res.bind]; rw [g3]
        | panic x =>
          cases h
          left
          refine ⟨c, rbufs, List.replicate 64 0, _, g1, ?_, ⟨h1, g2, by simp, hsub.trans (List.sublist_append_left _ _), by simp⟩, hcont⟩
          unfold encryptBody; rw [h5]; simp only [Res.bind]; rw [g3]
        | ok y =>
          obtain ⟨e2, errs⟩ := y
          dsimp only at h
          obtain ⟨k1, _, k3⟩ := g6 e2 errs rfl
          by_cases he : errs > 0
          · rw [if_pos he] at h
            cases h
            left
            refine ⟨c, rbufs, List.replicate 64 0, _, g1, ?_, ⟨h1, g2, by simp, hsub.trans (List.sublist_append_left _ _), by simp⟩, hcont⟩
            unfold encryptBody; rw [h5]; simp only [Res.bind]; rw [g3]; dsimp only; rw [if_pos he]
          · rw [if_neg he] at h
            have hall := k3 (by omega)
            subst hall
            rcases hE : e2.encryptR D.P rd wr rnd2 with ⟨r3, e3, rd3, wr3, rnd3⟩
            rw [hE] at h
            rcases encryptR_spec D.P _ _ _ _ _ _ _ _ _ hE with ⟨coin, d3, m1, m2, m3, m4, m5⟩ | ⟨rfl, m2, _⟩
            · left
              have hbody : encryptBody D fs pka sk blk c (args.zip drawn) rd coin wr = (r, wr') ∧ rnd3 = rnd' ∧ (r = .ok 0 → r3 = .ok ()) := by
                unfold encryptBody
                rw [h5]
                simp only [Res.bind]
                rw [g3]
                dsimp only
                rw [if_neg he, m5]
                cases r3 <;> cases h <;> simp
              obtain ⟨hb1, rfl, hb3⟩ := hbody
              refine ⟨c, drawn, coin, [c.csk, c.key, c.salt] ++ drawn ++ (if d3 = [] then [] else [d3]), g1, hb1, ⟨h1, g2, m1, ?_, ?_⟩, ?_⟩
              · unfold Spec.encryptPieces
                refine List.Sublist.append (List.Sublist.refl _) ?_
                split
                · exact List.nil_sublist _
                · rcases m2 with rfl | m2
                  · exact List.Sublist.refl _
                  · contradiction
              · intro hs
                have hr3 := hb3 hs
                cases sk with
                | none =>
                  left
                  have : d3 = coin := m3 ⟨by rw [k1, newEncryptor_auth h5]; rfl, hr3⟩
                  subst this
                  rw [if_neg]
                  intro h0; rw [h0] at m1; cases m1
                | some s =>
                  rcases m2 with rfl | rfl
                  · left; rw [if_neg]; intro h0; rw [h0] at m1; cases m1
                  · right; exact ⟨by simp, by simp⟩
              · rw [hcont, m4]; split <;> simp [*]
            · cases h
              exact .inr ⟨rfl, m2⟩
      · cases h
        exact .inr ⟨rfl, rfl⟩
  · cases h
    exact .inr ⟨rfl, rfl⟩

/-- Giving the random bytes by position or by a list is the same. -/
theorem zipIdx_zip (args rbufs : List Bytes) (h : rbufs.length = args.length) (z : Bytes) :
    (args.zipIdx.map fun a => (a.1, (rbufs[a.2]?).getD z)) = args.zip rbufs := by
  apply List.ext_getElem?
  intro i
  simp only [List.getElem?_map, List.getElem?_zipIdx, Nat.zero_add]
  by_cases hi : i < args.length
  · rw [List.getElem?_eq_getElem hi, List.getElem?_eq_getElem (by simp; omega)]
    simp [List.getElem?_eq_getElem (show i < rbufs.length by omega)]
  · rw [List.getElem?_eq_none (by omega), List.getElem?_eq_none (by simp; omega)]
    rfl

/-- The same world with these random bytes. -/
def World.withRandom (W : World) (seed salt : Bytes) (c : EncCoins) (rbufs : List Bytes) (coin : Bytes) : World :=
  { W with seed := seed, salt := salt, coins := c, rbuf := fun i => (rbufs[i]?).getD (List.replicate 12 0), coin := coin }

theorem withOutputR_spec (fs : FS) (env : SafeEnv) (perm : Nat) (stdout : Writer) (outfile : Path) (force : Bool)
    (body : Writer → Res Nat × Writer × Reader) (rnd rnd' : Reader) (o : Outcome)
    (h : withOutputR fs env perm stdout outfile force body rnd = (o, rnd')) :
    (rnd' = rnd ∧ o.exit ≠ 0 ∧ ∀ b, withOutput fs env perm stdout outfile force b = o) ∨
    (∃ w r w', body w = (r, w', rnd') ∧ o.exit = exitOf r ∧ (∀ b : Writer → Res Nat × Writer, b w = (r, w') → withOutput fs env perm stdout outfile force b = o) ∧
      (r.isPanic = true → w'.closes = w.closes → w.closes = 0 ∨ (outfile = [] ∨ outfile = ascii "-") → SafeRun env outfile [] false o.sys) ∧
      (w = stdout ∧ (outfile = [] ∨ outfile = ascii "-") ∨ w = env.writer outfile)) := by
  unfold withOutputR at h
  by_cases ho : outfile = [] ∨ outfile = ascii "-"
  · rw [if_pos ho] at h
    rcases hb : body stdout with ⟨r, w, rnd1⟩
    rw [hb] at h
    cases h
    right
    refine ⟨stdout, r, w, hb, rfl, ?_, fun _ _ _ => .nothing, .inl ⟨rfl, ho⟩⟩
    intro b hb'
    unfold withOutput
    rw [if_pos ho, hb']
  · rw [if_neg ho] at h
    cases hn : newSafeFile fs env perm outfile force with
    | err x =>
      rw [hn] at h
      cases h
      left
      exact ⟨rfl, by simp, fun b => by unfold withOutput; rw [if_neg ho, hn]⟩
    | panic x => exact absurd hn (newSafeFile_no_panic _ _ _ _ _)
    | ok cs =>
      rw [hn] at h
      dsimp only at h
      rcases hb : body (env.writer outfile) with ⟨r, w, rnd1⟩
      rw [hb] at h
      cases h
      right
      refine ⟨env.writer outfile, r, w, hb, rfl, ?_, ?_, .inr rfl⟩
      · intro b hb'
        unfold withOutput
        rw [if_neg ho, hn]
        dsimp only
        rw [hb']
      · intro _ hc _
        exact safeCalls_open env outfile w hc []

theorem EncryptDraws_idle (n : Nat) (signed : Prop) :
    ∃ c rbufs coin, rbufs.length = n ∧ Spec.EncryptDraws c rbufs coin signed False [] :=
  ⟨⟨List.replicate 32 0, List.replicate 32 0, List.replicate 32 0⟩, List.replicate n (List.replicate 12 0), List.replicate 64 0, by simp,
    ⟨⟨by simp, by simp, by simp⟩, fun b hb => by rw [List.eq_of_mem_replicate hb]; simp, by simp, List.nil_sublist _, False.elim⟩⟩

theorem EncryptDraws_weaken {c : EncCoins} {rbufs : List Bytes} {coin : Bytes} {signed signed' p q : Prop} {drawn : List Bytes}
    (h : Spec.EncryptDraws c rbufs coin signed p drawn) (hs : signed → signed') (hq : q → p) : Spec.EncryptDraws c rbufs coin signed' q drawn :=
  ⟨h.wf, h.nonces, h.trailer, h.once, fun hh => (h.all (hq hh)).imp id (fun g => ⟨hs g.1, g.2⟩)⟩

theorem encryptCmdR_spec (D : Deps) (fs : FS) (env : SafeEnv) (stdout : Writer) (outfile : Path) (force : Bool) (keyfile : Path)
    (getpw : GetPw) (blksize : Option Nat) (authkeys : Option Path) (args : List Bytes) (infile : Path) (rd rnd rnd' : Reader) (o : Outcome)
    (h : encryptCmdR D fs env stdout outfile force keyfile getpw blksize authkeys args infile rd rnd = (o, rnd')) :
    (∃ c rbufs coin drawn, rbufs.length = args.length ∧
      encryptCmd D fs env stdout outfile force keyfile getpw blksize authkeys (args.zip rbufs) infile rd c coin = o ∧
      Spec.EncryptDraws c rbufs coin (keyfile ≠ []) (o.exit = 0) drawn ∧ rnd.content = drawn.flatten ++ rnd'.content) ∨
    (o.exit = 2 ∧ SafeRun env outfile [] false o.sys) := by
  -- the command stops before it draws anything
  have idle : o.exit ≠ 0 → rnd' = rnd → (∀ rb c coin, rb.length = args.length →
      encryptCmd D fs env stdout outfile force keyfile getpw blksize authkeys (args.zip rb) infile rd c coin = o) →
      ∃ c rbufs coin drawn, rbufs.length = args.length ∧
      encryptCmd D fs env stdout outfile force keyfile getpw blksize authkeys (args.zip rbufs) infile rd c coin = o ∧
      Spec.EncryptDraws c rbufs coin (keyfile ≠ []) (o.exit = 0) drawn ∧ rnd.content = drawn.flatten ++ rnd'.content := by
    intro h0 hr hc
    obtain ⟨c, rb, coin, h1, h2⟩ := EncryptDraws_idle args.length (keyfile ≠ [])
    exact ⟨c, rb, coin, [], h1, hc _ _ _ h1, EncryptDraws_weaken h2 id (fun h => absurd h h0), by rw [hr]; simp⟩
  unfold encryptCmdR at h
  unfold encryptCmd at idle ⊢
  cases blksize with
  | none => cases h; exact .inl (idle (by simp) rfl (fun _ _ _ _ => rfl))
  | some blk =>
    dsimp only at h idle ⊢
    generalize hk : (if keyfile = [] then Res.ok none else (readPrivateKey D fs keyfile getpw).bind fun sk => .ok (some sk)) = key at h idle ⊢
    cases key with
    | err x => cases h; exact .inl (idle (by simp) rfl (fun _ _ _ _ => rfl))
    | panic x => cases h; exact .inl (idle (by simp) rfl (fun _ _ _ _ => rfl))
    | ok sk =>
      dsimp only at h idle ⊢
      by_cases hargs : args = []
      · subst hargs
        rw [if_pos rfl] at h
        cases h
        exact .inl (idle (by simp) rfl (fun _ _ _ _ => by simp))
      · have hz : ∀ rb : List Bytes, rb.length = args.length → args.zip rb ≠ [] := by
          intro rb hrb h0
          have := congrArg List.length h0
          simp only [List.length_zip, List.length_nil, hrb, Nat.min_self] at this
          exact hargs (List.length_eq_zero_iff.mp this)
        rw [if_neg hargs] at h
        by_cases hin : infile ≠ ascii "-" ∧ fs.exists infile = false
        · rw [if_pos hin] at h
          cases h
          exact .inl (idle (by simp) rfl (fun rb _ _ hrb => by rw [if_neg (hz rb hrb), if_pos hin]))
        · rw [if_neg hin] at h
          cases authkeys with
          | none =>
            cases h
            exact .inl (idle (by simp) rfl (fun rb _ _ hrb => by rw [if_neg (hz rb hrb), if_neg hin]))
          | some auth =>
            dsimp only at h idle ⊢
            by_cases ha : fs.exists auth = true ∧ fs.read auth = none
            · rw [if_pos ha] at h
              cases h
              exact .inl (idle (by simp) rfl (fun rb _ _ hrb => by rw [if_neg (hz rb hrb), if_neg hin, if_pos ha]))
            · rw [if_neg ha] at h
              rcases withOutputR_spec _ _ _ _ _ _ _ _ _ _ h with ⟨g1, g2, g3⟩ | ⟨w, r, w', g1, g2, g3, g4, g5⟩
              · exact .inl (idle g2 g1 (fun rb _ _ hrb => by rw [if_neg (hz rb hrb), if_neg hin, if_neg ha]; exact g3 _))
              · rcases encryptBodyR_spec D fs _ sk blk args rd rnd rnd' w w' r g1 with ⟨c, rb, coin, drawn, k1, k2, k3, k4⟩ | ⟨rfl, k2⟩
                · left
                  refine ⟨c, rb, coin, drawn, k1, ?_, EncryptDraws_weaken k3 ?_ ?_, k4⟩
                  · rw [if_neg (hz rb k1), if_neg hin, if_neg ha]
                    exact g3 _ k2
                  · intro hs hkf
                    rw [if_pos hkf] at hk
                    cases hk
                    exact hs rfl
                  · intro h0
                    rw [g2] at h0
                    cases r with
                    | ok n => simp only [exitOf] at h0; rw [h0]
                    | err x => cases h0
                    | panic x => cases h0
                · right
                  refine ⟨g2, g4 rfl k2 ?_⟩
                  rcases g5 with ⟨_, g5⟩ | g5
                  · exact .inr g5
                  · left; rw [g5]; rfl

theorem genCmdR_spec (D : Deps) (fs : FS) (env1 env2 : SafeEnv) (force : Bool) (clean comment : Bytes) (pw : Except Err Bytes)
    (rnd rnd' : Reader) (o : Outcome) (h : genCmdR D fs env1 env2 force clean comment pw rnd = (o, rnd')) :
    (∃ seed salt drawn, seed.length = 32 ∧ salt.length = 32 ∧ genCmd D fs env1 env2 force clean comment pw seed salt = o ∧
      (drawn = [] ∨ drawn = [seed, salt]) ∧ (o.exit = 0 → drawn = [seed, salt]) ∧ rnd.content = drawn.flatten ++ rnd'.content) ∨
    (o.exit ≠ 0 ∧ o.sys = [] ∧ o.stdout = []) := by
  unfold genCmdR at h
  by_cases hx : (!force && (fs.exists (pubName clean) || fs.exists (keyName clean))) = true
  · rw [if_pos hx] at h
    cases h
    left
    exact ⟨List.replicate 32 0, List.replicate 32 0, [], by simp, by simp, by unfold genCmd; rw [if_pos hx], .inl rfl, by simp, rfl⟩
  · rw [if_neg hx] at h
    cases pw with
    | error x =>
      cases h
      left
      exact ⟨List.replicate 32 0, List.replicate 32 0, [], by simp, by simp, by unfold genCmd; rw [if_neg hx], .inl rfl, by simp, rfl⟩
    | ok pw =>
      dsimp only at h
      rcases randBuf_spec rnd 32 with ⟨seed, r1, h1, h2, h3⟩ | ⟨r1, h1, h2⟩
      · rw [h1] at h
        dsimp only at h
        rcases randBuf_spec r1 32 with ⟨salt, r2, g1, g2, g3⟩ | ⟨r2, g1, g2⟩
        · rw [g1] at h
          cases h
          left
          exact ⟨seed, salt, [seed, salt], h2, g2, rfl, .inr rfl, fun _ => rfl, by rw [h3, g3]; simp⟩
        · rw [g1] at h
          cases h
          exact .inr ⟨by simp, rfl, rfl⟩
      · rw [h1] at h
        cases h
        exact .inr ⟨by simp, rfl, rfl⟩

/-- **C84** (`generate`). The run is that of `generate` with a seed and a salt that were taken from the random source, one after the
other, or the source failed: then the exit status is not 0 and the run has written nothing. -/
theorem C84_generate (W : World) (args : List Bytes) (rnd rnd' : Reader) (o : Outcome) (h : W.genR args rnd = (o, rnd')) :
    (∃ seed salt drawn, seed.length = 32 ∧ salt.length = 32 ∧ ({ W with seed := seed, salt := salt } : World).gen args = o ∧
      (drawn = [] ∨ drawn = [seed, salt]) ∧
      (∀ op rest, W.flags.gen args = .ok op rest → o.exit = 0 → drawn = [seed, salt]) ∧ rnd.content = drawn.flatten ++ rnd'.content) ∨
    (o.exit ≠ 0 ∧ o.sys = [] ∧ o.stdout = []) := by
  unfold World.genR at h
  unfold World.gen
  dsimp only
  have z : (List.replicate 32 0 : Bytes).length = 32 := by simp
  cases hf : W.flags.gen args with
  | help => rw [hf] at h; cases h; exact .inl ⟨_, _, [], z, z, rfl, .inl rfl, by simp, rfl⟩
  | bad => rw [hf] at h; cases h; exact .inl ⟨_, _, [], z, z, rfl, .inl rfl, by simp, rfl⟩
  | ok op rest =>
    rw [hf] at h
    cases rest with
    | nil => cases h; exact .inl ⟨_, _, [], z, z, rfl, .inl rfl, by simp, rfl⟩
    | cons bn more =>
      rcases genCmdR_spec _ _ _ _ _ _ _ _ _ _ _ h with ⟨seed, salt, drawn, h1, h2, h3, h4, h5, h6⟩ | h'
      · exact .inl ⟨seed, salt, drawn, h1, h2, h3, h4, fun _ _ _ => h5, h6⟩
      · exact .inr h'

/-- **C84** (`encrypt`). The run is that of `encrypt` with random bytes taken from the random source, each piece once, or the source
failed: then the exit status is 2 (the crash of the Go runtime) and the run leaves the output file as it was. -/
theorem C84_encrypt (W : World) (args : List Bytes) (rnd rnd' : Reader) (o : Outcome) (h : W.encryptR args rnd = (o, rnd')) :
    (∃ c rbufs coin drawn, (W.withRandom W.seed W.salt c rbufs coin).encrypt args = o ∧
      Spec.EncryptDraws c rbufs coin True False drawn ∧
      (∀ op rest, W.flags.enc args = .ok op rest →
        rbufs.length = rest.length - 1 ∧ Spec.EncryptDraws c rbufs coin (op.sign ≠ []) (o.exit = 0) drawn) ∧
      rnd.content = drawn.flatten ++ rnd'.content) ∨
    (o.exit = 2 ∧ ∃ op rest, W.flags.enc args = .ok op rest ∧ SafeRun W.env1 op.outfile [] false o.sys) := by
  unfold World.encryptR at h
  unfold World.encrypt
  cases hf : W.flags.enc args with
  | help =>
    rw [hf] at h; cases h
    obtain ⟨c, rb, coin, _, hi⟩ := EncryptDraws_idle 0 True
    exact .inl ⟨c, rb, coin, [], by simp only [World.withRandom, hf], hi, by simp, rfl⟩
  | bad =>
    rw [hf] at h; cases h
    obtain ⟨c, rb, coin, _, hi⟩ := EncryptDraws_idle 0 True
    exact .inl ⟨c, rb, coin, [], by simp only [World.withRandom, hf], hi, by simp, rfl⟩
  | ok op rest =>
    rw [hf] at h
    dsimp only at h
    rcases encryptCmdR_spec _ _ _ _ _ _ _ _ _ _ _ _ _ _ _ _ h with ⟨c, rb, coin, drawn, h1, h2, h3, h4⟩ | ⟨h1, h2⟩
    · left
      refine ⟨c, rb, coin, drawn, ?_, EncryptDraws_weaken h3 (fun _ => trivial) False.elim, ?_, h4⟩
      · simp only [World.withRandom, hf, World.getpw, World.input]
        rw [zipIdx_zip _ _ h1]
        exact h2
      · intro op' rest' hh
        cases hh
        exact ⟨by rw [h1]; simp, h3⟩
    · right
      exact ⟨h1, op, rest, rfl, h2⟩

theorem World.withRandom_rbuf (W : World) (seed salt : Bytes) (c : EncCoins) (rbufs : List Bytes) (coin : Bytes)
    (h : ∀ b ∈ rbufs, b.length = 12) (i : Nat) : ((W.withRandom seed salt c rbufs coin).rbuf i).length = 12 := by
  unfold World.withRandom
  dsimp only
  cases hi : rbufs[i]? with
  | none => simp
  | some b => exact h b (List.mem_of_getElem? hi)

/-- **C84** (whole program). Whatever the command line and the random source: the run is the run with random bytes that were taken from
the source, each piece once and in order (`generate`: seed and salt; `encrypt`: ephemeral key, data key, salt, a nonce for each
recipient, trailer; other commands: nothing); or the source failed, and then the exit status is not 0 and no file has changed (temporary
files aside). -/
theorem C84_main (W : World) (argv : List Bytes) (rnd rnd' : Reader) (o : Outcome) (h : W.mainR argv rnd = (o, rnd')) :
    (∃ seed salt c rbufs coin drawn, (W.withRandom seed salt c rbufs coin).main argv = o ∧
      seed.length = 32 ∧ salt.length = 32 ∧ c.WF ∧ (∀ i, ((W.withRandom seed salt c rbufs coin).rbuf i).length = 12) ∧ coin.length = 64 ∧
      (drawn = [] ∨ drawn = [seed, salt] ∨ drawn.Sublist ([c.csk, c.key, c.salt] ++ rbufs ++ [coin])) ∧
      rnd.content = drawn.flatten ++ rnd'.content) ∨
    (o.exit ≠ 0 ∧ (Spec.Fresh W.fs W.env1.tmp W.env1.inode → Spec.SameBut W.fs (W.fs.run o.sys) [W.env1.tmp])) := by
  have z : (List.replicate 32 0 : Bytes).length = 32 := by simp
  have z64 : (List.replicate 64 0 : Bytes).length = 64 := by simp
  have hcWF : EncCoins.WF ⟨List.replicate 32 0, List.replicate 32 0, List.replicate 32 0⟩ := ⟨by simp, by simp, by simp⟩
  have h12 : ∀ seed salt c coin i, ((W.withRandom seed salt c [] coin).rbuf i).length = 12 :=
    fun _ _ _ _ i => W.withRandom_rbuf _ _ _ _ _ (by simp) i
  -- runs that draw nothing
  have idle : rnd' = rnd → (∀ seed salt c rbufs coin, (W.withRandom seed salt c rbufs coin).main argv = o) →
      ∃ seed salt c rbufs coin drawn, (W.withRandom seed salt c rbufs coin).main argv = o ∧
      seed.length = 32 ∧ salt.length = 32 ∧ c.WF ∧ (∀ i, ((W.withRandom seed salt c rbufs coin).rbuf i).length = 12) ∧ coin.length = 64 ∧
      (drawn = [] ∨ drawn = [seed, salt] ∨ drawn.Sublist ([c.csk, c.key, c.salt] ++ rbufs ++ [coin])) ∧
      rnd.content = drawn.flatten ++ rnd'.content := by
    intro hr hm
    exact ⟨_, _, _, [], _, [], hm _ _ _ _ _, z, z, hcWF, h12 _ _ _ _, z64, .inl rfl, by rw [hr]; simp⟩
  unfold World.mainR at h
  cases ht : W.flags.top argv with
  | help =>
    rw [ht] at h; cases h
    exact .inl (idle rfl (fun _ _ _ _ _ => by simp only [World.withRandom, World.main, ht]))
  | bad =>
    rw [ht] at h; cases h
    exact .inl (idle rfl (fun _ _ _ _ _ => by simp only [World.withRandom, World.main, ht]))
  | ok op args =>
    rw [ht] at h
    dsimp only at h
    by_cases hv : op.version = true
    · rw [if_pos hv] at h; cases h
      exact .inl (idle rfl (fun _ _ _ _ _ => by simp only [World.withRandom, World.main, ht, hv, if_true]))
    · rw [if_neg hv] at h
      by_cases hh : op.help = true
      · rw [if_pos hh] at h; cases h
        exact .inl (idle rfl (fun _ _ _ _ _ => by simp only [World.withRandom, World.main, ht, hv, hh, if_true, Bool.false_eq_true, if_false]))
      · rw [if_neg hh] at h
        cases args with
        | nil =>
          cases h
          exact .inl (idle rfl (fun _ _ _ _ _ => by simp only [World.withRandom, World.main, ht, hv, hh, Bool.false_eq_true, if_false]))
        | cons cmd rest =>
          dsimp only at h
          cases hs : selectCommand W.lower W.order cmd with
          | none =>
            rw [hs] at h; cases h
            exact .inl (idle rfl (fun _ _ _ _ _ => by simp only [World.withRandom, World.main, ht, hv, hh, Bool.false_eq_true, if_false, hs]))
          | some canon =>
            rw [hs] at h
            dsimp only at h
            have hmain : ∀ seed salt c rbufs coin, (W.withRandom seed salt c rbufs coin).main argv =
                match (W.withRandom seed salt c rbufs coin).dispatch canon with
                | none => { exit := 1 }
                | some f => f rest := by
              intro seed salt c rbufs coin
              have e1 : (W.withRandom seed salt c rbufs coin).flags.top argv = .ok op (cmd :: rest) := ht
              have e2 : selectCommand (W.withRandom seed salt c rbufs coin).lower (W.withRandom seed salt c rbufs coin).order cmd = some canon := hs
              unfold World.main
              rw [e1]
              dsimp only
              rw [if_neg hv, if_neg hh, e2]
              rfl
            unfold World.dispatchR at h
            by_cases hg : canon = ascii "generate"
            · rw [if_pos hg] at h
              dsimp only at h
              rcases C84_generate W rest rnd rnd' o h with ⟨seed, salt, drawn, g1, g2, g3, g4, _, g6⟩ | ⟨g1, g2, _⟩
              · left
                refine ⟨seed, salt, _, [], _, drawn, ?_, g1, g2, hcWF, h12 _ _ _ _, z64, ?_, g6⟩
                · rw [hmain]
                  unfold World.dispatch
                  rw [if_pos hg]
                  dsimp only
                  rw [← g3]
                  rfl
                · rcases g4 with g4 | g4
                  · exact .inl g4
                  · exact .inr (.inl g4)
              · right
                refine ⟨g1, fun _ => ?_⟩
                rw [g2]
                exact fun p _ => ⟨rfl, rfl⟩
            · rw [if_neg hg] at h
              by_cases he : canon = ascii "encrypt"
              · rw [if_pos he] at h
                dsimp only at h
                rcases C84_encrypt W rest rnd rnd' o h with ⟨c, rb, coin, drawn, g1, g2, _, g4⟩ | ⟨g1, op', rest', _, g3⟩
                · left
                  refine ⟨List.replicate 32 0, List.replicate 32 0, c, rb, coin, drawn, ?_, z, z, g2.wf, W.withRandom_rbuf _ _ _ _ _ g2.nonces,
                    g2.trailer, .inr (.inr g2.once), g4⟩
                  rw [hmain]
                  unfold World.dispatch
                  rw [if_neg hg, if_neg (by rw [he]; decide), if_neg (by rw [he]; decide), if_pos he]
                  dsimp only
                  rw [← g1]
                  rfl
                · right
                  refine ⟨by rw [g1]; simp, fun hf => ?_⟩
                  exact fun p hp => (g3.failure W.fs hf).1 p (by simpa using hp)
              · rw [if_neg he] at h
                have hd : ∀ seed salt c rbufs coin, (W.withRandom seed salt c rbufs coin).dispatch canon = W.dispatch canon := by
                  intro seed salt c rbufs coin
                  unfold World.dispatch
                  rw [if_neg hg, if_neg hg]
                  by_cases h1 : canon = ascii "sign"
                  · rw [if_pos h1, if_pos h1]; rfl
                  · rw [if_neg h1, if_neg h1]
                    by_cases h2 : canon = ascii "verify"
                    · rw [if_pos h2, if_pos h2]; rfl
                    · rw [if_neg h2, if_neg h2, if_neg he, if_neg he]
                      by_cases h3 : canon = ascii "decrypt"
                      · rw [if_pos h3, if_pos h3]; rfl
                      · rw [if_neg h3, if_neg h3]
                cases hdc : W.dispatch canon with
                | none =>
                  rw [hdc] at h; cases h
                  exact .inl (idle rfl (fun _ _ _ _ _ => by rw [hmain, hd, hdc]))
                | some f =>
                  rw [hdc] at h; cases h
                  exact .inl (idle rfl (fun _ _ _ _ _ => by rw [hmain, hd, hdc]))

end Sigtool
