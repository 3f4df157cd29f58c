import Verif.Props.CliGen
import Verif.Props.RoundTrip
import Verif.Props.Destination
import Verif.Props.AnyBody
import Verif.Props.AuthKeys
/-! # Lemmas on the encrypt and decrypt commands: recipients and output -/

namespace Sigtool

variable {perm : Nat}

/-! ### Recipients -/

theorem indexOf_at (fn : Bytes) : namesUser fn = true ↔ Spec.NamesUser fn := by
  have key : ∀ l : Bytes, (indexOf (ascii "@") l = none ↔ 64 ∉ l) ∧ (indexOf (ascii "@") l = some 0 ↔ l.head? = some 64) := by
    intro l
    have e : ascii "@" = [64] := by decide +kernel
    rw [e]
    induction l with
    | nil => simp [indexOf]
    | cons c t ih =>
      unfold indexOf
      by_cases hc : c = 64
      · subst hc; simp [List.isPrefixOf]
      · have : List.isPrefixOf [64] (c :: t) = false := by simp [List.isPrefixOf]; exact fun h => hc h.symm
        rw [this]
        simp only [Bool.false_eq_true, if_false, Option.map_eq_none_iff, List.mem_cons, not_or, List.head?_cons, Option.some.injEq]
        refine ⟨⟨fun h => ⟨fun h => hc h.symm, ih.1.mp h⟩, fun h => ih.1.mpr h.2⟩, ?_⟩
        constructor
        · intro h
          cases hi : indexOf [64] t with
          | none => rw [hi] at h; cases h
          | some n => rw [hi] at h; simp at h
        · intro h; exact absurd h hc
  obtain ⟨k1, k2⟩ := key fn
  unfold namesUser Spec.NamesUser
  match h : indexOf (ascii "@") fn with
  | none => rw [h] at k1; simp [k1.mp rfl]
  | some 0 => rw [h] at k2; simp [k2.mp rfl]
  | some (n+1) =>
    rw [h] at k1 k2
    simp only [gt_iff_lt, Nat.zero_lt_succ, decide_true, true_iff]
    refine ⟨?_, fun hh => by simpa using k2.mpr hh⟩
    have := k1.not
    simpa using this

theorem keymapGet_some (keys : List PublicKey) (name : Bytes) (pk : PublicKey) :
    keymapGet keys name = some pk ↔
      ∃ before after, keys = before ++ pk :: after ∧ pk.comment = name ∧ ∀ k ∈ after, k.comment ≠ name := by
  unfold keymapGet
  rw [List.find?_eq_some_iff_append]
  constructor
  · rintro ⟨h1, as, bs, h2, h3⟩
    refine ⟨bs.reverse, as.reverse, ?_, by simpa using h1, ?_⟩
    · have := congrArg List.reverse h2
      simpa using this
    · intro k hk
      have := h3 k (by simpa using hk)
      simpa using this
  · rintro ⟨before, after, rfl, h1, h2⟩
    refine ⟨by simpa using h1, after.reverse, before.reverse, by simp, ?_⟩
    intro k hk
    have := h2 k (by simpa using hk)
    simpa using this

theorem resolveRecipient_some (D : Deps) (fs : FS) (keys : List PublicKey) (fn : Bytes) (pk : PublicKey) :
    resolveRecipient D fs keys fn = .ok (some pk) ↔ Spec.Denotes D fs keys fn pk := by
  unfold resolveRecipient Spec.Denotes
  by_cases h : namesUser fn = true
  · rw [if_pos h]
    have h' := (indexOf_at fn).mp h
    simp only [h', true_and, not_true_eq_false, false_and, or_false, Res.ok.injEq]
    exact keymapGet_some keys fn pk
  · rw [if_neg h]
    have h' : ¬ Spec.NamesUser fn := fun hh => h ((indexOf_at fn).mpr hh)
    simp only [h', false_and, not_false_eq_true, true_and, false_or]
    rw [← readPublicKey_ok]
    match hr : readPublicKey D fs fn with
    | .ok p => simp
    | .err e => simp
    | .panic w => simp

theorem resolveRecipient_no_err (D : Deps) (fs : FS) (keys : List PublicKey) (fn : Bytes) (x : Err) :
    resolveRecipient D fs keys fn ≠ .err x := by
  unfold resolveRecipient
  split
  · simp
  · split <;> simp

/-- The loop over the recipients, when it ends. -/
theorem addAll_ok (D : Deps) (fs : FS) (keys : List PublicKey) : ∀ (rcpts : List (Bytes × Bytes)) (e e' : Encryptor) (n m : Nat),
    addAll D fs keys e n rcpts = .ok (e', m) → n ≤ m ∧
      (m = n → ∃ pks, List.Forall₂ (fun r pk => Spec.Denotes D fs keys r.1 pk) rcpts pks ∧
        e.addRecipients D.P (pks.zip (rcpts.map (·.2))) = (.ok (), e')) := by
  intro rcpts
  induction rcpts with
  | nil =>
    intro e e' n m h
    cases h
    exact ⟨Nat.le_refl _, fun _ => ⟨[], .nil, rfl⟩⟩
  | cons r rs ih =>
    obtain ⟨fn, rbuf⟩ := r
    intro e e' n m h
    unfold addAll at h
    match hr : resolveRecipient D fs keys fn with
    | .panic w => rw [hr] at h; cases h
    | .err x => rw [hr] at h; cases h
    | .ok none =>
      rw [hr] at h
      obtain ⟨h1, _⟩ := ih _ _ _ _ h
      exact ⟨by omega, fun h => by omega⟩
    | .ok (some pk) =>
      rw [hr] at h
      dsimp only at h
      match ha : e.addRecipient D.P pk rbuf with
      | (.err x, _) => rw [ha] at h; cases h
      | (.panic x, _) => rw [ha] at h; cases h
      | (.ok (), e1) =>
        rw [ha] at h
        obtain ⟨h1, h2⟩ := ih _ _ _ _ h
        refine ⟨h1, fun hm => ?_⟩
        obtain ⟨pks, g1, g2⟩ := h2 hm
        refine ⟨pk :: pks, .cons ((resolveRecipient_some _ _ _ _ _).mp hr) g1, ?_⟩
        simp only [List.map_cons, List.zip_cons_cons, Encryptor.addRecipients, ha]
        exact g2

/-- `NewEncryptor` and the loop, without errors, are `setupEncryptor` with the denoted keys. -/
theorem setup_addAll (D : Deps) (fs : FS) (keys : List PublicKey) (sk : Option PrivateKey) (blk : Nat) (c : EncCoins)
    (rcpts : List (Bytes × Bytes)) (e : Encryptor)
    (h : ((newEncryptor D.P sk blk c).bind fun e => addAll D fs keys e 0 rcpts) = .ok (e, 0)) :
    ∃ pks, List.Forall₂ (fun r pk => Spec.Denotes D fs keys r.1 pk) rcpts pks ∧
      setupEncryptor D.P sk blk c (pks.zip (rcpts.map (·.2))) = .ok e := by
  obtain ⟨e0, h1, h2⟩ := (bind_ok_iff _ _ _).mp h
  obtain ⟨pks, h3, h4⟩ := (addAll_ok D fs keys rcpts e0 e 0 0 h2).2 rfl
  refine ⟨pks, h3, ?_⟩
  unfold setupEncryptor
  rw [h1, Res.bind_ok, h4]

/-! ### Decrypt never closes its destination -/

theorem decryptLoop_closes (P : Prims) : ∀ (fuel : Nat) (d : Decryptor) (wr : Writer) (i : Nat),
    (Decryptor.decryptLoop P fuel d wr i).2.2.closes = wr.closes ∧
      (Decryptor.decryptLoop P fuel d wr i).2.2.closeErr = wr.closeErr := by
  intro fuel
  induction fuel with
  | zero => intro d wr i; exact ⟨rfl, rfl⟩
  | succ fuel ih =>
    intro d wr i
    unfold Decryptor.decryptLoop
    match d.decryptBlock P i with
    | (.err x, d1) => exact ⟨rfl, rfl⟩
    | (.panic x, d1) => exact ⟨rfl, rfl⟩
    | (.ok (c, eof), d1) =>
      dsimp only
      have hw : ∀ r w', (if c.length > 0 then fullwrite c wr else (none, wr)) = (r, w') →
          w'.closes = wr.closes ∧ w'.closeErr = wr.closeErr := by
        intro r w' h
        split at h
        · obtain ⟨w1, a1, a2, a3, _⟩ := fullwrite_spec c wr
          rcases a3 with ⟨a3, _⟩ | ⟨e, k, a3, _⟩
          · rw [a3] at h; cases h; exact ⟨a1, a2⟩
          · rw [a3] at h; cases h; exact ⟨a1, a2⟩
        · cases h; exact ⟨rfl, rfl⟩
      match hm : (if c.length > 0 then fullwrite c wr else (none, wr)) with
      | (some x, w') => exact hw _ _ hm
      | (none, w') =>
        dsimp only
        have := hw _ _ hm
        split
        · exact this
        · obtain ⟨g1, g2⟩ := ih d1 w' ((i + 1) % 2^32)
          exact ⟨g1.trans this.1, g2.trans this.2⟩

theorem decrypt_closes (P : Prims) (d : Decryptor) (wr : Writer) :
    (d.decrypt P wr).2.2.closes = wr.closes ∧ (d.decrypt P wr).2.2.closeErr = wr.closeErr := by
  unfold Decryptor.decrypt
  split
  · exact ⟨rfl, rfl⟩
  · split
    · exact ⟨rfl, rfl⟩
    · split
      · exact ⟨rfl, rfl⟩
      · exact decryptLoop_closes P _ _ _ _

/-! ### Output through a `SafeFile` -/

theorem safeCalls_open (env : SafeEnv) (target : Path) (w : Writer) (h : w.closes = 0) (content : Bytes) :
    SafeRun env target content false (safeCalls env perm target w false) := by
  unfold safeCalls
  rw [h]
  simpa using SafeRun.failed (env := env) (target := target) (content := content) w.out [] (.inl rfl)

theorem safeCalls_closed (env : SafeEnv) (target : Path) (w : Writer) (h : w.closes ≠ 0) :
    SafeRun env target w.out (closeCalls env target).1.isNone (safeCalls env perm target w false) := by
  unfold safeCalls
  simp only [h, Bool.or_false, decide_false, Bool.false_eq_true, if_false]
  rcases closeCalls_cases env target with hc | ⟨e, hc | hc⟩
  · rw [hc]
    have := SafeRun.done (perm := perm) (env := env) (target := target) (content := w.out)
    simpa using this
  · rw [hc]
    simpa using SafeRun.failed (env := env) (target := target) (content := w.out) w.out [] (.inl rfl)
  · rw [hc]
    simpa using SafeRun.failed (env := env) (target := target) (content := w.out) w.out [.sync env.inode] (.inr rfl)

/-- A complete run changes the target only. -/
theorem SafeRun.same {env : SafeEnv} {target : Path} {content : Bytes} {cs : List Sys}
    (h : SafeRun env target content true cs) (fs : FS) (hf : Spec.Fresh fs env.tmp env.inode) (ht : target ≠ env.tmp) :
    Spec.SameBut fs (fs.run cs) [target] := by
  obtain ⟨_, a2, a3⟩ := h.success fs hf ht
  intro p hp
  by_cases hpt : p = env.tmp
  · subst hpt
    have := hf.name fs.dir (by simp)
    unfold FS.read readIn
    rw [a2, this]
    exact ⟨rfl, rfl⟩
  · exact a3 p (by simpa using hp) hpt

/-- What the commands' bodies guarantee about their output: status 0 only after closing it; otherwise it is still open, or
closing it failed. -/
def BodyOk (body : Writer → Res Nat × Writer) : Prop :=
  ∀ w r w', body w = (r, w') → w.closes = 0 →
    (r = .ok 0 ∧ w'.closes ≠ 0) ∨ (exitOf r ≠ 0 ∧ (w'.closes = 0 ∨ w.closeErr ≠ none))

/-- A command with an output file that exits with a status other than 0: all its file system calls leave everything as it was. -/
theorem withOutput_failure (fs : FS) (env : SafeEnv) (stdout : Writer) (outfile : Path) (force : Bool)
    (body : Writer → Res Nat × Writer) (hb : BodyOk body) (ho : outfile ≠ [] ∧ outfile ≠ ascii "-")
    (h : (withOutput fs env perm stdout outfile force body).exit ≠ 0) :
    ∃ content, SafeRun env outfile content false (withOutput fs env perm stdout outfile force body).sys := by
  unfold withOutput at h ⊢
  rw [if_neg (by rintro (h | h); exacts [ho.1 h, ho.2 h])] at h ⊢
  match hn : newSafeFile fs env perm outfile force with
  | .err e => exact ⟨[], .nothing⟩
  | .panic w => exact absurd hn (newSafeFile_no_panic _ _ _ _ _)
  | .ok cs =>
    rw [hn] at h
    dsimp only at h ⊢
    match hbody : body (env.writer outfile) with
    | (r, w) =>
      rw [hbody] at h
      dsimp only at h ⊢
      rcases hb _ _ _ hbody rfl with ⟨h1, _⟩ | ⟨_, h2 | h2⟩
      · rw [h1] at h; exact absurd rfl h
      · exact ⟨[], safeCalls_open env outfile w h2 []⟩
      · by_cases hc : w.closes = 0
        · exact ⟨[], safeCalls_open env outfile w hc []⟩
        · refine ⟨w.out, ?_⟩
          have := safeCalls_closed (perm := perm) env outfile w hc
          have hs : (closeCalls env outfile).1.isNone = false := by
            cases hcc : (closeCalls env outfile).1 with
            | none => exact absurd hcc h2
            | some _ => rfl
          rw [hs] at this
          exact this

/-- A command with an output file that exits with 0. -/
theorem withOutput_success (fs : FS) (env : SafeEnv) (stdout : Writer) (outfile : Path) (force : Bool)
    (body : Writer → Res Nat × Writer) (hb : BodyOk body) (ho : outfile ≠ [] ∧ outfile ≠ ascii "-")
    (h : (withOutput fs env perm stdout outfile force body).exit = 0) :
    (fs.exists outfile = true → force = true) ∧ ∃ w, body (env.writer outfile) = (.ok 0, w) ∧ w.closes ≠ 0 ∧
      SafeRun env outfile w.out (closeCalls env outfile).1.isNone (withOutput fs env perm stdout outfile force body).sys := by
  unfold withOutput at h ⊢
  rw [if_neg (by rintro (h | h); exacts [ho.1 h, ho.2 h])] at h ⊢
  match hn : newSafeFile fs env perm outfile force with
  | .err e => rw [hn] at h; cases h
  | .panic w => exact absurd hn (newSafeFile_no_panic _ _ _ _ _)
  | .ok cs =>
    rw [hn] at h
    dsimp only at h ⊢
    refine ⟨(newSafeFile_ok hn).2, ?_⟩
    match hbody : body (env.writer outfile) with
    | (r, w) =>
      rw [hbody] at h
      dsimp only at h ⊢
      rcases hb _ _ _ hbody rfl with ⟨h1, h2⟩ | ⟨h1, _⟩
      · subst h1
        exact ⟨w, rfl, h2, safeCalls_closed env outfile w h2⟩
      · exact absurd h h1

/-- Every run of a command with an output file is a run over the `SafeFile`, complete only if the command exits with 0; the
content is then what the body wrote. -/
theorem withOutput_run (fs : FS) (env : SafeEnv) (stdout : Writer) (outfile : Path) (force : Bool)
    (body : Writer → Res Nat × Writer) (hb : BodyOk body) (ho : outfile ≠ [] ∧ outfile ≠ ascii "-") :
    ∃ content ok, SafeRun env outfile content ok (withOutput fs env perm stdout outfile force body).sys ∧
      (ok = true → (withOutput fs env perm stdout outfile force body).exit = 0 ∧
        ∃ w, body (env.writer outfile) = (.ok 0, w) ∧ content = w.out) := by
  by_cases h : (withOutput fs env perm stdout outfile force body).exit = 0
  · obtain ⟨_, w, h1, _, h2⟩ := withOutput_success fs env stdout outfile force body hb ho h
    exact ⟨_, _, h2, fun _ => ⟨h, w, h1, rfl⟩⟩
  · obtain ⟨content, h1⟩ := withOutput_failure fs env stdout outfile force body hb ho h
    exact ⟨content, false, h1, fun h => by cases h⟩

/-- Without `--overwrite` an existing output file stops the command. -/
theorem withOutput_exists (fs : FS) (env : SafeEnv) (stdout : Writer) (outfile : Path)
    (body : Writer → Res Nat × Writer) (ho : outfile ≠ [] ∧ outfile ≠ ascii "-") (h : fs.exists outfile = true) :
    withOutput fs env perm stdout outfile false body = { exit := 1 } := by
  unfold withOutput
  rw [if_neg (by rintro (h | h); exacts [ho.1 h, ho.2 h]), newSafeFile_exists fs env outfile h]

/-! ### The two bodies -/

theorem encryptBody_ok (D : Deps) (L : Laws D.P) (fs : FS) (keys : List PublicKey) (sk : Option PrivateKey) (blk : Nat)
    (c : EncCoins) (hc : c.WF) (rcpts : List (Bytes × Bytes)) (rd : Reader) (coin : Bytes) (hcoin : coin.length = 64) :
    BodyOk (encryptBody D fs keys sk blk c rcpts rd coin) := by
  intro w r w' h hw
  unfold encryptBody at h
  match hs : ((newEncryptor D.P sk blk c).bind fun e => addAll D fs keys e 0 rcpts) with
  | .err x => rw [hs] at h; cases h; exact .inr ⟨by simp [exitOf], .inl hw⟩
  | .panic x => rw [hs] at h; cases h; exact .inr ⟨by simp [exitOf], .inl hw⟩
  | .ok (e, n) =>
    rw [hs] at h
    dsimp only at h
    split at h
    · cases h; exact .inr ⟨by simp [exitOf], .inl hw⟩
    · rename_i hn
      have hn0 : n = 0 := by omega
      subst hn0
      obtain ⟨pks, _, hset⟩ := setup_addAll D fs keys sk blk c rcpts e hs
      match he : e.encrypt D.P rd w coin with
      | (r1, e1, rd1, w1) =>
        have h29 := C29_close_once D.P L sk blk c hc _ e hset rd w coin hcoin r1 e1 rd1 w1 he
        rw [he] at h
        rcases h29 with ⟨k1, k2, _⟩ | ⟨k1, x, k2⟩
        · match hce : w.closeErr with
          | none =>
            rw [hce] at k2
            subst k2
            cases h
            left
            refine ⟨rfl, ?_⟩
            show w1.closes + 1 ≠ 0
            omega
          | some x =>
            rw [hce] at k2
            subst k2
            cases h
            exact .inr ⟨by simp [exitOf], .inr (by simp [hce])⟩
        · subst k2
          cases h
          exact .inr ⟨by simp [exitOf], .inl (by rw [k1]; exact hw)⟩

theorem decryptBody_ok (P : Prims) (rd : Reader) (sk : PrivateKey) (pk : Option PublicKey) : BodyOk (decryptBody P rd sk pk) := by
  intro w r w' h hw
  unfold decryptBody at h
  match hs : setupDecryptor P rd sk pk with
  | .err x => rw [hs] at h; cases h; exact .inr ⟨by simp [exitOf], .inl hw⟩
  | .panic x => rw [hs] at h; cases h; exact .inr ⟨by simp [exitOf], .inl hw⟩
  | .ok d =>
    rw [hs] at h
    dsimp only at h
    have hc := (decrypt_closes P d w).1
    match he : d.decrypt P w with
    | (.ok (), d1, w1) =>
      rw [he] at h
      cases h
      left
      exact ⟨rfl, by simp [Writer.close]⟩
    | (.err x, d1, w1) =>
      rw [he] at h hc
      cases h
      exact .inr ⟨by simp [exitOf], .inl (hc.trans hw)⟩
    | (.panic x, d1, w1) =>
      rw [he] at h hc
      cases h
      exact .inr ⟨by simp [exitOf], .inl (hc.trans hw)⟩

/-! ### What a successful `Decrypt` writes does not depend on the destination -/

theorem decryptLoop_indep (P : Prims) : ∀ (fuel : Nat) (d d' : Decryptor) (wr wr' : Writer) (i : Nat),
    Decryptor.decryptLoop P fuel d wr i = (.ok (), d', wr') →
    ∃ p, wr'.out = wr.out ++ p ∧ ∀ w2 : Writer, w2.NoFail →
      ∃ w2', Decryptor.decryptLoop P fuel d w2 i = (.ok (), d', w2') ∧ w2'.out = w2.out ++ p := by
  intro fuel
  induction fuel with
  | zero => intro d d' wr wr' i h; unfold Decryptor.decryptLoop at h; cases h
  | succ fuel ih =>
    intro d d' wr wr' i h
    unfold Decryptor.decryptLoop at h
    match hb : d.decryptBlock P i with
    | (.err x, d1) => rw [hb] at h; cases h
    | (.panic x, d1) => rw [hb] at h; cases h
    | (.ok (c, eof), d1) =>
      rw [hb] at h
      dsimp only at h
      match hm : (if c.length > 0 then fullwrite c wr else (none, wr)) with
      | (some x, w1) => rw [hm] at h; cases h
      | (none, w1) =>
        rw [hm] at h
        dsimp only at h
        have hout : w1.out = wr.out ++ c := by
          split at hm
          · obtain ⟨w2, _, _, a3, _⟩ := fullwrite_spec c wr
            rcases a3 with ⟨a3, a4⟩ | ⟨e, k, a3, _⟩
            · rw [a3] at hm; cases hm; exact a4
            · rw [a3] at hm; cases hm
          · rename_i hc
            cases hm
            have : c = [] := by cases c with | nil => rfl | cons _ _ => simp at hc
            simp [this]
        have other : ∀ w2 : Writer, w2.NoFail → ∃ w3, (if c.length > 0 then fullwrite c w2 else (none, w2)) = (none, w3) ∧
            w3.out = w2.out ++ c ∧ w3.NoFail := by
          intro w2 hw2
          split
          · obtain ⟨w3, b1, b2, b3, _⟩ := fullwrite_noFail c w2 hw2
            exact ⟨w3, b1, b2, b3⟩
          · rename_i hc
            have : c = [] := by cases c with | nil => rfl | cons _ _ => simp at hc
            exact ⟨w2, rfl, by simp [this], hw2⟩
        cases eof with
        | true =>
          simp only [if_true] at h
          cases h
          refine ⟨c, hout, fun w2 hw2 => ?_⟩
          obtain ⟨w3, b1, b2, _⟩ := other w2 hw2
          refine ⟨w3, ?_, b2⟩
          unfold Decryptor.decryptLoop
          rw [hb]
          dsimp only
          rw [b1]
          simp
        | false =>
          simp only [Bool.false_eq_true, if_false] at h
          obtain ⟨p, g1, g2⟩ := ih _ _ _ _ _ h
          refine ⟨c ++ p, by rw [g1, hout, List.append_assoc], fun w2 hw2 => ?_⟩
          obtain ⟨w3, b1, b2, b3⟩ := other w2 hw2
          obtain ⟨w4, g3, g4⟩ := g2 w3 b3
          refine ⟨w4, ?_, by rw [g4, b2, List.append_assoc]⟩
          unfold Decryptor.decryptLoop
          rw [hb]
          dsimp only
          rw [b1]
          simp only [Bool.false_eq_true, if_false]
          exact g3

theorem decrypt_indep (P : Prims) (d d' : Decryptor) (wr wr' : Writer) (h : d.decrypt P wr = (.ok (), d', wr')) :
    ∃ p, wr'.out = wr.out ++ p ∧ ∀ w2 : Writer, w2.NoFail →
      ∃ w2', d.decrypt P w2 = (.ok (), d', w2') ∧ w2'.out = w2.out ++ p := by
  unfold Decryptor.decrypt at h ⊢
  split at h
  · cases h
  · split at h
    · cases h
    · split at h
      · cases h
      · obtain ⟨p, h1, h2⟩ := decryptLoop_indep P _ _ _ _ _ _ h
        refine ⟨p, h1, fun w2 hw2 => ?_⟩
        obtain ⟨w2', g1, g2⟩ := h2 w2 hw2
        refine ⟨w2', ?_, g2⟩
        simp_all

end Sigtool
