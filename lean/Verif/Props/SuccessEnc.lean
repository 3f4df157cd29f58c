import Verif.Props.Success
/-!
# C92: exactly when `encrypt` succeeds, and what `decrypt` writes when it does
-/

namespace Sigtool
open Spec

theorem lineYields_unique {l : Bytes} {o o' : Option (Bytes × Bytes)} (h : LineYields l o) (h' : LineYields l o') : o = o' := by
  match o, o' with
  | none, none => rfl
  | some (k, c), o' => exact ((h' k c).mp ((h k c).mpr rfl)).symm
  | none, some (k, c) => exact (h k c).mp ((h' k c).mpr rfl)

theorem forall2_yields_unique {ls : List Bytes} {os os' : List (Option (Bytes × Bytes))} (h : List.Forall₂ LineYields ls os)
    (h' : List.Forall₂ LineYields ls os') : os = os' := by
  induction h generalizing os' with
  | nil => cases h'; rfl
  | cons h1 _ ih =>
    cases h' with
    | cons h2 h3 => rw [lineYields_unique h1 h2, ih h3]

theorem lineYields_len {l k c : Bytes} (h : LineYields l (some (k, c))) : k.length = 32 := by
  obtain ⟨_, _, _, _, _, _, _, _, h⟩ := (h k c).mpr rfl
  have kt : ∀ b, KeyThenComment b k c → k.length = 32 := by rintro b ⟨_, _, _, _, _, _, _, h, _⟩; exact h.1
  rcases h with h | ⟨_, _, _, _, _, _, _, _, _, _, _, _, _, h⟩
  · exact kt _ h
  · exact kt _ h

theorem denotes_recipient (W : World) (users arg : Bytes) (pk : PublicKey)
    (h : Denotes W.D W.fs (parseAuthorizedKeys W.D.P users) arg pk) : RecipientKey W users arg pk.pk ∧ pk.pk.length = 32 := by
  rcases h with ⟨h1, before, after, h2, h3, h4⟩ | ⟨h1, b, h2, h3⟩
  · obtain ⟨⟨lines, hl⟩, hall⟩ := C90_authorized_keys W.D.P users
    obtain ⟨os, h5, h6⟩ := hall lines hl
    rw [h6, List.map_eq_append_iff] at h2
    obtain ⟨l1, l2, h7, h8, h9⟩ := h2
    rw [List.map_eq_cons_iff] at h9
    obtain ⟨⟨k, c⟩, l3, rfl, h10, h11⟩ := h9
    subst h10
    dsimp only at h3 ⊢
    subst h3
    refine ⟨.inl ⟨h1, lines, os, l1, l3, hl, h5, h7, ?_⟩, ?_⟩
    · intro kc hkc
      have := h4 { pk := kc.1, comment := kc.2, hash := (W.D.P.sha256 kc.1).take 16 } (by
        rw [← h11]; exact List.mem_map.mpr ⟨kc, hkc, rfl⟩)
      exact this
    · have hm : (k, c) ∈ os.filterMap id := by rw [h7]; simp
      obtain ⟨o, ho, h⟩ := List.mem_filterMap.mp hm
      dsimp only [id] at h
      subst h
      obtain ⟨l, _, hl⟩ : ∃ l ∈ lines, LineYields l (some (k, c)) := by
        clear h7 h6 hm hl hall
        induction h5 with
        | nil => cases ho
        | cons a _ ih =>
          rcases List.mem_cons.mp ho with rfl | ho
          · exact ⟨_, by simp, a⟩
          · obtain ⟨l, k1, k2⟩ := ih ho; exact ⟨l, List.mem_cons_of_mem _ k1, k2⟩
      exact lineYields_len hl
  · refine ⟨.inr ⟨h1, b, h2, (public_ok h3).1⟩, ?_⟩
    rcases (public_ok h3).1 with ⟨_, _, _, h⟩ | ⟨_, _, _, _, h⟩
    · exact h.1
    · exact h

theorem recipient_denotes (W : World) (users arg key : Bytes) (h : RecipientKey W users arg key) :
    ∃ pk, Denotes W.D W.fs (parseAuthorizedKeys W.D.P users) arg pk ∧ pk.pk = key := by
  rcases h with ⟨h1, lines, os, before, after, h2, h3, h4, h5⟩ | ⟨h1, b, h2, h3⟩
  · obtain ⟨_, hall⟩ := C90_authorized_keys W.D.P users
    obtain ⟨os', h6, h7⟩ := hall lines h2
    have := forall2_yields_unique h3 h6
    subst this
    rw [h4, List.map_append, List.map_cons] at h7
    refine ⟨_, .inl ⟨h1, _, _, h7, rfl, ?_⟩, rfl⟩
    intro k hk
    obtain ⟨kc, k1, rfl⟩ := List.mem_map.mp hk
    exact h5 kc k1
  · obtain ⟨pk, h4, h5⟩ := public_make (P := W.D.P) h3
    exact ⟨pk, .inr ⟨h1, b, h2, h4⟩, h5.1⟩

theorem addRecipients_iff (P : Prims) (csk : Bytes) : ∀ (rs : List (PublicKey × Bytes)) (e : Encryptor), e.started = false →
    e.encSK = clamp csk → (∀ r ∈ rs, r.1.pk.length = 32) →
    ((∃ e', e.addRecipients P rs = (.ok (), e')) ↔ ∀ r ∈ rs, (P.x25519 (clamp csk) (toMontgomery r.1.pk)).isSome = true) := by
  intro rs
  induction rs with
  | nil => intro e _ _ _; simp [Encryptor.addRecipients]
  | cons r rs ih =>
    intro e h1 h2 h3
    obtain ⟨pk, rb⟩ := r
    have hl : pk.pk.length = 32 := h3 (pk, rb) (by simp)
    have hgt : ¬ pk.pk.length > 32 := by omega
    simp only [Encryptor.addRecipients, Encryptor.addRecipient, Encryptor.wrapKey, h1, h2, hgt,
      toCurve25519PK_eq pk.pk (by omega), Bool.false_eq_true, if_false]
    cases hx : P.x25519 (clamp csk) (toMontgomery pk.pk) with
    | none =>
      constructor
      · rintro ⟨_, h⟩; cases h
      · intro h
        have := h (pk, rb) (by simp)
        rw [hx] at this; cases this
    | some s =>
      dsimp only
      rw [ih _ rfl rfl (fun r hr => h3 r (List.mem_cons_of_mem _ hr))]
      constructor
      · intro h r hr
        rcases List.mem_cons.mp hr with rfl | hr
        · rw [hx]; rfl
        · exact h r hr
      · intro h r hr; exact h r (List.mem_cons_of_mem _ hr)

theorem encryptBody_iff (W : World) (L : Laws W.D.P) (users : Bytes) (sk : Option PrivateKey) (hs : SenderSized sk) (blk : Nat)
    (c : EncCoins) (hc : c.WF) (rcpts : List (Bytes × Bytes)) (rd : Reader) (coin : Bytes) (w : Writer) (hw : w.NoFail) :
    exitOf (encryptBody W.D W.fs (parseAuthorizedKeys W.D.P users) sk blk c rcpts rd coin w).1 = 0 ↔
      (∀ r ∈ rcpts, ∃ key, RecipientKey W users r.1 key ∧ (W.D.P.x25519 (clamp c.csk) (toMontgomery key)).isSome = true) ∧
      InputEnds rd ∧ w.closeErr = none := by
  have hend : InputEnds rd ↔ isEndOfInput rd.last = true := by rw [isEndOfInput_iff]; rfl
  obtain ⟨epk, n1, n2, n3⟩ := newEncryptor_eq W.D.P L sk blk c hc hs
  have lens : ∀ (rs : List (Bytes × Bytes)) (pks : List PublicKey),
      List.Forall₂ (fun r pk => Denotes W.D W.fs (parseAuthorizedKeys W.D.P users) r.1 pk) rs pks →
      ∀ r ∈ pks.zip (rs.map (·.2)), r.1.pk.length = 32 := by
    intro rs pks h
    induction h with
    | nil => simp
    | cons h1 _ ih =>
      intro r hr
      simp only [List.map_cons, List.zip_cons_cons, List.mem_cons] at hr
      rcases hr with rfl | hr
      · exact (denotes_recipient W users _ _ h1).2
      · exact ih r hr
  have enc : ∀ e pks, setupEncryptor W.D.P sk blk c pks = .ok e →
      (exitOf ((match e.encrypt W.D.P rd w coin with
        | (.ok (), _, _, wr) => (.ok 0, wr.close.2)
        | (.err x, _, _, wr) => (.err x, wr)
        | (.panic w, _, _, wr) => (.panic w, wr) : Res Nat × Writer).1) = 0 ↔ InputEnds rd ∧ w.closeErr = none) := by
    intro e pks he
    obtain ⟨epk, ws, hset⟩ := setupEncryptor_ok W.D.P L sk blk c pks e hc he
    by_cases hi : isEndOfInput rd.last = true
    · obtain ⟨e', rd', wr', h1, _⟩ := encrypt_fresh W.D.P L e rd w coin (hset.fresh L) hw hi
      rw [h1, hend]
      cases hcl : w.closeErr with
      | none => simp [hi, exitOf]
      | some x => simp [exitOf]
    · rcases hx : e.encrypt W.D.P rd w coin with ⟨r, e', rd', wr'⟩
      cases r with
      | ok u =>
        have := (encrypt_ok W.D.P L e rd w coin (hset.fresh L) e' rd' wr' hx).2.2
        exact absurd this hi
      | err x => simp [exitOf, hend, hi]
      | panic x => simp [exitOf, hend, hi]
  unfold encryptBody
  constructor
  · intro h
    match hsu : ((newEncryptor W.D.P sk blk c).bind fun e => addAll W.D W.fs (parseAuthorizedKeys W.D.P users) e 0 rcpts) with
    | .err x => rw [hsu] at h; cases h
    | .panic x => rw [hsu] at h; cases h
    | .ok (e, n) =>
      rw [hsu] at h
      dsimp only at h
      split at h
      · cases h
      · rename_i hn
        have hn0 : n = 0 := by omega
        subst hn0
        obtain ⟨pks, h1, h2⟩ := setup_addAll W.D W.fs _ sk blk c rcpts e hsu
        refine ⟨?_, (enc e _ h2).mp h⟩
        have h3 := lens rcpts pks h1
        have h4 : ∀ r ∈ pks.zip (rcpts.map (·.2)), (W.D.P.x25519 (clamp c.csk) (toMontgomery r.1.pk)).isSome = true := by
          unfold setupEncryptor at h2
          rw [n3] at h2
          simp only [Res.bind_ok] at h2
          split at h2
          · rename_i e' hadd
            exact (addRecipients_iff W.D.P c.csk _ _ rfl rfl h3).mp ⟨e', hadd⟩
          · cases h2
          · cases h2
        clear hsu h h2 h3
        induction h1 with
        | nil => simp
        | cons a _ ih =>
          intro r hr
          simp only [List.map_cons, List.zip_cons_cons, List.mem_cons, forall_eq_or_imp] at h4
          rcases List.mem_cons.mp hr with rfl | hr
          · exact ⟨_, (denotes_recipient W users _ _ a).1, h4.1⟩
          · exact ih h4.2 r hr
  · rintro ⟨h1, h2⟩
    have hpks : ∃ pks, List.Forall₂ (fun r pk => Denotes W.D W.fs (parseAuthorizedKeys W.D.P users) r.1 pk) rcpts pks ∧
        ∀ r ∈ pks.zip (rcpts.map (·.2)), (W.D.P.x25519 (clamp c.csk) (toMontgomery r.1.pk)).isSome = true := by
      clear h2
      induction rcpts with
      | nil => exact ⟨[], .nil, by simp⟩
      | cons r rs ih =>
        obtain ⟨pks, k1, k2⟩ := ih (fun x hx => h1 x (List.mem_cons_of_mem _ hx))
        obtain ⟨key, k3, k4⟩ := h1 r (by simp)
        obtain ⟨pk, k5, rfl⟩ := recipient_denotes W users r.1 key k3
        refine ⟨pk :: pks, .cons k5 k1, ?_⟩
        intro x hx
        simp only [List.map_cons, List.zip_cons_cons, List.mem_cons] at hx
        rcases hx with rfl | hx
        · exact k4
        · exact k2 x hx
    obtain ⟨pks, k1, k2⟩ := hpks
    obtain ⟨e', hadd⟩ := (addRecipients_iff W.D.P c.csk (pks.zip (rcpts.map (·.2)))
      { hdr := { chunkSize := chooseBlock blk, salt := c.salt, pk := epk
                 sender := W.D.P.aeadSeal (senderKey W.D.P c.key c.salt).1 (senderKey W.D.P c.key c.salt).2
                   (senderSig W.D.P sk epk c) [] }
        key := c.key, encSK := clamp c.csk, sender := sk, auth := sk.isSome } rfl rfl (lens rcpts pks k1)).mpr k2
    have hset : setupEncryptor W.D.P sk blk c (pks.zip (rcpts.map (·.2))) = .ok e' := by
      unfold setupEncryptor
      rw [n3]
      simp only [Res.bind_ok]
      rw [hadd]
    have hs2 : ((newEncryptor W.D.P sk blk c).bind fun e => addAll W.D W.fs (parseAuthorizedKeys W.D.P users) e 0 rcpts) = .ok (e', 0) := by
      rw [n3, Res.bind_ok]
      exact addAll_progress W.D W.fs _ rcpts pks _ e' 0 k1 hadd
    rw [hs2]
    dsimp only
    rw [if_neg (by omega)]
    exact (enc e' _ hset).mpr h2

/-- **C92** (`encrypt`).  With options that parse and an output whose writes do not fail, `encrypt` exits with 0 exactly if the block
size parses; the key file of `-s`, if any, opens; there are at least two arguments; the last one is `-` or names something that
exists; there is a home directory, whose `authorized_keys` file can be read if it exists; the output is standard output or can be
created; every other argument stands for a public key with which X25519 works; the input ends without a failure that `encrypt`
notices (C28); and the output can be closed. -/
theorem C92_encrypt (W : World) (L : Laws W.D.P) (argv rest args : List Bytes) (hn : Normal W argv)
    (hr : Runs W argv "encrypt" rest) (o : EncOpts) (hf : W.flags.enc rest = .ok o args) (hout : OutputWorks W o.outfile) :
    (W.main argv).exit = 0 ↔ ∃ rcpts infile home rd,
      (W.parseSize o.blocksize).isSome = true ∧ (o.sign ≠ [] → ∃ secret, PrivateFile W o.nopw o.envpw o.sign secret) ∧
      args = rcpts ++ [infile] ∧ rcpts ≠ [] ∧ (infile = "-".toUTF8.toList ∨ W.fs.exists infile = true) ∧ Input W infile rd ∧
      W.home = some home ∧ (W.fs.exists (home ++ "/.ssh/authorized_keys".toUTF8.toList) = true →
        (W.fs.read (home ++ "/.ssh/authorized_keys".toUTF8.toList)).isSome = true) ∧
      (ToStdout o.outfile ∨ Creatable W.fs W.env1 o.outfile o.force) ∧
      (∀ arg ∈ rcpts, ∃ key, RecipientKey W ((W.fs.read (home ++ "/.ssh/authorized_keys".toUTF8.toList)).getD []) arg key ∧
        (W.D.P.x25519 (clamp W.coins.csk) (toMontgomery key)).isSome = true) ∧
      InputEnds rd ∧ (ToStdout o.outfile → W.stdout.closeErr = none) ∧ (¬ ToStdout o.outfile → Closes W.env1) := by
  have hd : "-".toUTF8.toList = ascii "-" := by decide +kernel
  have ha : "/.ssh/authorized_keys".toUTF8.toList = ascii "/.ssh/authorized_keys" := by decide +kernel
  have hst : ToStdout o.outfile ↔ o.outfile = [] ∨ o.outfile = ascii "-" := by unfold ToStdout; rw [hd]
  have hc : W.coins.WF := ⟨hn.coins.1, hn.coins.2.1, hn.coins.2.2⟩
  rw [(C66_dispatch W hn.order argv rest "encrypt" hr).2.2.2.1 rfl, hd, ha]
  unfold World.encrypt
  rw [hf]
  dsimp only
  -- the output
  have outp : ∀ users sk, SenderSized sk → ∀ blk rcpts rd,
      ((withOutput W.fs W.env1 0o600 W.stdout o.outfile o.force
        (encryptBody W.D W.fs (parseAuthorizedKeys W.D.P users) sk blk W.coins rcpts rd W.coin)).exit = 0 ↔
      (ToStdout o.outfile ∨ Creatable W.fs W.env1 o.outfile o.force) ∧
      (∀ r ∈ rcpts, ∃ key, RecipientKey W users r.1 key ∧ (W.D.P.x25519 (clamp W.coins.csk) (toMontgomery key)).isSome = true) ∧
      InputEnds rd ∧ (ToStdout o.outfile → W.stdout.closeErr = none) ∧ (¬ ToStdout o.outfile → Closes W.env1)) := by
    intro users sk hs blk rcpts rd
    unfold withOutput
    by_cases hso : ToStdout o.outfile
    · rw [if_pos (hst.mp hso)]
      dsimp only
      rw [encryptBody_iff W L users sk hs blk W.coins hc rcpts rd W.coin W.stdout (hout.1 hso)]
      simp [hso]
    · rw [if_neg (fun h => hso (hst.mpr h))]
      have hcan := newSafeFile_ok_iff (perm := 0o600) W.fs W.env1 o.outfile o.force
      match hnn : newSafeFile W.fs W.env1 0o600 o.outfile o.force with
      | .panic w => exact absurd hnn (newSafeFile_no_panic _ _ _ _ _)
      | .err e =>
        dsimp only
        constructor
        · intro h; cases h
        · rintro ⟨h | h, _⟩
          · exact absurd h hso
          · obtain ⟨c, hc⟩ := hcan.mpr h
            rw [hnn] at hc; cases hc
      | .ok cs =>
        dsimp only
        rw [encryptBody_iff W L users sk hs blk W.coins hc rcpts rd W.coin (W.env1.writer o.outfile) (hout.2 hso)]
        have h1 : Creatable W.fs W.env1 o.outfile o.force := hcan.mp ⟨cs, hnn⟩
        have h2 : (W.env1.writer o.outfile).closeErr = none ↔ Closes W.env1 := closeCalls_ok_iff W.env1 o.outfile
        rw [h2]
        simp [h1, hso]
  -- recipients with and without their random bytes
  have zip : ∀ (l : List Bytes) (Q : Bytes → Prop), (∀ r ∈ l.zipIdx.map (fun a => (a.1, W.rbuf a.2)), Q r.1) ↔ ∀ a ∈ l, Q a := by
    intro l Q
    constructor
    · intro h a ha
      obtain ⟨i, hi, rfl⟩ := List.getElem_of_mem ha
      refine h (l[i], W.rbuf i) (List.mem_map.mpr ⟨(l[i], i), ?_, rfl⟩)
      rw [List.mem_zipIdx_iff_getElem?]
      simp [hi]
    · intro h r hr
      obtain ⟨a, h1, rfl⟩ := List.mem_map.mp hr
      exact h a.1 (by
        have := List.mem_zipIdx_iff_getElem?.mp h1
        exact List.mem_of_getElem? this)
  unfold encryptCmd
  match hb : W.parseSize o.blocksize with
  | none =>
    dsimp only
    constructor
    · intro h; cases h
    · rintro ⟨_, _, _, _, h, _⟩; simp at h
  | some blk =>
    dsimp only
    -- the identity
    have hid : ∀ r : Res (Option PrivateKey), (if o.sign = [] then (.ok none : Res (Option PrivateKey)) else
        (readPrivateKey W.D W.fs o.sign (W.getpw o.nopw o.envpw)).bind fun sk => .ok (some sk)) = r →
        ((∃ sk, r = .ok sk ∧ SenderSized sk) ↔ (o.sign ≠ [] → ∃ secret, PrivateFile W o.nopw o.envpw o.sign secret)) ∧
        (∀ sk, r = .ok sk → SenderSized sk) := by
      rintro r rfl
      by_cases hk : o.sign = []
      · rw [if_pos hk]
        refine ⟨⟨fun _ h => absurd hk h, fun _ => ⟨none, rfl, by intro s h; cases h⟩⟩, ?_⟩
        intro sk h; cases h; intro s h; cases h
      · rw [if_neg hk]
        have sized : ∀ sk, ((readPrivateKey W.D W.fs o.sign (W.getpw o.nopw o.envpw)).bind fun sk => .ok (some sk)) = .ok sk →
            ∃ secret, PrivateFile W o.nopw o.envpw o.sign secret ∧ sk = some (privateOf W.D.P secret) := by
          intro sk h
          obtain ⟨s, h1, h2⟩ := (bind_ok_iff _ _ _).mp h
          cases h2
          obtain ⟨secret, k1, k2⟩ := (privateFile_iff W o.nopw o.envpw o.sign s).mp ((readPrivateKey_ok _ _ _ _ _).mp h1)
          exact ⟨secret, k1, by rw [k2]⟩
        have sz : ∀ secret, PrivateFile W o.nopw o.envpw o.sign secret → SenderSized (some (privateOf W.D.P secret)) := by
          rintro secret ⟨b, _, h⟩ s hs
          cases hs
          exact privateText_length h
        refine ⟨⟨?_, ?_⟩, ?_⟩
        · rintro ⟨sk, h, _⟩ _
          obtain ⟨secret, k1, _⟩ := sized sk h
          exact ⟨secret, k1⟩
        · intro h
          obtain ⟨secret, k1⟩ := h hk
          obtain ⟨b, g1, g2⟩ := (privateFile_iff W o.nopw o.envpw o.sign _).mpr ⟨secret, k1, rfl⟩
          refine ⟨some (privateOf W.D.P secret), ?_, sz secret k1⟩
          rw [(readPrivateKey_ok _ _ _ _ _).mpr ⟨b, g1, g2⟩, Res.bind_ok]
        · intro sk h
          obtain ⟨secret, k1, rfl⟩ := sized sk h
          exact sz secret k1
    obtain ⟨hid1, hid2⟩ := hid _ rfl
    generalize (if o.sign = [] then (.ok none : Res (Option PrivateKey)) else
        (readPrivateKey W.D W.fs o.sign (W.getpw o.nopw o.envpw)).bind fun sk => .ok (some sk)) = key at hid1 hid2
    match key, hid1, hid2 with
    | .err x, hid1, _ =>
      dsimp only
      constructor
      · intro h; cases h
      · rintro ⟨_, _, _, _, _, h, _⟩
        obtain ⟨_, h, _⟩ := hid1.mpr h; cases h
    | .panic x, hid1, _ =>
      dsimp only
      constructor
      · intro h; cases h
      · rintro ⟨_, _, _, _, _, h, _⟩
        obtain ⟨_, h, _⟩ := hid1.mpr h; cases h
    | .ok sk, hid1, hid2 =>
      have hs := hid2 sk rfl
      have hident := hid1.mp ⟨sk, rfl, hs⟩
      dsimp only
      by_cases hz : args.dropLast.zipIdx.map (fun a => (a.1, W.rbuf a.2)) = []
      · rw [if_pos hz]
        constructor
        · intro h; cases h
        · rintro ⟨rcpts, infile, _, _, _, _, rfl, h, _⟩
          simp at hz; exact absurd hz h
      · rw [if_neg hz]
        have hne : args.dropLast ≠ [] := by
          intro h; rw [h] at hz; exact hz rfl
        have hargs : args = args.dropLast ++ [args.getLastD []] := by
          match args with
          | [] => simp at hne
          | a :: as =>
            rw [List.getLastD_cons, ← List.getLast_eq_getLastD]
            exact (List.dropLast_append_getLast (List.cons_ne_nil a as)).symm
        by_cases hin : args.getLastD [] ≠ ascii "-" ∧ W.fs.exists (args.getLastD []) = false
        · rw [if_pos hin]
          constructor
          · intro h; cases h
          · rintro ⟨rcpts, infile, _, _, _, _, h0, _, h, _⟩
            exfalso
            rw [h0] at hin
            simp only [List.getLastD_concat] at hin
            rcases h with h | h
            · exact hin.1 h
            · rw [h] at hin; cases hin.2
        · rw [if_neg hin]
          match hh : W.home with
          | none =>
            dsimp only [Option.map]
            constructor
            · intro h; cases h
            · rintro ⟨_, _, _, _, _, _, _, _, _, _, h, _⟩; cases h
          | some home =>
            dsimp only [Option.map]
            by_cases hau : W.fs.exists (home ++ ascii "/.ssh/authorized_keys") = true ∧ W.fs.read (home ++ ascii "/.ssh/authorized_keys") = none
            · rw [if_pos hau]
              constructor
              · intro h; cases h
              · rintro ⟨_, _, home', _, _, _, _, _, _, _, h, h1, _⟩
                exfalso
                cases h
                have := h1 hau.1
                rw [hau.2] at this; cases this
            · rw [if_neg hau, outp _ sk hs]
              have hinp : Input W (args.getLastD []) (W.input (args.getLastD [])) := by
                unfold World.input
                by_cases h : args.getLastD [] = ascii "-"
                · rw [if_pos h, h]; exact .stdin
                · rw [if_neg h]; exact .file _ h
              rw [zip args.dropLast (fun a => ∃ key, RecipientKey W ((W.fs.read (home ++ ascii "/.ssh/authorized_keys")).getD []) a key ∧
                (W.D.P.x25519 (clamp W.coins.csk) (toMontgomery key)).isSome = true)]
              constructor
              · rintro ⟨h1, h2, h3, h4, h5⟩
                refine ⟨args.dropLast, args.getLastD [], home, _, rfl, hident, hargs, hne, ?_, hinp, rfl, ?_, h1, h2, h3, h4, h5⟩
                · by_cases h : args.getLastD [] = ascii "-"
                  · exact .inl h
                  · right
                    cases hx : W.fs.exists (args.getLastD [])
                    · exact absurd ⟨h, hx⟩ hin
                    · rfl
                · intro hx
                  cases hy : W.fs.read (home ++ ascii "/.ssh/authorized_keys")
                  · exact absurd ⟨hx, hy⟩ hau
                  · rfl
              · rintro ⟨rcpts, infile, home', rd, _, _, h0, _, _, hi, hho, _, h1, h2, h3, h4, h5⟩
                cases hho
                have hl : args.getLastD [] = infile := by rw [h0]; simp
                have hdr : args.dropLast = rcpts := by rw [h0]; simp
                rw [hl, hdr] at *
                have hrd : rd = W.input infile := by
                  unfold World.input
                  cases hi with
                  | stdin => rw [if_pos rfl]
                  | file _ h => rw [if_neg h]
                subst hrd
                exact ⟨h1, h2, h3, h4, h5⟩

end Sigtool
