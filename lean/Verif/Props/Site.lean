import Verif.Spec.Site
import Verif.Props.Outsider
import Verif.Props.Anon
import Verif.Props.CliEnd
import Verif.Props.CliDemo
/-!
# C134: the games played with the command
-/

namespace Sigtool
open Spec

theorem addRecipients_samePk (P : Prims) : ∀ (rs qs : List (PublicKey × Bytes)) (e : Encryptor),
    List.Forall₂ (fun r q => r.1.pk = q.1.pk ∧ r.2 = q.2) rs qs → e.addRecipients P rs = e.addRecipients P qs := by
  intro rs qs e h
  induction h generalizing e with
  | nil => rfl
  | @cons r q rs qs h1 _ ih =>
    obtain ⟨pk, b⟩ := r
    obtain ⟨pk', b'⟩ := q
    obtain ⟨h1, rfl⟩ := h1
    dsimp only at h1
    have : e.addRecipient P pk b = e.addRecipient P pk' b := by
      unfold Encryptor.addRecipient Encryptor.wrapKey
      rw [h1]
    simp only [Encryptor.addRecipients, this]
    split
    · exact ih _
    · rfl
    · rfl

theorem setup_samePk (P : Prims) (sender : Option PrivateKey) (blk : Nat) (c : EncCoins) (rs qs : List (PublicKey × Bytes))
    (h : List.Forall₂ (fun r q => r.1.pk = q.1.pk ∧ r.2 = q.2) rs qs) :
    setupEncryptor P sender blk c rs = setupEncryptor P sender blk c qs := by
  unfold setupEncryptor
  simp only [addRecipients_samePk P rs qs _ h]

theorem ascii_dash : ascii "-" = [45] := by decide +kernel

theorem forall2_ofFn {α β γ : Type} {R : α → γ → Prop} : ∀ {n : Nat} {f : Fin n → α × β} {m : List γ},
    List.Forall₂ (fun r c => R r.1 c) (List.ofFn f) m → ∃ g : Fin n → γ, m = List.ofFn g ∧ ∀ i, R (f i).1 (g i) := by
  intro n
  induction n with
  | zero =>
    intro f m h
    rw [List.ofFn_zero] at h
    cases h
    exact ⟨fun i => i.elim0, by simp, fun i => i.elim0⟩
  | succ n ih =>
    intro f m h
    rw [List.ofFn_succ] at h
    cases h with
    | @cons _ c _ m h1 h2 =>
      obtain ⟨g, rfl, h4⟩ := ih h2
      refine ⟨Fin.cons c g, by rw [List.ofFn_succ]; simp, fun i => ?_⟩
      refine Fin.cases ?_ (fun j => ?_) i
      · exact h1
      · exact h4 j

/-- What is left by a run that is ready: the file the games are about. -/
theorem site_writes {n : Nat} (D : Deps) (L : Laws D.P) (Z : Site n) (sender : Option PrivateKey)
    (hgen : ∀ s, sender = some s → s.Genuine D.P) (hZ : Z.Ready D sender) (J : Job n)
    (hcsk : J.csk.length = 32) (hkey : J.key.length = 32) (hsalt : J.salt.length = 32) (hcoin : J.coin.length = 64)
    (seeds : Fin n → Bytes) (hseeds : ∀ i, (seeds i).length = 32) (hpks : J.pks = fun i => D.P.edPub (seeds i)) :
    (Z.run D J).exit = 0 ∧ Z.file D J = encrypted D.P sender Z.blk Z.input J := by
  have hc : EncCoins.WF { csk := J.csk, key := J.key, salt := J.salt } := ⟨hcsk, hkey, hsalt⟩
  have hden := hZ.denotes seeds J.plain hseeds
  dsimp only at hden
  rw [← hpks] at hden
  have hpiped : (Z.piped = true) ↔ (Z.outfile = [] ∨ Z.outfile = ascii "-") := by
    unfold Site.piped; rw [ascii_dash]; simp
  have hout := hZ.output
  have h0 : (Z.run D J).exit = 0 := by
    refine C79_encrypt_succeeds D L _ Z.env Z.stdout Z.outfile Z.force Z.keyfile Z.getpw Z.blk Z.auth _ Z.infile _ _ _ sender
      (hZ.ident _ _) hgen ?_ ?_ ?_ (hZ.auth _ _) (hZ.input _).2 hc ?_ ?_
    · intro h
      have := congrArg List.length h
      simp at this
      exact absurd this (Nat.pos_iff_ne_zero.mp hZ.people)
    · intro r hr
      obtain ⟨i, rfl⟩ := (List.mem_ofFn' _ _).mp hr
      obtain ⟨pk, h1, h2⟩ := hden i
      exact ⟨pk, h1, seeds i, hseeds i, h2⟩
    · rw [ascii_dash]; exact hZ.exists_ _ _
    · unfold GoodOutput
      by_cases h : Z.piped = true
      · rw [if_pos h] at hout
        exact .inl ⟨hpiped.mp h, hout.1⟩
      · rw [if_neg h] at hout
        have := hpiped.not.mp h
        exact .inr ⟨⟨fun h => this (.inl h), fun h => this (.inr h)⟩, (hout.2.2 J.pks J.plain).1.1, hout.1.1, (hout.2.2 J.pks J.plain).1.2⟩
    · by_cases h : Z.piped = true
      · rw [if_pos h] at hout
        rw [if_pos (hpiped.mp h)]; exact hout.2.1
      · rw [if_neg h] at hout
        rw [if_neg (hpiped.not.mp h)]; exact hout.1.2
  refine ⟨h0, ?_⟩
  rcases encryptCmd_cases D (Z.fs J.pks J.plain) Z.env Z.stdout Z.outfile Z.force Z.keyfile Z.getpw (some Z.blk) (some Z.auth)
    (List.ofFn fun i => (Z.args i, J.nonces i)) Z.infile (Z.input J.plain) { csk := J.csk, key := J.key, salt := J.salt } J.coin with
    ⟨m, hm, h1⟩ | ⟨blk, sk, auth, h1, h2, _, h4, h5⟩
  · unfold Site.run at h0
    rw [h1] at h0
    exact absurd h0 hm
  cases h1; cases h2
  have hsk : sk = sender := by
    rcases hZ.ident J.pks J.plain with ⟨i1, rfl⟩ | ⟨i1, b, s, i2, i3, rfl⟩
    · rcases h4 with ⟨_, rfl⟩ | ⟨h, _⟩
      · rfl
      · exact absurd i1 h
    · rcases h4 with ⟨h, _⟩ | ⟨_, s', rfl, h6⟩
      · exact absurd h i1
      · rw [(readPrivateKey_ok _ _ _ _ _).mpr ⟨b, i2, i3⟩] at h6
        cases h6; rfl
  subst hsk
  -- what the body writes to a writer that takes everything
  have body : ∀ (w : Writer) (k : Nat) (w' : Writer), w.NoFail → encryptBody D (Z.fs J.pks J.plain)
      (parseAuthorizedKeys D.P (((Z.fs J.pks J.plain).read Z.auth).getD [])) sk Z.blk
      { csk := J.csk, key := J.key, salt := J.salt } (List.ofFn fun i => (Z.args i, J.nonces i)) (Z.input J.plain) J.coin w =
        (.ok k, w') → w'.out = w.out ++ encrypted D.P sk Z.blk Z.input J := by
    intro w k w' hw hb
    obtain ⟨pks, e, e', rd', w1, k1, k2, k3, k4⟩ := encryptBody_session D _ _ sk Z.blk _ _ _ _ _ _ _ hb
    obtain ⟨g, rfl, hg⟩ := forall2_ofFn (R := fun (a : Bytes) b => Denotes D (Z.fs J.pks J.plain) _ a b) k1
    have hpk : ∀ i, (g i).pk = J.pks i := by
      intro i
      obtain ⟨pk, t1, t2⟩ := hden i
      have := Denotes_unique D _ _ _ _ _ t1 (hg i)
      rw [← this, hpks]; exact t2
    have hz : (List.ofFn g).zip ((List.ofFn fun i => (Z.args i, J.nonces i)).map (·.2)) = List.ofFn fun i => (g i, J.nonces i) := by
      rw [List.map_ofFn]
      apply List.ext_getElem <;> simp
    rw [hz] at k2
    have hs : setupEncryptor D.P sk Z.blk { csk := J.csk, key := J.key, salt := J.salt }
        (List.ofFn fun i => ({ pk := J.pks i }, J.nonces i)) = .ok e := by
      rw [← k2]
      apply setup_samePk
      rw [List.forall₂_iff_get]
      refine ⟨by simp, fun i h1 h2 => ?_⟩
      simp [hpk]
    obtain ⟨epk, ws, hok⟩ := setupEncryptor_ok D.P L sk Z.blk _ _ e hc hs
    have hf := hok.fresh L
    have hend : isEndOfInput (Z.input J.plain).last = true := by rw [(hZ.input _).2]; rfl
    obtain ⟨e1, rd1, wr1, a1, _, _, a4⟩ := encrypt_fresh D.P L e (Z.input J.plain) w J.coin hf hw hend
    obtain ⟨e2, rd2, wr2, b1, _, _, b4⟩ := encrypt_fresh D.P L e (Z.input J.plain) {} J.coin hf (by simp [Writer.NoFail]) hend
    have : wr1 = w1 := by
      rw [a1] at k3
      exact congrArg (·.2.2.2) k3
    unfold encrypted
    rw [hs]
    dsimp only
    rw [b1, k4, ← this, a4, b4]
    rfl
  unfold Site.run at h0
  unfold Site.file Site.run
  rw [h5] at h0 ⊢
  by_cases h : Z.piped = true
  · rw [if_pos h] at hout ⊢
    unfold withOutput at h0 ⊢
    rw [if_pos (hpiped.mp h)] at h0 ⊢
    dsimp only at h0 ⊢
    match hb : encryptBody D (Z.fs J.pks J.plain)
      (parseAuthorizedKeys D.P (((Z.fs J.pks J.plain).read Z.auth).getD [])) sk Z.blk
      { csk := J.csk, key := J.key, salt := J.salt } (List.ofFn fun i => (Z.args i, J.nonces i)) (Z.input J.plain) J.coin Z.stdout with
    | (.ok k, w') => rw [body _ _ _ hout.1 hb, hout.2.2, List.nil_append]
    | (.err x, w') => rw [hb] at h0; cases h0
    | (.panic x, w') => rw [hb] at h0; cases h0
  · rw [if_neg h] at hout ⊢
    have hno := hpiped.not.mp h
    have hbody := encryptBody_ok D L (Z.fs J.pks J.plain) (parseAuthorizedKeys D.P (((Z.fs J.pks J.plain).read Z.auth).getD [])) sk Z.blk
      _ hc (List.ofFn fun i => (Z.args i, J.nonces i)) (Z.input J.plain) J.coin hcoin
    obtain ⟨_, w, g1, _, g2⟩ := withOutput_success _ Z.env Z.stdout Z.outfile Z.force _ hbody
      ⟨fun h => hno (.inl h), fun h => hno (.inr h)⟩ h0
    rw [(closeCalls_ok_iff Z.env Z.outfile).mpr hout.1.2] at g2
    rw [(g2.success _ (hout.2.2 _ _).2 hout.2.1).1]
    have := body (Z.env.writer Z.outfile) _ _ hout.1.1 g1
    rw [Option.getD_some, this]
    rfl

/-! ### Programs that write the same files play the same games -/

/-- The two programs write the same file for every job that can be drawn. -/
def SameFiles {n : Nat} (P : Prims) (enc enc' : Job n → Bytes) : Prop :=
  ∀ (J : Job n) (seeds : Fin n → Bytes), J.csk.length = 32 → J.key.length = 32 → J.salt.length = 32 → J.coin.length = 64 →
    (∀ i, (seeds i).length = 32) → J.pks = (fun i => P.edPub (seeds i)) → enc J = enc' J

theorem spy_same {n : Nat} (P : Prims) (enc enc' : Job n → Bytes) (h : SameFiles P enc enc') (A : Spy n) (b : Bool) :
    A.odds P enc b = A.odds P enc' b := by
  unfold Spy.odds
  refine mean_congr fun t => mean_congr fun coin => mean_congr fun key => mean_congr fun seeds => mean_congr fun csk =>
    mean_congr fun salt => mean_congr fun nonces => ?_
  dsimp only
  rw [h _ (fun i => (seeds i).bytes) csk.length key.length salt.length coin.length (fun i => (seeds i).length) rfl]

theorem watcher_same {n m : Nat} (P : Prims) (enc enc' : Job (n + m) → Bytes) (h : SameFiles P enc enc') (A : Watcher n m)
    (hA : A.Fair) (b : Bool) : A.odds P enc b = A.odds P enc' b := by
  unfold Watcher.odds
  refine mean_congr fun t => mean_congr fun coin => mean_congr fun key => mean_congr fun mine => mean_congr fun first =>
    mean_congr fun second => mean_congr fun csk => mean_congr fun salt => mean_congr fun nonces => ?_
  dsimp only
  rw [h _ (Fin.append (fun i => ((if b then second else first) i).bytes) (A.known t fun c i => P.edPub ((if c then second else first) i).bytes)) csk.length key.length salt.length
    coin.length]
  · intro i
    refine Fin.addCases (fun j => ?_) (fun j => ?_) i
    · rw [Fin.append_left]; exact Spec.Coins.length _
    · rw [Fin.append_right]; exact hA _ _ _
  · funext i
    refine Fin.addCases (fun j => ?_) (fun j => ?_) i <;> simp

theorem tamperer_same {n : Nat} (P : Prims) (enc enc' : Job n → Bytes) (h : SameFiles P enc enc')
    (read : Bytes → Bytes → Bytes × Bool) (cut : Bytes → List Bytes) (A : Tamperer n) :
    A.odds P enc read cut = A.odds P enc' read cut := by
  unfold Tamperer.odds
  refine mean_congr fun t => mean_congr fun coin => mean_congr fun key => mean_congr fun seeds => mean_congr fun csk =>
    mean_congr fun salt => mean_congr fun nonces => ?_
  dsimp only
  rw [h _ (fun i => (seeds i).bytes) csk.length key.length salt.length coin.length (fun i => (seeds i).length) rfl]

theorem site_same {n : Nat} (D : Deps) (L : Laws D.P) (Z : Site n) (sender : Option PrivateKey)
    (hgen : ∀ s, sender = some s → s.Genuine D.P) (hZ : Z.Ready D sender) :
    SameFiles D.P (Z.file D) (encrypted D.P sender Z.blk Z.input) :=
  fun J seeds h1 h2 h3 h4 h5 h6 => (site_writes D L Z sender hgen hZ J h1 h2 h3 h4 seeds h5 h6).2

/-- **C134** (the command's output).  Whatever is drawn for the key pairs and by the command, and whatever the plaintext, a
command that can do its work exits with 0. -/
theorem C134_exit {n : Nat} (D : Deps) (L : Laws D.P) (Z : Site n) (sender : Option PrivateKey)
    (hgen : ∀ s, sender = some s → s.Genuine D.P) (hZ : Z.Ready D sender)
    (csk key salt : Coins 32) (coin : Coins 64) (seeds : Fin n → Coins 32) (nonces : Fin n → Coins 12) (plain : Bytes) :
    (Z.run D { csk := csk.bytes, key := key.bytes, salt := salt.bytes, pks := fun i => D.P.edPub (seeds i).bytes
               nonces := fun i => (nonces i).bytes, coin := coin.bytes, plain := plain }).exit = 0 :=
  (site_writes D L Z sender hgen hZ _ csk.length key.length salt.length coin.length (fun i => (seeds i).bytes)
    (fun i => (seeds i).length) rfl).1

/-- **C134** (secrecy).  Whoever picks two plaintexts of equal length below 2^32 blocks, has one of them encrypted by the
command `sigtool encrypt` for recipients with fresh key pairs, however these are named on the command line, and reads the output:
he tells which one it was no better than the four players of C126 made from him. -/
theorem C134_secrecy {n : Nat} (D : Deps) (L : Laws D.P) (Z : Site n) (sender : Option PrivateKey)
    (hgen : ∀ s, sender = some s → s.Genuine D.P) (hZ : Z.Ready D sender)
    (A : Spy n) (hA : A.Fair (effectiveBlock Z.blk * 2^32)) :
    let S : Setting :=
      { sender := sender.map (·.sk), block := effectiveBlock Z.blk, cut := encryptChunks (effectiveBlock Z.blk) }
    A.advantage D.P (Z.file D) ≤ A.bound D.P S ∧ (∀ b, (A.wrap D.P S b).Valid) ∧ (A.body D.P S).Valid := by
  have hin : ∀ p, (Z.input p).content = p ∧ isEndOfInput (Z.input p).last = true := fun p =>
    ⟨(hZ.input p).1, by rw [(hZ.input p).2]; rfl⟩
  have := C126_encrypt D.P L sender (SenderGenuine.sized L hgen) Z.blk Z.input hin A hA
  unfold Spy.advantage at this ⊢
  rw [spy_same D.P _ _ (site_same D L Z sender hgen hZ) A, spy_same D.P _ _ (site_same D L Z sender hgen hZ) A]
  exact this

/-- **C134** (anonymity).  Whoever has a plaintext of his choice encrypted by the command for one of two groups of recipients with
fresh key pairs, and for any number of public keys of his own, and reads the output: he tells for which group it was no better
than the players of C127 made from him. -/
theorem C134_anonymity {n m : Nat} (D : Deps) (L : Laws D.P) (Z : Site (n + m)) (sender : Option PrivateKey)
    (hgen : ∀ s, sender = some s → s.Genuine D.P) (hZ : Z.Ready D sender) (A : Watcher n m) (hA : A.Fair) :
    let S : Setting :=
      { sender := sender.map (·.sk), block := effectiveBlock Z.blk, cut := encryptChunks (effectiveBlock Z.blk) }
    A.advantage D.P (Z.file D) ≤ ((A.kdf D.P S false).advantage D.P + (A.box D.P S false).advantage D.P) +
      ((A.kdf D.P S true).advantage D.P + (A.box D.P S true).advantage D.P) ∧ ∀ b, (A.box D.P S b).Valid := by
  have hin : ∀ p, (Z.input p).content = p ∧ isEndOfInput (Z.input p).last = true := fun p =>
    ⟨(hZ.input p).1, by rw [(hZ.input p).2]; rfl⟩
  have := C127_encrypt D.P L sender (SenderGenuine.sized L hgen) Z.blk Z.input hin A hA
  unfold Watcher.advantage at this ⊢
  rw [watcher_same D.P _ _ (site_same D L Z sender hgen hZ) A hA, watcher_same D.P _ _ (site_same D L Z sender hgen hZ) A hA]
  exact this

/-! ### The recipient's side -/


/-- A recipient who is fooled by the command would be fooled by the library. -/
theorem fooled_reads (D : Deps) (Y : Desk) (spk : Option PublicKey) (hY : Y.Set D spk) (cut : Bytes → List Bytes)
    (plain seed file : Bytes) (hs : seed.length = 32) (h : Y.fooled D cut plain seed file = true) :
    ∃ out, wrong cut plain (readBy D.P Y.input out spk seed file).1 (readBy D.P Y.input out spk seed file).2 = true := by
  have hpiped : (Y.piped = true) ↔ (Y.outfile = [] ∨ Y.outfile = ascii "-") := by
    unfold Desk.piped; rw [ascii_dash]; simp
  unfold Desk.fooled at h
  unfold Desk.run at h
  rcases decryptCmd_cases D (Y.fs seed file) Y.env Y.stdout Y.outfile Y.force false Y.keyfile Y.getpw Y.pubkey Y.infile (Y.input file)
    with ⟨m, hm, h1⟩ | ⟨sk, pk, ⟨b, h2, h2'⟩, h3, h1⟩
  · exfalso
    rw [h1] at h
    by_cases hp : Y.piped = true
    · rw [if_pos hp] at h
      simp [wrong, hm] at h
    · rw [if_neg hp] at h
      simp [FS.run] at h
  have hsk := hY.key seed file b sk hs h2 h2'
  have hpk := hY.sender seed file pk h3
  subst hsk hpk
  rw [h1] at h
  simp only [Bool.false_eq_true, if_false] at h
  by_cases hp : Y.piped = true
  · rw [if_pos hp] at h
    unfold withOutput at h
    rw [if_pos (hpiped.mp hp)] at h
    dsimp only at h
    refine ⟨Y.stdout, ?_⟩
    unfold decryptBody at h
    unfold readBy
    match hset : setupDecryptor D.P (Y.input file) (newPrivateKey D.P seed) pk with
    | .err x => rw [hset] at h; simp [wrong, exitOf] at h
    | .panic x => rw [hset] at h; simp [wrong, exitOf] at h
    | .ok d =>
      rw [hset] at h
      dsimp only at h ⊢
      match he : d.decrypt D.P Y.stdout with
      | (.ok (), d1, w1) => rw [he] at h; simpa [exitOf, Writer.close] using h
      | (.err x, d1, w1) =>
        rw [he] at h
        have hb : ((Res.err x : Res Unit) == Res.ok ()) = false := by simp
        simpa [exitOf, hb] using h
      | (.panic x, d1, w1) =>
        rw [he] at h
        have hb : ((Res.panic x : Res Unit) == Res.ok ()) = false := by simp
        simpa [exitOf, hb] using h
  · rw [if_neg hp] at h
    have hno := hpiped.not.mp hp
    have hof : Y.outfile ≠ [] ∧ Y.outfile ≠ ascii "-" := ⟨fun h => hno (.inl h), fun h => hno (.inr h)⟩
    obtain ⟨hne, hfresh⟩ := hY.output (by simpa using hp)
    have hbody := decryptBody_ok D.P (Y.input file) (newPrivateKey D.P seed) pk
    refine ⟨Y.env.writer Y.outfile, ?_⟩
    by_cases h0 : (withOutput (Y.fs seed file) Y.env 0o600 Y.stdout Y.outfile Y.force
      (decryptBody D.P (Y.input file) (newPrivateKey D.P seed) pk)).exit = 0
    · obtain ⟨_, w, g1, _, g2⟩ := withOutput_success _ Y.env Y.stdout Y.outfile Y.force _ hbody hof h0
      match hcl : (closeCalls Y.env Y.outfile).1.isNone with
      | true =>
        rw [hcl] at g2
        have g3 := (g2.success _ (hfresh seed file) hne).1
        rw [g3, h0] at h
        obtain ⟨hx, hy⟩ := Bool.and_eq_true_iff.mp h
        unfold decryptBody at g1
        unfold readBy
        match hset : setupDecryptor D.P (Y.input file) (newPrivateKey D.P seed) pk with
        | .err x => rw [hset] at g1; cases g1
        | .panic x => rw [hset] at g1; cases g1
        | .ok d =>
          rw [hset] at g1
          dsimp only at g1 ⊢
          match he : d.decrypt D.P (Y.env.writer Y.outfile) with
          | (.err x, d1, w1) => rw [he] at g1; cases g1
          | (.panic x, d1, w1) => rw [he] at g1; cases g1
          | (.ok (), d1, w1) =>
            rw [he] at g1
            have hw : w.out = w1.out := by cases g1; rfl
            rw [hw] at hy
            unfold wrong
            rw [Bool.or_eq_true_iff]
            right
            simpa [SafeEnv.writer] using hy
      | false =>
        exfalso
        rw [hcl] at g2
        have := (g2.failure _ (hfresh seed file)).1 Y.outfile (by simpa using hne)
        rw [this.1] at h
        simp at h
    · exfalso
      obtain ⟨content, g⟩ := withOutput_failure _ Y.env Y.stdout Y.outfile Y.force _ hbody hof h0
      have := (g.failure _ (hfresh seed file)).1 Y.outfile (by simpa using hne)
      rw [this.1] at h
      simp at h

/-- **C135.** A file goes from the command `sigtool encrypt` to the command `sigtool decrypt`, and on the way somebody may change
everything behind the header, for a recipient of his choice; he sees public keys and file, and the plaintext is his.  The
probability that `decrypt` writes to standard output what is no initial part of the plaintext, or exits with 0 having written
there anything but its first chunks, or leaves in the output file neither what was there before nor, with exit status 0, the
first chunks of the plaintext, is at most the bound of C131.  Every write, sync, close and rename of `decrypt` may fail. -/
theorem C135_commands {n : Nat} (D : Deps) (L : Laws D.P) (Z : Site n) (sender : Option PrivateKey)
    (hgen : ∀ s, sender = some s → s.Genuine D.P) (hZ : Z.Ready D sender) (hblk : Z.blk < 2^30) (hn : n ≤ 15885)
    (Y : Fin n → Desk) (spk : Option PublicKey) (hY : ∀ i, (Y i).Set D spk)
    (hspk : ∀ s, sender = some s → ∃ p, spk = some p ∧ p.pk = s.pub.pk)
    (A : Tamperer n) (hA : ∀ t pks, (A.plain t pks).length < effectiveBlock Z.blk * 2^32) :
    let S : Setting :=
      { sender := sender.map (·.sk), block := effectiveBlock Z.blk, cut := encryptChunks (effectiveBlock Z.blk) }
    A.fools D Z Y (encryptChunks (effectiveBlock Z.blk)) ≤ A.bound D.P S ∧ (A.wrap D.P S).Valid ∧ (A.forger D.P S).Valid := by
  have hr : ∀ p, (Z.input p).content = p ∧ isEndOfInput (Z.input p).last = true := fun p =>
    ⟨(hZ.input p).1, by rw [(hZ.input p).2]; rfl⟩
  have hcut : ∀ p : Bytes, p.length < effectiveBlock Z.blk * 2^32 → (encryptChunks (effectiveBlock Z.blk) p).length ≤ 2^32 ∧
      ∀ c ∈ encryptChunks (effectiveBlock Z.blk) p, c.length ≤ 2^30 := fun p hp => by
    refine ⟨?_, fun c hc => ((encryptChunks_ok _ (effectiveBlock_pos Z.blk) p).1.le c hc).trans (effectiveBlock_le Z.blk)⟩
    rw [encryptChunks_count _ (effectiveBlock_pos Z.blk)]
    have := (Nat.div_lt_iff_lt_mul (effectiveBlock_pos Z.blk)).mpr (by rw [Nat.mul_comm]; exact hp)
    omega
  generalize hlim : effectiveBlock Z.blk * 2^32 = limit at hA hcut
  intro S
  have hsend := encrypted_sending (n := n) D.P L sender hgen Z.blk hblk hn Z.input hr
  have hnot : Noticed D.P S limit (fun J seeds i changed =>
      decide (Spec.front changed = Spec.front (encrypted D.P sender Z.blk Z.input J)) &&
        (Y i).fooled D (encryptChunks (effectiveBlock Z.blk)) J.plain (seeds i) changed) := by
    intro J seeds h1 h2 h3 h4 h5 h6 h7 i changed hev
    obtain ⟨hf, hw⟩ := Bool.and_eq_true_iff.mp hev
    obtain ⟨out, ho⟩ := fooled_reads D (Y i) spk (hY i) _ _ _ _ (h6 i).1 hw
    exact noticed D.P L sender hgen Z.blk (encryptChunks (effectiveBlock Z.blk)) (encrypted (n := n) D.P sender Z.blk Z.input) limit
      spk (Y i).input (hY i).input out hcut hspk hsend J seeds h1 h2 h3 h4 h5 h6 h7 i changed
      (by unfold deceived; rw [hf, ho]; rfl)
  have hdoc := encrypted_documented (n := n) D.P L sender (SenderGenuine.sized L hgen) Z.blk Z.input hr
  have k1 := tampering D.P S A limit _ _ hdoc hnot hA
  refine ⟨?_, twrap_valid D.P S A, forger_valid D.P S A limit hA hcut⟩
  refine le_of_eq_of_le ?_ k1
  unfold Tamperer.fools chance
  refine mean_congr fun t => mean_congr fun coin => mean_congr fun key => mean_congr fun seeds => mean_congr fun csk =>
    mean_congr fun salt => mean_congr fun nonces => ?_
  dsimp only
  rw [site_same D L Z sender hgen hZ _ (fun i => (seeds i).bytes) csk.length key.length salt.length coin.length
    (fun i => (seeds i).length) rfl]

end Sigtool
