import Verif.Spec.Forge
import Verif.Props.Game
import Verif.Props.Sign
import Mathlib.Tactic.Linarith
import Mathlib.Tactic.Positivity
/-!
# C129: one key for signing files and for sending encrypted ones

The game of `Spec/Forge.lean`, played with `SignFile`, `VerifyFile`, `NewEncryptor` with a sender, `AddRecipient`, `Encrypt`
and the stream writer.
-/

namespace Sigtool
open Spec (Coins mean yes Play Use Forger EdForger encryptChunks streamChunks sealedBody macInput headerPart sessionKeys
  senderSeal senderStatement wrapFor)

/-! ### Dialogues -/

theorem run_andThen {Q A R R' : Type} (o : Q → A) (f : R → Play Q A R') : ∀ p : Play Q A R,
    (p.andThen f).run o = ((p.run o).1 ++ ((f (p.run o).2).run o).1, ((f (p.run o).2).run o).2) := by
  intro p
  induction p with
  | done r => simp [Play.andThen, Play.run]
  | ask q k ih => simp only [Play.andThen, Play.run, ih]; rfl

theorem run_through {Q A Q' A' R : Type} (o : Q' → A') (f : Q → Play Q' A' A) : ∀ p : Play Q A R,
    (p.through f).run o =
      ((p.run fun q => ((f q).run o).2).1.flatMap fun q => ((f q).run o).1, (p.run fun q => ((f q).run o).2).2) := by
  intro p
  induction p with
  | done r => simp [Play.through, Play.run]
  | ask q k ih => simp only [Play.through, run_andThen, Play.run, ih, List.flatMap_cons]

/-! ### The program -/

/-- A use of the key with this seed (`sign/sign.go:70-78`, `sign/encrypt.go:129-222`, `sign/stream.go`): the signature, or the
file as far as it was written; nothing if a call failed before that. -/
def useKey (P : Prims) (seed : Bytes) : Use → Bytes
  | .sign c =>
    match signFile P (newPrivateKey P seed) c with
    | .ok s => s.sig
    | _ => []
  | .send stream block csk key salt coin rcpts pieces =>
    match setupEncryptor P (some (newPrivateKey P seed)) block { csk := csk.bytes, key := key.bytes, salt := salt.bytes }
        (rcpts.map fun r => ({ pk := r.1 }, r.2)) with
    | .ok e =>
      if stream then (streamEncrypt P e {} coin.bytes pieces).2.out
      else (e.encrypt P { chunks := pieces, last := .eof, joint := false } {} coin.bytes).2.2.2.out
    | _ => []

/-- `VerifyFile` (`sign/sign.go:155-162`). -/
def acceptsFile (P : Prims) (pk c sig : Bytes) : Bool :=
  match verifyFile P { pk := pk } c { sig := sig } with
  | .ok b => b
  | _ => false

theorem addRecipients_wraps (P : Prims) : ∀ (rs : List (Bytes × Bytes)) (e : Encryptor), e.started = false →
    match Spec.wraps P e.encSK e.hdr.salt e.key rs with
    | some ws => e.addRecipients P (rs.map fun r => ({ pk := r.1 }, r.2)) =
        (.ok (), { e with hdr := { e.hdr with keys := e.hdr.keys ++ ws } })
    | none => ∀ e', e.addRecipients P (rs.map fun r => ({ pk := r.1 }, r.2)) ≠ (.ok (), e') := by
  intro rs
  induction rs with
  | nil => intro e _; simp [Spec.wraps, Encryptor.addRecipients]
  | cons r rs ih =>
    intro e hs
    obtain ⟨pk, rb⟩ := r
    rw [List.map_cons]
    simp only [Spec.wraps, Encryptor.addRecipients, Encryptor.addRecipient, hs, Encryptor.wrapKey, Bool.false_eq_true, if_false]
    by_cases hl : pk.length ≤ 32
    · rw [if_pos hl, if_neg (by omega), toCurve25519PK_eq _ hl]
      unfold wrapFor
      cases hx : P.x25519 e.encSK (Spec.toMontgomery pk) with
      | none => simp
      | some s =>
        simp only [Option.map_some, kekOf_eq]
        have := ih { e with hdr := { e.hdr with keys := e.hdr.keys ++
          [{ dkey := P.aeadSeal (Spec.wrappingKey P s e.hdr.salt rb).1 (Spec.wrappingKey P s e.hdr.salt rb).2 e.key pk
             nonce := rb }] } } hs
        dsimp only at this
        simp only [hs] at this
        split at this
        · rename_i ws hw
          rw [hw]
          dsimp only
          rw [this]
          simp
        · rename_i hw
          rw [hw]
          exact this
    · rw [if_neg hl, if_pos (by omega)]
      simp

theorem usedBlock_eq (blk : Nat) : Spec.usedBlock blk = chooseBlock blk := by rw [chooseBlock_eq]; rfl

/-- Every use comes down to signatures of messages. -/
theorem useKey_answer (P : Prims) (L : Laws P) (seed : Bytes) (hseed : seed.length = 32) (u : Use) :
    useKey P seed u = ((u.answer P).run fun m => P.edSign (seed ++ P.edPub seed) (Spec.digest P m)).2 := by
  have hsk : (newPrivateKey P seed).sk.length = 64 := by simp [newPrivateKey, hseed, L.ed_pub_len seed hseed]
  cases u with
  | sign c =>
    simp only [useKey, signFile, signMessage, hsk, Use.answer, Play.run, ne_eq, not_true_eq_false, if_false]
    rw [signDigest_spec, fileCksum_spec]
    rfl
  | send stream block csk key salt coin rcpts pieces =>
    have hc : EncCoins.WF { csk := csk.bytes, key := key.bytes, salt := salt.bytes } :=
      ⟨csk.length, key.length, salt.length⟩
    have hss : SenderSized (some (newPrivateKey P seed)) := fun s h => by cases h; exact hsk
    obtain ⟨epk, h1, h2, h3⟩ := newEncryptor_eq P L (some (newPrivateKey P seed)) block _ hc hss
    have hw := addRecipients_wraps P rcpts
      { hdr := { chunkSize := chooseBlock block, salt := salt.bytes, pk := epk
                 sender := P.aeadSeal (senderKey P key.bytes salt.bytes).1 (senderKey P key.bytes salt.bytes).2
                   (senderSig P (some (newPrivateKey P seed)) epk { csk := csk.bytes, key := key.bytes, salt := salt.bytes }) [] }
        key := key.bytes, encSK := clamp csk.bytes, sender := some (newPrivateKey P seed), auth := true } rfl
    simp only [useKey, Use.answer]
    dsimp only at h1 hw
    have hset : setupEncryptor P (some (newPrivateKey P seed)) block { csk := csk.bytes, key := key.bytes, salt := salt.bytes }
        (rcpts.map fun r => ({ pk := r.1 }, r.2)) = match Spec.wraps P (clamp csk.bytes) salt.bytes key.bytes rcpts with
        | some ws => .ok
          { hdr := { chunkSize := chooseBlock block, salt := salt.bytes, pk := epk
                     sender := P.aeadSeal (senderKey P key.bytes salt.bytes).1 (senderKey P key.bytes salt.bytes).2
                       (senderSig P (some (newPrivateKey P seed)) epk { csk := csk.bytes, key := key.bytes, salt := salt.bytes }) []
                     keys := ws }
            key := key.bytes, encSK := clamp csk.bytes, sender := some (newPrivateKey P seed), auth := true }
        | none => setupEncryptor P (some (newPrivateKey P seed)) block
            { csk := csk.bytes, key := key.bytes, salt := salt.bytes } (rcpts.map fun r => ({ pk := r.1 }, r.2)) := by
      split at hw
      · rename_i ws hws
        unfold setupEncryptor
        rw [h3]
        simp only [Res.bind_ok, Option.isSome_some]
        rw [hw]
        simp
      · rfl
    cases hws : Spec.wraps P (clamp csk.bytes) salt.bytes key.bytes rcpts with
    | none =>
      rw [hws] at hw
      dsimp only [Play.run]
      cases hse : setupEncryptor P (some (newPrivateKey P seed)) block
          { csk := csk.bytes, key := key.bytes, salt := salt.bytes } (rcpts.map fun r => ({ pk := r.1 }, r.2)) with
      | err x => rfl
      | panic x => rfl
      | ok e =>
        exfalso
        unfold setupEncryptor at hse
        rw [h3] at hse
        simp only [Res.bind_ok, Option.isSome_some] at hse
        split at hse
        · rename_i e1 he
          exact hw _ he
        · cases hse
        · cases hse
    | some ws =>
      rw [hset, hws]
      dsimp only
      generalize he : ({ hdr := { chunkSize := chooseBlock block, salt := salt.bytes, pk := epk
                                  sender := P.aeadSeal (senderKey P key.bytes salt.bytes).1 (senderKey P key.bytes salt.bytes).2
                                    (senderSig P (some (newPrivateKey P seed)) epk
                                      { csk := csk.bytes, key := key.bytes, salt := salt.bytes }) []
                                  keys := ws }
                         key := key.bytes, encSK := clamp csk.bytes, sender := some (newPrivateKey P seed)
                         auth := true } : Encryptor) = e
      have hok : SetupOk P (some (newPrivateKey P seed)) block { csk := csk.bytes, key := key.bytes, salt := salt.bytes }
          (rcpts.map fun r => ({ pk := r.1 }, r.2)) e epk ws := by
        rw [hws] at hset
        dsimp only at hset
        rw [he] at hset
        obtain ⟨epk', ws', g⟩ := setupEncryptor_ok P L _ _ _ _ e hc hset
        have e1 : epk' = epk := by
          have := g.hepk
          dsimp only at this
          rw [h1] at this; cases this; rfl
        subst e1
        have e2 : ws' = ws := by
          have := g.enc
          rw [← he] at this
          simp only [Encryptor.mk.injEq, Header.mk.injEq] at this
          exact this.1.2.2.2.2.1.symm
        subst e2
        exact g
      have hf := hok.fresh L
      have hb : e.hdr.chunkSize = Spec.usedBlock block := by rw [← he, usedBlock_eq]
      have hcont : ∀ cut : Nat → Bytes → List Bytes, e.fullContainer P (cut e.hdr.chunkSize pieces.flatten) coin.bytes =
          ((Play.ask (senderStatement P epk salt.bytes key.bytes) fun s : Bytes =>
            let h := headerPart
              { chunkSize := Spec.usedBlock block, salt := salt.bytes, pk := epk
                sender := P.aeadSeal (senderSeal P key.bytes salt.bytes).1 (senderSeal P key.bytes salt.bytes).2 s []
                keys := ws }
            let k := sessionKeys P key.bytes (P.sha256 h)
            .ask (P.hmac256 k.2.2 (macInput (cut (Spec.usedBlock block) pieces.flatten))) fun tr =>
              .done (h ++ P.sha256 h ++ sealedBody P k.2.1 k.1 0 (cut (Spec.usedBlock block) pieces.flatten) ++ tr)).run
            fun m => P.edSign (seed ++ P.edPub seed) (Spec.digest P m)).2 := by
        intro cut
        have hk : e.key = key.bytes := by rw [← he]
        have hh : e.hdr = { chunkSize := Spec.usedBlock block, salt := salt.bytes, pk := epk
                            sender := P.aeadSeal (senderSeal P key.bytes salt.bytes).1 (senderSeal P key.bytes salt.bytes).2
                              (P.edSign (seed ++ P.edPub seed) (Spec.digest P (senderStatement P epk salt.bytes key.bytes))) []
                            keys := ws } := by
          rw [← he, usedBlock_eq]
          dsimp only [senderSig]
          rw [signDigest_spec]
          rfl
        have htr : ∀ tag, Spec.trailer P ((some (newPrivateKey P seed)).map (·.sk)) coin.bytes tag =
            P.edSign (seed ++ P.edPub seed) (Spec.digest P tag) := fun tag =>
          congrArg (P.edSign (seed ++ P.edPub seed)) (signDigest_spec P tag)
        simp only [Play.run]
        rw [Encryptor.fullContainer, container_eq, Encryptor.trailerOf_spec P e (some (newPrivateKey P seed)) (by rw [← he])
          (by rw [← he]; rfl), Encryptor.keys, hk, hb, htr, ← hh]
        simp only [List.append_assoc]
      rw [h1, Option.getD_some]
      cases stream with
      | true =>
        simp only [if_true]
        rw [← hcont streamChunks]
        rcases streamEncrypt_outcome P L e {} coin.bytes pieces hf with ⟨wr', g1, _, g3⟩ | ⟨x, wr', p, _, ⟨s, j, y, h, _⟩, _⟩
        · rw [g1, g3]; rfl
        · cases h
      | false =>
        simp only [Bool.false_eq_true, if_false]
        rw [← hcont encryptChunks]
        obtain ⟨e', rd', wr', g1, _, _, g4⟩ := encrypt_fresh P L e { chunks := pieces, last := .eof, joint := false } {}
          coin.bytes hf (by simp [Writer.NoFail]) rfl
        rw [g1, g4]
        rfl

/-- The messages signed for a use. -/
theorem answer_log (P : Prims) (L : Laws P) (o : Bytes → Bytes) (u : Use) :
    ∀ m ∈ ((u.answer P).run o).1, (∃ c, u = .sign c ∧ m = P.sha512 (Spec.fileInput c)) ∨ m.length = 32 := by
  cases u with
  | sign c => intro m hm; left; exact ⟨c, rfl, by simpa [Use.answer, Play.run] using hm⟩
  | send stream block csk key salt coin rcpts pieces =>
    intro m hm
    right
    simp only [Use.answer] at hm
    split at hm
    · cases hm
    · simp only [Play.run, List.mem_cons, List.not_mem_nil, or_false] at hm
      rcases hm with rfl | rfl
      · exact L.sha256_len _
      · exact L.hmac_len _ _

/-! ### The reduction -/

theorem mean_add {α : Type} [Fintype α] (f g : α → ℚ) : (mean fun a => f a + g a) = mean f + mean g := by
  unfold Spec.mean
  rw [Finset.sum_add_distrib, add_div]

theorem mean_mono {α : Type} [Fintype α] {f g : α → ℚ} (h : ∀ a, f a ≤ g a) : mean f ≤ mean g := by
  unfold Spec.mean
  exact div_le_div_of_nonneg_right (Finset.sum_le_sum fun a _ => h a) (by positivity)

theorem messageInput_inj {m m' : Bytes} (h : Spec.messageInput m = Spec.messageInput m') : m = m' := by
  unfold Spec.messageInput at h
  exact List.append_cancel_left h

theorem clash_of {P : Prims} {xs : List Bytes} {x y : Bytes} (h : x ∈ xs) (hne : x ≠ y) (he : P.sha512 x = P.sha512 y) :
    Spec.clash P xs y = true := by
  unfold Spec.clash
  rw [List.any_eq_true]
  exact ⟨x, h, by simp [hne, he]⟩

/-- **C129.** For every forger, who sees a fresh public key, has any number of files signed with its secret key and any
number of encrypted files sent by it (plaintexts, recipients, block sizes and even the random bytes are his choice, each use
may depend on the answers before): the probability that he then presents a signature that `VerifyFile` accepts for contents
nobody signed is at most the probability that the explicit forger made from him forges an Ed25519 signature, plus the
probabilities of two SHA-512 collisions among the strings that occur. -/
theorem C129_joint (P : Prims) (L : Laws P) (F : Forger) :
    F.odds P (useKey P) (acceptsFile P) ≤ (F.ed P).odds P + (F.sameFile P (useKey P) + F.sameMessage P) := by
  have e : (F.ed P).odds P = mean fun t : F.Tape => mean fun seed : Coins 32 =>
      yes (P.edVerify (P.edPub seed.bytes)
          (((F.ed P).play t (P.edPub seed.bytes)).run (fun m => P.edSign (seed.bytes ++ P.edPub seed.bytes) m)).2.1
          (((F.ed P).play t (P.edPub seed.bytes)).run (fun m => P.edSign (seed.bytes ++ P.edPub seed.bytes) m)).2.2 &&
        decide ((((F.ed P).play t (P.edPub seed.bytes)).run
            (fun m => P.edSign (seed.bytes ++ P.edPub seed.bytes) m)).2.1 ∉
          (((F.ed P).play t (P.edPub seed.bytes)).run (fun m => P.edSign (seed.bytes ++ P.edPub seed.bytes) m)).1)) := rfl
  rw [e]
  unfold Forger.odds Forger.sameFile Forger.sameMessage
  rw [← mean_add, ← mean_add]
  refine mean_mono fun t => ?_
  rw [← mean_add, ← mean_add]
  refine mean_mono fun seed => ?_
  dsimp only
  have hpk := L.ed_pub_len seed.bytes seed.length
  have huse : useKey P seed.bytes = fun u =>
      ((u.answer P).run fun m => P.edSign (seed.bytes ++ P.edPub seed.bytes) (Spec.digest P m)).2 :=
    funext fun u => useKey_answer P L seed.bytes seed.length u
  -- the three runs are the same run
  have hmsg := run_through (fun m => P.edSign (seed.bytes ++ P.edPub seed.bytes) (Spec.digest P m)) (Use.answer P)
    (F.play t (P.edPub seed.bytes))
  rw [← huse] at hmsg
  have hed : ((F.ed P).play t (P.edPub seed.bytes)).run (fun m => P.edSign (seed.bytes ++ P.edPub seed.bytes) m) =
      (((F.messages P t (P.edPub seed.bytes)).run
          fun m => P.edSign (seed.bytes ++ P.edPub seed.bytes) (Spec.digest P m)).1.map (Spec.digest P),
        Spec.digest P (P.sha512 (Spec.fileInput ((F.messages P t (P.edPub seed.bytes)).run
          fun m => P.edSign (seed.bytes ++ P.edPub seed.bytes) (Spec.digest P m)).2.1)),
        ((F.messages P t (P.edPub seed.bytes)).run
          fun m => P.edSign (seed.bytes ++ P.edPub seed.bytes) (Spec.digest P m)).2.2) := by
    have hone : ∀ m, ((Play.ask (R := Bytes) (Spec.digest P m) Play.done).run
        fun m => P.edSign (seed.bytes ++ P.edPub seed.bytes) m) =
        ([Spec.digest P m], P.edSign (seed.bytes ++ P.edPub seed.bytes) (Spec.digest P m)) := fun m => rfl
    simp only [Forger.ed]
    rw [run_andThen, run_through]
    simp only [hone, Play.run, List.append_nil]
    rw [← List.map_eq_flatMap]
  rw [hed]
  clear hed
  unfold Forger.messages
  rw [hmsg]
  dsimp only
  generalize (F.play t (P.edPub seed.bytes)).run (useKey P seed.bytes) = r
  obtain ⟨uses, c, sig⟩ := r
  dsimp only
  have hnn : ∀ b, (0 : ℚ) ≤ yes b := fun b => by cases b <;> simp [yes]
  by_cases hwin : (acceptsFile P (P.edPub seed.bytes) c sig && decide (c ∉ uses.filterMap Use.contents)) = true
  · rw [hwin]
    rw [Bool.and_eq_true, decide_eq_true_eq] at hwin
    obtain ⟨hacc, hnew⟩ := hwin
    have hver : P.edVerify (P.edPub seed.bytes) (Spec.digest P (P.sha512 (Spec.fileInput c))) sig = true := by
      simp only [acceptsFile, verifyFile, verifyMessage, hpk, ne_eq, not_true_eq_false, if_false] at hacc
      rw [signDigest_spec, fileCksum_spec] at hacc
      exact hacc
    rw [hver, Bool.true_and]
    by_cases hm : Spec.digest P (P.sha512 (Spec.fileInput c)) ∈ List.map (Spec.digest P) (uses.flatMap fun q =>
        ((q.answer P).run fun m => P.edSign (seed.bytes ++ P.edPub seed.bytes) (Spec.digest P m)).1)
    · obtain ⟨m, hm1, hm2⟩ := List.mem_map.mp hm
      by_cases he : m = P.sha512 (Spec.fileInput c)
      · obtain ⟨u, hu, hmu⟩ := List.mem_flatMap.mp hm1
        rcases answer_log P L _ u m hmu with ⟨c', rfl, h⟩ | h
        · have hc' : c' ∈ uses.filterMap Use.contents := List.mem_filterMap.mpr ⟨_, hu, rfl⟩
          have hne : c' ≠ c := fun h => hnew (h ▸ hc')
          rw [clash_of (List.mem_map_of_mem hc') (fun h => hne (C31_encoding_injective _ _ h)) (h.symm.trans he)]
          have := hnn (decide (Spec.digest P (P.sha512 (Spec.fileInput c)) ∉ List.map (Spec.digest P) (uses.flatMap fun q =>
            ((q.answer P).run fun m => P.edSign (seed.bytes ++ P.edPub seed.bytes) (Spec.digest P m)).1)))
          have h2 := hnn (Spec.clash P ((uses.flatMap fun q =>
            ((q.answer P).run fun m => P.edSign (seed.bytes ++ P.edPub seed.bytes) (Spec.digest P m)).1).map
            Spec.messageInput) (Spec.messageInput (P.sha512 (Spec.fileInput c))))
          linarith
        · rw [he, L.sha512_len] at h
          omega
      · rw [clash_of (List.mem_map_of_mem hm1) (fun h => he (messageInput_inj h)) hm2]
        have := hnn (decide (Spec.digest P (P.sha512 (Spec.fileInput c)) ∉ List.map (Spec.digest P) (uses.flatMap fun q =>
          ((q.answer P).run fun m => P.edSign (seed.bytes ++ P.edPub seed.bytes) (Spec.digest P m)).1)))
        have h2 := hnn (Spec.clash P ((uses.filterMap Use.contents).map Spec.fileInput) (Spec.fileInput c))
        linarith
    · rw [decide_eq_true hm]
      have h1 := hnn (Spec.clash P ((uses.filterMap Use.contents).map Spec.fileInput) (Spec.fileInput c))
      have h2 := hnn (Spec.clash P ((uses.flatMap fun q =>
        ((q.answer P).run fun m => P.edSign (seed.bytes ++ P.edPub seed.bytes) (Spec.digest P m)).1).map
        Spec.messageInput) (Spec.messageInput (P.sha512 (Spec.fileInput c))))
      linarith
  · rw [Bool.not_eq_true] at hwin
    rw [hwin]
    have : yes false = 0 := rfl
    rw [this]
    exact add_nonneg (hnn _) (add_nonneg (hnn _) (hnn _))

/-! ### A concrete case

The toy signatures can be made from the public key alone, so a forger who has a file signed and a file sent always succeeds
with a third one: the bound is an obligation. -/

namespace ForgeDemo

def forger : Forger where
  Tape := Coins 32
  play t pk :=
    .ask (.sign [1, 2]) fun s =>
    .ask (.send false 0 t t t (fun _ => 7) [(pk, List.replicate 12 3)] [s, [4]]) fun file =>
    .done (0 :: file, 1 :: toyHash 63 (pk ++ Spec.digest toyPrims (toyPrims.sha512 (Spec.fileInput (0 :: file)))))

theorem odds_eq : forger.odds toyPrims (useKey toyPrims) (acceptsFile toyPrims) = 1 := by
  unfold Forger.odds
  have hne : Nonempty forger.Tape := inferInstanceAs (Nonempty (Coins 32))
  refine Eq.trans (mean_congr fun t => mean_congr fun seed => ?_) (b := mean fun t => mean fun seed => 1) ?_
  · simp only [forger, Play.run]
    have h1 : ∀ file, acceptsFile toyPrims (toyPrims.edPub seed.bytes) (0 :: file) (1 :: toyHash 63 (toyPrims.edPub seed.bytes ++
        Spec.digest toyPrims (toyPrims.sha512 (Spec.fileInput (0 :: file))))) = true := by
      intro file
      simp only [acceptsFile, verifyFile, verifyMessage, toyLaws.ed_pub_len _ seed.length, ne_eq, not_true_eq_false, if_false]
      rw [signDigest_spec, fileCksum_spec]
      simp [toyPrims, Spec.digest]
    rw [h1]
    simp [Use.contents, yes]
  · simp only [mean_const]

end ForgeDemo

example : 1 ≤ (ForgeDemo.forger.ed toyPrims).odds toyPrims + (ForgeDemo.forger.sameFile toyPrims (useKey toyPrims) +
    ForgeDemo.forger.sameMessage toyPrims) :=
  ForgeDemo.odds_eq ▸ C129_joint toyPrims toyLaws ForgeDemo.forger

end Sigtool
