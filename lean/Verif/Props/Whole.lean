import Verif.Spec.Whole
import Verif.Props.Forge
import Verif.DecInv
/-!
# C137: one key for signing, sending and receiving
-/

namespace Sigtool
open Spec

/-- A use of the key with this seed: as in C129, or `NewDecryptor` and then any calls on what it returned. -/
def doKey (P : Prims) (seed : Bytes) : Deed → Sight
  | .act u => .made (useKey P seed u)
  | .receive rd calls =>
    match (newDecryptor P rd).1 with
    | .ok d => .seen (.ok ()) (replies (fun s c => c.on P (newPrivateKey P seed) s) { dec := d } calls)
    | .err x => .seen (.err x) []
    | .panic x => .seen (.panic x) []

theorem findKey_fake (P : Prims) (seed : Bytes) (hs : seed.length = 32) (d : Decryptor) : ∀ ws,
    d.findKey P (newPrivateKey P seed) ws =
      d.findKey { P with x25519 := fun _ _ => P.x25519 (scalarOfSeed P seed) d.hdr.pk }
        ⟨List.replicate 64 0, ⟨P.edPub seed, [], []⟩⟩ ws := by
  intro ws
  induction ws with
  | nil => rfl
  | cons w ws ih =>
    have h : d.unwrapKey P w (newPrivateKey P seed) =
        d.unwrapKey { P with x25519 := fun _ _ => P.x25519 (scalarOfSeed P seed) d.hdr.pk } w
          ⟨List.replicate 64 0, ⟨P.edPub seed, [], []⟩⟩ := by
      unfold Decryptor.unwrapKey toCurve25519SK
      have h1 : ¬ (newPrivateKey P seed).sk.length < 32 := by simp [newPrivateKey, hs]
      have h2 : ¬ (List.replicate 64 (0 : UInt8)).length < 32 := by simp
      rw [if_neg h1, if_neg h2, Res.bind_ok, Res.bind_ok]
      have h3 : (newPrivateKey P seed).sk.take 32 = seed := List.take_left' hs
      rw [h3]
      rfl
    unfold Decryptor.findKey
    rw [h, ih]

theorem setPrivateKey_fake (P : Prims) (seed : Bytes) (hs : seed.length = 32) (d : Decryptor) (spk : Option PublicKey) :
    d.setPrivateKey P (newPrivateKey P seed) spk =
      d.setPrivateKey { P with x25519 := fun _ _ => P.x25519 (scalarOfSeed P seed) d.hdr.pk }
        ⟨List.replicate 64 0, ⟨P.edPub seed, [], []⟩⟩ spk := by
  unfold Decryptor.setPrivateKey
  rw [findKey_fake P seed hs]
  rfl

/-- No call changes the header. -/
theorem step_hdr {P : Prims} {s s' : DecState} {op : DecOp} {ev : DecEvent} (h : s.step P op = some (ev, s')) :
    s'.dec.hdr = s.dec.hdr := by
  cases op with
  | setKey sk spk =>
    obtain ⟨r, d, more, h1, _, h3, _⟩ := step_setKey h
    rw [h3]
    rcases setPrivateKey_cases P s.dec sk spk with ⟨x, _, g⟩ | ⟨x, _, g⟩ | ⟨_, g⟩ | ⟨key, _, g⟩ <;> rw [h1] at g
    · cases g; rfl
    · cases g; rfl
    · cases g; rfl
    · revert g
      cases ({ s.dec with key := some key, sender := spk } : Decryptor).verifySender P key spk <;> intro g <;> cases g <;> rfl
  | decrypt wr =>
    obtain ⟨r, d, wr', buf, h1, _, h3, _⟩ := step_decrypt h
    rw [h3]
    exact (decrypt_only P s.dec wr r d wr' h1).1.hdr
  | openReader =>
    rcases step_open h with ⟨_, _, g⟩ | ⟨_, _, _, g⟩ | ⟨_, _, _, g⟩ <;> rw [g]
  | read k cap =>
    obtain ⟨r, res, _, rc, _⟩ := step_read h
    have hb := (decryptBlock_only P s.dec r.blk).1
    cases rc <;> first | rfl | (rename_i g _; rw [g] at hb; exact hb.hdr) | (rename_i g; rw [g] at hb; exact hb.hdr) | (rename_i g _; exact (congrArg (fun x => x.2.hdr) g).symm.trans hb.hdr) | (rename_i g; exact (congrArg (fun x => x.2.hdr) g).symm.trans hb.hdr)
  | more rd => rw [(step_more h).2.2]

theorem decryptLoop_fake (P : Prims) (f : Bytes → Bytes → Option Bytes) : ∀ (fuel : Nat) (d : Decryptor) (wr : Writer) (i : Nat),
    Decryptor.decryptLoop { P with x25519 := f } fuel d wr i = Decryptor.decryptLoop P fuel d wr i
  | 0, _, _, _ => rfl
  | fuel + 1, d, wr, i => by
    unfold Decryptor.decryptLoop
    rw [show Decryptor.decryptBlock { P with x25519 := f } d i = Decryptor.decryptBlock P d i from rfl]
    simp only [decryptLoop_fake P f fuel]

theorem bufAfterLoop_fake (P : Prims) (f : Bytes → Bytes → Option Bytes) : ∀ (fuel : Nat) (d : Decryptor) (wr : Writer) (i : Nat)
    (buf : Bytes), Decryptor.bufAfterLoop { P with x25519 := f } fuel d wr i buf = Decryptor.bufAfterLoop P fuel d wr i buf
  | 0, _, _, _, _ => rfl
  | fuel + 1, d, wr, i, buf => by
    unfold Decryptor.bufAfterLoop
    rw [show Decryptor.decryptBlock { P with x25519 := f } d i = Decryptor.decryptBlock P d i from rfl,
      show Decryptor.bufAfter { P with x25519 := f } d i buf = Decryptor.bufAfter P d i buf from rfl]
    simp only [bufAfterLoop_fake P f fuel]

theorem step_fake (P : Prims) (seed : Bytes) (hs : seed.length = 32) (s : DecState) (c : Call) :
    c.on P (newPrivateKey P seed) s =
      stepWith P (P.edPub seed) (P.x25519 (scalarOfSeed P seed) s.dec.hdr.pk) s c := by
  cases c with
  | setKey spk =>
    unfold stepWith Call.on Call.op DecState.step
    dsimp only
    rw [setPrivateKey_fake P seed hs]
    rcases s.dec.setPrivateKey { P with x25519 := fun _ _ => P.x25519 (scalarOfSeed P seed) s.dec.hdr.pk }
      ⟨List.replicate 64 0, ⟨P.edPub seed, [], []⟩⟩ spk with ⟨_ | _ | _, d⟩ <;> rfl
  | decrypt wr =>
    have h : s.dec.decrypt { P with x25519 := fun _ _ => P.x25519 (scalarOfSeed P seed) s.dec.hdr.pk } wr =
        s.dec.decrypt P wr := by
      unfold Decryptor.decrypt
      simp only [decryptLoop_fake]
    unfold stepWith Call.on Call.op DecState.step
    dsimp only
    rw [h]
    simp only [bufAfterLoop_fake]
  | openReader => rfl
  | read k cap => rfl
  | more rd => rfl

theorem replies_fake (P : Prims) (seed : Bytes) (hs : seed.length = 32) : ∀ (calls : List Call) (s : DecState),
    replies (fun s c => c.on P (newPrivateKey P seed) s) s calls =
      replies (stepWith P (P.edPub seed) (P.x25519 (scalarOfSeed P seed) s.dec.hdr.pk)) s calls := by
  intro calls
  induction calls with
  | nil => intro s; rfl
  | cons c cs ih =>
    intro s
    unfold replies
    rw [← step_fake P seed hs s c]
    cases h : c.on P (newPrivateKey P seed) s with
    | none => exact ih s
    | some x =>
      obtain ⟨r, s'⟩ := x
      obtain ⟨⟨ev, s''⟩, h1, h2⟩ := Option.map_eq_some_iff.mp h
      cases h2
      dsimp only
      rw [ih s'', step_hdr h1]

/-- The owner's answers to the wishes. -/
abbrev grants (P : Prims) (seed : Bytes) (w : Wish) : Option Bytes := (w.digested P).granted P seed

theorem act_run (P : Prims) (seed : Bytes) (u : Use) :
    ((Deed.act u).answer P (P.edPub seed)).run (grants P seed) =
      (((u.answer P).run fun m => P.edSign (seed ++ P.edPub seed) (Spec.digest P m)).1.map .sign,
        .made ((u.answer P).run fun m => P.edSign (seed ++ P.edPub seed) (Spec.digest P m)).2) := by
  unfold Deed.answer
  dsimp only
  rw [run_andThen, run_through]
  simp only [Play.run, List.append_nil]
  rw [← List.map_eq_flatMap]
  rfl

/-- Every use comes down to signatures and products. -/
theorem doKey_answer (P : Prims) (L : Laws P) (seed : Bytes) (hseed : seed.length = 32) (d : Deed) :
    doKey P seed d = ((d.answer P (P.edPub seed)).run (grants P seed)).2 := by
  cases d with
  | act u =>
    rw [act_run]
    show Sight.made (useKey P seed u) = _
    rw [useKey_answer P L seed hseed u]
  | receive rd calls =>
    unfold doKey Deed.answer
    dsimp only
    cases h : (newDecryptor P rd).1 with
    | err x => rfl
    | panic x => rfl
    | ok d =>
      show Sight.seen _ _ = Sight.seen _ _
      rw [replies_fake P seed hseed]
      rfl

/-- The messages signed for a use. -/
theorem deed_log (P : Prims) (L : Laws P) (seed : Bytes) (d : Deed) :
    ∀ m ∈ ((d.answer P (P.edPub seed)).run (grants P seed)).1.filterMap Wish.message,
      (∃ c, d.contents = some c ∧ m = P.sha512 (Spec.fileInput c)) ∨ m.length = 32 := by
  cases d with
  | act u =>
    rw [act_run]
    dsimp only
    rw [List.filterMap_map]
    intro m hm
    obtain ⟨m', hm', h⟩ := List.mem_filterMap.mp hm
    cases h
    rcases answer_log P L _ u m hm' with ⟨c, rfl, h⟩ | h
    · exact .inl ⟨c, rfl, h⟩
    · exact .inr h
  | receive rd calls =>
    intro m hm
    unfold Deed.answer at hm
    dsimp only at hm
    split at hm <;> simp [Play.run, Wish.message] at hm

/-- **C137.** For every insider, who sees a fresh public key, has any number of files signed with its secret key, any number of
encrypted files sent by it, and any number of files decrypted with it that he or others made, by any calls of the API in any
order, with whole files or through stream readers (he sees how each call ended, what it delivered and whether the sender was
said to be authenticated), each use depending on what he saw before: the probability that he then presents a signature
that `VerifyFile` accepts for contents nobody signed is at most the probability that the explicit forger made from him forges
an Ed25519 signature, who may besides have points multiplied by the X25519 scalar that belongs to the key, plus the
probabilities of two SHA-512 collisions among the strings that occur. -/
theorem C137_joint (P : Prims) (L : Laws P) (F : Insider) :
    F.odds P (doKey P) (acceptsFile P) ≤ (F.ed P).odds P + (F.sameFile P (doKey P) + F.sameMessage P) := by
  have e : (F.ed P).odds P = mean fun t : F.Tape => mean fun seed : Coins 32 =>
      yes (P.edVerify (P.edPub seed.bytes)
          (((F.ed P).play t (P.edPub seed.bytes)).run (Wish.granted P seed.bytes)).2.1
          (((F.ed P).play t (P.edPub seed.bytes)).run (Wish.granted P seed.bytes)).2.2 &&
        decide ((((F.ed P).play t (P.edPub seed.bytes)).run (Wish.granted P seed.bytes)).2.1 ∉
          (((F.ed P).play t (P.edPub seed.bytes)).run (Wish.granted P seed.bytes)).1.filterMap Wish.message)) := rfl
  rw [e]
  unfold Insider.odds Insider.sameFile Insider.sameMessage
  rw [← mean_add, ← mean_add]
  refine mean_mono fun t => ?_
  rw [← mean_add, ← mean_add]
  refine mean_mono fun seed => ?_
  dsimp only
  have hpk := L.ed_pub_len seed.bytes seed.length
  have huse : doKey P seed.bytes = fun d => ((d.answer P (P.edPub seed.bytes)).run (grants P seed.bytes)).2 :=
    funext fun d => doKey_answer P L seed.bytes seed.length d
  have hmsg := run_through (grants P seed.bytes) (Deed.answer P (P.edPub seed.bytes)) (F.play t (P.edPub seed.bytes))
  rw [← huse] at hmsg
  have hed : ((F.ed P).play t (P.edPub seed.bytes)).run (Wish.granted P seed.bytes) =
      (((F.messages P t (P.edPub seed.bytes)).run (grants P seed.bytes)).1.map (Wish.digested P),
        Spec.digest P (P.sha512 (Spec.fileInput ((F.messages P t (P.edPub seed.bytes)).run (grants P seed.bytes)).2.1)),
        ((F.messages P t (P.edPub seed.bytes)).run (grants P seed.bytes)).2.2) := by
    simp only [Insider.ed]
    rw [run_andThen, run_through]
    simp only [Play.run, List.append_nil]
    rw [← List.map_eq_flatMap]
  rw [hed]
  clear hed
  unfold Insider.messages
  rw [hmsg]
  dsimp only
  generalize (F.play t (P.edPub seed.bytes)).run (doKey P seed.bytes) = r
  obtain ⟨deeds, c, sig⟩ := r
  dsimp only
  have hnn : ∀ b, (0 : ℚ) ≤ yes b := fun b => by cases b <;> simp [yes]
  have hdig : ∀ ws : List Wish, (ws.map (Wish.digested P)).filterMap Wish.message =
      (ws.filterMap Wish.message).map (Spec.digest P) := by
    intro ws
    induction ws with
    | nil => rfl
    | cons w ws ih =>
      cases w with
      | sign m => exact congrArg (Spec.digest P m :: ·) ih
      | times q => exact ih
  rw [hdig]
  have hlog : ∀ m ∈ (deeds.flatMap fun d => ((d.answer P (P.edPub seed.bytes)).run (grants P seed.bytes)).1).filterMap
      Wish.message, ∃ d ∈ deeds, (∃ c, d.contents = some c ∧ m = P.sha512 (Spec.fileInput c)) ∨ m.length = 32 := by
    intro m hm
    obtain ⟨w, hw, hwm⟩ := List.mem_filterMap.mp hm
    obtain ⟨d, hd, hdw⟩ := List.mem_flatMap.mp hw
    exact ⟨d, hd, deed_log P L seed.bytes d m (List.mem_filterMap.mpr ⟨w, hdw, hwm⟩)⟩
  generalize (deeds.flatMap fun d => ((d.answer P (P.edPub seed.bytes)).run (grants P seed.bytes)).1).filterMap
      Wish.message = ms at hlog
  by_cases hwin : (acceptsFile P (P.edPub seed.bytes) c sig && decide (c ∉ deeds.filterMap Deed.contents)) = true
  · rw [hwin]
    rw [Bool.and_eq_true, decide_eq_true_eq] at hwin
    obtain ⟨hacc, hnew⟩ := hwin
    have hver : P.edVerify (P.edPub seed.bytes) (Spec.digest P (P.sha512 (Spec.fileInput c))) sig = true := by
      simp only [acceptsFile, verifyFile, verifyMessage, hpk, ne_eq, not_true_eq_false, if_false] at hacc
      rw [signDigest_spec, fileCksum_spec] at hacc
      exact hacc
    rw [hver, Bool.true_and]
    have hA := hnn (decide (Spec.digest P (P.sha512 (Spec.fileInput c)) ∉ ms.map (Spec.digest P)))
    have hB := hnn (Spec.clash P ((deeds.filterMap Deed.contents).map Spec.fileInput) (Spec.fileInput c))
    have hC := hnn (Spec.clash P (ms.map Spec.messageInput) (Spec.messageInput (P.sha512 (Spec.fileInput c))))
    have h1 : yes true = 1 := rfl
    by_cases hm : Spec.digest P (P.sha512 (Spec.fileInput c)) ∈ ms.map (Spec.digest P)
    · obtain ⟨m, hm1, hm2⟩ := List.mem_map.mp hm
      by_cases he : m = P.sha512 (Spec.fileInput c)
      · obtain ⟨d, hd, ⟨c', hc, h⟩ | h⟩ := hlog m hm1
        · have hc' : c' ∈ deeds.filterMap Deed.contents := List.mem_filterMap.mpr ⟨d, hd, hc⟩
          have hne : c' ≠ c := fun h => hnew (h ▸ hc')
          rw [clash_of (List.mem_map_of_mem hc') (fun h => hne (C31_encoding_injective _ _ h)) (h.symm.trans he)]
          linarith
        · rw [he, L.sha512_len] at h
          omega
      · rw [clash_of (P := P) (List.mem_map_of_mem hm1) (fun h => he (messageInput_inj h)) hm2]
        linarith
    · rw [decide_eq_true hm]
      linarith
  · rw [Bool.not_eq_true] at hwin
    rw [hwin]
    have : yes false = 0 := rfl
    rw [this]
    exact add_nonneg (hnn _) (add_nonneg (hnn _) (hnn _))

/-! ### A concrete case

The toy signatures can be made from the public key alone, so an insider who has a file signed, one sent and this one decrypted
always succeeds with a third: the bound is an obligation. -/

namespace WholeDemo

/-- Set the key, open a stream, read twice. -/
def calls (pk : Bytes) : List Call := [.setKey (some ⟨pk, [], []⟩), .openReader, .read 0 1, .read 0 5]

def arriving (file : Bytes) : Reader := { chunks := [file], last := .eof, joint := false }

def sent (t : Coins 32) (pk : Bytes) : Use := .send false 0 t t t (fun _ => 7) [(pk, List.replicate 12 3)] [[4]]

/-- What came out, with three more bytes in front. -/
def longer (rs : List Reply) : Bytes := 0 :: 1 :: 2 :: rs.flatMap Reply.delivered

def insider : Insider where
  Tape := Coins 32
  play t pk :=
    .ask (.act (.sign [1, 2])) fun _ =>
    .ask (.act (sent t pk)) fun
      | .made file =>
        .ask (.receive (arriving file) (calls pk)) fun
        | .seen _ rs => .done (longer rs, 1 :: toyHash 63 (pk ++ Spec.digest toyPrims
            (toyPrims.sha512 (Spec.fileInput (longer rs)))))
        | .made _ => .done ([], [])
      | .seen _ _ => .done ([], [])

theorem receive_seen (P : Prims) (seed : Bytes) (rd : Reader) (cs : List Call) :
    ∃ r rs, doKey P seed (.receive rd cs) = .seen r rs := by
  unfold doKey
  dsimp only
  split <;> exact ⟨_, _, rfl⟩

theorem insider_run (o : Deed → Sight) (use : Use → Bytes) (ha : ∀ u, o (.act u) = .made (use u))
    (hr : ∀ rd cs, ∃ r rs, o (.receive rd cs) = .seen r rs) (t : Coins 32) (pk : Bytes) :
    ∃ rs, (insider.play t pk).run o =
      ([.act (.sign [1, 2]), .act (sent t pk), .receive (arriving (use (sent t pk))) (calls pk)],
        longer rs, 1 :: toyHash 63 (pk ++ Spec.digest toyPrims (toyPrims.sha512 (Spec.fileInput (longer rs))))) := by
  obtain ⟨r, rs, h⟩ := hr (arriving (use (sent t pk))) (calls pk)
  refine ⟨rs, ?_⟩
  simp only [insider, Play.run, ha, h]

theorem odds_eq : insider.odds toyPrims (doKey toyPrims) (acceptsFile toyPrims) = 1 := by
  unfold Insider.odds
  have hne : Nonempty insider.Tape := inferInstanceAs (Nonempty (Coins 32))
  refine Eq.trans (mean_congr fun t => mean_congr fun seed => ?_) (b := mean fun t => mean fun seed => 1) ?_
  · have h1 : ∀ c, acceptsFile toyPrims (toyPrims.edPub seed.bytes) c (1 :: toyHash 63 (toyPrims.edPub seed.bytes ++
        Spec.digest toyPrims (toyPrims.sha512 (Spec.fileInput c)))) = true := by
      intro c
      simp only [acceptsFile, verifyFile, verifyMessage, toyLaws.ed_pub_len _ seed.length, ne_eq, not_true_eq_false, if_false]
      rw [signDigest_spec, fileCksum_spec]
      simp [toyPrims, Spec.digest]
    have hm : ∀ u, doKey toyPrims seed.bytes (.act u) = .made (useKey toyPrims seed.bytes u) := fun _ => rfl
    obtain ⟨out, h⟩ := insider_run (doKey toyPrims seed.bytes) _ hm (receive_seen toyPrims seed.bytes) t (toyPrims.edPub seed.bytes)
    dsimp only
    rw [h]
    dsimp only
    rw [h1]
    simp [Deed.contents, Use.contents, sent, longer, yes]
  · simp only [mean_const]

/-- Decrypting, through a stream, what the key sent to itself shows the plaintext in two pieces, and the sender. -/
example : (match doKey toyPrims (List.replicate 32 5) (.receive
      (arriving (useKey toyPrims (List.replicate 32 5) (.send false 0 (fun _ => 1) (fun _ => 2) (fun _ => 3) (fun _ => 7)
          [(toyPrims.edPub (List.replicate 32 5), List.replicate 12 3)] [[4, 5, 6]])))
      (calls (toyPrims.edPub (List.replicate 32 5)))) with
    | .seen (.ok ()) rs => rs == [⟨.ok (), [], true⟩, ⟨.ok (), [], true⟩, ⟨.ok (), [4], true⟩, ⟨.ok (), [5, 6], true⟩]
    | _ => false) = true := by
  decide +kernel

end WholeDemo

example : 1 ≤ (WholeDemo.insider.ed toyPrims).odds toyPrims + (WholeDemo.insider.sameFile toyPrims (doKey toyPrims) +
    WholeDemo.insider.sameMessage toyPrims) :=
  WholeDemo.odds_eq ▸ C137_joint toyPrims toyLaws WholeDemo.insider

end Sigtool
