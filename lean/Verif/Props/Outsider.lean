import Verif.Spec.Outsider
import Verif.Props.Author
/-!
# C131: nobody but a recipient can change a file

The game of `Spec/Outsider.lean`, played with the files that `NewEncryptor`, `AddRecipient` and `Encrypt` (or the stream
writer) write and `NewDecryptor`, `SetPrivateKey` and `Decrypt` read.
-/

namespace Sigtool
open Spec (Coins mean yes Job KdfSpy AeadSpy RootSpy Setting Tamperer AeadForger encryptChunks streamChunks sealedBody
  sealedChunk lengthWord macInput headerPart headerBytes sessionKeys senderSeal senderStatement wrapFor wrappingKey WrapForgery sealedMid
  chunkSeals bodyTriples strangeChunk newOpens)

/-! ### Where a changed body deviates, there is a strange chunk -/

/-- At its place in the body there is a chunk that opens and is not the sender's. -/
def StrangeAt (P : Prims) (dkey nonce : Bytes) (chunks : List Bytes) (body : Bytes) : Prop :=
  ∃ (mid : List Bytes) (c : Bytes) (l : Bool) (rest : Bytes), mid.length < chunks.length ∧
    (∀ x ∈ mid, x.length < 2^30) ∧ c.length < 2^30 ∧
    P.aeadOpen dkey (be32 mid.length ++ nonce.drop 4)
      (P.aeadSeal dkey (be32 mid.length ++ nonce.drop 4) c (lengthWord c.length l)) (lengthWord c.length l) = some c ∧
    body = sealedMid P dkey nonce 0 mid ++ (sealedChunk P dkey nonce mid.length l c ++ rest) ∧
    ¬ (chunks[mid.length]? = some c ∧ l = decide (mid.length + 1 = chunks.length))

theorem opens_genuine_at (P : Prims) (dkey nonce : Bytes) (chunks : List Bytes) (body : Bytes) (cs : Nat) (hcs : cs < 2^30)
    (hnf : ¬ StrangeAt P dkey nonce chunks body) :
    ∀ (mid pre : List Bytes), pre.length < chunks.length → pre = chunks.take pre.length → MidOk cs pre →
    OpensAt P dkey nonce pre.length mid → MidOk cs mid →
    ∀ rest, body = sealedMid P dkey nonce 0 (pre ++ mid) ++ rest →
    (pre ++ mid).length < chunks.length ∧ pre ++ mid = chunks.take (pre ++ mid).length := by
  intro mid
  induction mid with
  | nil => intro pre h1 h2 _ _ _ rest _; simpa using ⟨h1, h2⟩
  | cons c t ih =>
    intro pre h1 h2 h3 ho hm rest hb
    have hc := hm c (by simp)
    have key : chunks[pre.length]? = some c ∧ false = decide (pre.length + 1 = chunks.length) := by
      by_contra hcon
      apply hnf
      refine ⟨pre, c, false, sealedMid P dkey nonce (pre.length + 1) t ++ rest, h1, fun x hx => ?_, by omega, ho.1, ?_, hcon⟩
      · have := (h3 x hx).2; omega
      · rw [hb, sealedMid_append]
        simp [sealedMid]
    obtain ⟨k1, k2⟩ := key
    have hlt : pre.length + 1 < chunks.length := by
      have : pre.length + 1 ≠ chunks.length := by simpa using k2.symm
      omega
    have := ih (pre ++ [c]) (by simpa using hlt)
      (by
        rw [List.length_append, List.length_singleton, List.take_add_one, k1, ← h2]; rfl)
      (fun x hx => by
        rcases List.mem_append.mp hx with hx | hx
        · exact h3 x hx
        · rw [List.mem_singleton.mp hx]; exact hc)
      (by simpa using ho.2) (fun x hx => hm x (List.mem_cons_of_mem _ hx)) rest (by simpa using hb)
    simpa using this

/-- What an outcome of `Decrypt` says if no chunk at its place is strange. -/
theorem outcome_at (P : Prims) (d : Decryptor) (dkey hk : Bytes) (hr : d.Ready dkey hk [])
    (wr wr' : Writer) (r : Res Unit) (d' : Decryptor) (h : DecOutcome P d 0 dkey hk [] wr r d' wr')
    (chunks : List Bytes) (hne : chunks ≠ [])
    (hnf : ¬ StrangeAt P dkey d.nonce chunks d.rd.content) :
    ∃ p, wr'.out = wr.out ++ p ∧ Accepts P dkey d.nonce chunks d.rd.content r p := by
  have hpos : 0 < chunks.length := List.length_pos_iff.mpr hne
  have hcs := hr.chunk
  have gen : ∀ mid rest, MidOk d.hdr.chunkSize mid → OpensAt P dkey d.nonce 0 mid →
      d.rd.content = sealedMid P dkey d.nonce 0 mid ++ rest → mid.length < chunks.length ∧ mid = chunks.take mid.length := by
    intro mid rest hm ho hb
    have := opens_genuine_at P dkey d.nonce chunks d.rd.content d.hdr.chunkSize hcs hnf mid [] hpos rfl
      (fun x hx => by cases hx) ho hm rest (by simpa using hb)
    simpa using this
  have last : ∀ (mid : List Bytes) (c : Bytes) (l : Bool) (rest : Bytes), mid.length < chunks.length →
      MidOk d.hdr.chunkSize mid → c.length ≤ d.hdr.chunkSize →
      P.aeadOpen dkey (be32 (0 + mid.length) ++ d.nonce.drop 4)
        (P.aeadSeal dkey (be32 (0 + mid.length) ++ d.nonce.drop 4) c (lengthWord c.length l)) (lengthWord c.length l) = some c →
      d.rd.content = sealedMid P dkey d.nonce 0 mid ++ (sealedChunk P dkey d.nonce (0 + mid.length) l c ++ rest) →
      chunks[mid.length]? = some c ∧ l = decide (mid.length + 1 = chunks.length) := by
    intro mid c l rest hm hmid hc ho hrd
    by_contra hcon
    apply hnf
    rw [Nat.zero_add] at ho hrd
    exact ⟨mid, c, l, rest, hm, fun x hx => by have := (hmid x hx).2; omega, by omega, ho, hrd, hcon⟩
  cases h with
  | endedEmpty mid rest _ _ hm ho hrd hw _ _ _ =>
    obtain ⟨g1, g2⟩ := gen mid _ hm ho hrd
    refine ⟨mid.flatten, hw.out, ?_⟩
    have := Accepts.cut (P := P) (dkey := dkey) (nonce := d.nonce) (chunks := chunks) (body := d.rd.content) mid.length rest g1
      (by rw [← g2]; exact hrd)
    rwa [← g2] at this
  | endedFull mid fin tr rest _ _ hm ho hf0 hf htr hof hver hrd hw _ _ _ =>
    obtain ⟨g1, g2⟩ := gen mid _ hm ho hrd
    obtain ⟨g3, g4⟩ := last mid fin true _ g1 hm hf hof hrd
    have g5 : mid.length + 1 = chunks.length := by simpa using g4
    have g6 : chunks = mid ++ [fin] := by
      have h1 : chunks = chunks.take (mid.length + 1) := by rw [List.take_of_length_le (by omega)]
      rw [List.take_add_one, g3, ← g2] at h1
      exact h1
    refine ⟨mid.flatten ++ fin, hw.out, ?_⟩
    have := Accepts.all (P := P) (dkey := dkey) (nonce := d.nonce) (chunks := chunks) (body := d.rd.content) tr rest htr
      (by rw [hrd, g6, sealedBody_snoc]; simp)
    rw [g6] at this ⊢
    simpa using this
  | badInput x mid rest _ _ hm ho hrd hw _ _ =>
    obtain ⟨g1, g2⟩ := gen mid _ hm ho hrd
    exact ⟨mid.flatten, hw.out, .failed _ _ (by rw [g2]; exact flatten_take_prefix _ _)⟩
  | writeFailed x mid c rest p l _ _ hm ho hc hoc hrd hw hp hx _ _ =>
    obtain ⟨g1, g2⟩ := gen mid _ hm ho hrd
    obtain ⟨g3, g4⟩ := last mid c l _ g1 hm hc.2 hoc hrd
    refine ⟨mid.flatten ++ p, hw.out, .failed _ _ ?_⟩
    rw [g2]
    exact flatten_take_snoc_prefix _ _ _ _ g3 hp

theorem chunkSeals_mem (nonce : Bytes) : ∀ (chunks : List Bytes) (i : Nat) (q : Bytes × Bytes × Bytes),
    q ∈ chunkSeals nonce i chunks → ∃ j c, chunks[j]? = some c ∧
      q = (be32 (i + j) ++ nonce.drop 4, lengthWord c.length (decide (j + 1 = chunks.length)), c) := by
  intro chunks
  induction chunks with
  | nil => intro i q h; cases h
  | cons c cs ih =>
    intro i q h
    rcases List.mem_cons.mp h with rfl | h
    · refine ⟨0, c, rfl, ?_⟩
      cases cs <;> simp
    · obtain ⟨j, x, h1, h2⟩ := ih (i + 1) q h
      refine ⟨j + 1, x, by simpa using h1, ?_⟩
      rw [h2]
      simp [Nat.add_assoc, Nat.add_comm 1]

/-- The word at the head of a sealed chunk. -/
theorem lengthWord_mod (n : Nat) (l : Bool) (h : n < 2^31) (t : Bytes) :
    ((lengthWord n l ++ t).take 4).foldl (fun a b => a * 256 + b.toNat) 0 % 2^31 = n := by
  rw [lengthWord_dec n l h]
  cases l
  · simpa using Nat.mod_eq_of_lt h
  · simp only [if_true]; omega

theorem sealedChunk_length (P : Prims) (L : Laws P) (dkey nonce : Bytes) (hk : dkey.length = 32) (hn : nonce.length = 12)
    (i : Nat) (l : Bool) (c : Bytes) (hc : c.length < 2^30) : (sealedChunk P dkey nonce i l c).length = 4 + c.length + 16 := by
  rw [sealedChunk, List.length_append, L.seal_len _ _ _ _ hk (by simp [hn]) (by omega)]
  simp; omega

theorem triple_mem (P : Prims) (L : Laws P) (dkey nonce : Bytes) (hk : dkey.length = 32) (hn : nonce.length = 12)
    (c : Bytes) (l : Bool) (rest : Bytes) (hc : c.length < 2^30) : ∀ (mid : List Bytes) (i fuel : Nat), mid.length < fuel →
    (∀ x ∈ mid, x.length < 2^30) →
    (be32 (i + mid.length) ++ nonce.drop 4, lengthWord c.length l,
      P.aeadSeal dkey (be32 (i + mid.length) ++ nonce.drop 4) c (lengthWord c.length l)) ∈
    bodyTriples nonce fuel i (sealedMid P dkey nonce i mid ++ (sealedChunk P dkey nonce (i + mid.length) l c ++ rest)) := by
  intro mid
  induction mid with
  | nil =>
    intro i fuel hf _
    obtain ⟨fuel, rfl⟩ : ∃ f, fuel = f + 1 := ⟨fuel - 1, by simp at hf; omega⟩
    have hl := L.seal_len dkey (be32 i ++ nonce.drop 4) c (lengthWord c.length l) hk (by simp [hn]) (by omega)
    have hw : ∀ t : Bytes, (lengthWord c.length l ++ t).take 4 = lengthWord c.length l := fun t => List.take_left' (by simp)
    have hne : sealedMid P dkey nonce i [] ++ (sealedChunk P dkey nonce (i + ([] : List Bytes).length) l c ++ rest) =
        lengthWord c.length l ++ (P.aeadSeal dkey (be32 i ++ nonce.drop 4) c (lengthWord c.length l) ++ rest) := by
      simp [sealedMid, sealedChunk]
    rw [hne, bodyTriples, if_neg (by
      intro h; have := congrArg List.length h; simp at this)]
    dsimp only
    rw [lengthWord_mod _ _ (by omega), hw, List.drop_left' (by simp), List.take_left' (by omega)]
    exact List.mem_cons_self ..
  | cons x t ih =>
    intro i fuel hf hm
    obtain ⟨fuel, rfl⟩ : ∃ f, fuel = f + 1 := ⟨fuel - 1, by simp at hf; omega⟩
    have hx := hm x (by simp)
    have hl := sealedChunk_length P L dkey nonce hk hn i false x hx
    have ih := ih (i + 1) fuel (by simp at hf; omega) (fun y hy => hm y (by simp [hy]))
    have e : i + (x :: t).length = i + 1 + t.length := by simp; omega
    rw [e]
    have hb : sealedMid P dkey nonce i (x :: t) ++ (sealedChunk P dkey nonce (i + 1 + t.length) l c ++ rest) =
        sealedChunk P dkey nonce i false x ++
          (sealedMid P dkey nonce (i + 1) t ++ (sealedChunk P dkey nonce (i + 1 + t.length) l c ++ rest)) := by
      simp [sealedMid]
    rw [hb, bodyTriples, if_neg (by
      intro h; have := congrArg List.length h; rw [List.length_append, hl] at this; simp at this)]
    dsimp only
    refine List.mem_cons_of_mem _ ?_
    have hd : ((sealedChunk P dkey nonce i false x ++
        (sealedMid P dkey nonce (i + 1) t ++ (sealedChunk P dkey nonce (i + 1 + t.length) l c ++ rest))).take 4).foldl
          (fun a b => a * 256 + b.toNat) 0 % 2^31 = x.length := by
      rw [sealedChunk, List.append_assoc]
      exact lengthWord_mod _ _ (by omega) _
    rw [hd, List.drop_left' hl]
    exact ih

theorem strange_found (P : Prims) (L : Laws P) (dkey nonce : Bytes) (hk : dkey.length = 32) (hn : nonce.length = 12)
    (chunks : List Bytes) (hcount : chunks.length ≤ 2^32) (hsize : ∀ c ∈ chunks, c.length ≤ 2^30) (body : Bytes)
    (h : StrangeAt P dkey nonce chunks body) : strangeChunk P dkey nonce chunks body = true := by
  obtain ⟨mid, c, l, rest, h1, h2, h3, h4, h5, h6⟩ := h
  unfold Spec.strangeChunk Spec.newOpens
  rw [List.any_eq_true]
  refine ⟨(be32 mid.length ++ nonce.drop 4, lengthWord c.length l,
    P.aeadSeal dkey (be32 mid.length ++ nonce.drop 4) c (lengthWord c.length l)), ?_, ?_⟩
  · have hlen : mid.length < body.length := by
      have := sealedMid_ge P dkey nonce mid 0
      rw [h5, List.length_append, List.length_append, sealedChunk_length P L dkey nonce hk hn _ _ _ h3]
      omega
    have := triple_mem P L dkey nonce hk hn c l rest h3 mid 0 body.length hlen h2
    rw [Nat.zero_add, ← h5] at this
    exact this
  · dsimp only
    rw [h4, Option.isSome_some, Bool.true_and, Bool.not_eq_true', Bool.eq_false_iff]
    intro hin
    rw [List.contains_iff_mem] at hin
    obtain ⟨q, hq, he⟩ := List.mem_map.mp hin
    obtain ⟨j, x, g1, rfl⟩ := chunkSeals_mem nonce chunks 0 q hq
    simp only [Nat.zero_add, Prod.mk.injEq] at he
    obtain ⟨e1, e2, e3⟩ := he
    have hj : j < chunks.length := (List.getElem?_eq_some_iff.mp g1).1
    have hx : x ∈ chunks := List.mem_of_getElem? g1
    have hij : j = mid.length := by
      have := be32_inj_mod (List.append_inj_left e1 (by simp))
      omega
    subst hij
    have ho := L.open_seal dkey (be32 mid.length ++ nonce.drop 4) x
      (lengthWord x.length (decide (mid.length + 1 = chunks.length))) hk (by simp [hn]) (hsize x hx)
    rw [e3, e2, h4] at ho
    cases ho
    exact h6 ⟨g1, ((lengthWord_inj _ _ _ _ (by omega) (by omega) e2).2).symm⟩

/-! ### The steps of the game -/

section
variable {n : Nat} (P : Prims) (S : Setting) (A : Tamperer n)

theorem chunkSeals_body (dk nonce : Bytes) : ∀ (chunks : List Bytes) (i : Nat),
    (List.zipWith (fun (q : Bytes × Bytes × Bytes) ct => q.2.1 ++ ct) (chunkSeals nonce i chunks)
      ((chunkSeals nonce i chunks).map fun q => P.aeadSeal dk q.1 q.2.2 q.2.1)).flatten = sealedBody P dk nonce i chunks := by
  intro chunks
  induction chunks with
  | nil => intro i; rfl
  | cons c cs ih =>
    intro i
    have := ih (i + 1)
    cases cs with
    | nil => simp [chunkSeals, sealedBody, sealedChunk]
    | cons d ds =>
      rw [chunkSeals, List.map_cons, List.zipWith_cons_cons, List.flatten_cons, this]
      simp [sealedBody, sealedChunk]

theorem tkdf_is_wrap : (A.kdf P S).ideal P = (A.wrap P S).odds P false := by
  unfold KdfSpy.ideal AeadSpy.odds
  refine (mean_prod _).trans (Eq.trans ?_ (mean_prod _).symm)
  refine mean_congr fun t => ?_
  refine (mean_prod _).trans (Eq.trans ?_ (mean_prod _).symm)
  refine mean_congr fun coin => ?_
  refine Eq.trans ?_ (mean_prod _).symm
  refine mean_congr fun key => ?_
  refine Eq.trans ?_ (mean_prod _).symm
  refine mean_congr fun seeds => ?_
  refine Eq.trans ?_ (mean_prod _).symm
  refine mean_congr fun csk => ?_
  refine Eq.trans ?_ (mean_prod _).symm
  refine mean_congr fun salt => ?_
  refine Eq.trans ?_ (mean_prod _).symm
  refine mean_congr fun nonces => mean_congr fun ns => mean_congr fun ks => rfl

theorem twrap_is_root : (A.wrap P S).odds P true = (A.root P S).real P := by
  unfold RootSpy.real AeadSpy.odds
  refine (mean_prod _).trans (Eq.trans ?_ (mean_prod _).symm)
  refine mean_congr fun t => ?_
  refine (mean_prod _).trans (Eq.trans ?_ (mean_prod _).symm)
  refine mean_congr fun coin => ?_
  refine (mean_prod _).trans ?_
  refine Eq.trans (mean_congr fun key => mean_prod _) ?_
  refine (mean_comm _).trans (Eq.trans ?_ (mean_prod _).symm)
  refine mean_congr fun seeds => ?_
  refine Eq.trans (mean_congr fun key => mean_prod _) ?_
  refine (mean_comm _).trans (Eq.trans ?_ (mean_prod _).symm)
  refine mean_congr fun csk => ?_
  refine Eq.trans (mean_congr fun key => mean_prod _) ?_
  refine (mean_comm _).trans (Eq.trans ?_ (mean_prod _).symm)
  refine mean_congr fun salt => ?_
  refine Eq.trans (mean_congr fun key => mean_prod _) ?_
  refine (mean_comm _).trans (Eq.trans ?_ (mean_prod _).symm)
  refine mean_congr fun nonces => ?_
  refine (mean_comm _).trans (Eq.trans ?_ (mean_prod _).symm)
  refine mean_congr fun ns => ?_
  refine (mean_comm _).trans ?_
  exact mean_congr fun ks => mean_congr fun key => rfl

theorem troot_is_forger : (A.root P S).ideal = (A.forger P S).odds P := by
  unfold RootSpy.ideal AeadForger.odds
  refine Eq.trans ?_ (mean_prod _).symm
  refine mean_congr fun t => ?_
  refine Eq.trans ?_ (mean_prod _).symm
  refine mean_congr fun sk => ?_
  refine Eq.trans ?_ (mean_prod _).symm
  refine mean_congr fun sn => ?_
  refine Eq.trans ?_ (mean_prod _).symm
  refine mean_congr fun d => ?_
  refine Eq.trans ?_ (mean_prod _).symm
  refine mean_congr fun nonce => ?_
  refine (mean_comm _).trans ?_
  refine mean_congr fun hkey => mean_congr fun dkey => ?_
  obtain ⟨t, coin, seeds, csk, salt, nonces, ns, ks⟩ := t
  simp only [Tamperer.root, Tamperer.forger]
  rw [chunkSeals_body P dkey.bytes nonce.bytes _ 0]
  rfl

theorem twrap_valid : (A.wrap P S).Valid := by
  intro t i
  obtain ⟨t, coin, key, seeds, csk, salt, nonces, ns⟩ := t
  simp [Tamperer.wrap, Spec.Coins.length, Spec.blank]

theorem chunkSeals_nodup (nonce : Bytes) : ∀ (chunks : List Bytes) (i : Nat), i + chunks.length ≤ 2^32 →
    ((chunkSeals nonce i chunks).map (·.1)).Nodup := by
  intro chunks
  induction chunks with
  | nil => intro i _; simp [chunkSeals]
  | cons c cs ih =>
    intro i hi
    simp only [List.length_cons] at hi
    rw [chunkSeals, List.map_cons, List.nodup_cons]
    refine ⟨?_, ih (i + 1) (by omega)⟩
    intro hm
    obtain ⟨q, hq, he⟩ := List.mem_map.mp hm
    obtain ⟨j, x, h1, rfl⟩ := chunkSeals_mem nonce cs (i + 1) q hq
    have hj : j < cs.length := (List.getElem?_eq_some_iff.mp h1).1
    have := be32_inj_mod (List.append_inj_left he (by simp))
    omega

theorem forger_valid (limit : Nat) (hA : ∀ t pks, (A.plain t pks).length < limit)
    (hn : ∀ p : Bytes, p.length < limit → (S.cut p).length ≤ 2^32 ∧ ∀ c ∈ S.cut p, c.length ≤ 2^30) :
    (A.forger P S).Valid := by
  intro t
  obtain ⟨⟨t, coin, seeds, csk, salt, nonces, ns, ks⟩, sk, sn, d, nonce, hkey⟩ := t
  simp only [Tamperer.forger]
  have h1 := hn _ (hA t fun i => P.edPub (seeds i).bytes)
  refine ⟨chunkSeals_nodup _ _ 0 (by omega), fun q hq => ?_⟩
  obtain ⟨j, x, g1, rfl⟩ := chunkSeals_mem _ _ _ _ hq
  exact ⟨by simp [Spec.Coins.length], h1.2 _ (List.mem_of_getElem? g1)⟩

theorem mean_nonneg {α : Type} [Fintype α] {f : α → ℚ} (h : ∀ a, 0 ≤ f a) : 0 ≤ mean f := by
  unfold Spec.mean
  exact div_nonneg (Finset.sum_nonneg fun a _ => h a) (by positivity)

theorem mean_const_le {α : Type} [Fintype α] {c : ℚ} (h : 0 ≤ c) : (mean fun _ : α => c) ≤ c := by
  unfold Spec.mean
  rw [Finset.sum_const, Finset.card_univ, nsmul_eq_mul]
  by_cases h0 : Fintype.card α = 0
  · rw [h0]; simpa using h
  · rw [mul_comm, mul_div_assoc, div_self (by exact_mod_cast h0), mul_one]

theorem yes_nonneg (b : Bool) : 0 ≤ yes b := by cases b <;> simp [yes]

theorem yes_decide {p : Prop} [Decidable p] (h : p) : yes (decide p) = yes true := by rw [decide_eq_true h]

/-- Whenever `event` happens - it may depend on what was encrypted, on the recipients' seeds, on the recipient chosen and the
file he is given - somebody could open another one's wrapped key, or there is a strange chunk in that file. -/
def Noticed (limit : Nat) (event : Job n → (Fin n → Bytes) → Fin n → Bytes → Bool) : Prop :=
  ∀ (J : Job n) (seeds : Fin n → Bytes), J.csk.length = 32 → J.key.length = 32 → J.salt.length = 32 → J.coin.length = 64 →
    (∀ i, (J.nonces i).length = 12) → (∀ i, (seeds i).length = 32 ∧ J.pks i = P.edPub (seeds i)) → J.plain.length < limit →
    ∀ (i : Fin n) (changed : Bytes), event J seeds i changed = true →
    let epk := (P.x25519 (clamp J.csk) basepoint).getD []
    let h := Spec.head P S.sender S.block epk J.salt (senderSeal P J.key J.salt) (senderStatement P epk J.salt J.key) J.nonces
      fun i =>
        let k := wrappingKey P ((P.x25519 (clamp J.csk) (Spec.toMontgomery (J.pks i))).getD []) J.salt (J.nonces i)
        P.aeadSeal k.1 k.2 J.key (J.pks i)
    let k := sessionKeys P J.key (P.sha256 h)
    (∃ i j, WrapForgery P (clamp J.csk) J.salt J.key (J.pks j) (J.nonces j) (seeds i)) ∨
    strangeChunk P k.2.1 k.1 (S.cut J.plain) (changed.drop (h.length + 32)) = true

/-- The probability of an event, the changed file being the tamperer's. -/
def chance (enc : Job n → Bytes) (event : Job n → (Fin n → Bytes) → Fin n → Bytes → Bool) : ℚ :=
  mean fun t : A.Tape => mean fun coin : Coins 64 => mean fun key : Coins 32 =>
  mean fun seeds : Fin n → Coins 32 => mean fun csk : Coins 32 => mean fun salt : Coins 32 =>
  mean fun nonces : Fin n → Coins 12 =>
    let pks := fun i => P.edPub (seeds i).bytes
    let J : Job n := { csk := csk.bytes, key := key.bytes, salt := salt.bytes, pks, nonces := fun i => (nonces i).bytes
                       coin := coin.bytes, plain := A.plain t pks }
    let changed := A.change t pks (enc J)
    yes (event J (fun i => (seeds i).bytes) changed.1 changed.2)

/-- The event of the game. -/
def deceived (cut : Bytes → List Bytes) (enc : Job n → Bytes) (read : (seed file : Bytes) → Bytes × Bool) :
    Job n → (Fin n → Bytes) → Fin n → Bytes → Bool :=
  fun J seeds i changed => decide (Spec.front changed = Spec.front (enc J)) &&
    Spec.wrong cut J.plain (read (seeds i) changed).1 (read (seeds i) changed).2

open Classical in
theorem tampering (limit : Nat) (enc : Job n → Bytes) (event : Job n → (Fin n → Bytes) → Fin n → Bytes → Bool)
    (hdoc : Documented P S enc) (henc : Noticed P S limit event) (hA : ∀ t pks, (A.plain t pks).length < limit) :
    chance P A enc event ≤ A.bound P S := by
  have h1 : chance P A enc event ≤ Spec.crossing P n + (A.kdf P S).real P := by
    have hx : 0 ≤ Spec.crossing P n := by
      unfold Spec.crossing
      exact mean_nonneg fun _ => mean_nonneg fun _ => mean_nonneg fun _ => mean_nonneg fun _ => mean_nonneg fun _ => yes_nonneg _
    have h2 : (A.kdf P S).real P = mean fun t : A.Tape => mean fun coin : Coins 64 => mean fun key : Coins 32 =>
        mean fun seeds : Fin n → Coins 32 => mean fun csk : Coins 32 => mean fun salt : Coins 32 =>
        mean fun nonces : Fin n → Coins 12 =>
          let pks := fun i => P.edPub (seeds i).bytes
          let shared := fun i => (P.x25519 (clamp csk.bytes) (Spec.toMontgomery (pks i))).getD []
          yes ((A.kdf P S).guess (t, coin, key) pks ((P.x25519 (clamp csk.bytes) basepoint).getD []) salt.bytes
            (fun i => (nonces i).bytes) fun i => wrappingKey P (shared i) salt.bytes (nonces i).bytes) := by
      unfold KdfSpy.real
      refine (mean_prod _).trans ?_
      refine mean_congr fun t => ?_
      refine (mean_prod _).trans ?_
      exact mean_congr fun coin => mean_congr fun key => rfl
    rw [h2]
    refine le_trans ?_ (add_le_add (mean_const_le (α := A.Tape) hx) le_rfl)
    rw [← mean_add]
    unfold chance
    refine mean_mono fun t => ?_
    refine le_trans ?_ (add_le_add (mean_const_le (α := Coins 64) hx) le_rfl)
    rw [← mean_add]
    refine mean_mono fun coin => ?_
    unfold Spec.crossing
    simp only [← mean_add]
    refine mean_mono fun key => mean_mono fun seeds => mean_mono fun csk => mean_mono fun salt => mean_mono fun nonces => ?_
    generalize hJ : ({ csk := csk.bytes, key := key.bytes, salt := salt.bytes, pks := fun i => P.edPub (seeds i).bytes
                       nonces := fun i => (nonces i).bytes, coin := coin.bytes
                       plain := A.plain t fun i => P.edPub (seeds i).bytes } : Job n) = J
    rcases Bool.eq_false_or_eq_true (event J (fun i => (seeds i).bytes)
        (A.change t (fun i => P.edPub (seeds i).bytes) (enc J)).1
        (A.change t (fun i => P.edPub (seeds i).bytes) (enc J)).2) with hw | hw
    · rw [hw]
      have hc := henc J (fun i => (seeds i).bytes) (by rw [← hJ]; exact csk.length) (by rw [← hJ]; exact key.length)
        (by rw [← hJ]; exact salt.length) (by rw [← hJ]; exact coin.length) (fun i => by rw [← hJ]; exact (nonces i).length)
        (fun i => ⟨(seeds i).length, by rw [← hJ]⟩) (by rw [← hJ]; exact hA _ _) _ _ hw
      have hd := hdoc J (fun i => (seeds i).bytes) (by rw [← hJ]; exact csk.length) (by rw [← hJ]; exact key.length)
        (by rw [← hJ]; exact salt.length) (fun i => by rw [← hJ]; exact (nonces i).length)
        (fun i => ⟨(seeds i).length, by rw [← hJ]⟩)
      rcases hc with hc | hc
      · refine le_trans (le_of_eq (Eq.symm ?_)) (le_add_of_nonneg_right (yes_nonneg _))
        exact yes_decide (by rw [← hJ] at hc; exact hc)
      · refine le_trans (le_of_eq (Eq.symm ?_)) (le_add_of_nonneg_left (yes_nonneg _))
        refine congrArg yes ?_
        simp only [Tamperer.kdf]
        dsimp only at hd hc
        rw [hd] at hc
        subst hJ
        exact hc
    · rw [hw]
      exact add_nonneg (yes_nonneg _) (yes_nonneg _)
  have a1 : (A.kdf P S).real P ≤ (A.kdf P S).advantage P + (A.kdf P S).ideal P := by
    have := le_abs_self ((A.kdf P S).real P - (A.kdf P S).ideal P)
    unfold KdfSpy.advantage
    linarith
  have a2 : (A.wrap P S).odds P false ≤ (A.wrap P S).advantage P + (A.wrap P S).odds P true := by
    have := le_abs_self ((A.wrap P S).odds P false - (A.wrap P S).odds P true)
    unfold AeadSpy.advantage
    linarith
  have a3 : (A.root P S).real P ≤ (A.root P S).advantage P + (A.root P S).ideal := by
    have := le_abs_self ((A.root P S).real P - (A.root P S).ideal)
    unfold RootSpy.advantage
    linarith
  rw [tkdf_is_wrap] at a1
  rw [twrap_is_root] at a2
  rw [troot_is_forger P S A] at a3
  unfold Tamperer.bound
  linarith
end

/-! ### sigtool's reader -/

/-- What a recipient gets who gives a file, delivered in any way, to `NewDecryptor`, `SetPrivateKey` with his private key and
the sender's public key, and `Decrypt`: what was written, and whether there was no error. -/
def readBy (P : Prims) (deliver : Bytes → Reader) (out : Writer) (spk : Option PublicKey) (seed file : Bytes) : Bytes × Bool :=
  match setupDecryptor P (deliver file) (newPrivateKey P seed) spk with
  | .ok d => ((d.decrypt P out).2.2.out.drop out.out.length, (d.decrypt P out).1 == .ok ())
  | _ => ([], false)

theorem front_eq (P : Prims) (L : Laws P) (hdr : Header) (rest : Bytes) (hn : (headerBytes hdr).length < 2^32) :
    Spec.front (headerPart hdr ++ P.sha256 (headerPart hdr) ++ rest) = headerPart hdr ++ P.sha256 (headerPart hdr) := by
  have hp : headerPart hdr = (ascii "SigTool" ++ [3] ++ be32 (headerBytes hdr).length) ++ headerBytes hdr := rfl
  have h8 : (headerPart hdr ++ P.sha256 (headerPart hdr) ++ rest).drop 8 = be32 (headerBytes hdr).length ++
      (headerBytes hdr ++ (P.sha256 (headerPart hdr) ++ rest)) := by
    rw [hp]
    simp only [List.append_assoc]
    rfl
  have hl : (headerPart hdr).length = 12 + (headerBytes hdr).length := by
    rw [hp, List.length_append]; rfl
  unfold Spec.front
  rw [h8, List.take_left' (show (be32 (headerBytes hdr).length).length = 4 by simp), foldl_be _ (by simp)]
  have : be32dec (be32 (headerBytes hdr).length) = (headerBytes hdr).length := by
    have := be32dec_be32 (headerBytes hdr).length []
    rwa [List.append_nil, Nat.mod_eq_of_lt hn] at this
  rw [this]
  exact List.take_left' (by rw [List.length_append, L.sha256_len, hl])

theorem noticed {n : Nat} (P : Prims) (L : Laws P) (sender : Option PrivateKey) (hgen : ∀ s, sender = some s → s.Genuine P)
    (blk : Nat) (cut : Bytes → List Bytes) (enc : Job n → Bytes) (limit : Nat) (spk : Option PublicKey)
    (deliver : Bytes → Reader) (hdel : ∀ f, (deliver f).content = f) (out : Writer)
    (hcut : ∀ p : Bytes, p.length < limit → (cut p).length ≤ 2^32 ∧ ∀ c ∈ cut p, c.length ≤ 2^30)
    (hnamed : ∀ s, sender = some s → ∃ p, spk = some p ∧ p.pk = s.pub.pk)
    (henc : ∀ (J : Job n) (e : Encryptor), J.csk.length = 32 → J.key.length = 32 → J.salt.length = 32 → J.coin.length = 64 →
      (∀ i, (J.nonces i).length = 12) → setupEncryptor P sender blk { csk := J.csk, key := J.key, salt := J.salt }
      (List.ofFn fun i => ({ pk := J.pks i }, J.nonces i)) = .ok e →
      Sending P sender blk { csk := J.csk, key := J.key, salt := J.salt } (List.ofFn fun i => ({ pk := J.pks i }, J.nonces i))
        e J.plain (cut J.plain) (enc J)) :
    Noticed P { sender := sender.map (·.sk), block := effectiveBlock blk, cut := cut } limit
      (deceived cut enc (readBy P deliver out spk)) := by
  intro J seeds hcsk hkey hsalt hcoin hnon hpks hplain i changed hev
  obtain ⟨hfront, hwrong⟩ := Bool.and_eq_true_iff.mp hev
  have hfront := of_decide_eq_true hfront
  have hc : EncCoins.WF { csk := J.csk, key := J.key, salt := J.salt } := ⟨hcsk, hkey, hsalt⟩
  have hss : SenderSized sender := SenderGenuine.sized L hgen
  obtain ⟨e, he⟩ := setupEncryptor_progress P L sender blk _ (List.ofFn fun i => ({ pk := J.pks i }, J.nonces i)) hc hss
    (by
      intro r hr
      obtain ⟨i, rfl⟩ := (List.mem_ofFn' _ _).mp hr
      exact ⟨seeds i, (hpks i).1, (hpks i).2⟩)
  have hs := henc J e hcsk hkey hsalt hcoin hnon he
  obtain ⟨epk, ws, coin, hok, hf, hk, hbs, _, hform, hck, hfl, hne⟩ := hs.facts L
  have hhdr := setup_head P L sender blk J seeds hcsk hkey hsalt hpks e he
  dsimp only at hhdr ⊢
  rw [← hhdr]
  obtain ⟨v, _, _, hv3⟩ := headerBytes_len P L _ _ _ _ e epk ws hc hs.nonces hok
  have hcount := hs.count
  have hlen : (headerPart e.hdr ++ P.sha256 (headerPart e.hdr)).length = (headerPart e.hdr).length + 32 := by
    rw [List.length_append, L.sha256_len]
  have hchanged : changed = headerPart e.hdr ++ P.sha256 (headerPart e.hdr) ++ changed.drop ((headerPart e.hdr).length + 32) := by
    have h1 : Spec.front changed = headerPart e.hdr ++ P.sha256 (headerPart e.hdr) := by
      rw [hfront, hform]
      exact front_eq P L _ _ (by omega)
    have h2 : Spec.front changed ++ changed.drop (Spec.front changed).length = changed := by
      unfold Spec.front
      rw [List.length_take]
      rcases Nat.le_total (12 + ((changed.drop 8).take 4).foldl (fun a b => a * 256 + b.toNat) 0 + 32) changed.length with h | h
      · rw [Nat.min_eq_left h, List.take_append_drop]
      · rw [Nat.min_eq_right h, List.take_of_length_le h, List.drop_length, List.append_nil]
    rw [h1, hlen] at h2
    exact h2.symm
  have hr : Receiving P sender (List.ofFn fun i => (({ pk := J.pks i } : PublicKey), J.nonces i)) (newPrivateKey P (seeds i))
      (seeds i) spk :=
    { hseed := (hpks i).1, hsk := rfl, hpk := rfl
      listed := ⟨_, (List.mem_ofFn' _ _).mpr ⟨i, rfl⟩, (hpks i).2⟩
      named := hnamed }
  rcases hs.opens L hr (deliver changed) _ (by rw [hdel]; exact hchanged) with ⟨r, hr, hw⟩ | ⟨d, g1, g2⟩
  · left
    obtain ⟨j, rfl⟩ := (List.mem_ofFn' _ _).mp hr
    exact ⟨i, j, hw⟩
  · right
    by_contra hstrange
    unfold readBy at hwrong
    rw [g1] at hwrong
    dsimp only at hwrong
    obtain ⟨r, d2, wr2, k1, k2⟩ := opened_any P L d _ _ _ g2.ready g2.key g2.stream g2.eof out
    rw [k1] at hwrong
    have hkl := g2.ready.key
    have hnl := g2.ready.nonce
    have hkeys : e.keys P = sessionKeys P J.key (P.sha256 (headerPart e.hdr)) := by
      rw [Encryptor.keys_eq, hk]
    rw [g2.nonce] at hnl
    rw [hkeys] at hkl hnl
    have hnf : ¬ StrangeAt P (e.keys P).2.1 d.nonce (cut J.plain) d.rd.content := by
      rw [g2.nonce, g2.body, hkeys]
      intro h
      exact hstrange (strange_found P L _ _ hkl hnl _ (hcut _ hplain).1 (hcut _ hplain).2 _ h)
    obtain ⟨p, m1, m2⟩ := outcome_at P d _ _ g2.ready out wr2 r d2 k2 (cut J.plain) hne hnf
    rw [m1, List.drop_left] at hwrong
    have good : p <+: J.plain ∧ (r = .ok () → ∃ k, k ≤ (cut J.plain).length ∧ p = ((cut J.plain).take k).flatten) := by
      cases m2 with
      | all tr rest htr hb => exact ⟨by rw [hfl], fun _ => ⟨_, le_rfl, by rw [List.take_length]⟩⟩
      | cut k rest hk hb => exact ⟨(flatten_take_prefix _ _).trans (by rw [hfl]), fun _ => ⟨k, hk.le, rfl⟩⟩
      | failed x p hp => exact ⟨by rw [← hfl]; exact hp, by simp⟩
    unfold Spec.wrong at hwrong
    have h1 : p.isPrefixOf J.plain = true := by rw [List.isPrefixOf_iff_prefix]; exact good.1
    rw [h1, Bool.not_true, Bool.false_or, Bool.and_eq_true, Bool.not_eq_true'] at hwrong
    obtain ⟨q1, q2⟩ := hwrong
    obtain ⟨k, q3, q4⟩ := good.2 (by simpa using q1)
    rw [List.any_eq_false] at q2
    exact q2 k (List.mem_range.mpr (by omega)) (by rw [q4]; simp)

/-- What was written is a sending session. -/
theorem encrypted_sending {n : Nat} (P : Prims) (L : Laws P) (sender : Option PrivateKey) (hs : ∀ s, sender = some s → s.Genuine P)
    (blk : Nat) (hblk : blk < 2^30) (hn : n ≤ 15885) (reader : Bytes → Reader) (hr : ∀ p, (reader p).content = p ∧ isEndOfInput (reader p).last = true) :
    ∀ (J : Job n) (e : Encryptor), J.csk.length = 32 → J.key.length = 32 → J.salt.length = 32 → J.coin.length = 64 →
      (∀ i, (J.nonces i).length = 12) → setupEncryptor P sender blk { csk := J.csk, key := J.key, salt := J.salt }
      (List.ofFn fun i => ({ pk := J.pks i }, J.nonces i)) = .ok e →
      Sending P sender blk { csk := J.csk, key := J.key, salt := J.salt } (List.ofFn fun i => ({ pk := J.pks i }, J.nonces i))
        e J.plain (encryptChunks (effectiveBlock blk) J.plain) (encrypted P sender blk reader J) := by
  intro J e h1 h2 h3 h4 h5 he
  have hc : EncCoins.WF { csk := J.csk, key := J.key, salt := J.salt } := ⟨h1, h2, h3⟩
  obtain ⟨epk, ws, hok⟩ := setupEncryptor_ok P L sender blk _ _ e hc he
  obtain ⟨e', rd', wr', g1, _, _, _⟩ := encrypt_fresh P L e (reader J.plain) {} J.coin (hok.fresh L) (by simp [Writer.NoFail])
    (hr _).2
  exact
    { hsender := hs, hblk := hblk, coins := hc, setup := he
      nonces := by
        intro r hr
        obtain ⟨i, rfl⟩ := (List.mem_ofFn' _ _).mp hr
        exact h5 i
      count := by simpa using hn
      wrote := ⟨J.coin, h4, .inl ⟨_, _, _, _, _, (hr _).1, rfl, g1, by unfold encrypted; rw [he]; dsimp only; rw [g1], rfl⟩⟩ }

/-- **C131.** For every number of recipients up to 15885, every sender or none, every block size below 2^30, every way the
input arrives, every way the changed file is delivered to the recipient, every destination (which may fail at any point), and
every tamperer - who picks a plaintext below 2^32 blocks, sees public keys and file, and gives a recipient of his choice
another file with the same header: the probability that the recipient gets anything but an initial part of the plaintext, or,
without an error, anything but its first chunks, is bounded by how well the explicit players made from him do against the
primitives; and those who play against AES-GCM never repeat a nonce under a key. -/
theorem C131_encrypt {n : Nat} (P : Prims) (L : Laws P) (sender : Option PrivateKey) (hs : ∀ s, sender = some s → s.Genuine P)
    (blk : Nat) (hblk : blk < 2^30) (hn : n ≤ 15885)
    (reader : Bytes → Reader) (hr : ∀ p, (reader p).content = p ∧ isEndOfInput (reader p).last = true)
    (deliver : Bytes → Reader) (hd : ∀ f, (deliver f).content = f) (out : Writer) (spk : Option PublicKey)
    (hspk : ∀ s, sender = some s → ∃ p, spk = some p ∧ p.pk = s.pub.pk)
    (A : Tamperer n) (hA : ∀ t pks, (A.plain t pks).length < effectiveBlock blk * 2^32) :
    let S : Setting :=
      { sender := sender.map (·.sk), block := effectiveBlock blk, cut := encryptChunks (effectiveBlock blk) }
    A.odds P (encrypted P sender blk reader) (readBy P deliver out spk) (encryptChunks (effectiveBlock blk)) ≤ A.bound P S ∧
      (A.wrap P S).Valid ∧ (A.forger P S).Valid := by
  have hcut : ∀ p : Bytes, p.length < effectiveBlock blk * 2^32 → (encryptChunks (effectiveBlock blk) p).length ≤ 2^32 ∧
      ∀ c ∈ encryptChunks (effectiveBlock blk) p, c.length ≤ 2^30 := fun p hp => by
    refine ⟨?_, fun c hc => ((encryptChunks_ok _ (effectiveBlock_pos blk) p).1.le c hc).trans (effectiveBlock_le blk)⟩
    rw [encryptChunks_count _ (effectiveBlock_pos blk)]
    have := (Nat.div_lt_iff_lt_mul (effectiveBlock_pos blk)).mpr (by rw [Nat.mul_comm]; exact hp)
    omega
  generalize hlim : effectiveBlock blk * 2^32 = limit at hA hcut
  have hnot := noticed P L sender hs blk (encryptChunks (effectiveBlock blk)) (encrypted (n := n) P sender blk reader) limit spk deliver hd out
    hcut hspk ?_
  · intro S
    have hdoc := encrypted_documented (n := n) P L sender (SenderGenuine.sized L hs) blk reader hr
    have k1 := tampering P S A limit (encrypted (n := n) P sender blk reader) (deceived _ _ (readBy P deliver out spk)) hdoc hnot hA
    exact ⟨k1, twrap_valid P S A, forger_valid P S A limit hA hcut⟩
  exact encrypted_sending P L sender hs blk hblk hn reader hr

/-- What was written is a sending session. -/
theorem streamed_sending {n : Nat} (P : Prims) (L : Laws P) (sender : Option PrivateKey) (hs : ∀ s, sender = some s → s.Genuine P)
    (blk : Nat) (hblk : blk < 2^30) (hn : n ≤ 15885) (buffers : Bytes → List Bytes) (hr : ∀ p, (buffers p).flatten = p) :
    ∀ (J : Job n) (e : Encryptor), J.csk.length = 32 → J.key.length = 32 → J.salt.length = 32 → J.coin.length = 64 →
      (∀ i, (J.nonces i).length = 12) → setupEncryptor P sender blk { csk := J.csk, key := J.key, salt := J.salt }
      (List.ofFn fun i => ({ pk := J.pks i }, J.nonces i)) = .ok e →
      Sending P sender blk { csk := J.csk, key := J.key, salt := J.salt } (List.ofFn fun i => ({ pk := J.pks i }, J.nonces i))
        e J.plain (streamChunks (effectiveBlock blk) J.plain) (streamed P sender blk buffers J) := by
  intro J e h1 h2 h3 h4 h5 he
  have hc : EncCoins.WF { csk := J.csk, key := J.key, salt := J.salt } := ⟨h1, h2, h3⟩
  obtain ⟨epk, ws, hok⟩ := setupEncryptor_ok P L sender blk _ _ e hc he
  have g : ∃ wr', streamEncrypt P e {} J.coin (buffers J.plain) = (.ok (), wr') := by
    rcases streamEncrypt_outcome P L e {} J.coin (buffers J.plain) (hok.fresh L) with ⟨wr', h1, _⟩ | ⟨x, wr', p, _, ⟨s, j, y, h, _⟩, _⟩
    · exact ⟨wr', h1⟩
    · cases h
  obtain ⟨wr', g1⟩ := g
  exact
    { hsender := hs, hblk := hblk, coins := hc, setup := he
      nonces := by
        intro r hr
        obtain ⟨i, rfl⟩ := (List.mem_ofFn' _ _).mp hr
        exact h5 i
      count := by simpa using hn
      wrote := ⟨J.coin, h4, .inr ⟨_, _, _, hr _, rfl, g1, by unfold streamed; rw [he]; dsimp only; rw [g1], rfl⟩⟩ }

/-- **C131**, files written with `NewStreamWriter`, `Write` in buffers of any sizes and `Close`. -/
theorem C131_stream {n : Nat} (P : Prims) (L : Laws P) (sender : Option PrivateKey) (hs : ∀ s, sender = some s → s.Genuine P)
    (blk : Nat) (hblk : blk < 2^30) (hn : n ≤ 15885)
    (buffers : Bytes → List Bytes) (hr : ∀ p, (buffers p).flatten = p)
    (deliver : Bytes → Reader) (hd : ∀ f, (deliver f).content = f) (out : Writer) (spk : Option PublicKey)
    (hspk : ∀ s, sender = some s → ∃ p, spk = some p ∧ p.pk = s.pub.pk)
    (A : Tamperer n) (hA : ∀ t pks, (A.plain t pks).length < effectiveBlock blk * 2^32) :
    let S : Setting :=
      { sender := sender.map (·.sk), block := effectiveBlock blk, cut := streamChunks (effectiveBlock blk) }
    A.odds P (streamed P sender blk buffers) (readBy P deliver out spk) (streamChunks (effectiveBlock blk)) ≤ A.bound P S ∧
      (A.wrap P S).Valid ∧ (A.forger P S).Valid := by
  have hcut : ∀ p : Bytes, p.length < effectiveBlock blk * 2^32 → (streamChunks (effectiveBlock blk) p).length ≤ 2^32 ∧
      ∀ c ∈ streamChunks (effectiveBlock blk) p, c.length ≤ 2^30 := fun p hp => by
    refine ⟨?_, fun c hc => ((streamChunks_ok _ (effectiveBlock_pos blk) p).1.le c hc).trans (effectiveBlock_le blk)⟩
    rw [streamChunks_count _ (effectiveBlock_pos blk)]
    have h1 := effectiveBlock_pos blk
    generalize effectiveBlock blk = bs at *
    have : (p.length + bs - 1) / bs ≤ 2^32 := by
      rw [Nat.div_le_iff_le_mul_add_pred h1]
      omega
    omega
  generalize hlim : effectiveBlock blk * 2^32 = limit at hA hcut
  have hnot := noticed P L sender hs blk (streamChunks (effectiveBlock blk)) (streamed (n := n) P sender blk buffers) limit spk deliver hd out
    hcut hspk ?_
  · intro S
    have hdoc := streamed_documented (n := n) P L sender (SenderGenuine.sized L hs) blk buffers hr
    have k1 := tampering P S A limit (streamed (n := n) P sender blk buffers) (deceived _ _ (readBy P deliver out spk)) hdoc hnot hA
    exact ⟨k1, twrap_valid P S A, forger_valid P S A limit hA hcut⟩
  exact streamed_sending P L sender hs blk hblk hn buffers hr

/-! ### The bound is an obligation

A tamperer may guess all that is drawn: whoever offers a file made with guessed keys, and guessed right, wins.  So the odds are
positive, whatever is hoped of the primitives, and the bound is not 0. -/

namespace OutsiderDemo

def draw (n : Nat) (b : Fin 256) : Coins n := fun _ => b

/-- The guess. -/
def guess (plain : Bytes) : Job 1 :=
  { csk := (draw 32 1).bytes, key := (draw 32 2).bytes, salt := (draw 32 3).bytes
    pks := fun _ => toyPrims.edPub (draw 32 4).bytes, nonces := fun _ => (draw 12 5).bytes, coin := (draw 64 6).bytes
    plain := plain }

def input (p : Bytes) : Reader := { chunks := [p], last := .eof, joint := false }

theorem input_ok : ∀ p, (input p).content = p ∧ isEndOfInput (input p).last = true := fun p => by
  constructor
  · simp [input, Reader.content]
  · rfl

def tamperer : Tamperer 1 where
  Tape := Unit
  plain _ _ := [7, 7]
  change _ _ _ := (0, encrypted toyPrims none 0 input (guess [7, 8, 9]))

theorem mean_pos {α : Type} [Fintype α] {f : α → ℚ} (h : ∀ a, 0 ≤ f a) (a : α) (ha : 0 < f a) : 0 < mean f := by
  unfold Spec.mean
  have : 0 < ∑ a, f a := Finset.sum_pos' (fun a _ => h a) ⟨a, Finset.mem_univ _, ha⟩
  have hc : 0 < Fintype.card α := Fintype.card_pos_iff.mpr ⟨a⟩
  positivity

theorem guessed : (decide (Spec.front (encrypted toyPrims none 0 input (guess [7, 8, 9])) =
    Spec.front (encrypted toyPrims none 0 input (guess [7, 7]))) &&
    Spec.wrong (encryptChunks (effectiveBlock 0)) [7, 7]
      (readBy toyPrims input {} none (draw 32 4).bytes (encrypted toyPrims none 0 input (guess [7, 8, 9]))).1
      (readBy toyPrims input {} none (draw 32 4).bytes (encrypted toyPrims none 0 input (guess [7, 8, 9]))).2) = true := by
  have h1 : Spec.front (encrypted toyPrims none 0 input (guess [7, 8, 9])) =
      Spec.front (encrypted toyPrims none 0 input (guess [7, 7])) := by decide +kernel
  have h2 : ((readBy toyPrims input {} none (draw 32 4).bytes (encrypted toyPrims none 0 input (guess [7, 8, 9]))).1.isPrefixOf
      [7, 7]) = false := by decide +kernel
  rw [decide_eq_true h1, Bool.true_and, Spec.wrong, h2, Bool.not_false, Bool.true_or]

theorem odds_pos : 0 < tamperer.odds toyPrims (encrypted toyPrims none 0 input) (readBy toyPrims input {} none)
    (encryptChunks (effectiveBlock 0)) := by
  unfold Tamperer.odds
  refine mean_pos (fun _ => mean_nonneg fun _ => mean_nonneg fun _ => mean_nonneg fun _ => mean_nonneg fun _ =>
    mean_nonneg fun _ => mean_nonneg fun _ => yes_nonneg _) () ?_
  refine mean_pos (fun _ => mean_nonneg fun _ => mean_nonneg fun _ => mean_nonneg fun _ =>
    mean_nonneg fun _ => mean_nonneg fun _ => yes_nonneg _) (draw 64 6) ?_
  refine mean_pos (fun _ => mean_nonneg fun _ => mean_nonneg fun _ =>
    mean_nonneg fun _ => mean_nonneg fun _ => yes_nonneg _) (draw 32 2) ?_
  refine mean_pos (fun _ => mean_nonneg fun _ => mean_nonneg fun _ => mean_nonneg fun _ => yes_nonneg _) (fun _ => draw 32 4) ?_
  refine mean_pos (fun _ => mean_nonneg fun _ => mean_nonneg fun _ => yes_nonneg _) (draw 32 1) ?_
  refine mean_pos (fun _ => mean_nonneg fun _ => yes_nonneg _) (draw 32 3) ?_
  refine mean_pos (fun _ => yes_nonneg _) (fun _ => draw 12 5) ?_
  refine lt_of_lt_of_eq zero_lt_one (Eq.symm (Eq.trans (b := yes true) (congrArg yes ?_) rfl))
  exact guessed

end OutsiderDemo

/-- The hypotheses of `C131_encrypt` are met, by a tamperer who can win. -/
example : 0 < OutsiderDemo.tamperer.bound toyPrims
    { sender := none, block := effectiveBlock 0, cut := encryptChunks (effectiveBlock 0) } :=
  lt_of_lt_of_le OutsiderDemo.odds_pos
    (C131_encrypt toyPrims toyLaws none (by simp) 0 (by decide) (by decide) OutsiderDemo.input OutsiderDemo.input_ok
      OutsiderDemo.input (fun f => (OutsiderDemo.input_ok f).1) {} none (by simp) OutsiderDemo.tamperer
      (fun _ _ => by simp only [OutsiderDemo.tamperer, List.length_cons, List.length_nil]; decide)).1

end Sigtool
