import Verif.Spec.Asking
import Verif.Props.Reaction
/-!
# C133: secrecy when the recipients' reactions can be seen

The game of `Spec/Asking.lean`, played with the files that `NewEncryptor`, `AddRecipient` and `Encrypt` (or the stream
writer) write and `NewDecryptor`, `SetPrivateKey` and `Decrypt` read.
-/

namespace Sigtool
open Spec (Coins mean yes Job Spy Setting Tamperer Asker encryptChunks streamChunks sessionKeys headerPart macInput reaction
  ifSameHeader countOnly OtherSignature strangeChunk front)

section
variable {n : Nat} (P : Prims)

/-- Everything that is drawn. -/
def draws {T : Type} [Fintype T]
    (f : T → Coins 64 → Coins 32 → (Fin n → Coins 32) → Coins 32 → Coins 32 → (Fin n → Coins 12) → ℚ) : ℚ :=
  mean fun t => mean fun coin => mean fun key => mean fun seeds => mean fun csk => mean fun salt => mean fun nonces =>
    f t coin key seeds csk salt nonces

variable {T : Type} [Fintype T]
  {f g : T → Coins 64 → Coins 32 → (Fin n → Coins 32) → Coins 32 → Coins 32 → (Fin n → Coins 12) → ℚ}

theorem draws_mono (h : ∀ t a b c d e k, f t a b c d e k ≤ g t a b c d e k) : draws f ≤ draws g :=
  mean_mono fun _ => mean_mono fun _ => mean_mono fun _ => mean_mono fun _ => mean_mono fun _ => mean_mono fun _ =>
    mean_mono fun _ => h ..

theorem draws_add : (draws fun t a b c d e k => f t a b c d e k + g t a b c d e k) = draws f + draws g := by
  unfold draws
  simp only [mean_add]

theorem draws_zero : (draws fun (_ : T) (_ : Coins 64) (_ : Coins 32) (_ : Fin n → Coins 32) (_ _ : Coins 32)
    (_ : Fin n → Coins 12) => (0 : ℚ)) = 0 := by
  have h : ∀ {α : Type} [Fintype α], (mean fun _ : α => (0 : ℚ)) = 0 := by intro α _; simp [Spec.mean]
  unfold draws
  simp only [h]

theorem draws_sum (q : Nat)
    (u : Nat → T → Coins 64 → Coins 32 → (Fin n → Coins 32) → Coins 32 → Coins 32 → (Fin n → Coins 12) → ℚ) :
    (draws fun t a b c d e k => ∑ j ∈ Finset.range q, u j t a b c d e k) = ∑ j ∈ Finset.range q, draws (u j) := by
  induction q with
  | zero => simp only [Finset.range_zero, Finset.sum_empty]; exact draws_zero
  | succ q ih => simp only [Finset.sum_range_succ]; rw [draws_add, ih]

end

section
variable {n : Nat} {R : Type}

/-- Two ways of answering that agree on the questions of the second run give the same answers. -/
theorem answers_congr (A : Asker n R) (t : A.Tape) (pks : Fin n → Bytes) (file : Bytes) (a1 a2 : Fin n × Bytes → R) (q : Nat)
    (h : ∀ j < q, a1 (A.ask t pks file (A.answers t pks file a2 j)) = a2 (A.ask t pks file (A.answers t pks file a2 j))) :
    A.answers t pks file a1 q = A.answers t pks file a2 q := by
  induction q with
  | zero => rfl
  | succ q ih =>
    simp only [Asker.answers]
    rw [ih fun j hj => h j (by omega), h q (by omega)]

theorem ifSameHeader_agree (file : Bytes) (r1 r2 : R) (a1 a2 : Fin n × Bytes → R) (query : Fin n × Bytes) (hr : r1 = r2)
    (h : ¬ (front query.2 = front file ∧ a1 query ≠ a2 query)) :
    ifSameHeader file r1 a1 query = ifSameHeader file r2 a2 query := by
  unfold ifSameHeader
  split_ifs with hf
  · by_contra hne
    exact h ⟨hf, hne⟩
  · exact hr

theorem yes_le (b c : Bool) (s : ℚ) (hs : 0 ≤ s) (h : b = c ∨ 1 ≤ s) : yes b ≤ yes c + s ∧ yes c ≤ yes b + s := by
  rcases h with rfl | h
  · constructor <;> linarith
  · have : ∀ x : Bool, 0 ≤ yes x ∧ yes x ≤ 1 := by intro x; cases x <;> simp [yes]
    constructor <;> linarith [(this b).1, (this b).2, (this c).1, (this c).2]

open Classical in
/-- A file with the same header is not read as `reaction` says. -/
noncomputable def surprising (signed : Bool) (enc : Job n → Bytes) (read : (seed file : Bytes) → Bytes × Bool) :
    Job n → (Fin n → Bytes) → Fin n → Bytes → Bool :=
  fun J seeds i changed => decide (front changed = front (enc J) ∧ countOnly (read (seeds i) changed) ≠ reaction signed (enc J) changed)

open Classical in
/-- It contains another signature. -/
noncomputable def resigned (P : Prims) (signer : Option Bytes) (enc : Job n → Bytes) (cut : Bytes → List Bytes) :
    Job n → (Fin n → Bytes) → Fin n → Bytes → Bool :=
  fun J _ _ changed => decide (∃ pk, signer = some pk ∧
    OtherSignature P pk (P.hmac256 (sessionKeys P J.key ((front (enc J)).drop ((front (enc J)).length - 32))).2.2
      (macInput (cut J.plain))) ((enc J).drop ((enc J).length - 64)) (changed.drop (front (enc J)).length))

open Classical in
theorem chance_surprise (P : Prims) (S : Setting) (A : Tamperer n) (limit : Nat) (signer : Option Bytes)
    (enc : Job n → Bytes) (read : (seed file : Bytes) → Bytes × Bool) (hdoc : Documented P S enc)
    (henc : Noticed P S limit fun J seeds i changed =>
      surprising signer.isSome enc read J seeds i changed && !resigned P signer enc S.cut J seeds i changed)
    (hA : ∀ t pks, (A.plain t pks).length < limit) :
    chance P A enc (surprising signer.isSome enc read) ≤ A.surprise P S signer enc := by
  have h1 := tampering P S A limit enc _ hdoc henc hA
  have h2 : chance P A enc (surprising signer.isSome enc read) ≤
      chance P A enc (fun J seeds i changed =>
        surprising signer.isSome enc read J seeds i changed && !resigned P signer enc S.cut J seeds i changed) +
      chance P A enc (resigned P signer enc S.cut) := by
    unfold chance
    simp only [← mean_add]
    refine mean_mono fun t => mean_mono fun coin => mean_mono fun key => mean_mono fun seeds => mean_mono fun csk =>
      mean_mono fun salt => mean_mono fun nonces => ?_
    generalize surprising _ _ _ _ _ _ _ = b
    generalize resigned _ _ _ _ _ _ _ _ = c
    cases b <;> cases c <;> simp [yes]
  have h3 : A.bound P S + chance P A enc (resigned P signer enc S.cut) = A.surprise P S signer enc := by
    unfold Tamperer.surprise
    refine congrArg (A.bound P S + ·) ?_
    clear h1 h2 henc
    cases signer with
    | none =>
      have e : resigned (n := n) P none enc S.cut = fun _ _ _ _ => false := by
        funext J x i y
        unfold resigned
        exact decide_eq_false (by rintro ⟨pk, h, _⟩; cases h)
      rw [e]
      refine Eq.trans ?_ (draws_zero (n := n) (T := A.Tape))
      refine mean_congr fun t => mean_congr fun coin => mean_congr fun key => mean_congr fun seeds => mean_congr fun csk =>
        mean_congr fun salt => mean_congr fun nonces => ?_
      simp [yes]
    | some pk =>
      unfold chance Tamperer.resigns
      refine mean_congr fun t => mean_congr fun coin => mean_congr fun key => mean_congr fun seeds => mean_congr fun csk =>
        mean_congr fun salt => mean_congr fun nonces => congrArg yes (decide_eq_decide.mpr ?_)
      exact ⟨fun ⟨x, h1, h2⟩ => by cases h1; exact h2, fun h => ⟨pk, rfl, h⟩⟩
  linarith

/-- What a spy who asks gains. -/
theorem asking (P : Prims) (S : Setting) (A : Asker n (Nat × Bool)) (limit : Nat) (signer : Option Bytes)
    (enc : Job n → Bytes) (read : (seed file : Bytes) → Bytes × Bool) (hdoc : Documented P S enc)
    (henc : Noticed P S limit fun J seeds i changed =>
      surprising signer.isSome enc read J seeds i changed && !resigned P signer enc S.cut J seeds i changed)
    (hA : A.Fair limit) (q : Nat) :
    A.advantage P enc read countOnly q ≤ (A.alone signer.isSome q).advantage P enc +
      ∑ j ∈ Finset.range q, ((A.changer signer.isSome false j).surprise P S signer enc +
        (A.changer signer.isSome true j).surprise P S signer enc) := by
  have key : ∀ b, A.odds P enc read countOnly q b ≤ (A.alone signer.isSome q).odds P enc b +
        ∑ j ∈ Finset.range q, chance P (A.changer signer.isSome b j) enc (surprising signer.isSome enc read) ∧
      (A.alone signer.isSome q).odds P enc b ≤ A.odds P enc read countOnly q b +
        ∑ j ∈ Finset.range q, chance P (A.changer signer.isSome b j) enc (surprising signer.isSome enc read) := by
    intro b
    let real := fun (t : A.Tape) (coin : Coins 64) (key : Coins 32) (seeds : Fin n → Coins 32) (csk salt : Coins 32)
        (nonces : Fin n → Coins 12) =>
      let pks := fun i => P.edPub (seeds i).bytes
      let file := enc
        { csk := csk.bytes, key := key.bytes, salt := salt.bytes, pks, nonces := fun i => (nonces i).bytes
          coin := coin.bytes, plain := A.plain t pks b }
      A.guess t pks file (A.answers t pks file (ifSameHeader file (countOnly ([], false))
        fun query => countOnly (read (seeds query.1).bytes query.2)) q)
    let sim := fun (t : A.Tape) (coin : Coins 64) (key : Coins 32) (seeds : Fin n → Coins 32) (csk salt : Coins 32)
        (nonces : Fin n → Coins 12) =>
      let pks := fun i => P.edPub (seeds i).bytes
      let file := enc
        { csk := csk.bytes, key := key.bytes, salt := salt.bytes, pks, nonces := fun i => (nonces i).bytes
          coin := coin.bytes, plain := A.plain t pks b }
      A.guess t pks file (A.answers t pks file (ifSameHeader file (0, false)
        fun query => reaction signer.isSome file query.2) q)
    let bad := fun (j : Nat) (t : A.Tape) (coin : Coins 64) (key : Coins 32) (seeds : Fin n → Coins 32) (csk salt : Coins 32)
        (nonces : Fin n → Coins 12) =>
      let pks := fun i => P.edPub (seeds i).bytes
      let J : Job n := { csk := csk.bytes, key := key.bytes, salt := salt.bytes, pks, nonces := fun i => (nonces i).bytes
                         coin := coin.bytes, plain := A.plain t pks b }
      let changed := (A.changer signer.isSome b j).change t pks (enc J)
      surprising signer.isSome enc read J (fun i => (seeds i).bytes) changed.1 changed.2
    have e1 : A.odds P enc read countOnly q b = draws fun t a b c d e k => yes (real t a b c d e k) := rfl
    have e2 : (A.alone signer.isSome q).odds P enc b = draws fun t a b c d e k => yes (sim t a b c d e k) := rfl
    have e3 : ∀ j, chance P (A.changer signer.isSome b j) enc (surprising signer.isSome enc read) =
        draws fun t a b c d e k => yes (bad j t a b c d e k) := fun _ => rfl
    simp only [e1, e2, e3, ← draws_sum, ← draws_add]
    have point : ∀ t a c d e k l, yes (real t a c d e k l) ≤ yes (sim t a c d e k l) +
          ∑ j ∈ Finset.range q, yes (bad j t a c d e k l) ∧
        yes (sim t a c d e k l) ≤ yes (real t a c d e k l) + ∑ j ∈ Finset.range q, yes (bad j t a c d e k l) := by
      intro t coin key seeds csk salt nonces
      apply yes_le _ _ _ (Finset.sum_nonneg fun _ _ => yes_nonneg _)
      by_cases hb : ∃ j < q, bad j t coin key seeds csk salt nonces = true
      · obtain ⟨j, hj, hb⟩ := hb
        right
        refine le_trans ?_ (Finset.single_le_sum (f := fun j => yes (bad j t coin key seeds csk salt nonces))
          (fun _ _ => yes_nonneg _) (Finset.mem_range.mpr hj))
        simp only [hb]
        simp [yes]
      · left
        dsimp only [real, sim]
        rw [answers_congr A t _ _ _ _ q]
        intro j hj
        have hg : ¬ bad j t coin key seeds csk salt nonces = true := fun h => hb ⟨j, hj, h⟩
        exact ifSameHeader_agree _ _ _ _ _ _ rfl fun h => hg (decide_eq_true h)
    exact ⟨draws_mono fun t a c d e k l => (point t a c d e k l).1, draws_mono fun t a c d e k l => (point t a c d e k l).2⟩
  have bound : ∀ b, ∑ j ∈ Finset.range q, chance P (A.changer signer.isSome b j) enc (surprising signer.isSome enc read) ≤
      ∑ j ∈ Finset.range q, (A.changer signer.isSome b j).surprise P S signer enc := fun b =>
    Finset.sum_le_sum fun j _ => chance_surprise P S _ limit signer enc read hdoc henc (fun t pks => by
      have := hA t pks
      cases b
      · show (A.plain t pks false).length < limit
        omega
      · exact this.2)
  rw [Finset.sum_add_distrib]
  obtain ⟨f1, f2⟩ := key false
  obtain ⟨t1, t2⟩ := key true
  have b1 := bound false
  have b2 := bound true
  unfold Asker.advantage Spy.advantage
  have u1 := le_abs_self ((A.alone signer.isSome q).odds P enc false - (A.alone signer.isSome q).odds P enc true)
  have u2 := neg_abs_le ((A.alone signer.isSome q).odds P enc false - (A.alone signer.isSome q).odds P enc true)
  rw [abs_le]
  constructor <;> linarith

end

open Classical in
/-- sigtool's reader reads as `reaction` says, or the file is strange or contains another signature. -/
theorem reacts {n : Nat} (P : Prims) (L : Laws P) (sender : Option PrivateKey) (hgen : ∀ s, sender = some s → s.Genuine P)
    (blk : Nat) (cut : Bytes → List Bytes) (enc : Job n → Bytes) (limit : Nat) (spk : Option PublicKey)
    (deliver : Bytes → Reader) (hdel : ∀ f, (deliver f).content = f) (out : Writer) (hout : out.NoFail)
    (hcut : ∀ p : Bytes, p.length < limit → (cut p).length ≤ 2^32 ∧ ∀ c ∈ cut p, c.length ≤ 2^30)
    (hnamed : ∀ s, sender = some s → ∃ p, spk = some p ∧ p.pk = s.pub.pk)
    (henc : ∀ (J : Job n) (e : Encryptor), J.csk.length = 32 → J.key.length = 32 → J.salt.length = 32 → J.coin.length = 64 →
      (∀ i, (J.nonces i).length = 12) → setupEncryptor P sender blk { csk := J.csk, key := J.key, salt := J.salt }
      (List.ofFn fun i => ({ pk := J.pks i }, J.nonces i)) = .ok e →
      Sending P sender blk { csk := J.csk, key := J.key, salt := J.salt } (List.ofFn fun i => ({ pk := J.pks i }, J.nonces i))
        e J.plain (cut J.plain) (enc J)) :
    Noticed P { sender := sender.map (·.sk), block := effectiveBlock blk, cut := cut } limit fun J seeds i changed =>
      surprising (sender.map (·.pub.pk)).isSome enc (readBy P deliver out spk) J seeds i changed &&
        !resigned P (sender.map (·.pub.pk)) enc cut J seeds i changed := by
  intro J seeds hcsk hkey hsalt hcoin hnon hpks hplain i changed hev
  obtain ⟨hsur, hres⟩ := Bool.and_eq_true_iff.mp hev
  obtain ⟨hfront, hsur⟩ := of_decide_eq_true hsur
  have hres := of_decide_eq_false ((Bool.not_eq_eq_eq_not.mp hres).trans Bool.not_true)
  rw [Option.isSome_map] at hsur
  have hc : EncCoins.WF { csk := J.csk, key := J.key, salt := J.salt } := ⟨hcsk, hkey, hsalt⟩
  have hss : SenderSized sender := SenderGenuine.sized L hgen
  obtain ⟨e, he⟩ := setupEncryptor_progress P L sender blk _ (List.ofFn fun i => ({ pk := J.pks i }, J.nonces i)) hc hss
    (by
      intro r hr
      obtain ⟨i, rfl⟩ := (List.mem_ofFn' _ _).mp hr
      exact ⟨seeds i, (hpks i).1, (hpks i).2⟩)
  have hs := henc J e hcsk hkey hsalt hcoin hnon he
  have hhdr := setup_head P L sender blk J seeds hcsk hkey hsalt hpks e he
  dsimp only at hhdr ⊢
  rw [← hhdr]
  have hfe := hs.front L
  have hlen : (headerPart e.hdr ++ P.sha256 (headerPart e.hdr)).length = (headerPart e.hdr).length + 32 := by
    rw [List.length_append, L.sha256_len]
  have hr : Receiving P sender (List.ofFn fun i => (({ pk := J.pks i } : PublicKey), J.nonces i)) (newPrivateKey P (seeds i))
      (seeds i) spk :=
    { hseed := (hpks i).1, hsk := rfl, hpk := rfl
      listed := ⟨_, (List.mem_ofFn' _ _).mpr ⟨i, rfl⟩, (hpks i).2⟩
      named := hnamed }
  have hsum : (front (enc J)).drop ((front (enc J)).length - 32) = P.sha256 (headerPart e.hdr) := by
    rw [hfe, hlen, Nat.add_sub_cancel]
    exact List.drop_left' rfl
  obtain ⟨epk, ws, coin, hok, hfr, hk, hbs, _, hform, hck, hfl, hne⟩ := hs.facts L
  have hkl : (sessionKeys P J.key (P.sha256 (headerPart e.hdr))).2.1.length = 32 ∧
      (sessionKeys P J.key (P.sha256 (headerPart e.hdr))).1.length = 12 := by
    have := L.hkdf_len J.key (P.sha256 (headerPart e.hdr)) (ascii "Data Key Expansion") 76 (by omega)
    constructor <;> simp [sessionKeys, this]
  rcases reaction_at P L sender blk _ _ e J.plain (cut J.plain) (enc J) hs (hcut _ hplain).1 (newPrivateKey P (seeds i))
      (seeds i) spk hr changed hfront (deliver changed) (hdel _) out hout with ⟨r, hr, hw⟩ | h | ⟨s, hs1, h⟩ | ⟨d, g1, r, d', out', g2, g3, g4, g5⟩
  · left
    obtain ⟨j, rfl⟩ := (List.mem_ofFn' _ _).mp hr
    exact ⟨i, j, hw⟩
  · right
    rw [hfe, hlen] at h
    exact strange_found P L _ _ hkl.1 hkl.2 _ (hcut _ hplain).1 (hcut _ hplain).2 _ h
  · exact absurd ⟨s.pub.pk, by rw [hs1]; rfl, by rw [hsum]; exact h⟩ hres
  · exfalso
    apply hsur
    unfold readBy countOnly
    rw [g1]
    dsimp only
    rw [g2]
    dsimp only
    refine Prod.ext ?_ ?_
    · dsimp only
      rw [List.length_drop, g4, Nat.add_sub_cancel_left]
    · dsimp only
      cases hb : (reaction sender.isSome (enc J) changed).2
      · exact Bool.eq_false_iff.mpr fun h => by
          have := g5.mp (by simpa using h)
          rw [hb] at this; cases this
      · exact beq_iff_eq.mpr (g5.mpr hb)

/-- **C133.** For every number of recipients up to 15885, every sender or none, every block size below 2^30, every way input and
changed files arrive, every destination that takes what it is given, every number of questions, and every spy who picks two
plaintexts of equal length below 2^32 blocks, and before he says which of the two `Encrypt` put into the file has the
recipients read as many changed files with the same header as he likes and sees how many bytes each of them gets and whether
there is an error: he does better than a spy who asks nobody (which is bounded as in C126) only by the probability that one of
his questions contains a forged chunk (bounded as in C131) or a second signature of what the sender signed; and the players
who play against AES-GCM never repeat a nonce under a key. -/
theorem C133_encrypt {n : Nat} (P : Prims) (L : Laws P) (sender : Option PrivateKey) (hs : ∀ s, sender = some s → s.Genuine P)
    (blk : Nat) (hblk : blk < 2^30) (hn : n ≤ 15885)
    (reader : Bytes → Reader) (hr : ∀ p, (reader p).content = p ∧ isEndOfInput (reader p).last = true)
    (deliver : Bytes → Reader) (hd : ∀ f, (deliver f).content = f) (out : Writer) (hout : out.NoFail) (spk : Option PublicKey)
    (hspk : ∀ s, sender = some s → ∃ p, spk = some p ∧ p.pk = s.pub.pk)
    (A : Asker n (Nat × Bool)) (hA : A.Fair (effectiveBlock blk * 2^32)) (q : Nat) :
    let S : Setting :=
      { sender := sender.map (·.sk), block := effectiveBlock blk, cut := encryptChunks (effectiveBlock blk) }
    A.advantage P (encrypted P sender blk reader) (readBy P deliver out spk) countOnly q ≤
      A.bound P S (sender.map (·.pub.pk)) (encrypted P sender blk reader) q ∧
    (∀ b, ((A.alone sender.isSome q).wrap P S b).Valid) ∧ ((A.alone sender.isSome q).body P S).Valid ∧
    ∀ b j, ((A.changer sender.isSome b j).wrap P S).Valid ∧ ((A.changer sender.isSome b j).forger P S).Valid := by
  have hcut : ∀ p : Bytes, p.length < effectiveBlock blk * 2^32 → (encryptChunks (effectiveBlock blk) p).length ≤ 2^32 ∧
      ∀ c ∈ encryptChunks (effectiveBlock blk) p, c.length ≤ 2^30 := fun p hp => by
    refine ⟨?_, fun c hc => ((encryptChunks_ok _ (effectiveBlock_pos blk) p).1.le c hc).trans (effectiveBlock_le blk)⟩
    rw [encryptChunks_count _ (effectiveBlock_pos blk)]
    have := (Nat.div_lt_iff_lt_mul (effectiveBlock_pos blk)).mpr (by rw [Nat.mul_comm]; exact hp)
    omega
  have hdoc := encrypted_documented (n := n) P L sender (SenderGenuine.sized L hs) blk reader hr
  have h126 := (C126_encrypt P L sender (SenderGenuine.sized L hs) blk reader hr
    (A.alone (sender.map (·.pub.pk)).isSome q) hA)
  generalize hlim : effectiveBlock blk * 2^32 = limit at hA hcut
  intro S
  have h1 := asking P S A limit (sender.map (·.pub.pk)) (encrypted P sender blk reader) (readBy P deliver out spk) hdoc
    (reacts P L sender hs blk (encryptChunks (effectiveBlock blk)) (encrypted (n := n) P sender blk reader) limit spk deliver hd
      out hout hcut hspk (encrypted_sending P L sender hs blk hblk hn reader hr)) hA q
  rw [Option.isSome_map] at h126 h1
  refine ⟨?_, h126.2.1, h126.2.2, fun b j => ⟨twrap_valid P S _, forger_valid P S _ limit (fun t pks => ?_) hcut⟩⟩
  · unfold Asker.bound
    rw [Option.isSome_map]
    linarith [h126.1]
  · have := hA t pks
    cases b
    · show (A.plain t pks false).length < limit
      omega
    · exact this.2

/-- **C133**, files written with `NewStreamWriter`, `Write` in buffers of any sizes and `Close`. -/
theorem C133_stream {n : Nat} (P : Prims) (L : Laws P) (sender : Option PrivateKey) (hs : ∀ s, sender = some s → s.Genuine P)
    (blk : Nat) (hblk : blk < 2^30) (hn : n ≤ 15885)
    (buffers : Bytes → List Bytes) (hr : ∀ p, (buffers p).flatten = p)
    (deliver : Bytes → Reader) (hd : ∀ f, (deliver f).content = f) (out : Writer) (hout : out.NoFail) (spk : Option PublicKey)
    (hspk : ∀ s, sender = some s → ∃ p, spk = some p ∧ p.pk = s.pub.pk)
    (A : Asker n (Nat × Bool)) (hA : A.Fair (effectiveBlock blk * 2^32)) (q : Nat) :
    let S : Setting :=
      { sender := sender.map (·.sk), block := effectiveBlock blk, cut := streamChunks (effectiveBlock blk) }
    A.advantage P (streamed P sender blk buffers) (readBy P deliver out spk) countOnly q ≤
      A.bound P S (sender.map (·.pub.pk)) (streamed P sender blk buffers) q ∧
    (∀ b, ((A.alone sender.isSome q).wrap P S b).Valid) ∧ ((A.alone sender.isSome q).body P S).Valid ∧
    ∀ b j, ((A.changer sender.isSome b j).wrap P S).Valid ∧ ((A.changer sender.isSome b j).forger P S).Valid := by
  have hcut : ∀ p : Bytes, p.length < effectiveBlock blk * 2^32 → (streamChunks (effectiveBlock blk) p).length ≤ 2^32 ∧
      ∀ c ∈ streamChunks (effectiveBlock blk) p, c.length ≤ 2^30 := fun p hp => by
    refine ⟨?_, fun c hc => ((streamChunks_ok _ (effectiveBlock_pos blk) p).1.le c hc).trans (effectiveBlock_le blk)⟩
    rw [streamChunks_count _ (effectiveBlock_pos blk)]
    have h1 := effectiveBlock_pos blk
    generalize effectiveBlock blk = bs at *
    have : (p.length + bs - 1) / bs ≤ 2^32 := by
      rw [Nat.div_le_iff_le_mul_add_pred h1]
      omega
    omega
  have hdoc := streamed_documented (n := n) P L sender (SenderGenuine.sized L hs) blk buffers hr
  have h126 := (C126_stream P L sender (SenderGenuine.sized L hs) blk buffers hr
    (A.alone (sender.map (·.pub.pk)).isSome q) hA)
  generalize hlim : effectiveBlock blk * 2^32 = limit at hA hcut
  intro S
  have h1 := asking P S A limit (sender.map (·.pub.pk)) (streamed P sender blk buffers) (readBy P deliver out spk) hdoc
    (reacts P L sender hs blk (streamChunks (effectiveBlock blk)) (streamed (n := n) P sender blk buffers) limit spk deliver hd
      out hout hcut hspk (streamed_sending P L sender hs blk hblk hn buffers hr)) hA q
  rw [Option.isSome_map] at h126 h1
  refine ⟨?_, h126.2.1, h126.2.2, fun b j => ⟨twrap_valid P S _, forger_valid P S _ limit (fun t pks => ?_) hcut⟩⟩
  · unfold Asker.bound
    rw [Option.isSome_map]
    linarith [h126.1]
  · have := hA t pks
    cases b
    · show (A.plain t pks false).length < limit
      omega
    · exact this.2

/-! ### Seeing what the recipient gets is another matter -/

/-- Asks the recipient to read the file with a byte behind it. -/
def appender : Asker 1 (Bytes × Bool) where
  Tape := Unit
  plain _ _ b := [if b then 1 else 0]
  ask _ _ file _ := (0, file ++ [0])
  guess _ _ _ answers := answers == [([1], true)]

/-- **C133.** Not so if the spy sees what the recipient gets: for all primitives, senders, block sizes, ways of delivery, there
is a spy who with one question, not the file itself, always knows which of two plaintexts was encrypted. -/
theorem C133_contents_refuted (P : Prims) (L : Laws P) (sender : Option PrivateKey) (hs : ∀ s, sender = some s → s.Genuine P)
    (blk : Nat) (hblk : blk < 2^30)
    (reader : Bytes → Reader) (hr : ∀ p, (reader p).content = p ∧ isEndOfInput (reader p).last = true)
    (deliver : Bytes → Reader) (hd : ∀ f, (deliver f).content = f) (out : Writer) (hout : out.NoFail) (spk : Option PublicKey)
    (hspk : ∀ s, sender = some s → ∃ p, spk = some p ∧ p.pk = s.pub.pk) :
    ∃ A : Asker 1 (Bytes × Bool), A.Fair (effectiveBlock blk * 2^32) ∧ (∀ t pks file l, (A.ask t pks file l).2 ≠ file) ∧
      A.advantage P (encrypted P sender blk reader) (readBy P deliver out spk) id 1 = 1 := by
  have hpos := effectiveBlock_pos blk
  have hread : ∀ (b : Bool) (coin : Coins 64) (key : Coins 32) (seeds : Fin 1 → Coins 32) (csk salt : Coins 32)
      (nonces : Fin 1 → Coins 12),
      let pks := fun i => P.edPub (seeds i).bytes
      let file := encrypted P sender blk reader
        { csk := csk.bytes, key := key.bytes, salt := salt.bytes, pks, nonces := fun i => (nonces i).bytes
          coin := coin.bytes, plain := [if b then 1 else 0] }
      front (file ++ [0]) = front file ∧ readBy P deliver out spk (seeds 0).bytes (file ++ [0]) = ([if b then 1 else 0], true) := by
    intro b coin key seeds csk salt nonces
    dsimp only
    generalize hJ : ({ csk := csk.bytes, key := key.bytes, salt := salt.bytes, pks := fun i => P.edPub (seeds i).bytes
                       nonces := fun i => (nonces i).bytes, coin := coin.bytes, plain := [if b then 1 else 0] } : Job 1) = J
    have hc : EncCoins.WF { csk := J.csk, key := J.key, salt := J.salt } := by rw [← hJ]; exact ⟨csk.length, key.length, salt.length⟩
    obtain ⟨e, he⟩ := setupEncryptor_progress P L sender blk _ (List.ofFn fun i => ({ pk := J.pks i }, J.nonces i)) hc
      (SenderGenuine.sized L hs)
      (by
        intro r hr
        obtain ⟨i, rfl⟩ := (List.mem_ofFn' _ _).mp hr
        exact ⟨(seeds i).bytes, (seeds i).length, by rw [← hJ]⟩)
    have hsend := encrypted_sending P L sender hs blk hblk (by omega) reader hr J e hc.csk hc.key hc.salt
      (by rw [← hJ]; exact coin.length) (fun i => by rw [← hJ]; exact (nonces i).length) he
    have happ := hsend.appended L [0]
    refine ⟨happ.1, ?_⟩
    have hplain : J.plain = [if b then 1 else 0] := by rw [← hJ]
    have hrec : Receiving P sender (List.ofFn fun i => (({ pk := J.pks i } : PublicKey), J.nonces i))
        (newPrivateKey P (seeds 0).bytes) (seeds 0).bytes spk :=
      { hseed := (seeds 0).length, hsk := rfl, hpk := rfl
        listed := ⟨_, (List.mem_ofFn' _ _).mpr ⟨0, rfl⟩, by rw [← hJ]; rfl⟩
        named := hspk }
    obtain ⟨epk, ws, hok⟩ := setupEncryptor_ok P L sender blk _ _ e hc he
    obtain ⟨e', rd', wr', g1, _, _, _⟩ := encrypt_fresh P L e (reader J.plain) {} J.coin (hok.fresh L) (by simp [Writer.NoFail])
      (hr _).2
    have hfile : encrypted P sender blk reader J = wr'.out := by
      unfold encrypted; rw [he]; dsimp only; rw [g1]
    rcases C01_encrypt_decrypt P L sender hs blk hblk _ hc _ hsend.nonces hsend.count e he (reader J.plain) {} rfl J.coin
        (by rw [← hJ]; exact coin.length) e' rd' wr' g1 (newPrivateKey P (seeds 0).bytes) (seeds 0).bytes (seeds 0).length rfl rfl
        hrec.listed spk hspk (deliver (wr'.out ++ [0])) [0] (hd _) out hout with ⟨r, hr, hw, _⟩ | ⟨d, d', out', k1, k2, k3⟩
    · exfalso
      apply hw
      obtain ⟨i, rfl⟩ := (List.mem_ofFn' _ _).mp hr
      rw [← hJ, Subsingleton.elim i 0]
    · unfold readBy
      rw [hfile, k1]
      dsimp only
      rw [k2]
      dsimp only
      rw [k3, (hr _).1, List.drop_left' rfl, hplain]
      rfl
  refine ⟨appender, ?_, ?_, ?_⟩
  · intro t pks
    refine ⟨rfl, ?_⟩
    show 1 < _
    omega
  · intro t pks file l h
    have := congrArg List.length h
    simp [appender] at this
  · have hodds : ∀ b, appender.odds P (encrypted P sender blk reader) (readBy P deliver out spk) id 1 b = yes b := by
      intro b
      have hne : ∀ m, Nonempty (Coins m) := fun m => ⟨fun _ => 0⟩
      have hne2 : ∀ m, Nonempty (Fin 1 → Coins m) := fun m => ⟨fun _ _ => 0⟩
      have e : ∀ (coin : Coins 64) (key : Coins 32) (seeds : Fin 1 → Coins 32) (csk salt : Coins 32) (nonces : Fin 1 → Coins 12),
          (let pks := fun i => P.edPub (seeds i).bytes
           let file := encrypted P sender blk reader
            { csk := csk.bytes, key := key.bytes, salt := salt.bytes, pks, nonces := fun i => (nonces i).bytes
              coin := coin.bytes, plain := [if b then 1 else 0] }
           (appender.answers () pks file (ifSameHeader file (id ([], false))
              fun query => id (readBy P deliver out spk (seeds query.1).bytes query.2)) 1 == [([1], true)])) = b := by
        intro coin key seeds csk salt nonces
        obtain ⟨h1, h2⟩ := hread b coin key seeds csk salt nonces
        dsimp only at h1 h2 ⊢
        simp only [Asker.answers, appender, ifSameHeader, h1, if_true, h2, id, List.nil_append]
        cases b <;> rfl
      unfold Asker.odds
      have m7 : ∀ {α : Type} [Fintype α] [Nonempty α] {f : α → ℚ}, (∀ a, f a = yes b) → mean f = yes b := by
        intro α _ _ f h
        rw [show f = fun _ => yes b from funext h, mean_const]
      have : Nonempty appender.Tape := ⟨()⟩
      exact m7 fun t => m7 fun coin => m7 fun key => m7 fun seeds => m7 fun csk => m7 fun salt => m7 fun nonces =>
        congrArg yes (e coin key seeds csk salt nonces)
    unfold Asker.advantage
    rw [hodds, hodds]
    simp [yes]

/-- The hypotheses of `C133_encrypt` are met, by one who asks (the first recipient, the file without its last byte) as often
as he likes and wins, as the toy primitives hide nothing: so the bound for him is at least 1. -/
example (q : Nat) : ∃ A : Asker 2 (Nat × Bool),
    A.advantage toyPrims (encrypted toyPrims none 0 GameDemo.input) (readBy toyPrims GameDemo.input {} none) countOnly q = 1 ∧
    1 ≤ A.bound toyPrims { sender := none, block := effectiveBlock 0, cut := encryptChunks (effectiveBlock 0) } none
      (encrypted toyPrims none 0 GameDemo.input) q := by
  let A : Asker 2 (Nat × Bool) :=
    { Tape := Unit, plain := GameDemo.reader.plain, ask := fun _ _ file _ => (0, file.dropLast)
      guess := fun t pks file _ => GameDemo.reader.guess t pks file }
  have hodds : ∀ b, A.odds toyPrims (encrypted toyPrims none 0 GameDemo.input) (readBy toyPrims GameDemo.input {} none) countOnly q b =
      yes b := GameDemo.odds_eq
  have h : A.advantage toyPrims (encrypted toyPrims none 0 GameDemo.input) (readBy toyPrims GameDemo.input {} none) countOnly q = 1 := by
    unfold Asker.advantage
    rw [hodds, hodds]
    norm_num [yes]
  exact ⟨A, h, h ▸ (C133_encrypt toyPrims toyLaws none (by simp) 0 (by decide) (by decide) GameDemo.input GameDemo.input_ok
    GameDemo.input (fun f => (GameDemo.input_ok f).1) {} (by simp [Writer.NoFail]) none (by simp) A GameDemo.fair q).1⟩

end Sigtool
