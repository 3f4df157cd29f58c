import Verif.HistoryLemmas
import Verif.Demo
/-!
# Props.History: C08, C09, C17, C18, C57 — arbitrary call histories on one `Encryptor`

`History P e0 evs s` ranges over every finite sequence of `AddRecipient`, `Encrypt`, `NewStreamWriter`, `Write`, `Close`
calls with any arguments, any readers and any (failing) destinations.
-/

namespace Sigtool
open Spec (encryptChunks SessionHeader headerWithSum)

/-! ## The moment the header is written -/

/-- A started encryptor: exactly one call wrote the header; what came before failed, what comes after has no header. -/
theorem History.timeline {P : Prims} (L : Laws P) {sender : Option PrivateKey} {blk : Nat} {c : EncCoins} (hc : c.WF)
    {e0 : Encryptor} (he : newEncryptor P sender blk c = .ok e0)
    {evs : List EncEvent} {s : EncState} (h : History P e0 evs s) : s.enc.started = true →
    ∃ pre v post hdr, evs = pre ++ v :: post ∧ v.op.begins = true ∧ SessionHeader P sender blk c (addedIn pre) hdr ∧
      headerWithSum P hdr <+: v.wrote ∧ s.enc.hdr = hdr ∧
      (∀ ev ∈ pre, ev.op.begins = true → ev.res ≠ .ok () ∧
        ∃ rs h, SessionHeader P sender blk c rs h ∧ ev.wrote <+: headerWithSum P h) ∧
      (∀ ev ∈ post, ¬ ascii "SigTool" <+: ev.wrote) ∧
      (∀ ev ∈ post, ∀ pk rbuf, ev.op = .add pk rbuf → ev.res = .err .encStarted) := by
  induction h with
  | start =>
    intro hst
    obtain ⟨epk, h1, h2, h3⟩ := newEncryptor_eq P L sender blk c hc (newEncryptor_sized he)
    rw [h3] at he; cases he; cases hst
  | @call evs s s' op ev h live hstep ih =>
    intro hst
    have inv := h.inv L hc he
    have sf := step_facts P L inv hstep
    cases hs0 : s.enc.started with
    | true =>
      obtain ⟨pre, v, post, hdr, h1, h2, h3, h4, h5, h6, h7, h8⟩ := ih hs0
      refine ⟨pre, v, post ++ [ev], hdr, by rw [h1]; simp, h2, h3, h4, by rw [(sf.kept hs0).2, h5], h6, ?_, ?_⟩
      · intro w hw
        rcases List.mem_append.mp hw with hw | hw
        · exact h7 w hw
        · simp only [List.mem_singleton] at hw; subst hw; exact sf.later hs0
      · intro w hw pk rbuf ho
        rcases List.mem_append.mp hw with hw | hw
        · exact h8 w hw pk rbuf ho
        · simp only [List.mem_singleton] at hw; subst hw
          have := step_op hstep
          rw [ho] at this
          subst this
          unfold EncState.step at hstep
          dsimp only at hstep
          rcases ha : s.enc.addRecipient P pk rbuf with ⟨r, e⟩
          rw [ha] at hstep
          cases hstep
          exact ((add_frame P _ _ _ _ _ ha).2.2.2.2.2 hs0).2
    | false =>
      obtain ⟨g1, g2, g3⟩ := sf.starts hs0 hst
      exact ⟨evs, ev, [], s.enc.hdr, rfl, by rw [step_op hstep]; exact g1, inv.hdr, g2, g3, inv.notyet hs0, by simp, by simp⟩

theorem History.started_of_ok {P : Prims} (L : Laws P) {sender : Option PrivateKey} {blk : Nat} {c : EncCoins} (hc : c.WF)
    {e0 : Encryptor} (he : newEncryptor P sender blk c = .ok e0)
    {evs : List EncEvent} {s : EncState} (h : History P e0 evs s) {ev : EncEvent} (hev : ev ∈ evs)
    (hb : ev.op.begins = true) (hok : ev.res = .ok ()) : s.enc.started = true := by
  have inv := h.inv L hc he
  cases hst : s.enc.started with
  | true => rfl
  | false => exact absurd hok (inv.notyet hst ev hev hb).1

/-! ## C17 -/

/-- **C17.** Take any history of calls on a new encryptor in which some `Encrypt` or `NewStreamWriter` returned no error.
Then one call `v` put a header first on its destination; that header holds one wrapped key for each `AddRecipient` call that
had succeeded by then (`addedIn pre`), in call order and nothing else; these are all the calls to `AddRecipient` that ever
succeed: each later one returns `ErrEncStarted`. -/
theorem C17_recipients (P : Prims) (L : Laws P) (sender : Option PrivateKey) (blk : Nat) (c : EncCoins) (hc : c.WF)
    (e0 : Encryptor) (he : newEncryptor P sender blk c = .ok e0)
    (evs : List EncEvent) (s : EncState) (h : History P e0 evs s)
    (hok : ∃ ev ∈ evs, ev.op.begins = true ∧ ev.res = .ok ()) :
    ∃ (pre : List EncEvent) (v : EncEvent) (post : List EncEvent) (hdr : Header), evs = pre ++ v :: post ∧
      v.op.begins = true ∧ headerWithSum P hdr <+: v.wrote ∧
      SessionHeader P sender blk c (addedIn pre) hdr ∧ addedIn evs = addedIn pre ∧
      (∀ ev ∈ post, ∀ pk rbuf, ev.op = .add pk rbuf → ev.res = .err .encStarted) := by
  obtain ⟨ev, hev, hb, hr⟩ := hok
  obtain ⟨pre, v, post, hdr, h1, h2, h3, h4, h5, h6, h7, h8⟩ :=
    h.timeline L hc he (h.started_of_ok L hc he hev hb hr)
  refine ⟨pre, v, post, hdr, h1, h2, h4, h3, ?_, h8⟩
  have hp : ∀ post : List EncEvent, (∀ ev ∈ post, ∀ pk rbuf, ev.op = .add pk rbuf → ev.res = .err .encStarted) →
      addedIn post = [] := by
    intro post
    induction post with
    | nil => intro _; rfl
    | cons w ws ih =>
      intro hw
      have hw1 : addedIn [w] = [] := by
        by_cases hx : ∃ pk r, w.op = .add pk r
        · obtain ⟨pk, r, hx⟩ := hx
          exact addedIn_fail w (by rw [hw w (by simp) pk r hx]; simp)
        · exact addedIn_other w (by push Not at hx; exact hx)
      have : addedIn (w :: ws) = addedIn [w] ++ addedIn ws := by simp [addedIn, ← List.filterMap_append]
      rw [this, hw1, ih (fun v hv => hw v (by simp [hv]))]; rfl
  have : addedIn (pre ++ v :: post) = addedIn pre ++ (addedIn [v] ++ addedIn post) := by
    simp [addedIn, ← List.filterMap_append]
  rw [h1, this, hp post h8, addedIn_other v (by rintro pk r hx; rw [hx] at h2; cases h2)]
  simp

/-- **C17**, the guard: after such a call `AddRecipient` returns `ErrEncStarted` and changes nothing. -/
theorem C17_add_after_start (P : Prims) (L : Laws P) (sender : Option PrivateKey) (blk : Nat) (c : EncCoins) (hc : c.WF)
    (e0 : Encryptor) (he : newEncryptor P sender blk c = .ok e0)
    (evs : List EncEvent) (s : EncState) (h : History P e0 evs s)
    (hok : ∃ ev ∈ evs, ev.op.begins = true ∧ ev.res = .ok ()) (pk : PublicKey) (rbuf : Bytes) :
    s.step P (.add pk rbuf) = some ({ op := .add pk rbuf, res := .err .encStarted }, s) := by
  obtain ⟨ev, hev, hb, hr⟩ := hok
  have hst := h.started_of_ok L hc he hev hb hr
  have : s.enc.addRecipient P pk rbuf = (.err .encStarted, s.enc) := by unfold Encryptor.addRecipient; simp [hst]
  unfold EncState.step
  dsimp only
  rw [this]
  simp

/-! ## C18 -/

/-- **C18**, streams: once `NewStreamWriter` has succeeded, `Encrypt` returns `ErrEncIsStream`, writes nothing, closes
nothing, reads nothing and leaves the encryptor as it was. -/
theorem C18_encrypt_after_stream (P : Prims) (L : Laws P) (sender : Option PrivateKey) (blk : Nat) (c : EncCoins)
    (hc : c.WF) (e0 : Encryptor) (he : newEncryptor P sender blk c = .ok e0)
    (evs : List EncEvent) (s : EncState) (h : History P e0 evs s)
    (hok : ∃ ev ∈ evs, (∃ wr, ev.op = .openStream wr) ∧ ev.res = .ok ()) (rd : Reader) (wr : Writer) (coin : Bytes) :
    s.step P (.encrypt rd wr coin) =
      some ({ op := .encrypt rd wr coin, res := .err .encIsStream, wrote := [], closed := 0, left := some rd }, s) := by
  have hst := (h.inv L hc he).stream.mpr hok
  have : s.enc.encrypt P rd wr coin = (.err .encIsStream, s.enc, rd, wr) := by unfold Encryptor.encrypt; simp [hst]
  unfold EncState.step
  dsimp only
  rw [this]
  simp

/-- **C18**, one header: in any history in which some `Encrypt` or `NewStreamWriter` returned no error there is exactly one
call that put a whole header on a destination followed by success of the header; no later call begins with the header's
magic bytes; every earlier `Encrypt`/`NewStreamWriter` call failed, having written at most the bytes of a header. -/
theorem C18_header_once (P : Prims) (L : Laws P) (sender : Option PrivateKey) (blk : Nat) (c : EncCoins)
    (hc : c.WF) (e0 : Encryptor) (he : newEncryptor P sender blk c = .ok e0)
    (evs : List EncEvent) (s : EncState) (h : History P e0 evs s)
    (hok : ∃ ev ∈ evs, ev.op.begins = true ∧ ev.res = .ok ()) :
    ∃ (pre : List EncEvent) (v : EncEvent) (post : List EncEvent) (hdr : Header), evs = pre ++ v :: post ∧
      SessionHeader P sender blk c (addedIn pre) hdr ∧ headerWithSum P hdr <+: v.wrote ∧
      (∀ ev ∈ pre, ev.op.begins = true → ev.res ≠ .ok () ∧
        ∃ rs h, SessionHeader P sender blk c rs h ∧ ev.wrote <+: headerWithSum P h) ∧
      (∀ ev ∈ post, ¬ ascii "SigTool" <+: ev.wrote) := by
  obtain ⟨ev, hev, hb, hr⟩ := hok
  obtain ⟨pre, v, post, hdr, h1, h2, h3, h4, h5, h6, h7, h8⟩ :=
    h.timeline L hc he (h.started_of_ok L hc he hev hb hr)
  exact ⟨pre, v, post, hdr, h1, h3, h4, h6, h7⟩

/-- **C18**, before anything else: a call that returns no error while none before it did put the header first on its
destination. -/
theorem C18_header_first (P : Prims) (L : Laws P) (sender : Option PrivateKey) (blk : Nat) (c : EncCoins)
    (hc : c.WF) (e0 : Encryptor) (he : newEncryptor P sender blk c = .ok e0)
    (evs : List EncEvent) (s : EncState) (h : History P e0 evs s)
    (hnone : ∀ ev ∈ evs, ev.op.begins = true → ¬ ascii "SigTool" <+: ev.wrote) (op : EncOp) (ev : EncEvent) (s' : EncState)
    (hb : op.begins = true) (hstep : s.step P op = some (ev, s')) (hok : ev.res = .ok ()) :
    ∃ hdr, SessionHeader P sender blk c (addedIn evs) hdr ∧ headerWithSum P hdr <+: ev.wrote := by
  have inv := h.inv L hc he
  have sf := step_facts P L inv hstep
  cases hst : s.enc.started with
  | false => exact ⟨_, inv.hdr, sf.firstOk hst hb hok⟩
  | true =>
    obtain ⟨v, hv, h1, h2⟩ := inv.out hst
    refine absurd (List.IsPrefix.trans ?_ h2) (hnone v hv h1)
    simp [headerWithSum, Spec.headerPart, List.append_assoc]

/-! ## C57 -/

/-- **C57.** No sequence of calls on an encryptor crashes, except `AddRecipient` with a public key of more than 32 bytes
(which no key constructor of the library returns). -/
theorem C57_no_crash (P : Prims) (L : Laws P) (sender : Option PrivateKey) (blk : Nat) (c : EncCoins)
    (hc : c.WF) (e0 : Encryptor) (he : newEncryptor P sender blk c = .ok e0)
    (evs : List EncEvent) (s : EncState) (h : History P e0 evs s) (ev : EncEvent) (hev : ev ∈ evs)
    (hp : ev.res.isPanic = true) : ∃ pk rbuf, ev.op = .add pk rbuf ∧ 32 < pk.pk.length :=
  (h.inv L hc he).panics ev hev hp

/-! ## C08 -/

/-- No two of these `Seal` calls use the same key and nonce. -/
def NoReuse (recs : List SealRec) : Prop := (recs.map fun r => (r.key, r.nonce)).Nodup

theorem Consecutive.noReuse {key nonce : Bytes} {recs : List SealRec} (h : Consecutive key nonce 0 recs)
    (hl : recs.length ≤ 2^32) : NoReuse recs := by
  unfold NoReuse
  rw [List.nodup_iff_getElem?_ne_getElem?]
  intro i j hij hj
  simp only [List.length_map] at hj
  simp only [List.getElem?_map]
  rw [List.getElem?_eq_getElem (by omega), List.getElem?_eq_getElem hj]
  simp only [Option.map_some, ne_eq, Option.some.injEq, Prod.mk.injEq, not_and]
  intro _ hn
  have h1 := (h i recs[i] (List.getElem?_eq_getElem (by omega))).2
  have h2 := (h j recs[j] (List.getElem?_eq_getElem hj)).2
  rw [h1, h2] at hn
  have := List.append_inj_left hn (by simp)
  have := be32_inj (by omega) (by omega) this
  omega

theorem newEncryptor_unstarted {P : Prims} {sender : Option PrivateKey} {blk : Nat} {c : EncCoins} {e0 : Encryptor}
    (he : newEncryptor P sender blk c = .ok e0) : e0.started = false ∧ e0.seals = [] := by
  unfold newEncryptor at he
  dsimp only at he
  split at he
  · cases he
  · cases hsf : Res.wrapErr "encrypt" (senderField P sender _ c.salt c.key) with
    | ok v => rw [hsf] at he; cases he; exact ⟨rfl, rfl⟩
    | err x => rw [hsf] at he; cases he
    | panic x => rw [hsf] at he; cases he

/-- **C08**, `Encrypt`: in every history, the data sealed by one `Encrypt` call (failed or not) use pairwise different
nonces, as long as there are at most 2^32 chunks. -/
theorem C08_encrypt (P : Prims) (sender : Option PrivateKey) (blk : Nat) (c : EncCoins) (e0 : Encryptor)
    (he : newEncryptor P sender blk c = .ok e0) (evs : List EncEvent) (s : EncState) (h : History P e0 evs s)
    (ev : EncEvent) (hev : ev ∈ evs) (hop : ∃ rd wr coin, ev.op = .encrypt rd wr coin) (hl : ev.sealed.length ≤ 2^32) :
    NoReuse ev.sealed := by
  obtain ⟨h0, h1⟩ := newEncryptor_unstarted he
  have inv := h.nonceInv h0 h1
  cases hst : s.enc.started with
  | false => rw [inv.idle hst ev hev]; exact List.nodup_nil
  | true =>
    obtain ⟨dkey, hd⟩ := inv.ae hst
    exact (inv.encs dkey hd hst ev hev hop).noReuse hl

/-- **C08**, streams: in every history, the data sealed by all `Write` and `Close` calls on one stream writer (failed or
not) use pairwise different nonces, as long as there are at most 2^32 chunks. -/
theorem C08_stream (P : Prims) (sender : Option PrivateKey) (blk : Nat) (c : EncCoins) (e0 : Encryptor)
    (he : newEncryptor P sender blk c = .ok e0) (evs : List EncEvent) (s : EncState) (h : History P e0 evs s)
    (k : Nat) (hl : (sealedBy k evs).length ≤ 2^32) : NoReuse (sealedBy k evs) := by
  obtain ⟨h0, h1⟩ := newEncryptor_unstarted he
  have inv := h.nonceInv h0 h1
  cases hst : s.enc.started with
  | false =>
    have : sealedBy k evs = [] := by
      simp only [sealedBy, List.flatMap_eq_nil_iff, List.mem_filter, and_imp]
      intro v hv _; exact inv.idle hst v hv
    rw [this]; exact List.nodup_nil
  | true =>
    obtain ⟨dkey, hd⟩ := inv.ae hst
    exact (inv.recs dkey hd hst k).noReuse hl

/-! ## C09 -/

/-- **C09** (partial). Over the whole life of an encryptor no two data `Seal` calls share key and nonce, PROVIDED all data
were sealed by a single `Encrypt` call or all by a single stream writer, and there are at most 2^32 chunks. Missing: other
histories; for them the property is false, see `C09_two_encrypts_refuted`, `C09_two_streams_refuted`, `C09_wrap_refuted`. -/
theorem C09_single_use_partial (P : Prims) (sender : Option PrivateKey) (blk : Nat) (c : EncCoins) (e0 : Encryptor)
    (he : newEncryptor P sender blk c = .ok e0) (evs : List EncEvent) (s : EncState) (h : History P e0 evs s)
    (hone : (∃ pre ev post, evs = pre ++ ev :: post ∧ (∃ rd wr coin, ev.op = .encrypt rd wr coin) ∧
        ∀ v ∈ pre ++ post, v.sealed = []) ∨
      (∃ k, ∀ v ∈ evs, v.sealed ≠ [] → (∃ b, v.op = .write k b) ∨ ∃ coin, v.op = .close k coin))
    (hl : (evs.flatMap (·.sealed)).length ≤ 2^32) : NoReuse (evs.flatMap (·.sealed)) := by
  rcases hone with ⟨pre, ev, post, h1, h2, h3⟩ | ⟨k, hk⟩
  · have ha : evs.flatMap (·.sealed) = ev.sealed := by
      have h4 : pre.flatMap (·.sealed) = [] := by
        simp only [List.flatMap_eq_nil_iff]; intro v hv; exact h3 v (by simp [hv])
      have h5 : post.flatMap (·.sealed) = [] := by
        simp only [List.flatMap_eq_nil_iff]; intro v hv; exact h3 v (by simp [hv])
      rw [h1]; simp [h4, h5]
    rw [ha] at hl ⊢
    exact C08_encrypt P sender blk c e0 he evs s h ev (by rw [h1]; simp) h2 hl
  · have ha : ∀ evs : List EncEvent,
        (∀ v ∈ evs, v.sealed ≠ [] → (∃ b, v.op = .write k b) ∨ ∃ coin, v.op = .close k coin) →
        evs.flatMap (·.sealed) = sealedBy k evs := by
      intro evs
      induction evs with
      | nil => intro _; rfl
      | cons v vs ih =>
        intro hk
        have hv := hk v (by simp)
        have h1 := ih (fun w hw => hk w (by simp [hw]))
        simp only [sealedBy, List.filter_cons, List.flatMap_cons] at h1 ⊢
        rw [h1]
        by_cases hon : v.op.on k = true
        · simp [hon]
        · have : v.sealed = [] := by
            by_contra hne
            rcases hv hne with ⟨b, hb⟩ | ⟨cn, hb⟩ <;> rw [hb] at hon <;> simp [EncOp.on] at hon
          simp [hon, this]
    rw [ha evs hk] at hl ⊢
    exact C08_stream P sender blk c e0 he evs s h k hl

theorem sealRecs_head (key nonce : Bytes) (bs : Nat) (pt : Bytes) (h0 : 0 < bs) :
    ∃ r, (sealRecs key nonce 0 (encryptChunks bs pt))[0]? = some r ∧ r.pt = pt.take bs := by
  by_cases h : pt.length < bs
  · rw [encryptChunks_small _ _ h]
    exact ⟨_, rfl, by rw [List.take_of_length_le (by omega)]⟩
  · rw [encryptChunks_big _ _ h0 (by omega), sealRecs_cons _ _ _ _ _ (encryptChunks_ne_nil _ _)]
    exact ⟨_, rfl, rfl⟩

/-- One successful `Encrypt` on an unstarted or started encryptor seals the first chunk first. -/
theorem encrypt_seals (P : Prims) (L : Laws P) {sender : Option PrivateKey} {blk : Nat} {c : EncCoins}
    {evs : List EncEvent} {s : EncState} (inv : HistInv P sender blk c evs s) (hns : s.enc.stream = false)
    (rd : Reader) (wr : Writer) (coin : Bytes) (hw : wr.NoFail) (hcl : wr.closeErr = none)
    (hend : isEndOfInput rd.last = true) :
    ∃ ev s' key nonce, s.step P (.encrypt rd wr coin) = some (ev, s') ∧ ev.op = .encrypt rd wr coin ∧ ev.res = .ok () ∧
      s'.enc.started = true ∧ s'.enc.stream = false ∧
      ev.sealed = sealRecs key nonce 0 (encryptChunks s.enc.hdr.chunkSize rd.content) := by
  obtain ⟨hc0, hc1⟩ := inv.chunkPos
  have started : ∀ (e1 : Encryptor) (wr1 : Writer) (dkey hk hd : Bytes), e1.started = true → e1.stream = false →
      e1.Ready dkey hk hd → e1.SenderOk → e1.hdr = s.enc.hdr → e1.seals = s.enc.seals → wr1.NoFail → wr1.closeErr = none →
      ∃ e' rd' wr', e1.encrypt P rd wr1 coin = (.ok (), e', rd', wr') ∧ e'.started = true ∧ e'.stream = false ∧
        e'.seals = s.enc.seals ++ sealRecs dkey e1.nonce 0 (encryptChunks s.enc.hdr.chunkSize rd.content) := by
    intro e1 wr1 dkey hk hd h1 h2 h3 h4 h5 h6 h7 h8
    obtain ⟨rd2, wr2, k1, k2, k3, k4, k5, k6⟩ := encryptLoop_noFail P L coin (rd.content.length + 1) e1 rd wr1 0 dkey hk hd
      h3 h4 h7 (by rw [h5]; exact hc0) (by omega) hend
    unfold Encryptor.encrypt
    simp only [h1, h2, Bool.false_eq_true, if_false, if_true]
    rw [k1]
    dsimp only
    simp only [Writer.close, k5, h8]
    exact ⟨_, _, _, rfl, h1, h2, by rw [h5, h6]⟩
  cases hst : s.enc.started with
  | true =>
    obtain ⟨hd, hr⟩ := inv.ready hst
    obtain ⟨e', rd', wr', g1, g2, g3, g4⟩ := started s.enc wr _ _ hd hst hns hr inv.senderOk rfl rfl hw hcl
    unfold EncState.step
    dsimp only
    rw [g1]
    exact ⟨_, _, _, _, rfl, rfl, rfl, g2, g3, drop_seals g4⟩
  | false =>
    obtain ⟨wr1, h1, h2, h3, h4, h5⟩ := start_noFail P s.enc wr inv.clean hw
    have hr := afterStart_ready P L s.enc hc1
    obtain ⟨e', rd', wr', g1, g2, g3, g4⟩ := started (s.enc.afterStart P) wr1 _ _ _ rfl hns hr inv.senderOk rfl rfl
      h3 (by rw [h5]; exact hcl)
    unfold EncState.step
    dsimp only
    rw [encrypt_start_ok P s.enc _ rd wr wr1 coin hst hns h1 rfl hns, g1]
    exact ⟨_, _, _, _, rfl, rfl, rfl, g2, g3, drop_seals g4⟩

/-- **C09** (refuted), two `Encrypt` calls. For every new encryptor, every two readers and working destinations, calling
`Encrypt` twice succeeds twice, and the first chunk of the second input is sealed under the same key and nonce as the first
chunk of the first input. -/
theorem C09_two_encrypts_refuted (P : Prims) (L : Laws P) (sender : Option PrivateKey) (blk : Nat) (c : EncCoins)
    (hc : c.WF) (e0 : Encryptor) (he : newEncryptor P sender blk c = .ok e0)
    (rd1 rd2 : Reader) (wr1 wr2 : Writer) (coin1 coin2 : Bytes) (h1 : rd1.last = .eof) (h2 : rd2.last = .eof)
    (hw1 : wr1.NoFail) (hw2 : wr2.NoFail) (hc1 : wr1.closeErr = none) (hc2 : wr2.closeErr = none) :
    ∃ (ev1 ev2 : EncEvent) (s : EncState) (a b : SealRec), History P e0 [ev1, ev2] s ∧
      ev1.op = .encrypt rd1 wr1 coin1 ∧ ev2.op = .encrypt rd2 wr2 coin2 ∧ ev1.res = .ok () ∧ ev2.res = .ok () ∧
      a ∈ ev1.sealed ∧ b ∈ ev2.sealed ∧ a.key = b.key ∧ a.nonce = b.nonce ∧
      a.pt = rd1.content.take (if blk = 0 then 4 * 1048576 else min blk (2^30)) ∧
      b.pt = rd2.content.take (if blk = 0 then 4 * 1048576 else min blk (2^30)) := by
  obtain ⟨n0, n1⟩ := newEncryptor_unstarted he
  have t0 : History P e0 [] { enc := e0 } := .start
  have i0 := t0.inv L hc he
  have hst0 : ({ enc := e0 } : EncState).enc.stream = false := by
    obtain ⟨epk, q1, q2, q3⟩ := newEncryptor_eq P L sender blk c hc (newEncryptor_sized he)
    rw [q3] at he; cases he; rfl
  obtain ⟨ev1, s1, k1, m1, a1, a2, a3, a4, a5, a6⟩ := encrypt_seals P L i0 hst0 rd1 wr1 coin1 hw1 hc1 (by rw [h1]; decide)
  have t1 : History P e0 [ev1] s1 := .call t0 (by simp) a1
  have i1 := t1.inv L hc he
  obtain ⟨ev2, s2, k2, m2, b1, b2, b3, b4, b5, b6⟩ := encrypt_seals P L i1 a5 rd2 wr2 coin2 hw2 hc2 (by rw [h2]; decide)
  have t2 : History P e0 [ev1, ev2] s2 := .call t1 (by simp [a3, Res.isPanic]) b1
  have inv := t2.nonceInv n0 n1
  obtain ⟨dkey, hd⟩ := inv.ae b4
  obtain ⟨r1, p1, p2⟩ := sealRecs_head k1 m1 ({ enc := e0 } : EncState).enc.hdr.chunkSize rd1.content i0.chunkPos.1
  obtain ⟨r2, p3, p4⟩ := sealRecs_head k2 m2 s1.enc.hdr.chunkSize rd2.content i1.chunkPos.1
  rw [← a6] at p1
  rw [← b6] at p3
  have q1 := inv.encs dkey hd b4 ev1 (by simp) ⟨_, _, _, a2⟩ 0 r1 p1
  have q2 := inv.encs dkey hd b4 ev2 (by simp) ⟨_, _, _, b2⟩ 0 r2 p3
  refine ⟨ev1, ev2, s2, r1, r2, t2, a2, b2, a3, b3, List.mem_of_getElem? p1, List.mem_of_getElem? p3,
    by rw [q1.1, q2.1], by rw [q1.2, q2.2], ?_, ?_⟩
  · rw [p2, i0.hdr.chunkSize]
  · rw [p4, i1.hdr.chunkSize]

theorem sealRecs_length (key nonce : Bytes) : ∀ (cs : List Bytes) (i : Nat), (sealRecs key nonce i cs).length = cs.length := by
  intro cs
  induction cs with
  | nil => intro i; rfl
  | cons c cs ih =>
    intro i
    by_cases hn : cs = []
    · subst hn; rfl
    · rw [sealRecs_cons _ _ _ _ _ hn]; simp [ih]

theorem encryptChunks_one : ∀ pt : Bytes, (encryptChunks 1 pt).length = pt.length + 1 := by
  intro pt
  induction pt with
  | nil => rw [encryptChunks_small _ _ (by simp)]; rfl
  | cons b pt ih => rw [encryptChunks_big _ _ (by omega) (by simp)]; simp [ih]

/-- **C09** (refuted), the counter wraps: chunk `i` and chunk `i + 2^32` of one call or one stream writer share key and
nonce, in every history. -/
theorem C09_wrap_refuted (P : Prims) (sender : Option PrivateKey) (blk : Nat) (c : EncCoins) (e0 : Encryptor)
    (he : newEncryptor P sender blk c = .ok e0) (evs : List EncEvent) (s : EncState) (h : History P e0 evs s)
    (recs : List SealRec) (hrecs : (∃ ev ∈ evs, (∃ rd wr coin, ev.op = .encrypt rd wr coin) ∧ recs = ev.sealed) ∨
      ∃ k, recs = sealedBy k evs)
    (i : Nat) (a b : SealRec) (ha : recs[i]? = some a) (hb : recs[i + 2^32]? = some b) : a.key = b.key ∧ a.nonce = b.nonce := by
  obtain ⟨h0, h1⟩ := newEncryptor_unstarted he
  have inv := h.nonceInv h0 h1
  have key : ∃ dkey, Consecutive dkey s.enc.nonce 0 recs := by
    cases hst : s.enc.started with
    | false =>
      have : recs = [] := by
        rcases hrecs with ⟨ev, hev, _, rfl⟩ | ⟨k, rfl⟩
        · exact inv.idle hst ev hev
        · simp only [sealedBy, List.flatMap_eq_nil_iff, List.mem_filter, and_imp]
          intro v hv _; exact inv.idle hst v hv
      rw [this] at ha; simp at ha
    | true =>
      obtain ⟨dkey, hd⟩ := inv.ae hst
      refine ⟨dkey, ?_⟩
      rcases hrecs with ⟨ev, hev, hop, rfl⟩ | ⟨k, rfl⟩
      · exact inv.encs dkey hd hst ev hev hop
      · exact inv.recs dkey hd hst k
  obtain ⟨dkey, hk⟩ := key
  have g1 := hk i a ha
  have g2 := hk _ b hb
  exact ⟨by rw [g1.1, g2.1], by rw [g1.2, g2.2, be32_congr (0 + i) (0 + (i + 2^32)) (by omega)]⟩

/-- Such a call exists: `Encrypt` with block size 1 and an input of 2^32 bytes or more makes more than 2^32 chunks. -/
theorem C09_wrap_exists_refuted (P : Prims) (L : Laws P) (sender : Option PrivateKey) (c : EncCoins)
    (hc : c.WF) (e0 : Encryptor) (he : newEncryptor P sender 1 c = .ok e0)
    (rd : Reader) (wr : Writer) (coin : Bytes) (hrd : rd.last = .eof) (hw : wr.NoFail) (hcl : wr.closeErr = none)
    (hbig : 2^32 ≤ rd.content.length) :
    ∃ (ev : EncEvent) (s : EncState) (a b : SealRec), History P e0 [ev] s ∧ ev.op = .encrypt rd wr coin ∧ ev.res = .ok () ∧
      ev.sealed[0]? = some a ∧ ev.sealed[2^32]? = some b ∧ a.key = b.key ∧ a.nonce = b.nonce := by
  have t0 : History P e0 [] { enc := e0 } := .start
  have i0 := t0.inv L hc he
  have hst0 : ({ enc := e0 } : EncState).enc.stream = false := by
    obtain ⟨epk, q1, q2, q3⟩ := newEncryptor_eq P L sender 1 c hc (newEncryptor_sized he)
    rw [q3] at he; cases he; rfl
  obtain ⟨ev, s1, k1, m1, a1, a2, a3, a4, a5, a6⟩ := encrypt_seals P L i0 hst0 rd wr coin hw hcl (by rw [hrd]; decide)
  have t1 : History P e0 [ev] s1 := .call t0 (by simp) a1
  have hbs : ({ enc := e0 } : EncState).enc.hdr.chunkSize = 1 := by rw [i0.hdr.chunkSize]; simp
  have hlen : ev.sealed.length = rd.content.length + 1 := by
    rw [a6, sealRecs_length, hbs, encryptChunks_one]
  have e1 : ev.sealed[0]? = some (ev.sealed[0]'(by omega)) := List.getElem?_eq_getElem _
  have e2 : ev.sealed[2^32]? = some (ev.sealed[2^32]'(by omega)) := List.getElem?_eq_getElem _
  have := C09_wrap_refuted P sender 1 c e0 he [ev] s1 t1 ev.sealed (Or.inl ⟨ev, by simp, ⟨_, _, _, a2⟩, rfl⟩) 0 _ _ e1
    (by rw [Nat.zero_add]; exact e2)
  exact ⟨ev, s1, _, _, t1, a2, a3, e1, e2, this⟩

namespace Demo

/-- A new encryptor for the histories below. -/
def newEnc : Encryptor :=
  match newEncryptor toyPrims (some alice) 4 coins with
  | .ok e => e
  | _ => ⟨{}, [], [], none, false, [], none, none, 0, false, false, []⟩

theorem newEnc_ok : newEncryptor toyPrims (some alice) 4 coins = .ok newEnc := by
  obtain ⟨epk, _, _, h⟩ := newEncryptor_eq toyPrims toyLaws (some alice) 4 coins coins_wf (sender_genuine.sized toyLaws)
  unfold newEnc
  rw [h]

/-- Two recipients; a destination that fails in the header; then two interleaved stream writers. -/
def ops : List EncOp :=
  [.add bob.pub (List.replicate 12 4), .encrypt input { script := [.short 9, .fail 3 (.io 1)] } coin,
   .add carol.pub (List.replicate 12 5), .openStream dest, .openStream {}, .write 0 [1, 2, 3, 4, 5], .write 1 [9, 8, 7, 6, 5],
   .add alice.pub (List.replicate 12 6), .encrypt input dest coin, .close 0 coin, .write 1 [1], .close 1 coin, .write 1 [2]]

def evs : List EncEvent := (EncState.run toyPrims { enc := newEnc } ops).1
def final : EncState := (EncState.run toyPrims { enc := newEnc } ops).2

theorem history : History toyPrims newEnc evs final := by
  have := History.run ops [] { enc := newEnc } (.start (P := toyPrims) (e0 := newEnc)) (by simp)
  rw [List.nil_append] at this
  exact this

end Demo

/-- **C09** (refuted), two stream writers: a concrete history in which two stream writers of one encryptor seal different
plaintexts under the same key and nonce. -/
theorem C09_two_streams_refuted : ∃ a ∈ sealedBy 0 Demo.evs, ∃ b ∈ sealedBy 1 Demo.evs,
    a.key = b.key ∧ a.nonce = b.nonce ∧ a.pt = [1, 2, 3, 4] ∧ b.pt = [9, 8, 7, 6] := by decide +kernel

/-- The histories quantified over include this one: 13 calls, of which the second fails in the header, the fourth succeeds
with the header of Bob and Carol, and the eighth and ninth are refused. -/
example : History toyPrims Demo.newEnc Demo.evs Demo.final ∧ Demo.evs.length = 13 ∧
    (∃ ev ∈ Demo.evs, ev.op.begins = true ∧ ev.res = .ok ()) ∧
    addedIn Demo.evs = Demo.rcpts ∧
    Demo.evs[7]?.map (·.res) = some (.err .encStarted) ∧ Demo.evs[8]?.map (·.res) = some (.err .encIsStream) ∧
    (∀ ev ∈ Demo.evs, ev.res.isPanic = false) ∧
    (sealedBy 0 Demo.evs).length = 2 ∧ (sealedBy 1 Demo.evs).length = 2 := by
  refine ⟨Demo.history, ?_⟩
  decide +kernel

/-- `C09_single_use_partial` applies to a history that really seals several chunks. -/
example : ∃ evs s, History toyPrims Demo.newEnc evs s ∧ (∃ k, ∀ v ∈ evs, v.sealed ≠ [] →
    (∃ b, v.op = .write k b) ∨ ∃ coin, v.op = .close k coin) ∧ (evs.flatMap (·.sealed)).length = 3 := by
  have := History.run [.add Demo.bob.pub (List.replicate 12 4), .openStream Demo.dest, .write 0 [1, 2, 3, 4, 5, 6, 7, 8, 9],
    .close 0 Demo.coin] [] { enc := Demo.newEnc } (.start (P := toyPrims) (e0 := Demo.newEnc)) (by simp)
  refine ⟨_, _, this, ⟨0, ?_⟩, by decide +kernel⟩
  intro v hv hne
  have : ∀ v ∈ [] ++ (EncState.run toyPrims { enc := Demo.newEnc } [.add Demo.bob.pub (List.replicate 12 4),
      .openStream Demo.dest, .write 0 [1, 2, 3, 4, 5, 6, 7, 8, 9], .close 0 Demo.coin]).1,
      v.sealed ≠ [] → v.op = .write 0 [1, 2, 3, 4, 5, 6, 7, 8, 9] ∨ v.op = .close 0 Demo.coin := by decide +kernel
  rcases this v hv hne with h | h
  · exact Or.inl ⟨_, h⟩
  · exact Or.inr ⟨_, h⟩

/-- `AddRecipient` with an over-long key does crash. -/
example : (Demo.newEnc.addRecipient toyPrims { pk := List.replicate 33 1 } []).1.isPanic = true := by decide +kernel

end Sigtool
