import Verif.RandomLemmas
import Verif.Demo
/-!
# C84: every call that needs random bytes takes fresh ones from the random source

Elsewhere in the model the random bytes are arguments of the calls. Here the calls draw them from the random source. Over
every history of calls on one encryptor, the calls behave exactly as the calls with arguments do, for arguments that are
disjoint, consecutive pieces of what the source delivers: no byte is used twice, and none is used that the source did not
deliver. If the source fails, the call that needs it crashes (and leaves its destination open).
-/

namespace Sigtool

theorem encrypt_auth (P : Prims) (e : Encryptor) (rd : Reader) (wr : Writer) (coin : Bytes)
    (r : Res Unit) (e' : Encryptor) (rd' : Reader) (wr' : Writer) (h : e.encrypt P rd wr coin = (r, e', rd', wr')) :
    e'.auth = e.auth := by
  by_cases hst : e.started = true
  · exact ((encrypt_frame P e rd wr coin r e' rd' wr' h).2.1 hst).auth
  · unfold Encryptor.encrypt at h
    split at h
    · cases h; rfl
    · simp only [if_neg hst] at h
      rcases hs : e.start P wr with ⟨r1, e1, wr1⟩
      have ha := (start_closes P e e1 wr wr1 r1 hs).2
      rw [hs] at h
      cases r1 with
      | err x => cases h; exact ha
      | panic x => cases h; exact ha
      | ok u =>
        dsimp only at h
        rcases hl : Encryptor.encryptLoop P coin (rd.content.length + 1) e1 rd wr1 0 with ⟨r2, e2, rd2, wr2⟩
        have hf := (encryptLoop_frame P coin _ _ _ _ _ _ _ _ _ hl).1.auth
        rw [hl] at h
        cases r2 with
        | err x => cases h; rw [hf, ha]
        | panic x => cases h; rw [hf, ha]
        | ok u =>
          dsimp only at h
          rcases hc : wr2.close with ⟨y, w3⟩
          rw [hc] at h
          cases y <;> cases h <;> rw [hf, ha]

theorem newStreamWriter_auth (P : Prims) (e : Encryptor) (wr : Writer) (r : Res EncWriter) (e' : Encryptor) (wr' : Writer)
    (h : e.newStreamWriter P wr = (r, e', wr')) : e'.auth = e.auth := by
  unfold Encryptor.newStreamWriter at h
  dsimp only at h
  split at h
  · cases h; rfl
  · rcases hs : e.start P wr with ⟨r1, e1, wr1⟩
    have ha := (start_closes P e e1 wr wr1 r1 hs).2
    rw [hs] at h
    cases r1 <;> cases h <;> exact ha

theorem newStreamWriter_closes (P : Prims) (e : Encryptor) (wr : Writer) (r : Res EncWriter) (e' : Encryptor) (wr' : Writer)
    (h : e.newStreamWriter P wr = (r, e', wr')) : wr'.closes = wr.closes := by
  unfold Encryptor.newStreamWriter at h
  dsimp only at h
  split at h
  · cases h; rfl
  · rcases hs : e.start P wr with ⟨r1, e1, wr1⟩
    have ha := (start_closes P e e1 wr wr1 r1 hs).1
    rw [hs] at h
    cases r1 <;> cases h <;> exact ha

theorem add_auth (P : Prims) (e : Encryptor) (pk : PublicKey) (rbuf : Bytes) (r : Res Unit) (e' : Encryptor)
    (h : e.addRecipient P pk rbuf = (r, e')) : e'.auth = e.auth := by
  unfold Encryptor.addRecipient at h
  split at h
  · cases h; rfl
  · split at h <;> cases h <;> rfl

theorem encStep_auth (P : Prims) {s s' : EncState} {op : EncOp} {ev : EncEvent} (h : s.step P op = some (ev, s')) :
    s'.enc.auth = s.enc.auth := by
  cases op with
  | add pk rbuf =>
    unfold EncState.step at h
    rcases ha : s.enc.addRecipient P pk rbuf with ⟨r, e⟩
    dsimp only at h
    rw [ha] at h
    cases h
    exact add_auth P _ _ _ _ _ ha
  | encrypt rd wr coin =>
    unfold EncState.step at h
    rcases ha : s.enc.encrypt P rd wr coin with ⟨r, e, rd', wr'⟩
    dsimp only at h
    rw [ha] at h
    cases h
    exact encrypt_auth P _ _ _ _ _ _ _ _ ha
  | openStream wr =>
    unfold EncState.step at h
    rcases ha : s.enc.newStreamWriter P wr with ⟨r, e, wr'⟩
    dsimp only at h
    rw [ha] at h
    cases h
    exact newStreamWriter_auth P _ _ _ _ _ ha
  | write k b =>
    unfold EncState.step at h
    dsimp only at h
    cases hk : s.streams[k]? with
    | none => rw [hk] at h; cases h
    | some w =>
      rw [hk] at h
      dsimp only at h
      rcases ha : w.write P s.enc b with ⟨r, e, w'⟩
      rw [ha] at h
      cases h
      exact (write_frame P _ _ _ _ _ _ ha).1.auth
  | close k coin =>
    unfold EncState.step at h
    dsimp only at h
    cases hk : s.streams[k]? with
    | none => rw [hk] at h; cases h
    | some w =>
      rw [hk] at h
      dsimp only at h
      rcases ha : w.close P s.enc coin with ⟨r, e, w'⟩
      rw [ha] at h
      cases h
      exact (close_frame P _ _ _ _ _ _ ha).1.auth

theorem newEncryptor_auth {P : Prims} {sender : Option PrivateKey} {blk : Nat} {c : EncCoins} {e : Encryptor}
    (h : newEncryptor P sender blk c = .ok e) : e.auth = sender.isSome := by
  unfold newEncryptor at h
  dsimp only at h
  split at h
  · cases h
  · rename_i epk _
    cases hs : senderField P sender epk c.salt c.key with
    | err x => rw [hs] at h; cases h
    | panic x => rw [hs] at h; cases h
    | ok y =>
      obtain ⟨sf, a⟩ := y
      rw [hs] at h
      cases h
      dsimp only
      unfold senderField at hs
      cases sender with
      | none => cases hs; rfl
      | some sk =>
        dsimp only at hs
        cases hm : signMessage P sk (senderDigest P epk c.salt c.key) <;> rw [hm] at hs <;> cases hs
        rfl

theorem encStep_add {P : Prims} {s : EncState} {pk : PublicKey} {coin : Bytes} {r : Res Unit} {e : Encryptor}
    (h : s.enc.addRecipient P pk coin = (r, e)) : s.step P (.add pk coin) =
      some ({ op := .add pk coin, res := r, sealed := e.seals.drop s.enc.seals.length }, { s with enc := e }) := by
  unfold EncState.step; dsimp only; rw [h]

theorem encStep_encrypt {P : Prims} {s : EncState} {rd rd' : Reader} {wr wr' : Writer} {coin : Bytes} {r : Res Unit} {e : Encryptor}
    (h : s.enc.encrypt P rd wr coin = (r, e, rd', wr')) : s.step P (.encrypt rd wr coin) =
      some ({ op := .encrypt rd wr coin, res := r, wrote := wr'.out.drop wr.out.length, closed := wr'.closes - wr.closes
              left := some rd', sealed := e.seals.drop s.enc.seals.length }, { s with enc := e }) := by
  unfold EncState.step; dsimp only; rw [h]

theorem encStep_openStream {P : Prims} {s : EncState} {wr wr' : Writer} {r : Res EncWriter} {e : Encryptor}
    (h : s.enc.newStreamWriter P wr = (r, e, wr')) : s.step P (.openStream wr) =
      some ({ op := .openStream wr, res := r.unit, wrote := wr'.out.drop wr.out.length, closed := wr'.closes - wr.closes
              sealed := e.seals.drop s.enc.seals.length },
        { enc := e, streams := match (generalizing := false) r with | .ok w => s.streams ++ [w] | _ => s.streams }) := by
  unfold EncState.step; dsimp only; rw [h]; cases r <;> rfl

theorem encStep_write {P : Prims} {s : EncState} {k : Nat} {b : Bytes} {w w' : EncWriter} {r : Res Nat} {e : Encryptor}
    (hk : s.streams[k]? = some w) (h : w.write P s.enc b = (r, e, w')) : s.step P (.write k b) =
      some ({ op := .write k b, res := r.unit, wrote := w'.wr.out.drop w.wr.out.length, closed := w'.wr.closes - w.wr.closes
              sealed := e.seals.drop s.enc.seals.length }, { enc := e, streams := s.streams.set k w' }) := by
  unfold EncState.step; dsimp only; rw [hk]; dsimp only; rw [h]

theorem encStep_close {P : Prims} {s : EncState} {k : Nat} {coin : Bytes} {w w' : EncWriter} {r : Res Unit} {e : Encryptor}
    (hk : s.streams[k]? = some w) (h : w.close P s.enc coin = (r, e, w')) : s.step P (.close k coin) =
      some ({ op := .close k coin, res := r, wrote := w'.wr.out.drop w.wr.out.length, closed := w'.wr.closes - w.wr.closes
              sealed := e.seals.drop s.enc.seals.length }, { enc := e, streams := s.streams.set k w' }) := by
  unfold EncState.step; dsimp only; rw [hk]; dsimp only; rw [h]

/-- One call: it draws what it uses, or the source ran out. -/
theorem stepR_spec (P : Prims) (sender : Option PrivateKey) {s s' : EncState} {rnd rnd' : Reader} {c : Call} {v : Seen}
    (hauth : s.enc.auth = sender.isSome) (h : s.stepR P rnd c = some (v, s', rnd')) :
    (∃ op ev d, s.step P op = some (ev, s') ∧ Spec.seenOf ev = v ∧ Spec.Draws sender ev d ∧ rnd.content = d ++ rnd'.content) ∨
    (v.res = .panic noRandom ∧ v.closed = 0 ∧ rnd.content.length < 64) := by
  have hnone : sender = none → s.enc.auth = false := by rintro rfl; exact hauth
  cases c with
  | add pk =>
    unfold EncState.stepR at h
    rcases ha : s.enc.addRecipientR P pk rnd with ⟨r, e, rnd1⟩
    dsimp only at h
    rw [ha] at h
    cases h
    rcases addRecipientR_spec P _ _ _ _ _ _ ha with ⟨coin, d, g1, g2, g3, g4, g5⟩ | ⟨rfl, _, g⟩
    · left
      exact ⟨_, _, d, encStep_add g5, rfl, ⟨g1, g2, g3⟩, g4⟩
    · right
      exact ⟨rfl, rfl, by omega⟩
  | encrypt rd wr =>
    unfold EncState.stepR at h
    rcases ha : s.enc.encryptR P rd wr rnd with ⟨r, e, rd', wr', rnd1⟩
    dsimp only at h
    rw [ha] at h
    cases h
    rcases encryptR_spec P _ _ _ _ _ _ _ _ _ ha with ⟨coin, d, g1, g2, g3, g4, g5⟩ | ⟨rfl, g, g'⟩
    · left
      exact ⟨_, _, d, encStep_encrypt g5, rfl, ⟨g1, g2, fun hn hr => g3 ⟨hnone hn, hr⟩⟩, g4⟩
    · right
      exact ⟨rfl, by dsimp only; omega, by omega⟩
  | openStream wr =>
    unfold EncState.stepR at h
    rcases ha : s.enc.newStreamWriter P wr with ⟨r, e, wr'⟩
    dsimp only at h
    rw [ha] at h
    left
    cases r <;> cases h <;> exact ⟨_, _, [], encStep_openStream ha, rfl, rfl, rfl⟩
  | write k b =>
    unfold EncState.stepR at h
    dsimp only at h
    cases hk : s.streams[k]? with
    | none => rw [hk] at h; cases h
    | some w =>
      rw [hk] at h
      dsimp only at h
      rcases ha : w.write P s.enc b with ⟨r, e, w'⟩
      rw [ha] at h
      cases h
      left
      exact ⟨_, _, [], encStep_write hk ha, rfl, rfl, rfl⟩
  | close k =>
    unfold EncState.stepR at h
    dsimp only at h
    cases hk : s.streams[k]? with
    | none => rw [hk] at h; cases h
    | some w =>
      rw [hk] at h
      dsimp only at h
      rcases ha : w.closeR P s.enc rnd with ⟨r, e, w', rnd1⟩
      rw [ha] at h
      cases h
      rcases closeR_spec P _ _ _ _ _ _ _ ha with ⟨coin, d, g1, g2, g3, g4, g5⟩ | ⟨rfl, g, g'⟩
      · left
        exact ⟨_, _, d, encStep_close hk g5, rfl, ⟨g1, g2, fun hn hr => g3 ⟨hnone hn, hr⟩⟩, g4⟩
      · right
        exact ⟨rfl, by dsimp only; omega, by omega⟩

/-- The calls `seen`, made with the random source `rnd0` and leaving `rnd` of it, are what the calls `evs` with explicit random bytes
show, and those bytes are consecutive pieces of what the source delivers, each used by one call. -/
def Spec.FreshBytes (P : Prims) (sender : Option PrivateKey) (e : Encryptor) (rnd1 : Reader) (seen : List Seen) (s : EncState) (rnd : Reader) : Prop :=
  ∃ (evs : List EncEvent) (drawn : List Bytes), History P e evs s ∧ evs.map Spec.seenOf = seen ∧
    List.Forall₂ (Spec.Draws sender) evs drawn ∧ rnd1.content = drawn.flatten ++ rnd.content

theorem history_fresh (P : Prims) (sender : Option PrivateKey) (e : Encryptor) (rnd1 : Reader) (hauth : e.auth = sender.isSome)
    {seen : List Seen} {s : EncState} {rnd : Reader} (h : HistoryR P e rnd1 seen s rnd) :
    (Spec.FreshBytes P sender e rnd1 seen s rnd ∧ s.enc.auth = sender.isSome) ∨
    (∃ before s1 rnd2 v, seen = before ++ [v] ∧ Spec.FreshBytes P sender e rnd1 before s1 rnd2 ∧ v.res = .panic noRandom ∧ v.closed = 0 ∧
      rnd2.content.length < 64) := by
  induction h with
  | start => exact .inl ⟨⟨[], [], .start, rfl, .nil, rfl⟩, hauth⟩
  | @call seen s s' rnd rnd' c v h live hstep ih =>
    rcases ih with ⟨⟨evs, drawn, g1, g2, g3, g4⟩, ga⟩ | ⟨before, s1, rnd2, v', h1, _, h3, _⟩
    · rcases stepR_spec P sender ga hstep with ⟨op, ev, d, k1, k2, k3, k4⟩ | ⟨k1, k2, k3⟩
      · left
        refine ⟨⟨evs ++ [ev], drawn ++ [d], .call g1 ?_ k1, ?_, ?_, ?_⟩, by rw [encStep_auth P k1, ga]⟩
        · intro w hw
          have := live (Spec.seenOf w) (by rw [← g2]; exact List.mem_map_of_mem hw)
          exact this
        · rw [List.map_append, g2]; simp [k2]
        · exact List.rel_append g3 (.cons k3 .nil)
        · rw [g4, k4]; simp
      · right
        exact ⟨seen, s, rnd, v, rfl, ⟨evs, drawn, g1, g2, g3, g4⟩, k1, k2, k3⟩
    · exfalso
      have := live v' (by rw [h1]; simp)
      rw [h3] at this
      cases this

/-- **C84** (histories). Make an encryptor with the random source `rnd0` and call it in any way. What is seen is what calls with
explicit random bytes show; the bytes of the ephemeral key, the data key, the salt, each nonce and each trailer are pieces of what the
source delivers, one after another, none of them used twice. Otherwise the last call is the crash of a call that could not get its
random bytes, the destination of that call was not closed, and everything before is as described. -/
theorem C84_fresh (P : Prims) (sender : Option PrivateKey) (blk : Nat) (rnd0 rnd1 : Reader) (e : Encryptor)
    (hnew : newEncryptorR P rnd0 sender blk = (.ok e, rnd1)) (seen : List Seen) (s : EncState) (rnd : Reader)
    (h : HistoryR P e rnd1 seen s rnd) :
    ∃ c : EncCoins, c.WF ∧ newEncryptor P sender blk c = .ok e ∧ rnd0.content = c.csk ++ c.key ++ c.salt ++ rnd1.content ∧
      (Spec.FreshBytes P sender e rnd1 seen s rnd ∨
       ∃ before s1 rnd2 v, seen = before ++ [v] ∧ Spec.FreshBytes P sender e rnd1 before s1 rnd2 ∧ v.res = .panic noRandom ∧ v.closed = 0 ∧
         rnd2.content.length < 64) := by
  rcases newEncryptorR_spec P rnd0 rnd1 sender blk _ hnew with ⟨c, d, h1, h2, _, h4, h5⟩ | ⟨h1, _⟩
  · refine ⟨c, h1, h5, by rw [h2, h4 e rfl], ?_⟩
    rcases history_fresh P sender e rnd1 (newEncryptor_auth h5) h with g | g
    · exact .inl g.1
    · exact .inr g
  · cases h1


/-- **C84** (`NewEncryptor`). Whatever the random source does: the result is that of the call with explicit random bytes, which were
taken from the source (only the first 32 if the key agreement failed), or the source has fewer than 96 bytes and the call crashes. -/
theorem C84_new (P : Prims) (sender : Option PrivateKey) (blk : Nat) (rnd0 rnd1 : Reader) (r : Res Encryptor)
    (hnew : newEncryptorR P rnd0 sender blk = (r, rnd1)) :
    (∃ c : EncCoins, ∃ d, c.WF ∧ newEncryptor P sender blk c = r ∧ rnd0.content = d ++ rnd1.content ∧
      (d = c.csk ++ c.key ++ c.salt ∨ d = c.csk) ∧ (∀ e, r = .ok e → d = c.csk ++ c.key ++ c.salt)) ∨
    (r = .panic noRandom ∧ rnd0.content.length < 96) := by
  rcases newEncryptorR_spec P rnd0 rnd1 sender blk r hnew with ⟨c, d, h1, h2, h3, h4, h5⟩ | h
  · exact .inl ⟨c, d, h1, h5, h2, h3, h4⟩
  · exact .inr h

/-! ### Examples -/

namespace Demo

/-- A random source that delivers 96 bytes in three pieces, then 12, then 64, then ten, and then fails. -/
def rndSource : Reader :=
  ⟨[List.replicate 40 7, List.replicate 50 8, List.replicate 6 9, List.replicate 12 4, List.replicate 64 6, List.replicate 10 5], .io 7, false⟩

def newEncR : Option Encryptor × Reader :=
  match newEncryptorR toyPrims rndSource none 4 with
  | (.ok e, r) => (some e, r)
  | (_, r) => (none, r)

/-- Add a recipient, encrypt, encrypt again. -/
def runR : List Call → EncState → Reader → List Seen
  | [], _, _ => []
  | c :: cs, s, rnd => match s.stepR toyPrims rnd c with
    | none => []
    | some (v, s, rnd) => v :: runR cs s rnd

example : (newEncR.1.map fun e => (runR [.add bob.pub, .encrypt input dest, .encrypt input dest] { enc := e } newEncR.2).map (·.res)) =
    some [.ok (), .ok (), .panic noRandom] := by decide +kernel

/-- Both outcomes of `C84_fresh` are reached: two calls that get their bytes, and then a crash. -/
example : ∃ e rnd1 seen s rnd, newEncryptorR toyPrims rndSource none 4 = (.ok e, rnd1) ∧ HistoryR toyPrims e rnd1 seen s rnd ∧
    seen.map (·.res) = [.ok (), .ok (), .panic noRandom] := by
  have h1 : newEncR.1.isSome = true := by decide +kernel
  obtain ⟨e, he⟩ := Option.isSome_iff_exists.mp h1
  have hn : newEncryptorR toyPrims rndSource none 4 = (.ok e, newEncR.2) := by
    unfold newEncR at he ⊢
    split at he
    · rename_i h; cases he; exact h
    · cases he
  have hr : (newEncR.1.map fun e => (runR [.add bob.pub, .encrypt input dest, .encrypt input dest] { enc := e } newEncR.2).map (·.res)) =
    some [.ok (), .ok (), .panic noRandom] := by decide +kernel
  rw [he] at hr
  simp only [Option.map_some, Option.some.injEq] at hr
  have go : ∀ (cs : List Call) (seen : List Seen) (s : EncState) (rnd : Reader), HistoryR toyPrims e newEncR.2 seen s rnd →
      (∀ v ∈ seen, v.res.isPanic = false) → (∀ v ∈ (runR cs s rnd).dropLast, v.res.isPanic = false) →
      ∃ s' rnd', HistoryR toyPrims e newEncR.2 (seen ++ runR cs s rnd) s' rnd' := by
    intro cs
    induction cs with
    | nil => intro seen s rnd h _ _; exact ⟨s, rnd, by simpa [runR] using h⟩
    | cons c cs ih =>
      intro seen s rnd h hl hd
      unfold runR at hd ⊢
      cases hs : s.stepR toyPrims rnd c with
      | none => exact ⟨s, rnd, by simpa using h⟩
      | some x =>
        obtain ⟨v, s', rnd'⟩ := x
        rw [hs] at hd
        dsimp only at hd ⊢
        have h' := HistoryR.call h hl hs
        by_cases hne : runR cs s' rnd' = []
        · rw [hne]; exact ⟨_, _, h'⟩
        · rw [List.dropLast_cons_of_ne_nil hne] at hd
          have := ih (seen ++ [v]) s' rnd' h' (by
            intro w hw
            rcases List.mem_append.mp hw with hw | hw
            · exact hl w hw
            · simp only [List.mem_singleton] at hw; subst hw; exact hd _ (by simp)) (fun w hw => hd w (by simp [hw]))
          simpa using this
  obtain ⟨s', rnd', h⟩ := go [.add bob.pub, .encrypt input dest, .encrypt input dest] [] { enc := e } newEncR.2 .start (by simp) (by
    intro v hv
    have h3 := List.mem_map_of_mem (f := fun v : Seen => v.res) hv
    rw [List.map_dropLast, hr] at h3
    simp only [List.dropLast, List.mem_cons, List.not_mem_nil, or_false, or_self] at h3
    rw [h3]; rfl)
  exact ⟨e, _, _, s', rnd', hn, h, by rw [List.nil_append]; exact hr⟩

end Demo

end Sigtool
