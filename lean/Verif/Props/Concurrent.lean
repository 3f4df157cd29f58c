import Verif.Concurrent
import Verif.Props.KeyObj
/-!
# C82: goroutines that share a key

`Encryptor.addRecipient` and `Decryptor.setPrivateKey` are the sequential results, those with a key that nobody else uses.
-/

namespace Sigtool

/-- The order of accesses under which sharing a key is safe. -/
def Order.Good (o : Order) : Prop := o.lenFirst = true ∧ o.lateLoad = true

/-- What holds of a goroutine that is in the call, given the memory. -/
def Pc.Ok (o : Order) (v : Bytes) (m : Words) : Pc → Prop
  | .start => True
  | .early n => (n = 0 ∨ n = v.length) ∧ o.lateLoad = false
  | .hit p => p = v ∧ (o.lenFirst = true → m.len = v.length)
  | .miss => True
  | .half => if o.lenFirst then m.len = v.length else m.ptr = some v
  | .stored => m.ptr = some v ∧ m.len = v.length
  | .again p => p = some v ∧ m.len = v.length

def Words.Ok (o : Order) (v : Bytes) (m : Words) : Prop :=
  (m.ptr = none ∨ m.ptr = some v) ∧ (m.len = 0 ∨ m.len = v.length) ∧ (o.lenFirst = true → m.ptr = some v → m.len = v.length)

def GotOk (o : Order) (v r : Bytes) : Prop := (r = v ∨ r = []) ∧ (o.Good → r = v)

def Thread.Ok (o : Order) (v : Bytes) (m : Words) (t : Thread) : Prop := t.pc.Ok o v m ∧ ∀ r ∈ t.got, GotOk o v r

/-- Once a word has its value it keeps it. -/
def Words.Le (v : Bytes) (m m' : Words) : Prop :=
  (m.ptr = some v → m'.ptr = some v) ∧ (m.len = v.length → m'.len = v.length)

theorem Pc.Ok.mono {o : Order} {v : Bytes} {m m' : Words} (h : m.Le v m') {pc : Pc} (hp : pc.Ok o v m) : pc.Ok o v m' := by
  obtain ⟨h1, h2⟩ := h
  cases pc with
  | start => trivial
  | early n => exact hp
  | hit p => exact ⟨hp.1, fun hl => h2 (hp.2 hl)⟩
  | miss => trivial
  | half =>
    unfold Pc.Ok at hp ⊢
    cases hl : o.lenFirst with
    | true => rw [hl] at hp; exact h2 hp
    | false => rw [hl] at hp; exact h1 hp
  | stored => exact ⟨h1 hp.1, h2 hp.2⟩
  | again p => exact ⟨hp.1, h2 hp.2⟩

theorem sliceOf_all (v : Bytes) : sliceOf (some v) v.length = v := by simp [sliceOf]
theorem sliceOf_zero (p : Option Bytes) : sliceOf p 0 = [] := by simp [sliceOf]

theorem gotOk_self (o : Order) (v : Bytes) : GotOk o v v := ⟨.inl rfl, fun _ => rfl⟩

theorem Thread.step_ok (o : Order) (c : Conv) (v : Bytes) (m : Words) (t : Thread) (hm : m.Ok o v) (ht : t.Ok o v m) :
    (t.step o c v m).1.Ok o v ∧ m.Le v (t.step o c v m).1 ∧ (t.step o c v m).2.Ok o v (t.step o c v m).1 := by
  obtain ⟨pc, got⟩ := t
  obtain ⟨hp, hg⟩ := ht
  obtain ⟨m1, m2, m3⟩ := hm
  have le : m.Le v m := ⟨id, id⟩
  have push : ∀ r, GotOk o v r → ∀ x ∈ r :: got, GotOk o v x := by
    intro r hr x hx
    rcases List.mem_cons.mp hx with rfl | hx
    · exact hr
    · exact hg x hx
  dsimp only at hp hg
  unfold Thread.step
  cases pc with
  | start =>
    dsimp only
    cases hl : o.lateLoad with
    | true =>
      rw [if_pos rfl]
      refine ⟨⟨m1, m2, m3⟩, le, ?_, hg⟩
      dsimp only
      rcases m1 with h | h
      · rw [h]; trivial
      · rw [h]; exact ⟨rfl, fun hf => m3 hf h⟩
    | false =>
      rw [if_neg (by simp)]
      exact ⟨⟨m1, m2, m3⟩, le, ⟨m2, hl⟩, hg⟩
  | early n =>
    dsimp only
    rcases m1 with h | h
    · rw [h]; exact ⟨⟨.inl h, m2, m3⟩, le, trivial, hg⟩
    · rw [h]
      refine ⟨⟨.inr h, m2, m3⟩, le, trivial, push _ ?_⟩
      refine ⟨?_, fun hgood => ?_⟩
      · rcases hp.1 with e | e
        · rw [e, sliceOf_zero]; exact .inr rfl
        · rw [e, sliceOf_all]; exact .inl rfl
      · have := hgood.2; rw [hp.2] at this; cases this
  | hit p =>
    dsimp only
    refine ⟨⟨m1, m2, m3⟩, le, trivial, push _ ?_⟩
    obtain ⟨rfl, h2⟩ := hp
    refine ⟨?_, fun hgood => by rw [h2 hgood.1, sliceOf_all]⟩
    rcases m2 with e | e
    · rw [e, sliceOf_zero]; exact .inr rfl
    · rw [e, sliceOf_all]; exact .inl rfl
  | miss =>
    dsimp only
    cases hl : o.lenFirst with
    | true =>
      simp only [if_true]
      refine ⟨⟨m1, .inr rfl, fun _ _ => rfl⟩, ⟨id, fun _ => rfl⟩, ?_, hg⟩
      unfold Pc.Ok; dsimp only; rw [hl]; rfl
    | false =>
      simp only [Bool.false_eq_true, if_false]
      refine ⟨⟨.inr rfl, m2, fun hh => by rw [hl] at hh; cases hh⟩, ⟨fun _ => rfl, id⟩, ?_, hg⟩
      unfold Pc.Ok; dsimp only; rw [hl]; rfl
  | half =>
    dsimp only
    unfold Pc.Ok at hp
    cases hl : o.lenFirst with
    | true =>
      rw [hl] at hp
      simp only [if_true] at hp ⊢
      exact ⟨⟨.inr rfl, m2, fun _ _ => hp⟩, ⟨fun _ => rfl, id⟩, ⟨rfl, hp⟩, hg⟩
    | false =>
      rw [hl] at hp
      simp only [Bool.false_eq_true, if_false] at hp ⊢
      exact ⟨⟨m1, .inr rfl, fun _ _ => rfl⟩, ⟨id, fun _ => rfl⟩, ⟨hp, rfl⟩, hg⟩
  | stored =>
    cases c with
    | pub => exact ⟨⟨m1, m2, m3⟩, le, trivial, push _ (gotOk_self o v)⟩
    | priv => exact ⟨⟨m1, m2, m3⟩, le, hp, hg⟩
  | again p =>
    refine ⟨⟨m1, m2, m3⟩, le, trivial, push _ ?_⟩
    obtain ⟨rfl, h2⟩ := hp
    rw [h2, sliceOf_all]
    exact gotOk_self o v

def Sys2.Ok (o : Order) (v : Bytes) (s : Sys2) : Prop := s.mem.Ok o v ∧ ∀ t ∈ s.threads, t.Ok o v s.mem

theorem Sys2.step_ok (o : Order) (c : Conv) (v : Bytes) (s : Sys2) (i : Nat) (h : s.Ok o v) : (s.step o c v i).Ok o v := by
  unfold Sys2.step
  match hi : s.threads[i]? with
  | none => exact h
  | some t =>
    have hmem : t ∈ s.threads := List.mem_of_getElem? hi
    obtain ⟨a, b, d⟩ := Thread.step_ok o c v s.mem t h.1 (h.2 t hmem)
    refine ⟨a, fun t' ht' => ?_⟩
    rcases List.mem_or_eq_of_mem_set ht' with h' | rfl
    · exact ⟨(h.2 t' h').1.mono b, (h.2 t' h').2⟩
    · exact d

theorem Sys2.run_ok (o : Order) (c : Conv) (v : Bytes) (sched : List Nat) : ∀ (s : Sys2), s.Ok o v → (s.run o c v sched).Ok o v := by
  induction sched with
  | nil => intro s h; exact h
  | cons i is ih => intro s h; exact ih _ (s.step_ok o c v i h)

theorem fresh_ok (o : Order) (v : Bytes) (n : Nat) : (fresh n).Ok o v := by
  refine ⟨⟨.inl rfl, .inl rfl, fun _ h => by cases h⟩, fun t ht => ?_⟩
  rw [fresh] at ht
  rw [(List.mem_replicate.mp ht).2]
  exact ⟨trivial, fun r hr => by cases hr⟩

/-- Everything that is returned to any of `n` goroutines in a schedule, in one of the two functions. -/
def Returned (o : Order) (c : Conv) (v : Bytes) (n : Nat) (sched : List Nat) (r : Bytes) : Prop :=
  ∃ t ∈ ((fresh n).run o c v sched).threads, r ∈ t.got

theorem returned_ok {o : Order} {c : Conv} {v : Bytes} {n : Nat} {sched : List Nat} {r : Bytes} (h : Returned o c v n sched r) :
    GotOk o v r := by
  obtain ⟨t, ht, hr⟩ := h
  exact (((fresh n).run_ok o c v sched (fresh_ok o v n)).2 t ht).2 r hr

/-! ### What it means for the callers -/

theorem addRecipientWith_seq (P : Prims) (e : Encryptor) (pk : PublicKey) (h : pk.pk.length ≤ 32) (rbuf : Bytes) :
    e.addRecipientWith P pk (toCurve25519PK pk.pk) rbuf = e.addRecipient P pk rbuf := by
  unfold Encryptor.addRecipientWith Encryptor.addRecipient Encryptor.wrapKey
  rw [if_neg (by omega : ¬ pk.pk.length > 32)]
  split
  · rfl
  · cases P.x25519 e.encSK (toCurve25519PK pk.pk) with
    | none => rfl
    | some s => rfl

theorem addRecipientWith_torn (P : Prims) (L : Laws P) (e : Encryptor) (pk : PublicKey) (rbuf : Bytes) :
    ∃ x, e.addRecipientWith P pk [] rbuf = (.err x, e) := by
  unfold Encryptor.addRecipientWith
  split
  · exact ⟨_, rfl⟩
  · match hx : P.x25519 e.encSK [] with
    | none => exact ⟨_, rfl⟩
    | some s => have := L.x25519_point _ _ _ hx; cases this

theorem findKeyWith_seq (P : Prims) (d : Decryptor) (sk : PrivateKey) (v : Bytes) (hv : toCurve25519SK P sk = .ok v) :
    ∀ (ws : List WrappedKey) (ours : List Bytes), (∀ r ∈ ours, r = v) → ws.length ≤ ours.length →
      d.findKeyWith P sk.pub.pk ws ours = d.findKey P sk ws := by
  intro ws
  induction ws with
  | nil => intro ours _ _; unfold Decryptor.findKeyWith Decryptor.findKey; rfl
  | cons w ws ih =>
    intro ours ho hl
    match ours, ho, hl with
    | r :: more, ho, hl =>
      have hr := ho r (by simp)
      subst hr
      unfold Decryptor.findKeyWith Decryptor.findKey Decryptor.unwrapKey
      rw [hv, Res.bind_ok]
      cases P.x25519 r d.hdr.pk with
      | none => rfl
      | some s =>
        dsimp only
        split
        · rfl
        · match P.aeadOpen (kekOf P s d.hdr.salt w.nonce).1 (kekOf P s d.hdr.salt w.nonce).2 w.dkey sk.pub.pk with
          | some k => rfl
          | none => exact ih more (fun x hx => ho x (by simp [hx])) (by simpa using hl)

theorem findKeyWith_any (P : Prims) (L : Laws P) (d : Decryptor) (sk : PrivateKey) (v : Bytes) (hv : toCurve25519SK P sk = .ok v) :
    ∀ (ws : List WrappedKey) (ours : List Bytes), (∀ r ∈ ours, r = v ∨ r = []) → ws.length ≤ ours.length →
      d.findKeyWith P sk.pub.pk ws ours = d.findKey P sk ws ∨ ∃ x, d.findKeyWith P sk.pub.pk ws ours = .err x := by
  intro ws
  induction ws with
  | nil => intro ours _ _; left; unfold Decryptor.findKeyWith Decryptor.findKey; rfl
  | cons w ws ih =>
    intro ours ho hl
    match ours, ho, hl with
    | r :: more, ho, hl =>
      rcases ho r (by simp) with hr | hr
      · subst hr
        unfold Decryptor.findKeyWith Decryptor.findKey Decryptor.unwrapKey
        rw [hv, Res.bind_ok]
        cases P.x25519 r d.hdr.pk with
        | none => exact .inl rfl
        | some s =>
          dsimp only
          split
          · exact .inl rfl
          · match P.aeadOpen (kekOf P s d.hdr.salt w.nonce).1 (kekOf P s d.hdr.salt w.nonce).2 w.dkey sk.pub.pk with
            | some k => exact .inl rfl
            | none => exact ih more (fun x hx => ho x (by simp [hx])) (by simpa using hl)
      · subst hr
        right
        unfold Decryptor.findKeyWith
        match hx : P.x25519 [] d.hdr.pk with
        | none => exact ⟨_, rfl⟩
        | some s => have := L.x25519_scalar _ _ _ hx; cases this

theorem setPrivateKeyWith_eq (P : Prims) (d : Decryptor) (sk : PrivateKey) (ours : List Bytes) (spk : Option PublicKey)
    (h : d.findKeyWith P sk.pub.pk d.hdr.keys ours = d.findKey P sk d.hdr.keys) :
    d.setPrivateKeyWith P sk ours spk = d.setPrivateKey P sk spk := by
  unfold Decryptor.setPrivateKeyWith Decryptor.setPrivateKey
  rw [h]
  cases d.findKey P sk d.hdr.keys with
  | err x => rfl
  | panic x => rfl
  | ok k =>
    cases k with
    | none => rfl
    | some k => rfl

/-- **C82** (partial).  Any number of goroutines use one public key that was not converted before, in any schedule. If the accesses to
the cache are ordered (length before pointer when storing, pointer before length when loading), each `AddRecipient` that any of
them makes, on any encryptor of its own, gives what it gives alone.  Likewise `SetPrivateKey` for a shared private key.  Missing:
the other orders, which the Go memory model allows, for which this is false (`C82_torn_refuted`). -/
theorem C82_ordered_partial (P : Prims) (o : Order) (ho : o.lenFirst = true ∧ o.lateLoad = true) (n : Nat) (sched : List Nat) :
    (∀ (pk : PublicKey), pk.pk.length = 32 → ∀ point, Returned o .pub (toCurve25519PK pk.pk) n sched point →
      ∀ (e : Encryptor) (rbuf : Bytes), e.addRecipientWith P pk point rbuf = e.addRecipient P pk rbuf) ∧
    (∀ (sk : PrivateKey) (v : Bytes), toCurve25519SK P sk = .ok v → ∀ ours : List Bytes, (∀ r ∈ ours, Returned o .priv v n sched r) →
      ∀ (d : Decryptor) (spk : Option PublicKey), d.hdr.keys.length ≤ ours.length →
        d.setPrivateKeyWith P sk ours spk = d.setPrivateKey P sk spk) := by
  refine ⟨fun pk hpk point hp e rbuf => ?_, fun sk v hv ours hours d spk hl => ?_⟩
  · rw [(returned_ok hp).2 ho]
    exact addRecipientWith_seq P e pk (by omega) rbuf
  · exact setPrivateKeyWith_eq P d sk ours spk (findKeyWith_seq P d sk v hv _ _ (fun r hr => (returned_ok (hours r hr)).2 ho) hl)

/-- **C82** (any order, partial).  Whatever the order of the accesses: an `AddRecipient` gives what it gives alone or fails, leaving the
encryptor as it was, and a `SetPrivateKey` gives what it gives alone or fails, leaving the decryptor as it was. A key is never
wrapped for, or unwrapped as, another key.  Missing: that it never fails for this reason (`C82_torn_refuted`). -/
theorem C82_any_order_partial (P : Prims) (L : Laws P) (o : Order) (n : Nat) (sched : List Nat) :
    (∀ (pk : PublicKey), pk.pk.length = 32 → ∀ point, Returned o .pub (toCurve25519PK pk.pk) n sched point →
      ∀ (e : Encryptor) (rbuf : Bytes), e.addRecipientWith P pk point rbuf = e.addRecipient P pk rbuf ∨
        ∃ x, e.addRecipientWith P pk point rbuf = (.err x, e)) ∧
    (∀ (sk : PrivateKey) (v : Bytes), toCurve25519SK P sk = .ok v → ∀ ours : List Bytes, (∀ r ∈ ours, Returned o .priv v n sched r) →
      ∀ (d : Decryptor) (spk : Option PublicKey), d.hdr.keys.length ≤ ours.length →
        d.setPrivateKeyWith P sk ours spk = d.setPrivateKey P sk spk ∨ ∃ x, d.setPrivateKeyWith P sk ours spk = (.err x, d)) := by
  refine ⟨fun pk hpk point hp e rbuf => ?_, fun sk v hv ours hours d spk hl => ?_⟩
  · rcases (returned_ok hp).1 with rfl | rfl
    · exact .inl (addRecipientWith_seq P e pk (by omega) rbuf)
    · exact .inr (addRecipientWith_torn P L e pk rbuf)
  · rcases findKeyWith_any P L d sk v hv d.hdr.keys ours (fun r hr => (returned_ok (hours r hr)).1) hl with h | ⟨x, h⟩
    · exact .inl (setPrivateKeyWith_eq P d sk ours spk h)
    · right
      unfold Decryptor.setPrivateKeyWith
      rw [h]
      exact ⟨_, rfl⟩

/-- **C82** (refuted).  With any other order there is a schedule of two goroutines in which the second one's `AddRecipient` for a genuine
public key fails, on every new encryptor; alone it succeeds. -/
theorem C82_torn_refuted (P : Prims) (L : Laws P) (o : Order) (ho : ¬ (o.lenFirst = true ∧ o.lateLoad = true)) (seed : Bytes)
    (hs : seed.length = 32) :
    ∃ sched, ∃ point, Returned o .pub (toCurve25519PK (newPrivateKey P seed).pub.pk) 2 sched point ∧
      ∀ (sender : Option PrivateKey) (blk : Nat) (c : EncCoins) (e : Encryptor), c.WF → newEncryptor P sender blk c = .ok e → ∀ rbuf,
        (∃ x, e.addRecipientWith P (newPrivateKey P seed).pub point rbuf = (.err x, e)) ∧
        (e.addRecipient P (newPrivateKey P seed).pub rbuf).1 = .ok () := by
  have key : ∃ sched, Returned o .pub (toCurve25519PK (newPrivateKey P seed).pub.pk) 2 sched [] := by
    generalize toCurve25519PK (newPrivateKey P seed).pub.pk = v
    obtain ⟨lf, ll⟩ := o
    cases lf with
    | false =>
      cases ll with
      | true => exact ⟨[0, 0, 1, 1], ⟨.start, [[]]⟩, by simp [Sys2.run, Sys2.step, fresh, Thread.step, sliceOf], by simp⟩
      | false => exact ⟨[1, 0, 0, 0, 1], ⟨.start, [[]]⟩, by simp [Sys2.run, Sys2.step, fresh, Thread.step, sliceOf], by simp⟩
    | true =>
      cases ll with
      | true => exact absurd ⟨rfl, rfl⟩ ho
      | false => exact ⟨[1, 0, 0, 0, 0, 1], ⟨.start, [[]]⟩, by simp [Sys2.run, Sys2.step, fresh, Thread.step, sliceOf], by simp⟩
  obtain ⟨sched, hr⟩ := key
  refine ⟨sched, [], hr, fun sender blk c e hc he rbuf => ⟨addRecipientWith_torn P L e _ rbuf, ?_⟩⟩
  have hl : (P.edPub seed).length = 32 := L.ed_pub_len seed hs
  obtain ⟨epk, s, k1, k2, k3, k4, k5⟩ := L.dh c.csk seed hc.csk hs
  unfold newEncryptor at he
  dsimp only at he
  rw [k1] at he
  dsimp only at he
  obtain ⟨⟨sf, auth⟩, _, he⟩ := (bind_ok_iff _ _ _).mp he
  cases he
  unfold Encryptor.addRecipient Encryptor.wrapKey
  have e1 : (newPrivateKey P seed).pub.pk = P.edPub seed := rfl
  rw [if_neg (by simp), e1, if_neg (by omega), toCurve25519PK_eq _ (by omega), k4]

/-! ### Nobody waits for anybody -/

/-- Accesses a goroutine still has to make in its call, at most. -/
def Pc.left : Pc → Nat
  | .start => 6
  | .early _ => 5
  | .hit _ => 1
  | .miss => 4
  | .half => 3
  | .stored => 2
  | .again _ => 1

theorem Thread.step_measure (o : Order) (c : Conv) (v : Bytes) (m : Words) (t : Thread) :
    6 * t.got.length + 6 - t.pc.left + 1 ≤ 6 * (t.step o c v m).2.got.length + 6 - (t.step o c v m).2.pc.left := by
  obtain ⟨pc, got⟩ := t
  unfold Thread.step
  cases pc with
  | start =>
    dsimp only
    split
    · dsimp only; cases m.ptr <;> simp [Pc.left] <;> omega
    · simp [Pc.left]
  | early n => dsimp only; cases m.ptr <;> simp [Pc.left] <;> omega
  | hit p => simp [Pc.left] <;> omega
  | miss => simp [Pc.left] <;> omega
  | half => simp [Pc.left] <;> omega
  | stored => cases c <;> simp [Pc.left] <;> omega
  | again p => simp [Pc.left] <;> omega

theorem Sys2.step_threads_length (o : Order) (c : Conv) (v : Bytes) (s : Sys2) (i : Nat) : (s.step o c v i).threads.length = s.threads.length := by
  unfold Sys2.step
  cases s.threads[i]? <;> simp

/-- **C82** (no waiting).  A goroutine that is scheduled `6 * k` times has finished `k` calls, whatever the others do. -/
theorem C82_wait_free (o : Order) (c : Conv) (v : Bytes) (n : Nat) (sched : List Nat) (i : Nat) (hi : i < n) (k : Nat)
    (hk : 6 * k ≤ sched.count i) :
    ∃ t, ((fresh n).run o c v sched).threads[i]? = some t ∧ k ≤ t.got.length := by
  have gen : ∀ (sched : List Nat) (s : Sys2) (t : Thread), s.threads[i]? = some t →
      ∃ t', (s.run o c v sched).threads[i]? = some t' ∧
        6 * t.got.length + 6 - t.pc.left + sched.count i ≤ 6 * t'.got.length + 6 - t'.pc.left := by
    intro sched
    induction sched with
    | nil => intro s t ht; exact ⟨t, ht, by simp⟩
    | cons j js ih =>
      intro s t ht
      by_cases hj : j = i
      · subst hj
        obtain ⟨t', h1, h2⟩ := ih (s.step o c v j) (t.step o c v s.mem).2 (by
          unfold Sys2.step
          rw [ht]
          have hlt : j < s.threads.length := (List.getElem?_eq_some_iff.mp ht).1
          simp [hlt])
        refine ⟨t', h1, ?_⟩
        have := t.step_measure o c v s.mem
        rw [List.count_cons_self]
        omega
      · obtain ⟨t', h1, h2⟩ := ih (s.step o c v j) t (by
          unfold Sys2.step
          cases s.threads[j]? with
          | none => exact ht
          | some u => dsimp only; rw [List.getElem?_set_ne hj]; exact ht)
        refine ⟨t', h1, ?_⟩
        rw [List.count_cons_of_ne hj]
        exact h2
  obtain ⟨t', h1, h2⟩ := gen sched (fresh n) {} (by simp [fresh, hi])
  refine ⟨t', h1, ?_⟩
  have hl : 1 ≤ t'.pc.left := by cases t'.pc <;> simp [Pc.left]
  have e1 : ({} : Thread).pc.left = 6 := rfl
  have e2 : ({} : Thread).got.length = 0 := rfl
  rw [e1, e2] at h2
  omega

/-- Two goroutines, ordered accesses, a racing schedule: both compute the point, and both get it. -/
example : ((fresh 2).run ⟨true, true⟩ .pub [7, 7] [0, 1, 0, 1, 1, 0, 1, 0]).threads.map (·.got) = [[[7, 7]], [[7, 7]]] := by decide

/-- The same key of another goroutine that comes later: from the cache. -/
example : ((fresh 2).run ⟨true, true⟩ .priv [7, 7] [0, 0, 0, 0, 0, 1, 1]).threads.map (·.got) = [[[7, 7]], [[7, 7]]] := by decide

/-- The pointer is stored first: the other goroutine gets an empty slice. -/
example : ((fresh 2).run ⟨false, true⟩ .pub [7, 7] [0, 0, 1, 1, 0, 0]).threads.map (·.got) = [[[7, 7]], [[]]] := by decide

end Sigtool
