import Verif.Spec.Alias
import Verif.Props.KeyObj
import Verif.Props.Agreement
import Verif.Demo
/-!
# C125: the memory of a key
-/

namespace Sigtool
open Spec

/-- The key in memory is `K`, its caches are in sync, and its arrays are not the caller's. -/
structure Intact (P : Prims) (s : Shared) (own : Nat → Prop) (K : PrivateKey) (r : KeyRef) : Prop where
  key : s.key = some r
  val : (s.priv r).key = K
  sync : (s.priv r).InSync P
  psync : (s.pub r).InSync
  sep : ∀ a, own a → a ≠ r.sk ∧ a ≠ r.pk ∧ a ≠ r.hash ∧ r.ck ≠ some a ∧ r.pkCk ≠ some a
  ownlt : ∀ a, own a → a < s.mem.length
  lt : r.sk < s.mem.length ∧ r.pk < s.mem.length ∧ r.hash < s.mem.length ∧ (∀ c, r.ck = some c → c < s.mem.length) ∧
    ∀ c, r.pkCk = some c → c < s.mem.length

theorem at_append {s : Shared} {v : List Bytes} {k : Option KeyRef} {a : Nat} (h : a < s.mem.length) :
    ({ mem := s.mem ++ v, key := k } : Shared).at a = s.at a := by
  simp only [Shared.at, List.getD_eq_getElem?_getD, List.getElem?_append_left h]

theorem at_new {s : Shared} {v : Bytes} {k : Option KeyRef} :
    ({ mem := s.mem ++ [v], key := k } : Shared).at s.mem.length = v := by
  simp [Shared.at, List.getD_eq_getElem?_getD]

theorem at_set {s : Shared} {v : Bytes} {k : Option KeyRef} {a b : Nat} (h : b ≠ a) :
    ({ mem := s.mem.set b v, key := k } : Shared).at a = s.at a := by
  simp only [Shared.at, List.getD_eq_getElem?_getD, List.getElem?_set_ne h]

/-- The objects depend on the arrays only. -/
theorem views_eq {s t : Shared} {r : KeyRef} (h1 : t.at r.sk = s.at r.sk) (h2 : t.at r.pk = s.at r.pk)
    (h3 : t.at r.hash = s.at r.hash) (h4 : ∀ c, r.ck = some c → t.at c = s.at c) (h5 : ∀ c, r.pkCk = some c → t.at c = s.at c) :
    t.priv r = s.priv r ∧ t.pub r = s.pub r := by
  have e4 : r.ck.map t.at = r.ck.map s.at := by
    cases h : r.ck with
    | none => rfl
    | some c => simp only [Option.map_some, h4 c h]
  have e5 : r.pkCk.map t.at = r.pkCk.map s.at := by
    cases h : r.pkCk with
    | none => rfl
    | some c => simp only [Option.map_some, h5 c h]
  simp only [Shared.priv, Shared.pub, h1, h2, h3, e4, e5, and_self]

theorem Intact.frame {P : Prims} {s t : Shared} {own own' : Nat → Prop} {K : PrivateKey} {r : KeyRef} (I : Intact P s own K r)
    (hk : t.key = s.key) (hl : s.mem.length ≤ t.mem.length)
    (ha : ∀ a, a < s.mem.length → ¬ own a → t.at a = s.at a)
    (ho : ∀ a, own' a → own a ∨ (s.mem.length ≤ a ∧ a < t.mem.length)) : Intact P t own' K r := by
  obtain ⟨l1, l2, l3, l4, l5⟩ := I.lt
  have v := views_eq (s := s) (t := t) (r := r) (ha _ l1 fun o => (I.sep _ o).1 rfl) (ha _ l2 fun o => (I.sep _ o).2.1 rfl)
    (ha _ l3 fun o => (I.sep _ o).2.2.1 rfl) (fun c h => ha _ (l4 c h) fun o => (I.sep _ o).2.2.2.1 h)
    (fun c h => ha _ (l5 c h) fun o => (I.sep _ o).2.2.2.2 h)
  refine ⟨hk ▸ I.key, by rw [v.1]; exact I.val, by rw [v.1]; exact I.sync, by rw [v.2]; exact I.psync, ?_, ?_, ?_⟩
  · intro a h
    rcases ho a h with h | ⟨h, _⟩
    · exact I.sep a h
    · refine ⟨by omega, by omega, by omega, fun e => ?_, fun e => ?_⟩
      · have := l4 a e; omega
      · have := l5 a e; omega
  · intro a h
    rcases ho a h with h | ⟨_, h⟩
    · exact Nat.lt_of_lt_of_le (I.ownlt a h) hl
    · exact h
  · exact ⟨by omega, by omega, by omega, fun c h => Nat.lt_of_lt_of_le (l4 c h) hl, fun c h => Nat.lt_of_lt_of_le (l5 c h) hl⟩

/-- Filling the cache of the secret. -/
theorem Intact.cacheSK {P : Prims} {s : Shared} {own : Nat → Prop} {K : PrivateKey} {r : KeyRef} (I : Intact P s own K r)
    {o : PrivObj} (ho : o.InSync P) (hk : o.key = K) : Intact P (s.cacheSK r o).1 own K (s.cacheSK r o).2 := by
  unfold Shared.cacheSK
  split
  · next c hr hc =>
    obtain ⟨l1, l2, l3, l4, l5⟩ := I.lt
    have v : ({ mem := s.mem ++ [c], key := some { r with ck := some s.mem.length } } : Shared).priv { r with ck := some s.mem.length } =
        { s.priv r with ck := some c } := by
      simp only [Shared.priv, Option.map_some, at_new, at_append l1, at_append l2, at_append l3]
    have v2 : ({ mem := s.mem ++ [c], key := some { r with ck := some s.mem.length } } : Shared).pub { r with ck := some s.mem.length } =
        s.pub r := by
      have : r.pkCk.map ({ mem := s.mem ++ [c], key := some { r with ck := some s.mem.length } } : Shared).at = r.pkCk.map s.at := by
        cases h : r.pkCk with
        | none => rfl
        | some c => simp only [Option.map_some, at_append (l5 c h)]
      simp only [Shared.pub, Shared.priv, this, at_append l1, at_append l2, at_append l3]
    refine ⟨rfl, by rw [v]; exact I.val, ?_, by rw [v2]; exact I.psync, ?_, ?_, ?_⟩
    · rw [v]
      rcases ho with h | ⟨c', h, h'⟩
      · rw [h] at hc; cases hc
      · rw [hc] at h
        cases h
        refine .inr ⟨c, rfl, ?_⟩
        rw [hk, ← I.val] at h'
        exact h'
    · intro a h
      have := I.sep a h
      refine ⟨this.1, this.2.1, this.2.2.1, ?_, this.2.2.2.2⟩
      intro e
      have := I.ownlt a h
      cases e
      omega
    · intro a h
      have := I.ownlt a h
      simp only [List.length_append, List.length_singleton]
      omega
    · simp only [List.length_append, List.length_singleton]
      refine ⟨by omega, by omega, by omega, ?_, ?_⟩
      · intro c' h; cases h; omega
      · intro c' h; have := l5 c' h; omega
  · exact I

theorem Intact.cachePK {P : Prims} {s : Shared} {own : Nat → Prop} {K : PrivateKey} {r : KeyRef} (I : Intact P s own K r)
    {o : PubObj} (ho : o.InSync) (hk : o.key = K.pub) : Intact P (s.cachePK r o).1 own K (s.cachePK r o).2 := by
  unfold Shared.cachePK
  split
  · next c hr hc =>
    obtain ⟨l1, l2, l3, l4, l5⟩ := I.lt
    have v : ({ mem := s.mem ++ [c], key := some { r with pkCk := some s.mem.length } } : Shared).priv { r with pkCk := some s.mem.length } =
        s.priv r := by
      have : r.ck.map ({ mem := s.mem ++ [c], key := some { r with pkCk := some s.mem.length } } : Shared).at = r.ck.map s.at := by
        cases h : r.ck with
        | none => rfl
        | some c => simp only [Option.map_some, at_append (l4 c h)]
      simp only [Shared.priv, this, at_append l1, at_append l2, at_append l3]
    have v2 : ({ mem := s.mem ++ [c], key := some { r with pkCk := some s.mem.length } } : Shared).pub { r with pkCk := some s.mem.length } =
        { s.pub r with ck := some c } := by
      simp only [Shared.pub, v, Option.map_some, at_new]
    refine ⟨rfl, by rw [v]; exact I.val, by rw [v]; exact I.sync, ?_, ?_, ?_, ?_⟩
    · rw [v2]
      rcases ho with h | h
      · rw [h] at hc; cases hc
      · rw [hc, hk, ← I.val] at h
        exact .inr h
    · intro a h
      have := I.sep a h
      refine ⟨this.1, this.2.1, this.2.2.1, this.2.2.2.1, ?_⟩
      intro e
      have := I.ownlt a h
      cases e
      omega
    · intro a h
      have := I.ownlt a h
      simp only [List.length_append, List.length_singleton]
      omega
    · simp only [List.length_append, List.length_singleton]
      refine ⟨by omega, by omega, by omega, ?_, ?_⟩
      · intro c' h; have := l4 c' h; omega
      · intro c' h; cases h; omega
  · exact I

/-- A step of a caller who writes to his own arrays only. -/
theorem Intact.step {P : Prims} (Y : Yaml) (pem : Bytes → Option PemBlock) {s : Shared} {own : Nat → Prop} {K : PrivateKey} {r : KeyRef}
    (I : Intact P s own K r) (hl : K.pub.pk.length = 32) (op : MemOp) (hw : ∀ a v, op = .write a v → own a)
    (hn : ∀ a pw, op ≠ .load a pw) :
    ∃ r', Intact P (s.step P Y pem op).2
      (fun a => own a ∨ ∃ v, op = .alloc v ∧ (s.step P Y pem op).1 = .slice (.ok a)) K r' := by
  have hp : (s.pub r).key = K.pub := by rw [← I.val]; rfl
  have weaken : (∀ v, op ≠ .alloc v) → (∃ r', Intact P (s.step P Y pem op).2 own K r') →
      ∃ r', Intact P (s.step P Y pem op).2 (fun a => own a ∨ ∃ v, op = .alloc v ∧ (s.step P Y pem op).1 = .slice (.ok a)) K r' := by
    rintro hna ⟨r', J⟩
    exact ⟨r', J.frame rfl (Nat.le_refl _) (fun _ _ _ => rfl) (fun a h => .inl (h.resolve_right (fun ⟨v, e, _⟩ => hna v e)))⟩
  cases op with
  | load a pw => exact absurd rfl (hn a pw)
  | alloc v =>
    refine ⟨r, I.frame rfl (by simp [Shared.step]) (fun a h _ => at_append h) ?_⟩
    rintro a (h | ⟨_, _, h⟩)
    · exact .inl h
    · simp only [Shared.step, MemRes.slice.injEq, Res.ok.injEq] at h
      refine .inr ⟨by omega, ?_⟩
      simp only [Shared.step, List.length_append, List.length_singleton]
      omega
  | write a v =>
    refine weaken (by simp) ⟨r, I.frame rfl (by simp [Shared.step]) (fun b _ hb => at_set ?_) (fun b h => .inl h)⟩
    rintro rfl
    exact hb (hw _ _ rfl)
  | toSK =>
    refine weaken (by simp) ?_
    obtain ⟨c1, c2, c3⟩ := PrivObj.convert_inSync I.sync
    simp only [Shared.step, I.key]
    generalize (s.priv r).convert P = y at c1 c2 c3 ⊢
    obtain ⟨x, o⟩ := y
    dsimp only at c1 c2 c3
    cases x with
    | ok c => exact ⟨_, I.cacheSK c2 (c3.trans I.val)⟩
    | err x => exact ⟨_, I⟩
    | panic x => exact ⟨_, I⟩
  | toPK =>
    refine weaken (by simp) ?_
    have c := PubObj.convert_inSync I.psync (by rw [hp]; omega)
    simp only [Shared.step, I.key]
    generalize (s.pub r).convert = y at c ⊢
    obtain ⟨x, o⟩ := y
    have c2 : o.InSync := by cases c; exact .inr rfl
    have c3 : o.key = (s.pub r).key := by cases c; rfl
    cases x with
    | ok c => exact ⟨_, I.cachePK c2 (c3.trans hp)⟩
    | err x => exact ⟨_, I⟩
    | panic x => exact ⟨_, I⟩
  | hash =>
    refine weaken (by simp) ?_
    simp only [Shared.step, I.key]
    exact ⟨_, I⟩
  | setIn d spk =>
    refine weaken (by simp) ?_
    obtain ⟨_, c2, c3⟩ := setPrivateKeyObj_inSync P d spk I.sync
    simp only [Shared.step, I.key]
    exact ⟨_, I.cacheSK c2 (c3.trans I.val)⟩
  | addTo e rbuf =>
    refine weaken (by simp) ?_
    obtain ⟨_, c2, c3⟩ := addRecipientObj_inSync P e I.psync (by rw [hp]; omega) rbuf _ rfl
    simp only [Shared.step, I.key]
    exact ⟨_, I.cachePK c2 (c3.trans hp)⟩
  | sign ck =>
    refine weaken (by simp) ?_
    simp only [Shared.step, I.key]
    exact ⟨_, I⟩

theorem Intact.run {P : Prims} (Y : Yaml) (pem : Bytes → Option PemBlock) {K : PrivateKey} (hl : K.pub.pk.length = 32)
    (ops : List MemOp) : ∀ (s : Shared) (own : Nat → Prop) (r : KeyRef), Intact P s own K r → OwnArraysOnly P Y pem s own ops →
    ∃ own' r', Intact P (s.run P Y pem ops) own' K r' := by
  induction ops with
  | nil => exact fun s own r I _ => ⟨own, r, I⟩
  | cons op ops ih =>
    intro s own r I h
    obtain ⟨h1, h2, h3⟩ := h
    obtain ⟨r', I'⟩ := I.step Y pem hl op h1 h2
    exact ih _ _ r' I' h3

/-- **C125** (partial).  Make a private key from the bytes in a buffer, in any state of the memory.  The key keeps no reference to
anything the caller had before: whatever he then does, as long as he writes only to arrays he had before or made himself, the key
acts as the key that the buffer held when it was made.  (It hands out its own arrays; the full property, that the caller may write to these
as well, is false: the theorems below.) -/
theorem C125_copies_partial (P : Prims) (Y : Yaml) (pem : Bytes → Option PemBlock) (s : Shared) (a : Nat) (pw : GetPw) (K : PrivateKey)
    (hK : makePrivateKey P Y pem (s.at a) pw = .ok K) (ops : List MemOp)
    (hops : OwnArraysOnly P Y pem (s.step P Y pem (.load a pw)).2 (fun b => b < s.mem.length) ops) :
    let t := (s.step P Y pem (.load a pw)).2.run P Y pem ops
    (∀ d spk, (t.step P Y pem (.setIn d spk)).1 = .setIn (d.setPrivateKey P K spk).1 (d.setPrivateKey P K spk).2) ∧
    (∀ e rbuf, (t.step P Y pem (.addTo e rbuf)).1 = .addTo (e.addRecipient P K.pub rbuf).1 (e.addRecipient P K.pub rbuf).2) ∧
    (∀ ck, (t.step P Y pem (.sign ck)).1 = .sign (signMessage P K ck)) ∧
    (∃ b, (t.step P Y pem .toSK).1 = .slice (.ok b) ∧ (t.step P Y pem .toSK).2.at b = clamp ((P.sha512 (K.sk.take 32)).take 32)) ∧
    (∃ b, (t.step P Y pem .toPK).1 = .slice (.ok b) ∧ (t.step P Y pem .toPK).2.at b = Spec.toMontgomery K.pub.pk) ∧
    (∃ b, (t.step P Y pem .hash).1 = .slice (.ok b) ∧ (t.step P Y pem .hash).2.at b = K.pub.hash) := by
  have hl := C37_private P Y pem _ pw K hK
  have hl2 : K.pub.pk.length = 32 := hl.2.2.1
  have I0 : Intact P (s.step P Y pem (.load a pw)).2 (fun b => b < s.mem.length) K
      { sk := s.mem.length, ck := none, pk := s.mem.length + 1, hash := s.mem.length + 2, pkCk := none, comment := K.pub.comment } := by
    simp only [Shared.step, hK]
    refine ⟨rfl, ?_, .inl rfl, .inl rfl, ?_, ?_, ?_⟩
    · simp [Shared.priv, Shared.at, List.getD_eq_getElem?_getD]
    · intro b h
      simp only [reduceCtorEq, ne_eq, not_false_iff, and_true]
      omega
    · intro b h
      simp only [List.length_append]
      omega
    · simp only [List.length_append, List.length_cons, List.length_nil]
      refine ⟨by omega, by omega, by omega, ?_, ?_⟩ <;> intro c h <;> cases h
  obtain ⟨own', r, I⟩ := I0.run Y pem hl2 ops _ _ _ hops
  intro t
  change Intact P t own' K r at I
  have hp : (t.pub r).key = K.pub := by rw [← I.val]; rfl
  refine ⟨fun d spk => ?_, fun e rbuf => ?_, fun ck => ?_, ?_, ?_, ?_⟩
  · simp only [Shared.step, I.key, (setPrivateKeyObj_inSync P d spk I.sync).1, I.val]
  · simp only [Shared.step, I.key, (addRecipientObj_inSync P e I.psync (by rw [hp]; omega) rbuf K.pub (by rw [hp])).1]
  · simp only [Shared.step, I.key, I.val]
  · have hc : toCurve25519SK P K = .ok (clamp ((P.sha512 (K.sk.take 32)).take 32)) := by
      unfold toCurve25519SK
      rw [if_neg (by omega)]
    simp only [Shared.step, I.key]
    cases hr : r.ck with
    | some c =>
      have hs := I.sync
      simp only [PrivObj.InSync, Shared.priv, hr, Option.map_some, reduceCtorEq, false_or, Option.some.injEq, exists_eq_left'] at hs
      have hv := I.val
      simp only [Shared.priv] at hv
      rw [hv, hc] at hs
      simp only [PrivObj.convert, Shared.priv, hr, Option.map_some, Shared.cacheSK, orErr]
      exact ⟨c, rfl, (Res.ok.inj hs).symm⟩
    | none =>
      have hv := I.val
      simp only [Shared.priv] at hv
      simp only [PrivObj.convert, Shared.priv, hr, Option.map_none, hv, hc, Shared.cacheSK, orErr]
      exact ⟨_, rfl, at_new⟩
  · simp only [Shared.step, I.key]
    have hs := I.psync
    cases hr : r.pkCk with
    | some c =>
      simp only [PubObj.InSync, Shared.pub, hr, Option.map_some, reduceCtorEq, false_or, Option.some.injEq] at hs
      have hv := I.val
      rw [hv] at hs
      simp only [PubObj.convert, Shared.pub, hr, Option.map_some, Shared.cachePK, orErr]
      exact ⟨c, rfl, by rw [hs, toCurve25519PK_eq _ (by omega)]⟩
    | none =>
      have hv := I.val
      simp only [PubObj.convert, Shared.pub, hr, Option.map_none, hv, Shared.cachePK, orErr]
      rw [if_neg (by omega)]
      exact ⟨_, rfl, by rw [at_new, toCurve25519PK_eq _ (by omega)]⟩
  · simp only [Shared.step, I.key]
    exact ⟨_, rfl, by rw [← I.val]; rfl⟩

/-- The search for a wrapped key with an object whose cache holds `z`. -/
theorem findKeyObj_cached (P : Prims) (d : Decryptor) (o : PrivObj) (z : Bytes) (hz : o.ck = some z) :
    ∀ ws, (∃ x, d.findKeyObj P o ws = (.err x, o)) ∨ d.findKeyObj P o ws = (.ok none, o) ∨
      ∃ w ∈ ws, ∃ shared k, P.x25519 z d.hdr.pk = some shared ∧
        P.aeadOpen (wrappingKey P shared d.hdr.salt w.nonce).1 (wrappingKey P shared d.hdr.salt w.nonce).2 w.dkey o.key.pub.pk =
          some k := by
  intro ws
  induction ws with
  | nil => exact .inr (.inl rfl)
  | cons w ws ih =>
    have hc : o.convert P = (.ok z, o) := by unfold PrivObj.convert; rw [hz]
    unfold Decryptor.findKeyObj Decryptor.unwrapKeyObj
    rw [hc]
    dsimp only
    cases hx : P.x25519 z d.hdr.pk with
    | none => exact .inl ⟨_, rfl⟩
    | some shared =>
      dsimp only
      by_cases hl : w.dkey.length ≠ 32 + 16
      · rw [if_pos hl]; exact .inl ⟨_, rfl⟩
      · rw [if_neg hl]
        cases ho : P.aeadOpen (kekOf P shared d.hdr.salt w.nonce).1 (kekOf P shared d.hdr.salt w.nonce).2 w.dkey o.key.pub.pk with
        | some k => exact .inr (.inr ⟨w, List.mem_cons_self, shared, k, rfl, ho⟩)
        | none =>
          rw [hx] at ih
          dsimp only
          rcases ih with h | h | ⟨w', h1, h2⟩
          · exact .inl h
          · exact .inr (.inl h)
          · exact .inr (.inr ⟨w', List.mem_cons_of_mem _ h1, h2⟩)

/-- **C125** is false of the code: `ToCurve25519SK` hands out the secret the key itself works with.  If the caller wipes it when he is
done with it, as one does with secrets, the key object is broken: `SetPrivateKey` fails for every file, unless one of its wrapped keys
opens with the secret that belongs to the all zero scalar. -/
theorem C125_wiped_secret_refuted (P : Prims) (Y : Yaml) (pem : Bytes → Option PemBlock) (s : Shared) (a : Nat) (pw : GetPw)
    (K : PrivateKey) (hK : makePrivateKey P Y pem (s.at a) pw = .ok K) :
    ∃ b, ((s.step P Y pem (.load a pw)).2.step P Y pem .toSK).1 = .slice (.ok b) ∧
      let t := (s.step P Y pem (.load a pw)).2.run P Y pem [.toSK, .write b (List.replicate 32 0)]
      ∀ d spk, (∃ x, (t.step P Y pem (.setIn d spk)).1 = .setIn (.err x) d) ∨
        ∃ w ∈ d.hdr.keys, ∃ shared k, P.x25519 (List.replicate 32 0) d.hdr.pk = some shared ∧
          P.aeadOpen (wrappingKey P shared d.hdr.salt w.nonce).1 (wrappingKey P shared d.hdr.salt w.nonce).2 w.dkey K.pub.pk = some k := by
  have hl := C37_private P Y pem _ pw K hK
  have hc : toCurve25519SK P K = .ok (clamp ((P.sha512 (K.sk.take 32)).take 32)) := by
    unfold toCurve25519SK
    rw [if_neg (by omega)]
  have hv : (Shared.priv { mem := s.mem ++ [K.sk, K.pub.pk, K.pub.hash],
                           key := some { sk := s.mem.length, ck := none, pk := s.mem.length + 1, hash := s.mem.length + 2,
                                         pkCk := none, comment := K.pub.comment } }
      { sk := s.mem.length, ck := none, pk := s.mem.length + 1, hash := s.mem.length + 2, pkCk := none, comment := K.pub.comment }) =
      { key := K, ck := none } := by
    simp [Shared.priv, Shared.at, List.getD_eq_getElem?_getD]
  refine ⟨s.mem.length + 3, ?_, ?_⟩
  · simp only [Shared.step, hK, hv, PrivObj.convert, hc, Shared.cacheSK, orErr, List.length_append, List.length_cons, List.length_nil]
  · intro t d spk
    have ht : t = { mem := s.mem ++ [K.sk, K.pub.pk, K.pub.hash, List.replicate 32 0],
                    key := some { sk := s.mem.length, ck := some (s.mem.length + 3), pk := s.mem.length + 1, hash := s.mem.length + 2,
                                  pkCk := none, comment := K.pub.comment } } := by
      simp only [t, Shared.run, List.foldl, Shared.step, hK, hv, PrivObj.convert, hc, Shared.cacheSK, orErr, List.length_append,
        List.length_cons, List.length_nil, List.append_assoc]
      rw [List.set_append_right _ _ (by omega)]
      simp
    have hp : t.priv { sk := s.mem.length, ck := some (s.mem.length + 3), pk := s.mem.length + 1, hash := s.mem.length + 2, pkCk := none, comment := K.pub.comment } = { key := K, ck := some (List.replicate 32 0) } := by
      rw [ht]
      simp [Shared.priv, Shared.at, List.getD_eq_getElem?_getD]
    have hk : t.key = some { sk := s.mem.length, ck := some (s.mem.length + 3), pk := s.mem.length + 1, hash := s.mem.length + 2, pkCk := none, comment := K.pub.comment } := by rw [ht]
    simp only [Shared.step, hk, hp, Decryptor.setPrivateKeyObj]
    rcases findKeyObj_cached P d { key := K, ck := some (List.replicate 32 0) } _ rfl d.hdr.keys with ⟨x, h⟩ | h | h
    · rw [h]; exact .inl ⟨_, rfl⟩
    · rw [h]; exact .inl ⟨_, rfl⟩
    · exact .inr h

theorem x25519_zero_point (P : Prims) (R : RealX25519 P) (z : Bytes) (hz : z.length = 32) :
    P.x25519 z (List.replicate 32 0) = none := by
  have h := R z (.some 0 0 Ed.two_torsion_nonsingular) hz (by simp)
  have h2 : 2 • (.some 0 0 Ed.two_torsion_nonsingular : curve25519.Point) = 0 := Ed.two_torsion rfl
  have e : scalarOf z • (.some 0 0 Ed.two_torsion_nonsingular : curve25519.Point) = 0 := by
    unfold scalarOf
    rw [show 2^254 + 8 * (leNat z % 2^254 / 8) = (2^253 + 4 * (leNat z % 2^254 / 8)) * 2 by omega, mul_smul, h2, nsmul_zero]
  rw [e] at h
  rw [show List.replicate 32 (0 : UInt8) = encodeU (uOf (.some 0 0 Ed.two_torsion_nonsingular)) by
    simp only [uOf, encodeU, ZMod.val_zero]; decide]
  rw [h]
  rfl

/-- The same with `ToCurve25519PK`: after the caller has cleared what it returned, `AddRecipient` refuses the key, with every
`Encryptor`. -/
theorem C125_wiped_point_refuted (P : Prims) (R : RealX25519 P) (Y : Yaml) (pem : Bytes → Option PemBlock) (s : Shared) (a : Nat)
    (pw : GetPw) (K : PrivateKey) (hK : makePrivateKey P Y pem (s.at a) pw = .ok K) :
    ∃ b, ((s.step P Y pem (.load a pw)).2.step P Y pem .toPK).1 = .slice (.ok b) ∧
      let t := (s.step P Y pem (.load a pw)).2.run P Y pem [.toPK, .write b (List.replicate 32 0)]
      ∀ (e : Encryptor) rbuf, e.encSK.length = 32 → ∃ x, (t.step P Y pem (.addTo e rbuf)).1 = .addTo (.err x) e := by
  have hl := C37_private P Y pem _ pw K hK
  have hv : (Shared.priv { mem := s.mem ++ [K.sk, K.pub.pk, K.pub.hash],
                           key := some { sk := s.mem.length, ck := none, pk := s.mem.length + 1, hash := s.mem.length + 2,
                                         pkCk := none, comment := K.pub.comment } }
      { sk := s.mem.length, ck := none, pk := s.mem.length + 1, hash := s.mem.length + 2, pkCk := none, comment := K.pub.comment }) =
      { key := K, ck := none } := by
    simp [Shared.priv, Shared.at, List.getD_eq_getElem?_getD]
  have hn : ¬ K.pub.pk.length > 32 := by omega
  refine ⟨s.mem.length + 3, ?_, ?_⟩
  · simp only [Shared.step, hK, Shared.pub, hv, PubObj.convert, Option.map_none, hn, if_false, Shared.cachePK, orErr, List.length_append,
      List.length_cons, List.length_nil]
  · intro t e rbuf he
    have ht : t = { mem := s.mem ++ [K.sk, K.pub.pk, K.pub.hash, List.replicate 32 0],
                    key := some { sk := s.mem.length, ck := none, pk := s.mem.length + 1, hash := s.mem.length + 2,
                                  pkCk := some (s.mem.length + 3), comment := K.pub.comment } } := by
      simp only [t, Shared.run, List.foldl, Shared.step, hK, Shared.pub, hv, PubObj.convert, Option.map_none, hn, if_false,
        Shared.cachePK, orErr, List.length_append, List.length_cons, List.length_nil, List.append_assoc]
      rw [List.set_append_right _ _ (by omega)]
      simp
    have hp : t.pub { sk := s.mem.length, ck := none, pk := s.mem.length + 1, hash := s.mem.length + 2, pkCk := some (s.mem.length + 3), comment := K.pub.comment } = { key := K.pub, ck := some (List.replicate 32 0) } := by
      rw [ht]
      simp [Shared.pub, Shared.priv, Shared.at, List.getD_eq_getElem?_getD]
    have hk : t.key = some { sk := s.mem.length, ck := none, pk := s.mem.length + 1, hash := s.mem.length + 2, pkCk := some (s.mem.length + 3), comment := K.pub.comment } := by rw [ht]
    simp only [Shared.step, hk, hp, Encryptor.addRecipientObj, Encryptor.wrapKeyObj, PubObj.convert, x25519_zero_point P R _ he]
    cases e.started
    · exact ⟨_, rfl⟩
    · exact ⟨_, rfl⟩

/-- The same with `Hash`: after the caller has written to the hash, signatures of the key name another key.  They verify, but do not
match the public key, so that `sigtool verify` refuses them. -/
theorem C125_changed_hash_refuted (P : Prims) (Y : Yaml) (pem : Bytes → Option PemBlock) (s : Shared) (a : Nat) (pw : GetPw)
    (K : PrivateKey) (hK : makePrivateKey P Y pem (s.at a) pw = .ok K) (v : Bytes) (hv : v ≠ K.pub.hash) :
    ∃ b, ((s.step P Y pem (.load a pw)).2.step P Y pem .hash).1 = .slice (.ok b) ∧
      let t := (s.step P Y pem (.load a pw)).2.run P Y pem [.hash, .write b v]
      ∀ ck, ∃ sig sig', signMessage P K ck = .ok sig ∧ (t.step P Y pem (.sign ck)).1 = .sign (.ok sig') ∧ sig'.sig = sig.sig ∧
        isPKMatch K.pub sig = true ∧ isPKMatch K.pub sig' = false := by
  have hl := C37_private P Y pem _ pw K hK
  refine ⟨s.mem.length + 2, ?_, ?_⟩
  · simp only [Shared.step, hK]
  · intro t ck
    have ht : t = { mem := s.mem ++ [K.sk, K.pub.pk, v],
                    key := some { sk := s.mem.length, ck := none, pk := s.mem.length + 1, hash := s.mem.length + 2,
                                  pkCk := none, comment := K.pub.comment } } := by
      simp only [t, Shared.run, List.foldl, Shared.step, hK]
      rw [List.set_append_right _ _ (by omega)]
      simp
    have hp : (t.priv { sk := s.mem.length, ck := none, pk := s.mem.length + 1, hash := s.mem.length + 2, pkCk := none, comment := K.pub.comment }).key = { K with pub := { K.pub with hash := v } } := by
      rw [ht]
      simp [Shared.priv, Shared.at, List.getD_eq_getElem?_getD]
    have hk : t.key = some { sk := s.mem.length, ck := none, pk := s.mem.length + 1, hash := s.mem.length + 2, pkCk := none, comment := K.pub.comment } := by rw [ht]
    have hs : ¬ K.sk.length ≠ 64 := by omega
    refine ⟨{ sig := P.edSign K.sk (signDigest P ck), pkhash := K.pub.hash }, { sig := P.edSign K.sk (signDigest P ck), pkhash := v },
      ?_, ?_, rfl, ?_, ?_⟩
    · simp only [signMessage, hs, if_false]
    · simp only [Shared.step, hk, hp, signMessage, hs, if_false]
    · simp [isPKMatch, ctEq]
    · simp only [isPKMatch, ctEq]
      simpa using fun h : K.pub.hash = v => hv h.symm

/-! ### Examples -/

namespace AliasDemo

/-- Bob's key as text, and the memory of a program that has read it into a buffer. -/
def text : Bytes := match Demo.bob.marshal toyPrims toyYaml [] [] (List.replicate 32 3) with | .ok t => t | _ => []
def start : Shared := { mem := [[1, 2, 3], text], key := none }

/-- The header of a file for Bob and Carol. -/
def d0 : Decryptor :=
  match setupEncryptor toyPrims none 4 Demo.coins Demo.rcpts with
  | .ok e => { hdr := e.hdr, hdrsum := [], rd := ⟨[], .eof, true⟩ }
  | _ => { hdr := { chunkSize := 0, salt := [], pk := [], sender := [] }, hdrsum := [], rd := ⟨[], .eof, true⟩ }

/-- The hypotheses of `C125_copies_partial`: a caller who clears the buffer with the text, makes a new one and writes to it, and asks the
key for all it hands out. -/
example : (∃ K, makePrivateKey toyPrims toyYaml (fun _ => none) (start.at 1) none = .ok K) ∧
    OwnArraysOnly toyPrims toyYaml (fun _ => none) (start.step toyPrims toyYaml (fun _ => none) (.load 1 none)).2
      (fun b => b < start.mem.length)
      [.write 1 [0, 0], .toSK, .alloc [1, 2, 3], .write 6 [4, 5, 6], .toPK, .hash, .sign [1], .setIn d0 none] := by
  have hK : makePrivateKey toyPrims toyYaml (fun _ => none) (start.at 1) none = .ok Demo.bob := by decide +kernel
  refine ⟨⟨_, hK⟩, ?_⟩
  have hc : toCurve25519SK toyPrims Demo.bob = .ok (clamp ((toyPrims.sha512 (Demo.bob.sk.take 32)).take 32)) := rfl
  simp only [OwnArraysOnly, and_true, ne_eq, reduceCtorEq, not_false_iff, implies_true, true_and, MemOp.write.injEq, and_imp, false_implies, false_and,
    exists_false, or_false, MemOp.alloc.injEq]
  have e : (start.step toyPrims toyYaml (fun _ => none) (.load 1 none)).2 =
      { mem := start.mem ++ [Demo.bob.sk, Demo.bob.pub.pk, Demo.bob.pub.hash],
        key := some { sk := 2, ck := none, pk := 3, hash := 4, pkCk := none, comment := Demo.bob.pub.comment } } := by
    simp only [Shared.step, hK]
    rfl
  rw [e]
  refine ⟨?_, ?_⟩
  · rintro a v rfl rfl
    decide
  · rintro a v rfl rfl
    exact .inr ⟨[1, 2, 3], rfl, rfl⟩

/-- `SetPrivateKey` returned nil. -/
def opened : MemRes → Bool
  | .setIn r _ => r = .ok ()
  | _ => false

/-- The toy primitives, with another shared secret for the all zero scalar (which is not clamped, so that the laws do not speak of it). -/
def prims : Prims :=
  { toyPrims with
    x25519 := fun s p =>
      if s.length = 32 ∧ p.length = 32 then some (List.replicate 32 (if s = List.replicate 32 0 then 6 else 5)) else none }

/-- The unharmed key opens the file; after `ToCurve25519SK` and wiping the result it does not. -/
example :
    let s := (start.step prims toyYaml (fun _ => none) (.load 1 none)).2
    let s' := s.run prims toyYaml (fun _ => none) [.toSK, .write 5 (List.replicate 32 0)]
    opened (s.step prims toyYaml (fun _ => none) (.setIn d0 none)).1 = true ∧
    opened (s'.step prims toyYaml (fun _ => none) (.setIn d0 none)).1 = false := by
  decide +kernel

end AliasDemo

end Sigtool
