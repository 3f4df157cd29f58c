import Verif.DecHistoryLemmas
/-! # DecInv: what holds after any sequence of calls on a `Decryptor` -/

namespace Sigtool
open Spec (lengthWord sessionKeys unwrapAs senderSeal senderStatement ValidSignature unsigned OpensFor SenderProof)

/-- Everything one `Read` can do, in terms of the decryptor. -/
inductive ReadCase (P : Prims) (s : DecState) (k : Nat) (r : MemReader) (cap : Nat) : Res Bytes → DecState → Prop where
  | stuck (x : Err) (hx : r.err = some x) : ReadCase P s k r cap (.err x) s
  | buffered (he : r.err = none) (hu : 0 < r.unread.len) :
      ReadCase P s k r cap (.ok ((r.unread.bytes s.heap).take cap))
        { s with readers := s.readers.set k { r with unread := ⟨r.unread.buf, r.unread.off + min cap r.unread.len,
                                                                r.unread.len - min cap r.unread.len⟩ } }
  | ended (he : r.err = none) (hu : r.unread.len = 0) (heof : s.dec.eof = true) :
      ReadCase P s k r cap (.err .eof) { s with readers := s.readers.set k { r with err := some .eof } }
  | failed (x : Err) (d : Decryptor) (he : r.err = none) (hu : r.unread.len = 0) (heof : s.dec.eof = false)
      (hb : s.dec.decryptBlock P r.blk = (.err x, d)) :
      ReadCase P s k r cap (.err x) { s with dec := d, heap := s.heap.set s.cur (s.dec.bufAfter P r.blk s.buf)
                                             readers := s.readers.set k { r with err := some x } }
  | crashed (x : String) (d : Decryptor) (he : r.err = none) (hu : r.unread.len = 0) (heof : s.dec.eof = false)
      (hb : s.dec.decryptBlock P r.blk = (.panic x, d)) :
      ReadCase P s k r cap (.panic x) { s with dec := d, heap := s.heap.set s.cur (s.dec.bufAfter P r.blk s.buf) }
  | empty (eof : Bool) (d : Decryptor) (he : r.err = none) (hu : r.unread.len = 0) (heof : s.dec.eof = false)
      (hb : s.dec.decryptBlock P r.blk = (.ok ([], eof), d)) :
      ReadCase P s k r cap (.err .eof)
        { s with dec := { d with eof := eof }, heap := s.heap.set s.cur (s.dec.bufAfter P r.blk s.buf)
                 readers := s.readers.set k { unread := ⟨s.cur, 0, 0⟩, blk := (r.blk + 1) % 2^32, err := some .eof } }
  | fresh (pt : Bytes) (eof : Bool) (d : Decryptor) (he : r.err = none) (hu : r.unread.len = 0) (heof : s.dec.eof = false)
      (hpt : 0 < pt.length) (hb : s.dec.decryptBlock P r.blk = (.ok (pt, eof), d)) :
      ReadCase P s k r cap
        (.ok (((⟨s.cur, 0, pt.length⟩ : Slice).bytes (s.heap.set s.cur (s.dec.bufAfter P r.blk s.buf))).take cap))
        { s with dec := { d with eof := eof }, heap := s.heap.set s.cur (s.dec.bufAfter P r.blk s.buf)
                 readers := s.readers.set k { unread := ⟨s.cur, 0 + min cap pt.length, pt.length - min cap pt.length⟩
                                              blk := (r.blk + 1) % 2^32, err := none } }

theorem read_case (P : Prims) (s : DecState) (k : Nat) (r : MemReader) (cap : Nat) :
    ReadCase P s k r cap (s.read P k r cap).1 (s.read P k r cap).2 := by
  unfold DecState.read
  cases he : r.err with
  | some x => exact .stuck x he
  | none =>
    dsimp only
    by_cases hu : r.unread.len = 0
    · rw [if_pos hu]
      cases heof : s.dec.eof with
      | true => simp only [if_true]; exact .ended he hu heof
      | false =>
        simp only [Bool.false_eq_true, if_false]
        rcases hb : s.dec.decryptBlock P r.blk with ⟨res, d⟩
        cases res with
        | err x => exact .failed x d he hu heof hb
        | panic x => exact .crashed x d he hu heof hb
        | ok ce =>
          obtain ⟨pt, eof⟩ := ce
          dsimp only
          by_cases hp : 0 < pt.length
          · simp only [gt_iff_lt, hp, if_true]
            exact .fresh pt eof d he hu heof hp hb
          · have : pt = [] := List.length_eq_zero_iff.mp (by omega)
            subst this
            simp only [List.length_nil, gt_iff_lt, Nat.lt_irrefl, if_false]
            exact .empty eof d he hu heof hb
    · rw [if_neg hu]
      have : r.unread.len > 0 := by omega
      simp only [this, if_true]
      exact .buffered he this

/-- The invariant. -/
structure DecInv (P : Prims) (d0 : Decryptor) (evs : List DecEvent) (s : DecState) : Prop where
  hdr : s.dec.hdr = d0.hdr
  hdrsum : s.dec.hdrsum = d0.hdrsum
  rd : s.dec.rd.content <:+ inputOf d0.rd evs
  cipher : s.dec.ae = none ∨ ∃ ev ∈ evs, ∃ sk spk key, ev.op = .setKey sk spk ∧ ev.res = .ok () ∧ OpensFor P d0.hdr sk key ∧
    s.dec.ae = some (sessionKeys P key d0.hdrsum).2.1 ∧ s.dec.nonce = (sessionKeys P key d0.hdrsum).1 ∧
    s.dec.bufLen = d0.hdr.chunkSize + 16 ∧ s.cur < s.heap.length
  auth : s.dec.auth = true → ∃ ev ∈ evs, ∃ sk pk key, ev.op = .setKey sk (some pk) ∧ ev.res = .ok () ∧
    OpensFor P d0.hdr sk key ∧ SenderProof P d0.hdr key pk
  keyed : s.dec.key = none → s.dec.ae = none ∧ s.readers = []
  stream : s.readers ≠ [] → s.dec.stream = true

theorem DecInv.mono {P : Prims} {d0 : Decryptor} {evs : List DecEvent} {s s' : DecState} {ev : DecEvent}
    (h : DecInv P d0 evs s) (hsame : s.dec.Same s'.dec) (hrd : s'.dec.rd.content <:+ s.dec.rd.content)
    (hcur : s'.cur = s.cur) (hheap : s'.heap.length = s.heap.length) (hrs : s.readers = [] ↔ s'.readers = [])
    (hop : ∀ r, ev.op ≠ .more r := by intro r; simp) :
    DecInv P d0 (evs ++ [ev]) s' where
  hdr := hsame.hdr.trans h.hdr
  hdrsum := hsame.hdrsum.trans h.hdrsum
  rd := by rw [inputOf_call _ _ _ hop]; exact hrd.trans h.rd
  cipher := by
    rcases h.cipher with g | ⟨v, hv, sk, spk, key, g1, g2, g3, g4, g5, g6, g7⟩
    · left; rw [hsame.ae, g]
    · right
      exact ⟨v, by simp [hv], sk, spk, key, g1, g2, g3, by rw [hsame.ae, g4], by rw [hsame.nonce, g5],
        by rw [hsame.bufLen, g6], by rw [hcur, hheap]; exact g7⟩
  auth := by
    intro ha
    rw [hsame.auth] at ha
    obtain ⟨v, hv, rest⟩ := h.auth ha
    exact ⟨v, by simp [hv], rest⟩
  keyed := by
    intro hk
    rw [hsame.key] at hk
    obtain ⟨g1, g2⟩ := h.keyed hk
    exact ⟨by rw [hsame.ae, g1], hrs.mp g2⟩
  stream := by
    intro hr
    rw [hsame.stream]
    exact h.stream (fun hh => hr (hrs.mp hh))

theorem DecInv.start (P : Prims) {rd rd' : Reader} {d0 : Decryptor} (h : newDecryptor P rd = (.ok d0, rd')) :
    DecInv P d0 [] { dec := d0 } := by
  obtain ⟨h1, h2, h3, h4, h5, h6, h7⟩ := newDecryptor_fresh P rd rd' d0 h
  exact ⟨rfl, rfl, by simp [inputOf], Or.inl h5, by simp [h2], fun _ => ⟨h5, rfl⟩, by simp⟩

theorem setKey_step (P : Prims) {d0 : Decryptor} {evs : List DecEvent} {s s' : DecState} {ev : DecEvent}
    {sk : PrivateKey} {spk : Option PublicKey}
    (h : DecInv P d0 evs s) (hstep : s.step P (.setKey sk spk) = some (ev, s')) :
    DecInv P d0 (evs ++ [ev]) s' := by
  unfold DecState.step at hstep
  dsimp only at hstep
  rcases setPrivateKey_cases P s.dec sk spk with ⟨x, h1, h2⟩ | ⟨x, h1, h2⟩ | ⟨h1, h2⟩ | ⟨key, h1, h2⟩
  · rw [h2] at hstep; cases hstep; exact h.mono (.refl _) (List.suffix_refl _) rfl rfl Iff.rfl
  · rw [h2] at hstep; cases hstep; exact h.mono (.refl _) (List.suffix_refl _) rfl rfl Iff.rfl
  · rw [h2] at hstep; cases hstep; exact h.mono (.refl _) (List.suffix_refl _) rfl rfl Iff.rfl
  · have hopen : OpensFor P d0.hdr sk key := by
      have := findKey_opens P s.dec sk key _ h1
      rw [h.hdr] at this; exact this
    cases hv : ({ s.dec with key := some key, sender := spk } : Decryptor).verifySender P key spk with
    | err x =>
      rw [h2, hv] at hstep; cases hstep
      have g := h.mono (ev := ⟨.setKey sk spk, .err (.wrap "decrypt" x), [], s.dec.auth⟩) (.refl _) (List.suffix_refl _)
        rfl rfl Iff.rfl
      exact ⟨g.hdr, g.hdrsum, g.rd, g.cipher, g.auth, (by intro hk; cases hk), g.stream⟩
    | panic x =>
      rw [h2, hv] at hstep; cases hstep
      have g := h.mono (ev := ⟨.setKey sk spk, .panic x, [], s.dec.auth⟩) (.refl _) (List.suffix_refl _)
        rfl rfl Iff.rfl
      exact ⟨g.hdr, g.hdrsum, g.rd, g.cipher, g.auth, (by intro hk; cases hk), g.stream⟩
    | ok a =>
      rw [h2, hv] at hstep
      dsimp only at hstep
      cases hstep
      obtain ⟨sig, k1, k2⟩ := verifySender_ok P _ _ _ _ hv
      refine ⟨h.hdr, h.hdrsum, by rw [inputOf_call _ _ _ (by intro r; simp)]; exact h.rd, ?_, ?_, (by intro hk; cases hk), h.stream⟩
      · right
        refine ⟨_, by simp; right; rfl, sk, spk, key, rfl, rfl, hopen, ?_, ?_, ?_, by simp⟩
        · simp only [h.hdrsum]
        · simp only [h.hdrsum]
        · simp only [h.hdr]
      · intro ha
        dsimp only at ha
        rcases k2 with ⟨_, k3⟩ | ⟨k3, k4, pk, k5, k6, k7⟩
        · dsimp only at k3
          rw [k3] at ha
          obtain ⟨v, hv, rest⟩ := h.auth ha
          exact ⟨v, by simp [hv], rest⟩
        · subst k5
          refine ⟨_, by simp; right; rfl, sk, pk, key, rfl, rfl, hopen, sig, ?_, k3, ?_⟩
          · rw [← h.hdr]; exact k1
          · rw [← h.hdr]; exact k7

theorem more_inv (P : Prims) {d0 : Decryptor} {evs : List DecEvent} {s s' : DecState} {ev : DecEvent} {rd : Reader}
    (h : DecInv P d0 evs s) (hstep : s.step P (.more rd) = some (ev, s')) : DecInv P d0 (evs ++ [ev]) s' := by
  obtain ⟨g1, rfl, rfl⟩ := step_more hstep
  refine ⟨h.hdr, h.hdrsum, ?_, ?_, ?_, h.keyed, h.stream⟩
  · rw [inputOf_snoc]; exact List.suffix_append _ _
  · rcases h.cipher with g | ⟨v, hv, rest⟩
    · exact Or.inl g
    · exact Or.inr ⟨v, by simp [hv], rest⟩
  · intro ha
    obtain ⟨v, hv, rest⟩ := h.auth ha
    exact ⟨v, by simp [hv], rest⟩

theorem step_inv (P : Prims) {d0 : Decryptor} {evs : List DecEvent} {s s' : DecState} {ev : DecEvent} {op : DecOp}
    (h : DecInv P d0 evs s) (hstep : s.step P op = some (ev, s')) : DecInv P d0 (evs ++ [ev]) s' := by
  cases op with
  | setKey sk spk => exact setKey_step P h hstep
  | decrypt wr =>
    unfold DecState.step at hstep
    dsimp only at hstep
    rcases hd : s.dec.decrypt P wr with ⟨r, d, wr'⟩
    rw [hd] at hstep
    cases hstep
    obtain ⟨g1, g2, _⟩ := decrypt_only P _ _ _ _ _ hd
    exact h.mono g1 g2 rfl (by simp) Iff.rfl
  | openReader =>
    unfold DecState.step at hstep
    dsimp only at hstep
    unfold Decryptor.newStreamReader at hstep
    cases hk : s.dec.key with
    | none => rw [hk] at hstep; cases hstep; exact h.mono (.refl _) (List.suffix_refl _) rfl rfl Iff.rfl
    | some k =>
      rw [hk] at hstep
      dsimp only at hstep
      split at hstep
      · cases hstep; exact h.mono (.refl _) (List.suffix_refl _) rfl rfl Iff.rfl
      · cases hstep
        have g := h.mono (ev := ⟨.openReader, .ok (), [], s.dec.auth⟩) (.refl _) (List.suffix_refl _) rfl rfl Iff.rfl
        exact ⟨g.hdr, g.hdrsum, g.rd, g.cipher, g.auth, (by intro hh; cases hh), (by intro _; rfl)⟩
  | read k cap =>
    unfold DecState.step at hstep
    dsimp only at hstep
    cases hr : s.readers[k]? with
    | none => rw [hr] at hstep; cases hstep
    | some r =>
      rw [hr] at hstep
      dsimp only at hstep
      have rc := read_case P s k r cap
      have hb := decryptBlock_only P s.dec r.blk
      rcases hq : s.read P k r cap with ⟨res, s1⟩
      rw [hq] at hstep rc
      cases hstep
      have hset : ∀ x : MemReader, s.readers = [] ↔ s.readers.set k x = [] := by
        intro x; simp
      dsimp only at rc
      cases rc with
      | stuck x hx => exact h.mono (.refl _) (List.suffix_refl _) rfl rfl Iff.rfl
      | buffered he hu => exact h.mono (.refl _) (List.suffix_refl _) rfl rfl (hset _)
      | ended he hu heof => exact h.mono (.refl _) (List.suffix_refl _) rfl rfl (hset _)
      | failed x d he hu heof hbb =>
        rw [hbb] at hb; exact h.mono hb.1 hb.2.2 rfl (by simp) (hset _)
      | crashed x d he hu heof hbb =>
        rw [hbb] at hb; exact h.mono hb.1 hb.2.2 rfl (by simp) Iff.rfl
      | empty eof d he hu heof hbb =>
        rw [hbb] at hb
        have := hb.1
        exact h.mono ⟨this.hdr, this.hdrsum, this.ae, this.sender, this.bufLen, this.nonce, this.key, this.auth,
          this.stream⟩ hb.2.2 rfl (by simp) (hset _)
      | fresh pt eof d he hu heof hpt hbb =>
        rw [hbb] at hb
        have := hb.1
        exact h.mono ⟨this.hdr, this.hdrsum, this.ae, this.sender, this.bufLen, this.nonce, this.key, this.auth,
          this.stream⟩ hb.2.2 rfl (by simp) (hset _)
  | more rd => exact more_inv P h hstep

theorem DecHistory.inv {P : Prims} {rd rd' : Reader} {d0 : Decryptor} (h0 : newDecryptor P rd = (.ok d0, rd'))
    {evs : List DecEvent} {s : DecState} (h : DecHistory P d0 evs s) : DecInv P d0 evs s := by
  induction h with
  | start => exact .start P h0
  | @call _ _ _ op _ _ _ hstep ih => exact step_inv P ih hstep

/-! ## One call, by kind -/

theorem step_decrypt {P : Prims} {s s' : DecState} {ev : DecEvent} {wr : Writer}
    (h : s.step P (.decrypt wr) = some (ev, s')) : ∃ r d wr' buf, s.dec.decrypt P wr = (r, d, wr') ∧
      ev = { op := .decrypt wr, res := r, delivered := wr'.out.drop wr.out.length, auth := d.auth } ∧
      s' = { s with dec := d, heap := s.heap.set s.cur buf } ∧ (s.dec.stream = true → buf = s.buf) := by
  unfold DecState.step at h
  rcases hd : s.dec.decrypt P wr with ⟨r, d, wr'⟩
  simp only [hd, Option.some.injEq, Prod.mk.injEq] at h
  exact ⟨r, d, wr', _, rfl, h.1.symm, h.2.symm, by intro hs; simp [hs]⟩

theorem step_open {P : Prims} {s s' : DecState} {ev : DecEvent} (h : s.step P .openReader = some (ev, s')) :
    (s.dec.key = none ∧ ev = { op := .openReader, res := .err .noKey, auth := s.dec.auth } ∧ s' = s) ∨
    (s.dec.key ≠ none ∧ s.dec.eof = true ∧ ev = { op := .openReader, res := .err .eof, auth := s.dec.auth } ∧ s' = s) ∨
    (s.dec.key ≠ none ∧ s.dec.eof = false ∧ ev = { op := .openReader, res := .ok (), auth := s.dec.auth } ∧
      s' = { s with dec := { s.dec with stream := true }, readers := s.readers ++ [{}] }) := by
  unfold DecState.step Decryptor.newStreamReader at h
  dsimp only at h
  cases hk : s.dec.key with
  | none =>
    rw [hk] at h; cases h
    exact Or.inl ⟨rfl, rfl, rfl⟩
  | some k =>
    rw [hk] at h
    dsimp only at h
    right
    split at h
    · rename_i he
      cases h
      exact Or.inl ⟨by simp, he, rfl, rfl⟩
    · rename_i he
      cases h
      exact Or.inr ⟨by simp, by simpa using he, rfl, by dsimp only; rw [hk]⟩

theorem step_read {P : Prims} {s s' : DecState} {ev : DecEvent} {k cap : Nat} (h : s.step P (.read k cap) = some (ev, s')) :
    ∃ r res, s.readers[k]? = some r ∧ ReadCase P s k r cap res s' ∧
      ev = { op := .read k cap, res := res.unit, delivered := (match res with | .ok b => b | _ => []), auth := s'.dec.auth } := by
  unfold DecState.step at h
  dsimp only at h
  cases hr : s.readers[k]? with
  | none => rw [hr] at h; cases h
  | some r =>
    rw [hr] at h
    have rc := read_case P s k r cap
    rcases hq : s.read P k r cap with ⟨res, s1⟩
    simp only [hq, Option.some.injEq, Prod.mk.injEq] at h
    rw [hq] at rc
    obtain ⟨h1, h2⟩ := h
    subst h2
    exact ⟨r, res, rfl, rc, h1.symm⟩

theorem step_setKey {P : Prims} {s s' : DecState} {ev : DecEvent} {sk : PrivateKey} {spk : Option PublicKey}
    (h : s.step P (.setKey sk spk) = some (ev, s')) : ∃ r d more, s.dec.setPrivateKey P sk spk = (r, d) ∧
      ev = { op := .setKey sk spk, res := r, auth := d.auth } ∧ s'.dec = d ∧ s'.readers = s.readers ∧
      s'.heap = s.heap ++ more ∧ d.rd = s.dec.rd ∧ d.eof = s.dec.eof ∧ d.stream = s.dec.stream ∧
      (r ≠ .ok () → more = [] ∧ s'.cur = s.cur) ∧
      (r = .ok () → more = [List.replicate d.bufLen 0] ∧ s'.cur = s.heap.length) ∧
      (s.dec.key ≠ none → d.key ≠ none) := by
  have frame : ∀ r d, s.dec.setPrivateKey P sk spk = (r, d) → d.rd = s.dec.rd ∧ d.eof = s.dec.eof ∧
      d.stream = s.dec.stream ∧ (s.dec.key ≠ none → d.key ≠ none) := by
    intro r d hs
    rcases setPrivateKey_cases P s.dec sk spk with ⟨x, _, h2⟩ | ⟨x, _, h2⟩ | ⟨_, h2⟩ | ⟨key, _, h2⟩
    · rw [h2] at hs; cases hs; exact ⟨rfl, rfl, rfl, id⟩
    · rw [h2] at hs; cases hs; exact ⟨rfl, rfl, rfl, id⟩
    · rw [h2] at hs; cases hs; exact ⟨rfl, rfl, rfl, id⟩
    · rw [hs] at h2
      cases hv : ({ s.dec with key := some key, sender := spk } : Decryptor).verifySender P key spk with
      | err x => rw [hv] at h2; cases h2; exact ⟨rfl, rfl, rfl, by simp⟩
      | panic x => rw [hv] at h2; cases h2; exact ⟨rfl, rfl, rfl, by simp⟩
      | ok a => rw [hv] at h2; cases h2; exact ⟨rfl, rfl, rfl, by simp⟩
  unfold DecState.step at h
  dsimp only at h
  rcases hs : s.dec.setPrivateKey P sk spk with ⟨r, d⟩
  obtain ⟨f1, f2, f3, f4⟩ := frame r d hs
  rw [hs] at h
  cases r with
  | ok u =>
    cases h
    exact ⟨_, d, _, rfl, rfl, rfl, rfl, rfl, f1, f2, f3, by simp, fun _ => ⟨rfl, rfl⟩, f4⟩
  | err x =>
    cases h
    exact ⟨_, d, [], rfl, rfl, rfl, rfl, by simp, f1, f2, f3, fun _ => ⟨rfl, rfl⟩, by simp, f4⟩
  | panic x =>
    cases h
    exact ⟨_, d, [], rfl, rfl, rfl, rfl, by simp, f1, f2, f3, fun _ => ⟨rfl, rfl⟩, by simp, f4⟩

end Sigtool
