import Verif.Props.DecHistory
import Verif.Props.Accepts
import Verif.Props.DecWitness
/-! # Exactly when `AuthenticatedSender()` is true (C62) -/

namespace Sigtool
open Spec

/-- Calls other than `SetPrivateKey` change neither the flag nor the header. -/
theorem step_other {P : Prims} {s s' : DecState} {ev : DecEvent} {op : DecOp} (h : s.step P op = some (ev, s'))
    (hop : ∀ sk spk, op ≠ .setKey sk spk) : s'.dec.auth = s.dec.auth ∧ s'.dec.hdr = s.dec.hdr := by
  cases op with
  | setKey sk spk => exact absurd rfl (hop sk spk)
  | decrypt wr =>
    obtain ⟨r, d, wr', buf, h1, _, h3, _⟩ := step_decrypt h
    obtain ⟨g1, _⟩ := decrypt_only P _ _ _ _ _ h1
    rw [h3]
    exact ⟨g1.auth, g1.hdr⟩
  | openReader =>
    rcases step_open h with ⟨_, _, h3⟩ | ⟨_, _, _, h3⟩ | ⟨_, _, _, h3⟩ <;> rw [h3] <;> exact ⟨rfl, rfl⟩
  | more rd => obtain ⟨_, _, h3⟩ := step_more h; rw [h3]; exact ⟨rfl, rfl⟩
  | read k cap =>
    obtain ⟨r, res, _, rc, _⟩ := step_read h
    have hb := decryptBlock_only P s.dec r.blk
    cases rc with
    | stuck x hx => exact ⟨rfl, rfl⟩
    | buffered he hu => exact ⟨rfl, rfl⟩
    | ended he hu heof => exact ⟨rfl, rfl⟩
    | failed x d he hu heof hbb => rw [hbb] at hb; exact ⟨hb.1.auth, hb.1.hdr⟩
    | crashed x d he hu heof hbb => rw [hbb] at hb; exact ⟨hb.1.auth, hb.1.hdr⟩
    | empty eof d he hu heof hbb => rw [hbb] at hb; exact ⟨hb.1.auth, hb.1.hdr⟩
    | fresh pt eof d he hu heof hpt hbb => rw [hbb] at hb; exact ⟨hb.1.auth, hb.1.hdr⟩

theorem dec_step_op {P : Prims} {s s' : DecState} {ev : DecEvent} {op : DecOp} (h : s.step P op = some (ev, s')) : ev.op = op := by
  cases op with
  | setKey sk spk => obtain ⟨r, d, more, _, h2, _⟩ := step_setKey h; rw [h2]
  | decrypt wr => obtain ⟨r, d, wr', buf, _, h2, _⟩ := step_decrypt h; rw [h2]
  | openReader => rcases step_open h with ⟨_, h2, _⟩ | ⟨_, _, h2, _⟩ | ⟨_, _, h2, _⟩ <;> rw [h2]
  | read k cap => obtain ⟨r, res, _, _, h3⟩ := step_read h; rw [h3]
  | more rd => obtain ⟨_, h2, _⟩ := step_more h; rw [h2]

/-- **C62** (exact).  In any history, `AuthenticatedSender()` is true if and only if some `SetPrivateKey` up to then named a sender
key and returned nil, and the header's sender field, opened with the root key this call found (that of the first wrapped key that
opens), is a signature by that sender over this header. -/
theorem C62_exact (P : Prims) (rd rd' : Reader) (d0 : Decryptor) (h0 : newDecryptor P rd = (.ok d0, rd'))
    (evs : List DecEvent) (s : DecState) (h : DecHistory P d0 evs s)
    (hk : ∀ v ∈ evs, ∀ sk spk, v.op = .setKey sk spk → 32 ≤ sk.sk.length) :
    s.dec.auth = true ↔ ∃ v ∈ evs, ∃ sk pk key, v.op = .setKey sk (some pk) ∧ v.res = .ok () ∧ FirstOpened P d0.hdr sk key ∧
      SenderProof P d0.hdr key pk := by
  have hall : ∀ {evs s}, DecHistory P d0 evs s → (∀ v ∈ evs, ∀ sk spk, v.op = .setKey sk spk → 32 ≤ sk.sk.length) →
      (s.dec.auth = true ↔ ∃ v ∈ evs, ∃ sk pk key, v.op = .setKey sk (some pk) ∧ v.res = .ok () ∧ FirstOpened P d0.hdr sk key ∧
      SenderProof P d0.hdr key pk) := by
    intro evs s h
    induction h with
    | start =>
      intro _
      have := (newDecryptor_fresh P rd rd' d0 h0).2.1
      simp [this]
    | @call evs s s' op ev h live hstep ih =>
      intro hk
      have ih := ih (fun v hv => hk v (by simp [hv]))
      have hhdr := (h.inv h0).hdr
      by_cases hop : ∃ sk spk, op = .setKey sk spk
      · obtain ⟨sk, spk, rfl⟩ := hop
        obtain ⟨r, d, more, h1, h2, h3, _⟩ := step_setKey hstep
        have hl : 32 ≤ sk.sk.length := hk ev (by simp) sk spk (by rw [h2])
        have hev : ev.op = .setKey sk spk := by rw [h2]
        have hres : ev.res = r := by rw [h2]
        have keep : d.auth = s.dec.auth → (¬ ∃ pk key, spk = some pk ∧ r = .ok () ∧ FirstOpened P d0.hdr sk key ∧ SenderProof P d0.hdr key pk) →
            (s'.dec.auth = true ↔ ∃ v ∈ evs ++ [ev], ∃ sk pk key, v.op = .setKey sk (some pk) ∧ v.res = .ok () ∧
              FirstOpened P d0.hdr sk key ∧ SenderProof P d0.hdr key pk) := by
          intro ha hn
          rw [h3, ha, ih]
          constructor
          · rintro ⟨v, hv, rest⟩; exact ⟨v, by simp [hv], rest⟩
          · rintro ⟨v, hv, sk', pk', key', g1, g2, g3, g4⟩
            rcases List.mem_append.mp hv with hv | hv
            · exact ⟨v, hv, sk', pk', key', g1, g2, g3, g4⟩
            · rw [List.mem_singleton] at hv
              subst hv
              rw [hev] at g1
              cases g1
              exact absurd ⟨pk', key', rfl, hres ▸ g2, g3, g4⟩ hn
        rcases setPrivateKey_cases P s.dec sk spk with ⟨x, _, g⟩ | ⟨x, _, g⟩ | ⟨_, g⟩ | ⟨key, f, g⟩
        · rw [h1] at g; cases g; exact keep rfl (by rintro ⟨_, _, _, h, _⟩; cases h)
        · rw [h1] at g; cases g; exact keep rfl (by rintro ⟨_, _, _, h, _⟩; cases h)
        · rw [h1] at g; cases g; exact keep rfl (by rintro ⟨_, _, _, h, _⟩; cases h)
        · rw [h1] at g
          cases hv : ({ s.dec with key := some key, sender := spk } : Decryptor).verifySender P key spk with
          | err x => rw [hv] at g; cases g; exact keep rfl (by rintro ⟨_, _, _, h, _⟩; cases h)
          | panic x => rw [hv] at g; cases g; exact keep rfl (by rintro ⟨_, _, _, h, _⟩; cases h)
          | ok a =>
            rw [hv] at g
            dsimp only at g
            obtain ⟨rfl, rfl⟩ := Prod.mk.inj g
            have hfirst := (findKey_iff P s.dec sk hl key _).mp f
            rw [hhdr] at hfirst
            obtain ⟨sig, k1, k2⟩ := verifySender_ok P _ _ _ _ hv
            dsimp only at k1 k2
            rw [hhdr] at k1 k2
            rcases k2 with ⟨k3, k4⟩ | ⟨k3, k4, pk, k5, k6, k7⟩
            · refine keep k4 ?_
              rintro ⟨pk', key', rfl, _, q3, q4⟩
              have f' := (findKey_iff P s.dec sk hl key' _).mpr (hhdr ▸ q3)
              rw [f] at f'
              cases f'
              obtain ⟨sig', q5, q6, _⟩ := q4
              have q5 : P.aeadOpen (senderKey P key d0.hdr.salt).1 (senderKey P key d0.hdr.salt).2 d0.hdr.sender [] = some sig' := q5
              rw [k1] at q5
              cases q5
              exact q6 k3
            · rw [h3]
              refine ⟨fun _ => ⟨ev, by simp, sk, pk, key, by rw [hev, k5], hres, hfirst, sig, k1, k3, k7⟩, fun _ => k4⟩
      · have hop : ∀ sk spk, op ≠ .setKey sk spk := fun sk spk e => hop ⟨sk, spk, e⟩
        have hev : ev.op = op := dec_step_op hstep
        rw [(step_other hstep hop).1, ih]
        constructor
        · rintro ⟨v, hv, rest⟩; exact ⟨v, by simp [hv], rest⟩
        · rintro ⟨v, hv, sk', pk', key', g1, g2⟩
          rcases List.mem_append.mp hv with hv | hv
          · exact ⟨v, hv, sk', pk', key', g1, g2⟩
          · rw [List.mem_singleton] at hv
            subst hv
            exact absurd (hev.symm.trans g1) (hop _ _)
  exact hall h hk

/-- The hypotheses are met by Carol's history, in which Alice is authenticated. -/
example : ∃ d0 : Decryptor, ∃ key, SenderProof toyPrims d0.hdr key Demo.alice.pub ∧ FirstOpened toyPrims d0.hdr Demo.carol key := by
  obtain ⟨d0, rd, rd', s, h1, h2, _⟩ := Demo.decHistory
  have hs : s.dec.auth = true := by
    have last : ∀ {evs s}, DecHistory toyPrims d0 evs s → ∀ ev, evs.getLast? = some ev → s.dec.auth = ev.auth := by
      intro evs s h ev he
      cases h with
      | start => simp at he
      | call _ _ hstep =>
        simp only [List.getLast?_append, List.getLast?_singleton, Option.some_or, Option.some.injEq] at he
        subst he
        exact (step_auth hstep).symm
    exact last h2 _ rfl
  obtain ⟨v, hv, sk, pk, key, e1, e2, e3, e4⟩ := (C62_exact toyPrims rd rd' d0 h1 _ s h2 (by
    intro v hv sk spk e
    simp only [List.mem_cons, List.not_mem_nil, or_false, List.cons_append, List.nil_append] at hv
    rcases hv with rfl | rfl | rfl | rfl <;> cases e
    decide)).mp hs
  simp only [List.mem_cons, List.not_mem_nil, or_false] at hv
  rcases hv with rfl | rfl | rfl | rfl <;> cases e1
  exact ⟨d0, key, e4, e3⟩

end Sigtool
