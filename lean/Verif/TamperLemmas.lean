import Verif.Spec.Adversary
import Verif.Props.AnyBody
/-! # TamperLemmas: comparing an accepted body with the genuine one -/

namespace Sigtool
open Spec (encryptChunks streamChunks lengthWord sealedChunk sealedBody macInput headerPart sessionKeys container
  headerBytes wrappingKey wrapFor unwrapAs WrapForgery ChunkForgery)

theorem lengthWord_inj (a b : Nat) (l m : Bool) (ha : a < 2^31) (hb : b < 2^31)
    (h : lengthWord a l = lengthWord b m) : a = b ∧ l = m := by
  have h1 := congrArg be32dec h
  simp only [lengthWord] at h1
  have e1 := be32dec_be32 (a + if l = true then 2 ^ 31 else 0) []
  have e2 := be32dec_be32 (b + if m = true then 2 ^ 31 else 0) []
  rw [List.append_nil] at e1 e2
  rw [e1, e2] at h1
  cases l <;> cases m <;> simp at h1 ⊢ <;> omega


/-- Without forgeries, the chunks accepted before the end are the sender's first chunks, and none of them is the
sender's last. -/
theorem opens_genuine (P : Prims) (dkey nonce : Bytes) (chunks : List Bytes) (body : Bytes) (cs : Nat) (hcs : cs < 2^30)
    (hn : chunks.length ≤ 2^32) (hnf : ¬ ChunkForgery P dkey nonce chunks body) :
    ∀ (mid : List Bytes) (i : Nat), i < chunks.length → OpensAt P dkey nonce i mid → MidOk cs mid →
    sealedMid P dkey nonce i mid <:+: body →
    i + mid.length < chunks.length ∧ mid = (chunks.drop i).take mid.length := by
  intro mid
  induction mid with
  | nil => intro i hi _ _ _; exact ⟨hi, by simp⟩
  | cons c t ih =>
    intro i hi ho hm hin
    have hc := hm c (by simp)
    have key : chunks[i]? = some c ∧ lengthWord c.length false = lengthWord c.length (decide (i + 1 = chunks.length)) := by
      by_contra hcon
      apply hnf
      refine ⟨i, lengthWord c.length false, _, c, by omega, lengthWord_length _ _, ?_, ho.1, hcon⟩
      obtain ⟨s, u, hsu⟩ := hin
      refine ⟨s, sealedMid P dkey nonce (i+1) t ++ u, ?_⟩
      rw [← hsu]
      simp [sealedMid, sealedChunk]
    obtain ⟨k1, k2⟩ := key
    have k3 := (lengthWord_inj _ _ _ _ (by omega) (by omega) k2).2
    have hlt : i + 1 < chunks.length := by
      have : i + 1 ≠ chunks.length := by simpa using k3.symm
      omega
    obtain ⟨g1, g2⟩ := ih (i+1) hlt ho.2 (fun x hx => hm x (List.mem_cons_of_mem _ hx)) (by
      obtain ⟨s, u, hsu⟩ := hin
      refine ⟨s ++ sealedChunk P dkey nonce i false c, u, ?_⟩
      rw [← hsu]; simp [sealedMid])
    refine ⟨by simp; omega, ?_⟩
    have hd : chunks.drop i = c :: chunks.drop (i+1) := by
      rw [List.drop_eq_getElem_cons hi]
      rw [List.getElem?_eq_getElem hi] at k1
      rw [Option.some.inj k1]
    rw [hd, List.length_cons, List.take_succ_cons, ← g2]

theorem flatten_take_prefix (cs : List Bytes) (k : Nat) : (cs.take k).flatten <+: cs.flatten := by
  refine ⟨(cs.drop k).flatten, ?_⟩
  rw [← List.flatten_append, List.take_append_drop]

theorem flatten_take_snoc_prefix (cs : List Bytes) (k : Nat) (c p : Bytes) (h : cs[k]? = some c) (hp : p <+: c) :
    (cs.take k).flatten ++ p <+: cs.flatten := by
  have hk : k < cs.length := by
    by_contra hc
    rw [List.getElem?_eq_none (by omega)] at h; cases h
  have : cs.take (k+1) = cs.take k ++ [c] := by
    rw [List.take_add_one, h]; rfl
  refine List.IsPrefix.trans ?_ (flatten_take_prefix cs (k+1))
  rw [this]
  simpa using hp

/-- What a complete analysis of `Decrypt` on an arbitrary body says in the absence of AEAD forgeries. -/
inductive Accepts (P : Prims) (dkey nonce : Bytes) (chunks : List Bytes) (body : Bytes) : Res Unit → Bytes → Prop where
  /-- everything was written, and a 64-byte trailer followed -/
  | all (tr rest : Bytes) (htr : tr.length = 64)
      (hb : body = sealedBody P dkey nonce 0 chunks ++ (tr ++ rest)) : Accepts P dkey nonce chunks body (.ok ()) chunks.flatten
  /-- the first `k` chunks (not counting the last) were written and then the end marker of length zero was found -/
  | cut (k : Nat) (rest : Bytes) (hk : k < chunks.length)
      (hb : body = sealedMid P dkey nonce 0 (chunks.take k) ++ (lengthWord 0 true ++ rest)) :
      Accepts P dkey nonce chunks body (.ok ()) (chunks.take k).flatten
  /-- an error, and a prefix was written -/
  | failed (x : Err) (p : Bytes) (hp : p <+: chunks.flatten) : Accepts P dkey nonce chunks body (.err x) p

theorem opened_any (P : Prims) (L : Laws P) (d : Decryptor) (key dkey hk : Bytes) (hr : d.Ready dkey hk [])
    (hkey : d.key = some key) (hst : d.stream = false) (he : d.eof = false) (wr : Writer) :
    ∃ r d' wr', d.decrypt P wr = (r, d', wr') ∧ DecOutcome P d 0 dkey hk [] wr r d' wr' := by
  obtain ⟨r, d', wr', g1, g2⟩ := decryptLoop_outcome P L _ _ (d.rd.content.length + 1) d wr 0 [] hr (by omega)
  refine ⟨r, d', wr', ?_, g2⟩
  unfold Decryptor.decrypt
  rw [hkey]
  simp only [hst, he, Bool.false_eq_true, if_false]
  exact g1

theorem outcome_accepts (P : Prims) (d : Decryptor) (dkey hk : Bytes) (hr : d.Ready dkey hk [])
    (wr wr' : Writer) (r : Res Unit) (d' : Decryptor) (h : DecOutcome P d 0 dkey hk [] wr r d' wr')
    (chunks : List Bytes) (hne : chunks ≠ []) (hn : chunks.length ≤ 2^32)
    (hnf : ¬ ChunkForgery P dkey d.nonce chunks d.rd.content) :
    ∃ p, wr'.out = wr.out ++ p ∧ Accepts P dkey d.nonce chunks d.rd.content r p := by
  have hpos : 0 < chunks.length := List.length_pos_iff.mpr hne
  have hcs := hr.chunk
  have gen := opens_genuine P dkey d.nonce chunks d.rd.content d.hdr.chunkSize hcs hn hnf
  have last : ∀ (mid : List Bytes) (c : Bytes) (l : Bool) (rest : Bytes), mid.length < chunks.length →
      c.length ≤ d.hdr.chunkSize →
      P.aeadOpen dkey (be32 (0 + mid.length) ++ d.nonce.drop 4)
        (P.aeadSeal dkey (be32 (0 + mid.length) ++ d.nonce.drop 4) c (lengthWord c.length l)) (lengthWord c.length l) = some c →
      d.rd.content = sealedMid P dkey d.nonce 0 mid ++ (sealedChunk P dkey d.nonce (0 + mid.length) l c ++ rest) →
      chunks[mid.length]? = some c ∧ l = decide (mid.length + 1 = chunks.length) := by
    intro mid c l rest hm hc ho hrd
    by_contra hcon
    apply hnf
    rw [Nat.zero_add] at ho
    refine ⟨mid.length, _, _, c, by omega, lengthWord_length _ _, ?_, ho, ?_⟩
    · refine ⟨sealedMid P dkey d.nonce 0 mid, rest, ?_⟩
      rw [hrd, sealedChunk, Nat.zero_add]; simp
    · rintro ⟨h1, h2⟩
      exact hcon ⟨h1, (lengthWord_inj _ _ _ _ (by omega) (by omega) h2).2⟩
  cases h with
  | endedEmpty mid rest _ _ hm ho hrd hw _ _ _ =>
    obtain ⟨g1, g2⟩ := gen mid 0 hpos ho hm (by rw [hrd]; exact ⟨[], _, by simp; rfl⟩)
    simp only [Nat.zero_add, List.drop_zero] at g1 g2
    refine ⟨mid.flatten, hw.out, ?_⟩
    have := Accepts.cut (P := P) (dkey := dkey) (nonce := d.nonce) (chunks := chunks) (body := d.rd.content) mid.length rest g1
      (by rw [← g2]; exact hrd)
    rwa [← g2] at this
  | endedFull mid fin tr rest _ _ hm ho hf0 hf htr hof hver hrd hw _ _ _ =>
    obtain ⟨g1, g2⟩ := gen mid 0 hpos ho hm (by rw [hrd]; exact ⟨[], _, by simp; rfl⟩)
    simp only [Nat.zero_add, List.drop_zero] at g1 g2
    obtain ⟨g3, g4⟩ := last mid fin true _ g1 hf hof hrd
    have g5 : mid.length + 1 = chunks.length := by simpa using g4
    have g6 : chunks = mid ++ [fin] := by
      have h1 : chunks = chunks.take (mid.length + 1) := by rw [List.take_of_length_le (by omega)]
      rw [List.take_add_one, g3, ← g2] at h1
      exact h1
    refine ⟨mid.flatten ++ fin, hw.out, ?_⟩
    have := Accepts.all (P := P) (dkey := dkey) (nonce := d.nonce) (chunks := chunks) (body := d.rd.content) tr rest htr
      (by rw [hrd, g6, sealedBody_snoc]; simp)
    rw [g6] at this ⊢
    simpa using this
  | badInput x mid rest _ _ hm ho hrd hw _ _ =>
    obtain ⟨g1, g2⟩ := gen mid 0 hpos ho hm (by rw [hrd]; exact ⟨[], _, by simp; rfl⟩)
    simp only [Nat.zero_add, List.drop_zero] at g1 g2
    exact ⟨mid.flatten, hw.out, .failed _ _ (by rw [g2]; exact flatten_take_prefix _ _)⟩
  | writeFailed x mid c rest p l _ _ hm ho hc hoc hrd hw hp hx _ _ =>
    obtain ⟨g1, g2⟩ := gen mid 0 hpos ho hm (by rw [hrd]; exact ⟨[], _, by simp; rfl⟩)
    simp only [Nat.zero_add, List.drop_zero] at g1 g2
    obtain ⟨g3, g4⟩ := last mid c l _ g1 hc.2 hoc hrd
    refine ⟨mid.flatten ++ p, hw.out, .failed _ _ ?_⟩
    rw [g2]
    exact flatten_take_snoc_prefix _ _ _ _ g3 hp

end Sigtool
