import Verif.Props.DecAttack
import Verif.Props.DecCrash
import Verif.Props.Witness
/-!
# DecWitness: concrete histories that meet the hypotheses of C61-C65
-/

namespace Sigtool
open Spec (lengthWord WrapForgery)

/-- Carol opens Alice's demo container, decrypts it, tries again, and asks for a stream reader.  The first `Decrypt` delivers
the six bytes and Alice counts as authenticated; the program keeps to the rules of C63. -/
theorem Demo.decHistory : ∃ d0 rd rd' s, newDecryptor toyPrims rd = (.ok d0, rd') ∧
    DecHistory toyPrims d0 [⟨.setKey Demo.carol (some Demo.alice.pub), .ok (), [], true⟩,
      ⟨.decrypt Demo.dest, .ok (), [1, 2, 3, 4, 5, 6], true⟩, ⟨.decrypt Demo.dest, .err .eof, [], true⟩,
      ⟨.openReader, .err .eof, [], true⟩] s ∧
    Careful [⟨.setKey Demo.carol (some Demo.alice.pub), .ok (), [], true⟩,
      ⟨.decrypt Demo.dest, .ok (), [1, 2, 3, 4, 5, 6], true⟩, ⟨.decrypt Demo.dest, .err .eof, [], true⟩,
      ⟨.openReader, .err .eof, [], true⟩] := by
  obtain ⟨e, bytes, d, d', out', hs, g1, hauth1, g2, g3⟩ := Demo.opened
  obtain ⟨d0, rd', a1, a2⟩ := setup_split g1
  obtain ⟨same, _⟩ := decrypt_only toyPrims _ _ _ _ _ g2
  have hauth : d'.auth = true := by rw [same.auth]; exact hauth1
  have t1 : ({ dec := d0 } : DecState).step toyPrims (.setKey Demo.carol (some Demo.alice.pub)) =
      some (⟨.setKey Demo.carol (some Demo.alice.pub), .ok (), [], true⟩, ⟨d, [List.replicate d.bufLen 0], 0, []⟩) := by
    unfold DecState.step; dsimp only; rw [a2, ← hauth1]; rfl
  have t2 : ∃ b, (⟨d, [List.replicate d.bufLen 0], 0, []⟩ : DecState).step toyPrims (.decrypt Demo.dest) =
      some (⟨.decrypt Demo.dest, .ok (), [1, 2, 3, 4, 5, 6], true⟩, ⟨d', b, 0, []⟩) := by
    unfold DecState.step; dsimp only; rw [g2]; dsimp only
    rw [g3, hauth]
    exact ⟨_, rfl⟩
  obtain ⟨b, t2⟩ := t2
  have H0 : DecHistory toyPrims d0 [] { dec := d0 } := .start
  have H1 := H0.call (by simp) t1
  have H2 := H1.call (by simp [Res.isPanic]) t2
  obtain ⟨q1, q2⟩ := (C64_order toyPrims _ _ _ a1 _ _ H2).2 (Or.inl ⟨⟨.decrypt Demo.dest, .ok (), [1, 2, 3, 4, 5, 6], true⟩,
    by simp, ⟨_, rfl⟩, rfl⟩)
  have hk : d'.key ≠ none := by
    rw [same.key]
    obtain ⟨key, hk⟩ := setPrivateKey_ok toyPrims d0 d _ _ a2
    rw [hk.state]; simp
  have he : d'.eof = true := (decrypt_only toyPrims _ _ _ _ _ g2).2.2.2 rfl
  have hst : d'.stream = false := by
    rw [same.stream]
    obtain ⟨key, hk⟩ := setPrivateKey_ok toyPrims d0 d _ _ a2
    rw [hk.state]
    exact (newDecryptor_fresh toyPrims _ _ _ a1).2.2.2.1
  have hd := (C19_guards toyPrims d' Demo.dest).2.2.1 hk hst he
  have t3 : ∃ b', (⟨d', b, 0, []⟩ : DecState).step toyPrims (.decrypt Demo.dest) =
      some (⟨.decrypt Demo.dest, .err .eof, [], true⟩, ⟨d', b', 0, []⟩) := by
    unfold DecState.step; dsimp only; rw [hd]; dsimp only
    rw [hauth]
    exact ⟨_, rfl⟩
  obtain ⟨b', t3⟩ := t3
  have H3 := H2.call (by simp [Res.isPanic]) t3
  have t4 : (⟨d', b', 0, []⟩ : DecState).step toyPrims .openReader =
      some (⟨.openReader, .err .eof, [], true⟩, ⟨d', b', 0, []⟩) := by
    unfold DecState.step; dsimp only; rw [(C19_guards toyPrims d' Demo.dest).2.2.2.1 hk he]; dsimp only [Res.unit]
    rw [hauth]
  have H4 := H3.call (by simp [Res.isPanic]) t4
  refine ⟨d0, _, rd', _, a1, H4, ?_⟩
  refine ⟨?_, ?_, ?_, ?_⟩
  · intro v hv sk spk h
    simp only [List.mem_cons, List.not_mem_nil, or_false] at hv
    rcases hv with rfl | rfl | rfl | rfl <;> cases h
    decide
  · intro v hv sk spk h
    simp only [List.mem_cons, List.not_mem_nil, or_false] at hv
    rcases hv with rfl | rfl | rfl | rfl <;> cases h
    decide
  · left
    intro v hv sk spk h
    simp only [List.mem_cons, List.not_mem_nil, or_false] at hv
    rcases hv with rfl | rfl | rfl | rfl <;> cases h
    simp
  · intro pre v post sk spk x h1 h2 h3
    have hv : v ∈ pre ++ v :: post := by simp
    rw [← h1] at hv
    simp only [List.mem_cons, List.not_mem_nil, or_false] at hv
    rcases hv with rfl | rfl | rfl | rfl <;> cases h2
    cases h3

/-- The two-reader attack on the demo container: the attacker's nines arrive as plaintext. -/
example : ∃ d0 rd rd' evs s x, newDecryptor toyPrims rd = (.ok d0, rd') ∧ DecHistory toyPrims d0 evs s ∧
    evs.map (fun v => (v.op, v.res, v.delivered)) =
      [(.setKey Demo.carol (some Demo.alice.pub), .ok (), []), (.openReader, .ok (), []), (.openReader, .ok (), []),
       (.read 0 1, .ok (), [1]), (.read 1 1, .err x, []), (.read 0 4, .ok (), [9, 9, 9])] := by
  obtain ⟨e, bytes, hs⟩ := Demo.sending_stream
  rcases C61_two_readers_refuted toyPrims toyLaws _ _ _ _ e _ _ _ _ bytes hs (by decide) Demo.carol _ _ Demo.receiving
    [9, 9, 9, 9] (by decide) (by decide) with g | ⟨n, g⟩
  · exact absurd g Demo.no_forgery
  · obtain ⟨d0, rd', evs, s, x, g1, g2, g3⟩ := g ⟨[bytes.take n ++ (lengthWord 4 false ++ [9, 9, 9, 9])], .eof, false⟩
      (by simp [Reader.content])
    exact ⟨d0, _, rd', evs, s, x, g1, g2, g3⟩

/-- After a failed `SetPrivateKey` without a sender, Alice still counts as authenticated. -/
example : ∃ d0 rd rd' s, newDecryptor toyPrims rd = (.ok d0, rd') ∧
    DecHistory toyPrims d0 [⟨.setKey Demo.carol (some Demo.alice.pub), .ok (), [], true⟩,
      ⟨.setKey Demo.carol none, .err (.wrap "decrypt" .noSenderPK), [], true⟩] s := by
  obtain ⟨e, bytes, hs⟩ := Demo.sending_stream
  rcases C62_stale_refuted toyPrims toyLaws _ _ _ _ e _ _ bytes hs Demo.carol _ _ Demo.receiving
    ⟨[bytes], .eof, false⟩ (by simp [Reader.content]) with g | ⟨d0, rd', s, g1, g2⟩
  · exact absurd g Demo.no_forgery
  · exact ⟨d0, _, rd', s, g1, g2⟩

/-- C61 and C62 applied to Carol's history: her six bytes come from frames that open, and Alice's signature is in the
header. -/
example : ∃ d0 : Decryptor, ∃ key pk, Spec.SenderProof toyPrims d0.hdr key pk := by
  obtain ⟨d0, rd, rd', s, h1, h2, _⟩ := Demo.decHistory
  obtain ⟨v, _, sk, pk, key, _, _, _, h3⟩ := C62_authenticated_partial toyPrims rd rd' d0 h1
    [⟨.setKey Demo.carol (some Demo.alice.pub), .ok (), [], true⟩,
      ⟨.decrypt Demo.dest, .ok (), [1, 2, 3, 4, 5, 6], true⟩, ⟨.decrypt Demo.dest, .err .eof, [], true⟩]
    ⟨.openReader, .err .eof, [], true⟩ s h2 rfl
  exact ⟨d0, key, pk, h3⟩

end Sigtool
