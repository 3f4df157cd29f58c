import Verif.DecGeneral
/-! # HeaderLemmas: what `NewDecryptor` accepts, for an arbitrary input -/

namespace Sigtool
open Spec (lengthWord sealedChunk sealedBody macInput sessionKeys)

/-- An accepted input. -/
structure Accepted (P : Prims) (rd : Reader) (d : Decryptor) (rd' : Reader) (hb : Bytes) : Prop where
  content : rd.content = ascii "SigTool" ++ [3] ++ be32 hb.length ++ hb ++
    P.sha256 (ascii "SigTool" ++ [3] ++ be32 hb.length ++ hb) ++ rd'.content
  lo : 32 ≤ hb.length
  hi : hb.length ≤ 1048576
  decoded : Proto.Header.unmarshal hb = .ok d.hdr
  checked : checkHeader d.hdr = none
  state : d = { hdr := d.hdr, rd := rd', hdrsum := P.sha256 (ascii "SigTool" ++ [3] ++ be32 hb.length ++ hb) }
  last : rd'.last = rd.last

theorem newDecryptor_ok (P : Prims) (rd : Reader) (d : Decryptor) (rd' : Reader)
    (h : newDecryptor P rd = (.ok d, rd')) : ∃ hb, Accepted P rd d rd' hb := by
  unfold newDecryptor at h
  rcases readFull_any rd 12 with ⟨b, rd1, h1, h2, h3, hl1⟩ | ⟨b, x, rd1, h1, h2, _⟩
  · rw [h1] at h
    dsimp only at h
    split at h
    · cases h
    · rename_i hmagic
      split at h
      · cases h
      · rename_i hver
        split at h
        · cases h
        · rename_i hbig
          split at h
          · cases h
          · rename_i hsmall
            generalize hn : be32dec (b.drop 8) = n at h hbig hsmall
            rcases readFull_any rd1 (n + 32) with ⟨v, rd2, k1, k2, k3, hl2⟩ | ⟨v, x, rd2, k1, k2, _⟩
            · rw [k1] at h
              dsimp only at h
              split at h
              · cases h
              · rename_i hck
                cases hu : Proto.Header.unmarshal (v.take n) with
                | err x => rw [hu] at h; cases h
                | panic x => rw [hu] at h; cases h
                | ok hd =>
                  rw [hu] at h
                  dsimp only at h
                  cases hc : checkHeader hd with
                  | some x => rw [hc] at h; cases h
                  | none =>
                    rw [hc] at h
                    simp only [Prod.mk.injEq, Res.ok.injEq] at h
                    obtain ⟨hd1, hd2⟩ := h
                    have hb12 : b = ascii "SigTool" ++ [3] ++ be32 n := by
                      have hv : b[7]? = some 3 := by simpa [version] using hver
                      have e1 : b = b.take 7 ++ b.drop 7 := (List.take_append_drop 7 b).symm
                      have e2 : b.drop 7 = 3 :: b.drop 8 := by
                        have h7 : 7 < b.length := by omega
                        rw [List.drop_eq_getElem_cons h7]
                        rw [List.getElem?_eq_getElem h7] at hv
                        rw [Option.some.inj hv]
                      have e3 : be32 n = b.drop 8 := by
                        rw [← hn]; exact be32_be32dec _ (by simp; omega)
                      have e4 : b.take 7 = ascii "SigTool" := by simpa [magic] using hmagic
                      rw [e3]
                      rw [← e4, List.append_assoc]
                      conv_lhs => rw [e1, e2]
                      rfl
                    have hlen : (v.take n).length = n := by simp; omega
                    refine ⟨v.take n, ?_⟩
                    have hck' : v.drop n = P.sha256 (b ++ v.take n) := by
                      simpa [ctEq] using hck
                    subst hd1 hd2
                    refine ⟨?_, by omega, by omega, hu, hc, ?_, by rw [hl2, hl1]⟩
                    · rw [hlen, ← hb12, ← hck', h3, k3]
                      simp only [List.append_assoc]
                      rw [← List.append_assoc (v.take n), List.take_append_drop]
                    · rw [hlen, ← hb12]
            · rw [k1] at h; cases h
  · rw [h1] at h; cases h

theorem newDecryptor_noPanic (P : Prims) (rd : Reader) : ∀ why, (newDecryptor P rd).1 ≠ .panic why := by
  intro why h
  unfold newDecryptor at h
  rcases readFull_any rd 12 with ⟨b, rd1, h1, h2, h3, hl1⟩ | ⟨b, x, rd1, h1, h2, _⟩
  · rw [h1] at h
    dsimp only at h
    split at h
    · cases h
    · split at h
      · cases h
      · split at h
        · cases h
        · split at h
          · cases h
          · generalize hn : be32dec (b.drop 8) = n at h
            rcases readFull_any rd1 (n + 32) with ⟨v, rd2, k1, k2, k3, hl2⟩ | ⟨v, x, rd2, k1, k2, _⟩
            · rw [k1] at h
              dsimp only at h
              split at h
              · cases h
              · have hnp := Proto.header_unmarshal_noPanic (v.take n)
                cases hu : Proto.Header.unmarshal (v.take n) with
                | err x => rw [hu] at h; cases h
                | panic x => rw [hu] at hnp; cases hnp
                | ok hd =>
                  rw [hu] at h
                  dsimp only at h
                  split at h <;> cases h
            · rw [k1] at h; cases h
  · rw [h1] at h; cases h

/-- Whatever happens, the input is consumed from the front and by no more than the declared size allows. -/
theorem newDecryptor_consumes (P : Prims) (rd : Reader) :
    ∃ used, rd.content = used ++ (newDecryptor P rd).2.content ∧
      used.length ≤ 12 + (if be32dec (rd.content.drop 8) ≤ 1048576 then be32dec (rd.content.drop 8) + 32 else 0) := by
  unfold newDecryptor
  rcases readFull_any rd 12 with ⟨b, rd1, h1, h2, h3, hl1⟩ | ⟨b, x, rd1, h1, h2, _, h4, _⟩
  · rw [h1]
    dsimp only
    have hdec : be32dec (rd.content.drop 8) = be32dec (b.drop 8) := by
      rw [h3, List.drop_append_of_le_length (by omega)]
      have h8 : (b.drop 8).length = 4 := by simp; omega
      match hb : b.drop 8, h8 with
      | [p, q, r, s], _ => rfl
    rw [hdec]
    split
    · exact ⟨b, h3, by omega⟩
    · split
      · exact ⟨b, h3, by omega⟩
      · split
        · exact ⟨b, h3, by omega⟩
        · rename_i hbig
          split
          · exact ⟨b, h3, by omega⟩
          · generalize hn : be32dec (b.drop 8) = n at hbig
            rcases readFull_any rd1 (n + 32) with ⟨v, rd2, k1, k2, k3, hl2⟩ | ⟨v, x, rd2, k1, k2, _, k4, _⟩
            · rw [k1]
              dsimp only
              have key : ∀ rd3 : Reader, rd3 = rd2 → ∃ used, rd.content = used ++ rd3.content ∧
                  used.length ≤ 12 + (if n ≤ 1048576 then n + 32 else 0) := by
                rintro _ rfl
                refine ⟨b ++ v, by rw [h3, k3]; simp, ?_⟩
                rw [if_pos (by omega)]; simp; omega
              apply key
              split
              · rfl
              · split
                · rfl
                · rfl
                · split <;> rfl
            · rw [k1]
              refine ⟨rd.content, by rw [k2]; simp, ?_⟩
              rw [if_pos (by omega), h3]; simp; omega
  · rw [h1]
    exact ⟨rd.content, by rw [h2]; simp, by omega⟩

/-- What `SetPrivateKey` on a new decryptor leaves behind when it returns nil. -/
structure KeySet (P : Prims) (d0 d : Decryptor) (sk : PrivateKey) (spk : Option PublicKey) (key : Bytes) : Prop where
  found : d0.findKey P sk d0.hdr.keys = .ok (some key)
  verified : ({ d0 with key := some key, sender := spk } : Decryptor).verifySender P key spk = .ok d.auth
  state : d = { d0 with key := some key, sender := spk, auth := d.auth
                        nonce := (sessionKeys P key d0.hdrsum).1, ae := some (sessionKeys P key d0.hdrsum).2.1
                        hmac := some ((sessionKeys P key d0.hdrsum).2.2, []), bufLen := d0.hdr.chunkSize + 16 }

theorem setPrivateKey_ok (P : Prims) (d0 d : Decryptor) (sk : PrivateKey) (spk : Option PublicKey)
    (h : d0.setPrivateKey P sk spk = (.ok (), d)) : ∃ key, KeySet P d0 d sk spk key := by
  unfold Decryptor.setPrivateKey at h
  cases hf : d0.findKey P sk d0.hdr.keys with
  | err x => rw [hf] at h; cases h
  | panic x => rw [hf] at h; cases h
  | ok o =>
    rw [hf] at h
    cases o with
    | none => cases h
    | some key =>
      dsimp only at h
      cases hv : ({ d0 with key := some key, sender := spk } : Decryptor).verifySender P key spk with
      | err x => rw [hv] at h; cases h
      | panic x => rw [hv] at h; cases h
      | ok a =>
        rw [hv] at h
        simp only [dataKeys_eq, Prod.mk.injEq, true_and] at h
        refine ⟨key, hf, ?_, ?_⟩
        · rw [hv, ← h]
        · rw [← h]

/-- The sender check can only set the flag after a real signature check against a 32-byte key. -/
theorem verifySender_ok (P : Prims) (d : Decryptor) (key : Bytes) (spk : Option PublicKey) (a : Bool)
    (h : d.verifySender P key spk = .ok a) :
    ∃ sig, P.aeadOpen (senderKey P key d.hdr.salt).1 (senderKey P key d.hdr.salt).2 d.hdr.sender [] = some sig ∧
      ((sig = List.replicate 64 0 ∧ a = d.auth) ∨
       (sig ≠ List.replicate 64 0 ∧ a = true ∧ ∃ pk, spk = some pk ∧ pk.pk.length = 32 ∧
          P.edVerify pk.pk (signDigest P (senderDigest P d.hdr.pk d.hdr.salt key)) sig = true)) := by
  unfold Decryptor.verifySender at h
  dsimp only at h
  cases ho : P.aeadOpen (senderKey P key d.hdr.salt).1 (senderKey P key d.hdr.salt).2 d.hdr.sender [] with
  | none => rw [ho] at h; cases h
  | some sig =>
    rw [ho] at h
    dsimp only at h
    refine ⟨sig, rfl, ?_⟩
    by_cases hz : List.replicate 64 0 = sig
    · left
      subst hz
      rw [ctEq_self] at h
      simp only [Bool.not_true, Bool.false_eq_true, if_false, Res.ok.injEq] at h
      exact ⟨rfl, h.symm⟩
    · right
      have hc : ctEq (List.replicate 64 0) sig = false := by
        unfold ctEq; exact beq_false_of_ne hz
      rw [hc] at h
      simp only [Bool.not_false, if_true] at h
      refine ⟨fun h => hz h.symm, ?_⟩
      cases spk with
      | none => cases h
      | some pk =>
        simp only [verifyMessage] at h
        by_cases hl : pk.pk.length ≠ 32
        · rw [if_pos hl] at h; cases h
        · rw [if_neg hl] at h
          simp only [Res.bind_ok] at h
          split at h
          · rename_i hv
            cases h
            exact ⟨rfl, pk, rfl, by omega, hv⟩
          · cases h

/-- After the set-up calls returned nil the decryptor is in order. -/
theorem KeySet.ready {P : Prims} (L : Laws P) {rd rd' : Reader} {d0 d : Decryptor} {sk : PrivateKey}
    {spk : Option PublicKey} {key hb : Bytes} (ha : Accepted P rd d0 rd' hb) (hk : KeySet P d0 d sk spk key) :
    d.Ready (sessionKeys P key d0.hdrsum).2.1 (sessionKeys P key d0.hdrsum).2.2 [] := by
  obtain ⟨h1, h2, h3⟩ := sessionKeys_len P L key d0.hdrsum
  have hc := ha.checked
  unfold checkHeader at hc
  have hcs : d0.hdr.chunkSize < 2^30 := by
    split at hc
    · cases hc
    · rename_i h; rw [maxChunk_eq] at h; omega
  rw [hk.state]
  refine ⟨rfl, rfl, rfl, hcs, h2, h1, ?_⟩
  intro hau
  dsimp only at hau ⊢
  obtain ⟨sig, _, hs⟩ := verifySender_ok P _ _ _ _ hk.verified
  rcases hs with ⟨_, h4⟩ | ⟨_, _, pk, h4, h5, _⟩
  · have h0 : d0.auth = false := by rw [ha.state]
    simp only at h4
    rw [h4, h0] at hau
    cases hau
  · exact ⟨pk, h4, h5⟩

theorem setupDecryptor_ok (P : Prims) (L : Laws P) (rd : Reader) (sk : PrivateKey) (spk : Option PublicKey) (d : Decryptor)
    (h : setupDecryptor P rd sk spk = .ok d) :
    ∃ d0 rd' hb key, Accepted P rd d0 rd' hb ∧ KeySet P d0 d sk spk key ∧
      d.Ready (sessionKeys P key d0.hdrsum).2.1 (sessionKeys P key d0.hdrsum).2.2 [] ∧ d.rd = rd' ∧
      d.stream = false ∧ d.eof = false ∧ d.key = some key ∧ d.hdr = d0.hdr ∧ d.hdrsum = d0.hdrsum ∧ d.sender = spk ∧
      d.nonce = (sessionKeys P key d0.hdrsum).1 := by
  unfold setupDecryptor at h
  obtain ⟨d0, h1, h2⟩ := Proto.bind_eq_ok h
  cases hn : newDecryptor P rd with
  | mk r rd' =>
    rw [hn] at h1
    dsimp only at h1
    subst h1
    obtain ⟨hb, ha⟩ := newDecryptor_ok P rd d0 rd' hn
    cases hs : d0.setPrivateKey P sk spk with
    | mk r d1 =>
      rw [hs] at h2
      match r, hs, h2 with
      | .ok (), hs, h2 =>
        simp only [Res.ok.injEq] at h2
        subst h2
        obtain ⟨key, hk⟩ := setPrivateKey_ok P d0 d1 sk spk hs
        refine ⟨d0, rd', hb, key, ha, hk, hk.ready L ha, ?_, ?_, ?_, ?_, ?_, ?_, ?_, ?_⟩ <;> rw [hk.state]
        · dsimp only; rw [ha.state]
        · dsimp only; rw [ha.state]
        · dsimp only; rw [ha.state]

end Sigtool
