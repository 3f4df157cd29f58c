import Verif.DecHistory
import Verif.Props.Sender
import Verif.Spec.Opening
/-! # DecHistoryLemmas: what one call does, whatever state the decryptor is in -/

namespace Sigtool
open Spec (lengthWord sessionKeys unwrapAs senderSeal senderStatement ValidSignature unsigned OpensFor SenderProof wrappingKey)

theorem readFull_suffix (rd : Reader) (n : Nat) : (readFull rd n).2.2.content <:+ rd.content := by
  rcases readFull_any rd n with ⟨a, rd', h1, _, h3, _⟩ | ⟨a, x, rd', h1, h2, _⟩
  · rw [h1, h3]; exact List.suffix_append _ _
  · rw [h1]; dsimp only; rw [h2]; exact List.nil_suffix

theorem processTrailer_only (P : Prims) (d : Decryptor) (pt : Bytes) :
    (d.processTrailer P pt).2 = { d with rd := (d.processTrailer P pt).2.rd } ∧
      (d.processTrailer P pt).2.rd.content <:+ d.rd.content ∧
      (∀ c e, (d.processTrailer P pt).1 = .ok (c, e) → c = pt ∧ e = true) := by
  have hs := readFull_suffix d.rd 64
  unfold Decryptor.processTrailer
  generalize readFull d.rd 64 = r at hs
  obtain ⟨tr, o, rd⟩ := r
  dsimp only at hs
  cases o with
  | some x => exact ⟨rfl, hs, by simp⟩
  | none =>
    dsimp only
    split
    · exact ⟨rfl, hs, by rintro c e h; cases h; exact ⟨rfl, rfl⟩⟩
    · split
      · split
        · exact ⟨rfl, hs, by rintro c e h; cases h; exact ⟨rfl, rfl⟩⟩
        all_goals exact ⟨rfl, hs, by simp⟩
      · exact ⟨rfl, hs, by simp⟩

/-- Everything but the input position, the running HMAC and the end flag is the same. -/
structure Decryptor.Same (d d' : Decryptor) : Prop where
  hdr : d'.hdr = d.hdr
  hdrsum : d'.hdrsum = d.hdrsum
  ae : d'.ae = d.ae
  sender : d'.sender = d.sender
  bufLen : d'.bufLen = d.bufLen
  nonce : d'.nonce = d.nonce
  key : d'.key = d.key
  auth : d'.auth = d.auth
  stream : d'.stream = d.stream

theorem Decryptor.Same.refl (d : Decryptor) : d.Same d := ⟨rfl, rfl, rfl, rfl, rfl, rfl, rfl, rfl, rfl⟩

theorem Decryptor.Same.trans {a b c : Decryptor} (h : a.Same b) (g : b.Same c) : a.Same c :=
  ⟨g.hdr.trans h.hdr, g.hdrsum.trans h.hdrsum, g.ae.trans h.ae, g.sender.trans h.sender, g.bufLen.trans h.bufLen,
    g.nonce.trans h.nonce, g.key.trans h.key, g.auth.trans h.auth, g.stream.trans h.stream⟩

/-- One chunk changes only the input position and the running HMAC. -/
theorem decryptBlock_only (P : Prims) (d : Decryptor) (i : Nat) :
    d.Same (d.decryptBlock P i).2 ∧ (d.decryptBlock P i).2.eof = d.eof ∧
      (d.decryptBlock P i).2.rd.content <:+ d.rd.content := by
  obtain ⟨hdr, rd0, hdrsum, ae, hmac, sender, bufLen, nonce, key, auth, eof, stream⟩ := d
  have hs := readFull_suffix rd0 4
  unfold Decryptor.decryptBlock
  cases ae with
  | none => exact ⟨.refl _, rfl, List.suffix_refl _⟩
  | some dkey =>
    dsimp only
    generalize readFull rd0 4 = r at hs
    obtain ⟨b, o, rd⟩ := r
    dsimp only at hs
    have same : ∀ rd hm, Decryptor.Same ⟨hdr, rd0, hdrsum, some dkey, hmac, sender, bufLen, nonce, key, auth, eof, stream⟩
      ⟨hdr, rd, hdrsum, some dkey, hm, sender, bufLen, nonce, key, auth, eof, stream⟩ :=
      fun _ _ => ⟨rfl, rfl, rfl, rfl, rfl, rfl, rfl, rfl, rfl⟩
    cases o with
    | some x => exact ⟨same _ _, rfl, hs⟩
    | none =>
      dsimp only
      split
      · exact ⟨same _ _, rfl, hs⟩
      · split
        · split <;> exact ⟨same _ _, rfl, hs⟩
        · split
          · exact ⟨same _ _, rfl, hs⟩
          · have hs2 := readFull_suffix rd ((wordLen (be32dec b) + 16) % 2^32)
            generalize readFull rd ((wordLen (be32dec b) + 16) % 2^32) = r at hs2
            obtain ⟨ct, o, rd2⟩ := r
            dsimp only at hs2
            have hs3 := hs2.trans hs
            cases o with
            | some x => exact ⟨same _ _, rfl, hs3⟩
            | none =>
              dsimp only
              cases P.aeadOpen dkey (chunkNonce nonce i) ct b with
              | none => exact ⟨same _ _, rfl, hs3⟩
              | some pt =>
                dsimp only
                split
                · exact ⟨same _ _, rfl, hs3⟩
                · cases hmac with
                  | none => exact ⟨same _ _, rfl, hs3⟩
                  | some p =>
                    obtain ⟨hk, hd⟩ := p
                    dsimp only
                    split
                    · obtain ⟨g1, g2, _⟩ := processTrailer_only P
                        ⟨hdr, rd2, hdrsum, some dkey, some (hk, hd ++ b ++ pt), sender, bufLen, nonce, key, auth, eof, stream⟩ pt
                      refine ⟨?_, ?_, g2.trans hs3⟩
                      · rw [g1]; exact same _ _
                      · rw [g1]
                    · exact ⟨same _ _, rfl, hs3⟩

/-- The HMAC key stays. -/
theorem decryptBlock_hmac (P : Prims) (d : Decryptor) (i : Nat) (hk hd : Bytes) (h : d.hmac = some (hk, hd)) :
    ∃ hd', (d.decryptBlock P i).2.hmac = some (hk, hd') := by
  unfold Decryptor.decryptBlock
  cases d.ae with
  | none => exact ⟨hd, h⟩
  | some dkey =>
    dsimp only
    rcases readFull d.rd 4 with ⟨b, _ | x, rd⟩
    · dsimp only
      split
      · exact ⟨hd, h⟩
      · split
        · split <;> exact ⟨hd, h⟩
        · split
          · exact ⟨hd, h⟩
          · rcases readFull rd ((wordLen (be32dec b) + 16) % 2^32) with ⟨ct, _ | x, rd2⟩
            · dsimp only
              cases P.aeadOpen dkey (chunkNonce d.nonce i) ct b with
              | none => exact ⟨hd, h⟩
              | some pt =>
                dsimp only
                split
                · exact ⟨hd, h⟩
                · rw [h]
                  dsimp only
                  split
                  · rw [(processTrailer_only P _ pt).1]
                    exact ⟨_, rfl⟩
                  · exact ⟨_, rfl⟩
            · exact ⟨hd, h⟩
    · exact ⟨hd, h⟩

/-- A chunk that was accepted: where it was in the input, that it opened, and that the plaintext is now at the start of the
chunk buffer. -/
theorem decryptBlock_accepted (P : Prims) (L : Laws P) (d d' : Decryptor) (i : Nat) (pt : Bytes) (eof : Bool)
    (h : d.decryptBlock P i = (.ok (pt, eof), d')) :
    ∃ dkey, d.ae = some dkey ∧ ((pt = [] ∧ eof = true) ∨
      ∃ w ct rest, w.length = 4 ∧ d.rd.content = w ++ ct ++ rest ∧
        P.aeadOpen dkey (be32 i ++ d.nonce.drop 4) ct w = some pt ∧ 0 < pt.length ∧ pt.length ≤ d.hdr.chunkSize ∧
        d'.rd.content <:+ rest ∧ (eof = false → d'.rd.content = rest) ∧
        ∀ buf, (d.bufAfter P i buf).take pt.length = pt) := by
  unfold Decryptor.decryptBlock at h
  unfold Decryptor.bufAfter
  cases hae : d.ae with
  | none => rw [hae] at h; cases h
  | some dkey =>
    refine ⟨dkey, rfl, ?_⟩
    rw [hae] at h
    dsimp only at h ⊢
    rcases readFull_any d.rd 4 with ⟨w, rd1, h1, h2, h3, _⟩ | ⟨w, x, rd1, h1, _⟩
    · rw [h1] at h ⊢
      dsimp only at h ⊢
      obtain ⟨hw, hwl⟩ := word_eq w h2
      split at h
      · cases h
      · rename_i hbig
        split at h
        · split at h
          · cases h
          · cases h; exact Or.inl ⟨rfl, rfl⟩
        · rename_i hm0
          split at h
          · cases h
          · rename_i hz
            simp only [if_neg hbig, if_neg hm0, if_neg hz]
            rcases readFull_any rd1 ((wordLen (be32dec w) + 16) % 2^32) with ⟨ct, rd2, k1, k2, k3, _⟩ | ⟨ct, x, rd2, k1, _⟩
            · rw [k1] at h ⊢
              dsimp only at h ⊢
              cases ho : P.aeadOpen dkey (chunkNonce d.nonce i) ct w with
              | none => rw [ho] at h; cases h
              | some p =>
                rw [ho] at h
                dsimp only at h ⊢
                have hl := L.open_len _ _ _ _ _ ho
                have hpl : p.length = wordLen (be32dec w) := by
                  rw [k2, Nat.mod_eq_of_lt (by omega)] at hl; omega
                have hbuf : ∀ buf : Bytes, (overwrite (overwrite buf ct) p).take p.length = p := by
                  intro buf; simp [overwrite]
                split at h
                · cases h
                · cases hh : d.hmac with
                  | none => rw [hh] at h; cases h
                  | some q =>
                    obtain ⟨hk, hd⟩ := q
                    rw [hh] at h
                    dsimp only at h
                    right
                    split at h
                    · rename_i heof
                      obtain ⟨_, g2, g3⟩ := processTrailer_only P { d with rd := rd2, hmac := some (hk, hd ++ w ++ p) } p
                      rw [hae] at g2 g3
                      rw [h] at g2 g3
                      obtain ⟨rfl, rfl⟩ := g3 _ _ rfl
                      exact ⟨w, ct, rd2.content, h2, by rw [h3, k3, List.append_assoc], ho, by omega, by omega, g2,
                        by simp, hbuf⟩
                    · cases h
                      exact ⟨w, ct, rd2.content, h2, by rw [h3, k3, List.append_assoc], ho, by omega, by omega,
                        List.suffix_refl _, fun _ => rfl, hbuf⟩
            · rw [k1] at h; cases h
    · rw [h1] at h; cases h

/-- The loop of `Decrypt` changes only the input position, the running HMAC and the end flag. -/
theorem decryptLoop_only (P : Prims) : ∀ (fuel : Nat) (d : Decryptor) (wr : Writer) (i : Nat) (r : Res Unit) (d' : Decryptor)
    (wr' : Writer), Decryptor.decryptLoop P fuel d wr i = (r, d', wr') →
    d.Same d' ∧ d'.rd.content <:+ d.rd.content ∧ (d.eof = true → d'.eof = true) ∧ (r = .ok () → d'.eof = true) := by
  intro fuel
  induction fuel with
  | zero => intro d wr i r d' wr' h; cases h; exact ⟨.refl _, List.suffix_refl _, id, by simp⟩
  | succ fuel ih =>
    intro d wr i r d' wr' h
    obtain ⟨k1, he, k2⟩ := decryptBlock_only P d i
    unfold Decryptor.decryptLoop at h
    rcases hb : d.decryptBlock P i with ⟨r, d1⟩
    rw [hb] at k1 k2 he h
    dsimp only at k1 k2 he
    cases r with
    | err x => cases h; exact ⟨k1, k2, by rw [he]; exact id, by simp⟩
    | panic x => cases h; exact ⟨k1, k2, by rw [he]; exact id, by simp⟩
    | ok ce =>
      obtain ⟨c, eof⟩ := ce
      dsimp only at h
      generalize (if c.length > 0 then fullwrite c wr else (none, wr)) = q at h
      obtain ⟨o, wr1⟩ := q
      cases o with
      | some x => cases h; exact ⟨k1, k2, by rw [he]; exact id, by simp⟩
      | none =>
        dsimp only at h
        split at h
        · cases h
          exact ⟨⟨k1.hdr, k1.hdrsum, k1.ae, k1.sender, k1.bufLen, k1.nonce, k1.key, k1.auth, k1.stream⟩, k2,
            fun _ => rfl, fun _ => rfl⟩
        · obtain ⟨g1, g2, g3, g4⟩ := ih _ _ _ _ _ _ h
          exact ⟨k1.trans g1, g2.trans k2, fun h => g3 (by rw [he, h]), g4⟩

theorem decryptLoop_hmac (P : Prims) (hk : Bytes) : ∀ (fuel : Nat) (d : Decryptor) (wr : Writer) (i : Nat) (r : Res Unit)
    (d' : Decryptor) (wr' : Writer) (hd : Bytes), d.hmac = some (hk, hd) →
    Decryptor.decryptLoop P fuel d wr i = (r, d', wr') → ∃ hd', d'.hmac = some (hk, hd') := by
  intro fuel
  induction fuel with
  | zero => intro d wr i r d' wr' hd h0 h; cases h; exact ⟨hd, h0⟩
  | succ fuel ih =>
    intro d wr i r d' wr' hd h0 h
    obtain ⟨hd1, k1⟩ := decryptBlock_hmac P d i hk hd h0
    unfold Decryptor.decryptLoop at h
    rcases hb : d.decryptBlock P i with ⟨r, d1⟩
    rw [hb] at k1 h
    dsimp only at k1
    cases r with
    | err x => cases h; exact ⟨hd1, k1⟩
    | panic x => cases h; exact ⟨hd1, k1⟩
    | ok ce =>
      obtain ⟨c, eof⟩ := ce
      dsimp only at h
      generalize (if c.length > 0 then fullwrite c wr else (none, wr)) = q at h
      obtain ⟨o, wr1⟩ := q
      cases o with
      | some x => cases h; exact ⟨hd1, k1⟩
      | none =>
        dsimp only at h
        split at h
        · cases h; exact ⟨hd1, k1⟩
        · exact ih _ _ _ _ _ _ _ k1 h

/-- `Decrypt` in one formula. -/
theorem decrypt_only (P : Prims) (d : Decryptor) (wr : Writer) (r : Res Unit) (d' : Decryptor) (wr' : Writer)
    (h : d.decrypt P wr = (r, d', wr')) :
    d.Same d' ∧ d'.rd.content <:+ d.rd.content ∧ (d.eof = true → d'.eof = true) ∧ (r = .ok () → d'.eof = true) := by
  unfold Decryptor.decrypt at h
  cases hk : d.key with
  | none => rw [hk] at h; cases h; exact ⟨.refl _, List.suffix_refl _, id, by simp⟩
  | some k =>
    rw [hk] at h
    dsimp only at h
    split at h
    · cases h; exact ⟨.refl _, List.suffix_refl _, id, by simp⟩
    · split at h
      · cases h; exact ⟨.refl _, List.suffix_refl _, id, by simp⟩
      · exact decryptLoop_only P _ _ _ _ _ _ _ h

/-! ## `SetPrivateKey` -/

theorem findKey_no_panic (P : Prims) (d : Decryptor) (sk : PrivateKey) (hl : 32 ≤ sk.sk.length) (x : String) :
    ∀ ws : List WrappedKey, d.findKey P sk ws ≠ .panic x := by
  intro ws
  induction ws with
  | nil => intro h; cases h
  | cons w ws ih =>
    intro h
    unfold Decryptor.findKey at h
    have hu : ∀ y, d.unwrapKey P w sk ≠ .panic y := by
      intro y hy
      unfold Decryptor.unwrapKey toCurve25519SK at hy
      rw [if_neg (by omega)] at hy
      simp only [Res.bind_ok] at hy
      split at hy
      · cases hy
      · split at hy <;> cases hy
    cases hq : d.unwrapKey P w sk with
    | err x => rw [hq] at h; cases h
    | panic x => exact hu x hq
    | ok o =>
      rw [hq] at h
      cases o with
      | none => exact ih h
      | some k => cases h

theorem verifySender_no_panic (P : Prims) (d : Decryptor) (key : Bytes) (spk : Option PublicKey)
    (hl : ∀ pk, spk = some pk → pk.pk.length = 32) (x : String) : d.verifySender P key spk ≠ .panic x := by
  intro h
  unfold Decryptor.verifySender at h
  dsimp only at h
  split at h
  · cases h
  · split at h
    · cases spk with
      | none => cases h
      | some pk =>
        simp only [verifyMessage, hl pk rfl, ne_eq, not_true_eq_false, if_false, Res.bind_ok] at h
        split at h <;> cases h
    · cases h

theorem findKey_opens (P : Prims) (d : Decryptor) (sk : PrivateKey) (key : Bytes) : ∀ ws : List WrappedKey,
    d.findKey P sk ws = .ok (some key) →
    ∃ w ∈ ws, unwrapAs P (sk.sk.take 32) sk.pub.pk d.hdr.pk d.hdr.salt w = some key := by
  intro ws
  induction ws with
  | nil => intro h; cases h
  | cons w ws ih =>
    intro h
    unfold Decryptor.findKey at h
    cases hu : d.unwrapKey P w sk with
    | err x => rw [hu] at h; cases h
    | panic x => rw [hu] at h; cases h
    | ok o =>
      rw [hu] at h
      cases o with
      | none =>
        obtain ⟨w', h1, h2⟩ := ih h
        exact ⟨w', List.mem_cons_of_mem _ h1, h2⟩
      | some k =>
        cases h
        refine ⟨w, by simp, ?_⟩
        unfold Decryptor.unwrapKey toCurve25519SK at hu
        split at hu
        · cases hu
        · simp only [Res.bind_ok] at hu
          unfold unwrapAs
          cases hx : P.x25519 (clamp ((P.sha512 (sk.sk.take 32)).take 32)) d.hdr.pk with
          | none => rw [hx] at hu; cases hu
          | some sh =>
            rw [hx] at hu
            dsimp only at hu
            split at hu
            · cases hu
            · simpa [kekOf_eq] using hu

end Sigtool
