import Verif.StreamLemmas
import Verif.StreamRead
/-!
# DecGeneral: what the reader does with an arbitrary body

Nothing here presumes that the input was produced by the writer.
-/

namespace Sigtool
open Spec (lengthWord sealedChunk sealedBody macInput)

/-- A length word is determined by its length and its flag. -/
theorem word_eq (w : Bytes) (h : w.length = 4) :
    w = lengthWord (wordLen (be32dec w)) (wordEof (be32dec w)) ∧ wordLen (be32dec w) < 2^31 := by
  have h1 := be32dec_lt w
  have h2 := be32_be32dec w h
  rw [lowMask, eofMask _ h1]
  refine ⟨?_, by omega⟩
  conv_lhs => rw [← h2]
  unfold lengthWord
  by_cases h3 : 2^31 ≤ be32dec w
  · simp only [h3, decide_true, if_true]; congr 1; omega
  · simp only [h3, decide_false, Bool.false_eq_true, if_false]; congr 1; omega

/-- Does the trailer `tr` verify?  Trivially if the sender is not authenticated. -/
def Decryptor.TrailerVerifies (P : Prims) (d : Decryptor) (hk hd tr : Bytes) : Prop :=
  d.auth = true → ∃ pk, d.sender = some pk ∧ P.edVerify pk.pk (signDigest P (P.hmac256 hk hd)) tr = true

/-- Everything `decrypt(i)` can do. -/
inductive BlockOutcome (P : Prims) (d : Decryptor) (i : Nat) (dkey hk hd : Bytes) : Res (Bytes × Bool) → Decryptor → Prop where
  | failed (x : Err) (d' : Decryptor) (hd' : d' = { d with rd := d'.rd, hmac := d'.hmac })
      (hrd : d'.rd.content <:+ d.rd.content) :
      BlockOutcome P d i dkey hk hd (.err x) d'
  | emptyEnd (rd' : Reader) (hrd : d.rd.content = lengthWord 0 true ++ rd'.content) :
      BlockOutcome P d i dkey hk hd (.ok ([], true)) { d with rd := rd' }
  | mid (pt : Bytes) (rd' : Reader) (h0 : 0 < pt.length) (hmax : pt.length ≤ d.hdr.chunkSize)
      (hrd : d.rd.content = sealedChunk P dkey d.nonce i false pt ++ rd'.content)
      (hopen : P.aeadOpen dkey (be32 i ++ d.nonce.drop 4) (P.aeadSeal dkey (be32 i ++ d.nonce.drop 4) pt
        (lengthWord pt.length false)) (lengthWord pt.length false) = some pt) :
      BlockOutcome P d i dkey hk hd (.ok (pt, false))
        { d with rd := rd', hmac := some (hk, hd ++ lengthWord pt.length false ++ pt) }
  | last (pt tr : Bytes) (rd' : Reader) (h0 : 0 < pt.length) (hmax : pt.length ≤ d.hdr.chunkSize)
      (htr : tr.length = 64)
      (hrd : d.rd.content = sealedChunk P dkey d.nonce i true pt ++ (tr ++ rd'.content))
      (hopen : P.aeadOpen dkey (be32 i ++ d.nonce.drop 4) (P.aeadSeal dkey (be32 i ++ d.nonce.drop 4) pt
        (lengthWord pt.length true)) (lengthWord pt.length true) = some pt)
      (hver : d.TrailerVerifies P hk (hd ++ lengthWord pt.length true ++ pt) tr) :
      BlockOutcome P d i dkey hk hd (.ok (pt, true))
        { d with rd := rd', hmac := some (hk, hd ++ lengthWord pt.length true ++ pt) }

theorem readFull_any (rd : Reader) (n : Nat) :
    (∃ a rd', readFull rd n = (a, none, rd') ∧ a.length = n ∧ rd.content = a ++ rd'.content ∧ rd'.last = rd.last) ∨
    (∃ a x rd', readFull rd n = (a, some x, rd') ∧ rd'.content = [] ∧ rd'.last = rd.last ∧ rd.content.length < n ∧
      x = shortReadErr rd.content rd.last) := by
  by_cases h : n ≤ rd.content.length
  · obtain ⟨rd', h1, h2, h3⟩ := readFull_enough rd n h
    left
    exact ⟨_, rd', h1, by simp; omega, by rw [h2, List.take_append_drop], h3⟩
  · obtain ⟨rd', h1, h2, h3⟩ := readFull_short rd n (by omega)
    right
    exact ⟨_, _, rd', h1, h2, h3, by omega, rfl⟩

theorem decryptBlock_outcome (P : Prims) (L : Laws P) (d : Decryptor) (i : Nat) (dkey hk hd : Bytes)
    (hr : d.Ready dkey hk hd) :
    ∃ r d', d.decryptBlock P i = (r, d') ∧ BlockOutcome P d i dkey hk hd r d' := by
  rcases readFull_any d.rd 4 with ⟨w, rd1, h1, h2, h3, _⟩ | ⟨w, x, rd1, h1, h2, _⟩
  · obtain ⟨hw, hwl⟩ := word_eq w h2
    have hm : wordLen (be32dec w) = wordLen (be32dec w) := rfl
    generalize hm' : wordLen (be32dec w) = m at hw hwl
    generalize he' : wordEof (be32dec w) = eof at hw
    by_cases c1 : m > d.hdr.chunkSize
    · refine ⟨.err (.msg "decrypt: chunksize is too large"), { d with rd := rd1 }, ?_, .failed _ _ rfl ?_⟩
      · unfold Decryptor.decryptBlock
        rw [hr.ae]; dsimp only; rw [h1]; dsimp only
        rw [hm', if_pos c1]
      · exact ⟨w, by rw [h3]⟩
    · by_cases c2 : m = 0
      · subst c2
        cases eof with
        | false =>
          refine ⟨.err (.msg "decrypt: zero-sized chunk without EOF"), { d with rd := rd1 }, ?_, .failed _ _ rfl ?_⟩
          · unfold Decryptor.decryptBlock
            rw [hr.ae]; dsimp only; rw [h1]; dsimp only
            rw [hm', if_neg c1, if_pos rfl, he']; rfl
          · exact ⟨w, by rw [h3]⟩
        | true =>
          refine ⟨.ok ([], true), { d with rd := rd1 }, ?_, .emptyEnd rd1 (by rw [h3, hw])⟩
          unfold Decryptor.decryptBlock
          rw [hr.ae]; dsimp only; rw [h1]; dsimp only
          rw [hm', if_neg c1, if_pos rfl, he']; rfl
      · by_cases c3 : m + 16 ≤ rd1.content.length
        · have hsplit : d.rd.content = w ++ (rd1.content.take (m+16) ++ rd1.content.drop (m+16)) := by
            rw [h3, List.take_append_drop]
          obtain ⟨rd2, k1, _, k3⟩ := decryptBlock_frame P d dkey hk hd w (rd1.content.take (m+16))
            (rd1.content.drop (m+16)) i m eof hr.ae hr.hmac hr.buf hr.chunk h2 he' hm' (by omega) (by omega)
            (by simp; omega) hsplit
          have hsuf : rd2.content <:+ d.rd.content := by
            rw [k1, hsplit]
            exact ⟨w ++ rd1.content.take (m+16), by simp⟩
          have hnonce : (be32 i ++ d.nonce.drop 4).length = 12 := by
            have := hr.nonce; simp; omega
          cases ho : P.aeadOpen dkey (be32 i ++ d.nonce.drop 4) (rd1.content.take (m+16)) w with
          | none =>
            rw [ho] at k3
            exact ⟨_, _, k3, .failed _ _ rfl hsuf⟩
          | some pt =>
            rw [ho] at k3
            dsimp only at k3
            have hl := L.open_len _ _ _ _ _ ho
            have hpl : pt.length = m := by
              rw [List.length_take] at hl; omega
            have hct := L.seal_open _ _ _ _ _ hr.key hnonce ho
            rw [if_neg (by rw [hpl]; omega)] at k3
            have hwp : w = lengthWord pt.length eof := by rw [hpl]; exact hw
            rw [hct, hwp] at ho
            have hbody : d.rd.content = sealedChunk P dkey d.nonce i eof pt ++ rd2.content := by
              rw [hsplit, hct, ← k1, hwp, sealedChunk]; simp
            cases eof with
            | false =>
              simp only [Bool.false_eq_true, if_false] at k3
              rw [hwp] at k3
              exact ⟨_, _, k3, .mid pt rd2 (by omega) (by omega) hbody ho⟩
            | true =>
              simp only [if_true] at k3
              rw [hwp] at k3
              rw [k3]
              unfold Decryptor.processTrailer
              dsimp only
              rcases readFull_any rd2 64 with ⟨tr, rd3, t1, t2, t3, _⟩ | ⟨tr, x, rd3, t1, t2, _⟩
              · rw [t1]
                dsimp only
                have hfull : d.rd.content = sealedChunk P dkey d.nonce i true pt ++ (tr ++ rd3.content) := by
                  rw [hbody, t3]
                cases ha : d.auth with
                | false =>
                  simp only [Bool.not_false, if_true]
                  refine ⟨_, _, rfl, ?_⟩
                  have := BlockOutcome.last (P := P) (d := d) (i := i) (dkey := dkey) (hk := hk) (hd := hd) pt tr rd3
                    (by omega) (by omega) t2 hfull ho (by intro h; rw [ha] at h; cases h)
                  simpa [ha] using this
                | true =>
                  obtain ⟨pk, hpk1, hpk2⟩ := hr.sender ha
                  simp only [Bool.not_true, Bool.false_eq_true, if_false, hpk1]
                  unfold verifyMessage
                  rw [if_neg (by simp [hpk2])]
                  cases hv : P.edVerify pk.pk (signDigest P (P.hmac256 hk (hd ++ lengthWord pt.length true ++ pt))) tr with
                  | true =>
                    refine ⟨_, _, rfl, ?_⟩
                    have := BlockOutcome.last (P := P) (d := d) (i := i) (dkey := dkey) (hk := hk) (hd := hd) pt tr rd3
                      (by omega) (by omega) t2 hfull ho (fun _ => ⟨pk, hpk1, hv⟩)
                    simpa [ha, hpk1] using this
                  | false =>
                    refine ⟨_, _, rfl, .failed _ _ ?_ ?_⟩
                    · simp [ha, hpk1]
                    · rw [hfull]; exact ⟨sealedChunk P dkey d.nonce i true pt ++ tr, by simp⟩
              · rw [t1]
                dsimp only
                refine ⟨_, _, rfl, .failed _ _ rfl ?_⟩
                dsimp only
                rw [t2]; exact List.nil_suffix
        · obtain ⟨rd2, h4, h5, _⟩ := readFull_short rd1 (m+16) (by omega)
          refine ⟨.err (.wrap "decrypt: premature EOF while reading block" (shortReadErr rd1.content rd1.last)),
            { d with rd := rd2 }, ?_, .failed _ _ rfl ?_⟩
          · unfold Decryptor.decryptBlock
            rw [hr.ae]; dsimp only; rw [h1]; dsimp only
            have hch := hr.chunk
            rw [hm', if_neg c1, if_neg c2, Nat.mod_eq_of_lt (by omega), if_neg (by rw [hr.buf]; omega)]
            rw [h4]
          · dsimp only; rw [h5]; exact List.nil_suffix
  · refine ⟨.err (.msg "decrypt: premature EOF while reading header block"), { d with rd := rd1 }, ?_,
      .failed _ _ rfl ?_⟩
    · unfold Decryptor.decryptBlock
      rw [hr.ae]; dsimp only; rw [h1]
    · dsimp only; rw [h2]; exact List.nil_suffix

/-- Each chunk opens under the data key with its own position as nonce. -/
def OpensAt (P : Prims) (dkey nonce : Bytes) : Nat → List Bytes → Prop
  | _, [] => True
  | i, c :: cs => P.aeadOpen dkey (be32 i ++ nonce.drop 4) (P.aeadSeal dkey (be32 i ++ nonce.drop 4) c
      (lengthWord c.length false)) (lengthWord c.length false) = some c ∧ OpensAt P dkey nonce (i + 1) cs

theorem OpensAt_mod (P : Prims) (dkey nonce : Bytes) (cs : List Bytes) : ∀ i j, i % 2^32 = j % 2^32 →
    OpensAt P dkey nonce i cs → OpensAt P dkey nonce j cs := by
  induction cs with
  | nil => intros; trivial
  | cons c cs ih =>
    intro i j h g
    exact ⟨by rw [← be32_congr i j h]; exact g.1, ih (i+1) (j+1) (by omega) g.2⟩

/-- The sizes of chunks that are not the last. -/
def MidOk (cs : Nat) (mid : List Bytes) : Prop := ∀ c ∈ mid, 0 < c.length ∧ c.length ≤ cs

/-- Everything the loop of `Decrypt` can do, starting at block number `i`. `mid` are the chunks it accepted before the
last one. -/
inductive DecOutcome (P : Prims) (d : Decryptor) (i : Nat) (dkey hk hd : Bytes) (wr : Writer) :
    Res Unit → Decryptor → Writer → Prop where
  /-- an end marker with length zero: nothing follows that is looked at -/
  | endedEmpty (mid : List Bytes) (rest : Bytes) (d' : Decryptor) (wr' : Writer)
      (hmid : MidOk d.hdr.chunkSize mid) (hopen : OpensAt P dkey d.nonce i mid)
      (hrd : d.rd.content = sealedMid P dkey d.nonce i mid ++ (lengthWord 0 true ++ rest))
      (hw : wr.Step wr' mid.flatten) (heof : d'.eof = true) (hauth : d'.auth = d.auth) (hrest : d'.rd.content = rest) :
      DecOutcome P d i dkey hk hd wr (.ok ()) d' wr'
  /-- a non-empty last chunk and a trailer -/
  | endedFull (mid : List Bytes) (fin tr rest : Bytes) (d' : Decryptor) (wr' : Writer)
      (hmid : MidOk d.hdr.chunkSize mid) (hopen : OpensAt P dkey d.nonce i mid)
      (hfin0 : 0 < fin.length) (hfin : fin.length ≤ d.hdr.chunkSize) (htr : tr.length = 64)
      (hofin : P.aeadOpen dkey (be32 (i + mid.length) ++ d.nonce.drop 4)
        (P.aeadSeal dkey (be32 (i + mid.length) ++ d.nonce.drop 4) fin (lengthWord fin.length true))
          (lengthWord fin.length true) = some fin)
      (hver : d.TrailerVerifies P hk (hd ++ macInput (mid ++ [fin])) tr)
      (hrd : d.rd.content = sealedMid P dkey d.nonce i mid ++
        (sealedChunk P dkey d.nonce (i + mid.length) true fin ++ (tr ++ rest)))
      (hw : wr.Step wr' (mid.flatten ++ fin)) (heof : d'.eof = true) (hauth : d'.auth = d.auth)
      (hrest : d'.rd.content = rest) :
      DecOutcome P d i dkey hk hd wr (.ok ()) d' wr'
  /-- bad input -/
  | badInput (x : Err) (mid : List Bytes) (rest : Bytes) (d' : Decryptor) (wr' : Writer)
      (hmid : MidOk d.hdr.chunkSize mid) (hopen : OpensAt P dkey d.nonce i mid)
      (hrd : d.rd.content = sealedMid P dkey d.nonce i mid ++ rest)
      (hw : wr.Step wr' mid.flatten) (heof : d'.eof = d.eof) (hauth : d'.auth = d.auth) :
      DecOutcome P d i dkey hk hd wr (.err x) d' wr'
  /-- the destination failed while taking chunk `c` -/
  | writeFailed (x : Err) (mid : List Bytes) (c rest p : Bytes) (last : Bool) (d' : Decryptor) (wr' : Writer)
      (hmid : MidOk d.hdr.chunkSize mid) (hopen : OpensAt P dkey d.nonce i mid)
      (hc : 0 < c.length ∧ c.length ≤ d.hdr.chunkSize)
      (hoc : P.aeadOpen dkey (be32 (i + mid.length) ++ d.nonce.drop 4)
        (P.aeadSeal dkey (be32 (i + mid.length) ++ d.nonce.drop 4) c (lengthWord c.length last))
          (lengthWord c.length last) = some c)
      (hrd : d.rd.content = sealedMid P dkey d.nonce i mid ++
        (sealedChunk P dkey d.nonce (i + mid.length) last c ++ rest))
      (hw : wr.Step wr' (mid.flatten ++ p)) (hp : p <+: c) (hx : WriteErr wr x) (heof : d'.eof = d.eof)
      (hauth : d'.auth = d.auth) :
      DecOutcome P d i dkey hk hd wr (.err x) d' wr'

theorem decryptLoop_outcome (P : Prims) (L : Laws P) (dkey hk : Bytes) :
    ∀ (fuel : Nat) (d : Decryptor) (wr : Writer) (i : Nat) (hd : Bytes), d.Ready dkey hk hd →
    d.rd.content.length < fuel →
    ∃ r d' wr', Decryptor.decryptLoop P fuel d wr i = (r, d', wr') ∧ DecOutcome P d i dkey hk hd wr r d' wr' := by
  intro fuel
  induction fuel with
  | zero => intro d wr i hd _ h; omega
  | succ fuel ih =>
    intro d wr i hd hr hf
    unfold Decryptor.decryptLoop
    obtain ⟨r, d1, h1, h2⟩ := decryptBlock_outcome P L d i dkey hk hd hr
    rw [h1]
    cases h2 with
    | failed x d' hd' hrd =>
      refine ⟨_, _, _, rfl, .badInput x [] d.rd.content _ _ (by simp [MidOk]) trivial (by simp [sealedMid])
        (Writer.Step.refl _) ?_ ?_⟩ <;> rw [hd']
    | emptyEnd rd' hrd =>
      refine ⟨_, _, _, rfl, .endedEmpty [] rd'.content _ _ (by simp [MidOk]) trivial (by simpa [sealedMid] using hrd)
        (by simpa using Writer.Step.refl wr) rfl rfl rfl⟩
    | mid pt rd' h0 hmax hrd hopen =>
      dsimp only
      rw [if_pos h0]
      rcases fullwrite_step pt wr with ⟨wr1, g1, g2⟩ | ⟨x, wr1, p, g1, g2, g3, j, g4⟩
      · rw [g1]
        simp only [Bool.false_eq_true, if_false]
        have hr1 : ({ d with rd := rd', hmac := some (hk, hd ++ lengthWord pt.length false ++ pt) } : Decryptor).Ready dkey hk
            (hd ++ lengthWord pt.length false ++ pt) := ⟨hr.ae, rfl, hr.buf, hr.chunk, hr.key, hr.nonce, hr.sender⟩
        have hlen : rd'.content.length < fuel := by
          have : d.rd.content.length ≥ 4 + rd'.content.length := by
            rw [hrd, sealedChunk]; simp
          omega
        obtain ⟨r, d2, wr2, k1, k2⟩ := ih { d with rd := rd', hmac := some (hk, hd ++ lengthWord pt.length false ++ pt) } wr1
          ((i+1) % 2^32) _ hr1 hlen
        refine ⟨r, d2, wr2, k1, ?_⟩
        have hmod : ((i+1) % 2^32) % 2^32 = (i+1) % 2^32 := by omega
        cases k2 with
        | endedEmpty mid rest _ _ hmid ho hrd2 hw heof hauth hrest =>
          refine .endedEmpty (pt :: mid) rest _ _ ?_ ⟨hopen, OpensAt_mod _ _ _ _ _ _ hmod ho⟩ ?_ ?_ heof hauth hrest
          · intro c hc
            rcases List.mem_cons.mp hc with rfl | hc
            · exact ⟨h0, hmax⟩
            · exact hmid c hc
          · rw [hrd, sealedMid, ← sealedMid_mod P dkey d.nonce mid _ _ hmod]
            simp only at hrd2
            rw [hrd2, List.append_assoc]
          · simpa using g2.trans hw
        | endedFull mid fin tr rest _ _ hmid ho hfin0 hfin htr hofin hver hrd2 hw heof hauth hrest =>
          have hmod2 : ((i+1) % 2^32 + mid.length) % 2^32 = (i + (pt :: mid).length) % 2^32 := by
            simp only [List.length_cons]; omega
          refine .endedFull (pt :: mid) fin tr rest _ _ ?_ ⟨hopen, OpensAt_mod _ _ _ _ _ _ hmod ho⟩ hfin0 hfin htr
            ?_ ?_ ?_ ?_ heof hauth hrest
          · intro c hc
            rcases List.mem_cons.mp hc with rfl | hc
            · exact ⟨h0, hmax⟩
            · exact hmid c hc
          · rw [← be32_congr _ _ hmod2]; exact hofin
          · intro ha
            obtain ⟨pk, p1, p2⟩ := hver ha
            refine ⟨pk, p1, ?_⟩
            rw [List.cons_append, macInput_cons _ _ (by simp)]
            simpa using p2
          · rw [hrd, sealedMid, ← sealedMid_mod P dkey d.nonce mid _ _ hmod,
              ← sealedChunk_mod P dkey d.nonce _ _ true fin hmod2]
            simp only at hrd2
            rw [hrd2, List.append_assoc]
          · simpa using g2.trans hw
        | badInput x mid rest _ _ hmid ho hrd2 hw heof hauth =>
          refine .badInput x (pt :: mid) rest _ _ ?_ ⟨hopen, OpensAt_mod _ _ _ _ _ _ hmod ho⟩ ?_ ?_ heof hauth
          · intro c hc
            rcases List.mem_cons.mp hc with rfl | hc
            · exact ⟨h0, hmax⟩
            · exact hmid c hc
          · rw [hrd, sealedMid, ← sealedMid_mod P dkey d.nonce mid _ _ hmod]
            simp only at hrd2
            rw [hrd2, List.append_assoc]
          · simpa using g2.trans hw
        | writeFailed x mid c rest p last _ _ hmid ho hc hoc hrd2 hw hp hx heof hauth =>
          have hmod2 : ((i+1) % 2^32 + mid.length) % 2^32 = (i + (pt :: mid).length) % 2^32 := by
            simp only [List.length_cons]; omega
          refine .writeFailed x (pt :: mid) c rest p last _ _ ?_ ⟨hopen, OpensAt_mod _ _ _ _ _ _ hmod ho⟩ hc ?_ ?_ ?_ hp ?_
            heof hauth
          · intro c hc
            rcases List.mem_cons.mp hc with rfl | hc
            · exact ⟨h0, hmax⟩
            · exact hmid c hc
          · rw [← be32_congr _ _ hmod2]; exact hoc
          · rw [hrd, sealedMid, ← sealedMid_mod P dkey d.nonce mid _ _ hmod,
              ← sealedChunk_mod P dkey d.nonce _ _ last c hmod2]
            simp only at hrd2
            rw [hrd2, List.append_assoc]
          · simpa using g2.trans hw
          · obtain ⟨s, j, y, hx1, hx2⟩ := hx
            exact ⟨s, j, y, g2.mem hx1, hx2⟩
      · rw [g1]
        exact ⟨_, _, _, rfl, .writeFailed _ [] pt rd'.content p false _ _ (by simp [MidOk]) trivial ⟨h0, hmax⟩ hopen
          (by simpa [sealedMid] using hrd) (by simpa using g2) g3 ⟨_, j, x, g4, rfl⟩ rfl rfl⟩
    | last pt tr rd' h0 hmax htr hrd hopen hver =>
      dsimp only
      rw [if_pos h0]
      rcases fullwrite_step pt wr with ⟨wr1, g1, g2⟩ | ⟨x, wr1, p, g1, g2, g3, j, g4⟩
      · rw [g1]
        simp only [if_true]
        refine ⟨_, _, _, rfl, .endedFull [] pt tr rd'.content _ _ (by simp [MidOk]) trivial h0 hmax htr hopen ?_
          (by simpa [sealedMid] using hrd) (by simpa using g2) rfl rfl rfl⟩
        simpa [macInput] using hver
      · rw [g1]
        exact ⟨_, _, _, rfl, .writeFailed _ [] pt (tr ++ rd'.content) p true _ _ (by simp [MidOk]) trivial ⟨h0, hmax⟩ hopen
          (by simpa [sealedMid] using hrd) (by simpa using g2) g3 ⟨_, j, x, g4, rfl⟩ rfl rfl⟩

end Sigtool
