import Verif.Spec.Reaction
import Verif.Props.Outsider
/-!
# C132: what the reaction of a recipient tells
-/

namespace Sigtool
open Spec (encryptChunks streamChunks sealedBody sealedMid sealedChunk lengthWord macInput headerPart headerBytes sessionKeys
  WrapForgery ChunkForgery react reaction OtherSignature)

theorem take4_marker {C : Bytes} (h : C.take 4 = [0x80, 0, 0, 0]) : C = lengthWord 0 true ++ C.drop 4 := by
  rw [lengthWord_marker, ← h, List.take_append_drop]

/-- The data of the genuine file from chunk `c` on. -/
theorem react_step (P : Prims) (L : Laws P) (dkey nonce : Bytes) (hk : dkey.length = 32) (hn : nonce.length = 12)
    (signed : Bool) (fuel i : Nat) (c : Bytes) (l : Bool) (hc : c.length < 2^30) (rest C : Bytes) :
    react signed (fuel + 1) (sealedChunk P dkey nonce i l c ++ rest) C =
      if C.take 4 = [0x80, 0, 0, 0] then (0, true)
      else if C.take (4 + c.length + 16) = sealedChunk P dkey nonce i l c then
        if l = true then
          if ((C.drop (4 + c.length + 16)).take 64).length = 64 ∧
            (signed = true → (C.drop (4 + c.length + 16)).take 64 = rest) then (c.length, true) else (0, false)
        else (c.length + (react signed fuel rest (C.drop (4 + c.length + 16))).1,
          (react signed fuel rest (C.drop (4 + c.length + 16))).2)
      else (0, false) := by
  have hl := sealedChunk_length P L dkey nonce hk hn i l c hc
  have h1 : ((sealedChunk P dkey nonce i l c ++ rest).take 4).foldl (fun a b => a * 256 + b.toNat) 0 =
      c.length + if l then 2^31 else 0 := by
    rw [sealedChunk, List.append_assoc]
    exact lengthWord_dec _ _ (by omega) _
  rw [react]
  dsimp only
  rw [h1]
  have h2 : (c.length + if l then 2^31 else 0) % 2^31 = c.length := by
    cases l
    · simp; omega
    · simp only [if_true]; omega
  rw [h2, List.take_left' hl, List.drop_left' hl]
  cases l
  · have : ¬ 2^31 ≤ c.length + 0 := by omega
    simp only [Bool.false_eq_true, if_false, if_neg this]
  · have : 2^31 ≤ c.length + 2^31 := by omega
    simp only [if_true, if_pos this]

theorem chunk_agrees {P : Prims} {dkey nonce : Bytes} {i n : Nat} {l : Bool} {c C : Bytes} 
    (h : C.take n = sealedChunk P dkey nonce i l c) : C = sealedChunk P dkey nonce i l c ++ C.drop n := by
  rw [← h, List.take_append_drop]

theorem react_run (P : Prims) (L : Laws P) (dkey hk nonce trailer body : Bytes) (all : List Bytes) (cs : Nat) (auth : Bool)
    (spk : Option PublicKey) (hall : all.length ≤ 2^32)
    (hto : auth = true → ∃ pk, spk = some pk ∧ P.edVerify pk.pk (signDigest P (P.hmac256 hk (macInput all))) trailer = true) :
    ∀ (chunks pre : List Bytes) (fuel fuel2 : Nat) (d : Decryptor) (wr : Writer) (hd : Bytes),
    all = pre ++ chunks → ChunksOk cs chunks → d.Ready dkey hk hd → hd ++ macInput chunks = macInput all →
    d.nonce = nonce → d.hdr.chunkSize = cs → d.auth = auth → d.sender = spk →
    body = sealedMid P dkey nonce 0 pre ++ d.rd.content → (∀ x ∈ pre, x.length < 2^30) → d.rd.content.length < fuel → chunks.length ≤ fuel2 → wr.NoFail →
    StrangeAt P dkey nonce all body ∨
    (auth = true ∧ ∃ pk, spk = some pk ∧ OtherSignature P pk.pk (P.hmac256 hk (macInput all)) trailer body) ∨
    ∃ r d' wr', Decryptor.decryptLoop P fuel d wr pre.length = (r, d', wr') ∧
      wr'.out = wr.out ++ chunks.flatten.take (react auth fuel2 (sealedBody P dkey nonce pre.length chunks ++ trailer) d.rd.content).1 ∧
      (react auth fuel2 (sealedBody P dkey nonce pre.length chunks ++ trailer) d.rd.content).1 ≤ chunks.flatten.length ∧
      (r == .ok ()) = (react auth fuel2 (sealedBody P dkey nonce pre.length chunks ++ trailer) d.rd.content).2 := by
  intro chunks
  induction chunks with
  | nil => intro pre fuel fuel2 d wr hd _ hc; exact absurd hc (by simp [ChunksOk])
  | cons c t ih =>
    intro pre fuel fuel2 d wr hd hpre hck hr hmac hnon hcs hauth hsend hsuf hpre30 hf hf2 hw
    obtain ⟨fuel, rfl⟩ : ∃ f, fuel = f + 1 := ⟨fuel - 1, by omega⟩
    obtain ⟨fuel2, rfl⟩ : ∃ f, fuel2 = f + 1 := ⟨fuel2 - 1, by simp at hf2; omega⟩
    have hcs30 := hr.chunk
    have hkl := hr.key
    have hnl := hr.nonce
    rw [hnon] at hnl
    have hlt : pre.length < all.length := by rw [hpre]; simp
    have hget : all[pre.length]? = some c := by rw [hpre]; simp
    have hlast : decide (pre.length + 1 = all.length) = t.isEmpty := by
      rw [hpre]; cases t <;> simp
    have hc30 : c.length ≤ cs ∧ (t ≠ [] → 0 < c.length ∧ ChunksOk cs t) := by
      by_cases ht : t = []
      · subst ht; simp only [ChunksOk] at hck; exact ⟨hck, fun h => absurd rfl h⟩
      · rw [ChunksOk_cons _ _ _ ht] at hck; exact ⟨hck.2.1, fun _ => ⟨hck.1, hck.2.2⟩⟩
    have hgen : ∃ rest, sealedBody P dkey nonce pre.length (c :: t) ++ trailer =
        sealedChunk P dkey nonce pre.length t.isEmpty c ++ rest ∧
        (t ≠ [] → rest = sealedBody P dkey nonce (pre.length + 1) t ++ trailer) ∧ (t = [] → rest = trailer) := by
      by_cases ht : t = []
      · subst ht; exact ⟨trailer, rfl, fun h => absurd rfl h, fun _ => rfl⟩
      · refine ⟨_, ?_, fun _ => rfl, fun h => absurd h ht⟩
        rw [sealedBody_cons _ _ _ _ _ _ ht, List.append_assoc]
        cases t
        · exact absurd rfl ht
        · rfl
    obtain ⟨rest, hg1, hg2, hg3⟩ := hgen
    rw [hg1, react_step P L dkey nonce hkl hnl auth fuel2 pre.length c t.isEmpty (by omega) rest d.rd.content]
    unfold Decryptor.decryptLoop
    -- the bare marker
    by_cases m1 : d.rd.content.take 4 = [0x80, 0, 0, 0]
    · obtain ⟨rd', h1, _⟩ := decryptBlock_empty P d dkey _ pre.length hr.ae (take4_marker m1)
      right; right
      rw [if_pos m1, h1]
      exact ⟨.ok (), { d with rd := rd', eof := true }, wr, by simp, by simp, by simp, by simp⟩
    rw [if_neg m1]
    have hne : c = [] → t.isEmpty = true → d.rd.content.take (4 + c.length + 16) ≠ sealedChunk P dkey nonce pre.length t.isEmpty c := by
      intro h0 ht h
      apply m1
      have := congrArg (List.take 4) h
      rw [List.take_take, h0, ht] at this
      simpa [sealedChunk, lengthWord_marker] using this
    -- whatever else the decryptor may do: fail, or find a strange chunk
    obtain ⟨r0, d0, hb, ho⟩ := decryptBlock_outcome P L d pre.length dkey hk hd hr
    have strange : ∀ (pt : Bytes) (l : Bool) (tail : Bytes), pt.length ≤ d.hdr.chunkSize →
        d.rd.content = sealedChunk P dkey d.nonce pre.length l pt ++ tail →
        P.aeadOpen dkey (be32 pre.length ++ d.nonce.drop 4) (P.aeadSeal dkey (be32 pre.length ++ d.nonce.drop 4) pt
          (lengthWord pt.length l)) (lengthWord pt.length l) = some pt →
        ¬ (c = pt ∧ l = t.isEmpty) → StrangeAt P dkey nonce all body := by
      intro pt l tail hpt hcont hopen hcon
      rw [hnon] at hcont hopen
      refine ⟨pre, pt, l, tail, hlt, hpre30, by omega, hopen, by rw [hsuf, hcont], ?_⟩
      rw [hget, hlast]
      rintro ⟨k1, k2⟩
      cases k1
      exact hcon ⟨rfl, k2⟩
    by_cases m2 : d.rd.content.take (4 + c.length + 16) = sealedChunk P dkey nonce pre.length t.isEmpty c
    · rw [if_pos m2]
      have hcont := chunk_agrees m2
      by_cases ht : t = []
      · -- the last chunk
        subst ht
        have h0 : 0 < c.length := by
          rcases Nat.eq_zero_or_pos c.length with h | h
          · exact absurd m2 (hne (List.length_eq_zero_iff.mp h) rfl)
          · exact h
        have hmac' : hd ++ lengthWord c.length true ++ c = macInput all := by
          rw [← hmac]; simp [macInput]
        simp only [List.isEmpty_nil, if_true] at hcont ⊢
        rw [hg3 rfl]
        split_ifs with m3
        · -- the trailer is fine
          by_cases hver : auth = true → ∃ pk, spk = some pk ∧ P.edVerify pk.pk (signDigest P (P.hmac256 hk (macInput all)))
              ((d.rd.content.drop (4 + c.length + 16)).take 64) = true
          · obtain ⟨rd', h1, _⟩ := decryptBlock_last P L d dkey hk hd c ((d.rd.content.drop (4 + c.length + 16)).take 64)
              ((d.rd.content.drop (4 + c.length + 16)).drop 64) pre.length hr h0 (by omega) m3.1
              (by rw [hmac']; intro ha; rw [hsend]; exact hver (by rw [← hauth]; exact ha))
              (by rw [hnon, List.take_append_drop]; exact hcont)
            right; right
            rw [h1]
            obtain ⟨wr', g1, g2, g3, _⟩ := fullwrite_noFail c wr hw
            simp only [gt_iff_lt, h0, if_true, g1]
            exact ⟨_, _, _, rfl, by rw [g2]; simp, by simp, by simp⟩
          · exfalso
            apply hver
            intro ha
            rw [m3.2 ha]
            exact hto ha
        · -- it is not
          rw [hb]
          cases ho with
          | failed x d' hd' hrd => right; right; exact ⟨_, _, _, rfl, by simp, by simp, by simp⟩
          | emptyEnd rd' hrd =>
            exfalso; apply m1; rw [hrd, lengthWord_marker]; rfl
          | mid pt rd' q0 qmax hrd hopen =>
            left; exact strange pt false _ qmax hrd hopen (by rintro ⟨_, h⟩; cases h)
          | last pt tr rd' q0 qmax qtr hrd hopen hver =>
            by_cases hs : c = pt
            · subst hs
              have e1 : d.rd.content.drop (4 + c.length + 16) = tr ++ rd'.content := by
                rw [hrd]
                exact List.drop_left' (sealedChunk_length P L dkey d.nonce hkl hr.nonce _ _ _ (by omega))
              rw [e1, List.take_left' qtr] at m3
              right; left
              by_cases ha : auth = true
              · obtain ⟨pk, v1, v2⟩ := hver (by rw [hauth]; exact ha)
                rw [hsend] at v1
                refine ⟨ha, pk, v1, tr, qtr, fun h => m3 ⟨qtr, fun _ => h⟩, ?_, ?_⟩
                · exact ⟨sealedMid P dkey nonce 0 pre ++ sealedChunk P dkey d.nonce pre.length true c, rd'.content,
                    by rw [hsuf, hrd]; simp⟩
                · rw [hmac', signDigest_spec] at v2; exact v2
              · exact absurd ⟨qtr, fun h => absurd h ha⟩ m3
            · left; exact strange pt true _ qmax hrd hopen (by rintro ⟨h, _⟩; exact hs h)
      · -- another one follows
        have hte : t.isEmpty = false := by cases t; · exact absurd rfl ht
                                           · rfl
        rw [hte] at hcont
        simp only [hte, Bool.false_eq_true, if_false]
        obtain ⟨h0, hct⟩ := hc30.2 ht
        obtain ⟨rd', h1, h2⟩ := decryptBlock_mid P L d dkey hk hd c (d.rd.content.drop (4 + c.length + 16)) pre.length hr h0
          (by omega) (by rw [hnon]; exact hcont)
        rw [h1]
        obtain ⟨wr', g1, g2, g3, _⟩ := fullwrite_noFail c wr hw
        have h0' : c.length > 0 := h0
        simp only [h0', if_true, g1, Bool.false_eq_true, if_false]
        have hlt2 : pre.length + 1 < all.length := by
          have : pre.length + 1 ≠ all.length := by simpa [hte] using hlast
          omega
        have hi : (pre.length + 1) % 2^32 = (pre ++ [c]).length := by
          rw [List.length_append, List.length_singleton]; omega
        rw [hi, hg2 ht]
        have hclen : d.rd.content.length = 4 + c.length + 16 + (d.rd.content.drop (4 + c.length + 16)).length := by
          conv_lhs => rw [hcont]
          rw [List.length_append, sealedChunk_length P L dkey nonce hkl hnl _ _ _ (by omega)]
        have key := ih (pre ++ [c]) fuel fuel2
          { d with rd := rd', hmac := some (hk, hd ++ lengthWord c.length false ++ c) } wr'
          (hd ++ lengthWord c.length false ++ c) (by rw [hpre]; simp) hct
          ⟨hr.ae, rfl, hr.buf, hr.chunk, hr.key, hr.nonce, hr.sender⟩
          (by rw [← hmac, macInput_cons _ _ ht]; simp) hnon hcs hauth hsend
          (by
            rw [sealedMid_append, h2, hsuf]
            simp only [Nat.zero_add, sealedMid, List.append_nil, List.append_assoc]
            rw [← hcont])
          (by
            intro x hx
            rcases List.mem_append.mp hx with hx | hx
            · exact hpre30 x hx
            · rw [List.mem_singleton.mp hx]; omega)
          (by rw [h2]; omega) (by simp at hf2; omega) g3
        rcases key with key | key | ⟨r, d', w', k1, k2, k3, k4⟩
        · exact .inl key
        · exact .inr (.inl key)
        · right; right
          simp only [h2, List.length_append, List.length_singleton] at k1 k2 k3 k4 ⊢
          refine ⟨r, d', w', k1, ?_, ?_, k4⟩
          · rw [k2, g2, List.flatten_cons, List.append_assoc]
            congr 1
            rw [List.take_append, Nat.add_sub_cancel_left, List.take_of_length_le (Nat.le_add_right _ _)]
          · rw [List.flatten_cons, List.length_append]; omega
    · -- the chunk is another one
      rw [if_neg m2, hb]
      cases ho with
      | failed x d' hd' hrd => right; right; exact ⟨_, _, _, rfl, by simp, by simp, by simp⟩
      | emptyEnd rd' hrd => exfalso; apply m1; rw [hrd, lengthWord_marker]; rfl
      | mid pt rd' q0 qmax hrd hopen =>
        left
        refine strange pt false _ qmax hrd hopen ?_
        rintro ⟨rfl, h⟩
        apply m2
        rw [hrd, hnon, ← h]
        exact List.take_left' (sealedChunk_length P L dkey nonce hkl hnl _ _ _ (by omega))
      | last pt tr rd' q0 qmax qtr hrd hopen hver =>
        left
        refine strange pt true _ qmax hrd hopen ?_
        rintro ⟨rfl, h⟩
        apply m2
        rw [hrd, hnon, ← h]
        exact List.take_left' (sealedChunk_length P L dkey nonce hkl hnl _ _ _ (by omega))

/-- A strange chunk at its place is an AEAD forgery. -/
theorem StrangeAt.forgery {P : Prims} {dkey nonce : Bytes} {chunks : List Bytes} {body : Bytes} (hall : chunks.length ≤ 2^32)
    (hc : ∀ c ∈ chunks, c.length < 2^30) (h : StrangeAt P dkey nonce chunks body) : ChunkForgery P dkey nonce chunks body := by
  obtain ⟨mid, c, l, rest, h1, _, h3, h4, h5, h6⟩ := h
  refine ⟨mid.length, lengthWord c.length l, _, c, by omega, lengthWord_length _ _, ?_, h4, ?_⟩
  · refine ⟨sealedMid P dkey nonce 0 mid, rest, ?_⟩
    rw [h5, sealedChunk]; simp
  · rintro ⟨k1, k2⟩
    have := hc c (List.mem_of_getElem? k1)
    exact h6 ⟨k1, (lengthWord_inj _ _ _ _ (by omega) (by omega) k2).2⟩

/-- The lengths of the two fronts agree with the header. -/
theorem Sending.front {P : Prims} (L : Laws P) {sender : Option PrivateKey} {blk : Nat} {c : EncCoins}
    {rcpts : List (PublicKey × Bytes)} {e : Encryptor} {plain : Bytes} {chunks : List Bytes} {file : Bytes}
    (h : Sending P sender blk c rcpts e plain chunks file) :
    Spec.front file = headerPart e.hdr ++ P.sha256 (headerPart e.hdr) := by
  obtain ⟨epk, ws, coin, hok, _, _, _, _, hform, _⟩ := h.facts L
  obtain ⟨v, _, _, hv3⟩ := headerBytes_len P L _ _ _ _ e epk ws h.coins h.nonces hok
  have hcount := h.count
  rw [hform]
  exact front_eq P L _ _ (by omega)

theorem front_split (file : Bytes) : file = Spec.front file ++ file.drop (Spec.front file).length := by
  unfold Spec.front
  rw [List.length_take]
  rcases Nat.le_total (12 + ((file.drop 8).take 4).foldl (fun a b => a * 256 + b.toNat) 0 + 32) file.length with h | h
  · rw [Nat.min_eq_left h, List.take_append_drop]
  · rw [Nat.min_eq_right h, List.take_of_length_le h, List.drop_length, List.append_nil]

/-- `C132_reaction` below, with the place of the strange chunk. -/
theorem reaction_at (P : Prims) (L : Laws P)
    (sender : Option PrivateKey) (blk : Nat) (c : EncCoins) (rcpts : List (PublicKey × Bytes)) (e : Encryptor)
    (plain : Bytes) (chunks : List Bytes) (file : Bytes) (h : Sending P sender blk c rcpts e plain chunks file)
    (hn : chunks.length ≤ 2^32)
    (sk : PrivateKey) (seed : Bytes) (spk : Option PublicKey) (hr : Receiving P sender rcpts sk seed spk)
    (changed : Bytes) (hfront : Spec.front changed = Spec.front file) (rd2 : Reader) (hrd2 : rd2.content = changed)
    (out : Writer) (hout : out.NoFail) :
    let k := sessionKeys P c.key (P.sha256 (headerPart e.hdr))
    (∃ r ∈ rcpts, WrapForgery P (clamp c.csk) c.salt c.key r.1.pk r.2 seed) ∨
    StrangeAt P k.2.1 k.1 chunks (changed.drop (Spec.front file).length) ∨
    (∃ s, sender = some s ∧ OtherSignature P s.pub.pk (P.hmac256 k.2.2 (macInput chunks)) (file.drop (file.length - 64))
      (changed.drop (Spec.front file).length)) ∨
    ∃ d, setupDecryptor P rd2 sk spk = .ok d ∧ ∃ r d' out', d.decrypt P out = (r, d', out') ∧
      out'.out = out.out ++ plain.take (reaction sender.isSome file changed).1 ∧
      out'.out.length = out.out.length + (reaction sender.isSome file changed).1 ∧
      (r = .ok () ↔ (reaction sender.isSome file changed).2 = true) := by
  dsimp only
  have hf := h.front L
  obtain ⟨epk, ws, coin, hok, hfr, hk, hbs, hcoin, hform, hck, hfl, hne⟩ := h.facts L
  have hkeys : e.keys P = sessionKeys P c.key (P.sha256 (headerPart e.hdr)) := by rw [Encryptor.keys_eq, hk]
  have hchanged : changed = headerPart e.hdr ++ P.sha256 (headerPart e.hdr) ++ changed.drop (Spec.front file).length := by
    have := front_split changed
    rw [hfront] at this
    conv_lhs => rw [this]
    rw [hf]
  rcases h.opens L hr rd2 _ (by rw [hrd2]; exact hchanged) with hw | ⟨d, g1, g2⟩
  · exact .inl hw
  right
  have htl := trailerOf_len P L e hfr.sender (e.keys P).2.2 (macInput chunks) coin hcoin
  have hbody : file.drop (Spec.front file).length = sealedBody P (e.keys P).2.1 (e.keys P).1 0 chunks ++
      e.trailerOf P (e.keys P).2.2 (macInput chunks) coin := by
    rw [hf]
    conv_lhs => rw [hform]
    exact List.drop_left' rfl
  have htrailer : file.drop (file.length - 64) = e.trailerOf P (e.keys P).2.2 (macInput chunks) coin := by
    have e1 : file = (headerPart e.hdr ++ P.sha256 (headerPart e.hdr) ++ sealedBody P (e.keys P).2.1 (e.keys P).1 0 chunks) ++
        e.trailerOf P (e.keys P).2.2 (macInput chunks) coin := by rw [hform]; simp
    conv_lhs => rw [e1]
    exact List.drop_left' (by
      generalize headerPart e.hdr ++ P.sha256 (headerPart e.hdr) ++ sealedBody P (e.keys P).2.1 (e.keys P).1 0 chunks = X
      rw [List.length_append, htl]; omega)
  have hlen : chunks.length ≤ file.length := by
    have h1 : chunks.length ≤ (sealedBody P (e.keys P).2.1 (e.keys P).1 0 chunks).length := by
      rcases List.eq_nil_or_concat chunks with rfl | ⟨m, x, rfl⟩
      · simp
      · rw [List.concat_eq_append, sealedBody_snoc]
        have := sealedMid_ge P (e.keys P).2.1 (e.keys P).1 m 0
        simp [sealedChunk]; omega
    have h2 := congrArg List.length hform
    simp only [List.length_append] at h2
    omega
  rcases react_run P L (e.keys P).2.1 (e.keys P).2.2 (e.keys P).1 (e.trailerOf P (e.keys P).2.2 (macInput chunks) coin)
    (changed.drop (Spec.front file).length) chunks e.hdr.chunkSize sender.isSome spk hn
    (by
      intro ha
      have := Opened.trailerOk L hok h.hsender hr.named g2 (e.keys P).2.2 (macInput chunks) coin (by rw [g2.auth]; exact ha)
      rw [g2.sender] at this
      exact this) chunks [] (d.rd.content.length + 1) file.length d out [] rfl hck g2.ready (by simp) g2.nonce (by rw [g2.hdr]) g2.auth
      g2.sender (by rw [g2.body]; rfl) (by simp) (by omega) hlen hout with k | ⟨ha, pk, hp, k⟩ | ⟨r, d', out', k1, k2, k3, k4⟩
  · left; rw [← hkeys]; exact k
  · right; left
    obtain ⟨s, hs⟩ := Option.isSome_iff_exists.mp ha
    obtain ⟨p, q1, q2⟩ := hr.named s hs
    rw [hp] at q1; cases q1
    exact ⟨s, hs, by rw [← q2, ← hkeys, htrailer]; exact k⟩
  · right; right
    have er : react sender.isSome file.length (sealedBody P (e.keys P).2.1 (e.keys P).1 0 chunks ++
        e.trailerOf P (e.keys P).2.2 (macInput chunks) coin) d.rd.content = reaction sender.isSome file changed := by
      unfold Spec.reaction
      rw [hbody, g2.body]
    simp only [List.length_nil, er, hfl] at k1 k2 k3 k4
    refine ⟨d, g1, r, d', out', ?_, k2, by rw [k2, List.length_append, List.length_take, Nat.min_eq_left k3], ?_⟩
    · unfold Decryptor.decrypt
      rw [g2.key, g2.stream, g2.eof]
      exact k1
    · rw [← k4]; simp

/-- **C132.** For every sending session (any sender or none, block size below 2^30, recipients, input, in at most 2^32 chunks),
every listed recipient who knows the sender, every changed file with the same header in any delivery, and every destination
that takes what it is given: `NewDecryptor` and `SetPrivateKey` succeed, and how many bytes `Decrypt` writes and whether it
returns an error is what `reaction` computes from the file and the changed file alone (and from whether the file is signed);
what it writes is the first bytes of the plaintext - unless the changed file contains an AEAD forgery or another signature of
the same message (or a wrapped key opens for somebody else).  So a recipient's reactions tell nobody anything about plaintext
or keys that he could not compute before. -/
theorem C132_reaction (P : Prims) (L : Laws P)
    (sender : Option PrivateKey) (blk : Nat) (c : EncCoins) (rcpts : List (PublicKey × Bytes)) (e : Encryptor)
    (plain : Bytes) (chunks : List Bytes) (file : Bytes) (h : Sending P sender blk c rcpts e plain chunks file)
    (hn : chunks.length ≤ 2^32)
    (sk : PrivateKey) (seed : Bytes) (spk : Option PublicKey) (hr : Receiving P sender rcpts sk seed spk)
    (changed : Bytes) (hfront : Spec.front changed = Spec.front file) (rd2 : Reader) (hrd2 : rd2.content = changed)
    (out : Writer) (hout : out.NoFail) :
    let k := sessionKeys P c.key (P.sha256 (headerPart e.hdr))
    (∃ r ∈ rcpts, WrapForgery P (clamp c.csk) c.salt c.key r.1.pk r.2 seed) ∨
    ChunkForgery P k.2.1 k.1 chunks (changed.drop (Spec.front file).length) ∨
    (∃ s, sender = some s ∧ OtherSignature P s.pub.pk (P.hmac256 k.2.2 (macInput chunks)) (file.drop (file.length - 64))
      (changed.drop (Spec.front file).length)) ∨
    ∃ d, setupDecryptor P rd2 sk spk = .ok d ∧ ∃ r d' out', d.decrypt P out = (r, d', out') ∧
      out'.out = out.out ++ plain.take (reaction sender.isSome file changed).1 ∧
      out'.out.length = out.out.length + (reaction sender.isSome file changed).1 ∧
      (r = .ok () ↔ (reaction sender.isSome file changed).2 = true) := by
  rcases reaction_at P L sender blk c rcpts e plain chunks file h hn sk seed spk hr changed hfront rd2 hrd2 out hout with
    k | k | k | k
  · exact .inl k
  · obtain ⟨epk, ws, coin, hok, hfr, hk, hbs, hcoin, hform, hck, hfl, hne⟩ := h.facts L
    refine .inr (.inl (k.forgery hn fun x hx => lt_of_le_of_lt (hck.le x hx) ?_))
    rw [hbs, ← chooseBlock_eq]
    exact chooseBlock_lt blk h.hblk
  · exact .inr (.inr (.inl k))
  · exact .inr (.inr (.inr k))

/-- Another trailer behind the same chunks. -/
theorem react_trailer (P : Prims) (L : Laws P) (dkey nonce : Bytes) (hk : dkey.length = 32) (hn : nonce.length = 12)
    (signed : Bool) (cs : Nat) (hcs : cs < 2^30) (trailer other : Bytes) (ho : 64 ≤ other.length) :
    ∀ (chunks : List Bytes) (i fuel : Nat), ChunksOk cs chunks → chunks.length ≤ fuel →
    react signed fuel (sealedBody P dkey nonce i chunks ++ trailer) (sealedBody P dkey nonce i chunks ++ other) =
      if signed = true ∧ chunks.getLast? ≠ some [] ∧ other.take 64 ≠ trailer then (chunks.dropLast.flatten.length, false)
      else (chunks.flatten.length, true) := by
  intro chunks
  induction chunks with
  | nil => intro i fuel h; exact absurd h (by simp [ChunksOk])
  | cons c t ih =>
    intro i fuel hck hf
    obtain ⟨fuel, rfl⟩ : ∃ f, fuel = f + 1 := ⟨fuel - 1, by simp at hf; omega⟩
    have word : ∀ (l : Bool) (rest : Bytes), c.length ≤ cs → (l = false ∨ 0 < c.length) → (l = true ∨ 0 < c.length) →
        (sealedChunk P dkey nonce i l c ++ rest).take 4 ≠ [0x80, 0, 0, 0] := by
      intro l rest h1 h2 h3 h
      have e1 : lengthWord c.length l = [0x80, 0, 0, 0] := by
        rw [← h, sealedChunk, List.append_assoc, List.take_left' (lengthWord_length _ _)]
      rw [← lengthWord_marker] at e1
      obtain ⟨q1, q2⟩ := lengthWord_inj _ _ _ _ (by omega) (by omega) e1
      rcases h2 with h2 | h2
      · rw [h2] at q2; cases q2
      · omega
    by_cases ht : t = []
    · subst ht
      simp only [ChunksOk] at hck
      have hl := sealedChunk_length P L dkey nonce hk hn i true c (by omega)
      have e1 : sealedBody P dkey nonce i [c] = sealedChunk P dkey nonce i true c := rfl
      rw [e1, react_step P L dkey nonce hk hn signed fuel i c true (by omega), List.take_left' hl, List.drop_left' hl, if_pos rfl, if_pos rfl]
      have ho' : (other.take 64).length = 64 := by rw [List.length_take]; omega
      by_cases hc0 : c = []
      · subst hc0
        rw [if_pos (by
          rw [sealedChunk, List.append_assoc, List.take_left' (lengthWord_length _ _)]
          exact lengthWord_marker)]
        simp
      · have := List.length_pos_iff.mpr hc0
        rw [if_neg (word true other hck (.inr this) (.inl rfl))]
        cases signed
        · rw [if_pos ⟨ho', fun h => absurd h (by simp)⟩]; simp
        · by_cases hne : other.take 64 = trailer
          · rw [if_pos ⟨ho', fun _ => hne⟩, if_neg (fun h => h.2.2 hne)]; simp
          · rw [if_neg (fun h => hne (h.2 rfl)), if_pos ⟨rfl, by simpa using hc0, hne⟩]; simp
    · rw [ChunksOk_cons _ _ _ ht] at hck
      obtain ⟨h0, h1, hct⟩ := hck
      have hl := sealedChunk_length P L dkey nonce hk hn i false c (by omega)
      have e1 : sealedBody P dkey nonce i (c :: t) = sealedChunk P dkey nonce i false c ++ sealedBody P dkey nonce (i + 1) t := by
        rw [sealedBody_cons _ _ _ _ _ _ ht]
        try rfl
      rw [e1, List.append_assoc, List.append_assoc, react_step P L dkey nonce hk hn signed fuel i c false (by omega),
        List.take_left' hl, List.drop_left' hl, if_neg (word false _ h1 (.inl rfl) (.inr h0)), if_pos rfl,
        if_neg (by simp), ih (i + 1) fuel hct (by simp at hf; omega)]
      rw [List.getLast?_cons_of_ne_nil ht, List.dropLast_cons_of_ne_nil ht]
      split_ifs <;> simp

/-- The reaction to a file with anything in the place of its last 64 bytes. -/
theorem Sending.replaced {P : Prims} (L : Laws P)
    {sender : Option PrivateKey} {blk : Nat} {c : EncCoins} {rcpts : List (PublicKey × Bytes)} {e : Encryptor}
    {plain : Bytes} {chunks : List Bytes} {file : Bytes} (h : Sending P sender blk c rcpts e plain chunks file)
    (other : Bytes) (ho : 64 ≤ other.length) :
    Spec.front (file.take (file.length - 64) ++ other) = Spec.front file ∧
    reaction sender.isSome file (file.take (file.length - 64) ++ other) =
      if sender.isSome = true ∧ chunks.getLast? ≠ some [] ∧ other.take 64 ≠ file.drop (file.length - 64) then (chunks.dropLast.flatten.length, false)
      else (plain.length, true) := by
  have hf := h.front L
  obtain ⟨epk, ws, coin, hok, hfr, hk, hbs, hcoin, hform, hck, hfl, hne0⟩ := h.facts L
  have htl := trailerOf_len P L e hfr.sender (e.keys P).2.2 (macInput chunks) coin hcoin
  have hlen : (e.keys P).2.1.length = 32 ∧ (e.keys P).1.length = 12 := by
    rw [Encryptor.keys_eq]
    have := L.hkdf_len e.key (P.sha256 (headerPart e.hdr)) (ascii "Data Key Expansion") 76 (by omega)
    constructor <;> simp [sessionKeys, this]
  obtain ⟨hkl, hnl⟩ := hlen
  set front := headerPart e.hdr ++ P.sha256 (headerPart e.hdr) with hfd
  set body := sealedBody P (e.keys P).2.1 (e.keys P).1 0 chunks with hbd
  set trailer := e.trailerOf P (e.keys P).2.2 (macInput chunks) coin with htd
  have hcount := h.count
  have hhl : (headerBytes e.hdr).length < 2^32 := by
    obtain ⟨v, _, _, hv3⟩ := headerBytes_len P L _ _ _ _ e epk ws h.coins h.nonces hok
    omega
  have hlen : file.length - 64 = (front ++ body).length := by
    rw [hform]; simp only [List.length_append, htl]; omega
  have e1 : file = (front ++ body) ++ trailer := by rw [hform]; exact (List.append_assoc front body trailer).symm
  have e2 : file.drop (file.length - 64) = trailer := by rw [hlen, e1]; exact List.drop_left' rfl
  have e3 : file.take (file.length - 64) ++ other = front ++ (body ++ other) := by
    rw [hlen, e1, List.take_left' rfl, List.append_assoc]
  rw [e2]
  have hcl : chunks.length ≤ file.length := by
    have h1 : chunks.length ≤ body.length := by
      rcases List.eq_nil_or_concat chunks with rfl | ⟨m, x, rfl⟩
      · simp
      · rw [hbd, List.concat_eq_append, sealedBody_snoc]
        have := sealedMid_ge P (e.keys P).2.1 (e.keys P).1 m 0
        simp [sealedChunk]; omega
    rw [e1]; simp only [List.length_append]; omega
  constructor
  · rw [e3, hf]; exact front_eq P L _ _ hhl
  · have e4 := react_trailer P L (e.keys P).2.1 (e.keys P).1 hkl hnl sender.isSome e.hdr.chunkSize
      (by rw [hbs, ← chooseBlock_eq]; exact chooseBlock_lt blk h.hblk)  trailer other ho chunks 0 file.length hck hcl
    unfold Spec.reaction
    rw [hf, e3, List.drop_left' rfl]
    conv_lhs => arg 3; rw [hform]
    rw [List.drop_left' rfl, ← hfl]
    exact e4

/-- **C132.** A recipient's reaction does tell whether a file is signed (the file itself does not): put any other 64 bytes in
the place of the last 64 of a file; the recipient of an unsigned file gets the whole plaintext and no error, and the recipient
of a signed one gets the plaintext without its last chunk, and an error - except when the last chunk is empty: then the
trailer is read by nobody. -/
theorem C132_signed (P : Prims) (L : Laws P)
    (sender : Option PrivateKey) (blk : Nat) (c : EncCoins) (rcpts : List (PublicKey × Bytes)) (e : Encryptor)
    (plain : Bytes) (chunks : List Bytes) (file : Bytes) (h : Sending P sender blk c rcpts e plain chunks file)
    (other : Bytes) (ho : other.length = 64) (hne : other ≠ file.drop (file.length - 64)) :
    Spec.front (file.take (file.length - 64) ++ other) = Spec.front file ∧
    reaction sender.isSome file (file.take (file.length - 64) ++ other) =
      if sender.isSome = true ∧ chunks.getLast? ≠ some [] then (chunks.dropLast.flatten.length, false)
      else (plain.length, true) := by
  obtain ⟨h1, h2⟩ := h.replaced L other (Nat.le_of_eq ho.symm)
  refine ⟨h1, ?_⟩
  rw [h2, List.take_of_length_le (Nat.le_of_eq ho)]
  by_cases hs : sender.isSome = true ∧ chunks.getLast? ≠ some []
  · rw [if_pos hs, if_pos ⟨hs.1, hs.2, hne⟩]
  · rw [if_neg hs, if_neg (fun h => hs ⟨h.1, h.2.1⟩)]

/-- Anything behind a file is ignored. -/
theorem Sending.appended {P : Prims} (L : Laws P)
    {sender : Option PrivateKey} {blk : Nat} {c : EncCoins} {rcpts : List (PublicKey × Bytes)} {e : Encryptor}
    {plain : Bytes} {chunks : List Bytes} {file : Bytes} (h : Sending P sender blk c rcpts e plain chunks file) (x : Bytes) :
    Spec.front (file ++ x) = Spec.front file ∧ reaction sender.isSome file (file ++ x) = (plain.length, true) := by
  obtain ⟨epk, ws, coin, hok, hfr, hk, hbs, hcoin, hform, hck, hfl, hne0⟩ := h.facts L
  have htl := trailerOf_len P L e hfr.sender (e.keys P).2.2 (macInput chunks) coin hcoin
  have hlen : (file.drop (file.length - 64)).length = 64 := by
    have : 64 ≤ file.length := by rw [hform]; simp only [List.length_append, htl]; omega
    rw [List.length_drop]; omega
  obtain ⟨h1, h2⟩ := h.replaced L (file.drop (file.length - 64) ++ x) (by rw [List.length_append, hlen]; omega)
  rw [← List.append_assoc, List.take_append_drop] at h1 h2
  refine ⟨h1, ?_⟩
  rw [h2, List.take_left' hlen, if_neg (fun h => h.2.2 rfl)]

/-- The rule on literals (the chunks are not real ones: no key is needed): two chunks of 1 and 2 bytes and a trailer.  The
unchanged file; a changed byte in the second chunk; the end marker in its place; another trailer; the file cut short. -/
def Demo.genuineBody : Bytes :=
  [0, 0, 0, 1] ++ List.replicate 17 7 ++ [0x80, 0, 0, 2] ++ List.replicate 18 8 ++ List.replicate 64 9

example : react true 200 Demo.genuineBody Demo.genuineBody = (3, true) ∧
    react true 200 Demo.genuineBody (Demo.genuineBody.set 26 0) = (1, false) ∧
    react true 200 Demo.genuineBody (Demo.genuineBody.take 21 ++ [0x80, 0, 0, 0]) = (1, true) ∧
    react true 200 Demo.genuineBody (Demo.genuineBody.take 43 ++ List.replicate 64 0) = (1, false) ∧
    react false 200 Demo.genuineBody (Demo.genuineBody.take 43 ++ List.replicate 64 0) = (3, true) ∧
    react false 200 Demo.genuineBody (Demo.genuineBody.take 106) = (1, false) := by decide +kernel

/-- The hypotheses of `C132_signed` are met: Carol sees an error if the last 64 bytes of a file from Alice are changed. -/
example : ∃ e bytes, Sending toyPrims (some Demo.alice) 4 Demo.coins Demo.rcpts e [1, 2, 3, 4, 5, 6]
    [[1, 2, 3, 4], [5, 6]] bytes ∧ ∀ other : Bytes, other.length = 64 → other ≠ bytes.drop (bytes.length - 64) →
    reaction true bytes (bytes.take (bytes.length - 64) ++ other) = (4, false) := by
  obtain ⟨e, bytes, hs⟩ := Demo.sending_stream
  refine ⟨e, bytes, hs, fun other ho hne => ?_⟩
  have := (C132_signed toyPrims toyLaws _ _ _ _ e _ _ bytes hs other ho hne).2
  simpa using this

/-- The hypotheses of `C132_reaction` are met, and nothing is forged: the file itself with anything behind it. -/
example (x : Bytes) : ∃ e bytes, Sending toyPrims (some Demo.alice) 4 Demo.coins Demo.rcpts e [1, 2, 3, 4, 5, 6]
    [[1, 2, 3, 4], [5, 6]] bytes ∧ Spec.front (bytes ++ x) = Spec.front bytes ∧
    reaction true bytes (bytes ++ x) = (6, true) := by
  obtain ⟨e, bytes, hs⟩ := Demo.sending_stream
  exact ⟨e, bytes, hs, (hs.appended toyLaws x).1, (hs.appended toyLaws x).2⟩

end Sigtool
