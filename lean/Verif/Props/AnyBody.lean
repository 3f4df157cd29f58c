import Verif.HeaderLemmas
import Verif.Props.StreamReader
/-!
# C26, C54: `Decrypt` on an arbitrary input
-/

namespace Sigtool
open Spec (encryptChunks streamChunks lengthWord sealedChunk sealedBody macInput headerPart sessionKeys container
  headerBytes wrappingKey wrapFor unwrapAs WrapForgery)

/-- One chunk as found in the input: length word, ciphertext, and the plaintext it opened to. -/
structure Frame where
  word : Bytes
  ct : Bytes
  pt : Bytes

/-- The frame at position `j` opens under the data key, with its position as nonce and its length word as additional
data, and its plaintext has between 1 and `max` bytes. -/
def Frame.Valid (P : Prims) (key nonce : Bytes) (max j : Nat) (f : Frame) : Prop :=
  f.word.length = 4 ∧ P.aeadOpen key (be32 j ++ nonce.drop 4) f.ct f.word = some f.pt ∧ 0 < f.pt.length ∧
    f.pt.length ≤ max

def framesOf (P : Prims) (dkey nonce : Bytes) : Nat → List Bytes → List Frame
  | _, [] => []
  | i, c :: cs => ⟨lengthWord c.length false, P.aeadSeal dkey (be32 i ++ nonce.drop 4) c (lengthWord c.length false), c⟩ ::
      framesOf P dkey nonce (i + 1) cs

theorem framesOf_bytes (P : Prims) (dkey nonce : Bytes) (mid : List Bytes) : ∀ i,
    (framesOf P dkey nonce i mid).flatMap (fun f => f.word ++ f.ct) = sealedMid P dkey nonce i mid := by
  induction mid with
  | nil => intro i; rfl
  | cons c cs ih => intro i; simp [framesOf, sealedMid, ih, sealedChunk]

theorem framesOf_pt (P : Prims) (dkey nonce : Bytes) (mid : List Bytes) : ∀ i,
    (framesOf P dkey nonce i mid).map Frame.pt = mid := by
  induction mid with
  | nil => intro i; rfl
  | cons c cs ih => intro i; simp [framesOf, ih]

theorem framesOf_length (P : Prims) (dkey nonce : Bytes) (mid : List Bytes) (i : Nat) :
    (framesOf P dkey nonce i mid).length = mid.length := by
  have := congrArg List.length (framesOf_pt P dkey nonce mid i)
  simpa using this

theorem framesOf_valid (P : Prims) (dkey nonce : Bytes) (max : Nat) (mid : List Bytes) : ∀ i,
    OpensAt P dkey nonce i mid → MidOk max mid →
    ∀ (j : Nat) (f : Frame), (framesOf P dkey nonce i mid)[j]? = some f → f.Valid P dkey nonce max (i + j) := by
  induction mid with
  | nil => intro i _ _ j f h; simp [framesOf] at h
  | cons c cs ih =>
    intro i ho hm j f h
    cases j with
    | zero =>
      simp only [framesOf, List.getElem?_cons_zero, Option.some.injEq] at h
      subst h
      exact ⟨rfl, ho.1, (hm c (by simp)).1, (hm c (by simp)).2⟩
    | succ j =>
      simp only [framesOf, List.getElem?_cons_succ] at h
      have := ih (i+1) ho.2 (fun c hc => hm c (List.mem_cons_of_mem _ hc)) j f h
      rwa [Nat.add_assoc, Nat.add_comm 1 j] at this

theorem getElem?_snoc_frame {fs : List Frame} {g f : Frame} {j : Nat} (h : (fs ++ [g])[j]? = some f) :
    fs[j]? = some f ∨ (j = fs.length ∧ f = g) := by
  rw [List.getElem?_append] at h
  split at h
  · exact Or.inl h
  · rename_i hj
    right
    have h1 : (j - fs.length) < 1 := by
      by_contra hc
      rw [List.getElem?_eq_none (by simp; omega)] at h
      cases h
    have h2 : j - fs.length = 0 := by omega
    rw [h2] at h
    simp only [List.getElem?_cons_zero, Option.some.injEq] at h
    exact ⟨by omega, h.symm⟩

/-- The call on a prepared decryptor. -/
theorem decrypt_any (P : Prims) (L : Laws P) (rd : Reader) (sk : PrivateKey) (spk : Option PublicKey) (d : Decryptor)
    (h : setupDecryptor P rd sk spk = .ok d) (wr : Writer) :
    ∃ key r d' wr', d.key = some key ∧ d.decrypt P wr = (r, d', wr') ∧
      DecOutcome P d 0 (sessionKeys P key d.hdrsum).2.1 (sessionKeys P key d.hdrsum).2.2 [] wr r d' wr' ∧
      d.nonce = (sessionKeys P key d.hdrsum).1 := by
  obtain ⟨d0, rd', hb, key, ha, hk, hr, h1, h2, h3, h4, h5, h6, h7, h8⟩ := setupDecryptor_ok P L rd sk spk d h
  rw [← h6] at hr h8
  obtain ⟨r, d', wr', g1, g2⟩ := decryptLoop_outcome P L _ _ (d.rd.content.length + 1) d wr 0 [] hr (by omega)
  refine ⟨key, r, d', wr', h4, ?_, g2, h8⟩
  unfold Decryptor.decrypt
  rw [h4]
  simp only [h2, h3, Bool.false_eq_true, if_false]
  exact g1

/-- **C26** For every input whatsoever (bytes, delivery, read error), private key and optional sender key: if
`NewDecryptor` and `SetPrivateKey` returned nil then `Decrypt` to any destination returns nil or an error; it does not
crash (no slice out of range, no nil dereference) and it does not loop for ever (out-of-fuel would be a crash here). -/
theorem C26_decrypt_total (P : Prims) (L : Laws P) (rd : Reader) (sk : PrivateKey) (spk : Option PublicKey) (d : Decryptor)
    (h : setupDecryptor P rd sk spk = .ok d) (wr : Writer) :
    (∃ d' wr', d.decrypt P wr = (.ok (), d', wr')) ∨ (∃ x d' wr', d.decrypt P wr = (.err x, d', wr')) := by
  obtain ⟨key, r, d', wr', _, h2, h3, _⟩ := decrypt_any P L rd sk spk d h wr
  cases h3 with
  | endedEmpty => exact Or.inl ⟨_, _, h2⟩
  | endedFull => exact Or.inl ⟨_, _, h2⟩
  | badInput => exact Or.inr ⟨_, _, _, h2⟩
  | writeFailed => exact Or.inr ⟨_, _, _, h2⟩

/-- **C26** for the stream reader: no `Read`, in any sequence, crashes. -/
theorem C26_reader_total (P : Prims) (L : Laws P) (rd : Reader) (sk : PrivateKey) (spk : Option PublicKey) (d : Decryptor)
    (h : setupDecryptor P rd sk spk = .ok d) :
    ∃ r d1, d.newStreamReader = (.ok r, d1) ∧ ∀ caps : List Nat, (∀ c ∈ caps, 0 < c) →
      ∀ res ∈ (r.readAll P d1 caps).1, ∀ why, res ≠ .panic why := by
  obtain ⟨d0, rd', hb, key, ha, hk, hr, h1, h2, h3, h4, _⟩ := setupDecryptor_ok P L rd sk spk d h
  have hw : ({} : Writer).NoFail := by intro k e; simp
  have hnp : ∃ res d' wr', d.decrypt P {} = (res, d', wr') ∧ ∀ why, res ≠ .panic why := by
    rcases C26_decrypt_total P L rd sk spk d h {} with ⟨d', wr', g⟩ | ⟨x, d', wr', g⟩
    · exact ⟨_, _, _, g, by simp⟩
    · exact ⟨_, _, _, g, by simp⟩
  obtain ⟨res, d', wr', g1, g2⟩ := hnp
  obtain ⟨r, d1, T, k1, _, k3⟩ := C04_reader_matches_decrypt P d key h4 h2 h3 {} hw res d' wr' g1 g2
  refine ⟨r, d1, k1, ?_⟩
  intro caps hc res hres why hpan
  obtain ⟨pieces, k, E, m1, _⟩ := k3 caps hc
  rw [m1, List.mem_append] at hres
  rcases hres with hres | hres
  · obtain ⟨b, _, hb⟩ := List.mem_map.mp hres
    rw [← hb] at hpan; cases hpan
  · rw [List.eq_of_mem_replicate hres] at hpan; cases hpan

/-- **C54** For every input, keys and destination, whatever `Decrypt` returns: there are frames at the start of what
followed the header such that each opens under the data key (derived from the root key and the header checksum) with
its own position as nonce, each has a plaintext of 1 to chunk-size bytes, and what the destination received is an initial
part of their plaintexts in order. If `Decrypt` returned nil the destination received all of them. -/
theorem C54_only_authenticated (P : Prims) (L : Laws P) (rd : Reader) (sk : PrivateKey) (spk : Option PublicKey)
    (d : Decryptor) (h : setupDecryptor P rd sk spk = .ok d) (wr : Writer)
    (res : Res Unit) (d' : Decryptor) (wr' : Writer) (hdec : d.decrypt P wr = (res, d', wr')) :
    ∃ key, d.key = some key ∧ ∃ (frames : List Frame) (rest p : Bytes),
      d.rd.content = frames.flatMap (fun f => f.word ++ f.ct) ++ rest ∧
      (∀ (j : Nat) (f : Frame), frames[j]? = some f →
        f.Valid P (sessionKeys P key d.hdrsum).2.1 (sessionKeys P key d.hdrsum).1 d.hdr.chunkSize j) ∧
      wr'.out = wr.out ++ p ∧ p <+: (frames.map Frame.pt).flatten ∧ (res = .ok () → p = (frames.map Frame.pt).flatten) := by
  obtain ⟨key, r, d2, wr2, h1, h2, h3, h4⟩ := decrypt_any P L rd sk spk d h wr
  rw [hdec] at h2
  simp only [Prod.mk.injEq] at h2
  obtain ⟨rfl, rfl, rfl⟩ := h2
  refine ⟨key, h1, ?_⟩
  have snoc : ∀ (mid : List Bytes) (c : Bytes) (last : Bool) (rest p : Bytes),
      MidOk d.hdr.chunkSize mid → OpensAt P (sessionKeys P key d.hdrsum).2.1 d.nonce 0 mid →
      0 < c.length → c.length ≤ d.hdr.chunkSize →
      P.aeadOpen (sessionKeys P key d.hdrsum).2.1 (be32 (0 + mid.length) ++ d.nonce.drop 4)
        (P.aeadSeal (sessionKeys P key d.hdrsum).2.1 (be32 (0 + mid.length) ++ d.nonce.drop 4) c (lengthWord c.length last))
          (lengthWord c.length last) = some c →
      d.rd.content = sealedMid P (sessionKeys P key d.hdrsum).2.1 d.nonce 0 mid ++
        (sealedChunk P (sessionKeys P key d.hdrsum).2.1 d.nonce (0 + mid.length) last c ++ rest) →
      wr'.out = wr.out ++ (mid.flatten ++ p) → p <+: c → (res = .ok () → p = c) →
      ∃ (frames : List Frame) (rest p : Bytes),
        d.rd.content = frames.flatMap (fun f => f.word ++ f.ct) ++ rest ∧
        (∀ (j : Nat) (f : Frame), frames[j]? = some f →
          f.Valid P (sessionKeys P key d.hdrsum).2.1 (sessionKeys P key d.hdrsum).1 d.hdr.chunkSize j) ∧
        wr'.out = wr.out ++ p ∧ p <+: (frames.map Frame.pt).flatten ∧
        (res = .ok () → p = (frames.map Frame.pt).flatten) := by
    intro mid c last rest p hm ho hc0 hc hoc hrd hout hp hres
    refine ⟨framesOf P (sessionKeys P key d.hdrsum).2.1 d.nonce 0 mid ++
      [⟨lengthWord c.length last, P.aeadSeal (sessionKeys P key d.hdrsum).2.1 (be32 (0 + mid.length) ++ d.nonce.drop 4) c
        (lengthWord c.length last), c⟩], rest, mid.flatten ++ p, ?_, ?_, hout, ?_, ?_⟩
    · rw [hrd, List.flatMap_append, framesOf_bytes]; simp [sealedChunk]
    · intro j f hf
      rw [← h4]
      rcases getElem?_snoc_frame hf with hf | ⟨hj, rfl⟩
      · have := framesOf_valid P _ _ _ mid 0 ho hm j f hf
        rwa [Nat.zero_add] at this
      · rw [framesOf_length] at hj
        subst hj
        rw [Nat.zero_add] at hoc ⊢
        exact ⟨rfl, hoc, hc0, hc⟩
    · rw [List.map_append, framesOf_pt, List.flatten_append]
      simp only [List.map_cons, List.map_nil, List.flatten_cons, List.flatten_nil, List.append_nil]
      exact prefix_append_left hp
    · intro hr
      rw [List.map_append, framesOf_pt, List.flatten_append, hres hr]; simp
  have plain : ∀ (mid : List Bytes) (rest : Bytes),
      MidOk d.hdr.chunkSize mid → OpensAt P (sessionKeys P key d.hdrsum).2.1 d.nonce 0 mid →
      d.rd.content = sealedMid P (sessionKeys P key d.hdrsum).2.1 d.nonce 0 mid ++ rest →
      wr'.out = wr.out ++ mid.flatten →
      ∃ (frames : List Frame) (rest p : Bytes),
        d.rd.content = frames.flatMap (fun f => f.word ++ f.ct) ++ rest ∧
        (∀ (j : Nat) (f : Frame), frames[j]? = some f →
          f.Valid P (sessionKeys P key d.hdrsum).2.1 (sessionKeys P key d.hdrsum).1 d.hdr.chunkSize j) ∧
        wr'.out = wr.out ++ p ∧ p <+: (frames.map Frame.pt).flatten ∧
        (res = .ok () → p = (frames.map Frame.pt).flatten) := by
    intro mid rest hm ho hrd hout
    refine ⟨framesOf P (sessionKeys P key d.hdrsum).2.1 d.nonce 0 mid, rest, mid.flatten, ?_, ?_, hout, ?_, ?_⟩
    · rw [hrd, framesOf_bytes]
    · intro j f hf
      rw [← h4]
      have := framesOf_valid P _ _ _ mid 0 ho hm j f hf
      rwa [Nat.zero_add] at this
    · rw [framesOf_pt] <;> try exact List.prefix_refl _
    · intro _; rw [framesOf_pt]
  cases h3 with
  | endedEmpty mid rest _ _ hm ho hrd hw _ _ _ => exact plain mid _ hm ho hrd hw.out
  | endedFull mid fin tr rest _ _ hm ho hf0 hf htr hof hver hrd hw _ _ _ =>
    exact snoc mid fin true _ fin hm ho hf0 hf hof hrd hw.out (List.prefix_refl _) (fun _ => rfl)
  | badInput x mid rest _ _ hm ho hrd hw _ _ => exact plain mid _ hm ho hrd hw.out
  | writeFailed x mid c rest p last _ _ hm ho hc hoc hrd hw hp hx _ _ =>
    exact snoc mid c last _ p hm ho hc.1 hc.2 hoc hrd hw.out hp (by simp)

/-- A prepared decryptor exists: Carol's, on the demo container with its last 70 bytes replaced by others. -/
theorem Demo.carol_ready (body : Bytes) : ∃ e d,
    setupEncryptor toyPrims (some Demo.alice) 4 Demo.coins Demo.rcpts = .ok e ∧
    setupDecryptor toyPrims ⟨[headerPart e.hdr ++ toyPrims.sha256 (headerPart e.hdr) ++ body], .eof, false⟩ Demo.carol
      (some Demo.alice.pub) = .ok d ∧ d.auth = true ∧ d.rd.content = body := by
  obtain ⟨e, he⟩ := Demo.setup
  obtain ⟨epk, ws, hs⟩ := setupEncryptor_ok _ toyLaws _ _ _ _ _ Demo.coins_wf he
  obtain ⟨v, hv1, hv2, hv3⟩ := headerBytes_len toyPrims toyLaws (some Demo.alice) 4 Demo.coins Demo.rcpts e epk ws
    Demo.coins_wf Demo.rcpts_len hs
  rcases setup_opens toyPrims toyLaws (some Demo.alice) 4 Demo.coins Demo.rcpts e epk ws Demo.coins_wf Demo.sender_genuine
    Demo.rcpts_len hs (by decide) (by rw [hv3]; simp [Demo.rcpts]; omega) Demo.carol (List.replicate 32 3) (by simp) rfl rfl
    ⟨(Demo.carol.pub, List.replicate 12 5), by simp [Demo.rcpts], rfl⟩ (some Demo.alice.pub)
    (by intro s hs; cases hs; exact ⟨_, rfl, rfl⟩)
    ⟨[headerPart e.hdr ++ toyPrims.sha256 (headerPart e.hdr) ++ body], .eof, false⟩ body (by simp [Reader.content]) with
    g | ⟨d, g1, g2⟩
  · exact absurd g Demo.no_forgery
  · exact ⟨e, d, he, g1, g2.auth, g2.body⟩

/-- Hypotheses of C26 and C54 are met also for a body that is garbage. -/
example : ∃ e d, setupEncryptor toyPrims (some Demo.alice) 4 Demo.coins Demo.rcpts = .ok e ∧
    setupDecryptor toyPrims ⟨[headerPart e.hdr ++ toyPrims.sha256 (headerPart e.hdr) ++ [0, 0, 0, 3, 1, 2, 3, 4]], .eof,
      false⟩ Demo.carol (some Demo.alice.pub) = .ok d := by
  obtain ⟨e, d, h1, h2, _⟩ := Demo.carol_ready [0, 0, 0, 3, 1, 2, 3, 4]
  exact ⟨e, d, h1, h2⟩

end Sigtool
