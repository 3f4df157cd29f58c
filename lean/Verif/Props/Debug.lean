import Verif.Debug
import Verif.Spec.Debug
import Verif.Props.Accepts
import Verif.Props.StreamWrite
import Verif.Props.Flags
/-!
# C124: whether what is printed gives the contents away
-/

namespace Sigtool
open Spec (encryptChunks streamChunks lengthWord sealedChunk sealedBody sealedMid macInput headerPart sessionKeys container
  headerBytes unhexDigit unhex textLines lineValue readBody readWith framed)

theorem unhex_hex : ∀ b : Bytes, unhex (hex b) = some b := by
  have digit : ∀ n, n < 16 → unhexDigit (hexDigit n) = some n := by decide
  intro b
  induction b with
  | nil => rfl
  | cons a t ih =>
    have := a.toNat_lt
    simp only [hex, unhex, digit _ (Nat.div_lt_of_lt_mul (show a.toNat < 16 * 16 by omega)), digit _ (Nat.mod_lt _ (by decide : 0 < 16)), ih]
    simp only [Option.bind_eq_bind, Option.bind_some, Option.pure_def, Option.some.injEq, List.cons.injEq, and_true]
    apply UInt8.toNat_inj.mp
    rw [UInt8.toNat_ofNat']
    omega

theorem hex_noNewline : ∀ b : Bytes, (10 : UInt8) ∉ hex b := by
  have digit : ∀ n, n < 16 → hexDigit n ≠ 10 := by decide
  intro b
  induction b with
  | nil => simp [hex]
  | cons a t ih =>
    have := a.toNat_lt
    simp only [hex, List.mem_cons, not_or]
    exact ⟨(digit _ (by omega)).symm, (digit _ (by omega)).symm, ih⟩

theorem textLines_ne (t : Bytes) : textLines t ≠ [] := by
  cases t with
  | nil => simp [textLines]
  | cons c t => unfold textLines; split <;> (try split) <;> simp

theorem textLines_line : ∀ (a t : Bytes), (10 : UInt8) ∉ a → textLines (a ++ 10 :: t) = a :: textLines t := by
  intro a
  induction a with
  | nil =>
    intro t _
    rw [List.nil_append, textLines]
    cases h : textLines t with
    | nil => exact absurd h (textLines_ne t)
    | cons l ls => simp
  | cons c a ih =>
    intro t h
    simp only [List.mem_cons, not_or] at h
    rw [List.cons_append, textLines, ih t h.2]
    simp only
    rw [if_neg (Ne.symm h.1)]

theorem keysText_lines (who : String) (hw : (10 : UInt8) ∉ ascii who ++ [58]) (c k n m : Bytes) :
    textLines (keysText who c k n m) = [ascii who ++ [58], ascii "\thdr-cksum: " ++ hex c, ascii "\taes-key: " ++ hex k,
      ascii "\tnonce: " ++ hex n, ascii "\thmac-key: " ++ hex m, []] := by
  have e : keysText who c k n m = (ascii who ++ [58]) ++ 10 :: ((ascii "\thdr-cksum: " ++ hex c) ++ 10 :: ((ascii "\taes-key: " ++ hex k) ++
      10 :: ((ascii "\tnonce: " ++ hex n) ++ 10 :: ((ascii "\thmac-key: " ++ hex m) ++ 10 :: [])))) := by
    have e1 : ascii ":\n\thdr-cksum: " = [58, 10] ++ ascii "\thdr-cksum: " := by decide +kernel
    have e2 : ascii "\n\taes-key: " = [10] ++ ascii "\taes-key: " := by decide +kernel
    have e3 : ascii "\n\tnonce: " = [10] ++ ascii "\tnonce: " := by decide +kernel
    have e4 : ascii "\n\thmac-key: " = [10] ++ ascii "\thmac-key: " := by decide +kernel
    have e5 : ascii "\n" = [10] := by decide +kernel
    unfold keysText
    rw [e1, e2, e3, e4, e5]
    simp only [List.append_assoc, List.cons_append, List.nil_append]
  have no : ∀ (s : String) (b : Bytes), (10 : UInt8) ∉ ascii s → (10 : UInt8) ∉ ascii s ++ hex b := by
    intro s b h
    rw [List.mem_append, not_or]
    exact ⟨h, hex_noNewline b⟩
  rw [e, textLines_line _ _ hw, textLines_line _ _ (no _ _ (by decide +kernel)), textLines_line _ _ (no _ _ (by decide +kernel)),
    textLines_line _ _ (no _ _ (by decide +kernel)), textLines_line _ _ (no _ _ (by decide +kernel))]
  rfl

theorem prefix_append (a b : Bytes) : a.isPrefixOf (a ++ b) = true := by simp

theorem keysText_fields (who : String) (hw : who = "encrypt" ∨ who = "decrypt") (c k n m : Bytes) :
    lineValue "\taes-key: " (keysText who c k n m) = some k ∧ lineValue "\tnonce: " (keysText who c k n m) = some n := by
  have hl := keysText_lines who (by rcases hw with rfl | rfl <;> decide +kernel) c k n m
  have w1 : (ascii "\taes-key: ").isPrefixOf (ascii who ++ [58]) = false := by rcases hw with rfl | rfl <;> decide +kernel
  have w2 : (ascii "\tnonce: ").isPrefixOf (ascii who ++ [58]) = false := by rcases hw with rfl | rfl <;> decide +kernel
  have a1 : ascii "\taes-key: " = [9, 97, 101, 115, 45, 107, 101, 121, 58, 32] := by decide +kernel
  have a2 : ascii "\thdr-cksum: " = [9, 104, 100, 114, 45, 99, 107, 115, 117, 109, 58, 32] := by decide +kernel
  have a3 : ascii "\tnonce: " = [9, 110, 111, 110, 99, 101, 58, 32] := by decide +kernel
  unfold lineValue
  rw [hl]
  constructor
  · have w3 : (ascii "\taes-key: ").isPrefixOf (ascii "\thdr-cksum: " ++ hex c) = false := by rw [a1, a2]; rfl
    simp only [List.find?, w1, w3, prefix_append, List.drop_left]
    exact unhex_hex k
  · have w3 : (ascii "\tnonce: ").isPrefixOf (ascii "\thdr-cksum: " ++ hex c) = false := by rw [a3, a2]; rfl
    have w4 : (ascii "\tnonce: ").isPrefixOf (ascii "\taes-key: " ++ hex k) = false := by rw [a3, a1]; rfl
    simp only [List.find?, w2, w3, w4, prefix_append, List.drop_left]
    exact unhex_hex n

theorem keysText_ends (who : String) (c k n m : Bytes) : (keysText who c k n m).getLast? = some 10 := by
  have e5 : ascii "\n" = [10] := by decide +kernel
  unfold keysText
  rw [e5, List.getLast?_append]
  rfl

/-- One chunk of the reading procedure. -/
theorem readBody_chunk (P : Prims) (L : Laws P) (key nonce : Bytes) (hk : key.length = 32) (hn : nonce.length = 12) (fuel i : Nat)
    (last : Bool) (c rest : Bytes) (h0 : 1 ≤ c.length) (h1 : c.length ≤ 2^30) :
    readBody P key nonce (fuel + 1) i (sealedChunk P key nonce i last c ++ rest) =
      if last then some c else (readBody P key nonce fuel (i + 1) rest).map (c ++ ·) := by
  have hlw : (lengthWord c.length last).length = 4 := by simp [lengthWord]
  have hnn : (be32 i ++ nonce.drop 4).length = 12 := by simp [hn]
  have hct := L.seal_len key (be32 i ++ nonce.drop 4) c (lengthWord c.length last) hk hnn h1
  have hdec : be32dec (sealedChunk P key nonce i last c ++ rest) = c.length + if last then 2^31 else 0 := by
    unfold sealedChunk lengthWord
    rw [List.append_assoc, be32dec_be32]
    apply Nat.mod_eq_of_lt
    split <;> omega
  have e1 : (sealedChunk P key nonce i last c ++ rest).take 4 = lengthWord c.length last := by
    unfold sealedChunk
    rw [List.append_assoc, List.take_left' hlw]
  have e2 : (sealedChunk P key nonce i last c ++ rest).drop 4 =
      P.aeadSeal key (be32 i ++ nonce.drop 4) c (lengthWord c.length last) ++ rest := by
    unfold sealedChunk
    rw [List.append_assoc, List.drop_left' hlw]
  have e3 : (sealedChunk P key nonce i last c ++ rest).drop (4 + (c.length + 16)) = rest := by
    rw [← List.drop_drop, e2, List.drop_left' hct]
  have hmod : (c.length + if last then 2^31 else 0) % 2^31 = c.length := by split <;> omega
  rw [readBody]
  simp only [hdec, hmod]
  rw [if_neg (by omega), e2, List.take_left' hct, e1, L.open_seal _ _ _ _ hk hnn h1, e3]
  cases last with
  | true => simp
  | false =>
    have : ¬ 2^31 ≤ c.length := by omega
    simp only [Bool.false_eq_true, if_false, Nat.add_zero, this, Option.bind_eq_bind, Option.bind_some]
    cases readBody P key nonce fuel (i + 1) rest <;> rfl

theorem readBody_marker (P : Prims) (key nonce : Bytes) (fuel i : Nat) (rest : Bytes) :
    readBody P key nonce (fuel + 1) i ([0x80, 0, 0, 0] ++ rest) = some [] := by
  have : be32dec ([0x80, 0, 0, 0] ++ rest) = 2^31 := rfl
  rw [readBody]
  simp only [this]
  rfl

theorem readBody_mid (P : Prims) (L : Laws P) (key nonce : Bytes) (hk : key.length = 32) (hn : nonce.length = 12) :
    ∀ (mid : List Bytes) (fuel i : Nat) (rest fin : Bytes), (∀ c ∈ mid, 1 ≤ c.length ∧ c.length ≤ 2^30) →
      readBody P key nonce fuel (i + mid.length) rest = some fin →
      readBody P key nonce (fuel + mid.length) i (sealedMid P key nonce i mid ++ rest) = some (mid.flatten ++ fin) := by
  intro mid
  induction mid with
  | nil => intro fuel i rest fin _ h; simpa [sealedMid] using h
  | cons c cs ih =>
    intro fuel i rest fin hm h
    have hc := hm c (by simp)
    have := ih fuel (i + 1) rest fin (fun x hx => hm x (by simp [hx])) (by
      rw [show i + 1 + cs.length = i + (c :: cs).length by simp; omega]; exact h)
    rw [sealedMid, List.append_assoc, show fuel + (c :: cs).length = (fuel + cs.length) + 1 by simp; omega,
      readBody_chunk P L key nonce hk hn _ _ false c _ hc.1 hc.2, this]
    simp

/-- The whole procedure, on a text of the program and a file of the right shape. -/
theorem readWith_reads (P : Prims) (L : Laws P) (who : String) (hw : who = "encrypt" ∨ who = "decrypt") (c key nonce m : Bytes)
    (hk : key.length = 32) (hn : nonce.length = 12) (hb sum : Bytes) (hhb : hb.length < 2^32) (hs : sum.length = 32)
    (mid : List Bytes) (hm : ∀ c ∈ mid, 1 ≤ c.length ∧ c.length ≤ 2^30) (fin e rest : Bytes)
    (he : fin = [] ∧ e = [0x80, 0, 0, 0] ∨ 1 ≤ fin.length ∧ fin.length ≤ 2^30 ∧ ∃ tr, e = sealedChunk P key nonce mid.length true fin ++ tr) :
    readWith P (keysText who c key nonce m) (framed hb ++ sum ++ (sealedMid P key nonce 0 mid ++ e ++ rest)) =
      some (mid.flatten ++ fin) := by
  obtain ⟨f1, f2⟩ := keysText_fields who hw c key nonce m
  unfold readWith
  rw [f1, f2, Option.bind_eq_bind, Option.bind_some, Option.bind_some]
  have d8 : be32dec ((framed hb ++ sum ++ (sealedMid P key nonce 0 mid ++ e ++ rest)).drop 8) = hb.length := by
    unfold framed
    have h8 : (ascii "SigTool" ++ [3]).length = 8 := by decide +kernel
    rw [List.append_assoc (ascii "SigTool" ++ [3]), List.append_assoc (ascii "SigTool" ++ [3]), List.append_assoc (ascii "SigTool" ++ [3]),
      List.drop_left' h8, List.append_assoc, List.append_assoc, be32dec_be32, Nat.mod_eq_of_lt hhb]
  have hlen : (framed hb ++ sum).length = 12 + hb.length + 32 := by
    have h8 : (ascii "SigTool").length = 7 := by decide +kernel
    unfold framed
    simp only [List.length_append, h8, be32_length, List.length_cons, List.length_nil, hs]
  rw [List.append_assoc (sealedMid P key nonce 0 mid) e rest] at *
  rw [d8, List.drop_left' hlen]
  have hfuel : mid.length + 1 ≤ (framed hb ++ sum ++ (sealedMid P key nonce 0 mid ++ (e ++ rest))).length := by
    have h1 := sealedMid_length P key nonce mid 0
    rw [List.length_append, hlen, List.length_append]
    omega
  obtain ⟨fuel, hf⟩ := Nat.le.dest hfuel
  rw [← hf, show mid.length + 1 + fuel = fuel + 1 + mid.length by omega]
  refine readBody_mid P L key nonce hk hn mid (fuel + 1) 0 (e ++ rest) fin hm ?_
  rw [Nat.zero_add]
  rcases he with ⟨rfl, rfl⟩ | ⟨h0, h1, tr, rfl⟩
  · exact readBody_marker P key nonce fuel mid.length rest
  · rw [List.append_assoc, readBody_chunk P L key nonce hk hn fuel mid.length true fin _ h0 h1, if_pos rfl]

/-! ### The functions with and without the text -/

theorem startD_fst (P : Prims) (level : Int) (e : Encryptor) (wr : Writer) : (e.startD P level wr).1 = e.start P wr := by
  unfold Encryptor.startD Encryptor.start
  dsimp only
  cases Proto.Header.marshal e.hdr with
  | panic x => rfl
  | err x => rfl
  | ok v =>
    dsimp only
    rcases fullwrite _ wr with ⟨_ | x, wr'⟩ <;> rfl

theorem startD_text (P : Prims) (level : Int) (e : Encryptor) (wr : Writer) (hc : Proto.Clean e.hdr) :
    (e.startD P level wr).2 = [] ∨ (e.startD P level wr).2 = debugText level (keysText "encrypt" (P.sha256 (headerPart e.hdr))
      (sessionKeys P e.key (P.sha256 (headerPart e.hdr))).2.1 (sessionKeys P e.key (P.sha256 (headerPart e.hdr))).1
      (sessionKeys P e.key (P.sha256 (headerPart e.hdr))).2.2) ∧ (e.start P wr).1 = .ok () := by
  unfold Encryptor.startD Encryptor.start
  simp only [Proto.header_marshal_eq _ hc, start_pre e hc, dataKeys_eq]
  rcases fullwrite _ wr with ⟨_ | x, wr'⟩
  · exact .inr ⟨rfl, rfl⟩
  · exact .inl rfl

theorem startD_ok (P : Prims) (level : Int) (e e' : Encryptor) (wr wr' : Writer) (t : Bytes) (hc : Proto.Clean e.hdr)
    (h : e.startD P level wr = ((.ok (), e', wr'), t)) :
    t = debugText level (keysText "encrypt" (P.sha256 (headerPart e.hdr))
      (sessionKeys P e.key (P.sha256 (headerPart e.hdr))).2.1 (sessionKeys P e.key (P.sha256 (headerPart e.hdr))).1
      (sessionKeys P e.key (P.sha256 (headerPart e.hdr))).2.2) := by
  unfold Encryptor.startD at h
  simp only [Proto.header_marshal_eq _ hc, start_pre e hc, dataKeys_eq] at h
  rcases hw : fullwrite (headerPart e.hdr ++ P.sha256 (headerPart e.hdr)) wr with ⟨_ | x, wr''⟩
  · rw [hw] at h
    exact ((Prod.mk.inj h).2).symm
  · rw [hw] at h
    cases h

theorem encryptD_fst (P : Prims) (level : Int) (e : Encryptor) (rd : Reader) (wr : Writer) (coin : Bytes) :
    (e.encryptD P level rd wr coin).1 = e.encrypt P rd wr coin := by
  unfold Encryptor.encryptD Encryptor.encrypt
  rw [← startD_fst P level e wr]
  dsimp only
  split
  · rfl
  · split
    · rfl
    · rcases e.startD P level wr with ⟨⟨_ | x | x, e', wr'⟩, t⟩ <;> rfl

theorem newStreamWriterD_fst (P : Prims) (level : Int) (e : Encryptor) (wr : Writer) :
    (e.newStreamWriterD P level wr).1 = e.newStreamWriter P wr := by
  unfold Encryptor.newStreamWriterD Encryptor.newStreamWriter
  rw [← startD_fst P level e wr]
  dsimp only
  split
  · rfl
  · rcases e.startD P level wr with ⟨⟨_ | x | x, e', wr'⟩, t⟩ <;> rfl

theorem setPrivateKeyD_fst (P : Prims) (level : Int) (d : Decryptor) (sk : PrivateKey) (spk : Option PublicKey) :
    (d.setPrivateKeyD P level sk spk).1 = d.setPrivateKey P sk spk := by
  unfold Decryptor.setPrivateKeyD Decryptor.setPrivateKey
  rcases d.findKey P sk d.hdr.keys with (_ | key) | x | x
  · rfl
  · dsimp only
    split <;> rename_i h <;> rw [h]
  · rfl
  · rfl

theorem debugText_quiet (level : Int) (h : level ≤ 0) (z : Bytes) : debugText level z = [] := by
  unfold debugText
  rw [if_pos h]

theorem debugText_keys (level : Int) (h : 0 < level) (who : String) (c k n m : Bytes) :
    debugText level (keysText who c k n m) = keysText who c k n m := by
  unfold debugText
  rw [if_neg (by omega), if_pos (keysText_ends who c k n m)]

theorem startD_quiet (P : Prims) (level : Int) (h : level ≤ 0) (e : Encryptor) (wr : Writer) : (e.startD P level wr).2 = [] := by
  unfold Encryptor.startD
  dsimp only
  cases Proto.Header.marshal e.hdr with
  | panic x => rfl
  | err x => rfl
  | ok v =>
    dsimp only
    rcases fullwrite _ wr with ⟨_ | x, wr'⟩
    · exact debugText_quiet level h _
    · rfl

/-- **C124**, what holds (1): the level changes no result, and unless it is positive - it is 0 until `Debug` is called - none of
the calls prints anything. -/
theorem C124_level (P : Prims) (level : Int) :
    (∀ e rd wr coin, (Encryptor.encryptD P level e rd wr coin).1 = e.encrypt P rd wr coin ∧
      (level ≤ 0 → (e.encryptD P level rd wr coin).2 = [])) ∧
    (∀ e wr, (Encryptor.newStreamWriterD P level e wr).1 = e.newStreamWriter P wr ∧
      (level ≤ 0 → (e.newStreamWriterD P level wr).2 = [])) ∧
    (∀ d sk spk, (Decryptor.setPrivateKeyD P level d sk spk).1 = d.setPrivateKey P sk spk ∧
      (level ≤ 0 → (d.setPrivateKeyD P level sk spk).2 = [])) := by
  refine ⟨fun e rd wr coin => ⟨encryptD_fst P level e rd wr coin, fun h => ?_⟩,
    fun e wr => ⟨newStreamWriterD_fst P level e wr, fun h => ?_⟩,
    fun d sk spk => ⟨setPrivateKeyD_fst P level d sk spk, fun h => ?_⟩⟩
  · have hs := startD_quiet P level h e wr
    unfold Encryptor.encryptD
    dsimp only
    split
    · rfl
    · split
      · rfl
      · revert hs
        rcases e.startD P level wr with ⟨⟨_ | x | x, e', wr'⟩, t⟩ <;> exact fun h => h
  · have hs := startD_quiet P level h e wr
    unfold Encryptor.newStreamWriterD
    dsimp only
    split
    · rfl
    · revert hs
      rcases e.startD P level wr with ⟨⟨_ | x | x, e', wr'⟩, t⟩ <;> exact fun h => h
  · unfold Decryptor.setPrivateKeyD
    rcases d.findKey P sk d.hdr.keys with (_ | key) | x | x
    · rfl
    · dsimp only
      split
      · rfl
      · rfl
      · exact debugText_quiet level h _
    · rfl
    · rfl

/-- **C124**, what holds (2): at every level, a `SetPrivateKey` that does not return nil prints nothing. -/
theorem C124_failed (P : Prims) (level : Int) (d : Decryptor) (sk : PrivateKey) (spk : Option PublicKey)
    (h : (d.setPrivateKey P sk spk).1 ≠ .ok ()) : (d.setPrivateKeyD P level sk spk).2 = [] := by
  rw [← setPrivateKeyD_fst P level] at h
  revert h
  unfold Decryptor.setPrivateKeyD
  rcases d.findKey P sk d.hdr.keys with (_ | key) | x | x
  · exact fun _ => rfl
  · dsimp only
    split
    · exact fun _ => rfl
    · exact fun _ => rfl
    · exact fun h => absurd rfl h
  · exact fun _ => rfl
  · exact fun _ => rfl

theorem sealedBody_split (P : Prims) (key nonce : Bytes) (size : Nat) : ∀ (chunks : List Bytes) (i : Nat), ChunksOk size chunks →
    ∃ mid fin, chunks.flatten = mid.flatten ++ fin ∧ (∀ c ∈ mid, 1 ≤ c.length ∧ c.length ≤ size) ∧ fin.length ≤ size ∧
      sealedBody P key nonce i chunks = sealedMid P key nonce i mid ++ sealedChunk P key nonce (i + mid.length) true fin := by
  intro chunks
  induction chunks with
  | nil => intro i h; exact absurd h (by simp [ChunksOk])
  | cons c cs ih =>
    intro i h
    by_cases hc : cs = []
    · subst hc
      exact ⟨[], c, by simp, by simp, h, by simp [sealedBody, sealedMid]⟩
    · rw [ChunksOk_cons _ _ _ hc] at h
      obtain ⟨mid, fin, h1, h2, h3, h4⟩ := ih (i + 1) h.2.2
      refine ⟨c :: mid, fin, by simp [h1], ?_, h3, ?_⟩
      · intro x hx
        rcases List.mem_cons.mp hx with rfl | hx
        · exact ⟨h.1, h.2.1⟩
        · exact h2 x hx
      · rw [sealedBody_cons _ _ _ _ _ _ hc, h4, sealedMid, List.append_assoc, show i + 1 + mid.length = i + (c :: mid).length by
          simp; omega]

/-- What `start` printed, with what was written: the procedure reads it. -/
theorem readWith_container (P : Prims) (L : Laws P) (h : Header) (key cksum hk : Bytes) (hb : (headerBytes h).length < 2^32)
    (size : Nat) (hsz : size ≤ 2^30) (chunks : List Bytes) (hc : ChunksOk size chunks) (trailer : Bytes) :
    readWith P (keysText "encrypt" cksum (sessionKeys P key (P.sha256 (headerPart h))).2.1
      (sessionKeys P key (P.sha256 (headerPart h))).1 hk) (container P h key chunks trailer) = some chunks.flatten := by
  obtain ⟨k1, k2, _⟩ := sessionKeys_len P L key (P.sha256 (headerPart h))
  obtain ⟨mid, fin, h1, h2, h3, h4⟩ := sealedBody_split P (sessionKeys P key (P.sha256 (headerPart h))).2.1
    (sessionKeys P key (P.sha256 (headerPart h))).1 size chunks 0 hc
  rw [Nat.zero_add] at h4
  have hm : ∀ c ∈ mid, 1 ≤ c.length ∧ c.length ≤ 2^30 := fun c hc => ⟨(h2 c hc).1, Nat.le_trans (h2 c hc).2 hsz⟩
  have hframe : headerPart h = framed (headerBytes h) := rfl
  unfold container
  dsimp only
  rw [h4, h1]
  by_cases hf : fin = []
  · subst hf
    have e : sealedChunk P (sessionKeys P key (P.sha256 (headerPart h))).2.1 (sessionKeys P key (P.sha256 (headerPart h))).1
        mid.length true [] = [0x80, 0, 0, 0] ++ (sealedChunk P (sessionKeys P key (P.sha256 (headerPart h))).2.1
          (sessionKeys P key (P.sha256 (headerPart h))).1 mid.length true []).drop 4 := by
      have : lengthWord ([] : Bytes).length true = [0x80, 0, 0, 0] := by decide
      unfold sealedChunk
      rw [this]
      rfl
    rw [e]
    have := readWith_reads P L "encrypt" (.inl rfl) cksum _ _ hk k2 k1 (headerBytes h) (P.sha256 (headerPart h)) hb (L.sha256_len _)
      mid hm [] [0x80, 0, 0, 0] ((sealedChunk P (sessionKeys P key (P.sha256 (headerPart h))).2.1
          (sessionKeys P key (P.sha256 (headerPart h))).1 mid.length true []).drop 4 ++ trailer) (.inl ⟨rfl, rfl⟩)
    rw [← hframe] at this
    rw [← this]
    congr 1
    simp only [List.append_assoc]
  · have := readWith_reads P L "encrypt" (.inl rfl) cksum _ _ hk k2 k1 (headerBytes h) (P.sha256 (headerPart h)) hb (L.sha256_len _)
      mid hm fin (sealedChunk P (sessionKeys P key (P.sha256 (headerPart h))).2.1
          (sessionKeys P key (P.sha256 (headerPart h))).1 mid.length true fin) trailer
      (.inr ⟨List.length_pos_iff.mpr hf, Nat.le_trans h3 hsz, [], (List.append_nil _).symm⟩)
    rw [← hframe] at this
    rw [← this]
    congr 1
    simp only [List.append_assoc]

/-- **C124** is false of `Encrypt` with a positive level: for every sender, block size, random bytes, recipients and input, if the
set-up calls and `Encrypt` return nil, then what `Encrypt` printed and the file it wrote together give the whole input to a
procedure that has no key of anybody. -/
theorem C124_encrypt_refuted (P : Prims) (L : Laws P) (level : Int) (hlevel : 0 < level) (sender : Option PrivateKey) (blk : Nat)
    (c : EncCoins) (hc : c.WF) (rcpts : List (PublicKey × Bytes)) (hr : ∀ r ∈ rcpts, r.2.length = 12)
    (hcount : rcpts.length ≤ 60000000) (e : Encryptor) (he : setupEncryptor P sender blk c rcpts = .ok e)
    (rd : Reader) (wr : Writer) (hwr : wr.out = []) (coin : Bytes) (e' : Encryptor) (rd' : Reader) (wr' : Writer) (text : Bytes)
    (h : e.encryptD P level rd wr coin = ((.ok (), e', rd', wr'), text)) :
    readWith P text wr'.out = some rd.content := by
  obtain ⟨epk, ws, hs⟩ := setupEncryptor_ok P L sender blk c rcpts e hc he
  have hf := hs.fresh L
  obtain ⟨v, hv1, hv2, hv3⟩ := headerBytes_len P L sender blk c rcpts e epk ws hc hr hs
  have henc : e.encrypt P rd wr coin = (.ok (), e', rd', wr') := by rw [← encryptD_fst P level, h]
  obtain ⟨h1, _, _⟩ := encrypt_ok P L e rd wr coin hf e' rd' wr' henc
  have ht : text = keysText "encrypt" (P.sha256 (headerPart e.hdr))
      (sessionKeys P e.key (P.sha256 (headerPart e.hdr))).2.1 (sessionKeys P e.key (P.sha256 (headerPart e.hdr))).1
      (sessionKeys P e.key (P.sha256 (headerPart e.hdr))).2.2 := by
    unfold Encryptor.encryptD at h
    rw [if_neg (by rw [hf.stream]; simp)] at h
    dsimp only at h
    rw [if_neg (by rw [hf.started]; simp)] at h
    rcases hst : e.startD P level wr with ⟨⟨_ | x | x, e2, wr2⟩, t⟩
    · rw [hst] at h
      have := (Prod.mk.inj h).2
      rw [← this, startD_ok P level e e2 wr wr2 t hf.clean hst, debugText_keys level hlevel]
    · rw [hst] at h; cases h
    · rw [hst] at h; cases h
  obtain ⟨k1, k2, _⟩ := encryptChunks_ok e.hdr.chunkSize hf.chunkPos rd.content
  rw [ht, h1, hwr, List.nil_append, Encryptor.fullContainer,
    readWith_container P L e.hdr e.key _ _ (by omega) e.hdr.chunkSize hf.chunkMax _ k1 _, k2]

/-- **C124** is false of the stream writer with a positive level: the same for what `NewStreamWriter` printed and the file that
the writes and `Close` left. -/
theorem C124_stream_refuted (P : Prims) (L : Laws P) (level : Int) (hlevel : 0 < level) (sender : Option PrivateKey) (blk : Nat)
    (c : EncCoins) (hc : c.WF) (rcpts : List (PublicKey × Bytes)) (hr : ∀ r ∈ rcpts, r.2.length = 12)
    (hcount : rcpts.length ≤ 60000000) (e : Encryptor) (he : setupEncryptor P sender blk c rcpts = .ok e)
    (bufs : List Bytes) (wr : Writer) (hwr : wr.out = []) (coin : Bytes) (wr' : Writer)
    (h : streamEncrypt P e wr coin bufs = (.ok (), wr')) :
    readWith P (e.newStreamWriterD P level wr).2 wr'.out = some bufs.flatten := by
  obtain ⟨epk, ws, hs⟩ := setupEncryptor_ok P L sender blk c rcpts e hc he
  have hf := hs.fresh L
  obtain ⟨v, hv1, hv2, hv3⟩ := headerBytes_len P L sender blk c rcpts e epk ws hc hr hs
  obtain ⟨h1, _⟩ := streamEncrypt_ok P L e wr coin bufs hf wr' h
  have ht : (e.newStreamWriterD P level wr).2 = keysText "encrypt" (P.sha256 (headerPart e.hdr))
      (sessionKeys P e.key (P.sha256 (headerPart e.hdr))).2.1 (sessionKeys P e.key (P.sha256 (headerPart e.hdr))).1
      (sessionKeys P e.key (P.sha256 (headerPart e.hdr))).2.2 := by
    unfold streamEncrypt at h
    rw [← newStreamWriterD_fst P level] at h
    unfold Encryptor.newStreamWriterD at h ⊢
    rw [if_neg (by rw [hf.started]; simp)] at h ⊢
    rcases hst : e.startD P level wr with ⟨⟨_ | x | x, e2, wr2⟩, t⟩
    · dsimp only
      rw [startD_ok P level e e2 wr wr2 t hf.clean hst, debugText_keys level hlevel]
    · rw [hst] at h; cases h
    · rw [hst] at h; cases h
  obtain ⟨k1, k2, _⟩ := streamChunks_ok e.hdr.chunkSize hf.chunkPos bufs.flatten
  rw [ht, h1, hwr, List.nil_append, Encryptor.fullContainer,
    readWith_container P L e.hdr e.key _ _ (by omega) e.hdr.chunkSize hf.chunkMax _ k1 _, k2]

/-- **C124** is false of the reading side with a positive level: for every input, whoever made it, if `NewDecryptor`,
`SetPrivateKey` and `Decrypt` return nil, then what `SetPrivateKey` printed and the input give what `Decrypt` wrote. -/
theorem C124_decrypt_refuted (P : Prims) (L : Laws P) (level : Int) (hlevel : 0 < level) (rd rd' : Reader) (d0 d d' : Decryptor)
    (h0 : newDecryptor P rd = (.ok d0, rd')) (sk : PrivateKey) (hl : 32 ≤ sk.sk.length) (spk : Option PublicKey) (text : Bytes)
    (h1 : d0.setPrivateKeyD P level sk spk = ((.ok (), d), text)) (wr wr' : Writer) (hw : wr.NoFail) (hwr : wr.out = [])
    (h2 : d.decrypt P wr = (.ok (), d', wr')) :
    readWith P text rd.content = some wr'.out := by
  have hset : d0.setPrivateKey P sk spk = (.ok (), d) := by rw [← setPrivateKeyD_fst P level, h1]
  have hsetup : setupDecryptor P rd sk spk = .ok d := by
    unfold setupDecryptor
    rw [h0, Res.bind_ok, hset]
  obtain ⟨hb, hh, key, body, ho, mid, fin, e, b1, b2, b3, b4⟩ := (C87_exact P L rd sk hl spk wr hw d.auth wr'.out d'.rd.content).mp
    ⟨d, d', wr', hsetup, rfl, h2, by rw [hwr, List.nil_append], rfl⟩
  obtain ⟨d2, g1, g2, g3, g4, g5, g6⟩ := (setup_iff P L rd sk hl spk hh key d.auth body _).mpr ⟨hb, ho, rfl⟩
  rw [hsetup] at g1
  cases g1
  obtain ⟨k1, k2, _⟩ := sessionKeys_len P L key (P.sha256 (framed hb))
  have hchunk := ho.rules.chunk
  have ht : text = keysText "decrypt" (P.sha256 (framed hb)) (sessionKeys P key (P.sha256 (framed hb))).2.1
      (sessionKeys P key (P.sha256 (framed hb))).1 (sessionKeys P key (P.sha256 (framed hb))).2.2 := by
    unfold Decryptor.setPrivateKeyD at h1
    rcases hfind : d0.findKey P sk d0.hdr.keys with (_ | key') | x | x <;> rw [hfind] at h1
    · cases h1
    · dsimp only at h1
      split at h1
      · cases h1
      · cases h1
      · rw [Prod.mk.injEq, Prod.mk.injEq] at h1
        obtain ⟨⟨_, rfl⟩, rfl⟩ := h1
        have q1 : key' = key := Option.some.inj g3
        have q2 : d0.hdrsum = P.sha256 (framed hb) := g6
        rw [q1, q2, debugText_keys level hlevel, dataKeys_eq]
    · cases h1
    · cases h1
  have he : fin = [] ∧ e = [0x80, 0, 0, 0] ∨ 1 ≤ fin.length ∧ fin.length ≤ 2^30 ∧ ∃ tr,
      e = sealedChunk P (sessionKeys P key (P.sha256 (framed hb))).2.1 (sessionKeys P key (P.sha256 (framed hb))).1 mid.length true fin ++ tr := by
    rcases b3 with h | ⟨f1, f2, tr, _, f3, _⟩
    · exact .inl h
    · exact .inr ⟨f1, by omega, tr, f3⟩
  have := readWith_reads P L "decrypt" (.inr rfl) (P.sha256 (framed hb)) _ _ (sessionKeys P key (P.sha256 (framed hb))).2.2 k2 k1 hb
    (P.sha256 (framed hb)) (by have := ho.size; omega) (L.sha256_len _) mid (fun c hc => ⟨(b2 c hc).1, by have := (b2 c hc).2; omega⟩)
    fin e d'.rd.content he
  rw [ht, ho.layout, b1, b4]
  exact this

/-- **C124**, what holds (3): the program sets a positive level if and only if the last `--debug` before the command is not
switched off again. -/
theorem C124_flag (line : List Bytes) (o : TopOpts) (args : List Bytes)
    (hp : realFlags.top line = .ok o args) :
    ∃ s, Spec.ReadsFirst Spec.topOptions line s args ∧ (0 < o.level ↔ Spec.on "debug" s) := by
  obtain ⟨s, h1, _, rfl⟩ := (C102_top line o args).mp hp
  refine ⟨s, h1, ?_⟩
  unfold TopOpts.level
  dsimp only
  by_cases h : Spec.on "debug" s <;> simp [h]

/-- `sigtool --debug encrypt` and `sigtool --debug --debug=0 encrypt`. -/
example : realFlags.top [ascii "--debug", ascii "encrypt"] = .ok { debug := true } [ascii "encrypt"] ∧
    realFlags.top [ascii "--debug", ascii "--debug=0", ascii "encrypt"] = .ok { debug := false } [ascii "encrypt"] := by
  constructor <;> decide +kernel

/-! ### A file for the examples -/

/-- The demo encryption prints the text, and with it the demo plaintext is read from the file: without a key. -/
example : ∃ e e' rd' wr' text, setupEncryptor toyPrims (some Demo.alice) 4 Demo.coins Demo.rcpts = .ok e ∧
    e.encryptD toyPrims 1 Demo.input Demo.dest Demo.coin = ((.ok (), e', rd', wr'), text) ∧
    readWith toyPrims text wr'.out = some [1, 2, 3, 4, 5, 6, 7, 8, 9, 10] ∧ readWith toyPrims [] wr'.out = none := by
  obtain ⟨e, e', rd', wr', h1, h2⟩ := Demo.encrypts
  have h : e.encryptD toyPrims 1 Demo.input Demo.dest Demo.coin =
      ((.ok (), e', rd', wr'), (e.encryptD toyPrims 1 Demo.input Demo.dest Demo.coin).2) := by
    rw [← h2, ← encryptD_fst toyPrims 1]
  refine ⟨e, e', rd', wr', _, h1, h, ?_, rfl⟩
  exact C124_encrypt_refuted toyPrims toyLaws 1 (by decide) _ 4 Demo.coins Demo.coins_wf Demo.rcpts Demo.rcpts_len (by decide) e h1
    Demo.input Demo.dest rfl Demo.coin e' rd' wr' _ h

end Sigtool
