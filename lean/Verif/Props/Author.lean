import Verif.Spec.Author
import Verif.Props.Forge
import Verif.Props.Accepts
/-!
# C130: what a file shown as somebody's says about him

The games of `Spec/Author.lean`, played with `SignFile`, `NewEncryptor` with a sender, `AddRecipient`, `Encrypt`, the stream
writer, and on the reading side `NewDecryptor`, `SetPrivateKey` with a sender key, `AuthenticatedSender` and `Decrypt`.
-/

namespace Sigtool
open Spec (Coins mean yes Play Use EdForger Impostor Hashed encryptChunks streamChunks sealedBody sealedMid sealedChunk lengthWord
  macInput headerPart headerBytes sessionKeys senderSeal senderStatement statementInput framed chunksOf Opening Contains)

/-! ### The program -/

/-- Read the file with the private key of this seed, naming `pk` as the sender (`sign/encrypt.go:380-546`): a decryptor, if both
calls succeed and `AuthenticatedSender` is true. -/
def authenticated (P : Prims) (pk seed file : Bytes) : Option Decryptor :=
  match setupDecryptor P { chunks := [file], last := .eof, joint := false } (newPrivateKey P seed) (some { pk := pk }) with
  | .ok d => if d.auth then some d else none
  | _ => none

/-- ... and `Decrypt` it (`sign/encrypt.go:549-613`): the output and what is left unread, if it succeeds. -/
def readAs (P : Prims) (pk seed file : Bytes) : Option (Bytes × Bytes) :=
  (authenticated P pk seed file).bind fun d =>
    match d.decrypt P {} with
    | (.ok (), d', wr) => some (wr.out, d'.rd.content)
    | _ => none

/-- The session the file belongs to, as the decryptor has it. -/
def sessionOf (P : Prims) (pk seed file : Bytes) : Option (Bytes × Bytes × Bytes) :=
  (authenticated P pk seed file).map fun d => (d.hdr.pk, d.hdr.salt, d.key.getD [])

/-- The signature in the header and what it signs. -/
def headerSigned (P : Prims) (pk seed file : Bytes) : Option (Bytes × Bytes) :=
  (authenticated P pk seed file).map fun d =>
    (senderStatement P d.hdr.pk d.hdr.salt (d.key.getD []),
      (P.aeadOpen (senderSeal P (d.key.getD []) d.hdr.salt).1 (senderSeal P (d.key.getD []) d.hdr.salt).2 d.hdr.sender []).getD [])

/-- What is hashed to check it. -/
def headerHashes (P : Prims) (pk seed file : Bytes) : List Hashed :=
  match authenticated P pk seed file with
  | none => []
  | some d => [.sha256 (statementInput d.hdr.pk d.hdr.salt (d.key.getD [])),
      .sha512 (Spec.messageInput (senderStatement P d.hdr.pk d.hdr.salt (d.key.getD [])))]

/-- The HMAC key and the chunks of the file. -/
def chunksRead (P : Prims) (pk seed file : Bytes) : Option (Bytes × Bytes × List Bytes) :=
  (authenticated P pk seed file).bind fun d => (readAs P pk seed file).map fun r =>
    ((d.key.getD []), file.take (file.length - 32 - d.rd.content.length),
      chunksOf (d.rd.content.length + 1) d.rd.content r.1)

/-- The trailer and what it signs. -/
def trailerSigned (P : Prims) (pk seed file : Bytes) : Option (Bytes × Bytes) :=
  (chunksRead P pk seed file).bind fun (key, head, chunks) => (readAs P pk seed file).map fun r =>
    let body := file.take (file.length - r.2.length)
    (P.hmac256 (sessionKeys P key (P.sha256 head)).2.2 (macInput chunks), body.drop (body.length - 64))

/-- What is hashed to check it. -/
def trailerHashes (P : Prims) (pk seed file : Bytes) : List Hashed :=
  match chunksRead P pk seed file with
  | none => []
  | some (key, head, chunks) =>
    let k := (sessionKeys P key (P.sha256 head)).2.2
    [.sha256 head, .macKey key (P.sha256 head), .hmac k (macInput chunks),
      .sha512 (Spec.messageInput (P.hmac256 k (macInput chunks)))]

/-! ### The reduction -/

theorem hashes_signed (P : Prims) (sign : Bytes → Bytes) (u : Use) :
    ∀ m ∈ ((u.answer P).run sign).1, Hashed.sha512 (Spec.messageInput m) ∈ u.hashes P sign := by
  cases u with
  | sign c => intro m hm; simp [Use.answer, Play.run] at hm; simp [Use.hashes, hm]
  | send stream block csk key salt coin rcpts pieces =>
    intro m hm
    simp only [Use.answer] at hm
    simp only [Use.hashes]
    split at hm
    · cases hm
    · rename_i ws hws
      rw [hws]
      simp only [Play.run, List.mem_cons, List.not_mem_nil, or_false] at hm
      rcases hm with rfl | rfl <;> simp

/-- If every winning run either shows a signature of a message that was not signed, or a coincidence, then the impostor is
bounded by the forger and the coincidences. -/
theorem impostor_bound (P : Prims) (L : Laws P) (F : Impostor) (wins : Bytes → List (Use × Bytes) → Bytes → Bytes → Bool)
    (shown : (pk seed file : Bytes) → Option (Bytes × Bytes)) (hashed : (pk seed file : Bytes) → List Hashed)
    (h : ∀ (seed reader : Coins 32) (uses : List Use) (file : Bytes),
      wins (P.edPub seed.bytes) (uses.map fun u => (u, useKey P seed.bytes u)) file reader.bytes = true →
      ∃ m sig, shown (P.edPub seed.bytes) reader.bytes file = some (m, sig) ∧
        P.edVerify (P.edPub seed.bytes) (Spec.digest P m) sig = true ∧
        Hashed.sha512 (Spec.messageInput m) ∈ hashed (P.edPub seed.bytes) reader.bytes file ∧
        ∀ u ∈ uses, m ∈ ((u.answer P).run fun m => P.edSign (seed.bytes ++ P.edPub seed.bytes) (Spec.digest P m)).1 →
          ∃ u ∈ uses, ∃ a ∈ u.hashes P fun m => P.edSign (seed.bytes ++ P.edPub seed.bytes) (Spec.digest P m),
            ∃ b ∈ hashed (P.edPub seed.bytes) reader.bytes file, a ≠ b ∧ a.value P = b.value P) :
    F.odds P (useKey P) wins ≤ (F.ed P shown).odds P + F.coincidence P (useKey P) hashed := by
  have e : (F.ed P shown).odds P = mean fun t : F.Tape => mean fun seed : Coins 32 =>
      yes (P.edVerify (P.edPub seed.bytes)
          (((F.ed P shown).play t (P.edPub seed.bytes)).run (fun m => P.edSign (seed.bytes ++ P.edPub seed.bytes) m)).2.1
          (((F.ed P shown).play t (P.edPub seed.bytes)).run (fun m => P.edSign (seed.bytes ++ P.edPub seed.bytes) m)).2.2 &&
        decide ((((F.ed P shown).play t (P.edPub seed.bytes)).run
            (fun m => P.edSign (seed.bytes ++ P.edPub seed.bytes) m)).2.1 ∉
          (((F.ed P shown).play t (P.edPub seed.bytes)).run (fun m => P.edSign (seed.bytes ++ P.edPub seed.bytes) m)).1)) := rfl
  rw [e]
  unfold Impostor.odds Impostor.coincidence
  rw [← mean_add]
  refine mean_mono fun t => ?_
  rw [← mean_add]
  refine mean_mono fun seed => ?_
  dsimp only
  have huse : useKey P seed.bytes = fun u =>
      ((u.answer P).run fun m => P.edSign (seed.bytes ++ P.edPub seed.bytes) (Spec.digest P m)).2 :=
    funext fun u => useKey_answer P L seed.bytes seed.length u
  have hmsg := run_through (fun m => P.edSign (seed.bytes ++ P.edPub seed.bytes) (Spec.digest P m)) (Use.answer P)
    (F.play t (P.edPub seed.bytes))
  rw [← huse] at hmsg
  have hed : ((F.ed P shown).play t (P.edPub seed.bytes)).run (fun m => P.edSign (seed.bytes ++ P.edPub seed.bytes) m) =
      let r := (F.play t (P.edPub seed.bytes)).run (useKey P seed.bytes)
      ((r.1.flatMap fun u => ((u.answer P).run fun m =>
          P.edSign (seed.bytes ++ P.edPub seed.bytes) (Spec.digest P m)).1).map (Spec.digest P),
        match shown (P.edPub seed.bytes) r.2.2.bytes r.2.1 with
        | some (m, sig) => (Spec.digest P m, sig)
        | none => ([], [])) := by
    have hone : ∀ m, ((Play.ask (R := Bytes) (Spec.digest P m) Play.done).run
        fun m => P.edSign (seed.bytes ++ P.edPub seed.bytes) m) =
        ([Spec.digest P m], P.edSign (seed.bytes ++ P.edPub seed.bytes) (Spec.digest P m)) := fun m => rfl
    simp only [Impostor.ed]
    rw [run_andThen, run_through]
    simp only [hone]
    rw [hmsg]
    dsimp only
    rw [← List.map_eq_flatMap]
    generalize shown _ _ _ = s
    cases s with
    | none => simp [Play.run]
    | some ms => simp [Play.run]
  rw [hed]
  clear hed hmsg
  dsimp only
  generalize (F.play t (P.edPub seed.bytes)).run (useKey P seed.bytes) = r
  obtain ⟨uses, file, reader⟩ := r
  dsimp only
  have hnn : ∀ b, (0 : ℚ) ≤ yes b := fun b => by cases b <;> simp [yes]
  have hle : ∀ b, yes b ≤ (1 : ℚ) := fun b => by cases b <;> simp [yes]
  cases hw : wins (P.edPub seed.bytes) (uses.map fun u => (u, useKey P seed.bytes u)) file reader.bytes with
  | false =>
    have : yes false = 0 := rfl
    rw [this]
    exact add_nonneg (hnn _) (hnn _)
  | true =>
    obtain ⟨m, sig, h1, h2, h3, h4⟩ := h seed reader uses file hw
    have key : (∃ u ∈ uses, ∃ a ∈ u.hashes P fun m => P.edSign (seed.bytes ++ P.edPub seed.bytes) (Spec.digest P m),
        ∃ b ∈ hashed (P.edPub seed.bytes) reader.bytes file, a ≠ b ∧ a.value P = b.value P) ∨
        Spec.digest P m ∉ (uses.flatMap fun u => ((u.answer P).run fun m =>
          P.edSign (seed.bytes ++ P.edPub seed.bytes) (Spec.digest P m)).1).map (Spec.digest P) := by
      by_cases hm : Spec.digest P m ∈ (uses.flatMap fun u => ((u.answer P).run fun m =>
          P.edSign (seed.bytes ++ P.edPub seed.bytes) (Spec.digest P m)).1).map (Spec.digest P)
      · left
        obtain ⟨m', hm1, hm2⟩ := List.mem_map.mp hm
        obtain ⟨u, hu, hmu⟩ := List.mem_flatMap.mp hm1
        by_cases he : m' = m
        · subst he
          exact h4 u hu hmu
        · exact ⟨u, hu, _, hashes_signed P _ u m' hmu, _, h3, fun h => he (messageInput_inj (Hashed.sha512.inj h)), hm2⟩
      · exact .inr hm
    rcases key with ⟨u, hu, a, ha, b, hb, hab⟩ | hm
    · have : (uses.any fun u => (u.hashes P fun m => P.edSign (seed.bytes ++ P.edPub seed.bytes) (Spec.digest P m)).any fun a =>
          (hashed (P.edPub seed.bytes) reader.bytes file).any fun b => decide (a ≠ b ∧ a.value P = b.value P)) = true :=
        List.any_eq_true.mpr ⟨u, hu, List.any_eq_true.mpr ⟨a, ha, List.any_eq_true.mpr ⟨b, hb, decide_eq_true hab⟩⟩⟩
      rw [this]
      exact le_add_of_nonneg_left (hnn _)
    · simp only [h1, h2, decide_eq_true hm, Bool.and_self]
      exact le_add_of_nonneg_right (hnn _)

/-! ### Sessions -/

theorem authenticated_opening (P : Prims) (L : Laws P) (pk : Bytes) (seed : Coins 32) (file : Bytes) (d : Decryptor)
    (h : authenticated P pk seed.bytes file = some d) :
    ∃ hb key sig, d.key = some key ∧ d.hdrsum = P.sha256 (framed hb) ∧
      Opening P file (newPrivateKey P seed.bytes) (some { pk := pk }) hb d.hdr key true d.rd.content ∧
      key.length = 32 ∧ d.hdr.pk.length = 32 ∧
      P.aeadOpen (senderSeal P key d.hdr.salt).1 (senderSeal P key d.hdr.salt).2 d.hdr.sender [] = some sig ∧
      P.edVerify pk (Spec.digest P (senderStatement P d.hdr.pk d.hdr.salt key)) sig = true ∧
      setupDecryptor P { chunks := [file], last := .eof, joint := false } (newPrivateKey P seed.bytes) (some { pk := pk }) =
        .ok d ∧ d.auth = true := by
  have hl : 32 ≤ (newPrivateKey P seed.bytes).sk.length := by
    have := seed.length; simp only [newPrivateKey, List.length_append]; omega
  unfold authenticated at h
  split at h
  · rename_i d1 hs
    split at h
    · rename_i ha
      cases h
      have hkey : ∃ key, d.key = some key := by
        obtain ⟨_, _, _, key, _, _, _, _, _, _, e4, _⟩ := setupDecryptor_ok P L _ _ _ d hs
        exact ⟨key, e4⟩
      obtain ⟨key, hkey⟩ := hkey
      obtain ⟨hb, ho, hsum⟩ := (setup_iff P L _ _ hl _ d.hdr key d.auth d.rd.content d.hdrsum).mp
        ⟨d, hs, rfl, hkey, rfl, rfl, rfl⟩
      rw [ha] at ho
      have hcont : ({ chunks := [file], last := .eof, joint := false } : Reader).content = file := by simp [Reader.content]
      rw [hcont] at ho
      obtain ⟨sig, g1, ⟨_, g2⟩ | ⟨_, _, pk', g2, _, g4⟩⟩ := ho.sender
      · cases g2
      · cases g2
        obtain ⟨before, w, after, _, f2, _, f4⟩ := ho.opened
        unfold Spec.unwrapAs at f4
        obtain ⟨sh, f5, f6⟩ := Option.bind_eq_some_iff.mp f4
        refine ⟨hb, key, sig, hkey, hsum, ho, ?_, L.x25519_point _ _ _ f5, g1, ?_, hs, ha⟩
        · have := L.open_len _ _ _ _ _ f6
          have := f2 w (by simp)
          omega
        · have : P.edVerify pk (signDigest P (senderStatement P d.hdr.pk d.hdr.salt key)) sig = true := g4
          rw [signDigest_spec] at this
          exact this
    · cases h
  · cases h

theorem statement_hash (P : Prims) (epk salt key : Bytes) :
    (Hashed.sha256 (statementInput epk salt key)).value P = senderStatement P epk salt key := rfl

theorem statementInput_inj {a b c a' b' c' : Bytes} (h1 : a.length = a'.length) (h2 : b.length = b'.length)
    (h : statementInput a b c = statementInput a' b' c') : a = a' ∧ b = b' ∧ c = c' := by
  unfold statementInput at h
  obtain ⟨h, e3⟩ := List.append_inj h (by simp only [List.length_append, h1, h2])
  obtain ⟨h, e2⟩ := List.append_inj h (by simp only [List.length_append, h1])
  obtain ⟨_, e1⟩ := List.append_inj h rfl
  exact ⟨e1, e2, e3⟩

/-- What a message that was signed is a hash of. -/
theorem signed_cases (P : Prims) (sign : Bytes → Bytes) (u : Use) (m : Bytes) (hm : m ∈ ((u.answer P).run sign).1) :
    (∃ c, u = .sign c ∧ m = (Hashed.sha512 (Spec.fileInput c)).value P) ∨
    ∃ epk salt key k x, u.session P = some (epk, salt, key) ∧
      (Hashed.sha256 (statementInput epk salt key)) ∈ u.hashes P sign ∧ Hashed.hmac k x ∈ u.hashes P sign ∧
      (m = senderStatement P epk salt key ∨ m = P.hmac256 k x) := by
  cases u with
  | sign c => left; exact ⟨c, rfl, by simpa [Use.answer, Play.run, Hashed.value] using hm⟩
  | send stream block csk key salt coin rcpts pieces =>
    right
    simp only [Use.answer] at hm
    simp only [Use.hashes]
    split at hm
    · cases hm
    · rename_i ws hws
      rw [hws]
      simp only [Play.run, List.mem_cons, List.not_mem_nil, or_false] at hm
      refine ⟨_, _, _, _, _, rfl, by simp, ?_, hm⟩
      simp

/-- **C130**, sessions: for every impostor, who sees a fresh public key and has any number of files signed with its secret key
and any number of encrypted files sent by it - also to himself - the probability that he then presents a file, and a private
key to read it with, such that `NewDecryptor` and `SetPrivateKey` with this sender return nil and `AuthenticatedSender` is
true, although no file sent had the ephemeral key, the salt and the root key of this one, is at most the probability that the
explicit forger made from him forges an Ed25519 signature, plus that of two different strings with the same hash among those
that are hashed. -/
theorem C130_session (P : Prims) (L : Laws P) (F : Impostor) :
    F.odds P (useKey P) (Spec.strangeSession P (sessionOf P)) ≤
      (F.ed P (headerSigned P)).odds P + F.coincidence P (useKey P) (headerHashes P) := by
  refine impostor_bound P L F _ _ _ fun seed reader uses file hwin => ?_
  have hpk := L.ed_pub_len seed.bytes seed.length
  unfold Spec.strangeSession sessionOf at hwin
  cases hd : authenticated P (P.edPub seed.bytes) reader.bytes file with
  | none => rw [hd] at hwin; cases hwin
  | some d =>
    rw [hd] at hwin
    obtain ⟨hb, key, sig, h1, _, ho, h2, h3, h4, h5, _⟩ := authenticated_opening P L _ reader file d hd
    simp only [Option.map_some, Option.any_some, h1, Option.getD_some, List.all_map, List.all_eq_true, Function.comp_apply,
      decide_eq_true_eq] at hwin
    refine ⟨senderStatement P d.hdr.pk d.hdr.salt key, sig, ?_, h5, ?_, ?_⟩
    · simp [headerSigned, hd, h1, h4]
    · simp [headerHashes, hd, h1]
    · intro u hu hm
      refine ⟨u, hu, ?_⟩
      have hin : Hashed.sha256 (statementInput d.hdr.pk d.hdr.salt key) ∈ headerHashes P (P.edPub seed.bytes) reader.bytes file := by
        simp [headerHashes, hd, h1]
      rcases signed_cases P _ u _ hm with ⟨c, rfl, h⟩ | ⟨epk, salt, k, mk, x, g1, g2, g3, g4 | g4⟩
      · exfalso
        have := congrArg List.length h
        simp only [Hashed.value, senderStatement, L.sha256_len, L.sha512_len] at this
        omega
      · refine ⟨_, g2, _, hin, ?_, g4.symm⟩
        intro he
        apply hwin u hu
        rw [g1]
        have hlen : epk.length = 32 ∧ salt.length = 32 := by
          cases u with
          | sign c => cases g1
          | send stream block csk key salt coin rcpts pieces =>
            cases g1
            obtain ⟨e, _, e1, e2, _⟩ := L.dh csk.bytes csk.bytes csk.length csk.length
            rw [e1]
            exact ⟨e2, salt.length⟩
        obtain ⟨rfl, rfl, rfl⟩ := statementInput_inj (by omega) (by rw [hlen.2, ho.rules.salt]) (Hashed.sha256.inj he)
        rfl
      · exact ⟨_, g3, _, hin, (fun h => by cases h), g4.symm⟩

/-! ### Contents -/

theorem foldl_be (w : Bytes) (h : w.length = 4) : w.foldl (fun a b => a * 256 + b.toNat) 0 = be32dec w := by
  match w, h with
  | [a, b, c, d], _ => simp [be32dec]; omega

theorem lengthWord_dec (n : Nat) (l : Bool) (h : n < 2^31) (t : Bytes) :
    ((lengthWord n l ++ t).take 4).foldl (fun a b => a * 256 + b.toNat) 0 = n + if l then 2^31 else 0 := by
  rw [List.take_append_of_le_length (by simp), List.take_of_length_le (by simp), foldl_be _ (by simp)]
  unfold lengthWord
  have := be32dec_be32 (n + if l then 2^31 else 0) []
  rw [List.append_nil] at this
  rw [this]
  cases l <;> simp <;> omega

theorem chunksOf_body (P : Prims) (L : Laws P) (key nonce : Bytes) (hk : key.length = 32) (hn : nonce.length = 12) (fin tail : Bytes)
    (hfin : fin.length ≤ 2^30) : ∀ (mid : List Bytes) (i fuel : Nat), (∀ c ∈ mid, c.length ≤ 2^30) → mid.length < fuel →
      chunksOf fuel (sealedMid P key nonce i mid ++ (sealedChunk P key nonce (i + mid.length) true fin ++ tail)) (mid.flatten ++ fin) =
        mid ++ [fin] := by
  intro mid
  induction mid with
  | nil =>
    intro i fuel _ hf
    obtain ⟨fuel, rfl⟩ := Nat.exists_eq_succ_of_ne_zero (n := fuel) (by simp at hf; omega)
    simp only [sealedMid, List.nil_append, sealedChunk, List.append_assoc, chunksOf, List.flatten_nil]
    rw [lengthWord_dec _ _ (by omega), if_pos (by simp)]
  | cons c mid ih =>
    intro i fuel hm hf
    obtain ⟨fuel, rfl⟩ := Nat.exists_eq_succ_of_ne_zero (n := fuel) (by simp at hf; omega)
    have hc := hm c (by simp)
    simp only [sealedMid, List.flatten_cons, List.cons_append, List.append_assoc]
    rw [chunksOf]
    have hw : sealedChunk P key nonce i false c = lengthWord c.length false ++
        P.aeadSeal key (be32 i ++ nonce.drop 4) c (lengthWord c.length false) := rfl
    rw [hw, List.append_assoc, lengthWord_dec _ _ (by omega), if_neg (by simp; omega)]
    have hl : (P.aeadSeal key (be32 i ++ nonce.drop 4) c (lengthWord c.length false)).length = c.length + 16 :=
      L.seal_len _ _ _ _ hk (by simp [hn]) hc
    simp only [Bool.false_eq_true, if_false, Nat.add_zero]
    rw [List.take_left' rfl, List.drop_left' rfl, ← List.append_assoc, List.drop_left' (by simp [hl]; omega)]
    have := ih (i + 1) fuel (fun x hx => hm x (List.mem_cons_of_mem _ hx)) (by simp at hf; omega)
    rw [List.length_cons, show i + (mid.length + 1) = i + 1 + mid.length by omega]
    rw [this]

theorem ChunksOk_le {cs : Nat} : ∀ {l : List Bytes}, ChunksOk cs l → ∀ c ∈ l, c.length ≤ cs
  | [], h, _, _ => h.elim
  | [c], h, x, hx => by simp at hx; subst hx; exact h
  | c :: d :: t, h, x, hx => by
    rw [ChunksOk_cons _ _ _ (by simp)] at h
    rcases List.mem_cons.mp hx with rfl | hx
    · exact h.2.1
    · exact ChunksOk_le h.2.2 x hx

theorem cut_trailer (a t : Bytes) (h : t.length = 64) :
    (a ++ t).take ((a ++ t).length - 64) = a ∧ (a ++ t).drop ((a ++ t).length - 64) = t := by
  have : (a ++ t).length - 64 = a.length := by rw [List.length_append, h]; omega
  rw [this]
  exact ⟨List.take_left' rfl, List.drop_left' rfl⟩

theorem usedBlock_bounds (b : Nat) : 0 < Spec.usedBlock b ∧ Spec.usedBlock b ≤ 2^30 := by
  unfold Spec.usedBlock
  split <;> omega

/-- A file that was sent: what was hashed, and what it looks like. -/
theorem sent_file (P : Prims) (L : Laws P) (seed : Coins 32) (u : Use) (m : Bytes)
    (hm : m ∈ ((u.answer P).run fun m => P.edSign (seed.bytes ++ P.edPub seed.bytes) (Spec.digest P m)).1) :
    (∃ c, u = .sign c ∧ m = P.sha512 (Spec.fileInput c)) ∨
    ∃ st h key chunks tr, (m = P.sha256 st ∨ m = P.hmac256 (sessionKeys P key (P.sha256 h)).2.2 (macInput chunks)) ∧
      Hashed.sha256 st ∈ u.hashes P (fun m => P.edSign (seed.bytes ++ P.edPub seed.bytes) (Spec.digest P m)) ∧
      Hashed.sha256 h ∈ u.hashes P (fun m => P.edSign (seed.bytes ++ P.edPub seed.bytes) (Spec.digest P m)) ∧
      Hashed.macKey key (P.sha256 h) ∈ u.hashes P (fun m => P.edSign (seed.bytes ++ P.edPub seed.bytes) (Spec.digest P m)) ∧
      Hashed.hmac (sessionKeys P key (P.sha256 h)).2.2 (macInput chunks) ∈
        u.hashes P (fun m => P.edSign (seed.bytes ++ P.edPub seed.bytes) (Spec.digest P m)) ∧
      u.plain = some chunks.flatten ∧ chunks ≠ [] ∧ (∀ c ∈ chunks, c.length ≤ 2^30) ∧ tr.length = 64 ∧
      useKey P seed.bytes u = h ++ P.sha256 h ++ sealedBody P (sessionKeys P key (P.sha256 h)).2.1
        (sessionKeys P key (P.sha256 h)).1 0 chunks ++ tr := by
  have huse := useKey_answer P L seed.bytes seed.length u
  cases u with
  | sign c => left; exact ⟨c, rfl, by simpa [Use.answer, Play.run] using hm⟩
  | send stream block csk key salt coin rcpts pieces =>
    right
    simp only [Use.answer] at hm huse
    simp only [Use.hashes]
    obtain ⟨b1, b2⟩ := usedBlock_bounds block
    have e1 := encryptChunks_ok (Spec.usedBlock block) b1 pieces.flatten
    have e2 := streamChunks_ok (Spec.usedBlock block) b1 pieces.flatten
    have e3 := encryptChunks_ne_nil (Spec.usedBlock block) pieces.flatten
    have e4 := streamChunks_ne_nil (Spec.usedBlock block) pieces.flatten
    split at hm
    · cases hm
    · rename_i ws hws
      rw [hws] at huse ⊢
      simp only [Play.run, List.mem_cons, List.not_mem_nil, or_false] at hm huse
      refine ⟨_, _, _, _, _, hm, by simp [senderStatement, statementInput], by simp, by simp, by simp, ?_, ?_, ?_, ?_, huse⟩
      · cases stream
        · simp only [Bool.false_eq_true, if_false, e1.2.1]; rfl
        · simp only [if_true, e2.2.1]; rfl
      · cases stream
        · simpa using e3
        · simpa using e4
      · cases stream
        · intro c hc; exact le_trans (ChunksOk_le e1.1 c (by simpa using hc)) b2
        · intro c hc; exact le_trans (ChunksOk_le e2.1 c (by simpa using hc)) b2
      · exact L.ed_sign_len _ _ (by rw [List.length_append, seed.length, L.ed_pub_len _ seed.length])

/-- What is known of a file that is shown as the sender's and can be decrypted. -/
theorem readAs_file (P : Prims) (L : Laws P) (pk : Bytes) (seed : Coins 32) (file plain rest : Bytes)
    (h : readAs P pk seed.bytes file = some (plain, rest)) :
    ∃ d head key, authenticated P pk seed.bytes file = some d ∧ d.key = some key ∧
      file = head ++ P.sha256 head ++ d.rd.content ∧
      ((∃ pre, file = pre ++ [0x80, 0, 0, 0] ++ rest) ∨
       ∃ mid fin tr, (∀ c ∈ mid, c.length ≤ 2^30) ∧ fin.length ≤ 2^30 ∧ tr.length = 64 ∧ plain = mid.flatten ++ fin ∧
        d.rd.content = sealedMid P (sessionKeys P key (P.sha256 head)).2.1 (sessionKeys P key (P.sha256 head)).1 0 mid ++
          (sealedChunk P (sessionKeys P key (P.sha256 head)).2.1 (sessionKeys P key (P.sha256 head)).1 mid.length true fin ++
            (tr ++ rest)) ∧
        P.edVerify pk (Spec.digest P (P.hmac256 (sessionKeys P key (P.sha256 head)).2.2 (macInput (mid ++ [fin])))) tr = true) := by
  unfold readAs at h
  obtain ⟨d, hd, h⟩ := Option.bind_eq_some_iff.mp h
  obtain ⟨hb, key, sig, h1, hsum, ho, h2, h3, h4, h5, hs, ha⟩ := authenticated_opening P L pk seed file d hd
  have hspk : d.sender = some { pk := pk } := by
    obtain ⟨d0, rd', hb, key, ha, hk, hr, e1, e2, e3, e4, e5, e6, e7, e8⟩ := setupDecryptor_ok P L _ _ _ d hs
    exact e7
  refine ⟨d, framed hb, key, hd, h1, ho.layout, ?_⟩
  split at h
  · rename_i d' wr hdec
    simp only [Option.some.injEq, Prod.mk.injEq] at h
    obtain ⟨rfl, rfl⟩ := h
    obtain ⟨key', r, d'', wr'', g1, g2, g3, g4⟩ := decrypt_any P L _ _ _ d hs {}
    rw [h1] at g1
    cases g1
    rw [hdec] at g2
    simp only [Prod.mk.injEq] at g2
    obtain ⟨rfl, rfl, rfl⟩ := g2
    rw [hsum] at g3 g4
    have hcs : d.hdr.chunkSize ≤ 2^30 := by have := ho.rules.chunk.2; omega
    cases g3 with
    | endedEmpty mid rest' _ _ hmid hopen hrd hstep heof hau hrest =>
      left
      refine ⟨framed hb ++ P.sha256 (framed hb) ++ sealedMid P (sessionKeys P key (P.sha256 (framed hb))).2.1
        (sessionKeys P key (P.sha256 (framed hb))).1 0 mid, ?_⟩
      have := ho.layout
      rw [hrd, g4, lengthWord_marker] at this
      rw [hrest]
      rw [this]
      simp only [List.append_assoc]
    | endedFull mid fin tr rest' _ _ hmid hopen hf0 hf htr hofin hver hrd hstep heof hau hrest =>
      right
      refine ⟨mid, fin, tr, fun c hc => le_trans (hmid c hc).2 hcs, le_trans hf hcs, htr, ?_, ?_, ?_⟩
      · have := hstep.out
        simpa using this
      · rw [hrd, g4, hrest, Nat.zero_add]
      · obtain ⟨p, p1, p2⟩ := hver ha
        rw [hspk] at p1
        cases p1
        rw [signDigest_spec] at p2
        rw [List.nil_append] at p2
        exact p2
  · cases h

/-- **C130**, what holds of contents: for every impostor as above, the probability that he presents a file, and a private key to
read it with, that is shown as the sender's and that `Decrypt` accepts, but that is, apart from its last 64 bytes, not a file
with these contents that was sent - and that does not end in the bare marker 80 00 00 00 - is bounded in the same way.  Missing:
files that end in the marker (`C130_contents_refuted`). -/
theorem C130_contents_partial (P : Prims) (L : Laws P) (F : Impostor) :
    F.odds P (useKey P) (Spec.strangeFile (readAs P)) ≤
      (F.ed P (trailerSigned P)).odds P + F.coincidence P (useKey P) (trailerHashes P) := by
  refine impostor_bound P L F _ _ _ fun seed reader uses file hwin => ?_
  have hpk := L.ed_pub_len seed.bytes seed.length
  unfold Spec.strangeFile at hwin
  cases hr : readAs P (P.edPub seed.bytes) reader.bytes file with
  | none => rw [hr] at hwin; cases hwin
  | some r =>
    obtain ⟨plain, rest⟩ := r
    rw [hr] at hwin
    simp only [Option.any_some, List.all_map, Bool.and_eq_true, decide_eq_true_eq, List.all_eq_true, Function.comp_apply] at hwin
    obtain ⟨hmark, hnew⟩ := hwin
    obtain ⟨d, head, key, h1, h2, h3, ⟨pre, h4⟩ | ⟨mid, fin, tr, m1, m2, m3, m4, m5, m6⟩⟩ := readAs_file P L _ reader file plain rest hr
    · exfalso
      apply hmark
      rw [h4, List.length_append, Nat.add_sub_cancel, List.take_left' rfl]
      exact List.suffix_append _ _
    -- a trailer was checked
    have hlen : (sessionKeys P key (P.sha256 head)).2.1.length = 32 ∧ (sessionKeys P key (P.sha256 head)).1.length = 12 := by
      have := L.hkdf_len key (P.sha256 head) (ascii "Data Key Expansion") 76 (by omega)
      constructor <;> simp [sessionKeys, this]
    have hhead : file.take (file.length - 32 - d.rd.content.length) = head := by
      have hl : file.length - 32 - d.rd.content.length = head.length := by
        have := congrArg List.length h3
        simp only [List.length_append, L.sha256_len] at this
        omega
      rw [hl]
      conv_lhs => rw [h3]
      rw [List.append_assoc, List.take_left' rfl]
    have hchunks : chunksOf (d.rd.content.length + 1) d.rd.content plain = mid ++ [fin] := by
      have := chunksOf_body P L _ _ hlen.1 hlen.2 fin (tr ++ rest) m2 mid 0 (d.rd.content.length + 1) m1 (by
        rw [m5, List.length_append]
        have := sealedMid_ge P (sessionKeys P key (P.sha256 head)).2.1 (sessionKeys P key (P.sha256 head)).1 mid 0
        omega)
      rw [Nat.zero_add, ← m5, ← m4] at this
      exact this
    have hread : chunksRead P (P.edPub seed.bytes) reader.bytes file = some (key, head, mid ++ [fin]) := by
      simp only [chunksRead, h1, hr, Option.bind_some, Option.map_some, h2, Option.getD_some, hhead, hchunks]
    have hbody : file.take (file.length - rest.length) = head ++ P.sha256 head ++ sealedBody P (sessionKeys P key (P.sha256 head)).2.1
        (sessionKeys P key (P.sha256 head)).1 0 (mid ++ [fin]) ++ tr := by
      have e : file = head ++ P.sha256 head ++ sealedBody P (sessionKeys P key (P.sha256 head)).2.1
          (sessionKeys P key (P.sha256 head)).1 0 (mid ++ [fin]) ++ tr ++ rest := by
        rw [sealedBody_snoc, Nat.zero_add, h3, m5]
        simp only [List.append_assoc]
      rw [e, List.length_append, Nat.add_sub_cancel, List.take_left' rfl]
    refine ⟨P.hmac256 (sessionKeys P key (P.sha256 head)).2.2 (macInput (mid ++ [fin])), tr, ?_, m6, ?_, ?_⟩
    · simp only [trailerSigned, hread, hr, Option.bind_some, Option.map_some, hbody]
      congr 2
      exact (cut_trailer _ _ m3).2
    · simp [trailerHashes, hread]
    · intro u hu hm
      have in1 : Hashed.sha256 head ∈ trailerHashes P (P.edPub seed.bytes) reader.bytes file := by simp [trailerHashes, hread]
      have in2 : Hashed.macKey key (P.sha256 head) ∈ trailerHashes P (P.edPub seed.bytes) reader.bytes file := by
        simp [trailerHashes, hread]
      have in3 : Hashed.hmac (sessionKeys P key (P.sha256 head)).2.2 (macInput (mid ++ [fin])) ∈
          trailerHashes P (P.edPub seed.bytes) reader.bytes file := by simp [trailerHashes, hread]
      rcases sent_file P L seed u _ hm with ⟨c, rfl, h⟩ | ⟨st, h', key', chunks, tr', g1, g2, g3, g4, g5, g6, g7, g8, g9, g10⟩
      · exfalso
        have := congrArg List.length h
        rw [L.hmac_len, L.sha512_len] at this
        omega
      refine ⟨u, hu, ?_⟩
      rcases g1 with g1 | g1
      · exact ⟨_, g2, _, in3, (fun h => by cases h), g1.symm⟩
      by_cases c1 : Hashed.hmac (sessionKeys P key' (P.sha256 h')).2.2 (macInput chunks) =
          Hashed.hmac (sessionKeys P key (P.sha256 head)).2.2 (macInput (mid ++ [fin]))
      · injection c1 with c1 c2
        by_cases c3 : Hashed.macKey key' (P.sha256 h') = Hashed.macKey key (P.sha256 head)
        · injection c3 with c3 c4
          by_cases c5 : h' = head
          · exfalso
            subst c3; subst c5
            have hch : chunks = mid ++ [fin] := by
              refine C13_macInput_injective _ _ (fun c hc => by have := g8 c hc; omega) (fun c hc => ?_) g7 (by simp) c2
              rcases List.mem_append.mp hc with hc | hc
              · have := m1 c hc; omega
              · simp at hc; subst hc; omega
            have := hnew u hu
            rw [hbody, g10, g6, hch] at this
            simp only [Bool.not_eq_true', Bool.and_eq_false_iff, decide_eq_false_iff_not] at this
            rcases this with h | h
            · apply h; rw [m4]; simp
            · apply h
              rw [(cut_trailer _ _ g9).1, (cut_trailer _ _ m3).1]
          · exact ⟨_, g3, _, in1, (fun h => c5 (Hashed.sha256.inj h)), c4⟩
        · exact ⟨_, g4, _, in2, c3, c1⟩
      · exact ⟨_, g5, _, in3, c1, g1.symm⟩

/-! ### An impostor who always succeeds -/

/-- He has an empty file sent to himself, takes its header, seals `what` under the data key and puts the bare marker behind it.
(He knows the root key, as every recipient does.) -/
def copycat (P : Prims) (what : Bytes) : Impostor where
  Tape := Coins 32
  play t _ :=
    .ask (.send false 0 t t t (fun _ => 0) [(P.edPub t.bytes, List.replicate 12 0)] []) fun file =>
      let head := file.take (12 + be32dec (file.drop 8))
      let k := sessionKeys P t.bytes (P.sha256 head)
      .done (head ++ P.sha256 head ++ (sealedMid P k.2.1 k.1 0 [what] ++ [0x80, 0, 0, 0]), t)

/-- **C130** is false of the code for contents: there is an impostor who needs one - empty - file sent to himself to make a
file with any other contents (up to the block size) that is shown as the sender's and decrypts without an error.  He always
succeeds, whatever the primitives. -/
theorem C130_contents_refuted (P : Prims) (L : Laws P) (what : Bytes) (h0 : what ≠ []) (h1 : what.length ≤ 4194304) :
    (copycat P what).odds P (useKey P) (Spec.strangeContents (readAs P)) = 1 := by
  unfold Impostor.odds
  have hne : Nonempty (copycat P what).Tape := inferInstanceAs (Nonempty (Coins 32))
  refine Eq.trans (mean_congr fun t => mean_congr fun seed => ?_) (b := mean fun t => mean fun seed => 1) ?_
  swap
  · simp only [mean_const]
  change Coins 32 at t
  simp only [copycat, Play.run, List.map_cons, List.map_nil]
  generalize hf : useKey P seed.bytes (.send false 0 t t t (fun _ => 0) [(P.edPub t.bytes, List.replicate 12 0)] []) = file
  have hgen : ∀ s, some (newPrivateKey P seed.bytes) = some s → s.Genuine P := fun s h => by
    cases h; exact newPrivateKey_genuine _ _ seed.length
  have hwf : EncCoins.WF { csk := t.bytes, key := t.bytes, salt := t.bytes } := ⟨t.length, t.length, t.length⟩
  obtain ⟨e, e', rd', wr', g1, g2⟩ := C01_encrypt_succeeds P L (some (newPrivateKey P seed.bytes)) hgen 0
    { csk := t.bytes, key := t.bytes, salt := t.bytes } hwf [({ pk := P.edPub t.bytes }, List.replicate 12 0)]
    (by intro r hr; simp at hr; subst hr; exact ⟨t.bytes, t.length, rfl⟩) { chunks := [], last := .eof, joint := false } rfl {}
    (by simp [Writer.NoFail]) rfl (Coins.bytes (n := 64) fun _ => 0)
  have hbytes : wr'.out = file := by
    rw [← hf]
    simp only [useKey, List.map_cons, List.map_nil]
    rw [g1]
    simp only [Bool.false_eq_true, if_false]
    rw [g2]
  have hs : Sending P (some (newPrivateKey P seed.bytes)) 0 { csk := t.bytes, key := t.bytes, salt := t.bytes }
      [({ pk := P.edPub t.bytes }, List.replicate 12 0)] e [] (encryptChunks (effectiveBlock 0) []) file :=
    { hsender := hgen, hblk := by omega, coins := hwf
      nonces := by intro r hr; simp at hr; subst hr; simp
      count := by simp
      setup := g1
      wrote := ⟨_, Spec.Coins.length _, .inl ⟨_, _, _, _, _, by simp [Reader.content], rfl, g2, hbytes, rfl⟩⟩ }
  have hr : Receiving P (some (newPrivateKey P seed.bytes)) [({ pk := P.edPub t.bytes }, List.replicate 12 0)]
      (newPrivateKey P t.bytes) t.bytes (some { pk := P.edPub seed.bytes }) :=
    { hseed := t.length, hsk := rfl, hpk := rfl, listed := ⟨_, List.mem_singleton.mpr rfl, rfl⟩
      named := fun s h => by cases h; exact ⟨_, rfl, rfl⟩ }
  obtain ⟨epk, ws, coin, hok, _, _, _, _, hform, _⟩ := hs.facts L
  have hhead : file.take (12 + be32dec (file.drop 8)) = headerPart e.hdr := by
    obtain ⟨v, hv1, hv2, hv3⟩ := headerBytes_len P L _ _ _ _ e epk ws hwf hs.nonces hok
    have hn : (headerBytes e.hdr).length < 2^32 := by simp at hv3; omega
    have hp : headerPart e.hdr = (ascii "SigTool" ++ [3] ++ be32 (headerBytes e.hdr).length) ++ headerBytes e.hdr := rfl
    have h12 : (ascii "SigTool" ++ [3] ++ be32 (headerBytes e.hdr).length).length = 12 := rfl
    have h8 : file.drop 8 = be32 (headerBytes e.hdr).length ++ (headerBytes e.hdr ++ (P.sha256 (headerPart e.hdr) ++
        (sealedBody P (e.keys P).2.1 (e.keys P).1 0 (encryptChunks (effectiveBlock 0) []) ++
        e.trailerOf P (e.keys P).2.2 (macInput (encryptChunks (effectiveBlock 0) [])) coin))) := by
      rw [hform, hp]
      simp only [List.append_assoc]
      rfl
    rw [h8, be32dec_be32, Nat.mod_eq_of_lt hn, hform, List.append_assoc]
    refine List.take_left' ?_
    rw [hp, List.length_append, h12]
  rw [hhead]
  rcases C14_replace_refuted P L _ _ _ _ e _ _ _ hs (newPrivateKey P t.bytes) t.bytes (some { pk := P.edPub seed.bytes }) hr
    [what] (by intro x hx; simp at hx; subst hx; exact ⟨List.length_pos_of_ne_nil h0, h1⟩)
    { chunks := [headerPart e.hdr ++ P.sha256 (headerPart e.hdr) ++
      (sealedMid P (sessionKeys P t.bytes (P.sha256 (headerPart e.hdr))).2.1
        (sessionKeys P t.bytes (P.sha256 (headerPart e.hdr))).1 0 [what] ++ [0x80, 0, 0, 0])], last := .eof, joint := false }
    (by simp [Reader.content]) {} (by simp [Writer.NoFail]) with ⟨r, hr, hw⟩ | ⟨d, d', out', k1, k2, k3, k4⟩
  · exfalso
    simp at hr; subst hr
    exact hw.1 rfl
  · have hread : readAs P (P.edPub seed.bytes) t.bytes (headerPart e.hdr ++ P.sha256 (headerPart e.hdr) ++
      (sealedMid P (sessionKeys P t.bytes (P.sha256 (headerPart e.hdr))).2.1
        (sessionKeys P t.bytes (P.sha256 (headerPart e.hdr))).1 0 [what] ++ [0x80, 0, 0, 0])) = some (what, d'.rd.content) := by
      have ha : d.auth = true := by
        have := (decrypt_only P d {} (.ok ()) d' out' k2).1.auth
        rw [← this, k4]
      simp only [readAs, authenticated]
      rw [k1]
      simp only [ha, if_true, Option.bind_some]
      rw [k2]
      simp [k3]
    unfold Spec.strangeContents
    rw [hread]
    simp [Use.plain, yes, h0]

/-! ### Concrete cases

The toy signatures can be made from the public key alone, so an impostor can send files without asking anybody: the bounds are
obligations. -/

namespace AuthorDemo

/-- The use that is imitated: a file for the reader whose seed is `t`. -/
def imitated (t : Coins 32) : Use := .send false 4 t t t (fun _ => 7) [(toyPrims.edPub t.bytes, List.replicate 12 3)] [[1, 2, 3], [4, 5]]

def impostor : Impostor where
  Tape := Coins 32
  play t pk := .done ((((imitated t).answer toyPrims).run fun m => 1 :: toyHash 63 (pk ++ Spec.digest toyPrims m)).2, t)

theorem imitates (t seed : Coins 32) : (((imitated t).answer toyPrims).run fun m =>
    1 :: toyHash 63 (toyPrims.edPub seed.bytes ++ Spec.digest toyPrims m)).2 = useKey toyPrims seed.bytes (imitated t) := by
  rw [useKey_answer toyPrims toyLaws seed.bytes seed.length]
  congr 2

theorem shown_as (t seed : Coins 32) :
    (authenticated toyPrims (toyPrims.edPub seed.bytes) t.bytes (useKey toyPrims seed.bytes (imitated t))).isSome = true := by
  generalize hf : useKey toyPrims seed.bytes (imitated t) = file
  have hgen : ∀ s, some (newPrivateKey toyPrims seed.bytes) = some s → s.Genuine toyPrims := fun s h => by
    cases h; exact newPrivateKey_genuine _ _ seed.length
  have hwf : EncCoins.WF { csk := t.bytes, key := t.bytes, salt := t.bytes } := ⟨t.length, t.length, t.length⟩
  obtain ⟨e, e', rd', wr', g1, g2⟩ := C01_encrypt_succeeds toyPrims toyLaws (some (newPrivateKey toyPrims seed.bytes)) hgen 4
    { csk := t.bytes, key := t.bytes, salt := t.bytes } hwf [({ pk := toyPrims.edPub t.bytes }, List.replicate 12 3)]
    (by intro r hr; simp at hr; subst hr; exact ⟨t.bytes, t.length, rfl⟩)
    { chunks := [[1, 2, 3], [4, 5]], last := .eof, joint := false } rfl {}
    (by simp [Writer.NoFail]) rfl (Coins.bytes (n := 64) fun _ => 7)
  have hbytes : wr'.out = file := by
    rw [← hf]
    simp only [useKey, imitated, List.map_cons, List.map_nil]
    rw [g1]
    simp only [Bool.false_eq_true, if_false]
    rw [g2]
  have hs : Sending toyPrims (some (newPrivateKey toyPrims seed.bytes)) 4 { csk := t.bytes, key := t.bytes, salt := t.bytes }
      [({ pk := toyPrims.edPub t.bytes }, List.replicate 12 3)] e [1, 2, 3, 4, 5] (encryptChunks (effectiveBlock 4) [1, 2, 3, 4, 5])
      file :=
    { hsender := hgen, hblk := by omega, coins := hwf
      nonces := by intro r hr; simp at hr; subst hr; simp
      count := by simp
      setup := g1
      wrote := ⟨_, Spec.Coins.length _, .inl ⟨_, _, _, _, _, by simp [Reader.content], rfl, g2, hbytes, rfl⟩⟩ }
  have hr : Receiving toyPrims (some (newPrivateKey toyPrims seed.bytes)) [({ pk := toyPrims.edPub t.bytes }, List.replicate 12 3)]
      (newPrivateKey toyPrims t.bytes) t.bytes (some { pk := toyPrims.edPub seed.bytes }) :=
    { hseed := t.length, hsk := rfl, hpk := rfl, listed := ⟨_, List.mem_singleton.mpr rfl, rfl⟩
      named := fun s h => by cases h; exact ⟨_, rfl, rfl⟩ }
  obtain ⟨epk, ws, coin, hok, _, _, _, _, hform, _⟩ := hs.facts toyLaws
  rcases hs.opens toyLaws hr { chunks := [file], last := .eof, joint := false } _
    (by simp only [Reader.content, List.flatten_cons, List.flatten_nil, List.append_nil]; exact hform) with
    ⟨r, hr, hw⟩ | ⟨d, k1, k2⟩
  · exfalso
    simp at hr; subst hr
    exact hw.1 rfl
  · simp only [authenticated]
    rw [k1]
    have ha : d.auth = true := by rw [k2.auth]; rfl
    simp [ha]

theorem odds_eq : impostor.odds toyPrims (useKey toyPrims) (Spec.strangeSession toyPrims (sessionOf toyPrims)) = 1 := by
  unfold Impostor.odds
  have hne : Nonempty impostor.Tape := inferInstanceAs (Nonempty (Coins 32))
  refine Eq.trans (mean_congr fun t => mean_congr fun seed => ?_) (b := mean fun t => mean fun seed => 1) ?_
  swap
  · simp only [mean_const]
  change Coins 32 at t
  simp only [impostor, Play.run, List.map_nil]
  rw [imitates]
  obtain ⟨d, hd⟩ := Option.isSome_iff_exists.mp (shown_as t seed)
  unfold Spec.strangeSession sessionOf
  rw [hd]
  rfl

/-- `C130_session` is not empty: this impostor, who asks nothing, makes files that are shown as the sender's, and the bound
says that one of the two events is certain to happen. -/
example : 1 ≤ (impostor.ed toyPrims (headerSigned toyPrims)).odds toyPrims +
    impostor.coincidence toyPrims (useKey toyPrims) (headerHashes toyPrims) :=
  odds_eq ▸ C130_session toyPrims toyLaws impostor

end AuthorDemo

/-- A file and its reader with which an impostor would win the second game, nothing having been sent. -/
example : Spec.strangeFile (readAs toyPrims) (toyPrims.edPub (Coins.bytes fun _ : Fin 32 => 9)) []
    (useKey toyPrims (Coins.bytes fun _ : Fin 32 => 9) (AuthorDemo.imitated fun _ => 5)) (Coins.bytes fun _ : Fin 32 => 5) = true := by
  decide +kernel

end Sigtool
