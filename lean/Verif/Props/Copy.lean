import Verif.Copy
import Verif.Props.StreamReader
import Verif.Props.Accepts
import Mathlib.Tactic.ByContra
/-!
# C89: the stream objects under `io.Copy` and `io.ReadAll`
-/

namespace Sigtool
open Spec (WrapForgery)

/-- The non-empty buffers that `io.Copy` reads from `rd`. -/
def Reader.pieces (size : Nat) : Nat → Reader → List Bytes
  | 0, _ => []
  | fuel + 1, rd =>
    match rd.read size with
    | (b, none, rd) => if b.length > 0 then b :: rd.pieces size fuel else rd.pieces size fuel
    | (b, some _, _) => if b.length > 0 then [b] else []

/-- A measure of what is left of the script. -/
def Reader.left (rd : Reader) : Nat := rd.chunks.length + rd.content.length

theorem Reader.read_left (rd : Reader) (size : Nat) (h : 0 < size) (b : Bytes) (rd' : Reader) (hr : rd.read size = (b, none, rd')) :
    rd'.left < rd.left ∧ rd'.last = rd.last := by
  unfold Reader.read at hr
  split at hr
  · cases hr
  · rename_i c cs hc
    split at hr
    · rename_i h1
      obtain ⟨rfl, _, rfl⟩ := by simpa using hr
      refine ⟨?_, rfl⟩
      simp only [left, content, hc, List.length_cons, List.flatten_cons, List.length_append]
      omega
    · rename_i h1
      obtain ⟨rfl, rfl⟩ := by simpa using hr
      refine ⟨?_, rfl⟩
      simp only [left, content, hc, List.length_cons, List.flatten_cons, List.length_append, List.length_drop]
      omega

theorem Reader.read_some (rd : Reader) (size : Nat) (b : Bytes) (x : Err) (rd' : Reader) (hr : rd.read size = (b, some x, rd')) :
    x = rd.last ∧ b = rd.content := by
  have hcon := rd.read_content size
  rw [hr] at hcon
  unfold Reader.read at hr
  split at hr
  · rename_i hc
    obtain ⟨rfl, rfl, rfl⟩ := by simpa using hr
    simp [content, hc]
  · rename_i c cs hc
    split at hr
    · split at hr
      · rename_i h1 h2
        obtain ⟨rfl, rfl, rfl⟩ := by simpa using hr
        simp only [Bool.and_eq_true, List.isEmpty_iff] at h2
        simp [content, hc, h2.1]
      · simp at hr
    · simp at hr

theorem Reader.pieces_flatten (size : Nat) (hs : 0 < size) : ∀ (fuel : Nat) (rd : Reader), rd.left < fuel →
    (rd.pieces size fuel).flatten = rd.content := by
  intro fuel
  induction fuel with
  | zero => intro rd h; omega
  | succ fuel ih =>
    intro rd h
    unfold Reader.pieces
    rcases hr : rd.read size with ⟨b, er, rd'⟩
    have hc := rd.read_content size
    rw [hr] at hc
    cases er with
    | none =>
      have := rd.read_left size hs b rd' hr
      have hi := ih rd' (by omega)
      dsimp only at hc ⊢
      split
      · rw [List.flatten_cons, hi, hc]
      · rename_i hb
        have : b = [] := List.length_eq_zero_iff.mp (by omega)
        rw [hi, ← hc, this]; rfl
    | some x =>
      obtain ⟨_, h2⟩ := rd.read_some size b x rd' hr
      dsimp only
      split
      · simp [h2]
      · rename_i hb
        have : b = [] := List.length_eq_zero_iff.mp (by omega)
        rw [← h2, this]; rfl

/-- If `io.Copy` into a stream writer returns nil, it has written everything the source holds, and the source ended with
`io.EOF`. -/
theorem copyIn_nil (P : Prims) (size : Nat) (coin : Bytes) : ∀ (fuel : Nat) (e : Encryptor) (w : EncWriter) (rd : Reader)
    (n m : Nat) (e' : Encryptor) (w' : EncWriter), copyIn P size fuel e w rd n = (.ok (m, none), e', w') →
    rd.last = .eof ∧ m = n + rd.content.length ∧
      ∃ bufs, bufs.flatten = rd.content ∧ w.writeAll P e coin bufs = w'.close P e' coin := by
  intro fuel
  induction fuel with
  | zero => intro e w rd n m e' w' h; cases h
  | succ fuel ih =>
    intro e w rd n m e' w' h
    unfold copyIn at h
    rcases hr : rd.read size with ⟨b, er, rd'⟩
    rw [hr] at h
    dsimp only at h
    have hc := rd.read_content size
    rw [hr] at hc
    dsimp only at hc
    -- what follows the write
    have key : ∀ (e1 : Encryptor) (w1 : EncWriter) (k : Nat),
        (match er with
          | none => copyIn P size fuel e1 w1 rd' k
          | some x => (.ok (k, if x = .eof then none else some x), e1, w1)) = (.ok (m, none), e', w') →
        rd.last = .eof ∧ m = k + rd'.content.length ∧ (er ≠ none → b = rd.content) ∧
          ∃ bufs, bufs.flatten = rd'.content ∧ w1.writeAll P e1 coin bufs = w'.close P e' coin := by
      intro e1 w1 k hk
      cases er with
      | none =>
        obtain ⟨g1, g2, g3⟩ := ih e1 w1 rd' k m e' w' hk
        have hl : rd'.last = rd.last := by
          unfold Reader.read at hr
          split at hr
          · cases hr
          · split at hr
            · obtain ⟨_, _, rfl⟩ := by simpa using hr
              rfl
            · obtain ⟨_, rfl⟩ := by simpa using hr
              rfl
        exact ⟨by rw [← hl]; exact g1, g2, by simp, g3⟩
      | some x =>
        obtain ⟨h1, h2⟩ := rd.read_some size b x rd' hr
        dsimp only at hk
        have hx : x = .eof := by
          by_contra hx
          rw [if_neg hx] at hk
          cases hk
        rw [if_pos hx] at hk
        cases hk
        have hn : rd'.content = [] := by
          rw [h2] at hc
          simpa using hc
        refine ⟨by rw [← h1, hx], by simp [hn], fun _ => h2, [], by simp [hn], rfl⟩
    split at h
    · rcases hw : w.write P e b with ⟨res, e1, w1⟩
      rw [hw] at h
      cases res with
      | ok k =>
        dsimp only at h
        by_cases hk : k = b.length
        · rw [if_neg (by simpa using hk)] at h
          obtain ⟨g1, g2, g3, bufs, g4, g5⟩ := key e1 w1 _ h
          refine ⟨g1, ?_, b :: bufs, by rw [List.flatten_cons, g4, hc], ?_⟩
          · rw [g2, ← hc, List.length_append]; omega
          · unfold EncWriter.writeAll
            rw [hw]
            dsimp only
            rw [if_pos hk, g5]
        · rw [if_pos hk] at h; cases h
      | err x => cases h
      | panic x => cases h
    · rename_i hb
      have hb' : b = [] := List.length_eq_zero_iff.mp (by omega)
      obtain ⟨g1, g2, g3, bufs, g4, g5⟩ := key e w n h
      subst hb'
      exact ⟨g1, by rw [g2, ← hc]; simp, bufs, by rw [g4, ← hc]; rfl, g5⟩

/-- What `io.Copy` into a stream writer does, given what the sequence of its `Write` calls and a `Close` do. -/
theorem copyIn_total (P : Prims) (size : Nat) (hs : 0 < size) (coin : Bytes) : ∀ (fuel : Nat) (e : Encryptor) (w : EncWriter) (rd : Reader)
    (n : Nat), rd.left < fuel → ∀ res e2 w2, w.writeAll P e coin (rd.pieces size fuel) = (res, e2, w2) → res.isPanic = false →
    (∃ e' w', copyIn P size fuel e w rd n = (.ok (n + rd.content.length, if rd.last = .eof then none else some rd.last), e', w') ∧
      w'.close P e' coin = (res, e2, w2)) ∨
    (∃ x m, res = .err x ∧ m ≤ rd.content.length ∧ copyIn P size fuel e w rd n = (.ok (n + m, some x), e2, w2)) := by
  intro fuel
  induction fuel with
  | zero => intro e w rd n h; omega
  | succ fuel ih =>
    intro e w rd n hl res e2 w2 hw hp
    unfold copyIn
    unfold Reader.pieces at hw
    rcases hr : rd.read size with ⟨b, er, rd'⟩
    rw [hr] at hw
    have hc := rd.read_content size
    rw [hr] at hc
    dsimp only at hc ⊢
    cases er with
    | none =>
      obtain ⟨l1, l2⟩ := rd.read_left size hs b rd' hr
      dsimp only at hw ⊢
      by_cases hb : b.length > 0
      · rw [if_pos hb] at hw ⊢
        unfold EncWriter.writeAll at hw
        rcases hw1 : w.write P e b with ⟨r1, e1, w1⟩
        rw [hw1] at hw
        cases r1 with
        | ok k =>
          have hk : k = b.length := by
            unfold EncWriter.write at hw1
            split at hw1
            · cases hw1
            · split at hw1
              · omega
              · split at hw1 <;> cases hw1
                rfl
          dsimp only at hw ⊢
          rw [if_pos hk] at hw
          rw [if_neg (by simpa using hk)]
          rcases ih e1 w1 rd' (n + k) (by omega) res e2 w2 hw hp with ⟨e', w', g1, g2⟩ | ⟨x, m, g1, g2, g3⟩
          · refine .inl ⟨e', w', ?_, g2⟩
            rw [g1, l2, ← hc, List.length_append, hk, Nat.add_assoc]
          · refine .inr ⟨x, b.length + m, g1, ?_, ?_⟩
            · rw [← hc, List.length_append]; omega
            · rw [g3, hk, Nat.add_assoc]
        | err x =>
          cases hw
          exact .inr ⟨x, 0, rfl, by omega, rfl⟩
        | panic x => cases hw; cases hp
      · rw [if_neg hb] at hw ⊢
        have hb' : b = [] := List.length_eq_zero_iff.mp (by omega)
        have hcc : rd'.content = rd.content := by rw [← hc, hb']; rfl
        have := ih e w rd' n (by omega) res e2 w2 hw hp
        rw [hcc, l2] at this
        exact this
    | some x =>
      obtain ⟨h1, h2⟩ := rd.read_some size b x rd' hr
      dsimp only at hw ⊢
      by_cases hb : b.length > 0
      · rw [if_pos hb] at hw ⊢
        unfold EncWriter.writeAll at hw
        rcases hw1 : w.write P e b with ⟨r1, e1, w1⟩
        rw [hw1] at hw
        cases r1 with
        | ok k =>
          have hk : k = b.length := by
            unfold EncWriter.write at hw1
            split at hw1
            · cases hw1
            · split at hw1
              · omega
              · split at hw1 <;> cases hw1
                rfl
          dsimp only at hw ⊢
          rw [if_pos hk] at hw
          rw [if_neg (by simpa using hk)]
          exact .inl ⟨e1, w1, by rw [hk, ← h2, ← h1], hw⟩
        | err y =>
          cases hw
          exact .inr ⟨y, 0, rfl, by omega, rfl⟩
        | panic y => cases hw; cases hp
      · rw [if_neg hb] at hw ⊢
        have hb' : b = [] := List.length_eq_zero_iff.mp (by omega)
        refine .inl ⟨e, w, ?_, hw⟩
        rw [← h2, hb', ← h1]; rfl

/-- A destination that takes everything that is offered to it. -/
def Writer.Whole (w : Writer) : Prop := ∀ ev ∈ w.script, ev = .full

/-- `io.Copy` from a stream reader, given what the sequence of its `Read` calls does. -/
theorem copyOut_spec (P : Prims) (size : Nat) (E : Err) : ∀ (pieces : List Bytes) (k : Nat) (d : Decryptor) (r : EncReader) (dst : Writer) (n : Nat),
    (r.readAll P d (List.replicate (pieces.length + (k + 1)) size)).1 = pieces.map .ok ++ List.replicate (k + 1) (.err E) →
    (∀ p ∈ pieces, 0 < p.length) →
    ∃ m er d' r' dst', copyOut P size (pieces.length + (k + 1)) d r dst n = (.ok (n + m, er), d', r', dst') ∧
      dst'.out = dst.out ++ pieces.flatten.take m ∧ m ≤ pieces.flatten.length ∧
      ((m = pieces.flatten.length ∧ er = if E = .eof then none else some E) ∨
        (er = some errShortWrite ∧ m < pieces.flatten.length) ∨ ∃ x j, er = some x ∧ WEv.fail j x ∈ dst.script) ∧
      (dst.Whole → m = pieces.flatten.length ∧ er = if E = .eof then none else some E) := by
  intro pieces
  induction pieces with
  | nil =>
    intro k d r dst n h _
    rw [List.length_nil, Nat.zero_add] at h ⊢
    rw [List.replicate_succ] at h
    unfold EncReader.readAll at h
    unfold copyOut
    rcases hr : r.read P d size with ⟨res, d1, r1⟩
    rw [hr] at h
    have h0 : res = .err E := by
      have := congrArg List.head? h
      simpa [List.replicate_succ] using this
    rw [h0]
    exact ⟨0, _, d1, r1, dst, rfl, by simp, by simp, .inl ⟨by simp, rfl⟩, fun _ => ⟨by simp, rfl⟩⟩
  | cons p ps ih =>
    intro k d r dst n h hp
    have e1 : (p :: ps).length + (k + 1) = (ps.length + (k + 1)) + 1 := by simp; omega
    rw [e1] at h ⊢
    rw [List.replicate_succ] at h
    unfold EncReader.readAll at h
    unfold copyOut
    rcases hr : r.read P d size with ⟨res, d1, r1⟩
    rw [hr] at h
    rcases hra : r1.readAll P d1 (List.replicate (ps.length + (k + 1)) size) with ⟨rs, d2, r2⟩
    dsimp only at h
    rw [hra] at h
    simp only [List.map_cons, List.cons_append, List.cons.injEq] at h
    obtain ⟨rfl, h⟩ := h
    have hpl : 0 < p.length := hp p (by simp)
    dsimp only
    rw [if_pos hpl]
    have hrest := fun (dst1 : Writer) n => ih k d1 r1 dst1 n (by rw [hra]; exact h) (fun q hq => hp q (by simp [hq]))
    -- a write that takes everything
    have full : ∀ dst1 : Writer, dst1.out = dst.out ++ p → (dst.Whole → dst1.Whole) → (∀ j x, WEv.fail j x ∈ dst1.script → WEv.fail j x ∈ dst.script) →
        ∃ m er d' r' dst', copyOut P size (ps.length + (k + 1)) d1 r1 dst1 (n + p.length) = (.ok (n + m, er), d', r', dst') ∧
        dst'.out = dst.out ++ (p :: ps).flatten.take m ∧ m ≤ (p :: ps).flatten.length ∧
        ((m = (p :: ps).flatten.length ∧ er = if E = .eof then none else some E) ∨
          (er = some errShortWrite ∧ m < (p :: ps).flatten.length) ∨ ∃ x j, er = some x ∧ WEv.fail j x ∈ dst.script) ∧
        (dst.Whole → m = (p :: ps).flatten.length ∧ er = if E = .eof then none else some E) := by
      intro dst1 ho hw hf
      obtain ⟨m, er, d', r', dst', g1, g2, g3, g4, g5⟩ := hrest dst1 (n + p.length)
      refine ⟨p.length + m, er, d', r', dst', by rw [g1, Nat.add_assoc], ?_, ?_, ?_, ?_⟩
      · have ht : p.take (p.length + m) = p := List.take_of_length_le (by omega)
        rw [g2, ho, List.flatten_cons, List.take_append, ht, List.append_assoc, Nat.add_sub_cancel_left]
      · simp only [List.flatten_cons, List.length_append]; omega
      · rcases g4 with ⟨a, b⟩ | ⟨a, b⟩ | ⟨x, j, a, b⟩
        · exact .inl ⟨by simp only [List.flatten_cons, List.length_append]; omega, b⟩
        · exact .inr (.inl ⟨a, by simp only [List.flatten_cons, List.length_append]; omega⟩)
        · exact .inr (.inr ⟨x, j, a, hf j x b⟩)
      · intro hwh
        obtain ⟨a, b⟩ := g5 (hw hwh)
        exact ⟨by simp only [List.flatten_cons, List.length_append]; omega, b⟩
    have hne : ∀ q : Nat, ¬ (p.length ≠ p.length) := fun _ h => h rfl
    obtain ⟨out, script, closes, closeErr⟩ := dst
    cases script with
    | nil =>
      simp only [Writer.write, if_neg (hne 0)]
      exact full _ rfl (fun _ => by simp [Writer.Whole]) (by simp)
    | cons ev t =>
      have htake : ∀ j, ∀ m, m = (p.take j).length → p.take j = (p :: ps).flatten.take m ∧ m ≤ (p :: ps).flatten.length := by
        rintro j m rfl
        constructor
        · rw [List.flatten_cons, List.take_append, List.length_take,
            show min j p.length - p.length = 0 by omega, List.take_zero, List.append_nil, List.take_eq_take_iff]
          omega
        · simp only [List.flatten_cons, List.length_append, List.length_take]; omega
      cases ev with
      | full =>
        simp only [Writer.write, if_neg (hne 0)]
        exact full _ rfl (fun h ev he => h ev (List.mem_cons_of_mem _ he)) (fun j x he => List.mem_cons_of_mem _ he)
      | short j =>
        simp only [Writer.write]
        by_cases hj : (p.take j).length = p.length
        · rw [if_neg (by simpa using hj), hj]
          have : p.take j = p := List.take_of_length_le (by rw [List.length_take] at hj; omega)
          exact full _ (by dsimp only; rw [this]) (fun h => absurd (h (.short j) (by simp)) (by simp)) (fun i x he => List.mem_cons_of_mem _ he)
        · rw [if_pos hj]
          obtain ⟨t1, t2⟩ := htake j _ rfl
          refine ⟨_, _, _, _, _, rfl, by dsimp only; rw [← t1], t2, .inr (.inl ⟨rfl, ?_⟩), fun h => absurd (h (.short j) (by simp)) (by simp)⟩
          simp only [List.flatten_cons, List.length_append, List.length_take] at hj ⊢; omega
      | fail j x =>
        simp only [Writer.write]
        obtain ⟨t1, t2⟩ := htake j _ rfl
        exact ⟨_, _, _, _, _, rfl, by dsimp only; rw [← t1], t2, .inr (.inr ⟨x, j, rfl, by simp⟩), fun h => absurd (h (.fail j x) (by simp)) (by simp)⟩

/-- `io.ReadAll` from a stream reader, given what the sequence of its `Read` calls does. -/
theorem ioReadAll_spec (P : Prims) (free : Nat → Nat) (E : Err) : ∀ (pieces : List Bytes) (k i : Nat) (d : Decryptor) (r : EncReader) (acc : Bytes),
    (r.readAll P d ((List.range' i (pieces.length + (k + 1))).map free)).1 = pieces.map .ok ++ List.replicate (k + 1) (.err E) →
    ∃ d' r', ioReadAll P free (pieces.length + (k + 1)) i d r acc =
      (.ok (acc ++ pieces.flatten, if E = .eof then none else some E), d', r') := by
  intro pieces
  induction pieces with
  | nil =>
    intro k i d r acc h
    rw [List.length_nil, Nat.zero_add] at h ⊢
    rw [List.range'_succ, List.map_cons] at h
    unfold EncReader.readAll at h
    unfold ioReadAll
    rcases hr : r.read P d (free i) with ⟨res, d1, r1⟩
    rw [hr] at h
    have h0 : res = .err E := by
      have := congrArg List.head? h
      simpa [List.replicate_succ] using this
    rw [h0]
    exact ⟨d1, r1, by simp⟩
  | cons p ps ih =>
    intro k i d r acc h
    have e1 : (p :: ps).length + (k + 1) = (ps.length + (k + 1)) + 1 := by simp; omega
    rw [e1] at h ⊢
    rw [List.range'_succ, List.map_cons] at h
    unfold EncReader.readAll at h
    unfold ioReadAll
    rcases hr : r.read P d (free i) with ⟨res, d1, r1⟩
    rw [hr] at h
    rcases hra : r1.readAll P d1 ((List.range' (i + 1) (ps.length + (k + 1))).map free) with ⟨rs, d2, r2⟩
    dsimp only at h
    rw [hra] at h
    simp only [List.map_cons, List.cons_append, List.cons.injEq] at h
    obtain ⟨rfl, h⟩ := h
    dsimp only
    obtain ⟨d', r', g⟩ := ih k (i + 1) d1 r1 (acc ++ p) (by rw [hra]; exact h)
    exact ⟨d', r', by rw [g]; simp⟩

/-- The calls `NewStreamWriter(wr)`, `io.Copy(w, rd)`, `w.Close()` with these results all returned nil. -/
def CopiesIn (P : Prims) (e : Encryptor) (wr : Writer) (coin : Bytes) (size : Nat) (rd : Reader) (n : Nat) (wr' : Writer) : Prop :=
  ∃ w e1 wr1 fuel e2 w2 e3 w3, e.newStreamWriter P wr = (.ok w, e1, wr1) ∧ copyIn P size fuel e1 w rd 0 = (.ok (n, none), e2, w2) ∧
    w2.close P e2 coin = (.ok (), e3, w3) ∧ w3.wr = wr'

/-- The same destination as a sequence of `Write` calls. -/
theorem CopiesIn.writes {P : Prims} {e : Encryptor} {wr : Writer} {coin : Bytes} {size : Nat} {rd : Reader} {n : Nat} {wr' : Writer}
    (h : CopiesIn P e wr coin size rd n wr') :
    rd.last = .eof ∧ n = rd.content.length ∧ ∃ bufs, bufs.flatten = rd.content ∧ streamEncrypt P e wr coin bufs = (.ok (), wr') := by
  obtain ⟨w, e1, wr1, fuel, e2, w2, e3, w3, h1, h2, h3, rfl⟩ := h
  obtain ⟨g1, g2, bufs, g3, g4⟩ := copyIn_nil P size coin fuel e1 w rd 0 n e2 w2 h2
  refine ⟨g1, by omega, bufs, g3, ?_⟩
  unfold streamEncrypt
  rw [h1]
  dsimp only
  rw [g4, h3]

/-- **C89** (`io.Copy` into the stream writer).  If `NewStreamWriter`, `io.Copy(w, rd)` (or `io.CopyBuffer` with a buffer of any size) and
`Close` all return nil, then `io.Copy` returned the number of bytes that the source holds, the source ended with `io.EOF`, the
container is byte for byte that of a single `Write` of these bytes, and it decrypts to these bytes for every recipient - or a
key wrapped for a different recipient opens under this one's key. -/
theorem C89_copy_in (P : Prims) (L : Laws P)
    (sender : Option PrivateKey) (hsender : ∀ s, sender = some s → s.Genuine P)
    (blk : Nat) (hblk : blk < 2^30) (c : EncCoins) (hc : c.WF)
    (rcpts : List (PublicKey × Bytes)) (hr : ∀ r ∈ rcpts, r.2.length = 12) (hcount : rcpts.length ≤ 15885)
    (e : Encryptor) (he : setupEncryptor P sender blk c rcpts = .ok e)
    (wr : Writer) (hwr : wr.out = []) (coin : Bytes) (hcoin : coin.length = 64)
    (size : Nat) (rd : Reader) (n : Nat) (wr' : Writer) (hcopy : CopiesIn P e wr coin size rd n wr')
    (sk : PrivateKey) (seed : Bytes) (hseed : seed.length = 32)
    (hsk : sk.sk = seed ++ P.edPub seed) (hpk : sk.pub.pk = P.edPub seed)
    (hmem : ∃ r ∈ rcpts, r.1.pk = sk.pub.pk)
    (spk : Option PublicKey) (hspk : ∀ s, sender = some s → ∃ p, spk = some p ∧ p.pk = s.pub.pk)
    (rd2 : Reader) (junk : Bytes) (hrd2 : rd2.content = wr'.out ++ junk) (out : Writer) (hout : out.NoFail) :
    n = rd.content.length ∧ rd.last = .eof ∧
    (∀ w1 w1', w1.out = wr.out → streamEncrypt P e w1 coin [rd.content] = (.ok (), w1') → w1'.out = wr'.out) ∧
    ((∃ r ∈ rcpts, WrapForgery P (clamp c.csk) c.salt c.key r.1.pk r.2 seed) ∨
      ∃ d d' out', setupDecryptor P rd2 sk spk = .ok d ∧ d.decrypt P out = (.ok (), d', out') ∧
        out'.out = out.out ++ rd.content) := by
  obtain ⟨g1, g2, bufs, g3, g4⟩ := hcopy.writes
  refine ⟨g2, g1, ?_, ?_⟩
  · intro w1 w1' hw1 h1
    exact C03_split_independent P L sender blk c hc rcpts e he coin [rd.content] bufs (by rw [g3]; simp) w1 wr w1' wr' hw1 h1 g4
  · have := C02_stream_decrypt P L sender hsender blk hblk c hc rcpts hr hcount e he bufs wr hwr coin hcoin wr' g4 sk seed hseed hsk
      hpk hmem spk hspk rd2 junk hrd2 out hout
    rw [g3] at this
    exact this

/-- **C89** (`io.Copy` into the stream writer, progress).  For real recipient keys, a destination that does not fail, a buffer of
positive size and any source, `NewStreamWriter` succeeds and `io.Copy` comes to an end: it returns the size of the source, and nil
if the source ended with `io.EOF`, else the error of the source. A following `Close` returns nil. -/
theorem C89_copy_in_outcome (P : Prims) (L : Laws P)
    (sender : Option PrivateKey) (hsender : ∀ s, sender = some s → s.Genuine P)
    (blk : Nat) (c : EncCoins) (hc : c.WF) (rcpts : List (PublicKey × Bytes)) (hr : ∀ r ∈ rcpts, RealPK P r.1.pk)
    (wr : Writer) (hwr : wr.NoFail) (hcl : wr.closeErr = none) (size : Nat) (hs : 0 < size) (rd : Reader) (coin : Bytes) :
    ∃ e w e1 wr1, setupEncryptor P sender blk c rcpts = .ok e ∧ e.newStreamWriter P wr = (.ok w, e1, wr1) ∧
      ∃ N, ∀ fuel, N ≤ fuel → ∃ e2 w2 e3 w3,
        copyIn P size fuel e1 w rd 0 = (.ok (rd.content.length, if rd.last = .eof then none else some rd.last), e2, w2) ∧
        w2.close P e2 coin = (.ok (), e3, w3) := by
  obtain ⟨e, _, he, _⟩ := C02_stream_succeeds P L sender hsender blk c hc rcpts hr [] wr hwr hcl coin
  obtain ⟨epk, ws, hs'⟩ := setupEncryptor_ok P L sender blk c rcpts e hc he
  have hnew : ∃ w e1 wr1, e.newStreamWriter P wr = (.ok w, e1, wr1) := by
    rcases streamEncrypt_outcome P L e wr coin [] (hs'.fresh L) with ⟨wr', h1, _⟩ | ⟨x, _, _, _, ⟨s, j, y, h2, _⟩, _⟩
    · unfold streamEncrypt at h1
      rw [hcl] at h1
      rcases h : e.newStreamWriter P wr with ⟨res, e1, wr1⟩
      rw [h] at h1
      cases res with
      | ok w => exact ⟨w, e1, wr1, rfl⟩
      | err x => cases h1
      | panic x => cases h1
    · exact absurd h2 (hwr j y)
  obtain ⟨w, e1, wr1, hnew⟩ := hnew
  refine ⟨e, w, e1, wr1, he, hnew, rd.left + 1, ?_⟩
  intro fuel hf
  rcases hw : w.writeAll P e1 coin (rd.pieces size fuel) with ⟨res, e3, w3⟩
  have hres : res = .ok () := by
    rcases streamEncrypt_outcome P L e wr coin (rd.pieces size fuel) (hs'.fresh L) with ⟨wr', h1, _⟩ | ⟨x, _, _, _, ⟨s, j, y, h2, _⟩, _⟩
    · unfold streamEncrypt at h1
      rw [hcl, hnew] at h1
      dsimp only at h1
      rw [hw] at h1
      exact (Prod.mk.inj h1).1
    · exact absurd h2 (hwr j y)
  subst hres
  rcases copyIn_total P size hs coin fuel e1 w rd 0 (by omega) _ _ _ hw rfl with ⟨e', w', g1, g2⟩ | ⟨x, m, g1, _⟩
  · exact ⟨e', w', e3, w3, by rw [g1, Nat.zero_add], g2⟩
  · cases g1

/-- `Decrypt` on a decryptor that has not come to its end never returns `io.EOF` itself: a premature end is wrapped. -/
theorem decrypt_ne_eof (P : Prims) (d : Decryptor) (wr : Writer) (h : d.eof = false) : (d.decrypt P wr).1 ≠ .err .eof := by
  unfold Decryptor.decrypt
  split
  · intro h; cases h
  · split
    · intro h; cases h
    · rw [h]
      simpa using decryptLoop_ne_eof P _ _ _ _

/-- **C89** (`io.Copy` from the stream reader).  Take any decryptor in which a key was set and which has not been read from, whatever
its input holds.  Let `res` be what `Decrypt` returns on it (not a crash) and `T` the bytes that `Decrypt` writes to a destination
without failing writes.  Then `NewStreamReader` succeeds, and `io.Copy` from it (`io.CopyBuffer`, with any positive buffer size) to
any destination comes to an end and returns a count `m` such that exactly the first `m` bytes of `T` were written.  A
destination that takes what it is given gets all of `T`, and the error is nil if `Decrypt` returned nil and else the error that
`Decrypt` returned.  In any case, if `io.Copy` returns nil, all of `T` was written and `Decrypt` returned nil. -/
theorem C89_copy_out (P : Prims) (d : Decryptor) (key : Bytes) (hkey : d.key = some key)
    (hstream : d.stream = false) (heof : d.eof = false)
    (wr : Writer) (hwr : wr.NoFail) (res : Res Unit) (d' : Decryptor) (wr' : Writer)
    (hdec : d.decrypt P wr = (res, d', wr')) (hp : ∀ why, res ≠ .panic why) (size : Nat) (hs : 0 < size) (dst : Writer) :
    ∃ r d1 T N, d.newStreamReader = (.ok r, d1) ∧ wr'.out = wr.out ++ T ∧ ∀ fuel, N ≤ fuel →
      ∃ m er d2 r2 dst', copyOut P size fuel d1 r dst 0 = (.ok (m, er), d2, r2, dst') ∧ dst'.out = dst.out ++ T.take m ∧ m ≤ T.length ∧
        (dst.Whole → m = T.length ∧ (res = .ok () → er = none) ∧ ∀ x, res = .err x → er = some x) ∧
        (er = none → m = T.length ∧ res = .ok ()) := by
  have hne : ∀ x, res = .err x → x ≠ .eof := by
    rintro x rfl rfl
    exact decrypt_ne_eof P d wr heof (by rw [hdec])
  obtain ⟨r, d1, T, h1, h2, h3⟩ := C04_reader_matches_decrypt P d key hkey hstream heof wr hwr res d' wr' hdec hp
  refine ⟨r, d1, T, T.length + 1, h1, h2, ?_⟩
  intro fuel hf
  obtain ⟨pieces, k, E, g1, g2, g3, g4, g5, g6, g7, g8⟩ := h3 (List.replicate fuel size) (by
    intro c hc; rw [(List.mem_replicate.mp hc).2]; exact hs)
  rw [List.length_replicate] at g2 g5
  have hk : 0 < k := g5 (by omega)
  obtain ⟨k, rfl⟩ : ∃ j, k = j + 1 := ⟨k - 1, by omega⟩
  have hT := g4 hk
  rw [← g2] at g1
  have hpos : ∀ p ∈ pieces, 0 < p.length := by
    intro p hp
    obtain ⟨i, hi, rfl⟩ := List.mem_iff_getElem.mp hp
    exact ((List.forall₂_iff_get.mp g6).2 i hi (by rw [← (List.forall₂_iff_get.mp g6).1]; exact hi)).1
  obtain ⟨m, er, d2, r2, dst', k1, k2, k3, k4, k5⟩ := copyOut_spec P size E pieces k d1 r dst 0 g1 hpos
  rw [g2, Nat.zero_add] at k1
  rw [hT] at k2 k3 k4 k5
  refine ⟨m, er, d2, r2, dst', k1, k2, k3, ?_, ?_⟩
  · intro hw
    obtain ⟨a, b⟩ := k5 hw
    refine ⟨a, fun h => by rw [b, g7 h, if_pos rfl], fun x h => ?_⟩
    rw [b, g8 x h, if_neg (hne x h)]
  · intro he
    subst he
    rcases k4 with ⟨a, b⟩ | ⟨a, _⟩ | ⟨x, j, a, _⟩
    · refine ⟨a, ?_⟩
      cases res with
      | ok u => rfl
      | err x =>
        rw [g8 x rfl, if_neg (hne x rfl)] at b
        cases b
      | panic w => exact absurd rfl (hp w)
    · cases a
    · cases a

/-- **C89** (`io.ReadAll` from the stream reader).  In the same situation `io.ReadAll` comes to an end, however its buffer grows, and
returns exactly `T`, with the error nil if `Decrypt` returned nil and else the error that `Decrypt` returned. -/
theorem C89_read_all (P : Prims) (d : Decryptor) (key : Bytes) (hkey : d.key = some key)
    (hstream : d.stream = false) (heof : d.eof = false)
    (wr : Writer) (hwr : wr.NoFail) (res : Res Unit) (d' : Decryptor) (wr' : Writer)
    (hdec : d.decrypt P wr = (res, d', wr')) (hp : ∀ why, res ≠ .panic why) (free : Nat → Nat) (hfree : ∀ i, 0 < free i) :
    ∃ r d1 T N, d.newStreamReader = (.ok r, d1) ∧ wr'.out = wr.out ++ T ∧ ∀ fuel, N ≤ fuel →
      ∃ er d2 r2, ioReadAll P free fuel 0 d1 r [] = (.ok (T, er), d2, r2) ∧
        (res = .ok () → er = none) ∧ ∀ x, res = .err x → er = some x := by
  have hne : ∀ x, res = .err x → x ≠ .eof := by
    rintro x rfl rfl
    exact decrypt_ne_eof P d wr heof (by rw [hdec])
  obtain ⟨r, d1, T, h1, h2, h3⟩ := C04_reader_matches_decrypt P d key hkey hstream heof wr hwr res d' wr' hdec hp
  refine ⟨r, d1, T, T.length + 1, h1, h2, ?_⟩
  intro fuel hf
  obtain ⟨pieces, k, E, g1, g2, g3, g4, g5, g6, g7, g8⟩ := h3 ((List.range' 0 fuel).map free) (by
    intro c hc; obtain ⟨i, _, rfl⟩ := List.mem_map.mp hc; exact hfree i)
  rw [List.length_map, List.length_range'] at g2 g5
  have hk : 0 < k := g5 (by omega)
  obtain ⟨k, rfl⟩ : ∃ j, k = j + 1 := ⟨k - 1, by omega⟩
  have hT := g4 hk
  rw [← g2] at g1
  obtain ⟨d2, r2, k1⟩ := ioReadAll_spec P free E pieces k 0 d1 r [] g1
  rw [g2, hT, List.nil_append] at k1
  refine ⟨_, d2, r2, k1, fun h => by rw [g7 h, if_pos rfl], fun x h => ?_⟩
  rw [g8 x h, if_neg (hne x h)]

/-- Alice copies a source that delivers in pieces (one of them empty) into the stream with a buffer of three bytes; Carol copies
the plaintext out with a buffer of five bytes. -/
example : ∃ e n wr' d r d1, setupEncryptor toyPrims (some Demo.alice) 4 Demo.coins Demo.rcpts = .ok e ∧
    CopiesIn toyPrims e Demo.dest Demo.coin 3 ⟨[[1, 2, 3, 4], [], [5, 6], [7, 8, 9, 10]], .eof, true⟩ n wr' ∧ n = 10 ∧
    setupDecryptor toyPrims ⟨[wr'.out], .eof, false⟩ Demo.carol (some Demo.alice.pub) = .ok d ∧ d.newStreamReader = (.ok r, d1) ∧
    ∃ N, ∀ fuel, N ≤ fuel → ∃ d2 r2 dst', copyOut toyPrims 5 fuel d1 r {} 0 = (.ok (10, none), d2, r2, dst') ∧
      dst'.out = [1, 2, 3, 4, 5, 6, 7, 8, 9, 10] := by
  obtain ⟨e, w, e1, wr1, h1, h2, N, h3⟩ := C89_copy_in_outcome toyPrims toyLaws (some Demo.alice) Demo.sender_genuine 4 Demo.coins
    Demo.coins_wf Demo.rcpts Demo.rcpts_real Demo.dest Demo.dest_noFail rfl 3 (by decide)
    ⟨[[1, 2, 3, 4], [], [5, 6], [7, 8, 9, 10]], .eof, true⟩ Demo.coin
  obtain ⟨e2, w2, e3, w3, h4, h5⟩ := h3 N (Nat.le_refl N)
  rw [if_pos rfl] at h4
  have hcopy : CopiesIn toyPrims e Demo.dest Demo.coin 3 ⟨[[1, 2, 3, 4], [], [5, 6], [7, 8, 9, 10]], .eof, true⟩ 10 w3.wr :=
    ⟨w, e1, wr1, N, e2, w2, e3, w3, h2, h4, h5, rfl⟩
  obtain ⟨_, _, _, g⟩ := C89_copy_in toyPrims toyLaws (some Demo.alice) Demo.sender_genuine 4 (by decide) Demo.coins Demo.coins_wf
    Demo.rcpts Demo.rcpts_len (by decide) e h1 Demo.dest rfl Demo.coin Demo.coin_len 3 _ 10 w3.wr hcopy
    Demo.carol (List.replicate 32 3) (by simp) rfl rfl ⟨(Demo.carol.pub, List.replicate 12 5), by simp [Demo.rcpts], rfl⟩
    (some Demo.alice.pub) (by intro s hs; cases hs; exact ⟨_, rfl, rfl⟩) ⟨[w3.wr.out], .eof, false⟩ []
    (by simp [Reader.content]) {} (by intro k e h; cases h)
  rcases g with g | ⟨d, d', out', g1, g2, g3⟩
  · exact absurd g Demo.no_forgery
  · obtain ⟨_, _, _, key, _, _, _, _, k1, k2, k0, _⟩ := setupDecryptor_ok toyPrims toyLaws _ _ _ d g1
    obtain ⟨r, d1, T, N', m1, m2, m3⟩ := C89_copy_out toyPrims d key k0 k1 k2 {} (by intro k e h; cases h) _ d' out' g2
      (by simp) 5 (by decide) {}
    refine ⟨e, 10, w3.wr, d, r, d1, h1, hcopy, rfl, g1, m1, N', ?_⟩
    intro fuel hf
    obtain ⟨m, er, d2, r2, dst', q1, q2, q3, q4, q5⟩ := m3 fuel hf
    obtain ⟨q6, q7, _⟩ := q4 (by intro ev h; cases h)
    have hT : T = [1, 2, 3, 4, 5, 6, 7, 8, 9, 10] := by
      rw [g3] at m2
      simpa [Reader.content] using m2.symm
    subst hT
    rw [q6, q7 rfl] at q1
    rw [q6] at q2
    exact ⟨d2, r2, dst', q1, q2⟩

end Sigtool
