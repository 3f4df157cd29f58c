import Verif.Base
/-!
# IO: `io.Reader`, `io.ReadFull`, `io.Writer`, `fullwrite`

A reader is a finite script: the slices that successive `Read` calls deliver, then a terminal error that every
later `Read` repeats.  A writer is a finite script of full, short and failing `Write` calls, then full writes.
-/

namespace Sigtool

/-- An `io.Reader` (Go standard library contract).  `chunks` are delivered in order, `last` is the error that
follows them and is repeated for ever; if `joint` is set the last slice and the error are returned by the same
call, as the `io.Reader` contract allows. Simplification: the script is finite and errors are permanent. -/
structure Reader where
  chunks : List Bytes
  last : Err
  joint : Bool
deriving DecidableEq, Repr

/-- All bytes the reader will still deliver. -/
def Reader.content (r : Reader) : Bytes := r.chunks.flatten

/-- `r.Read(p)` with `len(p) = cap`: at most `cap` bytes of the next slice. -/
def Reader.read (r : Reader) (cap : Nat) : Bytes × Option Err × Reader :=
  match r.chunks with
  | [] => ([], some r.last, r)
  | c :: cs =>
    if c.length ≤ cap then
      (c, if cs.isEmpty && r.joint then some r.last else none, { r with chunks := cs })
    else
      (c.take cap, none, { r with chunks := c.drop cap :: cs })

/-- The loop of `io.ReadAtLeast(r, buf, min)` with `min = len(buf)`:
`for n < min && err == nil { nn, err = r.Read(buf[n:]); n += nn }`.
`need` is `min - n`.  The fuel `chunks.length + 1` used by `readFull` is enough: each round either finishes one
slice of the script, or fills the buffer, or sees the error. -/
def readLoop : Nat → Reader → Nat → Bytes → Bytes × Option Err × Reader
  | 0, r, _, acc => (acc, none, r)
  | fuel + 1, r, need, acc =>
    if need = 0 then (acc, none, r)
    else
      match r.read need with
      | (b, some e, r') => (acc ++ b, some e, r')
      | (b, none, r') => readLoop fuel r' (need - b.length) (acc ++ b)

/-- `io.ReadFull(r, buf)` with `len(buf) = n`; the same as `io.ReadAtLeast(r, buf, len(buf))`
(`sign/encrypt.go:201,383,411,565,593,620`).  Afterwards: a full buffer clears the error, a partly filled buffer
turns `io.EOF` into `io.ErrUnexpectedEOF`. -/
def readFull (r : Reader) (n : Nat) : Bytes × Option Err × Reader :=
  match readLoop (r.chunks.length + 1) r n [] with
  | (b, e, r') =>
    if b.length ≥ n then (b, none, r')
    else if b.length > 0 && e == some .eof then (b, some .unexpectedEOF, r')
    else (b, e, r')

/-- One behaviour of an `io.Writer`'s `Write(b)` call: take everything; take at most `k` bytes and report no
error; take at most `k` bytes and fail. -/
inductive WEv where
  | full
  | short (k : Nat)
  | fail (k : Nat) (e : Err)
deriving DecidableEq, Repr

/-- An `io.WriteCloser`: everything it received, how its next calls behave, how often it was closed and what
`Close` returns. -/
structure Writer where
  out : Bytes := []
  script : List WEv := []
  closes : Nat := 0
  closeErr : Option Err := none
deriving DecidableEq, Repr

/-- `wr.Write(b)`: number of bytes taken, error, new state. -/
def Writer.write (w : Writer) (b : Bytes) : Nat × Option Err × Writer :=
  match w.script with
  | [] => (b.length, none, { w with out := w.out ++ b })
  | .full :: t => (b.length, none, { w with out := w.out ++ b, script := t })
  | .short k :: t => ((b.take k).length, none, { w with out := w.out ++ b.take k, script := t })
  | .fail k e :: t => ((b.take k).length, some e, { w with out := w.out ++ b.take k, script := t })

/-- `wr.Close()`. -/
def Writer.close (w : Writer) : Option Err × Writer :=
  (w.closeErr, { w with closes := w.closes + 1 })

/-- `fullwrite` (`sign/encrypt.go:848-861`), loop: `for n > 0 { m, err := wr.Write(buf); ...; n -= m; buf = buf[m:] }`.
Fuel: one round per scripted call and one more (an exhausted script accepts everything). -/
def fullwriteLoop : Nat → Bytes → Writer → Option Err × Writer
  | 0, _, w => (none, w)
  | fuel + 1, buf, w =>
    if buf.length = 0 then (none, w)
    else
      match w.write buf with
      | (_, some e, w') => (some e, w')
      | (m, none, w') => fullwriteLoop fuel (buf.drop m) w'

/-- `fullwrite` (`sign/encrypt.go:848-861`). -/
def fullwrite (buf : Bytes) (w : Writer) : Option Err × Writer :=
  fullwriteLoop (w.script.length + 1) buf w

/-! ### Lemmas -/

theorem Reader.read_content (r : Reader) (cap : Nat) :
    (r.read cap).1 ++ (r.read cap).2.2.content = r.content := by
  unfold Reader.read Reader.content
  split
  · rename_i h; simp [h]
  · rename_i c cs h
    split
    · simp [h]
    · simp [h, ← List.append_assoc]

theorem readLoop_spec : ∀ (fuel : Nat) (r : Reader) (need : Nat) (acc : Bytes),
    r.chunks.length < fuel →
    ∃ r' : Reader, r'.last = r.last ∧ r'.joint = r.joint ∧
      r'.content = r.content.drop need ∧ r'.chunks.length ≤ r.chunks.length ∧
      ((need ≤ r.content.length ∧ ∃ e, readLoop fuel r need acc = (acc ++ r.content.take need, e, r')) ∨
       (r.content.length < need ∧
          readLoop fuel r need acc = (acc ++ r.content, some r.last, r'))) := by
  intro fuel
  induction fuel with
  | zero => intro r need acc h; omega
  | succ fuel ih =>
    intro r need acc h
    unfold readLoop
    by_cases hn : need = 0
    · subst hn
      refine ⟨r, rfl, rfl, by simp, by simp, Or.inl ⟨by simp, none, by simp⟩⟩
    · simp only [hn, if_false]
      obtain ⟨chunks, last, joint⟩ := r
      cases chunks with
      | nil =>
        refine ⟨⟨[], last, joint⟩, rfl, rfl, by simp [Reader.content], by simp, Or.inr ⟨?_, ?_⟩⟩
        · simp [Reader.content]; omega
        · simp [Reader.read, Reader.content]
      | cons c cs =>
        simp only [Reader.read]
        by_cases hc : c.length ≤ need
        · simp only [hc, if_true]
          by_cases hj : (cs.isEmpty && joint) = true
          · simp only [hj, if_true]
            have hcs : cs = [] := by
              simp only [Bool.and_eq_true, List.isEmpty_iff] at hj; exact hj.1
            subst hcs
            refine ⟨⟨[], last, joint⟩, rfl, rfl, ?_, by simp, ?_⟩
            · simp [Reader.content]; omega
            · by_cases h2 : need ≤ c.length
              · left
                refine ⟨by simpa [Reader.content] using h2, some last, ?_⟩
                have : c.length = need := by omega
                simp [Reader.content, ← this]
              · right
                refine ⟨by simp [Reader.content]; omega, ?_⟩
                simp [Reader.content]
          · simp only [Bool.not_eq_true] at hj
            simp only [hj, Bool.false_eq_true, if_false]
            obtain ⟨r', h1, h2, h3, h4, h5⟩ := ih ⟨cs, last, joint⟩ (need - c.length) (acc ++ c)
              (by simp at h ⊢; omega)
            refine ⟨r', h1, h2, ?_, ?_, ?_⟩
            · rw [h3]; simp [Reader.content, List.drop_append, List.drop_eq_nil_of_le hc]
            · simp at h4 ⊢; omega
            · rcases h5 with ⟨h5, e, h6⟩ | ⟨h5, h6⟩
              · left
                refine ⟨?_, e, ?_⟩
                · simp [Reader.content] at h5 ⊢; omega
                · rw [h6]
                  simp [Reader.content, List.take_append, List.take_of_length_le hc]
              · right
                refine ⟨?_, ?_⟩
                · simp [Reader.content] at h5 ⊢; omega
                · rw [h6]; simp [Reader.content]
        · simp only [hc, if_false]
          have hlen : (c.take need).length = need := by simp; omega
          rw [hlen, Nat.sub_self]
          refine ⟨⟨c.drop need :: cs, last, joint⟩, rfl, rfl, ?_, by simp, Or.inl ⟨?_, none, ?_⟩⟩
          · simp [Reader.content, List.drop_append]
            have : need - c.length = 0 := by omega
            simp [this]
          · simp [Reader.content]; omega
          · have : need - c.length = 0 := by omega
            cases fuel with
            | zero => simp [readLoop, Reader.content, List.take_append, this]
            | succ n => simp [readLoop, Reader.content, List.take_append, this]

/-- Enough input: `readFull` returns the next `n` bytes, however they are split over reads. -/
theorem readFull_enough (r : Reader) (n : Nat) (h : n ≤ r.content.length) :
    ∃ r', readFull r n = (r.content.take n, none, r') ∧ r'.content = r.content.drop n ∧ r'.last = r.last := by
  obtain ⟨r', h1, _, h3, _, h5⟩ := readLoop_spec (r.chunks.length + 1) r n [] (by omega)
  rcases h5 with ⟨_, e, h6⟩ | ⟨h5, _⟩
  · refine ⟨r', ?_, h3, h1⟩
    unfold readFull
    rw [h6]
    have : n ≤ ([] ++ r.content.take n).length := by simp; omega
    simp only [ge_iff_le, this, if_true]
    simp
  · omega

/-- Error reported when the input ends early. -/
def shortReadErr (got : Bytes) (last : Err) : Err :=
  if got.length > 0 && last == .eof then .unexpectedEOF else last

/-- Not enough input: everything is consumed and an error is returned. -/
theorem readFull_short (r : Reader) (n : Nat) (h : r.content.length < n) :
    ∃ r', readFull r n = (r.content, some (shortReadErr r.content r.last), r') ∧
      r'.content = [] ∧ r'.last = r.last := by
  obtain ⟨r', h1, _, h3, _, h5⟩ := readLoop_spec (r.chunks.length + 1) r n [] (by omega)
  rcases h5 with ⟨h5, _, _⟩ | ⟨_, h6⟩
  · omega
  · refine ⟨r', ?_, ?_, h1⟩
    · unfold readFull shortReadErr
      rw [h6]
      have : ¬ n ≤ ([] ++ r.content).length := by simp; omega
      simp only [ge_iff_le, this, if_false]
      simp only [List.nil_append]
      by_cases h7 : r.content.length > 0 ∧ r.last = .eof
      · simp [h7.1, h7.2]
      · by_cases h8 : 0 < r.content.length
        · have : r.last ≠ .eof := fun h => h7 ⟨h8, h⟩
          simp [this]
        · simp [h8]
    · rw [h3]; exact List.drop_eq_nil_of_le (by omega)

theorem fullwriteLoop_spec : ∀ (fuel : Nat) (buf : Bytes) (w : Writer), w.script.length < fuel →
    ∃ w', w'.closes = w.closes ∧ w'.closeErr = w.closeErr ∧
      ((fullwriteLoop fuel buf w = (none, w') ∧ w'.out = w.out ++ buf) ∨
       (∃ e k, fullwriteLoop fuel buf w = (some e, w') ∧ w'.out = w.out ++ buf.take k ∧
          (∃ j, WEv.fail j e ∈ w.script))) ∧ (∃ pre, w.script = pre ++ w'.script) := by
  intro fuel
  induction fuel with
  | zero => intro buf w h; omega
  | succ fuel ih =>
    intro buf w h
    unfold fullwriteLoop
    by_cases hb : buf.length = 0
    · have : buf = [] := List.length_eq_zero_iff.mp hb
      subst this
      exact ⟨w, rfl, rfl, Or.inl ⟨by simp, by simp⟩, [], rfl⟩
    · simp only [hb, if_false]
      obtain ⟨out, script, closes, closeErr⟩ := w
      cases script with
      | nil =>
        simp only [Writer.write, List.drop_length]
        refine ⟨⟨out ++ buf, [], closes, closeErr⟩, rfl, rfl, Or.inl ⟨?_, rfl⟩, [], rfl⟩
        cases fuel <;> simp [fullwriteLoop]
      | cons ev t =>
        cases ev with
        | full =>
          simp only [Writer.write, List.drop_length]
          refine ⟨⟨out ++ buf, t, closes, closeErr⟩, rfl, rfl, Or.inl ⟨?_, rfl⟩, [.full], rfl⟩
          cases fuel <;> simp [fullwriteLoop]
        | short k =>
          simp only [Writer.write]
          obtain ⟨w', h1, h2, h3, pre, h4⟩ := ih (buf.drop (buf.take k).length)
            ⟨out ++ buf.take k, t, closes, closeErr⟩ (by simp at h ⊢; omega)
          refine ⟨w', h1, h2, ?_, .short k :: pre, by simp only at h4; rw [h4]; rfl⟩
          have hd : buf.take k ++ buf.drop (buf.take k).length = buf := by
            rw [List.length_take]
            by_cases hk : k ≤ buf.length
            · rw [Nat.min_eq_left hk]; exact List.take_append_drop k buf
            · rw [Nat.min_eq_right (by omega)]; simp [List.take_of_length_le (show buf.length ≤ k by omega)]
          rcases h3 with ⟨h5, h6⟩ | ⟨e, j, h5, h6, i, h7⟩
          · left
            refine ⟨h5, ?_⟩
            rw [h6]; simp only [List.append_assoc, hd]
          · right
            refine ⟨e, (buf.take k).length + j, h5, ?_, i, List.mem_cons_of_mem _ h7⟩
            rw [h6]
            simp only [List.append_assoc, List.append_cancel_left_eq]
            rw [List.take_add]
            congr 1
            simp
        | fail k e =>
          simp only [Writer.write]
          exact ⟨⟨out ++ buf.take k, t, closes, closeErr⟩, rfl, rfl,
            Or.inr ⟨e, k, rfl, rfl, k, by simp⟩, [.fail k e], rfl⟩

theorem fullwrite_spec (buf : Bytes) (w : Writer) :
    ∃ w', w'.closes = w.closes ∧ w'.closeErr = w.closeErr ∧
      ((fullwrite buf w = (none, w') ∧ w'.out = w.out ++ buf) ∨
       (∃ e k, fullwrite buf w = (some e, w') ∧ w'.out = w.out ++ buf.take k ∧
          (∃ j, WEv.fail j e ∈ w.script))) ∧ (∃ pre, w.script = pre ++ w'.script) :=
  fullwriteLoop_spec _ buf w (by omega)

/-- A destination none of whose calls fails (short writes allowed). -/
def Writer.NoFail (w : Writer) : Prop := ∀ k e, WEv.fail k e ∉ w.script

theorem fullwrite_noFail (buf : Bytes) (w : Writer) (h : w.NoFail) :
    ∃ w', fullwrite buf w = (none, w') ∧ w'.out = w.out ++ buf ∧ w'.NoFail ∧ w'.closes = w.closes ∧
      w'.closeErr = w.closeErr := by
  obtain ⟨w', h1, h2, h3, pre, h4⟩ := fullwrite_spec buf w
  rcases h3 with ⟨h5, h6⟩ | ⟨e, k, _, _, j, h7⟩
  · refine ⟨w', h5, h6, ?_, h1, h2⟩
    intro k e hm
    exact h k e (by rw [h4]; exact List.mem_append_right _ hm)
  · exact absurd h7 (h j e)

end Sigtool
