import Verif.Nonce
import Verif.Session
/-!
# History: arbitrary sequences of API calls on one `Encryptor`

Everything a program can do with one `Encryptor`: call `AddRecipient`, `Encrypt`, `NewStreamWriter` on it and `Write`,
`Close` on the stream writers it handed out, in any order and with any arguments. No behaviour of its own: each call is the
model of that call. Calls are sequential (the library documents no concurrent use).
-/

namespace Sigtool

/-- One call with its arguments and the random bytes it would draw. Stream writers are numbered in order of creation. -/
inductive EncOp where
  | add (pk : PublicKey) (rbuf : Bytes)
  | encrypt (rd : Reader) (wr : Writer) (coin : Bytes)
  | openStream (wr : Writer)
  | write (k : Nat) (b : Bytes)
  | close (k : Nat) (coin : Bytes)
deriving DecidableEq, Repr

/-- The encryptor and the stream writers made from it. -/
structure EncState where
  enc : Encryptor
  streams : List EncWriter := []
deriving DecidableEq, Repr

/-- What can be observed of one call: its result, the bytes the destination received, how often the destination was closed,
what is left of the reader. `sealed` is ghost: the AEAD `Seal` calls it made on data. -/
structure EncEvent where
  op : EncOp
  res : Res Unit
  wrote : Bytes := []
  closed : Nat := 0
  left : Option Reader := none
  sealed : List SealRec := []
deriving DecidableEq, Repr

def Res.unit {α : Type} : Res α → Res Unit
  | .ok _ => .ok ()
  | .err x => .err x
  | .panic x => .panic x

/-- One call (`none`: there is no such stream writer, so no such call can be made). -/
def EncState.step (P : Prims) (s : EncState) (op : EncOp) : Option (EncEvent × EncState) :=
  match op with
  | .add pk rbuf =>
    match s.enc.addRecipient P pk rbuf with
    | (r, e) => some ({ op := op, res := r, sealed := e.seals.drop s.enc.seals.length }, { s with enc := e })
  | .encrypt rd wr coin =>
    match s.enc.encrypt P rd wr coin with
    | (r, e, rd', wr') =>
      some ({ op := op, res := r, wrote := wr'.out.drop wr.out.length, closed := wr'.closes - wr.closes
              left := some rd', sealed := e.seals.drop s.enc.seals.length }, { s with enc := e })
  | .openStream wr =>
    match s.enc.newStreamWriter P wr with
    | (r, e, wr') =>
      some ({ op := op, res := r.unit, wrote := wr'.out.drop wr.out.length, closed := wr'.closes - wr.closes
              sealed := e.seals.drop s.enc.seals.length },
        { enc := e, streams := match r with | .ok w => s.streams ++ [w] | _ => s.streams })
  | .write k b =>
    match s.streams[k]? with
    | none => none
    | some w =>
      match w.write P s.enc b with
      | (r, e, w') =>
        some ({ op := op, res := r.unit, wrote := w'.wr.out.drop w.wr.out.length, closed := w'.wr.closes - w.wr.closes
                sealed := e.seals.drop s.enc.seals.length }, { enc := e, streams := s.streams.set k w' })
  | .close k coin =>
    match s.streams[k]? with
    | none => none
    | some w =>
      match w.close P s.enc coin with
      | (r, e, w') =>
        some ({ op := op, res := r, wrote := w'.wr.out.drop w.wr.out.length, closed := w'.wr.closes - w.wr.closes
                sealed := e.seals.drop s.enc.seals.length }, { enc := e, streams := s.streams.set k w' })

/-- `History P e0 evs s`: starting with the encryptor `e0`, the calls recorded in `evs` were made one after another, and
lead to `s`. A crash ends the history. -/
inductive History (P : Prims) (e0 : Encryptor) : List EncEvent → EncState → Prop
  | start : History P e0 [] { enc := e0 }
  | call {evs : List EncEvent} {s s' : EncState} {op : EncOp} {ev : EncEvent} (h : History P e0 evs s)
      (live : ∀ v ∈ evs, v.res.isPanic = false) (hstep : s.step P op = some (ev, s')) : History P e0 (evs ++ [ev]) s'

/-- The recipients that were successfully added, in order, with the random bytes of each call. -/
def addedIn (evs : List EncEvent) : List (PublicKey × Bytes) :=
  evs.filterMap fun ev => match ev.op, ev.res with
    | .add pk rbuf, .ok () => some (pk, rbuf)
    | _, _ => none

/-- Calls that may have to write the header. -/
def EncOp.begins : EncOp → Bool
  | .encrypt _ _ _ => true
  | .openStream _ => true
  | _ => false

/-- Run a list of calls (calls on stream writers that do not exist are skipped). -/
def EncState.run (P : Prims) : EncState → List EncOp → List EncEvent × EncState
  | s, [] => ([], s)
  | s, o :: os =>
    match s.step P o with
    | none => EncState.run P s os
    | some (ev, s') =>
      if ev.res.isPanic then ([ev], s')
      else let (evs, s'') := EncState.run P s' os; (ev :: evs, s'')

theorem History.run {P : Prims} {e0 : Encryptor} : ∀ (ops : List EncOp) (pre : List EncEvent) (s : EncState),
    History P e0 pre s → (∀ v ∈ pre, v.res.isPanic = false) →
    History P e0 (pre ++ (s.run P ops).1) (s.run P ops).2 := by
  intro ops
  induction ops with
  | nil => intro pre s h _; simpa [EncState.run] using h
  | cons o os ih =>
    intro pre s h hp
    unfold EncState.run
    cases hs : s.step P o with
    | none => exact ih pre s h hp
    | some x =>
      obtain ⟨ev, s'⟩ := x
      dsimp only
      have h' := History.call h hp hs
      split
      · exact h'
      · rename_i hnp
        have := ih (pre ++ [ev]) s' h' (by
          intro v hv
          rcases List.mem_append.mp hv with hv | hv
          · exact hp v hv
          · simp only [List.mem_singleton] at hv; subst hv; simpa using hnp)
        simpa using this

theorem History.split {P : Prims} {e0 : Encryptor} {evs : List EncEvent} {s : EncState} (h : History P e0 evs s) :
    ∀ (pre : List EncEvent) (ev : EncEvent) (post : List EncEvent), evs = pre ++ ev :: post →
    ∃ s1 s2 op, History P e0 pre s1 ∧ (∀ v ∈ pre, v.res.isPanic = false) ∧ s1.step P op = some (ev, s2) ∧
      History P e0 (pre ++ [ev]) s2 := by
  induction h with
  | start => intro pre ev post h; simp at h
  | @call evs s s' op ev0 h live hstep ih =>
    intro pre ev post he
    rcases List.eq_nil_or_concat post with rfl | ⟨post', last, rfl⟩
    · obtain ⟨h1, h2⟩ := List.append_inj' he rfl
      cases h2
      subst h1
      exact ⟨s, s', op, h, live, hstep, .call h live hstep⟩
    · have he' : evs ++ [ev0] = (pre ++ ev :: post') ++ [last] := by rw [he]; simp
      obtain ⟨h1, _⟩ := List.append_inj' he' rfl
      exact ih pre ev post' h1

theorem step_op {P : Prims} {s s' : EncState} {op : EncOp} {ev : EncEvent} (h : s.step P op = some (ev, s')) :
    ev.op = op := by
  unfold EncState.step at h
  split at h
  · split at h; cases h; rfl
  · split at h; cases h; rfl
  · split at h; cases h; rfl
  · split at h
    · cases h
    · split at h; cases h; rfl
  · split at h
    · cases h
    · split at h; cases h; rfl

end Sigtool
