import Verif.Random
/-!
# Spec.Random: which random bytes a history of calls uses
-/

namespace Sigtool.Spec

/-- A call without its random bytes. -/
def callOf : EncOp → Call
  | .add pk _ => .add pk
  | .encrypt rd wr _ => .encrypt rd wr
  | .openStream wr => .openStream wr
  | .write k b => .write k b
  | .close k _ => .close k

/-- What can be seen of a call whose random bytes were given as an argument. -/
def seenOf (ev : EncEvent) : Seen := { call := callOf ev.op, res := ev.res, wrote := ev.wrote, closed := ev.closed, left := ev.left }

/-- A call `ev` that takes the bytes `d` from the random source: none, or exactly those it uses, 12 for the nonce of a wrapped key, 64
for a trailer. A recipient is never added without drawing; a container without sender is never finished without drawing; opening a
stream and writing to it draws nothing. -/
def Draws (sender : Option PrivateKey) (ev : EncEvent) (d : Bytes) : Prop :=
  match ev.op with
  | .add _ rbuf => rbuf.length = 12 ∧ (d = rbuf ∨ d = []) ∧ (ev.res = .ok () → d = rbuf)
  | .encrypt _ _ coin => coin.length = 64 ∧ (d = coin ∨ d = []) ∧ (sender = none → ev.res = .ok () → d = coin)
  | .close _ coin => coin.length = 64 ∧ (d = coin ∨ d = []) ∧ (sender = none → ev.res = .ok () → d = coin)
  | _ => d = []

end Sigtool.Spec
