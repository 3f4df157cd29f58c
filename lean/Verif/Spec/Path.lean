import Verif.Base
/-!
# Spec.Path: what a path means lexically

A path is a sequence of words between slashes.  Read from left to right it leads to a place: a number of steps up from the start
and then a list of names.  Above the root there is nothing.  (Symbolic links are outside the model.)
-/

namespace Sigtool.Spec

/-- The words between the slashes. -/
def pathWords : Bytes → List Bytes
  | [] => [[]]
  | c :: p => if c = 47 then [] :: pathWords p else
    match pathWords p with
    | [] => [[c]]
    | w :: ws => (c :: w) :: ws

example : pathWords (ascii "/a//b") = [[], ascii "a", [], ascii "b"] := by decide +kernel

/-- A path that begins with a slash starts at the root. -/
def Rooted (p : Bytes) : Prop := p.head? = some 47

instance (p : Bytes) : Decidable (Rooted p) := inferInstanceAs (Decidable (_ = _))

/-- Where a path leads: so many steps up, then down through these names (the last one first). -/
structure Place where
  up : Nat := 0
  names : List Bytes := []
deriving DecidableEq

/-- Following one word. -/
def Place.step (rooted : Bool) (pl : Place) (w : Bytes) : Place :=
  if w = [] ∨ w = ascii "." then pl
  else if w = ascii ".." then
    match pl.names with
    | _ :: ns => { pl with names := ns }
    | [] => if rooted then pl else { pl with up := pl.up + 1 }
  else { pl with names := w :: pl.names }

/-- Where the path leads. -/
def place (p : Bytes) : Place := (pathWords p).foldl (Place.step (decide (Rooted p))) {}

/-- The two paths lead to the same place. -/
def SamePlace (p q : Bytes) : Prop := (Rooted p ↔ Rooted q) ∧ place p = place q

/-- A name within a path. -/
def PathName (w : Bytes) : Prop := w ≠ [] ∧ w ≠ ascii "." ∧ w ≠ ascii ".." ∧ 47 ∉ w

/-- The words with a slash between any two. -/
def joinWords : List Bytes → Bytes
  | [] => []
  | [w] => w
  | w :: ws => w ++ 47 :: joinWords ws

/-- A path without detours: `.`, or a slash and names, or steps up and names. -/
inductive Direct : Bytes → Prop
  | here : Direct (ascii ".")
  | root (ns : List Bytes) : (∀ n ∈ ns, PathName n) → Direct (47 :: joinWords ns)
  | rel (k : Nat) (ns : List Bytes) : (∀ n ∈ ns, PathName n) → List.replicate k (ascii "..") ++ ns ≠ [] →
      Direct (joinWords (List.replicate k (ascii "..") ++ ns))

end Sigtool.Spec
