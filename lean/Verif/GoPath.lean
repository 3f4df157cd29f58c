import Verif.Base
/-!
# GoPath: `path.Clean` of Go's standard library, which `generate` applies to its argument (`src/gen.go:61-62`)
-/

namespace Sigtool.GoPath

/-- `out.w--; for out.w > dotdot && out.index(out.w) != '/' { out.w-- }` (`path/path.go`, `Clean`); `w` is the value after the first step. -/
def backLoop (out : Bytes) (dotdot : Nat) : Nat → Nat
  | 0 => 0
  | w + 1 => if w + 1 > dotdot ∧ out[w + 1]? ≠ some 47 then backLoop out dotdot w else w + 1

/-- The loop of `path.Clean`.  `rest` is what is left to read, `out` what has been written (`lazybuf` up to `out.w`).  Go's loop has no
counter; `fuel` bounds the rounds, each of which reads at least one byte. -/
def cleanLoop (rooted : Bool) : (fuel : Nat) → (out : Bytes) → (dotdot : Nat) → (rest : Bytes) → Bytes
  | 0, out, _, _ => out
  | _ + 1, out, _, [] => out
  | fuel + 1, out, dotdot, c :: rest =>
    if c = 47 then cleanLoop rooted fuel out dotdot rest
    else if c = 46 ∧ (rest = [] ∨ rest.head? = some 47) then cleanLoop rooted fuel out dotdot rest
    else if c = 46 ∧ rest.head? = some 46 ∧ (rest.tail = [] ∨ rest.tail.head? = some 47) then
      if out.length > dotdot then cleanLoop rooted fuel (out.take (backLoop out dotdot (out.length - 1))) dotdot rest.tail
      else if !rooted then
        let out' := (if out.length > 0 then out ++ [47] else out) ++ [46, 46]
        cleanLoop rooted fuel out' out'.length rest.tail
      else cleanLoop rooted fuel out dotdot rest.tail
    else
      let out' := if (rooted && out.length != 1) || (!rooted && out.length != 0) then out ++ [47] else out
      cleanLoop rooted fuel (out' ++ (c :: rest).takeWhile (· ≠ 47)) dotdot ((c :: rest).dropWhile (· ≠ 47))

/-- `path.Clean`. -/
def clean (path : Bytes) : Bytes :=
  match path with
  | [] => [46]
  | c :: rest =>
    let out := if c = 47 then cleanLoop true (path.length + 1) [47] 1 rest else cleanLoop false (path.length + 1) [] 0 path
    if out = [] then [46] else out

example : clean (ascii "a/b/../c//d/./e") = ascii "a/c/d/e" := by decide +kernel
example : clean (ascii "/../a/../../b/") = ascii "/b" := by decide +kernel
example : clean (ascii "../x/../../y") = ascii "../../y" := by decide +kernel
example : clean (ascii "x/..") = ascii "." := by decide +kernel
example : clean (ascii "//") = ascii "/" := by decide +kernel
example : clean (ascii "...") = ascii "..." := by decide +kernel

end Sigtool.GoPath
