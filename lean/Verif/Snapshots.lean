import Mathlib.Data.List.Basic

/-!
# The files of a video of separate images

A name is a list of characters, without `{`, `}` (which mean something to `format`) and `[` (which means something to `glob`). Only files in the folder of the video are looked at, and upper and
lower case are different.
-/

namespace Verif
namespace Snapshots

/-- `{:06d}` (salabim.py:11872) -/
def six (n : Nat) : List Char := List.replicate (6 - (Nat.toDigits 10 n).length) '0' ++ Nat.toDigits 10 n

/-- is the name accepted? (salabim.py:11866-11876; the star must be in the name of the file without extension, which is left out) -/
def accepted (video : List Char) : Bool :=
  if '*' ∈ video then
    if video.count '*' > 1 then false else if '?' ∈ video then false else true
  else false

/-- `video.replace("*", s)` -/
def subst (video s : List Char) : List Char := video.flatMap (fun c => if c = '*' then s else [c])

/-- the name of a frame (salabim.py:11872, 12107) -/
def file (video : List Char) (n : Nat) : List Char := subst video (six n)

/-- does a name match a pattern in which only `?` is special? -/
def fits : List Char → List Char → Bool
  | [], [] => true
  | p :: ps, c :: cs => (p = '?' || p = c) && fits ps cs
  | _, _ => false

/-- is a file removed when recording starts? (salabim.py:11873-11874) -/
def removed (video name : List Char) : Bool := fits (subst video (List.replicate 6 '?')) name

end Snapshots
end Verif
