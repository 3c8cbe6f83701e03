import Mathlib.Algebra.Order.Field.Rat
import Mathlib.Order.WithBot

/-!
# Utility functions: interpolate, searchsorted, interp, arange, linspace, names, item files

Numbers are exact rationals; the branches of the code that use numpy are left out (`has_numpy()` False).
-/

namespace Verif
namespace Util

/-! ## interpolate -/

/-- `_i(p, v0, v1)` (salabim.py:24902-24907); `none` is Python's None -/
def mix (p : Rat) (v0 v1 : Option Rat) : Option Rat :=
  if v0 = v1 then v0 else
  match v0, v1 with
  | some a, some b => some ((1 - p) * a + p * b)
  | _, _ => none

/-- `interpolate` (salabim.py:24943-24961), with the way to mix the values as a parameter (numbers or tuples). `⊤` is inf. -/
def interpolateWith {V : Type} [DecidableEq V] (comb : Rat → V → V → V) (t t0 t1 : WithTop Rat) (v0 v1 : V) : V :=
  if v0 = v1 then v0 else
  let (t0, t1, v0, v1) := if t0 > t1 then (t1, t0, v1, v0) else (t0, t1, v0, v1)
  if t1 = ⊤ then v0 else
  if t0 = t1 then v1 else
  if t ≤ t0 then v0 else
  if t ≥ t1 then v1 else
  match t, t0, t1 with
  | some t, some t0, some t1 => comb ((t - t0) / (t1 - t0)) v0 v1
  | _, _, _ => v1
/-- for numbers (or None) -/
def interpolate := interpolateWith mix
/-- for tuples (salabim.py:24958-24959) -/
def interpolateT := interpolateWith (fun p l0 l1 => List.zipWith (mix p) l0 l1)

/-! ## bisect

These work for numbers of any kind `K`; in trajectories with real numbers. -/

/-- the loop of CPython's `bisect.bisect_left`/`bisect_right`; `below e` is `e < x`, respectively `not x < e` -/
def bisectLoop {K : Type} [Zero K] (a : List K) (below : K → Bool) (lo hi : Nat) : Nat :=
  if h : lo < hi then
    let mid := (lo + hi) / 2
    if below (a.getD mid 0) then bisectLoop a below (mid + 1) hi else bisectLoop a below lo mid
  else lo
  termination_by hi - lo
  decreasing_by all_goals omega

/-- `bisect.bisect_left(a, v)` -/
def bisectLeft {K : Type} [Zero K] [LinearOrder K] (a : List K) (v : K) : Nat := bisectLoop a (fun e => decide (e < v)) 0 a.length
/-- `bisect.bisect_right(a, v)` -/
def bisectRight {K : Type} [Zero K] [LinearOrder K] (a : List K) (v : K) : Nat := bisectLoop a (fun e => !decide (v < e)) 0 a.length

/-- side argument -/
inductive Side
  | left | right | other
  deriving DecidableEq

/-- `searchsorted(a, v, side)` (salabim.py:24990-24997); `none` if it raises ValueError -/
def searchsorted {K : Type} [Zero K] [LinearOrder K] (a : List K) (v : K) : Side → Option Nat
  | .left => some (bisectLeft a v)
  | .right => some (bisectRight a v)
  | .other => none

/-- `interp(x, xp, fp, left, right)` for numbers (salabim.py:25098-25119); `none` if it raises ValueError -/
def interp {K : Type} [Field K] [LinearOrder K] (x : K) (xp fp : List K) (left right : Option K) : Option K :=
  if xp.length ≠ fp.length then none else
  if xp.length = 0 then none else
  if x < xp.getD 0 0 then some (left.getD (fp.getD 0 0)) else
  if x > xp.getD (xp.length - 1) 0 then some (right.getD (fp.getD (fp.length - 1) 0)) else
  if xp.length = 1 then some (fp.getD 0 0) else
  let i := bisectRight xp x
  if i ≥ xp.length then some (fp.getD (fp.length - 1) 0) else
  some (fp.getD (i - 1) 0 + (fp.getD i 0 - fp.getD (i - 1) 0) * (x - xp.getD (i - 1) 0) / (xp.getD i 0 - xp.getD (i - 1) 0))

/-! ## arange, linspace -/

/-- the loop of `arange` (salabim.py:25027-25032), at most `fuel` rounds -/
def arangeLoop (stop step : Rat) : Nat → Rat → List Rat → Option (List Rat)
  | 0, _, _ => none
  | f + 1, value, result =>
    if (step > 0 ∧ value ≥ stop) ∨ (step < 0 ∧ value ≤ stop) then some result
    else arangeLoop stop step f (value + step) (result ++ [value])
/-- `arange` (salabim.py:25025-25032) -/
def arange (fuel : Nat) (start stop step : Rat) : Option (List Rat) := arangeLoop stop step fuel start []

/-- `linspace` (salabim.py:25057-25066) -/
def linspace (start stop : Rat) (num : Nat) (endpoint : Bool) : List Rat :=
  if num = 0 then [] else
  if num = 1 then [start] else
  let step := if endpoint then (stop - start) / ((num : Rat) - 1) else (stop - start) / num
  (List.range num).map (fun i : Nat => start + step * i)

/-! ## names -/

/-- `_nameserialize` dictionary -/
abbrev Serial := List Char → Option Nat

/-- what `_set_name` sets in the object: `_name`, `_base_name`, `_sequence_number` -/
structure Named where
  name : List Char
  base : Option (List Char × Nat)
  deriving DecidableEq

/-- the base name that is used (salabim.py:25123-25126); `cls` is the lower case class name -/
def baseName (cls : List Char) (name : Option (List Char)) : List Char :=
  match name with
  | none => cls ++ ['.']
  | some n => if n = [] then cls ++ ['.'] else if n = ['.'] ∨ n = [','] then cls ++ n else n

/-- the sequence number (salabim.py:25129-25132) -/
def nextNo (ser : Serial) (name : List Char) : Nat :=
  match ser name with
  | some k => k + 1
  | none => if name.getLast? = some ',' then 1 else 0

/-- `_set_name` (salabim.py:25122-25139); `str(n)` is `Nat.toDigits 10 n` -/
def setName (cls : List Char) (name : Option (List Char)) (ser : Serial) : Named × Serial :=
  let name := baseName cls name
  if name.getLast? = some '.' ∨ name.getLast? = some ',' then
    let seq := nextNo ser name
    (⟨name.dropLast ++ ['.'] ++ Nat.toDigits 10 seq, some (name, seq)⟩, fun n => if n = name then some seq else ser n)
  else (⟨name, none⟩, ser)

/-- creation of a sequence of objects, first one first -/
def createAll : List (List Char × Option (List Char)) → Serial → List Named
  | [], _ => []
  | (cls, name) :: l, ser => let r := setName cls name ser; r.1 :: createAll l r.2

/-! ## ItemFile -/

/-- the modes of `_nextread` (salabim.py:299): "." , a quote, or "{" -/
inductive Mode
  | plain | quote (q : Char) | brace
  deriving DecidableEq

/-- `if result: yield result` -/
def flush (result : List Char) : List (List Char) := if result = [] then [] else [result]

/-- the loop over the characters of a line (salabim.py:301-334); gives the yielded items -/
def scanLine : Mode → List Char → List Char → List (List Char)
  | _, result, [] => flush result
  | mode, result, c :: cs =>
    if c = '\r' ∨ c = '\n' then scanLine mode result cs else
    match mode with
    | .quote q => if c = q then result :: scanLine .plain [] cs else scanLine (.quote q) (result ++ [c]) cs
    | .brace => if c = '}' then scanLine .plain result cs else scanLine .brace result cs
    | .plain =>
      if c = '#' then flush result else
      if c = '\'' ∨ c = '"' then flush result ++ scanLine (.quote c) [] cs else
      if c = '{' then flush result ++ scanLine .brace [] cs else
      if c = ' ' ∨ c = '\t' then flush result ++ scanLine .plain [] cs else
      scanLine .plain (result ++ [c]) cs

/-- iteration over the lines of a text: each line includes its newline -/
def lines : List Char → List Char → List (List Char)
  | acc, [] => if acc = [] then [] else [acc]
  | acc, c :: cs => if c = '\n' then (acc ++ [c]) :: lines [] cs else lines (acc ++ [c]) cs

/-- all items of a text, in the order of `read_item` (salabim.py:294-334) -/
def items (text : List Char) : List (List Char) := (lines [] text).flatMap (scanLine .plain [])

/-- `read_item` (salabim.py:283-292): the next item and the rest; `none` is EOFError -/
def readItem : List (List Char) → Option (List Char × List (List Char))
  | [] => none
  | i :: is => some (i, is)

end Util
end Verif
