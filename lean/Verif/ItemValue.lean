import Verif.Util
import Mathlib.Algebra.Order.Ring.Abs

/-!
# Items of an ItemFile as numbers and truth values: read_item_int, read_item_float, read_item_bool

`int(s)` and `float(s)` are Python's: what they accept is modelled for texts in ASCII; the value of a `float` is exact instead of rounded to 53 bits,
except that what is too small for a float is 0 (`Num.isZero`) and what is too large is not turned into inf. That `int` refuses texts of more than 4300 digits is left out.
-/

namespace Verif
namespace ItemValue

abbrev Str := List Char

/-- a float: inf and nan have a sign of no importance here, but for inf -/
inductive Num
  | fin (q : Rat) | inf | ninf | nan
  deriving DecidableEq

/-- the exceptions: EOFError and ValueError -/
inductive Err
  | eof | value
  deriving DecidableEq

/-- Python's white space within ASCII -/
def white (c : Char) : Bool := c.toNat = 32 || (9 ≤ c.toNat && c.toNat ≤ 13) || (28 ≤ c.toNat && c.toNat ≤ 31)

/-- `s.strip()`, as in salabim.py:271 and at the start of `int(s)` and `float(s)` -/
def strip (s : Str) : Str := ((s.dropWhile white).reverse.dropWhile white).reverse

/-- `s.lower()` (salabim.py:271) -/
def lower (s : Str) : Str := s.map Char.toLower

/-- `s.replace(",", ".")` (salabim.py:246, 255) -/
def comma (s : Str) : Str := s.map fun c => if c = ',' then '.' else c

/-- `int(s)`, `float(s)`: leaves out the underscores, which have to be between two digits; `prev` is the previous character -/
def joined (prev : Char) : Str → Option Str
  | [] => if prev = '_' then none else some []
  | c :: s =>
    if c = '_' then if prev.isDigit then joined c s else none
    else if prev = '_' ∧ ¬ c.isDigit then none
    else (joined c s).map (c :: ·)

/-- `int(s)`, `float(s)`: the sign and the rest -/
def sign : Str → Int × Str
  | [] => (1, [])
  | c :: s => if c = '+' then (1, s) else if c = '-' then (-1, s) else (1, c :: s)

/-- `int(s)`, `float(s)`: the value of a row of digits -/
def nat (ds : Str) : Nat := ds.foldl (fun n c => 10 * n + (c.toNat - 48)) 0

/-- `float(s)`: the exponent, which may be absent -/
def exponent : Str → Option Int
  | [] => some 0
  | c :: s =>
    if c = 'e' ∨ c = 'E' then
      if (sign s).2 ≠ [] ∧ (sign s).2.all Char.isDigit then some ((sign s).1 * nat (sign s).2) else none
    else none

/-- `float(s)`: the digits after the point -/
def fraction : Str → Str
  | [] => []
  | c :: s => if c = '.' then s.takeWhile Char.isDigit else []

/-- `float(s)`: what comes after the fraction -/
def tail : Str → Str
  | [] => []
  | c :: s => if c = '.' then s.dropWhile Char.isDigit else c :: s

/-- `float(s)`: a number without sign -/
def magnitude (s : Str) : Option Rat :=
  let ip := s.takeWhile Char.isDigit
  let r := s.dropWhile Char.isDigit
  if ip = [] ∧ fraction r = [] then none
  else (exponent (tail r)).map fun e : Int => (nat (ip ++ fraction r) : Rat) * (10 : Rat) ^ (e - ((fraction r).length : Int))

/-- `float(s)`: inf and nan -/
def special (σ : Int) (s : Str) : Option Num :=
  if lower s = "inf".toList ∨ lower s = "infinity".toList then some (if σ = 1 then .inf else .ninf)
  else if lower s = "nan".toList then some .nan else none

/-- `float(s)`; `none` is ValueError -/
def pyFloat (s : Str) : Option Num :=
  (joined '\x00' (strip s)).bind fun s =>
    match magnitude (sign s).2 with
    | some q => some (.fin ((sign s).1 * q))
    | none => special (sign s).1 (sign s).2

/-- `int(s)`; `none` is ValueError -/
def pyInt (s : Str) : Option Int :=
  (joined '\x00' (strip s)).bind fun s =>
    if (sign s).2 ≠ [] ∧ (sign s).2.all Char.isDigit then some ((sign s).1 * nat (sign s).2) else none

/-- `x == 0` of a float: a number that is at most half of the smallest positive float, 2 ** -1074, is rounded to 0 -/
def Num.isZero : Num → Bool
  | .fin q => decide (|q| ≤ 1 / 2 ^ 1075)
  | _ => false

/-- the value of an item in `read_item_int` (salabim.py:240-246) -/
def toInt (s : Str) : Option Int := pyInt (comma s)

/-- the value of an item in `read_item_float` (salabim.py:248-255) -/
def toFloat (s : Str) : Option Num := pyFloat (comma s)

/-- the value of an item in `read_item_bool` (salabim.py:257-281) -/
def toBool (s : Str) : Bool :=
  let r := lower (strip s)
  if r = "false".toList then false
  else match (pyFloat r).map Num.isZero with
    | some true => false
    | _ => if r = [] then false else true

/-- `read_item_int`, `read_item_float` and `read_item_bool` (salabim.py:240-281): the value of the next item (or EOFError or ValueError) and the items that are left -/
def readAs {A : Type} (conv : Str → Option A) (l : List Str) : Except Err A × List Str :=
  match Util.readItem l with
  | none => (.error .eof, [])
  | some (i, l) => (match conv i with | some v => .ok v | none => .error .value, l)

end ItemValue
end Verif
