import Verif.Util
import Mathlib.Algebra.Order.Floor.Defs
import Mathlib.Data.Rat.Floor

/-!
# Colours (salabim.py:13989-14170, 11702-11714)

Strings are lists of characters, the components of a colour whole numbers. The table of `colornames()` (a pickled dictionary) is a parameter. Left out: `#` specifications
with characters outside ASCII, colours with fractional components, colours with an infinite time in `colorinterpolate` other than `t1`.
-/

namespace Verif
namespace Color

/-- the exceptions -/
inductive Err
  | value
  deriving DecidableEq, Repr

/-- strings -/
abbrev Str := List Char

/-- (r, g, b, alpha) -/
structure Rgba where
  r : Int
  g : Int
  b : Int
  a : Int
  deriving DecidableEq, Repr

/-- a color specification (salabim.py:13993-14010): a string or a tuple; `none` is Python's None -/
inductive Spec
  | none
  | str (s : Str)
  | pair (c : Spec) (alpha : Int)
  | rgb (r g b : Int)
  | rgba (r g b a : Int)
  deriving DecidableEq, Repr

/-- what the environment knows: `colornames()`, `_foreground_color` and `_background_color` -/
structure Env where
  names : Str → Option Str
  fg : Spec
  bg : Spec

/-- one hexadecimal digit -/
def digit (c : Char) : Option Int :=
  if '0' ≤ c ∧ c ≤ '9' then some (c.toNat - 48)
  else if 'a' ≤ c ∧ c ≤ 'f' then some (c.toNat - 87)
  else if 'A' ≤ c ∧ c ≤ 'F' then some (c.toNat - 55)
  else .none

/-- Python's white space within ASCII -/
def white (c : Char) : Bool := c.toNat = 32 || (9 ≤ c.toNat && c.toNat ≤ 13) || (28 ≤ c.toNat && c.toNat ≤ 31)

/-- `int(s, 16)` of a string of two characters: white space around the number and a sign are allowed -/
def int16 (c d : Char) : Except Err Int :=
  match digit c, digit d with
  | some m, some n => .ok (16 * m + n)
  | .none, some n => if c = '+' ∨ white c then .ok n else if c = '-' then .ok (-n) else .error .value
  | some m, .none => if white d then .ok m else .error .value
  | .none, .none => .error .value

/-- a specification that starts with `#` (salabim.py:14031-14034); anything else is refused (salabim.py:14051) -/
def hash : Str → Except Err Rgba
  | ['#', r1, r2, g1, g2, b1, b2] => do
    let r ← int16 r1 r2
    let g ← int16 g1 g2
    let b ← int16 b1 b2
    return ⟨r, g, b, 255⟩
  | ['#', r1, r2, g1, g2, b1, b2, a1, a2] => do
    let r ← int16 r1 r2
    let g ← int16 g1 g2
    let b ← int16 b1 b2
    let a ← int16 a1 a2
    return ⟨r, g, b, a⟩
  | _ => .error .value

/-- `s.split("#")` -/
def split : Str → List Str
  | [] => [[]]
  | c :: s =>
    match split s with
    | [] => [[]]
    | w :: ws => if c = '#' then [] :: w :: ws else (c :: w) :: ws

/-- the name and the alpha of a specification that doesn't start with `#` (salabim.py:14036-14042) -/
def nameAlpha (s : Str) : Str × Str :=
  match split s with
  | [n, a] => (n, a)
  | _ => (s, ['F', 'F'])

/-- `.replace(" ", "").lower()` (salabim.py:14044) -/
def clean (s : Str) : Str := (s.filter (· ≠ ' ')).map Char.toLower

/-- `colorspec_to_tuple(colorspec)` (salabim.py:14016-14051); `none`: the recursion doesn't end -/
def toTuple (e : Env) : Nat → Spec → Option (Except Err Rgba)
  | 0, _ => Option.none
  | f + 1, s =>
    match s with
    | .none =>
      match e.names [] with
      | Option.none => some (.error .value)
      | some h => toTuple e f (.str (if h.length = 7 then h ++ ['F', 'F'] else h))
    | .rgba r g b a => some (.ok ⟨r, g, b, a⟩)
    | .rgb r g b => some (.ok ⟨r, g, b, 255⟩)
    | .pair c alpha => (toTuple e f c).map fun x => x.map fun v => { v with a := alpha }
    | .str s =>
      if s = ['f', 'g'] then toTuple e f e.fg
      else if s = ['b', 'g'] then toTuple e f e.bg
      else if s.head? = some '#' then some (hash s)
      else
        match e.names (clean (nameAlpha s).1) with
        | Option.none => some (.error .value)
        | some h => toTuple e f (.str (if h.length = 7 then h ++ (nameAlpha s).2 else h))

/-- a hexadecimal digit as it is written by `:x` -/
def digitChar (n : Nat) : Char := ['0', '1', '2', '3', '4', '5', '6', '7', '8', '9', 'a', 'b', 'c', 'd', 'e', 'f'].getD n '0'

/-- `f"{n:x}"` of a number that is not negative -/
def hexNat (n : Nat) : Str := if n < 16 then [digitChar n] else hexNat (n / 16) ++ [digitChar (n % 16)]

/-- `f"{n:02x}"` -/
def hex2 (n : Int) : Str :=
  if n < 0 then '-' :: hexNat n.natAbs else (if n < 16 then ['0'] else []) ++ hexNat n.natAbs

/-- `colorspec_to_hex(colorspec, withalpha)` (salabim.py:14125-14130), given the tuple -/
def toHex (v : Rgba) (withalpha : Bool) : Str :=
  '#' :: (hex2 v.r ++ hex2 v.g ++ hex2 v.b ++ if withalpha then hex2 v.a else [])

/-- Python's `int(x)` -/
def trunc (x : Rat) : Int := if x < 0 then ⌈x⌉ else ⌊x⌋

/-- a tuple of four as a specification -/
def Rgba.spec (v : Rgba) : Spec := .rgba v.r v.g v.b v.a

/-- `colorinterpolate(t, t0, t1, v0, v1)` (salabim.py:14084-14092); `none` for t1 is inf -/
def colorinterpolate (e : Env) (f : Nat) (t t0 : Rat) (t1 : Option Rat) (v0 v1 : Spec) : Option (Except Err Spec) :=
  if v0 = v1 then some (.ok v0) else
  match t1 with
  | Option.none => some (.ok v0)
  | some t1 =>
    if t0 = t1 then some (.ok v1) else
    match toTuple e f v0, toTuple e f v1 with
    | some (.ok a), some (.ok b) =>
      match Util.interpolateT (t : WithTop Rat) (t0 : WithTop Rat) (t1 : WithTop Rat) [some (a.r : Rat), some (a.g : Rat), some (a.b : Rat), some (a.a : Rat)]
          [some (b.r : Rat), some (b.g : Rat), some (b.b : Rat), some (b.a : Rat)] with
      | [some r, some g, some b, some a] => some (.ok (.rgba (trunc r) (trunc g) (trunc b) (trunc a)))
      | _ => some (.error .value)
    | Option.none, _ => Option.none
    | some (.error x), _ => some (.error x)
    | _, Option.none => Option.none
    | _, some (.error x) => some (.error x)

/-- the last part of `is_dark` (salabim.py:14163-14167) -/
def dark (v : Rgba) : Bool := !decide (((299 / 1000 : Rat) * v.r + (587 / 1000 : Rat) * v.g + (114 / 1000 : Rat) * v.b) / 255 > 1 / 2)

/-- `is_dark(colorspec)` (salabim.py:14160-14167) -/
def isDark (e : Env) : Nat → Spec → Option (Except Err Bool)
  | 0, _ => Option.none
  | f + 1, s =>
    match toTuple e f s with
    | Option.none => Option.none
    | some (.error x) => some (.error x)
    | some (.ok v) =>
      if v.a = 0 then
        match toTuple e f (.pair (.str ['b', 'g']) 255) with
        | Option.none => Option.none
        | some (.error x) => some (.error x)
        | some (.ok b) => isDark e f b.spec
      else some (.ok (dark v))

/-- `animation_parameters(background_color=..., foreground_color=...)` as far as it sets these (salabim.py:11702-11714): `none` is not given. The environment and
whether it was refused -/
def setColors (e : Env) (f : Nat) (bg fg : Option Spec) : Option (Except Err Env) :=
  let first : Option (Except Err Env) :=
    match bg with
    | Option.none => some (.ok e)
    | some b =>
      if b = .str ['f', 'g'] ∨ b = .str ['b', 'g'] then some (.error .value) else
      let e1 := { e with bg := b }
      match fg with
      | some _ => some (.ok e1)
      | Option.none =>
        match isDark e1 f (.str ['b', 'g']) with
        | Option.none => Option.none
        | some (.error x) => some (.error x)
        | some (.ok d) => some (.ok { e1 with fg := .str (if d then ['w', 'h', 'i', 't', 'e'] else ['b', 'l', 'a', 'c', 'k']) })
  match first with
  | some (.ok e1) =>
    match fg with
    | Option.none => some (.ok e1)
    | some c => if c = .str ['f', 'g'] ∨ c = .str ['b', 'g'] then some (.error .value) else some (.ok { e1 with fg := c })
  | x => x

end Color
end Verif
