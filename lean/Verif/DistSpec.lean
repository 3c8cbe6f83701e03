import Mathlib.Data.List.Basic

/-!
# Distribution

`Distribution(spec)` turns a text into the text of a Python expression, and evaluates that. The first part is modelled; texts are lists of (ASCII) characters.
-/

namespace Verif
namespace DistSpec

abbrev Text := List Char

/-- `str.split(sep)` -/
def split (sep : Char) : Text → List Text
  | [] => [[]]
  | c :: t => if c = sep then [] :: split sep t else
    match split sep t with
    | [] => [[c]]
    | h :: r => (c :: h) :: r

/-- `sep.join(l)` -/
def join (sep : Char) : List Text → Text
  | [] => []
  | [a] => a
  | a :: l => a ++ sep :: join sep l

/-- `str.strip()` -/
def strip (t : Text) : Text := ((t.dropWhile Char.isWhitespace).reverse.dropWhile Char.isWhitespace).reverse

/-- `str.upper()` -/
def upper (t : Text) : Text := t.map Char.toUpper

/-- the names in the order in which they are tried (salabim.py:23398-23414) -/
def names : List Text :=
  ["Uniform".toList, "Constant".toList, "Triangular".toList, "Exponential".toList, "Normal".toList, "Cdf".toList, "Pdf".toList, "CumPdf".toList, "Weibull".toList,
    "Gamma".toList, "Erlang".toList, "Beta".toList, "IntUniform".toList, "Poisson".toList, "External".toList]

/-- the text that is evaluated, or `none`: ValueError (salabim.py:23374-23418) -/
def resolve (spec : Text) : Option Text :=
  let sp := split '(' spec
  let pre := strip (upper (sp.headD []))
  if pre = [] ∨ ('(' ∉ spec) then
    match split ',' ((spec.filter (· ≠ ')')).filter (· ≠ '(')) with
    | [c1] => some ("Constant(".toList ++ c1 ++ [')'])
    | [c1, c2] => some ("Uniform(".toList ++ c1 ++ ", ".toList ++ c2 ++ [')'])
    | [c1, c2, c3] => some ("Triangular(".toList ++ c1 ++ ", ".toList ++ c2 ++ ", ".toList ++ c3 ++ [')'])
    | _ => none
  else
    match names.find? (fun n => pre == (upper n).take pre.length) with
    | some n => some (join '(' (n :: sp.tail))
    | none => some spec

/-- the text with the time unit added at the end, which is tried first if a time unit is given (salabim.py:23421-23424); `unit` is its `repr` -/
def withUnit (unit spec : Text) : Text := (strip spec).dropLast ++ ", time_unit=".toList ++ unit ++ [')']

end DistSpec
end Verif
