import Verif.Monitor

/-!
# Reading the tallies of a monitor: x, xweight, xduration, xt, tx (salabim.py:2920-3116) and values (salabim.py:2674-2734)
-/

namespace Verif
namespace Mon

/-- `x(ex0, force_numeric)` (salabim.py:2920-2946) -/
def Monitor.xs (m : Monitor) (now : Rat) (ex0 forceNumeric : Bool) : Except Err (List Val) :=
  if m.statsOnly then .error .notImplemented else
  if m.level then .error .type else .ok (m.xweight now ex0 forceNumeric).1.1

/-- `xweight(ex0, force_numeric)` (salabim.py:2948-2974) -/
def Monitor.xw (m : Monitor) (now : Rat) (ex0 forceNumeric : Bool) : Except Err XW :=
  if m.statsOnly then .error .notImplemented else
  if m.level then .error .type else .ok (m.xweight now ex0 forceNumeric).1

/-- `xduration(ex0, force_numeric)` (salabim.py:2976-3002) -/
def Monitor.xduration (m : Monitor) (now : Rat) (ex0 forceNumeric : Bool) : Except Err XW :=
  if m.statsOnly then .error .notImplemented else
  if !m.level then .error .type else .ok (m.xweight now ex0 forceNumeric).1

/-- `xt(ex0, exoff, force_numeric, add_now)` (salabim.py:3004-3076). Without animation: `t_extra` is `env._now`. -/
def Monitor.xt (m : Monitor) (now : Rat) (ex0 exoff forceNumeric addNow : Bool) : Except Err (List Val × List Rat) :=
  if m.statsOnly then .error .notImplemented else
  let exoff := exoff && m.level
  let addNow := addNow && m.level
  let x := m.values forceNumeric
  let off := if m.xtype.coded || !forceNumeric then m.off else .ninf
  let rows (addx : List Val) (addt : List Rat) : List Val × List Rat :=
    let l := ((x ++ addx).zip (m.t ++ addt)).filter (fun p => (!ex0 || p.1 != .num 0) && (!exoff || p.1 != off))
    (l.map (·.1), l.map (·.2))
  if addNow then
    match x.getLast? with
    | none => .error .index
    | some v => .ok (rows [v] [now])
  else .ok (rows [] [])

/-- `tx(ex0, exoff, force_numeric, add_now)` (salabim.py:3078-3116) -/
def Monitor.tx (m : Monitor) (now : Rat) (ex0 exoff forceNumeric addNow : Bool) : Except Err (List Rat × List Val) :=
  (m.xt now ex0 exoff forceNumeric addNow).map (fun p => (p.2, p.1))

/-- `float(x)`, `none` if it raises (salabim.py:2724-2727); -inf is `⊥` -/
def Val.toFloat : Val → Option (WithBot Rat)
  | .num q => some q
  | .obj _ _ f => f.map (fun q => (q : WithBot Rat))
  | .ninf => some ⊥

/-- `str(x)`; only used for values that are not numbers -/
def Val.text : Val → String
  | .obj s _ _ => s
  | _ => ""

/-- a sort key of `values`: (weight, float(x), "") or (weight, inf, str(x).lower()) (salabim.py:2724-2727) -/
structure Key where
  weight : Rat
  float : WithTop (WithBot Rat)
  lower : String

/-- comparison of these tuples -/
def Key.le (a b : Key) : Bool :=
  decide (a.weight < b.weight) || (decide (a.weight = b.weight) && (decide (a.float < b.float) || (decide (a.float = b.float) && decide (a.lower ≤ b.lower))))

/-- the function `key` of `values` (salabim.py:2716-2727); `weight` is the function for the first component -/
def keyOf (weight : Val → Rat) (v : Val) : Key :=
  match v.toFloat with
  | some q => ⟨weight v, q, ""⟩
  | none => ⟨weight v, ⊤, v.text.toLower⟩

/-- `values(ex0, force_numeric, sort_on_weight, sort_on_duration)` (salabim.py:2674-2734). `sorted` is a stable insertion sort. Values that are lists or tuples
(value_weight would take them for several values) are left out. -/
def Monitor.sortedValues (m : Monitor) (now : Rat) (ex0 forceNumeric sortOnWeight sortOnDuration : Bool) : Except Err (List Val) :=
  if m.statsOnly then .error .notImplemented else
  if m.level && sortOnWeight then .error .value else
  if !m.level && sortOnDuration then .error .value else
  let weight (v : Val) : Rat := if sortOnWeight || sortOnDuration then - m.valueWeight now [v] else 1
  .ok ((m.uniqueValues now ex0 forceNumeric).insertionSort (fun a b => (keyOf weight a).le (keyOf weight b)))

end Mon
end Verif
