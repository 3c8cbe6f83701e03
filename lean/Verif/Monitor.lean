import Verif.Util
import Mathlib.Data.List.Sort

/-!
# Monitors (salabim.py:337-3171) and period monitors (salabim.py:24483-24576)

Times are exact rationals, in the internal clock `env._now` (the shift of `reset_now` is the argument `offset` where it matters).
Left out: animation (`env._animate` False), names, printing, dataframes (but see `Resample`), infinite or nan values as tallies, negative weights where said.
The standard deviation is modelled before its square root is taken (`variance`).
-/

namespace Verif
namespace Mon

/-- a value that can be tallied. `obj s i f` is any value that is not a number, with the result of `int()` and `float()` (`none`: it raises);
`ninf` is -inf, which monitors of type any, float and double use for off -/
inductive Val
  | num (q : Rat) | obj (s : String) (i : Option Int) (f : Option Rat) | ninf
  deriving DecidableEq, Repr

/-- the number of a value in statistics: `do_force_numeric` (salabim.py:25271-25285) and the same code in `tally` (salabim.py:1273-1280) -/
def Val.toRat : Val → Rat
  | .num q => q
  | .obj _ (some i) (some f) => if (i : Rat) = f then i else f
  | .obj _ _ _ => 0
  | .ninf => 0

/-- an element of `do_force_numeric(arg)` (salabim.py:25271-25285); -inf is a number and stays -/
def Val.force : Val → Val
  | .ninf => .ninf
  | v => .num v.toRat

/-- `float(x)`, or 0 if that raises (salabim.py:600-603) -/
def Val.float : Val → Val
  | .num q => .num q
  | .obj _ _ f => .num (f.getD 0)
  | .ninf => .ninf

/-- the types of a monitor (salabim.py:25254-25267) -/
inductive XType
  | any | float | double | bool | int8 | uint8 | int16 | uint16 | int32 | uint32 | int64 | uint64
  deriving DecidableEq, Repr

/-- the value for off (salabim.py:25253-25268) -/
def XType.off : XType → Val
  | .any | .float | .double => .ninf
  | .bool | .uint8 => .num 255
  | .int8 => .num (-128)
  | .int16 => .num (-32768)
  | .uint16 => .num 65535
  | .int32 => .num (-2147483648)
  | .uint32 => .num 4294967295
  | .int64 => .num (-9223372036854775808)
  | .uint64 => .num 18446744073709551615

/-- the range of the array of an integer type (salabim.py:25254-25267, `array` typecodes) -/
def XType.range : XType → Option (Int × Int)
  | .any | .float | .double => none
  | .bool | .uint8 => some (0, 255)
  | .int8 => some (-128, 127)
  | .int16 => some (-32768, 32767)
  | .uint16 => some (0, 65535)
  | .int32 => some (-2147483648, 2147483647)
  | .uint32 => some (0, 4294967295)
  | .int64 => some (-9223372036854775808, 9223372036854775807)
  | .uint64 => some (0, 18446744073709551615)

/-- is there a typecode, i.e. are the values in an array (salabim.py:25254-25267) -/
def XType.coded (ty : XType) : Bool := ty != .any

/-- can the value be stored in the array of this type; otherwise TypeError or OverflowError is raised. (A float like 2.0 in an array of integers is
refused by Python too; numbers are not split in int and float here.) -/
def XType.accepts (ty : XType) (v : Val) : Bool :=
  match ty, v with
  | .any, _ => true
  | .float, .num _ | .double, .num _ | .float, .ninf | .double, .ninf => true
  | ty, .num q => match ty.range with | some (lo, hi) => q.den == 1 && lo ≤ q.num && q.num ≤ hi | none => false
  | _, _ => false

/-- exceptions -/
inductive Err
  | type | value | overflow | index | notImplemented
  deriving DecidableEq, Repr

/-- `_weight` of a monitor: False, True or an array (salabim.py:1173-1190, 1319) -/
inductive Weights
  | no | yes | list (l : List Rat)
  deriving DecidableEq, Repr

/-- is `_weight` true in an `if` -/
def Weights.truthy : Weights → Bool
  | .no => false
  | .yes => true
  | .list l => !l.isEmpty

/-- the accumulated statistics of a stats_only monitor, for ex0 False or True (salabim.py:1165-1170); `none` for inf resp. -inf -/
structure Stats where
  n : Nat := 0
  sumw : Rat := 0
  mun : Rat := 0
  sn : Rat := 0
  mn : Option Rat := none
  mx : Option Rat := none
  deriving DecidableEq, Repr

/-- lists of values and weights, as returned by `_xweight` -/
abbrev XW := List Val × List Rat

/-- a monitor (salabim.py:414-473) -/
structure Monitor where
  level : Bool
  xtype : XType
  statsOnly : Bool
  /-- `_monitor` -/
  on : Bool
  generated : Bool := false
  /-- `_tally` -/
  tally : Val
  /-- `_ttally` -/
  ttally : Rat
  /-- `_ttally_monitored` -/
  ttallyMonitored : Rat
  /-- `_x` -/
  x : List Val
  /-- `_t` -/
  t : List Rat
  weight : Weights
  start : Rat
  /-- the statistics for ex0 False -/
  all : Stats
  /-- the statistics for ex0 True -/
  ex0 : Stats
  /-- `cached_xweight`: key (ex0, force_numeric), moment, result -/
  cache : List ((Bool × Bool) × (Rat × XW))
  deriving DecidableEq, Repr

/-- the value for off of this monitor (`self.off`, salabim.py:457) -/
def Monitor.off (m : Monitor) : Val := m.xtype.off

/-- the update of the statistics of a stats_only monitor with one value (salabim.py:1283-1290) -/
def Stats.add (s : Stats) (v w : Rat) : Stats :=
  let sumw := s.sumw + w
  let mun := s.mun + (w / sumw) * (v - s.mun)
  { n := s.n + 1, sumw := sumw, mun := mun, sn := s.sn + w * (v - s.mun) * (v - mun),
    mn := some (match s.mn with | none => v | some a => min a v), mx := some (match s.mx with | none => v | some a => max a v) }

/-- the part of `tally` of a stats_only monitor that updates the statistics (salabim.py:1272-1292) -/
def Monitor.addStats (m : Monitor) (v : Val) (w : Rat) : Monitor :=
  if m.on && w != 0 then
    let q := v.toRat
    { m with all := m.all.add q w
             ex0 := if q ≠ 0 then m.ex0.add q w else m.ex0
             weight := if w ≠ 1 then .yes else m.weight }
  else m

/-- `_weight` after adding a weight to `n` values (salabim.py:1314-1320, also 627-633 and 936-942) -/
def Weights.push (ws : Weights) (n : Nat) (w : Rat) : Weights :=
  match ws with
  | .list l => if w = 1 ∧ l = [] then .list l else if l = [] then .list (List.replicate n 1 ++ [w]) else .list (l ++ [w])
  | ws => if w = 1 then ws else .list (List.replicate n 1 ++ [w])

/-- put a value at a moment in the stored values of a level monitor: overwrite the last one if it is at the same moment
(salabim.py:1306-1311, 1333-1338) -/
def Monitor.put (m : Monitor) (now : Rat) (v : Val) : Monitor × Option Err :=
  match m.t.getLast? with
  | none => (m, some .index)
  | some last =>
    if !m.xtype.accepts v then (m, some .overflow)
    else if last = now then ({ m with x := m.x.dropLast ++ [v] }, none)
    else ({ m with x := m.x ++ [v], t := m.t ++ [now] }, none)

/-- `tally(value, weight)` (salabim.py:1242-1322) -/
def Monitor.doTally (m : Monitor) (now : Rat) (v : Val) (w : Rat) : Monitor × Option Err :=
  if m.generated then (m, some .type) else
  if m.statsOnly then
    if m.level then
      if w ≠ 1 then (m, some .value) else
      if m.on then
        (({ m with ttallyMonitored := now, tally := v, ttally := now }).addStats m.tally (now - m.ttallyMonitored), none)
      else ({ m with tally := v, ttally := now }, none)
    else (m.addStats v w, none)
  else
    let m := { m with cache := [] }
    if m.level then
      if w ≠ 1 then (m, some .value) else
      if v = m.off then (m, some .value) else
      let m := { m with tally := v, ttally := now }
      if m.on then m.put now v else (m, none)
    else if m.on then
      let m := { m with weight := m.weight.push m.x.length w }
      if m.xtype.accepts v then ({ m with x := m.x ++ [v], t := m.t ++ [now] }, none) else (m, some .overflow)
    else (m, none)

/-- `_tally_add_now()` (salabim.py:1324-1328) -/
def Monitor.tallyAddNow (m : Monitor) (now : Rat) : Monitor :=
  { (m.doTally now m.tally 1).1 with ttally := m.ttally }

/-- `monitor(value)` (salabim.py:1195-1231) with `_tally_off` (salabim.py:1330-1338) -/
def Monitor.setMonitor (m : Monitor) (now : Rat) (value : Option Bool) : Monitor × Option Err :=
  match value with
  | none => (m, none)
  | some b =>
    if m.statsOnly then
      let m := if m.on && m.level then m.tallyAddNow now else m
      ({ m with ttallyMonitored := now, on := b }, none)
    else
      if b && m.generated then (m, some .type) else
      let m := { m with on := b }
      if m.level then
        if b then m.doTally now m.tally 1
        else if m.generated then (m, some .type) else m.put now m.off
      else (m, none)

/-- `reset(monitor, stats_only)` (salabim.py:1138-1193) -/
def Monitor.reset (m : Monitor) (now : Rat) (monitor statsOnly : Option Bool) : Monitor × Option Err :=
  if m.generated then (m, some .type) else
  let m := { m with on := monitor.getD m.on, statsOnly := statsOnly.getD m.statsOnly, start := now }
  if m.statsOnly then
    let m := { m with all := {}, ex0 := {}, ttallyMonitored := if m.level then now else m.ttallyMonitored, weight := .no, cache := [] }
    m.setMonitor now monitor
  else if m.level then
    let v := if m.on then m.tally else m.off
    let m := { m with x := [], t := [], weight := .yes }
    if !m.xtype.accepts v then (m, some .overflow) else
    ({ m with x := [v], t := [now], cache := [] }).setMonitor now monitor
  else ({ m with x := [], t := [], weight := .no, cache := [] }).setMonitor now monitor

/-- `Monitor(level, initial_tally, type, stats_only, monitor)` (salabim.py:414-473) -/
def create (level : Bool) (initial : Option Val) (ty : XType) (statsOnly monitor : Bool) (now : Rat) : Monitor × Option Err :=
  if !level && initial.isSome then
    ({ level := level, xtype := ty, statsOnly := statsOnly, on := monitor, tally := .num 0, ttally := now, ttallyMonitored := now, x := [], t := [],
       weight := .no, start := now, all := {}, ex0 := {}, cache := [] }, some .type)
  else
    ({ level := level, xtype := ty, statsOnly := statsOnly, on := monitor, tally := initial.getD (.num 0), ttally := now, ttallyMonitored := now,
       x := [], t := [], weight := .no, start := now, all := {}, ex0 := {}, cache := [] } : Monitor).reset now (some monitor) none

/-- `fill` of a new monitor (salabim.py:465-471) -/
def Monitor.fill (m : Monitor) (now : Rat) (l : List Val) : Monitor × Option Err :=
  if m.level then (m, some .value) else
  if m.statsOnly then (m, some .value) else
  ({ m with x := m.x ++ l, t := m.t ++ List.replicate l.length now }, none)

/-- the value at a moment: `m(t)` and `m.get(t)` (salabim.py:1016-1030, 1032-1065). `bisect_left` of (t, inf) in the pairs (t_i, i) is
`bisect_right` of t in the t_i. -/
def Monitor.get (m : Monitor) (now offset : Rat) (t : Option Rat) : Except Err Val :=
  if !m.level then .error .type else
  match t with
  | none => .ok m.tally
  | some t =>
    let t := t + offset
    if t = now then .ok m.tally else
    if m.statsOnly then .error .notImplemented else
    match m.t with
    | [] => .error .index
    | t0 :: _ => if t < t0 then .ok m.off else .ok (m.x.getD (Util.bisectRight m.t t - 1) m.off)

/-! ## reading the tallies -/

/-- the durations between the stored moments and up to now (`weightall`, salabim.py:3133-3139) -/
def durations (now : Rat) : List Rat → List Rat
  | [] => []
  | [a] => [now - a]
  | a :: b :: r => (b - a) :: durations now (b :: r)

/-- the values that are used (salabim.py:3125-3130) -/
def Monitor.values (m : Monitor) (forceNumeric : Bool) : List Val :=
  if m.xtype.coded || !forceNumeric then m.x else m.x.map Val.force

/-- does a stored value of a level monitor count (salabim.py:3148-3149) -/
def counts (off : Val) (ex0 : Bool) (v : Val) : Bool := v != off && (v != .num 0 || !ex0)

/-- `_xweight(ex0, force_numeric)` without the cache (salabim.py:3125-3168) -/
def Monitor.fresh (m : Monitor) (now : Rat) (ex0 forceNumeric : Bool) : XW :=
  let x := m.values forceNumeric
  if m.level then
    let l := (x.zip (durations now m.t)).filter (fun p => counts m.off ex0 p.1)
    (l.map (·.1), l.map (·.2))
  else
    let x0 := x.filter (fun v => v != .num 0)
    match m.weight with
    | .list (w :: ws) =>
      if ex0 then (x0, ((x.zip (w :: ws)).filter (fun p => p.1 != .num 0)).map (·.2)) else (x, w :: ws)
    | _ => if ex0 then (x0, List.replicate x0.length 1) else (x, List.replicate x.length 1)

/-- find an entry of the cache -/
def lookup (k : Bool × Bool) : List ((Bool × Bool) × (Rat × XW)) → Option (Rat × XW)
  | [] => none
  | (k', e) :: r => if k' = k then some e else lookup k r

/-- the cached result if it is of the same moment (salabim.py:3121-3123) -/
def Monitor.cached (m : Monitor) (now : Rat) (k : Bool × Bool) : Option XW :=
  match lookup k m.cache with
  | some (t, r) => if t = now then some r else none
  | none => none

/-- `_xweight(ex0, force_numeric)` (salabim.py:3118-3171) -/
def Monitor.xweight (m : Monitor) (now : Rat) (ex0 forceNumeric : Bool) : XW × Monitor :=
  match m.cached now (ex0, forceNumeric) with
  | some r => (r, m)
  | none =>
    let r := m.fresh now ex0 forceNumeric
    (r, { m with cache := ((ex0, forceNumeric), (now, r)) :: m.cache })

/-- the numbers of a list of values -/
def nums (l : List Val) : List Rat := l.map Val.toRat

/-- `sum(vx * vweight for ...)` (salabim.py:1704) -/
def dot (xs ws : List Rat) : Rat := (List.zipWith (· * ·) xs ws).sum

/-- the mean of weighted values (salabim.py:1702-1706); `none` is nan -/
def meanOf (xw : XW) : Option Rat :=
  if xw.2.sum ≠ 0 then some (dot (nums xw.1) xw.2 / xw.2.sum) else none

/-- the square of the standard deviation of weighted values (salabim.py:1735-1741) -/
def varianceOf (xw : XW) : Option Rat :=
  if xw.2.sum ≠ 0 then
    some ((List.zipWith (fun x w => w * (x - (meanOf xw).getD 0) ^ 2) (nums xw.1) xw.2).sum / xw.2.sum)
  else none

/-- `min(x)` or nan (salabim.py:1763-1767) -/
def minOf : List Rat → Option Rat
  | [] => none
  | a :: l => some (l.foldl min a)
/-- `max(x)` or nan (salabim.py:1789-1793) -/
def maxOf : List Rat → Option Rat
  | [] => none
  | a :: l => some (l.foldl max a)

/-- the statistics of a stats_only monitor for ex0 -/
def Monitor.stats (m : Monitor) (ex0 : Bool) : Stats := if ex0 then m.ex0 else m.all

/-- `mean(ex0)` (salabim.py:1675-1706) -/
def Monitor.mean (m : Monitor) (now : Rat) (ex0 : Bool) : Option Rat :=
  if m.statsOnly then
    let m := if m.level then m.tallyAddNow now else m
    if (m.stats ex0).sumw ≠ 0 then some (m.stats ex0).mun else none
  else meanOf (m.xweight now ex0 true).1

/-- the square of `std(ex0)` (salabim.py:1708-1741) -/
def Monitor.variance (m : Monitor) (now : Rat) (ex0 : Bool) : Option Rat :=
  if m.statsOnly then
    let m := if m.level then m.tallyAddNow now else m
    if (m.stats ex0).sumw ≠ 0 then some ((m.stats ex0).sn / (m.stats ex0).sumw) else none
  else varianceOf (m.xweight now ex0 true).1

/-- `minimum(ex0)` (salabim.py:1743-1767) -/
def Monitor.minimum (m : Monitor) (now : Rat) (ex0 : Bool) : Option Rat :=
  if m.statsOnly then (if (m.stats ex0).n ≠ 0 then (m.stats ex0).mn else none)
  else minOf (nums (m.xweight now ex0 true).1.1)

/-- `maximum(ex0)` (salabim.py:1769-1793) -/
def Monitor.maximum (m : Monitor) (now : Rat) (ex0 : Bool) : Option Rat :=
  if m.statsOnly then (if (m.stats ex0).n ≠ 0 then (m.stats ex0).mx else none)
  else maxOf (nums (m.xweight now ex0 true).1.1)

/-- `number_of_entries(ex0)` (salabim.py:2140-2164) -/
def Monitor.numberOfEntries (m : Monitor) (now : Rat) (ex0 : Bool) : Except Err Nat :=
  if m.level then .error .type else
  if m.statsOnly then .ok (m.stats ex0).n else .ok (m.xweight now ex0 true).1.1.length

/-- `sys_weight(ex0)`, i.e. `weight(ex0)` or `duration(ex0)` (salabim.py:2182-2230) -/
def Monitor.sysWeight (m : Monitor) (now : Rat) (ex0 : Bool) : Rat :=
  if m.statsOnly then (m.stats ex0).sumw else (m.xweight now ex0 true).1.2.sum

/-- `sys_weight_zero()`, i.e. `weight_zero()` or `duration_zero()` (salabim.py:2232-2265) -/
def Monitor.sysWeightZero (m : Monitor) (now : Rat) : Rat := m.sysWeight now false - m.sysWeight now true

/-- is a number in (lowerbound, upperbound], where `none` is -inf resp. inf (salabim.py:1990, 2044) -/
def inBin (lb ub : Option Rat) (v : Rat) : Bool :=
  (match lb with | none => true | some l => decide (v > l)) && (match ub with | none => true | some u => decide (v ≤ u))

/-- `bin_number_of_entries(lowerbound, upperbound, ex0)` (salabim.py:1963-1990) -/
def Monitor.binEntries (m : Monitor) (now : Rat) (lb ub : Option Rat) (ex0 : Bool) : Except Err Nat :=
  if m.statsOnly then .error .notImplemented else
  if m.level then .error .type else .ok ((nums (m.xweight now ex0 true).1.1).countP (inBin lb ub))

/-- `sys_bin_weight(lowerbound, upperbound)`, i.e. `bin_weight` or `bin_duration` (salabim.py:1992-2044) -/
def Monitor.binWeight (m : Monitor) (now : Rat) (lb ub : Option Rat) : Rat :=
  let xw := (m.xweight now false true).1
  ((List.zip (nums xw.1) xw.2).filter (fun p => inBin lb ub p.1) |>.map (·.2)).sum

/-- `value_number_of_entries(values)` (salabim.py:2046-2077) -/
def Monitor.valueEntries (m : Monitor) (now : Rat) (vs : List Val) : Except Err Nat :=
  if m.statsOnly then .error .notImplemented else
  if m.level then .error .type else .ok ((m.xweight now false false).1.1.countP (fun v => vs.contains v))

/-- `sys_value_weight(values)`, i.e. `value_weight` or `value_duration` (salabim.py:2079-2138) -/
def Monitor.valueWeight (m : Monitor) (now : Rat) (vs : List Val) : Rat :=
  let xw := (m.xweight now false false).1
  ((xw.1.zip xw.2).filter (fun p => vs.contains p.1) |>.map (·.2)).sum

/-- the loop of `values()` that keeps the first of equal items (salabim.py:2729-2732) -/
def unique : List Val → List Val → List Val
  | acc, [] => acc
  | acc, v :: r => unique (if acc.contains v then acc else acc ++ [v]) r

/-- `values()` before it is sorted (salabim.py:2706-2732) -/
def Monitor.uniqueValues (m : Monitor) (now : Rat) (ex0 forceNumeric : Bool) : List Val := unique [] (m.xweight now ex0 forceNumeric).1.1

/-- the bins of a histogram: from -inf, steps of the bin width, to inf (salabim.py:2646-2654) -/
def histogramBins (lowerbound width : Rat) (n : Nat) : List (Option Rat × Option Rat) :=
  (none, some lowerbound) :: ((List.range n).map (fun i : Nat => (some (lowerbound + (i : Rat) * width), some (lowerbound + ((i : Rat) + 1) * width)))
    ++ [(some (lowerbound + (n : Rat) * width), none)])

/-- the bin widths that are tried (salabim.py:2354-2356) -/
def scales : List Rat := (List.range 10).flatMap (fun i => [10 ^ i, 10 ^ i * 2, 10 ^ i * 5])

/-- lowerbound and number of bins for a bin width (salabim.py:2357-2358) -/
def scaleFor (xmin xmax width : Rat) : Rat × Int :=
  let lb := (Rat.floor (xmin / width) : Rat) * width
  (lb, Rat.ceil ((xmax - lb) / width))

/-- the loop of `histogram_autoscale`: the first width with at most 30 bins, otherwise the last one (salabim.py:2353-2364) -/
def scaleLoop (xmin xmax : Rat) : List Rat → Rat × Rat × Int
  | [] => (1, 0, 0)
  | [w] => (w, scaleFor xmin xmax w)
  | w :: r => if (scaleFor xmin xmax w).2 ≤ 30 then (w, scaleFor xmin xmax w) else scaleLoop xmin xmax r

/-- `histogram_autoscale(ex0)`: bin width, lowerbound and number of bins (salabim.py:2330-2364) -/
def Monitor.autoscale (m : Monitor) (now : Rat) (ex0 : Bool) : Except Err (Rat × Rat × Int) :=
  if m.statsOnly then .error .notImplemented else
  if m.sysWeight now ex0 = 0 then .ok (1, 0, 0) else
  match m.minimum now ex0, m.maximum now ex0 with
  | some xmin, some xmax => .ok (scaleLoop xmin xmax scales)
  | _, _ => .error .value

/-! ## percentile -/

/-- interpolation methods -/
inductive Interp
  | linear | lower | higher | midpoint | nearest | other
  deriving DecidableEq, Repr

/-- values with their weights, sorted on the values, stable as `sorted` (salabim.py:1919) -/
def sortPairs (l : List (Rat × Rat)) : List (Rat × Rat) := l.insertionSort (fun a b => a.1 ≤ b.1)

/-- the first index from `k` (`n` indices to go) for which `p` holds, otherwise the last one tried (salabim.py:1928-1930) -/
def firstIdx (p : Nat → Bool) : Nat → Nat → Nat
  | _, 0 => 0
  | k, 1 => k
  | k, n + 2 => if p k then k else firstIdx p (k + 1) (n + 1)

/-- `weight_cum` of the first k+1 weights (salabim.py:1923-1927) -/
def cumAt (ws : List Rat) (sum : Rat) (k : Nat) : Rat := (ws.take (k + 1)).sum / sum

/-- `percentile` for 0 < q < 1 (as a fraction), weighted case (salabim.py:1922-1939) -/
def percentileW (it : Interp) (q : Rat) (xs ws : List Rat) : Option Rat :=
  let l := sortPairs (xs.zip ws)
  let x := l.map (·.1)
  let cum := cumAt (l.map (·.2)) ws.sum
  let k := firstIdx (fun k => decide (cum k ≥ q)) 0 x.length
  if cum k ≠ q then some (x.getD k 0) else
  match it with
  | .linear | .midpoint => some ((x.getD k 0 + x.getD (k + 1) 0) / 2)
  | .lower => some (x.getD k 0)
  | .higher => some (x.getD (k + 1) 0)
  | _ => none

/-- `percentile` for 0 < q < 1 (as a fraction), not weighted (salabim.py:1941-1961); the index is below n-1 because q < 1 -/
def percentileN (it : Interp) (q : Rat) (xs ws : List Rat) : Option Rat :=
  let x := (sortPairs (xs.zip ws)).map (·.1)
  let cum := fun k : Nat => (k : Rat) / ((x.length : Rat) - 1)
  let k := firstIdx (fun k => decide (cum (k + 1) > q)) 0 x.length
  match it with
  | .linear => Util.interpolate (some q) (some (cum k)) (some (cum (k + 1))) (some (x.getD k 0)) (some (x.getD (k + 1) 0))
  | .lower => some (x.getD k 0)
  | .higher => some (x.getD (k + 1) 0)
  | .midpoint => some ((x.getD k 0 + x.getD (k + 1) 0) / 2)
  | .nearest => if q - cum k ≤ cum (k + 1) - q then some (x.getD k 0) else some (x.getD (k + 1) 0)
  | .other => none

/-- `percentile` of given values and weights (salabim.py:1901-1961) -/
def percentileOf (weighted : Bool) (it : Interp) (q : Rat) (xs ws : List Rat) : Except Err (Option Rat) :=
  if it = .other ∨ (weighted ∧ it = .nearest) then .error .value else
  let q := max 0 (min q 100)
  if q = 0 then .ok (minOf xs) else
  if q = 100 then .ok (maxOf xs) else
  let q := q / 100
  match xs with
  | [a] => .ok (some a)
  | xs => if ws.sum = 0 then .ok none else
    .ok (if weighted then percentileW it q xs ws else percentileN it q xs ws)

/-- `percentile(q, ex0, interpolation)` (salabim.py:1844-1961) -/
def Monitor.percentile (m : Monitor) (now : Rat) (q : Rat) (ex0 : Bool) (it : Interp) : Except Err (Option Rat) :=
  if m.statsOnly then .error .notImplemented else
  let xw := (m.xweight now ex0 true).1
  percentileOf m.weight.truthy it q (nums xw.1) xw.2

/-! ## derived monitors -/

/-- a new monitor for the result of merge, slice, x_map, ... (`_SystemMonitor(...)`, salabim.py:3397-3400) -/
def system (level : Bool) (ty : XType) (now : Rat) : Monitor := (create level none ty false true now).1

/-- `new.monitor(False); new.isgenerated = True` (salabim.py:636-638) -/
def finish (m : Monitor) (now : Rat) : Monitor := { (m.setMonitor now (some false)).1 with generated := true }

/-- the order of the items in `heapq.merge`: on the moment, then on the index of the monitor (salabim.py:596, 712) -/
def leKey {α : Type} (a b : Rat × Nat × α) : Bool := decide (a.1 < b.1) || (decide (a.1 = b.1) && decide (a.2.1 ≤ b.2.1))

/-- the items of a list up to the place of a, a itself, and what k does with the rest -/
def insertRun {α : Type} (le : α → α → Bool) (a : α) (k : List α → List α) : List α → List α
  | [] => a :: k []
  | b :: r => if le a b then a :: k (b :: r) else b :: insertRun le a k r

/-- the merge of two lists; equal items of the first list first -/
def mergeTwo {α : Type} (le : α → α → Bool) : List α → List α → List α
  | [], r => r
  | a :: l, r => insertRun le a (mergeTwo le l) r

/-- this is the merge of the Lean library -/
theorem mergeTwo_eq {α : Type} (le : α → α → Bool) (l r : List α) : mergeTwo le l r = l.merge r le := by
  induction l generalizing r with
  | nil => simp [mergeTwo]
  | cons a l ih =>
    unfold mergeTwo
    induction r with
    | nil => simp [insertRun, ih]
    | cons b r ihr =>
      rw [List.cons_merge_cons, insertRun, ihr, ih]

/-- `heapq.merge` of sorted lists: the library function is taken as the merge of sorted lists -/
def mergeAll {α : Type} : List (List (Rat × Nat × α)) → List (Rat × Nat × α)
  | [] => []
  | l :: r => mergeTwo leKey l (mergeAll r)

/-- tag the tallies of each monitor with its index, from i on (salabim.py:596) -/
def tagged {α : Type} (i : Nat) : List (List (Rat × α)) → List (List (Rat × Nat × α))
  | [] => []
  | l :: r => (l.map (fun p => (p.1, i, p.2))) :: tagged (i + 1) r

/-- one round of the loop for level monitors: the current values, and the values and moments made so far (salabim.py:596-616, 712-724);
`f` gives the value for the current values -/
def levelRound (f : List Val → Val) (s : List Val × List Val × List Rat) (e : Rat × Nat × Val) : List Val × List Val × List Rat :=
  let cur := s.1.set e.2.1 e.2.2
  let v := f cur
  if s.2.2.getLast? = some e.1 then (cur, s.2.1.dropLast ++ [v], s.2.2) else (cur, s.2.1 ++ [v], s.2.2 ++ [e.1])

/-- the loop for level monitors (salabim.py:594-616, 710-724) -/
def levelLoop (f : List Val → Val) (off : Val) (ms : List (List (Rat × Val))) : List Val × List Rat :=
  let r := (mergeAll (tagged 0 ms)).foldl (levelRound f) (List.replicate ms.length off, [], [])
  (r.2.1, r.2.2)

/-- the sum of the current values, off if one of them is off (salabim.py:605-610); the values are numbers then -/
def sumOrOff (off : Val) (cur : List Val) : Val :=
  if cur.any (fun v => v == off) then off else .num (cur.map Val.toRat).sum

/-- the type of a merged monitor (salabim.py:562-575) -/
def mergedType (a : XType) (ms : List Monitor) : XType := if ms.all (fun m => m.xtype == a) then a else .any

/-- one round of the loop for non level monitors (salabim.py:619-635) -/
def plainRound (new : Monitor) (e : Rat × Nat × (Val × Rat)) : Monitor :=
  { new with weight := new.weight.push new.x.length e.2.2.2, t := new.t ++ [e.1], x := new.x ++ [e.2.2.1] }

/-- the weights of a non level monitor (salabim.py:622) -/
def Monitor.weights (m : Monitor) : List Rat :=
  match m.weight with
  | .list (w :: ws) => w :: ws
  | _ => List.replicate m.x.length 1

/-- the tallies of a level monitor, for merging: as they are if there is a typecode, otherwise made float (salabim.py:597-603) -/
def Monitor.points (m : Monitor) (coded : Bool) : List (Rat × Val) := m.t.zip (if coded then m.x else m.x.map Val.float)

/-- `merge(self, *monitors)` (salabim.py:527-638) -/
def merge (now : Rat) (m : Monitor) (ms : List Monitor) : Except Err Monitor :=
  if (m :: ms).any (·.statsOnly) then .error .notImplemented else
  if ms.any (fun k => k.level != m.level) then .error .type else
  let ty := mergedType m.xtype ms
  let new := system m.level ty now
  if m.level then
    let r := levelLoop (sumOrOff ty.off) ty.off ((m :: ms).map (fun k => k.points ty.coded))
    if r.1.any (fun v => !ty.accepts v) then .error .overflow else
    .ok (finish { new with x := r.1, t := r.2, start := r.2.headD 0 } now)
  else
    .ok (finish ((mergeAll (tagged 0 ((m :: ms).map (fun k => k.t.zip (k.x.zip k.weights))))).foldl plainRound new) now)

/-- the value of x_map: off if one of the current values is off (salabim.py:715-718) -/
def mapOrOff (f : List Val → Val) (cur : List Val) : Val := if cur.any (fun v => v == .ninf) then .ninf else f cur

/-- the values of a monitor in `x_map`, with the off of the new monitor (salabim.py:702-705) -/
def Monitor.anyValues (m : Monitor) : List Val := m.x.map (fun v => if v = m.off then .ninf else v)

/-- `x_map(func, monitors)` (salabim.py:664-742) -/
def xMap (now : Rat) (f : List Val → Val) (m : Monitor) (ms : List Monitor) : Except Err Monitor :=
  if ms.any (fun k => k.level != m.level) then .error .type else
  let new := system m.level .any now
  if m.level then
    let r := levelLoop (mapOrOff f) .ninf ((m :: ms).map (fun k => k.t.zip k.anyValues))
    .ok (finish { new with x := r.1, t := r.2, start := r.2.headD 0 } now)
  else
    .ok (finish { new with x := m.anyValues.map (fun v => if v = .ninf then .ninf else f [v]), t := m.t } now)

/-- `multiply(scale)` (salabim.py:1570-1607) -/
def multiply (now : Rat) (m : Monitor) (k : Rat) : Except Err Monitor :=
  if m.statsOnly then .error .notImplemented else
  if m.level then .error .value else
  if m.xtype = .float then
    .ok { (create false none .float false false now).1 with x := m.x.map (fun v => .num (v.toRat * k)), t := m.t, generated := true }
  else .error .value

/-- `t_multiply(factor)` (salabim.py:640-662) -/
def tMultiply (now : Rat) (m : Monitor) (k : Rat) : Except Err Monitor :=
  if !m.level then .error .type else
  if k ≤ 0 then .error .type else
  let new := { system true m.xtype now with x := m.x, t := m.t.map (· * k), start := m.start * k }
  let new := (new.setMonitor now (some false)).1
  .ok { new with t := new.t.dropLast ++ [new.t.getLastD 0 * k], generated := true }

/-! ## slice -/

/-- start ("a"), stop ("b" before, "z" after the tallies of the moment) and tally ("c") (salabim.py:830-858, 895) -/
inductive Act
  | start | stop | stopIncl | tally (x : Val) (w : Rat)
  deriving DecidableEq, Repr

/-- the place in the alphabet of "a", "b", "c", "z" -/
def Act.rank : Act → Nat
  | .start => 0 | .stop => 1 | .tally _ _ => 2 | .stopIncl => 3

/-- order of the actions and tallies in `heapq.merge` (salabim.py:895) -/
def leAct (a b : Rat × Act) : Bool := decide (a.1 < b.1) || (decide (a.1 = b.1) && decide (a.2.rank ≤ b.2.rank))

/-- the state of the loop for a level monitor: current value, enabled, values and moments made (salabim.py:866-870) -/
structure SliceSt where
  cur : Val
  enabled : Bool
  x : List Val
  t : List Rat
  deriving DecidableEq, Repr

/-- start or stop the slice of a level monitor: the value becomes v (salabim.py:899-906, 909-916). If the last value is the same one, its moment is moved. -/
def SliceSt.switch (s : SliceSt) (t : Rat) (v : Val) : SliceSt :=
  if s.t.getLast? = some t then { s with x := s.x.dropLast ++ [v] } else
  if s.x.getLast? = some v then { s with t := s.t.dropLast ++ [t] }
  else { s with t := s.t ++ [t], x := s.x ++ [v] }

/-- one round for a level monitor (salabim.py:896-928) -/
def sliceRound (off : Val) (s : SliceSt) (e : Rat × Act) : SliceSt :=
  match e.2 with
  | .start => { s.switch e.1 s.cur with enabled := true }
  | .stop | .stopIncl => { s.switch e.1 off with enabled := false }
  | .tally x _ =>
    if s.enabled && s.cur != x then { s.switch e.1 x with cur := x } else { s with cur := x }

/-- one round for a non level monitor, with enabled (salabim.py:929-944) -/
def plainSliceRound (s : Bool × Monitor) (e : Rat × Act) : Bool × Monitor :=
  match e.2 with
  | .start => (true, s.2)
  | .stop | .stopIncl => (false, s.2)
  | .tally x w =>
    if s.1 then (true, { s.2 with weight := s.2.weight.push s.2.x.length w, t := s.2.t ++ [e.1], x := s.2.x ++ [x] }) else s

/-- a modulo b for numbers, as in Python -/
def fmod (a b : Rat) : Rat := a - b * (a / b).floor

/-- the actions of the modulo case (salabim.py:855-858), at most `fuel` periods -/
def moduloActions (now len1 modulo : Rat) : Nat → Rat → List (Rat × Act)
  | 0, _ => []
  | f + 1, start1 =>
    if start1 < now then (start1, .start) :: (start1 + len1, .stop) :: moduloActions now len1 modulo f (start1 + modulo) else []

/-- the actions of a slice with start and stop (salabim.py:824-841); `offset` is that of the environment. Note that `start` is used without
the offset. -/
def plainActions (now offset start : Rat) (stop : Option Rat) : List (Rat × Act) :=
  [(start, .start), match stop with | none => (now - offset, .stopIncl) | some s => (min (s + offset) (now - offset), .stop)]

/-- the loop of `slice` for given actions (salabim.py:860-947) -/
def sliceWith (now : Rat) (m : Monitor) (actions : List (Rat × Act)) : Monitor :=
  let new := system m.level m.xtype now
  let items := mergeTwo leAct actions (m.t.zip (List.zipWith Act.tally m.x (if m.level then List.replicate m.x.length 1 else m.weights)))
  if m.level then
    let s := items.foldl (sliceRound m.off) { cur := m.off, enabled := false, x := [m.off], t := [m.start] }
    finish { new with x := s.x, t := s.t } now
  else finish (items.foldl plainSliceRound (false, new)).2 now

/-- `slice(start, stop, modulo)` (salabim.py:783-947). Without start and with tallies, None is compared with a number and TypeError raised. -/
def slice (fuel : Nat) (now offset : Rat) (m : Monitor) (start stop modulo : Option Rat) : Except Err Monitor :=
  if m.statsOnly then .error .notImplemented else
  match modulo with
  | none =>
    match start with
    | none => if m.x = [] then .ok (sliceWith now m []) else .error .type
    | some start => .ok (sliceWith now m (plainActions now offset start stop))
  | some modulo =>
    match start, stop with
    | some start, some stop =>
      if stop ≤ start then .error .value else
      if stop - start ≥ modulo then .error .value else
      match m.t with
      | [] => .error .index
      | t0 :: _ =>
        .ok (sliceWith now m (moduloActions now (fmod (fmod stop modulo - fmod start modulo) modulo) modulo fuel (t0 - fmod t0 modulo + fmod start modulo)))
    | _, _ => .error .type

/-! ## histories -/

/-- the operations on a monitor (`addNow` is what reading mean or std of a stats_only level monitor does, `read` reading a statistic) -/
inductive Op
  | tally (v : Val) (w : Rat) | monitor (b : Bool) | reset (monitor statsOnly : Option Bool) | read (ex0 forceNumeric : Bool) | addNow
  deriving DecidableEq, Repr

/-- do an operation at a moment; what raises is caught by the user -/
def Monitor.apply (m : Monitor) (e : Rat × Op) : Monitor :=
  match e.2 with
  | .tally v w => (m.doTally e.1 v w).1
  | .monitor b => (m.setMonitor e.1 (some b)).1
  | .reset b s => (m.reset e.1 b s).1
  | .read ex0 fn => if m.statsOnly then m else (m.xweight e.1 ex0 fn).2
  | .addNow => if m.statsOnly && m.level then m.tallyAddNow e.1 else m

/-- do a list of operations -/
def Monitor.run (m : Monitor) (l : List (Rat × Op)) : Monitor := l.foldl Monitor.apply m

/-! ## period monitors -/

/-- a monitor with one period monitor: the parent, the monitors per period, the current period (salabim.py:24497-24576) -/
structure Periods where
  parent : Monitor
  perperiod : List Monitor
  iperiod : Nat
  deriving DecidableEq, Repr

/-- `PeriodMonitor(parent, periods)` for n periods (salabim.py:24547-24576) -/
def periodsNew (now : Rat) (parent : Monitor) (n : Nat) : Periods :=
  { parent := parent, perperiod := List.replicate n (create parent.level none .any false false now).1, iperiod := 0 }

/-- change the monitor of period i -/
def Periods.on (p : Periods) (i : Nat) (f : Monitor → Monitor) : Periods := { p with perperiod := p.perperiod.modify i f }

/-- a round of the process of the period component: period i starts (salabim.py:24488-24494) -/
def Periods.begin (p : Periods) (now : Rat) (i : Nat) : Periods :=
  let p := p.on p.iperiod (fun m => (m.setMonitor now (some false)).1)
  let p := { p with iperiod := i }
  let p := if p.parent.level then p.on i (fun m => (m.doTally now p.parent.tally 1).1) else p
  p.on i (fun m => (m.setMonitor now (some true)).1)

/-- `tally` of the parent: `new_tally` (salabim.py:24523-24527) -/
def Periods.tally (p : Periods) (now : Rat) (v : Val) (w : Rat) : Periods :=
  let p := p.on p.iperiod (fun m => (m.doTally now v w).1)
  { p with parent := (p.parent.doTally now v w).1 }

/-- `reset` of the parent: `new_reset` (salabim.py:24529-24536) -/
def Periods.reset (p : Periods) (now : Rat) (monitor statsOnly : Option Bool) : Periods :=
  { p with perperiod := p.perperiod.map (fun m => (m.reset now none statsOnly).1), parent := (p.parent.reset now monitor statsOnly).1 }

/-- what happens to a monitor with a period monitor: a tally, or the start of the next period -/
inductive PEvent
  | tally (v : Val) (w : Rat) | next

/-- the state with the number of periods started so far: `itertools.cycle(enumerate(periods))` (salabim.py:24488) -/
def Periods.step (s : Periods × Nat) (e : Rat × PEvent) : Periods × Nat :=
  match e.2 with
  | .tally v w => (s.1.tally e.1 v w, s.2)
  | .next => (s.1.begin e.1 (s.2 % s.1.perperiod.length), s.2 + 1)

/-- a list of events -/
def Periods.run (s : Periods × Nat) (l : List (Rat × PEvent)) : Periods × Nat := l.foldl Periods.step s

/-- what the attribute `tally` or `org_tally` of the parent monitor is -/
inductive Method
  | original | patched
  deriving DecidableEq, Repr

/-- the methods of the parent monitor and the number of period monitors in its list (salabim.py:24562-24569) -/
structure Patched where
  tally : Method := .original
  orgTally : Method := .original
  periodMonitors : Nat := 0
  deriving DecidableEq, Repr

/-- making a period monitor of a monitor: the test is on the period monitor itself and thus always true (salabim.py:24562-24569) -/
def Patched.add (p : Patched) : Patched := { tally := .patched, orgTally := p.tally, periodMonitors := 1 }

/-- the number of tallies done by calling method `f` of the monitor: one for the original method; the patched method does one per period
monitor and then calls `org_tally` (salabim.py:24523-24527). `none` if the call is deeper than `fuel` levels (RecursionError) -/
def Patched.call (p : Patched) : Nat → Method → Option Nat
  | 0, _ => none
  | _ + 1, .original => some 1
  | f + 1, .patched => (p.call f p.orgTally).map (· + p.periodMonitors)

end Mon
end Verif
