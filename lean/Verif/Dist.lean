import Verif.Util

/-!
# Distributions and time units

A distribution is an object with a `sample` method, a `mean` method, possibly an attribute `_mean`, and the mark that it is a
Constant. Samples are drawn from a stream of numbers `r`, the results of successive calls of `random.random()`. The number `k` is
the number of random numbers used so far.

Left out: Poisson (in `Verif.Poisson`), Distribution (evaluates a string), numpy and scipy. Numbers are exact rationals. The generators of the Python
library other than random, uniform, randint and sample are parameters (`Lib`).
-/

namespace Verif
namespace Distr

/-- the successive results of `random.random()` -/
abbrev Stream := Nat → Rat

/-- a sampled value: a number, something that cannot be converted to a number, Python's None, or a distribution object -/
inductive Val
  | num (q : Rat) | other (n : Nat) | pyNone | obj
  deriving DecidableEq

/-- result of `mean()`: a number, nan, or an exception -/
inductive Mean
  | val (q : Rat) | nan | err
  deriving DecidableEq

/-- an object of class `_Distribution` (salabim.py:20818-20922) -/
structure Dist where
  /-- `sample()`; `none` if it raises -/
  draw : Stream → Nat → Option Val × Nat
  /-- `mean()` -/
  mean : Mean
  /-- the attribute `_mean`, if there is one -/
  attr : Option Mean
  /-- `isinstance(self, Constant)` -/
  isConstant : Bool

/-! ## time units -/

/-- names of the time units (salabim.py:24874-24884); n/a is left out, see `EnvUnit` -/
inductive TUnit
  | years | weeks | days | hours | minutes | seconds | milliseconds | microseconds
  deriving DecidableEq

/-- `_time_unit_lookup` (salabim.py:24873-24888) -/
def lookup : TUnit → Rat
  | .years => 1 / (86400 * 365)
  | .weeks => 1 / (86400 * 7)
  | .days => 1 / 86400
  | .hours => 1 / 3600
  | .minutes => 1 / 60
  | .seconds => 1
  | .milliseconds => 1000
  | .microseconds => 1000000

/-- the attribute `env._time_unit`; `none` if the time unit of the environment is "n/a" -/
def envUnit : Option TUnit → Option Rat
  | none => none
  | some u => some (lookup u)

/-- `_time_unit_factor` (salabim.py:24891-24899); `e` is `env._time_unit`, `none` as result is an exception -/
def factor (unit : Option TUnit) (e : Option Rat) : Option Rat :=
  match unit, e with
  | none, _ => some 1
  | some _, none => none
  | some u, some e => some (e / lookup u)

/-- `env.years(t)` ... `env.microseconds(t)` (salabim.py:14298-14456) -/
def fromUnit (u : TUnit) (t : Rat) (e : Option Rat) : Option Rat :=
  match e with
  | none => none
  | some e =>
    match u with
    | .years => some (t * 86400 * 365 * e)
    | .weeks => some (t * 86400 * 7 * e)
    | .days => some (t * 86400 * e)
    | .hours => some (t * 3600 * e)
    | .minutes => some (t * 60 * e)
    | .seconds => some (t * e)
    | .milliseconds => some (t * (1 / 1000) * e)
    | .microseconds => some (t * (1 / 1000000) * e)

/-- `env.to_time_unit(time_unit, t)` (salabim.py:14458-14481), also `to_years` ... `to_microseconds` (salabim.py:14483-14617) -/
def toUnit (u : TUnit) (t : Rat) (e : Option Rat) : Option Rat :=
  match e with
  | none => none
  | some e => some (t * lookup u / e)

/-! ## generators of the Python library -/

/-- a generator of numbers -/
abbrev Gen := Stream → Nat → Rat × Nat

/-- functions of the modules random and math that are not modelled -/
structure Lib where
  expovariate : Rat → Gen
  normalvariate : Rat → Rat → Gen
  gauss : Rat → Rat → Gen
  triangular : Rat → Rat → Rat → Gen
  weibullvariate : Rat → Rat → Gen
  gammavariate : Rat → Rat → Gen
  betavariate : Rat → Rat → Gen
  gammaFn : Rat → Rat
  pow : Rat → Rat → Option Rat

/-- `random.uniform(a, b)`, CPython: a + (b - a) * random() -/
def rUniform (a b : Rat) : Gen := fun s k => (a + (b - a) * s k, k + 1)
/-- a number below `n`, as chosen by `random._randbelow`: here the integer part of n * random() -/
def below (n : Nat) (r : Rat) : Nat := (r * n).floor.toNat
/-- `random.randint(a, b)` -/
def rRandint (a b : Int) : Gen := fun s k => ((a : Rat) + (below (b - a + 1).toNat (s k) : Nat), k + 1)

/-- a distribution whose samples are those of a library generator times the time unit factor, and whose mean is scaled likewise -/
def scaled (g : Gen) (mean f : Rat) : Dist :=
  ⟨fun s k => let (q, k') := g s k; (some (.num (q * f)), k'), .val (mean * f), some (.val mean), false⟩

/-! ## the simple distributions -/

/-- Exponential (salabim.py:21235-21309) -/
def exponential (L : Lib) (mean rate : Option Rat) (f : Rat) : Option Dist :=
  match mean, rate with
  | none, none => none
  | none, some rate => if rate ≤ 0 then none else some (scaled (L.expovariate (1 / (1 / rate))) (1 / rate) f)
  | some mean, none => if mean ≤ 0 then none else some (scaled (L.expovariate (1 / mean)) mean f)
  | some _, some _ => none

/-- Normal (salabim.py:21367-21452) -/
def normal (L : Lib) (mean : Rat) (sd cv : Option Rat) (useGauss : Bool) (f : Rat) : Option Dist :=
  let sd : Option Rat :=
    match sd, cv with
    | none, none => some 0
    | none, some cv => if mean = 0 then none else some (cv * mean)
    | some sd, none => some sd
    | some _, some _ => none
  match sd with
  | none => none
  | some sd => if sd < 0 then none else some (scaled (if useGauss then L.gauss mean sd else L.normalvariate mean sd) mean f)

/-- IntUniform (salabim.py:21500-21569), bounds that are integers -/
def intUniform (lo : Int) (hi : Option Int) (f : Rat) : Option Dist :=
  let hi := hi.getD lo
  if lo > hi then none else some (scaled (rRandint lo hi) ((lo + hi : Rat) / 2) f)

/-- Uniform (salabim.py:21604-21669) -/
def uniform (lo : Rat) (hi : Option Rat) (f : Rat) : Option Dist :=
  let hi := hi.getD lo
  if lo > hi then none else some (scaled (rUniform lo hi) ((lo + hi) / 2) f)

/-- Triangular (salabim.py:21711-21785) -/
def triangular (L : Lib) (low : Rat) (high mode : Option Rat) (f : Rat) : Option Dist :=
  let high := high.getD low
  let mode := mode.getD ((high + low) / 2)
  if low > high then none else if low > mode then none else if high < mode then none else
  some (scaled (L.triangular low high mode) ((low + mode + high) / 3) f)

/-- Constant (salabim.py:21821-21874) -/
def constant (value f : Rat) : Dist :=
  ⟨fun _ k => (some (.num (value * f)), k), .val (value * f * f), some (.val (value * f)), true⟩

/-- Weibull (salabim.py:22018-22079) -/
def weibull (L : Lib) (scale shape f : Rat) : Option Dist :=
  if shape ≤ 0 then none else some (scaled (L.weibullvariate scale shape) (scale * L.gammaFn (1 / shape + 1)) f)

/-- Gamma (salabim.py:22122-22202) -/
def gamma (L : Lib) (shape : Rat) (scale rate : Option Rat) (f : Rat) : Option Dist :=
  if shape ≤ 0 then none else
  match rate, scale with
  | none, none => none
  | none, some scale => if scale ≤ 0 then none else some (scaled (L.gammavariate shape scale) (shape * scale) f)
  | some rate, none => if rate ≤ 0 then none else some (scaled (L.gammavariate shape (1 / rate)) (shape * (1 / rate)) f)
  | some _, some _ => none

/-- Beta (salabim.py:22230-22289), no time unit -/
def beta (L : Lib) (alpha beta : Rat) : Option Dist :=
  if alpha ≤ 0 then none else if beta ≤ 0 then none else some (scaled (L.betavariate alpha beta) (alpha / (alpha + beta)) 1)

/-- Erlang (salabim.py:22335-22417); samples and mean are divided by the time unit factor -/
def erlang (L : Lib) (shape : Nat) (rate scale : Option Rat) (f : Rat) : Option Dist :=
  if shape = 0 then none else
  let rate : Option Rat :=
    match rate, scale with
    | none, none => none
    | none, some scale => if scale ≤ 0 then none else some (1 / scale)
    | some rate, none => if rate ≤ 0 then none else some rate
    | some _, some _ => none
  match rate with
  | none => none
  | some rate =>
    some ⟨fun s k => let (q, k') := L.gammavariate shape (1 / rate) s k; (some (.num (q / f)), k'),
      .val (shape / rate / f), some (.val (shape / rate)), false⟩

/-! ## Cdf -/

/-- `x < lastx` (salabim.py:22484), `none` is -inf -/
def ltLast (x : Rat) : Option Rat → Bool
  | none => false
  | some lx => decide (x < lx)

/-- the loop over the specification (salabim.py:22480-22492): points, and the last cumulative value. `lastx = none` is -inf -/
def cdfRead (f : Rat) : List Rat → Option Rat → Rat → Option (List (Rat × Rat) × Rat)
  | [], _, lastcum => some ([], lastcum)
  | [_], _, _ => none
  | x :: cum :: rest, lastx, lastcum =>
    if ltLast (x * f) lastx then none else
    if cum < lastcum then none else
    match cdfRead f rest (some (x * f)) cum with
    | none => none
    | some (l, c) => some ((x * f, cum) :: l, c)

/-- `_x` and `_cum` after the constructor of Cdf (salabim.py:22473-22495) -/
def cdfPoints (f : Rat) (spec : List Rat) : Option (List (Rat × Rat)) :=
  if spec = [] then none else
  if spec[1]? ≠ some 0 then none else
  match cdfRead f spec none 0 with
  | none => none
  | some (l, lastcum) => if lastcum = 0 then none else some (l.map fun p => (p.1, p.2 / lastcum))

/-- `_mean` of a Cdf (salabim.py:22496-22498) -/
def cdfMean (l : List (Rat × Rat)) : Rat :=
  (List.range (l.length - 1)).foldl (fun m i =>
    m + (((l.getD i (0, 0)).1 + (l.getD (i + 1) (0, 0)).1) / 2) * ((l.getD (i + 1) (0, 0)).2 - (l.getD i (0, 0)).2)) 0

/-- `Cdf.sample` for the random number `r` (salabim.py:22533-22537); index -1 is the last one -/
def cdfAt (l : List (Rat × Rat)) (r : Rat) : Rat :=
  match (List.range l.length).find? (fun i => decide (r < (l.getD i (0, 0)).2)) with
  | some i =>
    let a := l.getD (if i = 0 then l.length - 1 else i - 1) (0, 0)
    let b := l.getD i (0, 0)
    (Util.interpolate (some r) (some a.2) (some b.2) (some a.1) (some b.1)).getD 0
  | none => (l.getD (l.length - 1) (0, 0)).1

/-- Cdf (salabim.py:22463-22545) -/
def cdf (spec : List Rat) (f : Rat) : Option Dist :=
  match cdfPoints f spec with
  | none => none
  | some l => some ⟨fun s k => (some (.num (cdfAt l (s k))), k + 1), .val (cdfMean l), some (.val (cdfMean l)), false⟩

/-! ## Pdf, CumPdf -/

/-- a value in the specification of a Pdf -/
inductive Item
  | val (v : Val) | dist (d : Dist)

/-- `spec[::2]` and `spec[1::2]` of pairs -/
def unzipFlat {α β : Type} : List (α × β) → List α × List β
  | [] => ([], [])
  | (a, b) :: l => (a :: (unzipFlat l).1, b :: (unzipFlat l).2)

/-- the ways to specify values and probabilities (salabim.py:22624-22642) -/
inductive PSpec
  /-- x0, p0, x1, p1, ... or a dict -/
  | pairs (l : List (Item × Rat))
  /-- x0, p0, x1, p1, ..., xn: an odd number of values -/
  | odd (l : List (Item × Rat)) (x : Item)
  /-- values and probabilities -/
  | lists (xs : List Item) (ps : List Rat)
  /-- values and one number -/
  | equal (xs : List Item)

/-- values and probabilities (salabim.py:22624-22642); `none` for an exception -/
def PSpec.read : PSpec → Option (List Item × List Rat)
  | .pairs l => if l = [] then none else some (unzipFlat l)
  | .odd _ _ => none
  | .lists xs ps => if xs.length ≠ ps.length then none else some (xs, ps)
  | .equal xs => some (xs, List.replicate xs.length 1)

/-- a value in its time unit (salabim.py:22647-22653); `f = none`: no time unit was given -/
def Item.scale (f : Option Rat) (x : Item) : Option Item :=
  match f with
  | none => some x
  | some f =>
    match x with
    | .val (.num q) => some (.val (.num (q * f)))
    | _ => none

/-- the number that represents a value in the mean (salabim.py:22658-22663); `none` for an AttributeError, `nan` also for hasmean = False -/
def Item.forMean : Item → Option Mean
  | .val (.num q) => some (.val q)
  | .val _ => some .nan
  | .dist d => d.attr

/-- sumxp + x * p -/
def addMean (m : Mean) (x : Mean) (p : Rat) : Mean :=
  match m, x with
  | .val m, .val x => .val (m + x * p)
  | .err, _ | _, .err => .err
  | _, _ => .nan

/-- the loop over values and probabilities (salabim.py:22646-22663): `_x`, `_cum`, sump, sumxp -/
def pdfRead (f : Option Rat) : List (Item × Rat) → Rat → Mean → Option (List (Item × Rat) × Rat × Mean)
  | [], sump, sumxp => some ([], sump, sumxp)
  | (x, p) :: rest, sump, sumxp =>
    match x.scale f with
    | none => none
    | some x =>
      match x.forMean with
      | none => none
      | some m =>
        match pdfRead f rest (sump + p) (addMean sumxp m p) with
        | none => none
        | some (l, t) => some ((x, sump + p) :: l, t)

/-- a Pdf after its constructor -/
structure PdfObj where
  /-- `_x` with `_cum` -/
  pts : List (Item × Rat)
  supportsN : Bool
  mean : Mean

/-- mean (salabim.py:22669-22672) -/
def meanDiv (m : Mean) (s : Rat) : Mean :=
  match m with
  | .val q => .val (q / s)
  | m => m

/-- constructor of Pdf (salabim.py:22611-22672) -/
def pdfNew (spec : PSpec) (f : Option Rat) : Option PdfObj :=
  match spec.read with
  | none => none
  | some (xs, ps) =>
    match pdfRead f (xs.zip ps) 0 (.val 0) with
    | none => none
    | some (l, sump, sumxp) =>
      if sump = 0 then none else some ⟨l.map fun c => (c.1, c.2 / sump), ps.drop 1 = ps.dropLast, meanDiv sumxp sump⟩

/-- `x.sample() if isinstance(x, _Distribution) else x` -/
def Item.sample (x : Item) (s : Stream) (k : Nat) : Option Val × Nat :=
  match x with
  | .val v => (some v, k)
  | .dist d => d.draw s k

/-- `x` itself, as a value -/
def Item.asIs : Item → Val
  | .val v => v
  | .dist _ => .obj

/-- the loop over `zip([0] + self._cum, [0] + self._x)` (salabim.py:22734-22738, 23050-23054): the chosen value -/
def pick (r : Rat) : List (Item × Rat) → Item
  | [] => .val .pyNone
  | (x, cum) :: rest => if r ≤ cum then x else pick r rest

/-- `Pdf.sample()` without n (salabim.py:22722-22738); `random.sample(_x, 1)[0]` takes one at random -/
def PdfObj.sample1 (o : PdfObj) (s : Stream) (k : Nat) : Option Val × Nat :=
  if o.supportsN then
    match o.pts[below o.pts.length (s k)]? with
    | some p => (some p.1.asIs, k + 1)
    | none => (none, k + 1)
  else (pick (s k) ((.val (.num 0), 0) :: o.pts)).sample s (k + 1)

/-- `random.sample(population, n)` of CPython, with the pool algorithm: take one at random, put the last one of the pool at its place -/
def rSample {α : Type} : Nat → List α → Stream → Nat → List α × Nat
  | 0, _, _, k => ([], k)
  | n + 1, pool, s, k =>
    let j := below pool.length (s k)
    match pool[j]?, pool.getLast? with
    | some x, some y =>
      let (l, k') := rSample n ((pool.set j y).dropLast) s (k + 1)
      (x :: l, k')
    | _, _ => ([], k)

/-- sample each (salabim.py:22730) -/
def sampleAll : List Item → Stream → Nat → Option (List Val) × Nat
  | [], _, k => (some [], k)
  | x :: l, s, k =>
    match x.sample s k with
    | (none, k) => (none, k)
    | (some v, k) =>
      match sampleAll l s k with
      | (none, k) => (none, k)
      | (some vs, k) => (some (v :: vs), k)

/-- `Pdf.sample(n)` (salabim.py:22722-22740) -/
def PdfObj.sampleN (o : PdfObj) (n : Int) (s : Stream) (k : Nat) : Option (List Val) × Nat :=
  if o.supportsN then
    if n < 0 then (none, k) else
    let (xs, k) := rSample (min n.toNat o.pts.length) (o.pts.map Prod.fst) s k
    sampleAll xs s k
  else (none, k)

/-- the Pdf as a distribution (salabim.py:22548-22750, Pmf 22753-22892) -/
def PdfObj.toDist (o : PdfObj) : Dist := ⟨o.sample1, o.mean, some o.mean, false⟩

/-- Pdf -/
def pdf (spec : PSpec) (f : Option Rat) : Option Dist := (pdfNew spec f).map PdfObj.toDist

/-- the loop of CumPdf (salabim.py:22986-23005) -/
def cumRead (f : Option Rat) : List (Item × Rat) → Rat → Mean → Option (List (Item × Rat) × Rat × Mean)
  | [], sump, sumxp => some ([], sump, sumxp)
  | (x, c) :: rest, sump, sumxp =>
    match x.scale f with
    | none => none
    | some x =>
      let p := c - sump
      if p < 0 then none else
      match x.forMean with
      | none => none
      | some m =>
        match cumRead f rest (sump + p) (addMean sumxp m p) with
        | none => none
        | some (l, t) => some ((x, sump + p) :: l, t)

/-- constructor of CumPdf (salabim.py:22954-23014, CumPmf 23067); `spec` as values with cumulative probabilities -/
def cumNew (spec : List (Item × Rat)) (f : Option Rat) : Option PdfObj :=
  if spec = [] then none else
  match cumRead f spec 0 (.val 0) with
  | none => none
  | some (l, sump, sumxp) => if sump = 0 then none else some ⟨l.map fun c => (c.1, c.2 / sump), false, meanDiv sumxp sump⟩

/-- CumPdf (salabim.py:22895-23064); its `sample` (salabim.py:23049-23054) is that of Pdf with unequal probabilities -/
def cumPdf (spec : List (Item × Rat)) (f : Option Rat) : Option Dist := (cumNew spec f).map PdfObj.toDist

/-! ## Bounded -/

/-- `float(sample)`, `none` if that raises -/
def Val.toNum : Val → Option Rat
  | .num q => some q
  | _ => none

/-- lowerbound_op and upperbound_op (salabim.py:21139-21140, 21153); no bound is -inf, respectively inf -/
def within (lower upper : Option Rat) (incl inclU : Bool) (q : Rat) : Bool :=
  (match lower with
   | none => true
   | some l => if incl then decide (q ≥ l) else decide (q > l)) &&
  (match upper with
   | none => true
   | some u => if inclU then decide (q ≤ u) else decide (q < u))

/-- the loop of `Bounded.sample` (salabim.py:21146-21156) -/
def boundedLoop (d : Dist) (ok : Rat → Bool) (fail : Val) : Nat → Stream → Nat → Option Val × Nat
  | 0, _, k => (some fail, k)
  | n + 1, s, k =>
    match d.draw s k with
    | (none, k) => (none, k)
    | (some v, k) =>
      match v.toNum with
      | none => (some v, k)
      | some q => if ok q then (some v, k) else boundedLoop d ok fail n s k

/-- `lowerbound > upperbound` (salabim.py:21130) -/
def crossed : Option Rat → Option Rat → Bool
  | some l, some u => decide (l > u)
  | _, _ => false

/-- the default fail value (salabim.py:21134): upperbound (inf, not a rational, if there is none) if lowerbound is -inf, else lowerbound -/
def defaultFail : Option Rat → Option Rat → Val
  | some l, _ => .num l
  | none, some u => .num u
  | none, none => .other 0

/-- Bounded (salabim.py:21114-21167). Simplified: an infinite bound can only be given by omitting it -/
def bounded (d : Dist) (lower upper : Option Rat) (fail : Option Val) (retries : Option Nat) (inclL inclU : Bool) (f : Rat) : Option Dist :=
  let lower := lower.map (· * f)
  let upper := upper.map (· * f)
  if crossed lower upper then none else
  let fail : Val := fail.getD (defaultFail lower upper)
  let unlimited := lower.isNone && upper.isNone
  some ⟨fun s k => if unlimited then d.draw s k else boundedLoop d (within lower upper inclL inclU) fail (retries.getD 100) s k,
    if unlimited then d.mean else .nan, none, false⟩

/-- `bounded_sample` (salabim.py:20821-20873) -/
def boundedSample (d : Dist) (lower upper : Option Rat) (fail : Option Val) (retries : Option Nat) (inclL inclU : Bool) (s : Stream) (k : Nat) :
    Option Val × Nat :=
  match bounded d lower upper fail retries inclL inclU 1 with
  | none => (none, k)
  | some b => b.draw s k

/-! ## expressions -/

/-- the operators -/
inductive BinOp
  | add | sub | mul | truediv | floordiv | pow
  deriving DecidableEq

/-- the operator applied to two numbers; `none` for an exception -/
def BinOp.num (L : Lib) (op : BinOp) (a b : Rat) : Option Rat :=
  match op with
  | .add => some (a + b)
  | .sub => some (a - b)
  | .mul => some (a * b)
  | .truediv => if b = 0 then none else some (a / b)
  | .floordiv => if b = 0 then none else some (a / b).floor
  | .pow => L.pow a b

/-- the operator applied to two values. Simplified: an exception unless both are numbers -/
def BinOp.apply (L : Lib) (op : BinOp) (a b : Val) : Option Val :=
  match a, b with
  | .num a, .num b => (op.num L a b).map .num
  | _, _ => none

/-- an operand: a number or a distribution -/
inductive Operand
  | num (q : Rat) | dist (d : Dist)

/-- the operand as stored by the constructor of `_Expression` (salabim.py:20937-20944) -/
def Operand.store (x : Operand) : Operand :=
  match x with
  | .num q => .num q
  | .dist d =>
    if d.isConstant then
      match d.attr with
      | some (.val q) => .num q
      | _ => .dist d
    else .dist d

/-- value of an operand (salabim.py:20953-20960) -/
def Operand.sample (x : Operand) (s : Stream) (k : Nat) : Option Val × Nat :=
  match x with
  | .num q => (some (.num q), k)
  | .dist d => d.draw s k

/-- mean of an operand (salabim.py:20970-20977) -/
def Operand.mean : Operand → Mean
  | .num q => .val q
  | .dist d => d.mean

/-- isinstance(x, _Distribution) -/
def Operand.isDist : Operand → Bool
  | .num _ => false
  | .dist _ => true

/-- arithmetic with nan -/
def lift2 (g : Rat → Rat → Mean) (a b : Mean) : Mean :=
  match a, b with
  | .err, _ | _, .err => .err
  | .val a, .val b => g a b
  | _, _ => .nan

/-- `_Expression.mean` (salabim.py:20979-21001) -/
def exprMean (op : BinOp) (a b : Operand) : Mean :=
  match op with
  | .add => lift2 (fun x y => .val (x + y)) a.mean b.mean
  | .sub => lift2 (fun x y => .val (x - y)) a.mean b.mean
  | .mul => if a.isDist && b.isDist then lift2 (fun _ _ => .nan) a.mean b.mean else lift2 (fun x y => .val (x * y)) a.mean b.mean
  | .truediv => if b.isDist then lift2 (fun _ _ => .nan) a.mean b.mean
                else lift2 (fun x y => if y = 0 then .err else .val (x / y)) a.mean b.mean
  | .floordiv => lift2 (fun _ _ => .nan) a.mean b.mean
  | .pow => lift2 (fun _ _ => .nan) a.mean b.mean

/-- `_Expression(dis0, dis1, op)` (salabim.py:20925-21001). It has no attribute `_mean` -/
def expr (L : Lib) (a b : Operand) (op : BinOp) : Dist :=
  let a := a.store
  let b := b.store
  ⟨fun s k =>
    match a.sample s k with
    | (none, k) => (none, k)
    | (some v0, k) =>
      match b.sample s k with
      | (none, k) => (none, k)
      | (some v1, k) => (op.apply L v0 v1, k),
   exprMean op a b, none, false⟩

/-- `+d` (salabim.py:20878-20879) -/
def pos (L : Lib) (d : Dist) : Dist := expr L (.dist d) (.num 0) .add
/-- `-d` (salabim.py:20881-20882) -/
def neg (L : Lib) (d : Dist) : Dist := expr L (.num 0) (.dist d) .sub

/-- `a op b` where at least one is a distribution (`__add__`, `__radd__`, ..., salabim.py:20884-20918). For two numbers: Python's own operator -/
def binary (L : Lib) (op : BinOp) (a b : Operand) : Operand ⊕ Option Rat :=
  match a, b with
  | .num x, .num y => .inr (op.num L x y)
  | a, b => .inl (.dist (expr L a b op))

/-- Map(dis, function) (salabim.py:21031-21056); `fn` gives `none` if it raises -/
def map (d : Dist) (fn : Val → Option Val) : Dist :=
  ⟨fun s k => match d.draw s k with | (none, k) => (none, k) | (some v, k) => (fn v, k), .nan, none, false⟩

end Distr
end Verif
