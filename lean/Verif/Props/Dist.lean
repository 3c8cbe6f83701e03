import Verif.Dist
import Verif.Props.Util

/-!
# Claims about distributions and time units (C37 - C41)
-/

namespace Verif
namespace Distr

/-! ## C41: time units -/

/-- length of a time unit in seconds -/
def secs : TUnit → Rat
  | .years => 31536000
  | .weeks => 604800
  | .days => 86400
  | .hours => 3600
  | .minutes => 60
  | .seconds => 1
  | .milliseconds => 1 / 1000
  | .microseconds => 1 / 1000000

theorem secs_pos (u : TUnit) : 0 < secs u := by cases u <;> simp [secs]

theorem lookup_eq (u : TUnit) : lookup u = 1 / secs u := by cases u <;> norm_num [lookup, secs]

/-- C41: in an environment with time unit `v`, a time of `t` units `u` is `t * (length of u) / (length of v)`, and the other way round -/
theorem C41_meaning (u v : TUnit) (t : Rat) :
    fromUnit u t (envUnit (some v)) = some (t * secs u / secs v) ∧
    toUnit u t (envUnit (some v)) = some (t * secs v / secs u) ∧
    factor (some u) (envUnit (some v)) = some (secs u / secs v) := by
  have h1 := (secs_pos u).ne'
  have h2 := (secs_pos v).ne'
  refine ⟨?_, ?_, ?_⟩
  · simp only [fromUnit, envUnit, lookup_eq]
    cases u <;> simp only [secs, Option.some.injEq] <;> ring
  · simp only [toUnit, envUnit, lookup_eq, Option.some.injEq]; field_simp
  · simp only [factor, envUnit, lookup_eq, Option.some.injEq]; field_simp

/-- C41: to a unit and back (in either order) is the identity -/
theorem C41_round_trip (u v : TUnit) (t : Rat) :
    ((fromUnit u t (envUnit (some v))).bind fun x => toUnit u x (envUnit (some v))) = some t ∧
    ((toUnit u t (envUnit (some v))).bind fun x => fromUnit u x (envUnit (some v))) = some t := by
  have h1 := (secs_pos u).ne'
  have h2 := (secs_pos v).ne'
  constructor
  · rw [(C41_meaning u v t).1, Option.bind_some, (C41_meaning u v _).2.1]
    congr 1; field_simp
  · rw [(C41_meaning u v t).2.1, Option.bind_some, (C41_meaning u v _).1]
    congr 1; field_simp

/-- C41: converting from unit `u` to unit `w` does not depend on the unit of the environment, and going via a third unit `x` makes no difference -/
theorem C41_via (u w x v v' : TUnit) (t : Rat) :
    ((fromUnit u t (envUnit (some v))).bind fun y => toUnit w y (envUnit (some v))) =
      ((fromUnit u t (envUnit (some v'))).bind fun y => toUnit w y (envUnit (some v'))) ∧
    ((fromUnit u t (envUnit (some v))).bind fun y => toUnit w y (envUnit (some v))) =
      ((((fromUnit u t (envUnit (some v))).bind fun y => toUnit x y (envUnit (some v))).bind
        fun y => fromUnit x y (envUnit (some v'))).bind fun y => toUnit w y (envUnit (some v'))) := by
  have h1 := (secs_pos u).ne'
  have h2 := (secs_pos v).ne'
  have h3 := (secs_pos v').ne'
  have h4 := (secs_pos w).ne'
  have h5 := (secs_pos x).ne'
  constructor
  · rw [(C41_meaning u v t).1, (C41_meaning u v' t).1, Option.bind_some, Option.bind_some, (C41_meaning w v _).2.1, (C41_meaning w v' _).2.1]
    congr 1; field_simp
  · rw [(C41_meaning u v t).1, Option.bind_some, Option.bind_some, (C41_meaning w v _).2.1, (C41_meaning x v _).2.1, Option.bind_some,
      (C41_meaning x v' _).1, Option.bind_some, (C41_meaning w v' _).2.1]
    congr 1; field_simp

/-- C41: without a time unit in the environment all conversions are refused, and time unit arguments too -/
theorem C41_no_unit (u : TUnit) (t : Rat) :
    fromUnit u t (envUnit none) = none ∧ toUnit u t (envUnit none) = none ∧ factor (some u) (envUnit none) = none ∧
    factor none (envUnit none) = some 1 := ⟨rfl, rfl, rfl, rfl⟩

/-- 1.5 hours in an environment with minutes; a week in years -/
example : fromUnit .hours (3 / 2) (envUnit (some .minutes)) = some 90 := by decide +kernel
example : toUnit .days 36 (envUnit (some .hours)) = some (3 / 2) := by decide +kernel

/-- a value in another scale -/
def Val.times (f : Rat) : Val → Val
  | .num q => .num (q * f)
  | v => v
/-- a mean in another scale -/
def Mean.times (f : Rat) : Mean → Mean
  | .val q => .val (q * f)
  | m => m

/-- `d'` is `d`, with samples and mean multiplied by `f`; it uses the same random numbers -/
def IsScaled (f : Rat) (d d' : Dist) : Prop :=
  (∀ s k, d'.draw s k = (((d.draw s k).1.map (Val.times f)), (d.draw s k).2)) ∧ d'.mean = d.mean.times f

/-- a way to make distributions, as function of the time unit factor, obeys the time unit: the same arguments are accepted, and samples
and mean are multiplied by the factor -/
def Scales (mk : Rat → Option Dist) : Prop :=
  ∀ f, 0 < f → match mk 1, mk f with
    | some d, some d' => IsScaled f d d'
    | none, none => True
    | _, _ => False

theorem isScaled_scaled (g : Gen) (m f : Rat) : IsScaled f (scaled g m 1) (scaled g m f) := by
  refine ⟨fun s k => ?_, ?_⟩
  · simp [scaled, Val.times]
  · simp [scaled, Mean.times]

/-- C41: a distribution specified in a time unit has samples and mean multiplied by the time unit factor. (Not so for Constant and Erlang,
see the counterexamples; for Cdf, Pdf, CumPdf see `C41_cdf`, `C41_pdf`, `C41_cumpdf`) -/
theorem C41_scaling_partial (L : Lib) :
    (∀ mean rate, Scales (exponential L mean rate)) ∧
    (∀ mean sd cv g, Scales (normal L mean sd cv g)) ∧
    (∀ lo hi, Scales (intUniform lo hi)) ∧
    (∀ lo hi, Scales (uniform lo hi)) ∧
    (∀ low high mode, Scales (triangular L low high mode)) ∧
    (∀ scale shape, Scales (weibull L scale shape)) ∧
    (∀ shape scale rate, Scales (gamma L shape scale rate)) := by
  refine ⟨?_, ?_, ?_, ?_, ?_, ?_, ?_⟩
  · intro mean rate f hf
    rcases mean with _ | mean <;> rcases rate with _ | rate <;> simp only [exponential]
    · by_cases h : rate ≤ 0 <;> simp [h, isScaled_scaled]
    · by_cases h : mean ≤ 0 <;> simp [h, isScaled_scaled]
  · intro mean sd cv g f hf
    rcases sd with _ | sd <;> rcases cv with _ | cv <;> simp only [normal]
    · simp [isScaled_scaled]
    · by_cases h : mean = 0
      · simp [h]
      · by_cases h2 : cv * mean < 0 <;> simp [h, h2, isScaled_scaled]
    · by_cases h : sd < 0 <;> simp [h, isScaled_scaled]
  · intro lo hi f hf
    simp only [intUniform]
    by_cases h : lo > hi.getD lo <;> simp [h, isScaled_scaled]
  · intro lo hi f hf
    simp only [uniform]
    by_cases h : lo > hi.getD lo <;> simp [h, isScaled_scaled]
  · intro low high mode f hf
    simp only [triangular]
    generalize high.getD low = high
    generalize mode.getD ((high + low) / 2) = mode
    by_cases h : low > high <;> by_cases h2 : low > mode <;> by_cases h3 : high < mode <;> simp [h, h2, h3, isScaled_scaled]
  · intro scale shape f hf
    simp only [weibull]
    by_cases h : shape ≤ 0 <;> simp [h, isScaled_scaled]
  · intro shape scale rate f hf
    simp only [gamma]
    by_cases h : shape ≤ 0
    · simp [h]
    · rcases rate with _ | rate <;> rcases scale with _ | scale <;> simp only [h, if_false]
      · by_cases h : scale ≤ 0 <;> simp [h, isScaled_scaled]
      · by_cases h : rate ≤ 0 <;> simp [h, isScaled_scaled]

/-- C41 is false for Constant: its mean is multiplied by the factor twice. Two minutes in an environment with seconds: samples are 120,
but mean() is 7200 -/
theorem C41_constant_counterexample :
    factor (some .minutes) (envUnit (some .seconds)) = some 60 ∧
    (∀ s k, (constant 2 60).draw s k = (some (.num 120), k)) ∧ (constant 2 60).mean = .val 7200 := by
  refine ⟨by decide +kernel, fun s k => ?_, by decide +kernel⟩
  simp only [constant]; norm_num

/-- C41 is false for Erlang: samples and mean are divided by the factor. A mean of 2 minutes in an environment with seconds is 1/30 -/
theorem C41_erlang_counterexample (L : Lib) (f : Rat) (h : factor (some .minutes) (envUnit (some .seconds)) = some f) :
    (erlang L 2 (some 1) none f).map (·.mean) = some (.val (1 / 30)) ∧ (erlang L 2 (some 1) none 1).map (·.mean) = some (.val 2) := by
  have : f = 60 := by
    have h' : factor (some .minutes) (envUnit (some .seconds)) = some 60 := by decide +kernel
    rw [h'] at h; simpa using h.symm
  subst this
  constructor <;> simp [erlang] <;> norm_num

/-- what does hold for a Constant: the samples are in the right unit -/
theorem C41_constant_sample (value f : Rat) (s : Stream) (k : Nat) :
    (constant value f).draw s k = (((constant value 1).draw s k).1.map (Val.times f), k) := by
  simp [constant, Val.times]

/-! ## C39: bounded samples -/

/-- the `j`-th sample drawn from `d` when drawing starts after `k` random numbers, and the number of random numbers used then -/
def nth (d : Dist) (s : Stream) (k : Nat) : Nat → Option Val × Nat
  | 0 => d.draw s k
  | j + 1 => d.draw s (nth d s k j).2

/-- number of random numbers used when `j` samples have been drawn -/
def used (d : Dist) (s : Stream) (k : Nat) : Nat → Nat
  | 0 => k
  | j + 1 => (nth d s k j).2

theorem nth_eq (d : Dist) (s : Stream) (k j : Nat) : nth d s k j = d.draw s (used d s k j) := by cases j <;> rfl

theorem nth_shift (d : Dist) (s : Stream) (k j : Nat) : nth d s k (j + 1) = nth d s (d.draw s k).2 j := by
  induction j with
  | zero => rfl
  | succ j ih => rw [nth, ih]; rfl

theorem used_shift (d : Dist) (s : Stream) (k j : Nat) : used d s k (j + 1) = used d s (d.draw s k).2 j := by
  cases j with
  | zero => rfl
  | succ j => rw [used, nth_shift]; rfl

/-- `q` respects the bounds: not below the lower one, not above the upper one, and not equal to one that is to be excluded -/
def Respects (lower upper : Option Rat) (inclL inclU : Bool) (q : Rat) : Prop :=
  (∀ l, lower = some l → l ≤ q ∧ (inclL = false → l ≠ q)) ∧ (∀ u, upper = some u → q ≤ u ∧ (inclU = false → u ≠ q))

theorem within_iff (lower upper : Option Rat) (inclL inclU : Bool) (q : Rat) :
    within lower upper inclL inclU q = true ↔ Respects lower upper inclL inclU q := by
  unfold within Respects
  rw [Bool.and_eq_true]
  refine and_congr ?_ ?_
  · rcases lower with _ | l
    · simp
    · cases inclL <;> simp [lt_iff_le_and_ne]
  · rcases upper with _ | u
    · simp
    · cases inclU <;> simp [lt_iff_le_and_ne, ne_comm]

/-- a sample that the loop rejects: a number that does not respect the bounds -/
def Rejected (P : Rat → Prop) (x : Option Val) : Prop := ∃ q, x = some (.num q) ∧ ¬ P q

/-- how a bounded sample comes about: `j` samples are drawn, at most `n`. Either the last one drawn is returned (all the others being rejected, this
one being no number or a number within the bounds, or an exception), or all `n` are rejected and the fail value is returned -/
def Outcome (d : Dist) (P : Rat → Prop) (fail : Val) (n : Nat) (s : Stream) (k : Nat) (res : Option Val × Nat) : Prop :=
  (∃ j, j < n ∧ (∀ i, i < j → Rejected P (nth d s k i).1) ∧ ¬ Rejected P (nth d s k j).1 ∧ res = ((nth d s k j).1, used d s k (j + 1))) ∨
  ((∀ i, i < n → Rejected P (nth d s k i).1) ∧ res = (some fail, used d s k n))

theorem boundedLoop_outcome (d : Dist) (ok : Rat → Bool) (P : Rat → Prop) (hok : ∀ q, ok q = true ↔ P q) (fail : Val) (n : Nat) (s : Stream) (k : Nat) :
    Outcome d P fail n s k (boundedLoop d ok fail n s k) := by
  induction n generalizing k with
  | zero => exact Or.inr ⟨by simp, rfl⟩
  | succ n ih =>
    have hnth0 : nth d s k 0 = d.draw s k := rfl
    unfold boundedLoop
    rcases hd : d.draw s k with ⟨_ | v, k'⟩
    · left
      refine ⟨0, by omega, by simp, ?_, ?_⟩
      · rw [hnth0, hd]; rintro ⟨q, hq, _⟩; simp at hq
      · simp [used, hnth0, hd]
    · simp only
      cases v with
      | num q =>
        simp only [Val.toNum]
        by_cases hq : ok q = true
        · left
          refine ⟨0, by omega, by simp, ?_, ?_⟩
          · rw [hnth0, hd]; rintro ⟨q', hq', hn⟩
            simp only [Option.some.injEq, Val.num.injEq] at hq'
            subst hq'; exact hn ((hok q).1 hq)
          · simp [used, hnth0, hd, hq]
        · rw [if_neg hq]
          have hrej : Rejected P (nth d s k 0).1 := by
            rw [hnth0, hd]; exact ⟨q, rfl, fun h => hq ((hok q).2 h)⟩
          have hk : (d.draw s k).2 = k' := by rw [hd]
          rcases ih k' with ⟨j, hj, hr, hnr, he⟩ | ⟨hr, he⟩
          · left
            refine ⟨j + 1, by omega, ?_, ?_, ?_⟩
            · intro i hi
              cases i with
              | zero => exact hrej
              | succ i => rw [nth_shift, hk]; exact hr i (by omega)
            · rw [nth_shift, hk]; exact hnr
            · rw [he, nth_shift, used_shift d s k (j + 1), hk]
          · right
            refine ⟨?_, ?_⟩
            · intro i hi
              cases i with
              | zero => exact hrej
              | succ i => rw [nth_shift, hk]; exact hr i (by omega)
            · rw [he, used_shift, hk]
      | _ =>
        left
        refine ⟨0, by omega, by simp, ?_, ?_⟩
        · rw [hnth0, hd]; rintro ⟨q, hq, _⟩; simp at hq
        · simp [used, hnth0, hd, Val.toNum]

/-- the fail value: the given one, or else the lower bound if there is one, or else the upper bound -/
def failValue (lower upper : Option Rat) (fail : Option Val) (v : Val) : Prop :=
  match fail, lower, upper with
  | some w, _, _ => v = w
  | none, some l, _ => v = .num l
  | none, none, some u => v = .num u
  | none, none, none => False

/-- C39: what a bounded distribution returns. If there is a bound, the number of samples drawn is at most the number of retries (default 100);
the result is the first acceptable one, or, if none is acceptable, the fail value. Without bounds it is just a sample -/
theorem C39_outcome {d b : Dist} {lower upper : Option Rat} {fail : Option Val} {retries : Option Nat} {inclL inclU : Bool} {f : Rat}
    (h : bounded d lower upper fail retries inclL inclU f = some b) (s : Stream) (k : Nat) :
    (lower = none → upper = none → b.draw s k = d.draw s k) ∧
    (lower ≠ none ∨ upper ≠ none → ∃ v, failValue (lower.map (· * f)) (upper.map (· * f)) fail v ∧
      Outcome d (Respects (lower.map (· * f)) (upper.map (· * f)) inclL inclU) v (retries.getD 100) s k (b.draw s k)) := by
  unfold bounded at h
  simp only at h
  split at h
  · simp at h
  · simp only [Option.some.injEq] at h
    subst h
    refine ⟨?_, ?_⟩
    · rintro rfl rfl; simp
    · intro hne
      have hu : ((lower.map (· * f)).isNone && (upper.map (· * f)).isNone) = false := by
        rcases lower with _ | l <;> rcases upper with _ | u <;> simp at hne ⊢
      refine ⟨fail.getD (defaultFail (lower.map (· * f)) (upper.map (· * f))), ?_, ?_⟩
      · rcases fail with _ | w <;> rcases lower with _ | l <;> rcases upper with _ | u <;> simp [failValue, defaultFail] at hne ⊢
      · simp only [hu]
        exact boundedLoop_outcome d _ _ (within_iff _ _ _ _) _ _ s k

/-- C39: a number that is returned respects the bounds, unless it is the fail value after the full number of tries; the number of samples drawn
never exceeds the number of retries -/
theorem C39_respects {d b : Dist} {lower upper : Option Rat} {fail : Option Val} {retries : Option Nat} {inclL inclU : Bool} {f : Rat}
    (h : bounded d lower upper fail retries inclL inclU f = some b) (s : Stream) (k : Nat) (hne : lower ≠ none ∨ upper ≠ none) :
    ∃ j, j ≤ retries.getD 100 ∧ (b.draw s k).2 = used d s k j ∧
      ∀ q, (b.draw s k).1 = some (.num q) →
        Respects (lower.map (· * f)) (upper.map (· * f)) inclL inclU q ∨
        (j = retries.getD 100 ∧ failValue (lower.map (· * f)) (upper.map (· * f)) fail (.num q)) := by
  obtain ⟨v, hv, ⟨j, hj, _, hn, he⟩ | ⟨_, he⟩⟩ := (C39_outcome h s k).2 hne
  · refine ⟨j + 1, hj, by rw [he], fun q hq => Or.inl ?_⟩
    by_contra hr
    rw [he] at hq
    exact hn ⟨q, hq, hr⟩
  · refine ⟨_, le_rfl, by rw [he], fun q hq => Or.inr ⟨rfl, ?_⟩⟩
    rw [he] at hq
    simp only [Option.some.injEq] at hq
    rwa [← hq]

/-- C39: bounds that cross each other are refused, all others accepted (the factor of a time unit is positive) -/
theorem C39_crossed {d : Dist} {lower upper : Option Rat} {fail : Option Val} {retries : Option Nat} {inclL inclU : Bool} {f : Rat} (hf : 0 < f) :
    bounded d lower upper fail retries inclL inclU f = none ↔ ∃ l u, lower = some l ∧ upper = some u ∧ u < l := by
  unfold bounded crossed
  rcases lower with _ | l <;> rcases upper with _ | u <;> simp [mul_lt_mul_iff_left₀ hf]

/-- C39: with included bounds (and a default fail value) every number that is returned respects the bounds -/
theorem C39_default_fail {d b : Dist} {lower upper : Option Rat} {retries : Option Nat} {f : Rat} (hf : 0 < f)
    (h : bounded d lower upper none retries true true f = some b) (s : Stream) (k : Nat) (hne : lower ≠ none ∨ upper ≠ none)
    (q : Rat) (hq : (b.draw s k).1 = some (.num q)) : Respects (lower.map (· * f)) (upper.map (· * f)) true true q := by
  have hc : ¬ ∃ l u, lower = some l ∧ upper = some u ∧ u < l := by
    rw [← C39_crossed (d := d) (fail := none) (retries := retries) (inclL := true) (inclU := true) hf, h]; simp
  obtain ⟨j, _, _, hr⟩ := C39_respects h s k hne
  rcases hr q hq with hr | ⟨_, hr⟩
  · exact hr
  · rcases lower with _ | l <;> rcases upper with _ | u <;> simp [failValue] at hr hne
    · subst hr; simp [Respects]
    · subst hr; simp [Respects]
    · subst hr
      simp [Respects]
      simp at hc
      exact mul_le_mul_of_nonneg_right hc hf.le

/-- C39: `bounded_sample` is a sample of the bounded distribution -/
theorem C39_bounded_sample (d : Dist) (lower upper : Option Rat) (fail : Option Val) (retries : Option Nat) (inclL inclU : Bool) (s : Stream) (k : Nat) :
    boundedSample d lower upper fail retries inclL inclU s k =
      match bounded d lower upper fail retries inclL inclU 1 with
      | none => (none, k)
      | some b => b.draw s k := rfl

/-- 0.9, 0.1, 0.5 are drawn from Uniform(0, 10), the bounds 2 and 8 accept the third one; with two tries the lower bound is returned -/
example : ((uniform 0 (some 10) 1).bind fun d => (boundedSample d (some 2) (some 8) none none true true (fun k => [9 / 10, 1 / 10, 1 / 2].getD k 0) 0).1)
    = some (.num 5) := by decide +kernel
example : ((uniform 0 (some 10) 1).bind fun d => (boundedSample d (some 2) (some 8) none (some 2) true true (fun k => [9 / 10, 1 / 10, 1 / 2].getD k 0) 0).1)
    = some (.num 2) := by decide +kernel

/-! ## C40: arithmetic with distributions -/

/-- an expression as written by the user -/
inductive Tree
  | num (q : Rat)
  | dist (d : Dist)
  | pos (t : Tree)
  | neg (t : Tree)
  | bin (op : BinOp) (a b : Tree)

/-- evaluation by Python with the methods of `_Distribution`; numbers are combined by Python itself. `none` for an exception -/
def Tree.build (L : Lib) : Tree → Option Operand
  | .num q => some (.num q)
  | .dist d => some (.dist d)
  | .pos t => match t.build L with
    | none => none
    | some (.num q) => some (.num q)
    | some (.dist d) => some (.dist (Distr.pos L d))
  | .neg t => match t.build L with
    | none => none
    | some (.num q) => some (.num (-q))
    | some (.dist d) => some (.dist (Distr.neg L d))
  | .bin op a b => match a.build L, b.build L with
    | some x, some y => match binary L op x y with
      | .inl o => some o
      | .inr (some q) => some (.num q)
      | .inr none => none
    | _, _ => none

/-- what a sample of the expression should be: take samples of the distributions from left to right and calculate -/
def Tree.value (L : Lib) : Tree → Stream → Nat → Option Val × Nat
  | .num q, _, k => (some (.num q), k)
  | .dist d, s, k => d.draw s k
  | .pos t, s, k => match t.value L s k with
    | (some (.num q), k) => (some (.num q), k)
    | (_, k) => (none, k)
  | .neg t, s, k => match t.value L s k with
    | (some (.num q), k) => (some (.num (-q)), k)
    | (_, k) => (none, k)
  | .bin op a b, s, k => match a.value L s k with
    | (none, k) => (none, k)
    | (some x, k) => match b.value L s k with
      | (none, k) => (none, k)
      | (some y, k) => match x, y with
        | .num x, .num y => ((op.num L x y).map .num, k)
        | _, _ => (none, k)

/-- a distribution object: a Constant has its sample as attribute `_mean` -/
def Proper (d : Dist) : Prop := d.isConstant = true → ∃ q, d.attr = some (.val q) ∧ ∀ s k, d.draw s k = (some (.num q), k)

theorem proper_constant (v f : Rat) : Proper (constant v f) := fun _ => ⟨_, rfl, fun _ _ => rfl⟩
theorem proper_of {d : Dist} (h : d.isConstant = false) : Proper d := fun h' => by rw [h] at h'; cases h'

/-- all distributions in the expression are proper -/
def Tree.Proper : Tree → Prop
  | .num _ => True
  | .dist d => Distr.Proper d
  | .pos t => t.Proper
  | .neg t => t.Proper
  | .bin _ a b => a.Proper ∧ b.Proper

/-- proper operand -/
def Operand.Proper : Operand → Prop
  | .num _ => True
  | .dist d => Distr.Proper d

theorem sample_store {x : Operand} (h : x.Proper) (s : Stream) (k : Nat) : x.store.sample s k = x.sample s k := by
  cases x with
  | num q => rfl
  | dist d =>
    unfold Operand.store
    cases hc : d.isConstant with
    | false => simp [hc]
    | true =>
      obtain ⟨q, hq, hd⟩ := h hc
      simp [hq, hc, Operand.sample, hd]

theorem expr_draw (L : Lib) {a b : Operand} (ha : a.Proper) (hb : b.Proper) (op : BinOp) (s : Stream) (k : Nat) :
    (expr L a b op).draw s k = match a.sample s k with
      | (none, k) => (none, k)
      | (some x, k) => match b.sample s k with
        | (none, k) => (none, k)
        | (some y, k) => match x, y with
          | .num x, .num y => ((op.num L x y).map .num, k)
          | _, _ => (none, k) := by
  simp only [expr, sample_store ha, sample_store hb]
  rcases a.sample s k with ⟨_ | x, k1⟩ <;> simp only
  rcases b.sample s k1 with ⟨_ | y, k2⟩ <;> simp only
  cases x <;> cases y <;> rfl

theorem build_spec (L : Lib) (t : Tree) (ht : t.Proper) {x : Operand} (h : t.build L = some x) :
    x.Proper ∧ ∀ s k, x.sample s k = t.value L s k := by
  induction t generalizing x with
  | num q => simp only [Tree.build, Option.some.injEq] at h; subst h; exact ⟨trivial, fun _ _ => rfl⟩
  | dist d => simp only [Tree.build, Option.some.injEq] at h; subst h; exact ⟨ht, fun _ _ => rfl⟩
  | pos t ih =>
    unfold Tree.build at h
    split at h
    · cases h
    · rename_i q hq
      cases h
      refine ⟨trivial, fun s k => ?_⟩
      rw [Tree.value, ← (ih ht hq).2]; rfl
    · rename_i d hd
      cases h
      refine ⟨proper_of rfl, fun s k => ?_⟩
      rw [Tree.value, ← (ih ht hd).2, Operand.sample, Distr.pos, expr_draw L (ih ht hd).1 (by trivial)]
      rcases Operand.sample (.dist d) s k with ⟨_ | v, k'⟩ <;> simp only [Operand.sample]
      cases v <;> simp [BinOp.num]
  | neg t ih =>
    unfold Tree.build at h
    split at h
    · cases h
    · rename_i q hq
      cases h
      refine ⟨trivial, fun s k => ?_⟩
      rw [Tree.value, ← (ih ht hq).2]; rfl
    · rename_i d hd
      cases h
      refine ⟨proper_of rfl, fun s k => ?_⟩
      rw [Tree.value, ← (ih ht hd).2, Operand.sample, Distr.neg, expr_draw L (by trivial) (ih ht hd).1]
      simp only [Operand.sample]
      rcases d.draw s k with ⟨_ | v, k'⟩ <;> simp only
      cases v <;> simp [BinOp.num]
  | bin op a b iha ihb =>
    unfold Tree.build at h
    split at h
    · rename_i x' y' hx hy
      obtain ⟨px, hx⟩ := iha ht.1 hx
      obtain ⟨py, hy⟩ := ihb ht.2 hy
      unfold binary at h
      split at h
      · rename_i o ho
        split at ho
        · cases ho
        · cases ho
          cases h
          refine ⟨proper_of rfl, fun s k => ?_⟩
          rw [Operand.sample, expr_draw L px py, Tree.value, hx]
          rcases Tree.value L a s k with ⟨_ | v, k'⟩ <;> simp only
          rw [hy]
      · rename_i q ho
        cases h
        refine ⟨trivial, fun s k => ?_⟩
        split at ho
        · rw [Tree.value, ← hx]
          simp only [Operand.sample, ← hy]
          simp only [Sum.inr.injEq] at ho
          rw [ho]; rfl
        · cases ho
      · cases h
    · cases h

/-- C40: sampling an expression takes samples of its distributions from left to right and applies the operators to them. Any tree of operators,
numbers and distributions (constants included) -/
theorem C40_sample (L : Lib) (t : Tree) (ht : t.Proper) {d : Dist} (h : t.build L = some (.dist d)) (s : Stream) (k : Nat) :
    d.draw s k = t.value L s k := (build_spec L t ht h).2 s k

/-- C40: means. A distribution `d` that is no Constant and has a mean combined with a number, or with another such distribution -/
theorem C40_mean (L : Lib) {d e : Dist} {m n : Rat} (hd : d.isConstant = false) (hm : d.mean = .val m) (he : e.isConstant = false) (hn : e.mean = .val n) (c : Rat) :
    (expr L (.dist d) (.num c) .add).mean = .val (m + c) ∧ (expr L (.num c) (.dist d) .add).mean = .val (c + m) ∧
    (expr L (.dist d) (.num c) .sub).mean = .val (m - c) ∧ (expr L (.num c) (.dist d) .sub).mean = .val (c - m) ∧
    (expr L (.dist d) (.num c) .mul).mean = .val (m * c) ∧ (expr L (.num c) (.dist d) .mul).mean = .val (c * m) ∧
    (c ≠ 0 → (expr L (.dist d) (.num c) .truediv).mean = .val (m / c)) ∧
    (Distr.pos L d).mean = .val m ∧ (Distr.neg L d).mean = .val (-m) ∧
    (expr L (.dist d) (.dist e) .add).mean = .val (m + n) ∧ (expr L (.dist d) (.dist e) .sub).mean = .val (m - n) := by
  rcases d with ⟨_, dm, _, _⟩
  rcases e with ⟨_, em, _, _⟩
  simp only at hd hm he hn
  subst hd hm he hn
  simp only [Distr.pos, Distr.neg, expr, Operand.store, exprMean, Operand.mean, Operand.isDist, lift2]
  simp

/-- C40: a Constant in an expression counts with its value (in the right time unit), although its own mean() is not (`C41_constant_counterexample`) -/
theorem C40_constant (L : Lib) (v f : Rat) (x : Operand) (op : BinOp) :
    expr L (.dist (constant v f)) x op = expr L (.num (v * f)) x op ∧ expr L x (.dist (constant v f)) op = expr L x (.num (v * f)) op := by
  constructor <;> simp [expr, Operand.store, constant]

/-- C40: the mean of a product or quotient of two distributions, and of // and **, is not given -/
theorem C40_no_mean (L : Lib) {d e : Dist} {m n : Rat} (hd : d.isConstant = false) (hm : d.mean = .val m) (he : e.isConstant = false) (hn : e.mean = .val n) :
    (expr L (.dist d) (.dist e) .mul).mean = .nan ∧ (expr L (.dist d) (.dist e) .truediv).mean = .nan ∧
    (expr L (.dist d) (.dist e) .floordiv).mean = .nan ∧ (expr L (.dist d) (.dist e) .pow).mean = .nan := by
  rcases d with ⟨_, dm, _, _⟩
  rcases e with ⟨_, em, _, _⟩
  simp only at hd hm he hn
  subst hd hm he hn
  simp [expr, Operand.store, exprMean, Operand.mean, Operand.isDist, lift2]

/-- C40: what the operators do with two numbers: `/` gives the quotient, `//` the largest integer that isn't larger; both raise if the second is 0 -/
theorem C40_operators (L : Lib) (x y : Rat) :
    BinOp.add.num L x y = some (x + y) ∧ BinOp.sub.num L x y = some (x - y) ∧ BinOp.mul.num L x y = some (x * y) ∧
    (y = 0 → BinOp.truediv.num L x y = none ∧ BinOp.floordiv.num L x y = none) ∧
    (y ≠ 0 → ∃ z, BinOp.truediv.num L x y = some z ∧ z * y = x ∧
      ∃ n : Int, BinOp.floordiv.num L x y = some (n : Rat) ∧ ∀ m : Int, m ≤ n ↔ (m : Rat) ≤ z) ∧
    BinOp.pow.num L x y = L.pow x y := by
  refine ⟨rfl, rfl, rfl, fun h => by simp [BinOp.num, h], fun h => ⟨x / y, by simp [BinOp.num, h], div_mul_cancel₀ x h, (x / y).floor, by simp [BinOp.num, h], fun m => ?_⟩, rfl⟩
  exact Rat.le_floor_iff

/-- -7 // 2 is -4 -/
example (L : Lib) : BinOp.floordiv.num L (-7) 2 = some (-4) := by
  simp only [BinOp.num]
  decide +kernel

/-- an expression without divisions and powers of numbers -/
def Tree.Plain : Tree → Prop
  | .num _ | .dist _ => True
  | .pos t | .neg t => t.Plain
  | .bin op a b => (op = .add ∨ op = .sub ∨ op = .mul) ∧ a.Plain ∧ b.Plain

/-- C40: an expression of sums, differences and products can always be made, and so can any operator with a distribution on at least one side -/
theorem C40_makes (L : Lib) :
    (∀ t : Tree, t.Plain → ∃ o, t.build L = some o) ∧
    ∀ (op : BinOp) (a b : Tree) (x y : Operand), a.build L = some x → b.build L = some y → (x.isDist = true ∨ y.isDist = true) →
      ∃ o, (Tree.bin op a b).build L = some o ∧ o.isDist = true := by
  constructor
  · intro t
    induction t with
    | num q => exact fun _ => ⟨_, rfl⟩
    | dist d => exact fun _ => ⟨_, rfl⟩
    | pos t ih =>
      intro h
      obtain ⟨o, ho⟩ := ih h
      cases o <;> exact ⟨_, by simp [Tree.build, ho]; rfl⟩
    | neg t ih =>
      intro h
      obtain ⟨o, ho⟩ := ih h
      cases o <;> exact ⟨_, by simp [Tree.build, ho]; rfl⟩
    | bin op a b iha ihb =>
      rintro ⟨hop, ha, hb⟩
      obtain ⟨x, hx⟩ := iha ha
      obtain ⟨y, hy⟩ := ihb hb
      rcases hop with rfl | rfl | rfl <;> cases x <;> cases y <;> simp [Tree.build, hx, hy, binary, BinOp.num]
  · intro op a b x y hx hy h
    cases x <;> cases y <;> simp_all [Tree.build, binary, Operand.isDist]

/-- C40: a sample of Map is the function of a sample, taken with the same random numbers; its mean can't be calculated -/
theorem C40_map (d : Dist) (fn : Val → Option Val) (s : Stream) (k : Nat) :
    (∀ v k', d.draw s k = (some v, k') → (map d fn).draw s k = (fn v, k')) ∧
    (∀ k', d.draw s k = (none, k') → (map d fn).draw s k = (none, k')) ∧ (map d fn).mean = .nan :=
  ⟨fun _ _ h => by simp [map, h], fun _ h => by simp [map, h], rfl⟩

/-- Map(Uniform(0, 10), lambda x: x * x) with the random number 0.5 -/
example : (uniform 0 (some 10) 1).map (fun d => ((map d fun v => match v with | .num q => some (.num (q * q)) | _ => none).draw (fun _ => 1 / 2) 0).1) =
    some (some (.num 25)) := by
  simp [uniform, map, scaled, rUniform]
  norm_num

/-- 3 - (Uniform(0, 10) + Constant(2)) * 4 with the random number 0.5 -/
example (L : Lib) : (((uniform 0 (some 10) 1).bind fun d =>
    (Tree.bin .sub (.num 3) (.bin .mul (.bin .add (.dist d) (.dist (constant 2 1))) (.num 4))).build L).map fun o =>
      ((o.sample (fun _ => 1 / 2) 0).1, o.mean)) = some (some (.num (-25)), .val (-25)) := by
  simp [uniform, Tree.build, binary, Operand.sample, expr, Operand.store, scaled, constant, rUniform, BinOp.apply, BinOp.num, Operand.mean, exprMean, Operand.isDist, lift2]
  norm_num

end Distr
end Verif
