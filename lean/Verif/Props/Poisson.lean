import Verif.Poisson
import Mathlib.Probability.Distributions.Poisson.Basic
import Mathlib.Probability.Independence.InfinitePi
import Mathlib.MeasureTheory.Integral.IntervalIntegral.FundThmCalculus
import Mathlib.Analysis.SpecialFunctions.Log.Deriv
import Mathlib.Analysis.Complex.ExponentialBounds

/-!
# Poisson (C92)
-/

namespace Verif
namespace Poisson
open MeasureTheory ProbabilityTheory Set
open scoped NNReal Nat

/-! ## the probabilities -/

/-- probability of `k` -/
noncomputable def p (lam : ℝ) (k : Nat) : ℝ := Real.exp (-lam) * lam ^ k / k !

/-- probability of at most `k` -/
noncomputable def cum (lam : ℝ) (k : Nat) : ℝ := ∑ j ∈ Finset.range (k + 1), p lam j

variable {lam : ℝ}

theorem p_pos (h : 0 < lam) (k : Nat) : 0 < p lam k := by unfold p; positivity

theorem p_succ (k : Nat) : p lam (k + 1) = p lam k * (lam / (k + 1 : Nat)) := by
  unfold p
  rw [Nat.factorial_succ]
  push_cast
  have : ((k ! : Nat) : ℝ) ≠ 0 := by positivity
  rw [pow_succ]
  field_simp

theorem cum_succ (k : Nat) : cum lam (k + 1) = cum lam k + p lam (k + 1) := by
  unfold cum
  rw [Finset.sum_range_succ _ (k + 1)]

theorem cum_zero : cum lam 0 = p lam 0 := by simp [cum]

theorem cum_lt (h : 0 < lam) (k : Nat) : cum lam k < cum lam (k + 1) := by
  rw [cum_succ]; linarith [p_pos h (k + 1)]

theorem cum_mono (h : 0 < lam) : StrictMono (cum lam) := strictMono_nat_of_lt_succ (cum_lt h)

theorem hasSum_p (h : 0 < lam) : HasSum (p lam) 1 := by
  have := hasSum_one_poissonMeasure lam.toNNReal
  rwa [Real.coe_toNNReal lam h.le] at this

theorem cum_lt_one (h : 0 < lam) (k : Nat) : cum lam k < 1 := by
  refine lt_of_lt_of_le (cum_lt h k) ?_
  exact sum_le_hasSum _ (fun i _ => (p_pos h i).le) (hasSum_p h)

theorem cum_pos (h : 0 < lam) (k : Nat) : 0 < cum lam k :=
  Finset.sum_pos (fun i _ => p_pos h i) ⟨0, by simp⟩

theorem exceeds (h : 0 < lam) {u : ℝ} (hu : u < 1) : ∃ k, u ≤ cum lam k := by
  have ht := (hasSum_p h).tendsto_sum_nat
  obtain ⟨k, hk⟩ := ((ht.eventually (lt_mem_nhds hu)).and (Filter.eventually_ge_atTop 1)).exists
  obtain ⟨m, rfl⟩ : ∃ m, k = m + 1 := ⟨k - 1, by omega⟩
  exact ⟨m, hk.1.le⟩

/-! ## the loop -/

theorem loop_run (h : 0 < lam) {u : ℝ} {other : Out} {K : Nat} (hK : u ≤ cum lam K) (hK2 : ∀ j < K, cum lam j < u) :
    ∀ (d k f : Nat) (last : Option ℝ), k + d = K → d < f → (∀ x, last = some x → x = cum lam k) →
      loop lam u other f k (p lam k) (cum lam k) last = .value K := by
  intro d
  induction d with
  | zero =>
    intro k f last hk hf _
    obtain ⟨f, rfl⟩ : ∃ g, f = g + 1 := ⟨f - 1, by omega⟩
    have : k = K := by omega
    subst this
    unfold loop
    rw [if_neg (by linarith)]
  | succ d ih =>
    intro k f last hk hf hl
    obtain ⟨f, rfl⟩ : ∃ g, f = g + 1 := ⟨f - 1, by omega⟩
    unfold loop
    rw [if_pos (hK2 k (by omega)), ← p_succ, ← cum_succ, if_neg, ih (k + 1) f _ (by omega) (by omega) (by intro x hx; exact (Option.some.inj hx).symm)]
    intro e
    have := hl _ e
    exact absurd this (cum_lt h k).ne'

/-! ## what is drawn -/

open Classical in
/-- the least number whose cumulative probability isn't less than `u` -/
noncomputable def drawn (lam u : ℝ) : Nat := if h : ∃ k, u ≤ cum lam k then Nat.find h else 0

theorem drawn_spec (h : 0 < lam) {u : ℝ} (hu : u < 1) : u ≤ cum lam (drawn lam u) ∧ ∀ j < drawn lam u, cum lam j < u := by
  classical
  have e := exceeds h hu
  unfold drawn
  rw [dif_pos e]
  exact ⟨Nat.find_spec e, fun j hj => not_le.1 (Nat.find_min e hj)⟩

theorem drawn_iff (h : 0 < lam) {u : ℝ} (hu : u < 1) (k : Nat) : drawn lam u = k ↔ u ≤ cum lam k ∧ ∀ j < k, cum lam j < u := by
  obtain ⟨h1, h2⟩ := drawn_spec h hu
  constructor
  · rintro rfl; exact ⟨h1, h2⟩
  · rintro ⟨k1, k2⟩
    rcases lt_trichotomy (drawn lam u) k with e | e | e
    · exact absurd h1 (not_le.2 (k2 _ e))
    · exact e
    · exact absurd k1 (not_le.2 (h2 _ e))

theorem drawn_big (h : 0 < lam) {u : ℝ} (hu : 1 ≤ u) : drawn lam u = 0 := by
  unfold drawn
  rw [dif_neg]
  rintro ⟨k, hk⟩
  linarith [cum_lt_one h k]

theorem pre_zero (h : 0 < lam) : drawn lam ⁻¹' {0} = Iic (cum lam 0) ∪ Ici 1 := by
  ext u
  simp only [mem_preimage, mem_singleton_iff, mem_union, mem_Iic, mem_Ici]
  rcases lt_or_ge u 1 with hu | hu
  · rw [drawn_iff h hu]
    constructor
    · exact fun x => .inl x.1
    · rintro (x | x)
      · exact ⟨x, fun j hj => absurd hj (by omega)⟩
      · linarith
  · simp [drawn_big h hu, hu]

theorem pre_succ (h : 0 < lam) (k : Nat) : drawn lam ⁻¹' {k + 1} = Ioc (cum lam k) (cum lam (k + 1)) := by
  ext u
  simp only [mem_preimage, mem_singleton_iff, mem_Ioc]
  rcases lt_or_ge u 1 with hu | hu
  · rw [drawn_iff h hu]
    constructor
    · exact fun x => ⟨x.2 k (by omega), x.1⟩
    · exact fun x => ⟨x.2, fun j hj => lt_of_le_of_lt ((cum_mono h).monotone (by omega)) x.1⟩
  · rw [drawn_big h hu]
    constructor
    · intro x; omega
    · intro x; linarith [x.2, cum_lt_one h (k + 1)]

theorem drawn_meas (h : 0 < lam) : Measurable (drawn lam) := by
  refine measurable_to_countable' fun k => ?_
  cases k with
  | zero => rw [pre_zero h]; exact measurableSet_Iic.union measurableSet_Ici
  | succ k => rw [pre_succ h]; exact measurableSet_Ioc

theorem drawn_law (h : 0 < lam) : (volume.restrict (Ico (0 : ℝ) 1)).map (drawn lam) = poissonMeasure lam.toNNReal := by
  refine Measure.ext_of_singleton fun k => ?_
  rw [Measure.map_apply (drawn_meas h) (measurableSet_singleton k), Measure.restrict_apply (drawn_meas h (measurableSet_singleton k)),
    poissonMeasure_singleton, Real.coe_toNNReal lam h.le]
  show _ = ENNReal.ofReal (p lam k)
  cases k with
  | zero =>
    have e : drawn lam ⁻¹' {0} ∩ Ico 0 1 = Icc 0 (cum lam 0) := by
      rw [pre_zero h]
      ext u
      simp only [mem_inter_iff, mem_union, mem_Iic, mem_Ici, mem_Ico, mem_Icc]
      have := cum_lt_one h 0
      constructor
      · rintro ⟨a | a, b, c⟩
        · exact ⟨b, a⟩
        · linarith
      · rintro ⟨a, b⟩; exact ⟨.inl b, a, by linarith⟩
    rw [e, Real.volume_Icc, cum_zero, sub_zero]
  | succ k =>
    have e : drawn lam ⁻¹' {k + 1} ∩ Ico 0 1 = Ioc (cum lam k) (cum lam (k + 1)) := by
      rw [pre_succ h, inter_eq_left]
      rintro u ⟨a, b⟩
      exact ⟨by linarith [cum_pos h k], by linarith [cum_lt_one h (k + 1)]⟩
    rw [e, Real.volume_Ioc, cum_succ, add_sub_cancel_left]

theorem hasSum_mean (h : 0 < lam) : HasSum (fun k : Nat => p lam k * k) lam := by
  have := (hasSum_p h).mul_right lam
  rw [one_mul] at this
  rw [← hasSum_nat_add_iff' 1]
  simp only [Finset.sum_range_one, Nat.cast_zero, mul_zero, sub_zero]
  have e : (fun k : Nat => p lam (k + 1) * ((k + 1 : Nat) : ℝ)) = fun k => p lam k * lam := ?_
  · rw [e]; exact this
  funext k
  rw [p_succ]
  have : ((k + 1 : Nat) : ℝ) ≠ 0 := by positivity
  field_simp

theorem integrable_id (h : 0 < lam) : Integrable (fun k : Nat => (k : ℝ)) (poissonMeasure lam.toNNReal) := by
  rw [integrable_poissonMeasure_iff, Real.coe_toNNReal lam h.le]
  have := (hasSum_mean h).summable
  simpa [p] using this

theorem drawn_mean (h : 0 < lam) : ∫ u in Ico (0 : ℝ) 1, (drawn lam u : ℝ) = lam := by
  have := integral_map (μ := volume.restrict (Ico (0 : ℝ) 1)) (f := fun k : Nat => (k : ℝ)) (drawn_meas h).aemeasurable
    (by exact Measurable.aestronglyMeasurable (measurable_of_countable _))
  rw [← this, drawn_law h, integral_poissonMeasure, Real.coe_toNNReal lam h.le]
  simpa [p] using (hasSum_mean h).tsum_eq

/-! ## the other algorithm -/

/-- probability that `n` numbers are needed and more: the tail of the series -/
noncomputable def rest (n : Nat) (a : ℝ) : ℝ := 1 - Real.exp (-a) * ∑ j ∈ Finset.range n, a ^ j / j !

theorem rest_nonneg {a : ℝ} (ha : 0 ≤ a) (n : Nat) : 0 ≤ rest n a := by
  unfold rest
  have h := Real.sum_le_exp_of_nonneg ha n
  have : Real.exp (-a) * ∑ j ∈ Finset.range n, a ^ j / j ! ≤ Real.exp (-a) * Real.exp a := mul_le_mul_of_nonneg_left h (Real.exp_pos _).le
  rw [← Real.exp_add] at this
  simp at this
  linarith

theorem rest_cum (n : Nat) : rest (n + 1) lam = 1 - cum lam n := by
  unfold rest cum p
  rw [Finset.mul_sum]
  simp only [mul_div_assoc]

/-- an antiderivative -/
theorem deriv_rest {n : Nat} {a u : ℝ} (hu : 0 < u) :
    HasDerivAt (fun v => v - Real.exp (-a) * ∑ j ∈ Finset.range n, (a + Real.log v) ^ (j + 1) / (j + 1)!) (rest n (a + Real.log u)) u := by
  have h1 : HasDerivAt (fun v => a + Real.log v) (u⁻¹) u := (Real.hasDerivAt_log hu.ne').const_add a
  have h2 : ∀ j ∈ Finset.range n, HasDerivAt (fun v => (a + Real.log v) ^ (j + 1) / ((j + 1)! : ℝ)) ((a + Real.log u) ^ j / (j ! : ℝ) * u⁻¹) u := by
    intro j _
    have h3 := (h1.pow (j + 1)).div_const ((j + 1)! : ℝ)
    refine h3.congr_deriv ?_
    rw [Nat.factorial_succ]
    push_cast
    have : ((j ! : Nat) : ℝ) ≠ 0 := by positivity
    have : ((j : ℝ) + 1) ≠ 0 := by positivity
    field_simp
  have h4 := (hasDerivAt_id u).sub ((HasDerivAt.fun_sum h2).const_mul (Real.exp (-a)))
  refine h4.congr_deriv ?_
  unfold rest
  rw [← Finset.sum_mul, neg_add, Real.exp_add, Real.exp_neg (Real.log u), Real.exp_log hu]
  ring

theorem integral_rest {a : ℝ} (ha : 0 ≤ a) (n : Nat) :
    IntervalIntegrable (fun u => rest n (a + Real.log u)) volume (Real.exp (-a)) 1 ∧
      ∫ u in (Real.exp (-a))..1, rest n (a + Real.log u) = rest (n + 1) a := by
  have hle : Real.exp (-a) ≤ 1 := by rw [Real.exp_le_one_iff]; linarith
  have hpos : ∀ u ∈ uIcc (Real.exp (-a)) 1, 0 < u := by
    intro u hu
    rw [uIcc_of_le hle] at hu
    exact lt_of_lt_of_le (Real.exp_pos _) hu.1
  have hi : IntervalIntegrable (fun u => rest n (a + Real.log u)) volume (Real.exp (-a)) 1 := by
    apply ContinuousOn.intervalIntegrable
    unfold rest
    have hl : ContinuousOn (fun u => a + Real.log u) (uIcc (Real.exp (-a)) 1) :=
      continuousOn_const.add (Real.continuousOn_log.mono fun u hu => (hpos u hu).ne')
    refine continuousOn_const.sub (ContinuousOn.mul (Real.continuous_exp.comp_continuousOn hl.neg) ?_)
    exact continuousOn_finsetSum _ fun j _ => (hl.pow j).div_const _
  refine ⟨hi, ?_⟩
  rw [intervalIntegral.integral_eq_sub_of_hasDerivAt (fun u hu => deriv_rest (hpos u hu)) hi]
  simp only [Real.log_one, Real.log_exp, add_neg_cancel, add_zero]
  unfold rest
  rw [Finset.sum_range_succ']
  simp
  ring

/-- sum of the logarithms of the first `n` random numbers -/
noncomputable def upto (r : Nat → ℝ) (n : Nat) : ℝ := ∑ j ∈ Finset.range n, -Real.log (r j)

section
variable {Ω : Type*} {mΩ : MeasurableSpace Ω} {P : Measure Ω} [IsProbabilityMeasure P] {U : Nat → Ω → ℝ}

theorem upto_meas (hm : ∀ i, Measurable (U i)) (n : Nat) : Measurable fun ω => upto (fun i => U i ω) n := by
  unfold upto
  exact Finset.measurable_sum _ fun i _ => (Real.measurable_log.comp (hm i)).neg

theorem upto_law (hm : ∀ i, Measurable (U i)) (hl : ∀ i, P.map (U i) = volume.restrict (Ico (0 : ℝ) 1)) (hi : iIndepFun U P) (n : Nat) :
    ∀ a : ℝ, P {ω | upto (fun i => U i ω) n ≤ a} = if a < 0 then 0 else ENNReal.ofReal (rest n a) := by
  induction n with
  | zero =>
    intro a
    unfold upto rest
    simp only [Finset.range_zero, Finset.sum_empty, mul_zero, sub_zero, ENNReal.ofReal_one]
    split
    · rename_i h
      have : {ω : Ω | (0 : ℝ) ≤ a} = ∅ := by ext; simp [h]
      rw [this, measure_empty]
    · rename_i h
      have : {ω : Ω | (0 : ℝ) ≤ a} = univ := by ext; simp only [mem_ofPred_eq, mem_univ, iff_true]; linarith
      rw [this, measure_univ]
  | succ n ih =>
    intro a
    have hX : iIndepFun (fun i ω => -Real.log (U i ω)) P := hi.comp (fun _ x => -Real.log x) fun _ => Real.measurable_log.neg
    have hlog : Measurable fun u : ℝ => -Real.log u := Real.measurable_log.neg
    have hXm : ∀ i, Measurable fun ω => -Real.log (U i ω) := fun i => (Real.measurable_log.comp (hm i)).neg
    have hS := hX.indepFun_sum_range_succ hXm n
    have hSe : (∑ j ∈ Finset.range n, fun ω => -Real.log (U j ω)) = fun ω => upto (fun i => U i ω) n := by
      funext ω
      simp [upto, Finset.sum_apply]
    rw [hSe] at hS
    have hprod := hS.map_prod_eq_prod_map_map (upto_meas hm n).aemeasurable (hXm n).aemeasurable
    have hset : MeasurableSet {x : ℝ × ℝ | x.1 + x.2 ≤ a} := measurableSet_le (measurable_fst.add measurable_snd) measurable_const
    have e1 : P {ω | upto (fun i => U i ω) (n + 1) ≤ a} = (P.map fun ω => (upto (fun i => U i ω) n, -Real.log (U n ω))) {x : ℝ × ℝ | x.1 + x.2 ≤ a} := by
      rw [Measure.map_apply ((upto_meas hm n).prodMk (hXm n)) hset]
      congr 1
      ext ω
      simp only [mem_ofPred_eq, mem_preimage]
      unfold upto
      rw [Finset.sum_range_succ]
    have : SFinite (P.map fun ω => upto (fun i => U i ω) n) := by infer_instance
    rw [e1, hprod, Measure.prod_apply_symm hset]
    have e2 : ∀ y : ℝ, (P.map fun ω => upto (fun i => U i ω) n) ((fun x => (x, y)) ⁻¹' {x : ℝ × ℝ | x.1 + x.2 ≤ a}) =
        if a - y < 0 then 0 else ENNReal.ofReal (rest n (a - y)) := by
      intro y
      rw [← ih (a - y), Measure.map_apply (upto_meas hm n) (by
        exact measurable_prodMk_right hset)]
      congr 1
      ext ω
      simp only [mem_ofPred_eq, mem_preimage]
      constructor <;> intro h <;> linarith
    simp only [e2]
    have hrm : Measurable fun y : ℝ => if a - y < 0 then 0 else ENNReal.ofReal (rest n (a - y)) := by
      refine Measurable.ite (measurableSet_lt (measurable_const.sub measurable_id) measurable_const) measurable_const (ENNReal.measurable_ofReal.comp ?_)
      unfold rest
      fun_prop
    have e3 : P.map (fun ω => -Real.log (U n ω)) = (volume.restrict (Ico (0 : ℝ) 1)).map fun u => -Real.log u := by
      rw [← hl n, Measure.map_map hlog (hm n)]
      rfl
    rw [e3, lintegral_map hrm hlog]
    simp only [sub_neg_eq_add]
    split
    · rename_i h
      rw [setLIntegral_congr_fun (g := fun _ => 0) measurableSet_Ico, lintegral_zero]
      intro u hu
      have := Real.log_nonpos hu.1 hu.2.le
      simp only
      rw [if_pos (by linarith)]
    · rename_i h
      have h : 0 ≤ a := not_lt.1 h
      have hle : Real.exp (-a) ≤ 1 := by rw [Real.exp_le_one_iff]; linarith
      obtain ⟨i1, i2⟩ := integral_rest h n
      rw [← i2, intervalIntegral.integral_of_le hle, ofReal_integral_eq_lintegral_ofReal i1.1 ?_]
      · rw [Measure.restrict_congr_set (Ico_ae_eq_Ioc (μ := volume) (a := (0 : ℝ)) (b := 1))]
        have e4 : Ioc (0 : ℝ) 1 ∩ Ici (Real.exp (-a)) = Icc (Real.exp (-a)) 1 := by
          ext u
          simp only [mem_inter_iff, mem_Ioc, mem_Ici, mem_Icc]
          have := Real.exp_pos (-a)
          constructor
          · rintro ⟨⟨_, b⟩, c⟩; exact ⟨c, b⟩
          · rintro ⟨b, c⟩; exact ⟨⟨by linarith, c⟩, b⟩
        rw [setLIntegral_congr_fun (g := (Ici (Real.exp (-a))).indicator fun u => ENNReal.ofReal (rest n (a + Real.log u))) measurableSet_Ioc,
          setLIntegral_indicator measurableSet_Ici, inter_comm, e4, Measure.restrict_congr_set Ioc_ae_eq_Icc]
        intro u hu
        have key : a + Real.log u < 0 ↔ ¬ Real.exp (-a) ≤ u := by
          rw [not_le, ← Real.log_lt_iff_lt_exp hu.1]
          constructor <;> intro h <;> linarith
        simp only [indicator, mem_Ici]
        by_cases hb : Real.exp (-a) ≤ u
        · rw [if_pos hb, if_neg (by rw [key]; exact not_not.2 hb)]
        · rw [if_neg hb, if_pos (key.2 hb)]
      · refine (ae_restrict_iff' measurableSet_Ioc).2 (.of_forall fun u hu => rest_nonneg ?_ n)
        have := Real.log_le_log (Real.exp_pos _) hu.1.le
        rw [Real.log_exp] at this
        linarith

theorem upto_mono {r : Nat → ℝ} (hr : ∀ i, 0 < r i ∧ r i < 1) : Monotone (upto r) := by
  refine monotone_nat_of_le_succ fun n => ?_
  unfold upto
  rw [Finset.sum_range_succ]
  linarith [Real.log_nonpos (hr n).1.le (hr n).2.le]

theorem fallback_run (h : 0 < lam) {r : Nat → ℝ} (hr : ∀ i, 0 < r i) {K : Nat} (h1 : ∀ j ≤ K, upto r j ≤ lam) (h2 : lam < upto r (K + 1)) :
    ∀ (d n f : Nat) (t : ℝ), n + d = K → d < f → t = upto r n / lam → fallback lam r f n t = .value K := by
  have step : ∀ n, upto r n / lam + -Real.log (r n) / lam = upto r (n + 1) / lam := by
    intro n
    unfold upto
    rw [Finset.sum_range_succ, add_div]
  intro d
  induction d with
  | zero =>
    intro n f t hn hf ht
    obtain ⟨f, rfl⟩ : ∃ g, f = g + 1 := ⟨f - 1, by omega⟩
    have : n = K := by omega
    subst this
    unfold fallback
    rw [if_neg (not_le.2 (hr n)), ht, step, if_pos]
    rw [gt_iff_lt, lt_div_iff₀ h]; linarith
  | succ d ih =>
    intro n f t hn hf ht
    obtain ⟨f, rfl⟩ : ∃ g, f = g + 1 := ⟨f - 1, by omega⟩
    unfold fallback
    rw [if_neg (not_le.2 (hr n)), ht, step, if_neg, ih (n + 1) f _ (by omega) (by omega) rfl]
    rw [gt_iff_lt, not_lt, div_le_one h]
    exact h1 _ (by omega)

open Classical in
/-- how many random numbers the other algorithm takes, apart from the last -/
noncomputable def steps (lam : ℝ) (r : Nat → ℝ) : Nat := if h : ∃ k, lam < upto r (k + 1) then Nat.find h else 0

theorem steps_iff {r : Nat → ℝ} (h : 0 < lam) (hr : ∀ i, 0 < r i ∧ r i < 1) (he : ∃ k, lam < upto r (k + 1)) (n : Nat) :
    steps lam r = n ↔ upto r n ≤ lam ∧ lam < upto r (n + 1) := by
  classical
  unfold steps
  rw [dif_pos he, Nat.find_eq_iff]
  constructor
  · rintro ⟨a, b⟩
    refine ⟨?_, a⟩
    cases n with
    | zero => simp [upto]; exact h.le
    | succ n => exact not_lt.1 (b n (by omega))
  · rintro ⟨a, b⟩
    exact ⟨b, fun j hj => not_lt.2 ((upto_mono hr (by omega)).trans a)⟩

theorem inside (hm : ∀ i, Measurable (U i)) (hl : ∀ i, P.map (U i) = volume.restrict (Ico (0 : ℝ) 1)) : ∀ᵐ ω ∂P, ∀ i, 0 < U i ω ∧ U i ω < 1 := by
  rw [ae_all_iff]
  intro i
  have h1 : ∀ᵐ u ∂(volume.restrict (Ico (0 : ℝ) 1)), 0 < u ∧ u < 1 := by
    rw [Measure.restrict_congr_set (Ioo_ae_eq_Ico (μ := volume) (a := (0 : ℝ)) (b := 1)).symm]
    exact (ae_restrict_iff' measurableSet_Ioo).2 (.of_forall fun u hu => hu)
  rw [← hl i] at h1
  exact ae_of_ae_map (hm i).aemeasurable h1

theorem found (h : 0 < lam) (hm : ∀ i, Measurable (U i)) (hl : ∀ i, P.map (U i) = volume.restrict (Ico (0 : ℝ) 1)) (hi : iIndepFun U P) :
    ∀ᵐ ω ∂P, ∃ k, lam < upto (fun i => U i ω) (k + 1) := by
  rw [ae_iff]
  have hle : ∀ n : Nat, P {ω | ¬ ∃ k, lam < upto (fun i => U i ω) (k + 1)} ≤ ENNReal.ofReal (1 - cum lam n) := by
    intro n
    rw [← rest_cum]
    have := upto_law hm hl hi (n + 1) lam
    rw [if_neg (not_lt.2 h.le)] at this
    rw [← this]
    refine measure_mono fun ω hω => ?_
    simp only [mem_ofPred_eq, not_exists, not_lt] at hω ⊢
    exact hω n
  have ht : Filter.Tendsto (fun n => ENNReal.ofReal (1 - cum lam n)) Filter.atTop (nhds 0) := by
    have h1 : Filter.Tendsto (fun n => cum lam n) Filter.atTop (nhds 1) := ((hasSum_p h).tendsto_sum_nat).comp (Filter.tendsto_add_atTop_nat 1)
    have := ENNReal.tendsto_ofReal (h1.const_sub 1)
    simpa using this
  exact le_antisymm (ge_of_tendsto' ht hle) bot_le

theorem steps_meas (hm : ∀ i, Measurable (U i)) : Measurable fun ω => steps lam (fun i => U i ω) := by
  classical
  refine measurable_to_countable' fun n => ?_
  have hs : ∀ k, MeasurableSet {ω | lam < upto (fun i => U i ω) (k + 1)} := fun k => measurableSet_lt measurable_const (upto_meas hm _)
  have e : (fun ω => steps lam (fun i => U i ω)) ⁻¹' {n} =
      ({ω | lam < upto (fun i => U i ω) (n + 1)} ∩ ⋂ j ∈ Finset.range n, {ω | lam < upto (fun i => U i ω) (j + 1)}ᶜ) ∪
        (if n = 0 then (⋃ k, {ω | lam < upto (fun i => U i ω) (k + 1)})ᶜ else ∅) := by
    ext ω
    simp only [mem_preimage, mem_singleton_iff, steps, mem_union, mem_inter_iff, mem_ofPred_eq, mem_iInter, mem_compl_iff, Finset.mem_range]
    by_cases he : ∃ k, lam < upto (fun i => U i ω) (k + 1)
    · rw [dif_pos he, Nat.find_eq_iff]
      constructor
      · exact fun x => .inl x
      · rintro (x | x)
        · exact x
        · split at x
          · simp only [mem_compl_iff, mem_iUnion, mem_ofPred_eq] at x
            exact absurd he x
          · exact absurd x (by simp)
    · rw [dif_neg he]
      constructor
      · rintro rfl
        right
        simpa using he
      · rintro (x | x)
        · exact absurd ⟨n, x.1⟩ he
        · split at x
          · rename_i h; exact h.symm
          · exact absurd x (by simp)
  rw [e]
  refine ((hs n).inter (Finset.measurableSet_biInter _ fun j _ => (hs j).compl)).union ?_
  split
  · exact (MeasurableSet.iUnion hs).compl
  · exact MeasurableSet.empty

theorem steps_law (h : 0 < lam) (hm : ∀ i, Measurable (U i)) (hl : ∀ i, P.map (U i) = volume.restrict (Ico (0 : ℝ) 1)) (hi : iIndepFun U P) :
    P.map (fun ω => steps lam (fun i => U i ω)) = poissonMeasure lam.toNNReal := by
  refine Measure.ext_of_singleton fun n => ?_
  rw [Measure.map_apply (steps_meas hm) (measurableSet_singleton n), poissonMeasure_singleton, Real.coe_toNNReal lam h.le]
  show _ = ENNReal.ofReal (p lam n)
  have hE : ∀ k, P {ω | upto (fun i => U i ω) k ≤ lam} = ENNReal.ofReal (rest k lam) := by
    intro k
    rw [upto_law hm hl hi k lam, if_neg (not_lt.2 h.le)]
  have hd : {ω | upto (fun i => U i ω) n ≤ lam} =ᵐ[P]
      ((fun ω => steps lam (fun i => U i ω)) ⁻¹' {n} ∪ {ω | upto (fun i => U i ω) (n + 1) ≤ lam} : Set Ω) := by
    filter_upwards [inside hm hl, found h hm hl hi] with ω h1 h2
    refine propext ?_
    show upto (fun i => U i ω) n ≤ lam ↔ steps lam (fun i => U i ω) = n ∨ upto (fun i => U i ω) (n + 1) ≤ lam
    rw [steps_iff h h1 h2]
    have := upto_mono h1 (show n ≤ n + 1 by omega)
    constructor
    · intro a
      rcases lt_or_ge lam (upto (fun i => U i ω) (n + 1)) with b | b
      · exact .inl ⟨a, b⟩
      · exact .inr b
    · rintro (a | a)
      · exact a.1
      · exact this.trans a
  have hdis : AEDisjoint P ((fun ω => steps lam (fun i => U i ω)) ⁻¹' {n}) {ω | upto (fun i => U i ω) (n + 1) ≤ lam} := by
    have : ((fun ω => steps lam (fun i => U i ω)) ⁻¹' {n} ∩ {ω | upto (fun i => U i ω) (n + 1) ≤ lam} : Set Ω) =ᵐ[P] (∅ : Set Ω) := by
      filter_upwards [inside hm hl, found h hm hl hi] with ω h1 h2
      refine propext ?_
      show (steps lam (fun i => U i ω) = n ∧ upto (fun i => U i ω) (n + 1) ≤ lam) ↔ False
      rw [steps_iff h h1 h2]
      constructor
      · rintro ⟨⟨_, a⟩, b⟩; linarith
      · exact False.elim
    exact ae_eq_empty.1 this
  have hsum := measure_congr hd
  rw [measure_union₀ (measurableSet_le (upto_meas hm _) measurable_const).nullMeasurableSet hdis, hE, hE] at hsum
  have hr : rest n lam = p lam n + rest (n + 1) lam := by
    unfold rest p
    rw [Finset.sum_range_succ]
    ring
  rw [hr, ENNReal.ofReal_add (p_pos h n).le (rest_nonneg h.le _)] at hsum
  exact ((ENNReal.add_left_inj ENNReal.ofReal_ne_top).1 hsum).symm

end

/-! ## the claims -/

/-- C92: exactly the means that are not positive are refused -/
theorem C92_make (m : ℝ) : make m = none ↔ m ≤ 0 := by
  unfold make
  split <;> simp_all

/-- C92: whatever the first random number in [0, 1), and whatever the others, a sample is found, with that one number: the least number such that the probability of at
most that number isn't less than the random number -/
theorem C92_sample {lam : ℝ} (h : 0 < lam) (r : Nat → ℝ) (hr : r 0 < 1) :
    ∃ k N, (∀ fuel ≥ N, sample fuel lam r = .value k) ∧ r 0 ≤ (poissonMeasure lam.toNNReal).real (Iic k) ∧
      ∀ j < k, (poissonMeasure lam.toNNReal).real (Iic j) < r 0 := by
  have hc : ∀ k, (poissonMeasure lam.toNNReal).real (Iic k) = cum lam k := by
    intro k
    have e : (Iic k : Set Nat) = ↑(Finset.range (k + 1)) := by ext; simp
    rw [e, ← sum_measureReal_singleton]
    refine Finset.sum_congr rfl fun j _ => ?_
    rw [poissonMeasure_real_singleton, Real.coe_toNNReal lam h.le]
    rfl
  obtain ⟨h1, h2⟩ := drawn_spec h hr
  refine ⟨drawn lam (r 0), drawn lam (r 0) + 1, ?_, by rw [hc]; exact h1, fun j hj => by rw [hc]; exact h2 j hj⟩
  intro fuel hf
  unfold sample
  have e : Real.exp (-lam) = p lam 0 := by simp [p]
  rw [e]
  have := loop_run h (other := fallback lam (fun i => r (i + 1)) fuel 0 0) h1 h2 (drawn lam (r 0)) 0 fuel none (by omega) (by omega) (by simp)
  rw [cum_zero] at this
  exact this

/-- C92: with a random number that is uniform on [0, 1), the samples have the Poisson distribution with the given mean, and that mean is their expectation -/
theorem C92_law {lam : ℝ} (h : 0 < lam) : ∃ X : ℝ → Nat, Measurable X ∧
    (∀ r : Nat → ℝ, 0 ≤ r 0 → r 0 < 1 → ∃ N, ∀ fuel ≥ N, sample fuel lam r = .value (X (r 0))) ∧
    (volume.restrict (Ico (0 : ℝ) 1)).map X = poissonMeasure lam.toNNReal ∧ ∫ u in Ico (0 : ℝ) 1, (X u : ℝ) = mean lam := by
  refine ⟨drawn lam, drawn_meas h, fun r _ h1 => ?_, drawn_law h, drawn_mean h⟩
  obtain ⟨a, b⟩ := drawn_spec h h1
  refine ⟨drawn lam (r 0) + 1, fun fuel hf => ?_⟩
  have e : Real.exp (-lam) = p lam 0 := by simp [p]
  unfold sample
  rw [e]
  have := loop_run h (other := fallback lam (fun i => r (i + 1)) fuel 0 0) a b (drawn lam (r 0)) 0 fuel none (by omega) (by omega) (by simp)
  rw [cum_zero] at this
  exact this

/-- C92: the algorithm that is used if the rounding of the sums prevents the first one from getting further gives the Poisson distribution with the same mean as well: with
independent random numbers that are uniform on [0, 1), it almost surely gives a value, and this value has that distribution -/
theorem C92_fallback {Ω : Type*} {mΩ : MeasurableSpace Ω} {P : Measure Ω} [IsProbabilityMeasure P] {U : Nat → Ω → ℝ} {lam : ℝ} (h : 0 < lam)
    (hm : ∀ i, Measurable (U i)) (hl : ∀ i, P.map (U i) = volume.restrict (Ico (0 : ℝ) 1)) (hi : iIndepFun U P) :
    ∃ X : Ω → Nat, Measurable X ∧ (∀ᵐ ω ∂P, ∃ N, ∀ fuel ≥ N, fallback lam (fun i => U i ω) fuel 0 0 = .value (X ω)) ∧
      P.map X = poissonMeasure lam.toNNReal := by
  refine ⟨_, steps_meas hm, ?_, steps_law h hm hl hi⟩
  filter_upwards [inside hm hl, found h hm hl hi] with ω h1 h2
  obtain ⟨a, b⟩ := (steps_iff h h1 h2 _).1 rfl
  exact ⟨_, fun fuel hf => fallback_run h (fun i => (h1 i).1) (fun j hj => (upto_mono h1 hj).trans a) b (steps lam fun i => U i ω) 0 fuel 0 (by omega)
    (Nat.lt_of_succ_le hf) (by simp [upto])⟩

/-- there are independent random numbers that are uniform on [0, 1) -/
example : ∃ (P : Measure (Nat → ℝ)) (_ : IsProbabilityMeasure P), (∀ i, Measurable fun x : Nat → ℝ => x i) ∧
    (∀ i, P.map (fun x => x i) = volume.restrict (Ico (0 : ℝ) 1)) ∧ iIndepFun (fun i (x : Nat → ℝ) => x i) P := by
  have : IsProbabilityMeasure (volume.restrict (Ico (0 : ℝ) 1)) := ⟨by simp⟩
  exact ⟨Measure.infinitePi fun _ => volume.restrict (Ico (0 : ℝ) 1), inferInstance, fun i => measurable_pi_apply i,
    fun i => Measure.infinitePi_map_eval _ i, iIndepFun_infinitePi (X := fun _ x => x) fun _ => measurable_id⟩

/-- C92: "almost surely": the random number 0 makes it raise -/
theorem C92_fallback_counterexample (lam : ℝ) (f : Nat) : fallback lam (fun _ => 0) (f + 1) 0 0 = .error := by
  unfold fallback
  rw [if_pos le_rfl]

/-- a mean of 1 and the random number 1/2: the sample is 1 -/
example : ∀ fuel ≥ 2, sample fuel 1 (fun _ => 1 / 2) = .value 1 := by
  intro fuel hf
  have a := Real.exp_one_gt_d9
  have b := Real.exp_one_lt_d9
  have c0 : cum 1 0 = (Real.exp 1)⁻¹ := by simp [cum, p, Real.exp_neg]
  have c1 : cum 1 1 = 2 * (Real.exp 1)⁻¹ := by rw [cum_succ, c0]; simp [p, Real.exp_neg]; ring
  have hp : 0 < Real.exp 1 := Real.exp_pos 1
  have e : Real.exp (-1) = p 1 0 := by simp [p]
  unfold sample
  rw [e]
  have := loop_run (lam := 1) one_pos (u := 1 / 2) (other := fallback 1 (fun _ => 1 / 2) fuel 0 0) (K := 1)
    (by rw [c1, ← div_eq_mul_inv, div_le_div_iff₀ (by norm_num) hp]; linarith)
    (by
      intro j hj
      have : j = 0 := by omega
      subst this
      rw [c0, inv_eq_one_div, div_lt_div_iff₀ hp (by norm_num)]; linarith) 1 0 fuel none rfl (by omega) (by simp)
  rw [cum_zero] at this
  exact this

end Poisson
end Verif
