import Verif.Props.Dist
import Mathlib.Probability.ConditionalProbability
import Mathlib.Probability.Independence.InfinitePi

/-!
# The distribution of bounded samples (C96)
-/

namespace Verif
namespace Distr
open MeasureTheory ProbabilityTheory Set
open scoped ENNReal

/-- any set of sampled values is an event -/
instance : MeasurableSpace (Option Val) := ⊤

theorem anySet (A : Set (Option Val)) : MeasurableSet A := trivial

variable {Ω : Type*} {mΩ : MeasurableSpace Ω} {P : Measure Ω}

/-- rejected `j` times, then a value that is in `A` and not rejected -/
theorem rejected_then {X : Nat → Ω → Option Val} {μ : Measure (Option Val)} (hm : ∀ i, Measurable (X i)) (hl : ∀ i, P.map (X i) = μ) (hi : iIndepFun X P)
    (B A : Set (Option Val)) (j : Nat) : P {ω | (∀ i < j, X i ω ∈ B) ∧ X j ω ∈ A} = μ B ^ j * μ A := by
  have h := hi.measure_inter_preimage_eq_mul (Finset.range (j + 1)) (sets := fun i => if i = j then A else B) (fun i _ => anySet _)
  have hs : (⋂ i ∈ Finset.range (j + 1), X i ⁻¹' (if i = j then A else B)) = {ω | (∀ i < j, X i ω ∈ B) ∧ X j ω ∈ A} := by
    ext ω
    simp only [mem_iInter, Finset.mem_range, mem_preimage, Set.mem_ofPred_eq]
    constructor
    · intro h
      refine ⟨fun i hij => ?_, ?_⟩
      · have := h i (by omega)
        rwa [if_neg (by omega)] at this
      · have := h j (by omega)
        rwa [if_pos rfl] at this
    · rintro ⟨h1, h2⟩ i hij
      split
      · subst i; exact h2
      · exact h1 i (by omega)
  have hp : ∀ i (C : Set (Option Val)), P (X i ⁻¹' C) = μ C := fun i C => by rw [← hl i, Measure.map_apply (hm i) (anySet C)]
  rw [hs] at h
  rw [h, Finset.prod_range_succ, if_pos rfl, hp]
  congr 1
  rw [Finset.prod_congr rfl (g := fun _ => μ B)]
  · simp
  · intro i hij
    rw [if_neg (by have := Finset.mem_range.1 hij; omega), hp]

theorem all_rejected [IsProbabilityMeasure P] {X : Nat → Ω → Option Val} {μ : Measure (Option Val)} (hm : ∀ i, Measurable (X i)) (hl : ∀ i, P.map (X i) = μ)
    (hi : iIndepFun X P) (B : Set (Option Val)) (j : Nat) : P {ω | ∀ i < j, X i ω ∈ B} = μ B ^ j := by
  have h := rejected_then hm hl hi B univ j
  have : μ univ = 1 := by rw [← hl 0, Measure.map_apply (hm 0) MeasurableSet.univ, preimage_univ, measure_univ]
  rw [this, mul_one] at h
  rw [← h]
  simp

/-- the first of at most `n` values that isn't rejected is in `A` -/
theorem first_accepted {X : Nat → Ω → Option Val} {μ : Measure (Option Val)} (hm : ∀ i, Measurable (X i)) (hl : ∀ i, P.map (X i) = μ) (hi : iIndepFun X P)
    (B A : Set (Option Val)) (hd : Disjoint A B) (n : Nat) :
    P {ω | ∃ j < n, (∀ i < j, X i ω ∈ B) ∧ X j ω ∈ A} = ∑ j ∈ Finset.range n, μ B ^ j * μ A := by
  induction n with
  | zero => simp
  | succ n ih =>
    have hs : {ω | ∃ j < n + 1, (∀ i < j, X i ω ∈ B) ∧ X j ω ∈ A} =
        {ω | ∃ j < n, (∀ i < j, X i ω ∈ B) ∧ X j ω ∈ A} ∪ {ω | (∀ i < n, X i ω ∈ B) ∧ X n ω ∈ A} := by
      ext ω
      simp only [Set.mem_ofPred_eq, mem_union]
      constructor
      · rintro ⟨j, hj, h⟩
        rcases Nat.lt_succ_iff_lt_or_eq.1 hj with h' | rfl
        · exact .inl ⟨j, h', h⟩
        · exact .inr h
      · rintro (⟨j, hj, h⟩ | h)
        · exact ⟨j, by omega, h⟩
        · exact ⟨n, by omega, h⟩
    have hmeas : MeasurableSet {ω | (∀ i < n, X i ω ∈ B) ∧ X n ω ∈ A} := by
      have : {ω | (∀ i < n, X i ω ∈ B) ∧ X n ω ∈ A} = (⋂ i, ⋂ (_ : i < n), X i ⁻¹' B) ∩ X n ⁻¹' A := by
        ext ω; simp only [Set.mem_ofPred_eq, mem_iInter, mem_inter_iff, mem_preimage]
      rw [this]
      exact (MeasurableSet.iInter fun i => MeasurableSet.iInter fun _ => hm i (anySet B)).inter (hm n (anySet A))
    rw [hs, measure_union ?_ hmeas, ih, rejected_then hm hl hi, Finset.sum_range_succ]
    rw [Set.disjoint_left]
    rintro ω ⟨j, hj, _, h1⟩ ⟨h2, _⟩
    exact Set.disjoint_left.1 hd h1 (h2 j hj)

theorem geometric {p q : ℝ≥0∞} (h : q + p = 1) (n : Nat) : ∑ j ∈ Finset.range n, q ^ j * p + q ^ n = 1 := by
  induction n with
  | zero => simp
  | succ n ih =>
    rw [Finset.sum_range_succ, add_assoc, pow_succ, ← mul_add, add_comm p q, h, mul_one, ih]

/-- the values that are not rejected: the numbers that respect the bounds, and what isn't a number -/
def acceptable (lower upper : Option Rat) (inclL inclU : Bool) : Set (Option Val) := {x | ∀ q, x = some (.num q) → Respects lower upper inclL inclU q}

/-- C96: if the samples of a distribution are independent and all have the same distribution `μ`, at most `n` of them are tried, and `r` is the probability that a sample isn't within the
bounds, then a bounded sample is the fail value with probability `r ^ n`, and otherwise it is distributed like a sample given that this is within the bounds -/
theorem C96_law [IsProbabilityMeasure P] {S : Ω → Stream} {d b : Dist} {k : Nat} {lower upper : Option Rat} {fail : Option Val} {retries : Option Nat} {inclL inclU : Bool}
    {μ : Measure (Option Val)} (h : bounded d lower upper fail retries inclL inclU 1 = some b) (hne : lower ≠ none ∨ upper ≠ none)
    (hm : ∀ i, Measurable fun ω => (nth d (S ω) k i).1) (hl : ∀ i, P.map (fun ω => (nth d (S ω) k i).1) = μ) (hi : iIndepFun (fun i ω => (nth d (S ω) k i).1) P) :
    let B := acceptable lower upper inclL inclU
    let r := μ Bᶜ ^ retries.getD 100
    ∃ v, failValue lower upper fail v ∧ Measurable (fun ω => (b.draw (S ω) k).1) ∧
      P.map (fun ω => (b.draw (S ω) k).1) = (1 - r) • μ[|B] + r • Measure.dirac (some v) := by
  intro B r
  have hout : ∃ v, failValue lower upper fail v ∧ ∀ ω, Outcome d (Respects lower upper inclL inclU) v (retries.getD 100) (S ω) k (b.draw (S ω) k) := by
    have h0 : ∀ s, ∃ v, failValue lower upper fail v ∧ Outcome d (Respects lower upper inclL inclU) v (retries.getD 100) s k (b.draw s k) := by
      intro s
      have := (C39_outcome h s k).2 hne
      simpa using this
    obtain ⟨v, hv, _⟩ := h0 (fun _ => 0)
    refine ⟨v, hv, fun ω => ?_⟩
    obtain ⟨w, hw, ho⟩ := h0 (S ω)
    have : w = v := by
      unfold failValue at hv hw
      revert hv hw
      rcases fail with _ | _ <;> rcases lower with _ | _ <;> rcases upper with _ | _ <;> simp_all
    rwa [this] at ho
  obtain ⟨v, hv, ho⟩ := hout
  have hrej : ∀ x, Rejected (Respects lower upper inclL inclU) x ↔ x ∈ Bᶜ := by
    intro x
    show (∃ q, x = some (.num q) ∧ ¬ Respects lower upper inclL inclU q) ↔ ¬ ∀ q, x = some (.num q) → Respects lower upper inclL inclU q
    push Not
    rfl
  have hset : ∀ A : Set (Option Val), {ω | (b.draw (S ω) k).1 ∈ A} =
      {ω | ∃ j < retries.getD 100, (∀ i < j, (nth d (S ω) k i).1 ∈ Bᶜ) ∧ (nth d (S ω) k j).1 ∈ B ∩ A} ∪
      {ω | (∀ i < retries.getD 100, (nth d (S ω) k i).1 ∈ Bᶜ) ∧ some v ∈ A} := by
    intro A
    ext ω
    simp only [Set.mem_ofPred_eq, mem_union]
    constructor
    · intro hA
      rcases ho ω with ⟨j, hj, h1, h2, h3⟩ | ⟨h1, h2⟩
      · rw [h3] at hA
        exact .inl ⟨j, hj, fun i hi => (hrej _).1 (h1 i hi), by_contra fun hn => h2 ((hrej _).2 hn), hA⟩
      · rw [h2] at hA
        exact .inr ⟨fun i hi => (hrej _).1 (h1 i hi), hA⟩
    · rintro (⟨j, hj, h1, h2, h3⟩ | ⟨h1, h2⟩)
      · rcases ho ω with ⟨j', hj', h1', h2', h3'⟩ | ⟨h1', h2'⟩
        · have : j = j' := by
            rcases lt_trichotomy j j' with hlt | he | hlt
            · exact absurd ((hrej _).1 (h1' j hlt)) (fun hn => hn h2)
            · exact he
            · exact absurd ((hrej _).2 (h1 j' hlt)) h2'
          subst j'
          rw [h3']; exact h3
        · exact absurd ((hrej _).1 (h1' j hj)) (fun hn => hn h2)
      · rcases ho ω with ⟨j', hj', _, h2', _⟩ | ⟨_, h2'⟩
        · exact absurd ((hrej _).2 (h1 j' hj')) h2'
        · rw [h2']; exact h2
  have hall : ∀ n, MeasurableSet {ω | ∀ i < n, (nth d (S ω) k i).1 ∈ Bᶜ} := by
    intro n
    have : {ω | ∀ i < n, (nth d (S ω) k i).1 ∈ Bᶜ} = ⋂ i, ⋂ (_ : i < n), (fun ω => (nth d (S ω) k i).1) ⁻¹' Bᶜ := by ext ω; simp
    rw [this]
    exact MeasurableSet.iInter fun i => MeasurableSet.iInter fun _ => hm i (anySet _)
  have hmeas2 : ∀ A : Set (Option Val), MeasurableSet {ω | (∀ i < retries.getD 100, (nth d (S ω) k i).1 ∈ Bᶜ) ∧ some v ∈ A} := by
    intro A
    have : {ω | (∀ i < retries.getD 100, (nth d (S ω) k i).1 ∈ Bᶜ) ∧ some v ∈ A} = {ω | ∀ i < retries.getD 100, (nth d (S ω) k i).1 ∈ Bᶜ} ∩ {_ω | some v ∈ A} := by
      ext ω; simp only [Set.mem_ofPred_eq, mem_inter_iff]
    rw [this]
    exact (hall _).inter (MeasurableSet.const _)
  have hY : Measurable fun ω => (b.draw (S ω) k).1 := by
    intro A _
    show MeasurableSet {ω | (b.draw (S ω) k).1 ∈ A}
    rw [hset A]
    refine MeasurableSet.union ?_ (hmeas2 A)
    have : {ω | ∃ j < retries.getD 100, (∀ i < j, (nth d (S ω) k i).1 ∈ Bᶜ) ∧ (nth d (S ω) k j).1 ∈ B ∩ A} =
        ⋃ j, ⋃ (_ : j < retries.getD 100), ({ω | ∀ i < j, (nth d (S ω) k i).1 ∈ Bᶜ} ∩ (fun ω => (nth d (S ω) k j).1) ⁻¹' (B ∩ A)) := by
      ext ω; simp only [Set.mem_ofPred_eq, mem_iUnion, mem_inter_iff, mem_preimage, exists_prop]
    rw [this]
    exact MeasurableSet.iUnion fun j => MeasurableSet.iUnion fun _ => (hall j).inter (hm j (anySet _))
  refine ⟨v, hv, hY, ?_⟩
  have hμ : μ univ = 1 := by rw [← hl 0, Measure.map_apply (hm 0) MeasurableSet.univ, preimage_univ, measure_univ]
  have hμp : IsProbabilityMeasure μ := ⟨hμ⟩
  have hq : μ Bᶜ + μ B = 1 := by rw [add_comm, measure_add_measure_compl (anySet B), hμ]
  have hg := geometric hq (retries.getD 100)
  have hr1 : r ≠ ∞ := ENNReal.pow_ne_top (measure_ne_top μ _)
  have hr : 1 - r = ∑ j ∈ Finset.range (retries.getD 100), μ Bᶜ ^ j * μ B := by
    rw [← hg]
    exact ENNReal.add_sub_cancel_right hr1
  ext A hA
  rw [Measure.map_apply hY hA]
  show P {ω | (b.draw (S ω) k).1 ∈ A} = _
  rw [hset A, measure_union ?_ (hmeas2 A), first_accepted hm hl hi Bᶜ (B ∩ A) ?_]
  · rw [Measure.add_apply, Measure.smul_apply, Measure.smul_apply, Measure.dirac_apply' _ hA, cond_apply (anySet B), hr, smul_eq_mul, smul_eq_mul]
    congr 1
    · by_cases h0 : μ B = 0
      · have : μ (B ∩ A) = 0 := measure_mono_null inter_subset_left h0
        simp [h0, this]
      · rw [Finset.sum_mul]
        refine Finset.sum_congr rfl fun j _ => ?_
        rw [mul_assoc, ← mul_assoc (μ B), ENNReal.mul_inv_cancel h0 (measure_ne_top μ _), one_mul]
    · by_cases hvA : some v ∈ A
      · simp only [hvA, and_true, Set.indicator_of_mem, Pi.one_apply, mul_one]
        exact all_rejected hm hl hi Bᶜ _
      · simp [hvA]
  · rw [Set.disjoint_left]
    intro x hx hx'
    exact hx' hx.1
  · rw [Set.disjoint_left]
    rintro ω ⟨j, hj, _, h1, _⟩ ⟨h2, _⟩
    exact h2 j hj h1

/-- the samples of a distribution that uses one random number for each -/
theorem nth_single {d : Dist} {g : Rat → Option Val} (hd : ∀ s k, d.draw s k = (g (s k), k + 1)) (s : Stream) (k i : Nat) : nth d s k i = (g (s (k + i)), k + i + 1) := by
  induction i with
  | zero => exact hd s k
  | succ i ih => rw [nth, ih, hd]; rfl

/-- C96: if the random numbers are independent and all have the same distribution `ν`, then so have the samples of a distribution that uses one random number for each (`g` says how), as
needed for `C96_law` -/
theorem C96_samples {S : Ω → Stream} {d : Dist} {g : Rat → Option Val} {ν : Measure Rat} (hd : ∀ s k, d.draw s k = (g (s k), k + 1))
    (hm : ∀ i, Measurable fun ω => S ω i) (hl : ∀ i, P.map (fun ω => S ω i) = ν) (hi : iIndepFun (fun i ω => S ω i) P) (k : Nat) :
    (∀ i, Measurable fun ω => (nth d (S ω) k i).1) ∧ (∀ i, P.map (fun ω => (nth d (S ω) k i).1) = ν.map g) ∧ iIndepFun (fun i ω => (nth d (S ω) k i).1) P := by
  have hg : Measurable g := measurable_from_top
  have he : (fun i ω => (nth d (S ω) k i).1) = fun i ω => g (S ω (k + i)) := by
    funext i ω
    rw [nth_single hd]
  refine ⟨fun i => ?_, fun i => ?_, ?_⟩
  · rw [congrFun he i]
    exact hg.comp (hm _)
  · rw [congrFun he i, ← hl (k + i), Measure.map_map hg (hm _)]
    rfl
  · rw [he]
    exact (hi.precomp (g := fun i => k + i) (fun a b hab => Nat.add_left_cancel hab)).comp (fun _ => g) fun _ => hg

/-- a coin: the random numbers are 1/10 and 9/10, with equal probabilities -/
noncomputable def coin : Measure Rat := (2⁻¹ : ℝ≥0∞) • Measure.dirac (1 / 10) + (2⁻¹ : ℝ≥0∞) • Measure.dirac (9 / 10)

instance : IsProbabilityMeasure coin := ⟨by simp [coin, ENNReal.inv_two_add_inv_two]⟩

/-- with the coin, Uniform(0, 10) gives 1 and 9. Bounded to 5 or more, with two tries, it gives 9 with probability 3/4, and otherwise the fail value, which is 5 -/
example : ∃ (d b : Dist) (P : Measure Stream) (_ : IsProbabilityMeasure P), uniform 0 (some 10) 1 = some d ∧ bounded d (some 5) none none (some 2) true true 1 = some b ∧
    P {s | (b.draw s 0).1 = some (.num 9)} = 3 / 4 ∧ P {s | (b.draw s 0).1 = some (.num 5)} = 1 / 4 := by
  obtain ⟨d, hd⟩ : ∃ d, uniform 0 (some 10) 1 = some d := ⟨_, rfl⟩
  obtain ⟨b, hb⟩ : ∃ b, bounded d (some 5) none none (some 2) true true 1 = some b := ⟨_, rfl⟩
  have hdraw : ∀ s k, d.draw s k = (some (.num (10 * s k)), k + 1) := by
    intro s k
    unfold uniform at hd
    simp only [Option.getD_some] at hd
    rw [if_neg (by norm_num)] at hd
    simp only [Option.some.injEq] at hd
    subst hd
    simp [scaled, rUniform]
  have hdraw' : ∀ s k, d.draw s k = ((fun q : Rat => some (Val.num (10 * q))) (s k), k + 1) := hdraw
  obtain ⟨h1, h2, h3⟩ := C96_samples (P := Measure.infinitePi fun _ : Nat => coin) (S := fun s : Stream => s) (d := d) (g := fun q : Rat => some (Val.num (10 * q))) (ν := coin) hdraw' (fun i => measurable_pi_apply i)
    (fun i => Measure.infinitePi_map_eval _ i) (iIndepFun_infinitePi (X := fun _ x => x) fun _ => measurable_id) 0
  obtain ⟨v, hv, hY, hlaw⟩ := C96_law hb (.inl (by simp)) h1 h2 h3
  have hv5 : v = .num 5 := hv
  subst hv5
  have hg : Measurable fun q : Rat => some (Val.num (10 * q)) := measurable_from_top
  have hμ : ∀ A : Set (Option Val), (coin.map fun q : Rat => some (Val.num (10 * q))) A =
      2⁻¹ * A.indicator 1 (some (.num 1)) + 2⁻¹ * A.indicator 1 (some (.num 9)) := by
    intro A
    unfold coin
    rw [Measure.map_apply hg (anySet A), Measure.add_apply, Measure.smul_apply, Measure.smul_apply, Measure.dirac_apply' _ (hg (anySet A)), Measure.dirac_apply' _ (hg (anySet A))]
    show (2⁻¹ : ℝ≥0∞) * A.indicator 1 (some (Val.num (10 * (1 / 10)))) + (2⁻¹ : ℝ≥0∞) * A.indicator 1 (some (Val.num (10 * (9 / 10)))) = _
    rw [show (10 : Rat) * (1 / 10) = 1 by norm_num, show (10 : Rat) * (9 / 10) = 9 by norm_num]
  have hB1 : some (Val.num 1) ∉ acceptable (some 5) none true true := by
    intro h
    have := (h 1 rfl).1 5 rfl
    norm_num at this
  have hB9 : some (Val.num 9) ∈ acceptable (some 5) none true true := by
    intro q hq
    simp only [Option.some.injEq, Val.num.injEq] at hq
    subst hq
    simp [Respects]
    norm_num
  have q4 : (2⁻¹ : ℝ≥0∞) ^ 2 = 4⁻¹ := by rw [← ENNReal.inv_pow]; norm_num
  refine ⟨d, b, Measure.infinitePi fun _ : Nat => coin, inferInstance, hd, hb, ?_, ?_⟩
  · have := congrArg (fun m => m {some (Val.num 9)}) hlaw
    rw [Measure.map_apply hY (anySet _)] at this
    refine Eq.trans this ?_
    rw [Measure.add_apply, Measure.smul_apply, Measure.smul_apply, Measure.dirac_apply' _ (anySet _), cond_apply (anySet _), hμ, hμ, hμ]
    simp [Set.indicator, hB1, hB9]
    rw [q4, ENNReal.mul_inv_cancel (by norm_num) (by norm_num), mul_one]
    refine ENNReal.sub_eq_of_eq_add (by simp) ?_
    rw [← one_div, ENNReal.div_add_div_same, show (3 : ℝ≥0∞) + 1 = 4 by norm_num, ENNReal.div_self (by norm_num) (by norm_num)]
  · have := congrArg (fun m => m {some (Val.num 5)}) hlaw
    rw [Measure.map_apply hY (anySet _)] at this
    refine Eq.trans this ?_
    rw [Measure.add_apply, Measure.smul_apply, Measure.smul_apply, Measure.dirac_apply' _ (anySet _), cond_apply (anySet _), hμ, hμ, hμ]
    simp [Set.indicator, hB1, hB9]
    exact q4

end Distr
end Verif
