import Verif.Props.Cdf
import Verif.Props.Pdf
import Mathlib.Algebra.Order.BigOperators.Group.Finset
import Mathlib.Algebra.BigOperators.Intervals
import Mathlib.Algebra.BigOperators.Field
import Mathlib.Algebra.Order.Archimedean.Basic
import Mathlib.Data.Rat.Floor

/-!
# mean() is the expectation of sample(), C57

The expectation of a function of a random number in [0, 1) is its (Riemann) integral: the limit of the average over random numbers of which there is one in
each of n equal parts of [0, 1), wherever in these parts.
-/

namespace Verif
namespace Distr

/-- `m` is the expectation of `g` of a random number in [0, 1) -/
def IsMean (g : Rat → Rat) (m : Rat) : Prop :=
  ∀ ε : Rat, 0 < ε → ∃ N : Nat, ∀ n : Nat, N ≤ n → ∀ t : Nat → Rat, (∀ i : Nat, i < n → (i : Rat) / n ≤ t i ∧ t i < ((i : Rat) + 1) / n) →
    |(∑ i ∈ Finset.range n, g (t i)) / n - m| < ε

/-- each sample of the distribution is a number that depends on one random number, and mean() is its expectation -/
def MeanOk (d : Dist) : Prop :=
  ∃ (g : Rat → Rat) (m : Rat), (∀ s k, 0 ≤ s k → s k < 1 → d.draw s k = (some (.num (g (s k))), k + 1)) ∧ d.mean = .val m ∧ IsMean g m

/-! ## integrals -/

/-- `F` is a primitive of `g` on [0, 1], with an error that adds up to something finite -/
def HasPrim (g F : Rat → Rat) : Prop :=
  ∃ V : Rat → Rat, ∀ a t b : Rat, 0 ≤ a → a ≤ t → t < b → b ≤ 1 → |F b - F a - g t * (b - a)| ≤ (V b - V a) * (b - a)

theorem HasPrim.mean {g F : Rat → Rat} (h : HasPrim g F) : IsMean g (F 1 - F 0) := by
  obtain ⟨V, hV⟩ := h
  intro ε hε
  obtain ⟨N, hN⟩ := exists_nat_gt ((V 1 - V 0) / ε)
  refine ⟨N + 1, fun n hn t ht => ?_⟩
  have hn0 : (0 : Rat) < n := by exact_mod_cast (by omega : 0 < n)
  have hcell : ∀ i ∈ Finset.range n, |g (t i) / n - (F (((i + 1 : Nat) : Rat) / n) - F ((i : Rat) / n))| ≤
      (V (((i + 1 : Nat) : Rat) / n) - V ((i : Rat) / n)) / n := by
    intro i hi
    have hi := Finset.mem_range.1 hi
    have hw : (((i + 1 : Nat) : Rat) / n) - (i : Rat) / n = 1 / n := by push_cast; field_simp; ring
    have := hV ((i : Rat) / n) (t i) (((i + 1 : Nat) : Rat) / n) (by positivity) (ht i hi).1 (by have := (ht i hi).2; push_cast; exact this)
      (by rw [div_le_one hn0]; exact_mod_cast hi)
    rw [hw, mul_one_div, mul_one_div] at this
    rw [abs_sub_comm]
    exact this
  have hsum : (∑ i ∈ Finset.range n, g (t i)) / n - (F 1 - F 0) = ∑ i ∈ Finset.range n, (g (t i) / n - (F (((i + 1 : Nat) : Rat) / n) - F ((i : Rat) / n))) := by
    rw [Finset.sum_sub_distrib, Finset.sum_range_sub (fun i : Nat => F ((i : Rat) / n)), Finset.sum_div, div_self hn0.ne']
    simp
  rw [hsum]
  calc |∑ i ∈ Finset.range n, (g (t i) / n - (F (((i + 1 : Nat) : Rat) / n) - F ((i : Rat) / n)))|
      ≤ ∑ i ∈ Finset.range n, |g (t i) / n - (F (((i + 1 : Nat) : Rat) / n) - F ((i : Rat) / n))| := Finset.abs_sum_le_sum_abs _ _
    _ ≤ ∑ i ∈ Finset.range n, (V (((i + 1 : Nat) : Rat) / n) - V ((i : Rat) / n)) / n := Finset.sum_le_sum hcell
    _ = (V 1 - V 0) / n := by
      rw [← Finset.sum_div, Finset.sum_range_sub (fun i : Nat => V ((i : Rat) / n)), div_self hn0.ne']
      simp
    _ < ε := by
      rw [div_lt_iff₀ hε] at hN
      rw [div_lt_iff₀ hn0]
      have : (N : Rat) + 1 ≤ n := by exact_mod_cast hn
      nlinarith

theorem HasPrim.add {g F g' F' : Rat → Rat} (h : HasPrim g F) (h' : HasPrim g' F') : HasPrim (fun t => g t + g' t) (fun r => F r + F' r) := by
  obtain ⟨V, hV⟩ := h
  obtain ⟨V', hV'⟩ := h'
  refine ⟨fun r => V r + V' r, fun a t b h0 h1 h2 h3 => ?_⟩
  have e : F b + F' b - (F a + F' a) - (g t + g' t) * (b - a) = (F b - F a - g t * (b - a)) + (F' b - F' a - g' t * (b - a)) := by ring
  show |F b + F' b - (F a + F' a) - (g t + g' t) * (b - a)| ≤ (V b + V' b - (V a + V' a)) * (b - a)
  rw [e]
  refine (abs_add_le _ _).trans ?_
  have := hV a t b h0 h1 h2 h3
  have := hV' a t b h0 h1 h2 h3
  linarith

theorem HasPrim.congr {g F g' : Rat → Rat} (h : HasPrim g F) (he : ∀ t, 0 ≤ t → t < 1 → g' t = g t) : HasPrim g' F := by
  obtain ⟨V, hV⟩ := h
  refine ⟨V, fun a t b h0 h1 h2 h3 => ?_⟩
  rw [he t (h0.trans h1) (lt_of_lt_of_le h2 h3)]
  exact hV a t b h0 h1 h2 h3

theorem hasPrim_zero : HasPrim (fun _ => 0) (fun _ => 0) := ⟨fun _ => 0, fun a t b _ _ _ _ => by simp⟩

theorem hasPrim_sum {n : Nat} {g F : Nat → Rat → Rat} (h : ∀ i, i < n → HasPrim (g i) (F i)) :
    HasPrim (fun t => ∑ i ∈ Finset.range n, g i t) (fun r => ∑ i ∈ Finset.range n, F i r) := by
  induction n with
  | zero => simpa using hasPrim_zero
  | succ n ih =>
    simp only [Finset.sum_range_succ]
    exact (ih (fun i hi => h i (by omega))).add (h n (by omega))

/-- 1 if the number is past `c` -/
def step (c r : Rat) : Rat := (if c < r then 1 else 0) + if c ≤ r then 1 else 0

theorem step_mono (c : Rat) {a b : Rat} (h : a ≤ b) : step c a ≤ step c b := by
  unfold step
  split <;> split <;> split <;> split <;> first | linarith | (exfalso; linarith)

theorem step_in {c a b : Rat} (h : a < b) (h1 : a ≤ c) (h2 : c ≤ b) : step c a + 1 ≤ step c b := by
  unfold step
  rw [if_neg (show ¬ c < a by linarith), if_pos h2]
  rcases eq_or_lt_of_le h1 with rfl | h3
  · rw [if_pos h, if_pos le_rfl]; norm_num
  · rw [if_neg (show ¬ c ≤ a by linarith)]
    split <;> norm_num

/-- a function that differs from 0 in one point only -/
theorem hasPrim_point {c M : Rat} {e : Rat → Rat} (he : ∀ t, t ≠ c → e t = 0) (hM : |e c| ≤ M) : HasPrim e (fun _ => 0) := by
  refine ⟨fun r => M * step c r, fun a t b h0 h1 h2 h3 => ?_⟩
  have hab : a < b := lt_of_le_of_lt h1 h2
  have hM0 : 0 ≤ M := (abs_nonneg _).trans hM
  have hba : 0 ≤ b - a := by linarith
  show |0 - 0 - e t * (b - a)| ≤ (M * step c b - M * step c a) * (b - a)
  rw [show (0 : Rat) - 0 - e t * (b - a) = -(e t * (b - a)) by ring, abs_neg, abs_mul, abs_of_nonneg hba]
  apply mul_le_mul_of_nonneg_right _ hba
  by_cases htc : t = c
  · subst htc
    have := step_in hab h1 h2.le
    nlinarith
  · rw [he t htc, abs_zero]
    have := step_mono c hab.le
    nlinarith

/-- a number brought between two bounds -/
def clamp (c d r : Rat) : Rat := max c (min r d)

theorem clamp_lip (c d : Rat) {a b : Rat} (h : a ≤ b) : 0 ≤ clamp c d b - clamp c d a ∧ clamp c d b - clamp c d a ≤ b - a := by
  unfold clamp
  constructor
  · have : min a d ≤ min b d := min_le_min_right d h
    have := max_le_max_left c this
    linarith
  · rcases le_total b d with hb | hb
    · rw [min_eq_left hb, min_eq_left (h.trans hb)]
      rcases le_total c a with hc | hc
      · rw [max_eq_right hc, max_eq_right (hc.trans h)]
      · rw [max_eq_left hc]
        rcases le_total c b with hc' | hc'
        · rw [max_eq_right hc']; linarith
        · rw [max_eq_left hc']; linarith
    · rw [min_eq_right hb]
      rcases le_total a d with ha | ha
      · rw [min_eq_left ha]
        rcases le_total c a with hc | hc
        · rw [max_eq_right hc, max_eq_right (hc.trans ha)]; linarith
        · rw [max_eq_left hc]
          rcases le_total c d with hc' | hc'
          · rw [max_eq_right hc']; linarith
          · rw [max_eq_left hc']; linarith
      · rw [min_eq_right ha]; linarith

/-- a linear function on a part of [0, 1], 0 elsewhere -/
theorem hasPrim_piece {c d α β : Rat} (hc : 0 ≤ c) (hcd : c ≤ d) (hd : d ≤ 1) :
    HasPrim (fun t => if c < t ∧ t < d then α + β * t else 0)
      (fun r => α * (clamp c d r - c) + β * (clamp c d r ^ 2 - c ^ 2) / 2) := by
  have hK : 0 ≤ |α| + |β| := by positivity
  refine ⟨fun r => |β| * r + 2 * (|α| + |β|) * (step c r + step d r), fun a t b h0 h1 h2 h3 => ?_⟩
  have hab : a < b := lt_of_le_of_lt h1 h2
  have hba : 0 ≤ b - a := by linarith
  obtain ⟨l1, l2⟩ := clamp_lip c d hab.le
  have mc := step_mono c hab.le
  have md := step_mono d hab.le
  show |α * (clamp c d b - c) + β * (clamp c d b ^ 2 - c ^ 2) / 2 - (α * (clamp c d a - c) + β * (clamp c d a ^ 2 - c ^ 2) / 2) - (if c < t ∧ t < d then α + β * t else 0) * (b - a)| ≤
    (|β| * b + 2 * (|α| + |β|) * (step c b + step d b) - (|β| * a + 2 * (|α| + |β|) * (step c a + step d a))) * (b - a)
  have e1 : α * (clamp c d b - c) + β * (clamp c d b ^ 2 - c ^ 2) / 2 - (α * (clamp c d a - c) + β * (clamp c d a ^ 2 - c ^ 2) / 2) =
      (α + β * ((clamp c d a + clamp c d b) / 2)) * (clamp c d b - clamp c d a) := by ring
  rw [e1]
  have hcl : ∀ r, c ≤ clamp c d r ∧ clamp c d r ≤ d := by
    intro r; unfold clamp
    exact ⟨le_max_left _ _, max_le hcd (min_le_right _ _)⟩
  have hkey : ∀ x, 0 ≤ x → x ≤ 1 → |α + β * x| ≤ |α| + |β| := by
    intro x hx0 hx1
    refine (abs_add_le _ _).trans ?_
    rw [abs_mul, abs_of_nonneg hx0]
    have := mul_le_mul_of_nonneg_left hx1 (abs_nonneg β)
    linarith
  by_cases hin : (a ≤ c ∧ c ≤ b) ∨ (a ≤ d ∧ d ≤ b)
  · -- an end of the part is inside
    have hs : step c a + step d a + 1 ≤ step c b + step d b := by
      rcases hin with ⟨i1, i2⟩ | ⟨i1, i2⟩
      · have := step_in hab i1 i2; linarith
      · have := step_in hab i1 i2; linarith
    have hb1 : |(α + β * ((clamp c d a + clamp c d b) / 2)) * (clamp c d b - clamp c d a)| ≤ (|α| + |β|) * (b - a) := by
      rw [abs_mul, abs_of_nonneg l1]
      have ha := hcl a
      have hb := hcl b
      exact mul_le_mul (hkey _ (by linarith) (by linarith)) l2 l1 hK
    have hb2 : |(if c < t ∧ t < d then α + β * t else 0) * (b - a)| ≤ (|α| + |β|) * (b - a) := by
      rw [abs_mul, abs_of_nonneg hba]
      apply mul_le_mul_of_nonneg_right _ hba
      split
      · rename_i ht; exact hkey t (by linarith [ht.1]) (by linarith [ht.2])
      · simpa using hK
    refine (abs_sub _ _).trans ?_
    have hbig : 2 * (|α| + |β|) ≤ |β| * b + 2 * (|α| + |β|) * (step c b + step d b) - (|β| * a + 2 * (|α| + |β|) * (step c a + step d a)) := by
      have := mul_le_mul_of_nonneg_left hab.le (abs_nonneg β)
      have := mul_le_mul_of_nonneg_left hs (by linarith : (0 : Rat) ≤ 2 * (|α| + |β|))
      linarith
    have := mul_le_mul_of_nonneg_right hbig hba
    linarith
  · have hnot : ∀ e, step e a ≤ step e b := fun e => step_mono e hab.le
    have hsm : |β| * (b - a) ≤ |β| * b + 2 * (|α| + |β|) * (step c b + step d b) - (|β| * a + 2 * (|α| + |β|) * (step c a + step d a)) := by
      have := mul_le_mul_of_nonneg_left (add_le_add mc md) (by linarith : (0 : Rat) ≤ 2 * (|α| + |β|))
      linarith
    have hz : 0 ≤ (|β| * b + 2 * (|α| + |β|) * (step c b + step d b) - (|β| * a + 2 * (|α| + |β|) * (step c a + step d a))) * (b - a) := by
      apply mul_nonneg _ hba
      have := mul_nonneg (abs_nonneg β) hba
      linarith
    by_cases hbc : b < c
    · have c1 : clamp c d b = c := by unfold clamp; rw [min_eq_left (by linarith), max_eq_left hbc.le]
      have c2 : clamp c d a = c := by unfold clamp; rw [min_eq_left (by linarith), max_eq_left (by linarith)]
      rw [c1, c2, if_neg (by intro h; linarith [h.1])]
      simpa using hz
    · by_cases hda : d < a
      · have c1 : clamp c d b = d := by unfold clamp; rw [min_eq_right (by linarith), max_eq_right hcd]
        have c2 : clamp c d a = d := by unfold clamp; rw [min_eq_right (by linarith), max_eq_right hcd]
        rw [c1, c2, if_neg (by intro h; linarith [h.2])]
        simpa using hz
      · have hca : c < a := by
          by_contra h; exact hin (Or.inl ⟨not_lt.1 h, not_lt.1 hbc⟩)
        have hbd : b < d := by
          by_contra h; exact hin (Or.inr ⟨not_lt.1 hda, not_lt.1 h⟩)
        have c1 : clamp c d b = b := by unfold clamp; rw [min_eq_left hbd.le, max_eq_right (by linarith)]
        have c2 : clamp c d a = a := by unfold clamp; rw [min_eq_left (by linarith), max_eq_right hca.le]
        rw [c1, c2, if_pos ⟨by linarith, by linarith⟩]
        have e2 : (α + β * ((a + b) / 2)) * (b - a) - (α + β * t) * (b - a) = (β * ((a + b) / 2 - t)) * (b - a) := by ring
        rw [e2, abs_mul, abs_of_nonneg hba]
        apply mul_le_mul_of_nonneg_right _ hba
        rw [abs_mul]
        refine le_trans (mul_le_mul_of_nonneg_left ?_ (abs_nonneg β)) hsm
        rw [abs_le]; constructor <;> linarith

/-- the expectation of a function that is linear between given numbers, whatever its values in these numbers -/
theorem mean_pieces {n : Nat} {c α β : Nat → Rat} {g : Rat → Rat} {M : Rat} (h0 : c 0 = 0) (h1 : c n = 1) (hmono : ∀ i, i < n → c i ≤ c (i + 1))
    (hg : ∀ i, i < n → ∀ t, c i < t → t < c (i + 1) → g t = α i + β i * t) (hM : ∀ t, 0 ≤ t → t < 1 → |g t| ≤ M) :
    IsMean g (∑ i ∈ Finset.range n, (α i * (c (i + 1) - c i) + β i * (c (i + 1) ^ 2 - c i ^ 2) / 2)) := by
  have hle : ∀ i j, i ≤ j → j ≤ n → c i ≤ c j := by
    intro i j hij
    induction j with
    | zero => intro _; rw [Nat.le_zero.1 hij]
    | succ j ih =>
      intro hj
      rcases Nat.lt_or_ge i (j + 1) with h | h
      · exact (ih (by omega) (by omega)).trans (hmono j (by omega))
      · rw [show i = j + 1 by omega]
  have h01 : ∀ i, i ≤ n → 0 ≤ c i ∧ c i ≤ 1 := fun i hi => ⟨h0 ▸ hle 0 i (by omega) hi, h1 ▸ hle i n hi le_rfl⟩
  let hp : Nat → Rat → Rat := fun i t => if c i < t ∧ t < c (i + 1) then α i + β i * t else 0
  let P : Nat → Rat → Rat := fun i r => α i * (clamp (c i) (c (i + 1)) r - c i) + β i * (clamp (c i) (c (i + 1)) r ^ 2 - c i ^ 2) / 2
  let e : Nat → Rat → Rat := fun i t => if t = c i ∧ ∀ j, j < i → c j ≠ c i then (if 0 ≤ t ∧ t < 1 then g t else 0) else 0
  have hP : HasPrim (fun t => ∑ i ∈ Finset.range n, hp i t) (fun r => ∑ i ∈ Finset.range n, P i r) :=
    hasPrim_sum fun i hi => hasPrim_piece (h01 i (by omega)).1 (hmono i hi) (h01 (i + 1) (by omega)).2
  have hM0 : 0 ≤ M := (abs_nonneg _).trans (hM 0 le_rfl one_pos)
  have hE : HasPrim (fun t => ∑ i ∈ Finset.range (n + 1), e i t) (fun _ => ∑ i ∈ Finset.range (n + 1), (0 : Rat)) := by
    refine hasPrim_sum (F := fun _ _ => 0) fun i hi => hasPrim_point (c := c i) (M := M) ?_ ?_
    · intro t ht
      show (if t = c i ∧ _ then _ else _) = (0 : Rat)
      rw [if_neg (fun h => ht h.1)]
    · show |if c i = c i ∧ _ then (if 0 ≤ c i ∧ c i < 1 then g (c i) else 0) else 0| ≤ M
      split
      · split
        · rename_i hh; exact hM _ hh.1 hh.2
        · simpa using hM0
      · simpa using hM0
  have hall := (hP.add hE).congr (g' := g) (by
    intro t ht0 ht1
    by_cases hx : ∃ i, i ≤ n ∧ t = c i
    · -- a given number: the first one that is equal counts
      obtain ⟨i, ⟨hi, hti⟩, hmin⟩ := Nat.findX hx
      have hfirst : ∀ j, j < i → c j ≠ c i := fun j hj hje => hmin j hj ⟨by omega, by rw [hje]; exact hti⟩
      have s1 : ∑ j ∈ Finset.range n, hp j t = 0 := by
        refine Finset.sum_eq_zero fun j hj => ?_
        have hj := Finset.mem_range.1 hj
        show (if c j < t ∧ t < c (j + 1) then _ else _) = (0 : Rat)
        rw [if_neg]
        rintro ⟨a1, a2⟩
        rw [hti] at a1 a2
        rcases Nat.lt_or_ge j i with h | h
        · have := hle (j + 1) i (by omega) hi; linarith
        · have := hle i j h (by omega); linarith
      have s2 : ∑ j ∈ Finset.range (n + 1), e j t = g t := by
        rw [Finset.sum_eq_single i]
        · show (if t = c i ∧ _ then _ else _) = g t
          rw [if_pos ⟨hti, hfirst⟩, if_pos ⟨ht0, ht1⟩]
        · intro j _ hji
          show (if t = c j ∧ _ then _ else _) = (0 : Rat)
          rw [if_neg]
          rintro ⟨a1, a2⟩
          rcases Nat.lt_or_ge j i with h | h
          · exact hfirst j h (a1.symm.trans hti)
          · exact a2 i (by omega) (hti.symm.trans a1)
        · intro h; exact absurd (Finset.mem_range.2 (by omega)) h
      rw [s1, s2, zero_add]
    · have hne : ∀ i, i ≤ n → t ≠ c i := fun i hi h => hx ⟨i, hi, h⟩
      have s2 : ∑ j ∈ Finset.range (n + 1), e j t = 0 := by
        refine Finset.sum_eq_zero fun j hj => ?_
        have hj := Finset.mem_range.1 hj
        show (if t = c j ∧ _ then _ else _) = (0 : Rat)
        rw [if_neg (fun h => hne j (by omega) h.1)]
      have hex : ∃ i, i ≤ n ∧ t < c i := ⟨n, le_rfl, by rw [h1]; exact ht1⟩
      obtain ⟨i, ⟨hi, hti⟩, hmin⟩ := Nat.findX hex
      have hi0 : i ≠ 0 := by rintro rfl; rw [h0] at hti; linarith
      obtain ⟨k, rfl⟩ := Nat.exists_eq_succ_of_ne_zero hi0
      have hk : c k < t := by
        have : ¬ t < c k := fun h => hmin k (by omega) ⟨by omega, h⟩
        exact lt_of_le_of_ne (not_lt.1 this) (hne k (by omega)).symm
      have s1 : ∑ j ∈ Finset.range n, hp j t = g t := by
        rw [Finset.sum_eq_single k]
        · show (if c k < t ∧ t < c (k + 1) then _ else _) = g t
          rw [if_pos ⟨hk, hti⟩, hg k (by omega) t hk hti]
        · intro j hj hjk
          have hj := Finset.mem_range.1 hj
          show (if c j < t ∧ t < c (j + 1) then _ else _) = (0 : Rat)
          rw [if_neg]
          rintro ⟨a1, a2⟩
          rcases Nat.lt_or_ge j k with h | h
          · have := hle (j + 1) k (by omega) (by omega); linarith
          · have := hle (k + 1) j (by omega) (by omega); linarith
        · intro h; exact absurd (Finset.mem_range.2 (by omega)) h
      rw [s1, s2, add_zero])
  have hm := hall.mean
  have heq : (∑ i ∈ Finset.range n, P i 1 + ∑ i ∈ Finset.range (n + 1), (0 : Rat)) - (∑ i ∈ Finset.range n, P i 0 + ∑ i ∈ Finset.range (n + 1), (0 : Rat)) =
      ∑ i ∈ Finset.range n, (α i * (c (i + 1) - c i) + β i * (c (i + 1) ^ 2 - c i ^ 2) / 2) := by
    rw [add_sub_add_right_eq_sub, ← Finset.sum_sub_distrib]
    refine Finset.sum_congr rfl fun i hi => ?_
    have hi := Finset.mem_range.1 hi
    have a1 := h01 i (by omega)
    have a2 := h01 (i + 1) (by omega)
    have k1 : clamp (c i) (c (i + 1)) 1 = c (i + 1) := by unfold clamp; rw [min_eq_right a2.2, max_eq_right (hmono i hi)]
    have k0 : clamp (c i) (c (i + 1)) 0 = c i := by unfold clamp; rw [min_eq_left a2.1, max_eq_left a1.1]
    show α i * (clamp (c i) (c (i + 1)) 1 - c i) + β i * (clamp (c i) (c (i + 1)) 1 ^ 2 - c i ^ 2) / 2 - (α i * (clamp (c i) (c (i + 1)) 0 - c i) + β i * (clamp (c i) (c (i + 1)) 0 ^ 2 - c i ^ 2) / 2) = _
    rw [k1, k0]; ring
  rw [heq] at hm
  exact hm

/-! ## the distributions -/

/-- C57, Uniform: mean() is the expectation of sample() -/
theorem C57_uniform {lo : Rat} {hi : Option Rat} {f : Rat} {d : Dist} (h : uniform lo hi f = some d) : MeanOk d := by
  unfold uniform at h
  simp only at h
  split at h
  · cases h
  · cases h
    refine ⟨fun r => (lo + (hi.getD lo - lo) * r) * f, (lo + hi.getD lo) / 2 * f, fun s k _ _ => rfl, rfl, ?_⟩
    have := mean_pieces (n := 1) (c := fun i => i) (α := fun _ => lo * f) (β := fun _ => (hi.getD lo - lo) * f)
      (g := fun r => (lo + (hi.getD lo - lo) * r) * f) (M := (|lo| + |hi.getD lo - lo|) * |f|) (by simp) (by simp) (fun i _ => by simp)
      (fun i _ t _ _ => by ring) (fun t h0 h1 => by
        show |(lo + (hi.getD lo - lo) * t) * f| ≤ _
        rw [abs_mul]
        apply mul_le_mul_of_nonneg_right _ (abs_nonneg f)
        refine (abs_add_le _ _).trans ?_
        rw [abs_mul, abs_of_nonneg h0]
        have := mul_le_mul_of_nonneg_left h1.le (abs_nonneg (hi.getD lo - lo))
        linarith)
    have e : (lo + hi.getD lo) / 2 * f = ∑ i ∈ Finset.range 1, (lo * f * (((i + 1 : Nat) : Rat) - i) + (hi.getD lo - lo) * f * (((i + 1 : Nat) : Rat) ^ 2 - (i : Rat) ^ 2) / 2) := by
      rw [Finset.sum_range_one]; push_cast; ring
    rw [e]; exact this

/-- a distribution with finitely many values -/
theorem meanOk_steps {d : Dist} {n : Nat} {c v : Nat → Rat} {M : Rat} (h0 : c 0 = 0) (h1 : c n = 1) (hmono : ∀ i, i < n → c i ≤ c (i + 1))
    (hval : ∀ t, 0 ≤ t → t < 1 → ∃ w, |w| ≤ M ∧ ∀ (s : Stream) k, s k = t → d.draw s k = (some (.num w), k + 1))
    (hin : ∀ i, i < n → ∀ t, c i < t → t < c (i + 1) → ∀ (s : Stream) k, s k = t → d.draw s k = (some (.num (v i)), k + 1))
    (hm : d.mean = .val (∑ i ∈ Finset.range n, v i * (c (i + 1) - c i))) : MeanOk d := by
  have hle : ∀ i, i ≤ n → 0 ≤ c i ∧ c i ≤ 1 := by
    have key : ∀ i j, i ≤ j → j ≤ n → c i ≤ c j := by
      intro i j hij
      induction j with
      | zero => intro _; rw [Nat.le_zero.1 hij]
      | succ j ih =>
        intro hj
        rcases Nat.lt_or_ge i (j + 1) with h | h
        · exact (ih (by omega) (by omega)).trans (hmono j (by omega))
        · rw [show i = j + 1 by omega]
    exact fun i hi => ⟨h0 ▸ key 0 i (by omega) hi, h1 ▸ key i n hi le_rfl⟩
  have hg : ∀ t, 0 ≤ t → t < 1 → |(sampleAt d t).getD 0| ≤ M ∧ ∀ (s : Stream) k, s k = t → d.draw s k = (some (.num ((sampleAt d t).getD 0)), k + 1) := by
    intro t a b
    obtain ⟨w, hw, hd⟩ := hval t a b
    have : (sampleAt d t).getD 0 = w := by
      unfold sampleAt
      rw [hd (fun _ => t) 0 rfl]
      rfl
    rw [this]
    exact ⟨hw, hd⟩
  refine ⟨fun t => (sampleAt d t).getD 0, _, fun s k a b => (hg (s k) a b).2 s k rfl, hm, ?_⟩
  have := mean_pieces (n := n) (c := c) (α := v) (β := fun _ => 0) (g := fun t => (sampleAt d t).getD 0) (M := M) h0 h1 hmono
    (fun i hi t a b => by
      show (sampleAt d t).getD 0 = v i + 0 * t
      unfold sampleAt
      rw [hin i hi t a b (fun _ => t) 0 rfl, zero_mul, add_zero]
      rfl)
    (fun t a b => (hg t a b).1)
  simpa using this

theorem below_exists {n : Nat} (hn : 0 < n) {r : Rat} (h0 : 0 ≤ r) (h1 : r < 1) : below n r < n ∧ ((below n r : Nat) : Rat) / n ≤ r ∧ r < ((below n r : Nat) + 1 : Rat) / n := by
  have hn' : (0 : Rat) < n := by exact_mod_cast hn
  have hr : 0 ≤ r * n := by positivity
  have hfl : 0 ≤ (r * n).floor := by
    rw [show (r * n).floor = ⌊r * (n : Rat)⌋ from rfl]; exact Int.floor_nonneg.2 hr
  have e : ((below n r : Nat) : Rat) = ((⌊r * (n : Rat)⌋ : Int) : Rat) := by
    unfold below
    rw [← Int.cast_natCast, Int.toNat_of_nonneg hfl]
    rfl
  have l1 := Int.floor_le (r * (n : Rat))
  have l2 := Int.lt_floor_add_one (r * (n : Rat))
  refine ⟨?_, ?_, ?_⟩
  · have : ((below n r : Nat) : Rat) < n := by
      rw [e]
      refine lt_of_le_of_lt l1 ?_
      nlinarith
    exact_mod_cast this
  · rw [div_le_iff₀ hn', e]; exact l1
  · rw [lt_div_iff₀ hn', e]; exact l2

theorem sum_steps (a : Rat) (n : Nat) : ∑ i ∈ Finset.range n, (a + i) = n * a + (n : Rat) * (n - 1) / 2 := by
  induction n with
  | zero => simp
  | succ n ih => rw [Finset.sum_range_succ, ih]; push_cast; ring

/-- C57, IntUniform: mean() is the expectation of sample() -/
theorem C57_int_uniform {lo : Int} {hi : Option Int} {f : Rat} {d : Dist} (h : intUniform lo hi f = some d) : MeanOk d := by
  unfold intUniform at h
  simp only at h
  split at h
  · cases h
  · rename_i hlo
    cases h
    generalize hi.getD lo = hi at *
    obtain ⟨n, hn⟩ : ∃ n : Nat, (hi - lo + 1).toNat = n := ⟨_, rfl⟩
    have hn0 : 0 < n := by omega
    have hn' : (0 : Rat) < n := by exact_mod_cast hn0
    have hhi : (hi : Rat) = lo + n - 1 := by
      have : hi = lo + n - 1 := by omega
      rw [this]; push_cast; ring
    have hdraw : ∀ (s : Stream) k, (scaled (rRandint lo hi) ((lo + hi : Rat) / 2) f).draw s k = (some (.num (((lo : Rat) + (below n (s k) : Nat)) * f)), k + 1) := by
      intro s k
      rw [← hn]; rfl
    refine meanOk_steps (n := n) (c := fun i => (i : Rat) / n) (v := fun i => ((lo : Rat) + i) * f) (M := (|(lo : Rat)| + n) * |f|) (by simp)
      (div_self hn'.ne') (fun i _ => div_le_div_of_nonneg_right (by push_cast; linarith) hn'.le) ?_ ?_ ?_
    · intro t h0 h1
      refine ⟨((lo : Rat) + (below n t : Nat)) * f, ?_, fun s k hs => by rw [hdraw, hs]⟩
      rw [abs_mul]
      apply mul_le_mul_of_nonneg_right _ (abs_nonneg f)
      refine (abs_add_le _ _).trans ?_
      have := (below_exists hn0 h0 h1).1
      have : ((below n t : Nat) : Rat) ≤ n := by exact_mod_cast this.le
      rw [abs_of_nonneg (by positivity : (0 : Rat) ≤ (below n t : Nat))]
      linarith
    · intro i _ t a b s k hs
      have b' : t < ((i : Rat) + 1) / n := by have := b; push_cast at this; exact this
      rw [hdraw, hs, below_eq hn0 a.le b']
    · show Mean.val ((lo + hi : Rat) / 2 * f) = _
      congr 1
      have : ∀ i ∈ Finset.range n, ((lo : Rat) + i) * f * (((i + 1 : Nat) : Rat) / n - (i : Rat) / n) = ((lo : Rat) + i) * (f / n) := by
        intro i _
        push_cast; field_simp; ring
      rw [Finset.sum_congr rfl this, ← Finset.sum_mul, sum_steps, hhi]
      field_simp
      ring

/-- C57, Cdf: mean() is the expectation of sample() -/
theorem C57_cdf {spec : List Rat} {f : Rat} (hf : 0 < f) {d : Dist} (h : cdf spec f = some d) : MeanOk d := by
  have hdr := (C37_accepts hf spec).2 d h
  obtain ⟨pts, rfl, hv⟩ := (C37_accepts hf spec).1.1 (by rw [h]; simp)
  have hn := hv.normal hf
  have hs := cdf_sampleAt hv hf h
  obtain ⟨x, hx, _, hb⟩ := C37_monotone hv hf h
  have hmean : d.mean = .val (cdfMean (pts.map fun p => (p.1 * f, p.2 / total pts))) := by
    unfold cdf at h
    rw [(cdfPoints_iff hf _ _).2 ⟨pts, rfl, hv, rfl⟩] at h
    cases h
    rfl
  have hxe : ∀ r, x r = cdfAt (pts.map fun p => (p.1 * f, p.2 / total pts)) r := by
    intro r
    have := (hx r).symm.trans (hs r)
    simpa using this
  generalize (pts.map fun p => (p.1 * f, p.2 / total pts)) = l at *
  refine ⟨x, _, fun s k _ _ => by rw [hdr, hx]; rfl, hmean, ?_⟩
  have hp := hn.pos
  let X : Nat → Rat := fun i => (l.getD i (0, 0)).1
  let C : Nat → Rat := fun i => (l.getD i (0, 0)).2
  let β : Nat → Rat := fun i => (X (i + 1) - X i) / (C (i + 1) - C i)
  let α : Nat → Rat := fun i => X i - β i * C i
  have := mean_pieces (n := l.length - 1) (c := C) (α := α) (β := β) (g := x)
    (M := |(pts.getD 0 (0, 0)).1 * f| + |(pts.getD (pts.length - 1) (0, 0)).1 * f|) hn.first hn.last (fun i hi => hn.cums i (i + 1) (by omega) (by omega))
    (by
      intro i hi t a b
      have hC0 : 0 ≤ C i := by have := hn.cums 0 i (by omega) (by omega); rw [hn.first] at this; exact this
      have hC1 : C (i + 1) ≤ 1 := by have := hn.cums (i + 1) (l.length - 1) (by omega) (by omega); rw [hn.last] at this; exact this
      obtain ⟨j, hj, hl, hu, he⟩ := hn.segment (r := t) (by linarith) (by linarith)
      have hij : j = i := by
        apply le_antisymm
        · by_contra hlt
          have : C (i + 1) ≤ C j := hn.cums (i + 1) j (by omega) (by omega)
          have hl' : C j ≤ t := hl
          linarith
        · by_contra hlt
          have : C (j + 1) ≤ C i := hn.cums (j + 1) i (by omega) (by omega)
          have hu' : t < C (j + 1) := hu
          linarith
      subst hij
      rw [hxe, he]
      show X j + (X (j + 1) - X j) * ((t - C j) / (C (j + 1) - C j)) = X j - (X (j + 1) - X j) / (C (j + 1) - C j) * C j + (X (j + 1) - X j) / (C (j + 1) - C j) * t
      ring)
    (by
      intro t h0 h1
      obtain ⟨b1, b2⟩ := hb t h0 h1
      rw [abs_le]
      have := neg_abs_le ((pts.getD 0 (0, 0)).1 * f)
      have := le_abs_self ((pts.getD (pts.length - 1) (0, 0)).1 * f)
      have := abs_nonneg ((pts.getD 0 (0, 0)).1 * f)
      have := abs_nonneg ((pts.getD (pts.length - 1) (0, 0)).1 * f)
      constructor <;> linarith)
  have e : cdfMean l = ∑ i ∈ Finset.range (l.length - 1), (α i * (C (i + 1) - C i) + β i * (C (i + 1) ^ 2 - C i ^ 2) / 2) := by
    have e1 : ∀ n, (List.range n).foldl (fun m i => m + ((X i + X (i + 1)) / 2) * (C (i + 1) - C i)) 0 = ∑ i ∈ Finset.range n, ((X i + X (i + 1)) / 2) * (C (i + 1) - C i) := by
      intro n
      induction n with
      | zero => rfl
      | succ n ih => rw [List.range_succ, List.foldl_append, ih, Finset.sum_range_succ]; rfl
    refine (e1 _).trans (Finset.sum_congr rfl fun i _ => ?_)
    show _ = (X i - (X (i + 1) - X i) / (C (i + 1) - C i) * C i) * (C (i + 1) - C i) + (X (i + 1) - X i) / (C (i + 1) - C i) * (C (i + 1) ^ 2 - C i ^ 2) / 2
    by_cases hc : C (i + 1) - C i = 0
    · have hc' : C (i + 1) = C i := by linarith
      rw [hc']; simp
    · field_simp
      ring
  rw [e]; exact this

theorem zipWith_range (F : Rat) : ∀ qs ps : List Rat, qs.length = ps.length →
    (List.zipWith (fun q p => q * F * p) qs ps).sum = ∑ i ∈ Finset.range qs.length, qs.getD i 0 * F * ps.getD i 0 := by
  intro qs
  induction qs with
  | nil => intro ps _; simp
  | cons q qs ih =>
    intro ps h
    cases ps with
    | nil => simp at h
    | cons p ps =>
      rw [List.zipWith_cons_cons, List.sum_cons, ih ps (by simpa using h), List.length_cons, Finset.sum_range_succ', add_comm]
      rfl

theorem abs_le_sum {qs : List Rat} {F : Rat} {i : Nat} (h : i < qs.length) : |qs.getD i 0 * F| ≤ (qs.map fun q => |q * F|).sum := by
  rw [List.getD_eq_getElem _ _ h]
  exact List.single_le_sum (fun x hx => by obtain ⟨q, _, rfl⟩ := List.mem_map.1 hx; exact abs_nonneg _) _ (List.mem_map.2 ⟨_, List.getElem_mem h, rfl⟩)

theorem scale_num (q : Rat) (f : Option Rat) : (Item.val (.num q)).scale f = some (.val (.num (q * f.getD 1))) := by cases f <;> simp [Item.scale]

theorem nums_get {qs : List Rat} {i : Nat} (h : i < qs.length) : (nums qs)[i]? = some (.val (.num (qs.getD i 0))) := by
  unfold nums
  rw [List.getElem?_map, List.getElem?_eq_getElem h, List.getD_eq_getElem _ _ h]
  rfl

/-- C57, Pdf of numbers: mean() is the expectation of sample(). Although for the random number 0 the sample is wrong (`C38_zero_counterexample`), that has no
influence. -/
theorem C57_pdf {spec : PSpec} {qs ps : List Rat} (hread : spec.read = some (nums qs, ps)) (hps : ∀ p ∈ ps, 0 ≤ p) {f : Option Rat} {d : Dist} (h : pdf spec f = some d) :
    MeanOk d := by
  unfold pdf at h
  obtain ⟨o, ho, rfl⟩ := Option.map_eq_some_iff.1 h
  have hlen : qs.length = ps.length := by have := PSpec.read_length hread; simpa [nums] using this
  obtain ⟨xs', ps', hr, hl, hS, hsup, hpt⟩ := pdfNew_spec ho
  rw [hread] at hr
  cases hr
  have hl : o.pts.length = qs.length := by simpa [nums] using hl
  have hm := C38_mean ho hread
  obtain ⟨L1, L2⟩ := C38_lengths hps hS
  have hSpos : 0 < ps.sum := lt_of_le_of_ne (List.sum_nonneg hps) (Ne.symm hS)
  have hn0 : 0 < qs.length := by
    rw [hlen]
    cases ps with
    | nil => simp at hS
    | cons a l => simp
  by_cases heq : ∀ p ∈ ps, ∀ q ∈ ps, p = q
  · have hn' : (0 : Rat) < qs.length := by exact_mod_cast hn0
    have hdraw : ∀ i, i < qs.length → ∀ (s : Stream) k, (i : Rat) / qs.length ≤ s k → s k < ((i : Rat) + 1) / qs.length →
        o.toDist.draw s k = (some (.num (qs.getD i 0 * f.getD 1)), k + 1) := by
      intro i hi s k a b
      obtain ⟨w, hw, e⟩ := C38_equal ho hread heq (nums_get hi) (s := s) (k := k) (by simpa [nums] using a) (by simpa [nums] using b)
      rw [scale_num] at hw
      cases hw
      exact e
    refine meanOk_steps (n := qs.length) (c := fun i => (i : Rat) / qs.length) (v := fun i => qs.getD i 0 * f.getD 1) (M := (qs.map fun q => |q * f.getD 1|).sum)
      (by simp) (div_self hn'.ne') (fun i _ => div_le_div_of_nonneg_right (by push_cast; linarith) hn'.le) ?_ ?_ ?_
    · intro t h0 h1
      obtain ⟨b1, b2, b3⟩ := below_exists hn0 h0 h1
      exact ⟨_, abs_le_sum b1, fun s k hs => hdraw _ b1 s k (by rw [hs]; exact b2) (by rw [hs]; exact b3)⟩
    · intro i hi t a b s k hs
      exact hdraw i hi s k (by rw [hs]; exact a.le) (by rw [hs]; have := b; push_cast at this; exact this)
    · show o.mean = _
      rw [hm, zipWith_range _ _ _ hlen]
      congr 1
      obtain ⟨p0, hp0⟩ : ∃ p, p ∈ ps := by
        cases ps with
        | nil => simp at hS
        | cons a l => exact ⟨a, by simp⟩
      have hsum : ps.sum = qs.length * p0 := by
        have : ps = List.replicate ps.length p0 := List.eq_replicate_iff.2 ⟨rfl, fun b hb => heq b hb p0 hp0⟩
        rw [this, List.sum_replicate, hlen]; simp
      have hp0ne : p0 ≠ 0 := by rintro rfl; rw [mul_zero] at hsum; exact hS hsum
      rw [Finset.sum_div]
      refine Finset.sum_congr rfl fun i hi => ?_
      have hi := Finset.mem_range.1 hi
      have : ps.getD i 0 = p0 := by
        rw [List.getD_eq_getElem _ _ (by omega)]
        exact heq _ (List.getElem_mem _) p0 hp0
      rw [this, hsum]
      push_cast
      field_simp
      ring
  · have hne : ∃ p ∈ ps, ∃ q ∈ ps, p ≠ q := by
      by_contra hc
      apply heq
      intro p hp q hq
      by_contra hpq
      exact hc ⟨p, hp, q, hq, hpq⟩
    have hdraw : ∀ i, i < qs.length → ∀ (s : Stream) k, (ps.take i).sum / ps.sum < s k → s k ≤ (ps.take (i + 1)).sum / ps.sum →
        o.toDist.draw s k = (some (.num (qs.getD i 0 * f.getD 1)), k + 1) := by
      intro i hi s k a b
      obtain ⟨y, hy, e⟩ := C38_interval_partial ho hread hps hne (nums_get hi) a b
      rw [scale_num] at hy
      cases hy
      exact e
    refine meanOk_steps (n := qs.length) (c := fun i => (ps.take i).sum / ps.sum) (v := fun i => qs.getD i 0 * f.getD 1) (M := (qs.map fun q => |q * f.getD 1|).sum)
      (by simp) (by rw [hlen, List.take_length, div_self hS]) (fun i _ => div_le_div_of_nonneg_right (take_sum_mono hps (by omega)) hSpos.le) ?_ ?_ ?_
    · intro t h0 h1
      rcases eq_or_lt_of_le h0 with rfl | h0
      · refine ⟨0, by rw [abs_zero]; exact (abs_nonneg _).trans (abs_le_sum hn0), ?_⟩
        intro s k hs
        show o.sample1 s k = _
        have hsup' : o.supportsN = false := by
          by_contra hc
          exact heq ((all_equal_iff ps).1 (hsup.1 (by simpa using hc)))
        unfold PdfObj.sample1
        rw [hsup', hs]
        simp [pick, Item.sample]
      · obtain ⟨i, hi, a, b⟩ := L2 t h0 h1.le
        exact ⟨_, abs_le_sum (by omega : i < qs.length), fun s k hs => hdraw i (by omega) s k (by rw [hs]; exact a) (by rw [hs]; exact b)⟩
    · intro i hi t a b s k hs
      exact hdraw i hi s k (by rw [hs]; exact a) (by rw [hs]; exact b.le)
    · show o.mean = _
      rw [hm, zipWith_range _ _ _ hlen]
      congr 1
      rw [Finset.sum_div]
      refine Finset.sum_congr rfl fun i hi => ?_
      have hi := Finset.mem_range.1 hi
      rw [L1 i (ps.getD i 0) (by rw [List.getD_eq_getElem _ _ (by omega), List.getElem?_eq_getElem])]
      ring

/-- C57, CumPdf of numbers: mean() is the expectation of sample() -/
theorem C57_cum_pdf {qs cs : List Rat} (hlen : qs.length = cs.length) {f : Option Rat} {d : Dist} (h : cumPdf ((nums qs).zip cs) f = some d) : MeanOk d := by
  unfold cumPdf at h
  obtain ⟨o, ho, rfl⟩ := Option.map_eq_some_iff.1 h
  have hne : cs ≠ [] := by
    rintro rfl
    simp [cumNew] at ho
  have hn0 : 0 < cs.length := List.length_pos_iff.2 hne
  obtain ⟨C, hC⟩ : ∃ C, cs.getLast? = some C := ⟨_, List.getLast?_eq_some_getLast hne⟩
  have hm := C38_cum_mean ho hlen hC
  have hCl : (((nums qs).zip cs).getLast?).map Prod.snd = some C := by
    rw [← List.getLast?_map, List.map_snd_zip (by simp [nums, hlen]), hC]
  have hCe : cs.getD (cs.length - 1) 0 = C := by
    rw [List.getLast?_eq_getElem?] at hC
    rw [List.getD_eq_getElem?_getD, hC]; rfl
  have hget : ∀ i, i < cs.length → ((nums qs).zip cs)[i]? = some (.val (.num (qs.getD i 0)), cs.getD i 0) := by
    intro i hi
    rw [List.getElem?_zip_eq_some]
    exact ⟨nums_get (by omega), by rw [List.getElem?_eq_getElem hi, List.getD_eq_getElem _ _ hi]⟩
  -- what the constructor checks
  have hchk : ((nums qs).zip cs).Pairwise (fun a b => a.2 ≤ b.2) ∧ (∀ a ∈ (nums qs).zip cs, 0 ≤ a.2) ∧ 0 < C ∧ o.supportsN = false := by
    have ho' := ho
    unfold cumNew at ho'
    split at ho'
    · cases ho'
    · split at ho'
      · cases ho'
      · rename_i hr
        split at ho'
        · cases ho'
        · rename_i hne'
          cases ho'
          obtain ⟨_, ht, hpw, hge, _⟩ := cumRead_spec hr
          rw [hCl, Option.getD_some] at ht
          subst ht
          refine ⟨hpw, hge, lt_of_le_of_ne ?_ (Ne.symm hne'), rfl⟩
          obtain ⟨z, hz, e⟩ := Option.map_eq_some_iff.1 hCl
          rw [← e]
          exact hge z (List.mem_of_getLast? hz)
  obtain ⟨hpw, hge, hCpos, hsup⟩ := hchk
  have hcs0 : ∀ i, i < cs.length → 0 ≤ cs.getD i 0 := fun i hi => hge _ (List.mem_of_getElem? (hget i hi))
  have hcsm : ∀ i, i + 1 < cs.length → cs.getD i 0 ≤ cs.getD (i + 1) 0 := by
    intro i hi
    have hl : ((nums qs).zip cs).length = cs.length := by simp [nums, hlen]
    have := List.pairwise_iff_getElem.1 hpw i (i + 1) (by omega) (by omega) (by omega)
    have e1 := List.getElem?_eq_some_iff.1 (hget i (by omega))
    have e2 := List.getElem?_eq_some_iff.1 (hget (i + 1) hi)
    rw [e1.2, e2.2] at this
    exact this
  let c : Nat → Rat := fun i => (0 :: cs).getD i 0 / C
  have hc1 : ∀ i, c (i + 1) = cs.getD i 0 / C := fun i => rfl
  have hmono : ∀ i, i < cs.length → c i ≤ c (i + 1) := by
    intro i hi
    refine div_le_div_of_nonneg_right ?_ hCpos.le
    cases i with
    | zero => exact hcs0 0 hi
    | succ i => exact hcsm i hi
  have hc0 : ∀ i, i ≤ cs.length → 0 ≤ c i := by
    intro i hi
    refine div_nonneg ?_ hCpos.le
    cases i with
    | zero => exact le_rfl
    | succ i => exact hcs0 i (by omega)
  have hdraw : ∀ i, i < cs.length → ∀ (s : Stream) k, c i < s k → s k ≤ c (i + 1) → o.toDist.draw s k = (some (.num (qs.getD i 0 * f.getD 1)), k + 1) := by
    intro i hi s k a b
    obtain ⟨_, _, y, hy, e⟩ := C38_cum_partial ho (hget i hi) hCl (s := s) (k := k) (lt_of_le_of_lt (hc0 i (by omega)) a) (by
      intro y b' hi0 hprev
      obtain ⟨j, rfl⟩ := Nat.exists_eq_succ_of_ne_zero hi0
      have := hget j (by omega)
      rw [show j + 1 - 1 = j by omega] at hprev
      rw [hprev] at this
      cases this
      exact a) b
    rw [scale_num] at hy
    cases hy
    exact e
  refine meanOk_steps (n := cs.length) (c := c) (v := fun i => qs.getD i 0 * f.getD 1) (M := (qs.map fun q => |q * f.getD 1|).sum) (by simp [c]) ?_ hmono ?_ ?_ ?_
  · obtain ⟨n, hn⟩ := Nat.exists_eq_succ_of_ne_zero hn0.ne'
    rw [hn, Nat.succ_eq_add_one, hc1, show n = cs.length - 1 by omega, hCe, div_self hCpos.ne']
  · intro t h0 h1
    rcases eq_or_lt_of_le h0 with rfl | h0
    · refine ⟨0, by rw [abs_zero]; exact (abs_nonneg _).trans (abs_le_sum (by omega : 0 < qs.length)), ?_⟩
      intro s k hs
      show o.sample1 s k = _
      unfold PdfObj.sample1
      rw [hsup, hs]
      simp [pick, Item.sample]
    · have hex : ∃ i, i ≤ cs.length ∧ t ≤ c i := by
        refine ⟨cs.length, le_rfl, ?_⟩
        obtain ⟨n, hn⟩ := Nat.exists_eq_succ_of_ne_zero hn0.ne'
        rw [hn, Nat.succ_eq_add_one, hc1, show n = cs.length - 1 by omega, hCe, div_self hCpos.ne']
        exact h1.le
      obtain ⟨i, ⟨hi, hti⟩, hmin⟩ := Nat.findX hex
      have hi0 : i ≠ 0 := by
        rintro rfl
        have : c 0 = 0 := by simp [c]
        rw [this] at hti; linarith
      obtain ⟨j, rfl⟩ := Nat.exists_eq_succ_of_ne_zero hi0
      have hj : c j < t := by
        by_contra hh
        exact hmin j (by omega) ⟨by omega, not_lt.1 hh⟩
      exact ⟨_, abs_le_sum (by omega : j < qs.length), fun s k hs => hdraw j (by omega) s k (by rw [hs]; exact hj) (by rw [hs]; exact hti)⟩
  · intro i hi t a b s k hs
    exact hdraw i hi s k (by rw [hs]; exact a) (by rw [hs]; exact b.le)
  · show o.mean = _
    have hz : (List.zipWith (fun a b => b - a) (0 :: cs) cs).length = cs.length := by simp
    rw [hm, zipWith_range _ _ _ (by rw [hz, hlen]), Finset.sum_div, hlen]
    congr 1
    refine Finset.sum_congr rfl fun i hi => ?_
    have hi := Finset.mem_range.1 hi
    have e : (List.zipWith (fun a b : Rat => b - a) (0 :: cs) cs).getD i 0 = cs.getD i 0 - (0 :: cs).getD i 0 := by
      rw [List.getD_eq_getElem _ _ (by rw [hz]; exact hi), List.getElem_zipWith, List.getD_eq_getElem _ _ hi, List.getD_eq_getElem _ _ (by simp; omega)]
    rw [e, hc1]
    show _ = qs.getD i 0 * f.getD 1 * (cs.getD i 0 / C - (0 :: cs).getD i 0 / C)
    ring

/-! ## calculations with a number -/

theorem IsMean.affine {g : Rat → Rat} {m : Rat} (h : IsMean g m) (a b : Rat) : IsMean (fun t => a * g t + b) (a * m + b) := by
  intro ε hε
  obtain ⟨N, hN⟩ := h (ε / (|a| + 1)) (by positivity)
  refine ⟨N + 1, fun n hn t ht => ?_⟩
  have hn0 : (n : Rat) ≠ 0 := by
    have : 0 < n := by omega
    exact_mod_cast this.ne'
  have := hN n (by omega) t ht
  have e : (∑ i ∈ Finset.range n, (a * g (t i) + b)) / n - (a * m + b) = a * ((∑ i ∈ Finset.range n, g (t i)) / n - m) := by
    rw [Finset.sum_add_distrib, ← Finset.mul_sum, Finset.sum_const, Finset.card_range, nsmul_eq_mul]
    field_simp
    ring
  rw [e, abs_mul]
  have hp : 0 < |a| + 1 := by positivity
  rw [lt_div_iff₀ hp] at this
  have := abs_nonneg ((∑ i ∈ Finset.range n, g (t i)) / n - m)
  nlinarith [abs_nonneg a]

/-- C57: if mean() of a distribution is the expectation of its samples, that also holds after adding, subtracting, multiplying with or dividing by a number,
subtracting it from a number, and changing the sign -/
theorem C57_arithmetic (L : Lib) {d : Dist} (hd : MeanOk d) (hc : d.isConstant = false) (c : Rat) :
    MeanOk (expr L (.dist d) (.num c) .add) ∧ MeanOk (expr L (.num c) (.dist d) .add) ∧ MeanOk (expr L (.dist d) (.num c) .sub) ∧ MeanOk (expr L (.num c) (.dist d) .sub) ∧
    MeanOk (expr L (.dist d) (.num c) .mul) ∧ MeanOk (expr L (.num c) (.dist d) .mul) ∧ (c ≠ 0 → MeanOk (expr L (.dist d) (.num c) .truediv)) ∧
    MeanOk (Distr.pos L d) ∧ MeanOk (Distr.neg L d) := by
  obtain ⟨g, m, hg, hm, hI⟩ := hd
  obtain ⟨m1, m2, m3, m4, m5, m6, m7, m8, m9, _⟩ := C40_mean L hc hm hc hm c
  have hs : (Operand.dist d).store = .dist d := by simp [Operand.store, hc]
  have right : ∀ (op : BinOp) (q : Rat) (F : Rat → Rat), (∀ x, op.num L x q = some (F x)) → ∀ s k, 0 ≤ s k → s k < 1 →
      (expr L (.dist d) (.num q) op).draw s k = (some (.num (F (g (s k)))), k + 1) := by
    intro op q F hF s k h0 h1
    unfold expr
    rw [hs]
    simp only [Operand.store, Operand.sample, hg s k h0 h1, BinOp.apply, hF, Option.map_some]
  have left : ∀ (op : BinOp) (q : Rat) (F : Rat → Rat), (∀ x, op.num L q x = some (F x)) → ∀ s k, 0 ≤ s k → s k < 1 →
      (expr L (.num q) (.dist d) op).draw s k = (some (.num (F (g (s k)))), k + 1) := by
    intro op q F hF s k h0 h1
    unfold expr
    rw [hs]
    simp only [Operand.store, Operand.sample, hg s k h0 h1, BinOp.apply, hF, Option.map_some]
  have fin : ∀ {e : Dist} {G : Rat → Rat} {M a b : Rat}, (∀ s k, 0 ≤ s k → s k < 1 → e.draw s k = (some (.num (G (g (s k)))), k + 1)) → e.mean = .val M →
      (∀ x, G x = a * x + b) → M = a * m + b → MeanOk e := by
    intro e G M a b h1 h2 h3 h4
    refine ⟨fun t => G (g t), M, h1, h2, ?_⟩
    rw [h4]
    have := hI.affine a b
    simp only [h3]
    exact this
  refine ⟨?_, ?_, ?_, ?_, ?_, ?_, ?_, ?_, ?_⟩
  · exact fin (G := (fun x => x + c)) (a := 1) (b := c) (right .add c (fun x => x + c) (fun _ => rfl)) m1 (fun x => by ring) (by ring)
  · exact fin (G := (fun x => c + x)) (a := 1) (b := c) (left .add c (fun x => c + x) (fun _ => rfl)) m2 (fun x => by ring) (by ring)
  · exact fin (G := (fun x => x - c)) (a := 1) (b := -c) (right .sub c (fun x => x - c) (fun _ => rfl)) m3 (fun x => by ring) (by ring)
  · exact fin (G := (fun x => c - x)) (a := -1) (b := c) (left .sub c (fun x => c - x) (fun _ => rfl)) m4 (fun x => by ring) (by ring)
  · exact fin (G := (fun x => x * c)) (a := c) (b := 0) (right .mul c (fun x => x * c) (fun _ => rfl)) m5 (fun x => by ring) (by ring)
  · exact fin (G := (fun x => c * x)) (a := c) (b := 0) (left .mul c (fun x => c * x) (fun _ => rfl)) m6 (fun x => by ring) (by ring)
  · intro h0
    exact fin (G := (fun x => x / c)) (a := 1 / c) (b := 0) (right .truediv c (fun x => x / c) (fun x => by simp [BinOp.num, h0])) (m7 h0) (fun x => by ring) (by ring)
  · exact fin (G := (fun x => x + 0)) (a := 1) (b := 0) (right .add 0 (fun x => x + 0) (fun _ => rfl)) m8 (fun x => by ring) (by ring)
  · exact fin (G := (fun x => 0 - x)) (a := -1) (b := 0) (left .sub 0 (fun x => 0 - x) (fun _ => rfl)) m9 (fun x => by ring) (by ring)

/-- the theorems are about these, among others -/
example : ((uniform 2 (some 5) 60).isSome ∧ (intUniform 1 (some 6) 1).map (·.mean) = some (.val (7 / 2)) ∧
    (cdf [5, 0, 10, 50, 20, 90, 30, 100] 1).map (·.mean) = some (.val (49 / 4)) ∧
    (pdf (.pairs [(.val (.num 1), 30), (.val (.num 2), 70)]) none).map (·.mean) = some (.val (17 / 10)) ∧
    (PSpec.pairs [(.val (.num 1), 30), (.val (.num 2), 70)]).read.isSome ∧
    (cumPdf ((nums [1, 2]).zip [30, 100]) none).map (·.mean) = some (.val (17 / 10))) := by decide +kernel

/-- an expectation is unique, so the mean is determined by the samples -/
theorem IsMean.unique {g : Rat → Rat} {m m' : Rat} (h : IsMean g m) (h' : IsMean g m') : m = m' := by
  by_contra hne
  have hp : 0 < |m - m'| / 2 := by have := abs_pos.2 (sub_ne_zero.2 hne); linarith
  obtain ⟨N, hN⟩ := h _ hp
  obtain ⟨N', hN'⟩ := h' _ hp
  have hn : 0 < N + N' + 1 := by omega
  have hn' : (0 : Rat) < ((N + N' + 1 : Nat) : Rat) := by exact_mod_cast hn
  have ht : ∀ i : Nat, i < N + N' + 1 → (i : Rat) / ((N + N' + 1 : Nat) : Rat) ≤ (i : Rat) / ((N + N' + 1 : Nat) : Rat) ∧
      (i : Rat) / ((N + N' + 1 : Nat) : Rat) < ((i : Rat) + 1) / ((N + N' + 1 : Nat) : Rat) := fun i _ => ⟨le_rfl, div_lt_div_of_pos_right (by linarith) hn'⟩
  have a := hN (N + N' + 1) (by omega) (fun i => (i : Rat) / ((N + N' + 1 : Nat) : Rat)) ht
  have b := hN' (N + N' + 1) (by omega) (fun i => (i : Rat) / ((N + N' + 1 : Nat) : Rat)) ht
  generalize (∑ i ∈ Finset.range (N + N' + 1), g ((i : Rat) / ((N + N' + 1 : Nat) : Rat))) / ((N + N' + 1 : Nat) : Rat) = x at a b
  have : |m - m'| ≤ |x - m'| + |x - m| := by
    have e : m - m' = (x - m') - (x - m) := by ring
    rw [e]; exact abs_sub _ _
  linarith

end Distr
end Verif
