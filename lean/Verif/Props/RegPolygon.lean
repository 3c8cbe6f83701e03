import Verif.RegPolygon

/-!
# Regular polygons (C95)
-/

namespace Verif
namespace RegPolygon
open Real

/-- the point on the circle with centre (radius, radius) at angle `a` -/
noncomputable def onCircle (radius a : ℝ) : ℝ × ℝ := (radius + radius * cos a, radius + radius * sin a)

theorem corners_run (radius d : ℝ) : ∀ (n : Nat) (a : ℝ), corners radius (cos d) (sin d) n (radius * cos a) (radius * sin a) =
    (List.range n).map fun i : Nat => onCircle radius (a + (i + 1) * d) := by
  intro n
  induction n with
  | zero => intro a; rfl
  | succ n ih =>
    intro a
    have e1 : radius * cos a * cos d - radius * sin a * sin d = radius * cos (a + d) := by rw [cos_add]; ring
    have e2 : radius * cos a * sin d + radius * sin a * cos d = radius * sin (a + d) := by rw [sin_add]; ring
    rw [corners, e1, e2, ih, List.range_succ_eq_map, List.map_cons, List.map_map]
    congr 1
    · unfold onCircle
      simp only [Nat.cast_zero, zero_add, one_mul]
      rw [add_comm radius, add_comm radius]
    · refine List.map_congr_left fun i _ => ?_
      simp only [Function.comp]
      congr 1
      push_cast
      ring

/-- C95: fewer than three sides are refused; otherwise there are as many corners as sides, all on the circle with the given radius around (radius, radius), each 360 / n degrees
further than the one before; the last one is at the initial angle -/
theorem C95_corners (radius initial : ℝ) (n : Nat) : (n < 3 → regularPolygon radius n initial = none) ∧
    (3 ≤ n → ∃ p, regularPolygon radius n initial = some p ∧ p.length = n ∧
      (∀ i < n, p[i]? = some (onCircle radius (initial * π / 180 + (i + 1) * (2 * π / n)))) ∧ p[n - 1]? = some (onCircle radius (initial * π / 180))) := by
  constructor
  · intro h
    unfold regularPolygon
    rw [if_pos (by exact_mod_cast h)]
  · intro h
    have hn : (n : ℝ) ≠ 0 := by
      have : n ≠ 0 := by omega
      exact_mod_cast this
    have hget : ∀ i < n, ((List.range n).map fun i : Nat => onCircle radius (initial * π / 180 + (i + 1) * (2 * π / n)))[i]? =
        some (onCircle radius (initial * π / 180 + (i + 1) * (2 * π / n))) := by
      intro i hi
      rw [List.getElem?_map, List.getElem?_range hi]
      rfl
    refine ⟨(List.range n).map fun i : Nat => onCircle radius (initial * π / 180 + (i + 1) * (2 * π / n)), ?_, by simp, hget, ?_⟩
    · unfold regularPolygon
      rw [if_neg (by push Not; exact_mod_cast h), Int.toNat_natCast, Int.cast_natCast, corners_run]
    · rw [hget _ (by omega)]
      congr 1
      have : ((n - 1 : Nat) : ℝ) + 1 = n := by
        rw [Nat.cast_sub (by omega)]; simp
      unfold onCircle
      rw [this, mul_div_cancel₀ _ hn, cos_add_two_pi, sin_add_two_pi]

/-- distance between two points -/
noncomputable def dist (a b : ℝ × ℝ) : ℝ := √((a.1 - b.1) ^ 2 + (a.2 - b.2) ^ 2)

theorem dist_circle (radius a d : ℝ) : dist (onCircle radius (a + d)) (onCircle radius a) = |2 * radius * sin (d / 2)| := by
  unfold dist onCircle
  rw [← sqrt_sq_eq_abs]
  congr 1
  have e1 : cos (a + d) - cos a = -2 * sin (a + d / 2) * sin (d / 2) := by
    rw [cos_sub_cos]; congr 2 <;> ring_nf
  have e2 : sin (a + d) - sin a = 2 * sin (d / 2) * cos (a + d / 2) := by
    rw [sin_sub_sin]; congr 2 <;> ring_nf
  have h := sin_sq_add_cos_sq (a + d / 2)
  have f1 : radius + radius * cos (a + d) - (radius + radius * cos a) = radius * (-2 * sin (a + d / 2) * sin (d / 2)) := by rw [← e1]; ring
  have f2 : radius + radius * sin (a + d) - (radius + radius * sin a) = radius * (2 * sin (d / 2) * cos (a + d / 2)) := by rw [← e2]; ring
  simp only
  rw [f1, f2]
  linear_combination (2 * radius * sin (d / 2)) ^ 2 * h

/-- C95: all corners are at the given distance from the centre, and all sides (also the one from the last corner to the first) are equally long: 2 * radius * sin(180 / n degrees) -/
theorem C95_regular {radius initial : ℝ} (hr : 0 ≤ radius) {n : Nat} {p : List (ℝ × ℝ)} (h : regularPolygon radius n initial = some p) :
    (∀ x ∈ p, dist x (radius, radius) = radius) ∧ ∀ i < n, ∃ a b, p[i]? = some a ∧ p[(i + 1) % n]? = some b ∧ dist b a = 2 * radius * sin (π / n) := by
  have h3 : 3 ≤ n := by
    by_contra hc
    rw [(C95_corners radius initial n).1 (by omega)] at h
    cases h
  have hn : (n : ℝ) ≠ 0 := by
    have : n ≠ 0 := by omega
    exact_mod_cast this
  obtain ⟨p', hp, hlen, hget, hlast⟩ := (C95_corners radius initial n).2 h3
  rw [h] at hp
  cases hp
  have hs : 0 ≤ sin (π / n) := by
    refine sin_nonneg_of_nonneg_of_le_pi (by positivity) (div_le_self pi_pos.le ?_)
    have : 1 ≤ n := by omega
    exact_mod_cast this
  have habs : |2 * radius * sin (2 * π / n / 2)| = 2 * radius * sin (π / n) := by
    rw [show 2 * π / n / 2 = π / n by field_simp, abs_of_nonneg (by positivity)]
  refine ⟨fun x hx => ?_, fun i hi => ?_⟩
  · obtain ⟨i, hi, rfl⟩ := List.mem_iff_getElem.1 hx
    have := hget i (by omega)
    rw [List.getElem?_eq_getElem hi] at this
    rw [Option.some.inj this]
    unfold dist onCircle
    simp only [add_sub_cancel_left, mul_pow]
    rw [← mul_add, cos_sq_add_sin_sq, mul_one, sqrt_sq hr]
  · rcases Nat.lt_or_ge (i + 1) n with h1 | h1
    · refine ⟨_, _, hget i hi, by rw [Nat.mod_eq_of_lt h1]; exact hget _ h1, ?_⟩
      have : initial * π / 180 + (((i + 1 : Nat) : ℝ) + 1) * (2 * π / n) = initial * π / 180 + ((i : ℝ) + 1) * (2 * π / n) + 2 * π / n := by push_cast; ring
      rw [this, dist_circle, habs]
    · have e : i + 1 = n := by omega
      refine ⟨onCircle radius (initial * π / 180), _, by rw [show i = n - 1 by omega]; exact hlast, by rw [e, Nat.mod_self]; exact hget 0 (by omega), ?_⟩
      rw [Nat.cast_zero, zero_add, one_mul, dist_circle, habs]

/-- C95: so it isn't the first corner that is at the initial angle, in contrast to what the documentation says -/
theorem C95_counterexample : ∃ p a, regularPolygon 1 4 0 = some p ∧ p[0]? = some a ∧ a ≠ onCircle 1 0 := by
  obtain ⟨p, hp, _, hget, _⟩ := (C95_corners 1 0 4).2 (by omega)
  refine ⟨p, _, hp, hget 0 (by omega), ?_⟩
  intro e
  have := congrArg Prod.fst e
  unfold onCircle at this
  have h2 : (0 : ℝ) * π / 180 + (((0 : Nat) : ℝ) + 1) * (2 * π / ((4 : Nat) : ℝ)) = π / 2 := by push_cast; ring
  simp only [h2, cos_pi_div_two, cos_zero] at this
  norm_num at this

end RegPolygon
end Verif
