import Verif.Spline
import Mathlib.Analysis.Convex.Hull
import Mathlib.Analysis.Convex.Combination
import Mathlib.Algebra.Polynomial.Derivative
import Mathlib.Algebra.Polynomial.Degree.SmallDegree
import Mathlib.Data.Nat.Choose.Sum

/-!
# Splines (C94)
-/

namespace Verif
namespace Spline
open Polynomial

theorem getD_lt {l : List Pt} {i : Nat} (h : i < l.length) : l.getD i 0 = l[i] := by simp [List.getD, h]

/-! ## Bézier -/

/-- Bernstein's weights -/
noncomputable def weight (n : Nat) (t : ℝ) (j : Nat) : ℝ := (n.choose j : ℝ) * t ^ j * (1 - t) ^ (n - j)

theorem weight_zero (n : Nat) (t : ℝ) : weight (n + 1) t 0 = (1 - t) * weight n t 0 := by
  unfold weight
  simp [pow_succ]
  ring

theorem weight_succ (n : Nat) (t : ℝ) (j : Nat) (hj : j ≤ n) : weight (n + 1) t (j + 1) = t * weight n t j + (1 - t) * weight n t (j + 1) := by
  unfold weight
  rw [Nat.choose_succ_succ]
  rcases Nat.lt_or_ge j n with h | h
  · have e1 : n + 1 - (j + 1) = n - (j + 1) + 1 := by omega
    have e2 : n - j = n - (j + 1) + 1 := by omega
    rw [e1, e2]
    push_cast
    ring
  · have : j = n := by omega
    subst this
    simp
    ring

theorem weight_out (n : Nat) (t : ℝ) : weight n t (n + 1) = 0 := by
  unfold weight
  rw [Nat.choose_succ_self]
  simp

theorem doPoints_get (t : ℝ) (l : List Pt) {j : Nat} (h : j + 1 < l.length) : (doPoints t l).getD j 0 = (1 - t) • l.getD j 0 + t • l.getD (j + 1) 0 := by
  have hj : j < (doPoints t l).length := by rw [doPoints_length]; omega
  rw [getD_lt hj, getD_lt (show j < l.length by omega), getD_lt h]
  simp only [doPoints, List.getElem_zipWith, List.getElem_tail, twoPoints]

theorem doPoint_run (t : ℝ) : ∀ (n : Nat) (l : List Pt), l.length = n + 1 → doPoint t l = ∑ j ∈ Finset.range (n + 1), weight n t j • l.getD j 0 := by
  intro n
  induction n with
  | zero =>
    intro l hl
    unfold doPoint
    rw [if_neg (by omega)]
    cases l with
    | nil => simp at hl
    | cons a l => simp [weight]
  | succ n ih =>
    intro l hl
    unfold doPoint
    rw [if_pos (by omega), ih _ (by rw [doPoints_length]; omega)]
    have e1 : ∀ j ∈ Finset.range (n + 1), weight n t j • (doPoints t l).getD j 0 =
        ((1 - t) * weight n t j) • l.getD j 0 + (t * weight n t j) • l.getD (j + 1) 0 := by
      intro j hj
      rw [Finset.mem_range] at hj
      rw [doPoints_get t l (by omega), smul_add, smul_smul, smul_smul, mul_comm _ (1 - t), mul_comm _ t]
    rw [Finset.sum_congr rfl e1, Finset.sum_add_distrib, Finset.sum_range_succ' _ (n + 1)]
    have e2 : ∑ j ∈ Finset.range (n + 1), ((1 - t) * weight n t j) • l.getD j 0 =
        ∑ j ∈ Finset.range (n + 1), ((1 - t) * weight n t (j + 1)) • l.getD (j + 1) 0 + ((1 - t) * weight n t 0) • l.getD 0 0 := by
      rw [← Finset.sum_range_succ' (fun j => ((1 - t) * weight n t j) • l.getD j 0) (n + 1), Finset.sum_range_succ _ (n + 1), weight_out]
      simp
    rw [e2, weight_zero]
    have e3 : ∀ j ∈ Finset.range (n + 1), weight (n + 1) t (j + 1) • l.getD (j + 1) 0 =
        ((1 - t) * weight n t (j + 1)) • l.getD (j + 1) 0 + (t * weight n t j) • l.getD (j + 1) 0 := by
      intro j hj
      rw [Finset.mem_range] at hj
      rw [weight_succ n t j (by omega), add_smul, add_comm]
    rw [Finset.sum_congr rfl e3, Finset.sum_add_distrib]
    abel

theorem weight_sum (n : Nat) (t : ℝ) : ∑ j ∈ Finset.range (n + 1), weight n t j = 1 := by
  have := add_pow t (1 - t) n
  simp only [add_sub_cancel, one_pow] at this
  rw [this]
  exact Finset.sum_congr rfl fun j _ => by unfold weight; ring

theorem weight_nonneg {n : Nat} {t : ℝ} (h0 : 0 ≤ t) (h1 : t ≤ 1) (j : Nat) : 0 ≤ weight n t j := by
  have : 0 ≤ 1 - t := by linarith
  unfold weight; positivity

theorem doPoint_zero (t : ℝ) (ht : t = 0) {l : List Pt} (hl : l ≠ []) : doPoint t l = l.getD 0 0 := by
  subst ht
  obtain ⟨n, hn⟩ : ∃ n, l.length = n + 1 := ⟨l.length - 1, by have := List.length_pos_iff.2 hl; omega⟩
  rw [doPoint_run 0 n l hn, Finset.sum_eq_single 0]
  · simp [weight]
  · intro j _ hj
    simp [weight, hj]
  · simp

theorem doPoint_one (t : ℝ) (ht : t = 1) {l : List Pt} (hl : l ≠ []) : doPoint t l = l.getLastD 0 := by
  subst ht
  obtain ⟨n, hn⟩ : ∃ n, l.length = n + 1 := ⟨l.length - 1, by have := List.length_pos_iff.2 hl; omega⟩
  rw [doPoint_run 1 n l hn, Finset.sum_eq_single n]
  · have : l.getLastD 0 = l.getD n 0 := by
      rw [List.getLastD_eq_getLast?, List.getLast?_eq_getElem?, List.getD_eq_getElem?_getD, hn]
      rfl
    rw [this]
    simp [weight]
  · intro j hj hne
    have : n - j ≠ 0 := by simp at hj; omega
    simp [weight, this]
  · simp

/-- C94: the points of a Bézier spline are the points of the Bézier curve (Bernstein's formula) of the given points, at `res` equidistant parameters from 0 to 1 -/
theorem C94_bezier (res : Nat) (l : List Pt) (n : Nat) (hl : l.length = n + 1) :
    (bezier res l).length = res ∧ ∀ i < res, 2 ≤ res → (bezier res l)[i]? = some (∑ j ∈ Finset.range (n + 1),
      ((n.choose j : ℝ) * ((i : ℝ) / (res - 1)) ^ j * (1 - (i : ℝ) / (res - 1)) ^ (n - j)) • l.getD j 0) := by
  constructor
  · simp [bezier, unitSteps]
  · intro i hi h2
    have : (bezier res l)[i]? = some (doPoint ((i : ℝ) / ((res - 1 : Nat) : ℝ)) l) := by
      unfold bezier unitSteps
      rw [List.getElem?_map, List.getElem?_map, List.getElem?_range hi]
      simp only [Option.map_some]
      rw [if_neg (by omega)]
    rw [this, doPoint_run _ n l hl, Nat.cast_sub (by omega), Nat.cast_one]
    rfl

theorem bezier_mem {res : Nat} {l : List Pt} {x : Pt} (h : x ∈ bezier res l) : ∃ t : ℝ, 0 ≤ t ∧ t ≤ 1 ∧ x = doPoint t l := by
  unfold bezier unitSteps at h
  simp only [List.map_map, List.mem_map, List.mem_range, Function.comp] at h
  obtain ⟨i, hi, rfl⟩ := h
  refine ⟨_, ?_, ?_, rfl⟩
  · split
    · exact le_rfl
    · positivity
  · split
    · exact zero_le_one
    · rw [div_le_one (by
        have : 0 < res - 1 := by omega
        exact_mod_cast this)]
      have : i ≤ res - 1 := by omega
      exact_mod_cast this

/-- C94: it starts at the first point, ends at the last point, and stays within the convex hull of the points -/
theorem C94_bezier_shape {res : Nat} {l : List Pt} (hl : l ≠ []) (hr : 2 ≤ res) :
    (bezier res l).head? = l.head? ∧ (bezier res l).getLast? = l.getLast? ∧ ∀ x ∈ bezier res l, x ∈ convexHull ℝ {y | y ∈ l} := by
  obtain ⟨n, hn⟩ : ∃ n, l.length = n + 1 := ⟨l.length - 1, by have := List.length_pos_iff.2 hl; omega⟩
  have hlen : (bezier res l).length = res := (C94_bezier res l n hn).1
  have hget : ∀ i < res, (bezier res l)[i]? = some (doPoint ((i : ℝ) / ((res - 1 : Nat) : ℝ)) l) := by
    intro i hi
    unfold bezier unitSteps
    rw [List.getElem?_map, List.getElem?_map, List.getElem?_range hi]
    simp only [Option.map_some]
    rw [if_neg (by omega)]
  refine ⟨?_, ?_, ?_⟩
  · rw [List.head?_eq_getElem?, hget 0 (by omega), doPoint_zero _ (by simp) hl, List.head?_eq_getElem?, List.getD_eq_getElem?_getD,
      List.getElem?_eq_getElem (by omega)]
    rfl
  · have hp : ((res - 1 : Nat) : ℝ) ≠ 0 := by
      have : res - 1 ≠ 0 := by omega
      exact_mod_cast this
    rw [List.getLast?_eq_getElem?, hlen, hget (res - 1) (by omega), doPoint_one _ (div_self hp) hl, List.getLastD_eq_getLast?,
      List.getLast?_eq_some_getLast hl]
    rfl
  · intro x hx
    obtain ⟨t, h0, h1, rfl⟩ := bezier_mem hx
    rw [doPoint_run t n l hn]
    refine (convex_convexHull ℝ _).sum_mem (fun j _ => weight_nonneg h0 h1 j) (weight_sum n t) fun j hj => subset_convexHull ℝ _ ?_
    rw [Finset.mem_range] at hj
    show l.getD j 0 ∈ l
    rw [getD_lt (by omega)]
    exact List.getElem_mem _

/-! ## Catmull-Rom -/

/-- the slope at point `i`: that of the line through the points before and after it; at the ends, that of the line to the only neighbour (as a change of y per segment) -/
noncomputable def slope (l : List Pt) (i : Nat) : ℝ :=
  if i = 0 then yAt l 1 - yAt l 0 else if i + 1 = l.length then yAt l i - yAt l (i - 1) else (yAt l (i + 1) - yAt l (i - 1)) / 2

/-- the cubic polynomial between points `i` and `i + 1`: with the given values and slopes at both ends -/
def Hermite (l : List Pt) (i : Nat) (q : ℝ[X]) : Prop :=
  q.natDegree ≤ 3 ∧ q.eval 0 = yAt l i ∧ q.eval 1 = yAt l (i + 1) ∧ q.derivative.eval 0 = slope l i ∧ q.derivative.eval 1 = slope l (i + 1)

theorem flatten_get {α : Type*} {f : Nat → List α} {res : Nat} (hf : ∀ i, (f i).length = res) :
    ∀ k, (((List.range k).map f).flatten).length = k * res ∧ ∀ i < k, ∀ j < res, (((List.range k).map f).flatten)[i * res + j]? = (f i)[j]? := by
  intro k
  induction k with
  | zero => exact ⟨by simp, fun i hi => absurd hi (by omega)⟩
  | succ k ih =>
    obtain ⟨h1, h2⟩ := ih
    have e : ((List.range (k + 1)).map f).flatten = ((List.range k).map f).flatten ++ f k := by
      rw [List.range_succ, List.map_append, List.flatten_append]; simp
    rw [e]
    refine ⟨by rw [List.length_append, h1, hf]; ring, fun i hi j hj => ?_⟩
    rcases Nat.lt_or_ge i k with h | h
    · rw [List.getElem?_append_left, h2 i h j hj]
      rw [h1]
      have : (i + 1) * res ≤ k * res := Nat.mul_le_mul_right _ (by omega)
      rw [Nat.add_mul] at this; omega
    · have : i = k := by omega
      subst this
      rw [List.getElem?_append_right (by rw [h1]; omega), h1, Nat.add_sub_cancel_left]

theorem evaluate_eq (x v0 v1 v2 v3 : ℝ) : evaluate x v0 v1 v2 v3 =
    (-v0 + 3 * v1 - 3 * v2 + v3) / 2 * x ^ 3 + (2 * v0 - 5 * v1 + 4 * v2 - v3) / 2 * x ^ 2 + (v2 - v0) / 2 * x + v1 := by
  have e1 : (0.5 : ℝ) = 1 / 2 := by norm_num
  have e2 : (1.5 : ℝ) = 3 / 2 := by norm_num
  have e3 : (2.5 : ℝ) = 5 / 2 := by norm_num
  have e4 : (1.0 : ℝ) = 1 := by norm_num
  have e5 : (2.0 : ℝ) = 2 := by norm_num
  unfold evaluate
  rw [e1, e2, e3, e4, e5]
  ring

theorem between_length (res : Nat) (l : List Pt) (i : Nat) : (between res l i).length = res := by simp [between]

theorem catmull_length (res : Nat) (l : List Pt) : (catmullRom res l).length = res * (l.length - 1) + 1 := by
  unfold catmullRom
  rw [List.length_append, (flatten_get (between_length res l) _).1, mul_comm]
  rfl

theorem catmull_get (res : Nat) (l : List Pt) {i j : Nat} (hi : i + 1 < l.length) (hj : j < res) : (catmullRom res l)[i * res + j]? = (between res l i)[j]? := by
  unfold catmullRom
  obtain ⟨h1, h2⟩ := flatten_get (between_length res l) (l.length - 1)
  rw [List.getElem?_append_left, h2 i (by omega) j hj]
  rw [h1]
  have : (i + 1) * res ≤ (l.length - 1) * res := Nat.mul_le_mul_right _ (by omega)
  rw [Nat.add_mul] at this; omega

/-- C94: between two points, a Catmull-Rom spline has `res` steps, equidistant in x, on the cubic polynomial that has the right values and slopes at both ends (so that the pieces
on both sides of a point have the same slope there); it passes through all points -/
theorem C94_catmull_rom {res : Nat} {l : List Pt} (hl : 2 ≤ l.length) :
    (catmullRom res l).length = res * (l.length - 1) + 1 ∧
    (∀ i, i + 1 < l.length → ∃ q, Hermite l i q ∧ ∀ j < res, (catmullRom res l)[i * res + j]? =
      some ((l.getD i 0).1 + (j : ℝ) / res * ((l.getD (i + 1) 0).1 - (l.getD i 0).1), q.eval ((j : ℝ) / res))) ∧
    (0 < res → ∀ i < l.length, (catmullRom res l)[i * res]? = l[i]?) := by
  have key : ∀ i, i + 1 < l.length → ∃ q, Hermite l i q ∧ ∀ j < res, (catmullRom res l)[i * res + j]? =
      some ((l.getD i 0).1 + (j : ℝ) / res * ((l.getD (i + 1) 0).1 - (l.getD i 0).1), q.eval ((j : ℝ) / res)) := by
    intro i hi
    obtain ⟨v0, h0⟩ : ∃ v0, v0 = (if i = 0 then yAt l 0 - (yAt l 1 - yAt l 0) else yAt l (i - 1)) := ⟨_, rfl⟩
    obtain ⟨v3, h3⟩ : ∃ v3, v3 = (if i = l.length - 2 then yAt l (i + 1) + (yAt l (i + 1) - yAt l i) else yAt l (i + 2)) := ⟨_, rfl⟩
    obtain ⟨v1, h1⟩ : ∃ v1, v1 = yAt l i := ⟨_, rfl⟩
    obtain ⟨v2, h2⟩ : ∃ v2, v2 = yAt l (i + 1) := ⟨_, rfl⟩
    have s0 : slope l i = (v2 - v0) / 2 := by
      unfold slope
      split
      · rename_i e; subst e; rw [h2, h0, if_pos rfl]; ring
      · rename_i e
        rw [if_neg (by omega), h2, h0, if_neg e]
    have s1 : slope l (i + 1) = (v3 - v1) / 2 := by
      unfold slope
      rw [if_neg (by omega)]
      split
      · rename_i e; rw [h3, h1, if_pos (by omega), Nat.add_sub_cancel]; ring
      · rename_i e
        rw [h3, h1, if_neg (by omega), Nat.add_sub_cancel]
    refine ⟨C ((-v0 + 3 * v1 - 3 * v2 + v3) / 2) * X ^ 3 + C ((2 * v0 - 5 * v1 + 4 * v2 - v3) / 2) * X ^ 2 + C ((v2 - v0) / 2) * X + C v1,
      ⟨natDegree_cubic_le, ?_, ?_, ?_, ?_⟩, fun j hj => ?_⟩
    · rw [← h1]; simp
    · rw [← h2]; simp; ring
    · rw [s0]; simp
    · rw [s1]; simp; ring
    · rw [catmull_get res l hi hj]
      unfold between
      rw [List.getElem?_map, List.getElem?_range hj, ← h0, ← h3, ← h1, ← h2]
      simp only [Option.map_some, evaluate_eq]
      congr 2
      simp
  refine ⟨catmull_length res l, key, fun hr i hi => ?_⟩
  rcases Nat.lt_or_ge (i + 1) l.length with h | h
  · obtain ⟨q, hq, hj⟩ := key i h
    have := hj 0 hr
    rw [Nat.add_zero] at this
    rw [this, List.getElem?_eq_getElem hi]
    simp only [Nat.cast_zero, zero_div, zero_mul, add_zero, hq.2.1, yAt]
    rw [getD_lt hi]
  · have e : i = l.length - 1 := by omega
    have hn : l ≠ [] := by rintro rfl; simp at hl
    unfold catmullRom
    have hlen := (flatten_get (between_length res l) (l.length - 1)).1
    rw [List.getElem?_append_right (by rw [hlen, e]), hlen, e, Nat.sub_self, ← List.getLast?_eq_getElem?, List.getLastD_eq_getLast?,
      List.getLast?_eq_some_getLast hn]
    rfl

/-- C94: the polynomial is unique -/
theorem C94_unique {l : List Pt} {i : Nat} {q q' : ℝ[X]} (h : Hermite l i q) (h' : Hermite l i q') : q = q' := by
  obtain ⟨d, a0, a1, b0, b1⟩ := h
  obtain ⟨d', a0', a1', b0', b1'⟩ := h'
  obtain ⟨r, hr⟩ : ∃ r, r = q - q' := ⟨_, rfl⟩
  have hd : r.natDegree < 4 := by
    have := natDegree_sub_le q q'
    rw [hr]; omega
  have e0 : r.eval 0 = 0 := by rw [hr, eval_sub, a0, a0', sub_self]
  have e1 : r.eval 1 = 0 := by rw [hr, eval_sub, a1, a1', sub_self]
  have f0 : r.derivative.eval 0 = 0 := by rw [hr, derivative_sub, eval_sub, b0, b0', sub_self]
  have f1 : r.derivative.eval 1 = 0 := by rw [hr, derivative_sub, eval_sub, b1, b1', sub_self]
  have hs := r.as_sum_range' 4 hd
  simp only [Finset.sum_range_succ, Finset.sum_range_zero, zero_add] at hs
  generalize r.coeff 0 = x0 at hs
  generalize r.coeff 1 = x1 at hs
  generalize r.coeff 2 = x2 at hs
  generalize r.coeff 3 = x3 at hs
  rw [hs] at e0 e1 f0 f1
  simp at e0 e1 f0 f1
  have g0 : x0 = 0 := by linarith
  have g1 : x1 = 0 := by linarith
  have g2 : x2 = 0 := by linarith
  have g3 : x3 = 0 := by linarith
  have : r = 0 := by rw [hs, g0, g1, g2, g3]; simp
  rw [hr] at this
  exact sub_eq_zero.1 this

theorem lower_c {c : Char} {d : Char} (hd : d = 'c' ∨ d = 'b') (h : c.toLower = d) : c = d ∨ c = d.toUpper := by
  unfold Char.toLower at h
  split at h
  · rename_i hu
    right
    have e := congrArg Char.val h
    simp only at e
    have e2 : c.val = d.val - ('a'.val - 'A'.val) := by rw [← e, UInt32.add_sub_cancel]
    apply Char.ext
    rw [e2]
    rcases hd with rfl | rfl <;> decide
  · exact .inl h

/-! ## the parameter -/

/-- C94: which spline is used: by the first letter, in upper or lower case; None and blank texts leave the points as they are, and anything else is refused -/
theorem C94_apply (c : Char) (s : List Char) (res : Nat) (l : List Pt) :
    apply none res l = some l ∧ apply (some "") res l = some l ∧
    (c = 'c' ∨ c = 'C' → apply (some (String.ofList (c :: s))) res l = some (catmullRom res l)) ∧
    (c = 'b' ∨ c = 'B' → apply (some (String.ofList (c :: s))) res l = some (bezier res l)) ∧
    (c ∉ ['c', 'C', 'b', 'B'] → c.isWhitespace = false → apply (some (String.ofList (c :: s))) res l = none) := by
  refine ⟨rfl, by simp [apply], ?_, ?_, ?_⟩
  · have e1 : 'C'.toLower = 'c' := by decide
    have e2 : 'c'.toLower = 'c' := by decide
    rintro (rfl | rfl) <;> simp [apply, e1, e2]
  · have e1 : 'B'.toLower = 'b' := by decide
    have e2 : 'b'.toLower = 'b' := by decide
    rintro (rfl | rfl) <;> simp [apply, e1, e2]
  · intro h hw
    simp only [List.mem_cons, not_or] at h
    have h1 : c.toLower ≠ 'c' := fun e => by
      rcases lower_c (.inl rfl) e with e | e
      · exact h.1 e
      · exact h.2.1 (by rw [e]; decide)
    have h2 : c.toLower ≠ 'b' := fun e => by
      rcases lower_c (.inr rfl) e with e | e
      · exact h.2.2.1 e
      · exact h.2.2.2.1 (by rw [e]; decide)
    simp [apply, h1, h2, hw]

/-- C94: a polygon without a spline is as in C54, with a spline it is the polygon through the points of the curve -/
theorem C94_polygon {spline : Option String} {res : Nat} {ps l : List Pt} (h : apply spline res ps = some l) (t0 : ℝ) (vmax v0 v1 acc dec : Option ℝ) (orient : ℝ → ℝ) :
    polygon spline res ps t0 vmax v0 v1 acc dec orient = Traj.polygon l t0 vmax v0 v1 acc dec orient := by
  unfold polygon
  rw [h]

/-- C94: the direction of the coordinates matters for Catmull-Rom splines: points on a straight line don't give a straight line, if they aren't equidistant -/
theorem C94_counterexample : (catmullRom 2 [(0, 0), (1, 1), (3, 3)])[1]? = some (1 / 2, 7 / 16) := by
  have e : (catmullRom 2 [(0, 0), (1, 1), (3, 3)])[1]? = _ := catmull_get 2 [(0, 0), (1, 1), (3, 3)] (i := 0) (j := 1) (by simp) (by omega)
  rw [e]
  unfold between
  rw [List.getElem?_map, List.getElem?_range (by omega)]
  simp only [Option.map_some, evaluate_eq, yAt]
  norm_num

/-- C94: with equidistant values of y it is straight -/
theorem C94_straight {res : Nat} {l : List Pt} {a d : ℝ} (hl : 2 ≤ l.length) (h : ∀ i < l.length, yAt l i = a + d * i) :
    ∀ i j, i + 1 < l.length → j < res → ((catmullRom res l)[i * res + j]?.map Prod.snd) = some (a + d * (i + (j : ℝ) / res)) := by
  intro i j hi hj
  rw [catmull_get res l hi hj]
  unfold between
  rw [List.getElem?_map, List.getElem?_range hj]
  simp only [Option.map_some, evaluate_eq]
  have h0 : (if i = 0 then yAt l 0 - (yAt l 1 - yAt l 0) else yAt l (i - 1)) = a + d * (i - 1) := by
    split
    · rename_i e; subst e; rw [h 0 (by omega), h 1 (by omega)]; push_cast; ring
    · rename_i e
      rw [h (i - 1) (by omega), Nat.cast_sub (by omega)]; push_cast; ring
  have h3 : (if i = l.length - 2 then yAt l (i + 1) + (yAt l (i + 1) - yAt l i) else yAt l (i + 2)) = a + d * (i + 2) := by
    split
    · rw [h (i + 1) (by omega), h i (by omega)]; push_cast; ring
    · rw [h (i + 2) (by omega)]; push_cast; ring
  rw [h0, h3, h i (by omega), h (i + 1) (by omega)]
  push_cast
  congr 1
  ring

/-- three points, two steps -/
example : (bezier 3 [(0, 0), (2, 4), (4, 0)])[1]? = some (2, 2) := by
  rw [(C94_bezier 3 [(0, 0), (2, 4), (4, 0)] 2 rfl).2 1 (by omega) (by omega)]
  simp [Finset.sum_range_succ]
  norm_num

end Spline
end Verif
