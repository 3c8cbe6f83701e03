import Verif.Props.Trajectory

/-! # C61: where a trajectory heads to, and when it is in progress -/

namespace Verif
namespace Traj

open Real

/-- the angle θ (in degrees) is the direction of the vector (dx, dy) -/
def Heads (θ dx dy : ℝ) : Prop := -180 < θ ∧ θ ≤ 180 ∧ dx = sqrt (dx ^ 2 + dy ^ 2) * cos (radians θ) ∧ dy = sqrt (dx ^ 2 + dy ^ 2) * sin (radians θ)

theorem radians_direction (p q : ℝ × ℝ) : radians (direction p q) = Complex.arg ⟨q.1 - p.1, q.2 - p.2⟩ := by
  unfold radians direction
  have := Real.pi_pos.ne'
  field_simp

theorem direction_heads (p q : ℝ × ℝ) : Heads (direction p q) (q.1 - p.1) (q.2 - p.2) := by
  have hn : ‖(⟨q.1 - p.1, q.2 - p.2⟩ : ℂ)‖ = sqrt ((q.1 - p.1) ^ 2 + (q.2 - p.2) ^ 2) := by
    rw [Complex.norm_eq_sqrt_sq_add_sq]
  have hp := Real.pi_pos
  refine ⟨?_, ?_, ?_, ?_⟩
  · have := Complex.neg_pi_lt_arg ⟨q.1 - p.1, q.2 - p.2⟩
    unfold direction
    rw [lt_div_iff₀ hp]
    linarith
  · have := Complex.arg_le_pi ⟨q.1 - p.1, q.2 - p.2⟩
    unfold direction
    rw [div_le_iff₀ hp]
    linarith
  · rw [radians_direction, ← hn, Complex.norm_mul_cos_arg]
  · rw [radians_direction, ← hn, Complex.norm_mul_sin_arg]

theorem angles_at (orient : ℝ → ℝ) : ∀ (ps : List (ℝ × ℝ)) (i : Nat) (hi : i + 1 < ps.length), (angles orient ps).getD i 0 = orient (direction (ps[i]'(by omega)) ps[i + 1])
  | [], i, h => by simp at h
  | [_], i, h => by simp at h
  | [p, q], 0, _ => rfl
  | [p, q], i + 1, h => by simp at h
  | p :: q :: r :: s, 0, _ => rfl
  | p :: q :: r :: s, i + 1, h => by
    have := angles_at orient (q :: r :: s) i (by simpa using h)
    simpa [angles] using this

/-- C61, polygons: while a polygon is travelled between point i and point i+1, the angle is (orientation applied to) the direction from point i to point i+1 -/
theorem C61_polygon {ps : List (ℝ × ℝ)} {t0 : ℝ} {vmax v0 v1 acc dec : Option ℝ} {orient : ℝ → ℝ} {p : Trajectory} (h : polygon ps t0 vmax v0 v1 acc dec orient = .ok p) :
    ∃ m, movement p.len vmax v0 v1 acc dec = .ok m ∧ ∀ t i (hi : i + 1 < ps.length), upTo i ps < m.at (t - t0) → m.at (t - t0) < upTo (i + 1) ps →
      ∃ θ, p.angle t none = .ok (orient θ) ∧ Heads θ (ps[i + 1].1 - (ps[i]'(by omega)).1) (ps[i + 1].2 - (ps[i]'(by omega)).2) := by
  have hd := polygon_def h
  obtain ⟨h2, hlen, -, -, m, hm, -⟩ := hd
  unfold polygon at h
  rw [if_neg (by omega)] at h
  simp only at h
  have hc : (cumLengths 0 ps).getD ((cumLengths 0 ps).length - 1) 0 = p.len := by
    rw [hlen, cumLengths_length, cumLengths_at (by omega), zero_add]
  rw [hc, hm] at h
  injection h with h
  refine ⟨m, hm, ?_⟩
  intro t i hi l1 l2
  refine ⟨direction (ps[i]'(by omega)) ps[i + 1], ?_, direction_heads _ _⟩
  rw [← h]
  simp only [since, Option.getD_none]
  rw [indexes_mid hi l1 l2.le (lt_of_lt_of_le l2 (upTo_mono (by omega) (by omega)))]
  simp only
  rw [angles_at]

/-- the sign with which a circle is travelled: 1 if the angle increases (counter clockwise), otherwise -1 -/
noncomputable def turn (a0 a1 : ℝ) : ℝ := if a0 < a1 then 1 else -1

/-- C61, circles: the angle θ (without orientation) is the direction of the movement: seen from the position at any time t, with θ as forward direction,
the position at time t' is r*sin((l'-l)/r) forward and r*(1-cos((l'-l)/r)) to the left if the angle increases, to the right if it decreases, where l
and l' are the lengths travelled -/
theorem C61_circle {r xc yc a0 a1 t0 : ℝ} {vmax v0 v1 acc dec : Option ℝ} {orient : ℝ → ℝ} {p : Trajectory} (h : circle r xc yc a0 a1 t0 vmax v0 v1 acc dec orient = .ok p)
    (g : Given p.len vmax v0 v1 acc dec) (hp : 0 < p.len) (hr : 0 < r) (t t' : ℝ) :
    ∃ θ l l' x y x' y', p.angle t none = .ok (orient θ) ∧ p.length (some t) none = .ok l ∧ p.length (some t') none = .ok l' ∧
      p.x t none = .ok x ∧ p.y t none = .ok y ∧ p.x t' none = .ok x' ∧ p.y t' none = .ok y' ∧
      (x' - x) * cos (radians θ) + (y' - y) * sin (radians θ) = r * sin ((l' - l) / r) ∧
      (y' - y) * cos (radians θ) - (x' - x) * sin (radians θ) = turn a0 a1 * (r * (1 - cos ((l' - l) / r))) := by
  obtain ⟨l, a, x, y, hl, l0, l1, ha, hx, hy, ex, ey, -⟩ := C54_circle h g hp t
  obtain ⟨l', a', x', y', hl', l0', l1', ha', hx', hy', ex', ey', -⟩ := C54_circle h g hp t'
  have hang : p.angle t none = .ok (orient (if a0 < a1 then a + 90 else a - 90)) ∧ p.len = |radians (a1 - a0)| * r := by
    unfold circle at h
    simp only at h
    split at h
    · cases h
    rename_i m hm
    injection h with h
    subst h
    simp only at hl hp ha ⊢
    refine ⟨?_, trivial⟩
    rw [hl]
    simp only [circleAngle]
    rw [interp_two hp l0 l1]
    simp only [Except.map, sub_zero, ha]
  obtain ⟨hang, hlen⟩ := hang
  refine ⟨_, l, l', x, y, x', y', hang, hl, hl', hx, hy, hx', hy', ?_⟩
  have hpi := Real.pi_pos
  have hstep : radians a' - radians a = turn a0 a1 * ((l' - l) / r) := by
    have e : radians a' - radians a = radians (a1 - a0) * ((l' - l) / p.len) := by
      rw [ha, ha']; unfold radians; field_simp; ring
    rw [e, hlen]
    have hne : radians (a1 - a0) ≠ 0 := by
      intro h0
      rw [hlen, h0] at hp
      simp at hp
    unfold turn
    by_cases hlt : a0 < a1
    · have : 0 < radians (a1 - a0) := by unfold radians; have : 0 < a1 - a0 := by linarith
                                         positivity
      rw [if_pos hlt, abs_of_pos this]
      field_simp
    · have h1 : radians (a1 - a0) ≤ 0 := by
        unfold radians
        have : a1 - a0 ≤ 0 := by linarith
        have : (a1 - a0) * π ≤ 0 := mul_nonpos_of_nonpos_of_nonneg this hpi.le
        linarith
      have : radians (a1 - a0) < 0 := lt_of_le_of_ne h1 hne
      rw [if_neg hlt, abs_of_neg this]
      field_simp
  have hb : radians a' = radians a + turn a0 a1 * ((l' - l) / r) := by linarith
  rw [ex, ey, ex', ey', hb]
  generalize (l' - l) / r = δ
  have hsq := Real.sin_sq_add_cos_sq (radians a)
  unfold turn
  by_cases hlt : a0 < a1
  · have e : radians (a + 90) = radians a + π / 2 := by unfold radians; ring
    simp only [if_pos hlt, one_mul, e, Real.cos_add_pi_div_two, Real.sin_add_pi_div_two, Real.cos_add, Real.sin_add, Real.cos_pi_div_two, Real.sin_pi_div_two]
    constructor
    · linear_combination (r * sin δ) * hsq
    · linear_combination (r * (1 - cos δ)) * hsq
  · have e : radians (a - 90) = radians a - π / 2 := by unfold radians; ring
    simp only [if_neg hlt, e, Real.cos_sub_pi_div_two, Real.sin_sub_pi_div_two, Real.cos_add, Real.sin_add, neg_mul, one_mul, Real.cos_neg, Real.sin_neg]
    constructor
    · linear_combination (r * sin δ) * hsq
    · linear_combination (-(r * (1 - cos δ))) * hsq

/-- C61: standing still has the duration given, no length, and one place and angle at all times -/
theorem C61_standstill (x y d a t0 : ℝ) : let p := standstill x y d a t0
    p.t0 = t0 ∧ p.t1 = t0 + d ∧ p.duration = d ∧ p.len = 0 ∧
      ∀ t o, p.x t o = .ok x ∧ p.y t o = .ok y ∧ p.angle t o = .ok a ∧ p.length (some t) o = .ok 0 ∧ p.length none o = .ok 0 :=
  ⟨rfl, rfl, rfl, rfl, fun _ _ => ⟨rfl, rfl, rfl, rfl, rfl⟩⟩

/-- C61: a merged trajectory is in progress from the start of its first part, during the durations of all parts, both ends included -/
theorem C61_in_trajectory {l : List Trajectory} {f m : Trajectory} (hf : l.head? = some f) (h : merged l = .ok m) (t : ℝ) :
    m.contains t = true ↔ f.t0 ≤ t ∧ t ≤ f.t0 + (l.map (·.duration)).sum := by
  obtain ⟨h1, h2, h3, -⟩ := (C49_sums l).2 m h
  have e0 := h1 f (by rw [hf]; rfl)
  unfold Trajectory.contains
  rw [decide_eq_true_eq, h3, h2, e0]

/-- C61: a polygon is in progress as long as its movement takes, both ends included -/
theorem C61_in_polygon {ps : List (ℝ × ℝ)} {t0 : ℝ} {vmax v0 v1 acc dec : Option ℝ} {orient : ℝ → ℝ} {p : Trajectory} (h : polygon ps t0 vmax v0 v1 acc dec orient = .ok p) :
    ∃ m, movement p.len vmax v0 v1 acc dec = .ok m ∧ ∀ t, p.contains t = true ↔ t0 ≤ t ∧ t ≤ t0 + m.t := by
  obtain ⟨-, -, h0, h1, m, hm, hdur, -⟩ := polygon_def h
  refine ⟨m, hm, fun t => ?_⟩
  unfold Trajectory.contains
  rw [decide_eq_true_eq, h1, h0, hdur]

/-- the polygon (0, 0), (10, 0), (10, 10) with speed 1: at time 15 the angle is the direction of the second segment, 90 degrees -/
example : ∃ p m, polygon [(0, 0), (10, 0), (10, 10)] 0 none none none none none id = .ok p ∧ movement p.len none none none none none = .ok m ∧
    upTo 1 [((0 : ℝ), (0 : ℝ)), (10, 0), (10, 10)] < m.at (15 - 0) ∧ m.at (15 - 0) < upTo 2 [((0 : ℝ), (0 : ℝ)), (10, 0), (10, 10)] := by
  have d1 : dist (0, 0) (10, 0) = 10 := by unfold dist; norm_num
  have d2 : dist (10, 0) (10, 10) = 10 := by unfold dist; norm_num
  have u1 : upTo 1 [((0 : ℝ), (0 : ℝ)), (10, 0), (10, 10)] = 10 := by simp [upTo, d1]
  have u2 : upTo 2 [((0 : ℝ), (0 : ℝ)), (10, 0), (10, 10)] = 20 := by simp [upTo, d1, d2]; norm_num
  have hm := movement_default (length := 20) (by norm_num)
  obtain ⟨p, hp⟩ : ∃ p, polygon [(0, 0), (10, 0), (10, 10)] 0 none none none none none id = .ok p := by
    have hc : (cumLengths 0 [((0 : ℝ), (0 : ℝ)), (10, 0), (10, 10)]).getD ((cumLengths 0 [((0 : ℝ), (0 : ℝ)), (10, 0), (10, 10)]).length - 1) 0 = 20 := by
      rw [cumLengths_length, cumLengths_at (by simp)]; simpa using u2
    unfold polygon
    rw [if_neg (by simp)]
    simp only [hc, hm]
    exact ⟨_, rfl⟩
  obtain ⟨-, hlen, -, -, m, hmm, -⟩ := polygon_def hp
  have hlen' : p.len = 20 := by rw [hlen]; simpa using u2
  refine ⟨p, m, hp, hmm, ?_⟩
  rw [hlen', hm] at hmm
  injection hmm with hmm
  have hat : m.at (15 - 0) = 15 := by rw [← hmm]; unfold Movement.at; norm_num
  rw [hat, u1, u2]
  norm_num

end Traj
end Verif
