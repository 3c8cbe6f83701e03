import Verif.Trajectory
import Mathlib.Tactic.Linarith
import Mathlib.Tactic.Ring
import Mathlib.Tactic.FieldSimp
import Mathlib.Tactic.NormNum.RealSqrt
import Mathlib.Topology.Algebra.Order.LiminfLimsup
import Mathlib.Topology.Order.OrderClosed

/-! # C48: movements -/

namespace Verif
namespace Traj

open Real

/-- t limited to [0, d] -/
noncomputable def clamp (d t : ℝ) : ℝ := max 0 (min t d)

theorem clamp_mem {d : ℝ} (hd : 0 ≤ d) (t : ℝ) : 0 ≤ clamp d t ∧ clamp d t ≤ d := ⟨le_max_left _ _, max_le hd (min_le_right _ _)⟩
theorem clamp_mono (d : ℝ) : Monotone (clamp d) := fun _ _ h => max_le_max le_rfl (min_le_min h le_rfl)
theorem clamp_continuous (d : ℝ) : Continuous (clamp d) := continuous_const.max (continuous_id.min continuous_const)
theorem clamp_lo {d t : ℝ} (h : t ≤ 0) (hd : 0 ≤ d) : clamp d t = 0 := max_eq_left ((min_le_left _ _).trans h)
theorem clamp_hi {d t : ℝ} (h : d ≤ t) (hd : 0 ≤ d) : clamp d t = d := by unfold clamp; rw [min_eq_right h, max_eq_right hd]
theorem clamp_in {d t : ℝ} (h : 0 ≤ t) (hd : t ≤ d) : clamp d t = t := by unfold clamp; rw [min_eq_left hd, max_eq_right h]
/-- limiting to the phases shares out the time -/
theorem clamp_sum {a b c t : ℝ} (ha : 0 ≤ a) (hb : 0 ≤ b) (hc : 0 ≤ c) : clamp a t + clamp b (t - a) + clamp c (t - a - b) = clamp (a + b + c) t := by
  rcases le_total t 0 with h | h
  · rw [clamp_lo h ha, clamp_lo (by linarith) hb, clamp_lo (by linarith) hc, clamp_lo h (by linarith)]; ring
  rcases le_total t a with h1 | h1
  · rw [clamp_in h h1, clamp_lo (by linarith) hb, clamp_lo (by linarith) hc, clamp_in h (by linarith)]; ring
  rcases le_total (t - a) b with h2 | h2
  · rw [clamp_hi h1 ha, clamp_in (by linarith) h2, clamp_lo (by linarith) hc, clamp_in h (by linarith)]; ring
  rcases le_total (t - a - b) c with h3 | h3
  · rw [clamp_hi h1 ha, clamp_hi h2 hb, clamp_in (by linarith) h3, clamp_in h (by linarith)]; ring
  · rw [clamp_hi h1 ha, clamp_hi h2 hb, clamp_hi h3 hc, clamp_hi (by linarith) (by linarith)]

/-- what holds for a movement that was accepted -/
structure Sound (m : Movement) (length vmax v1 : ℝ) : Prop where
  tAcc : 0 ≤ m.tAcc
  tMax : 0 ≤ m.tMax
  tDec : 0 ≤ m.tDec
  total : m.t = m.tAcc + m.tMax + m.tDec
  v0 : 0 ≤ m.v0
  fin : 0 ≤ v1
  pos : 0 < m.vmax
  le : m.vmax ≤ vmax
  lAcc : m.lAcc = match m.acc with | none => 0 | some a => m.v0 * m.tAcc + a * m.tAcc ^ 2 / 2
  lDec : m.lDec = match m.dec with | none => 0 | some a => m.vmax * m.tDec - a * m.tDec ^ 2 / 2
  lMax : m.lMax = m.vmax * m.tMax
  len : m.lAcc + m.lMax + m.lDec = length
  acc : match m.acc with | none => m.tAcc = 0 | some a => 0 < a ∧ m.v0 + a * m.tAcc = m.vmax
  dec : match m.dec with | none => m.tDec = 0 | some a => 0 < a ∧ m.vmax - a * m.tDec = v1

/-- what may be given: speeds that are not negative, positive maximal speed, accelerations and decelerations positive -/
structure Given (length : ℝ) (vmax v0 v1 acc dec : Option ℝ) : Prop where
  length : 0 ≤ length
  vmax : ∀ v, vmax = some v → 0 < v
  v0 : ∀ v, v0 = some v → 0 ≤ v
  v1 : ∀ v, v1 = some v → 0 ≤ v
  acc : ∀ v, acc = some v → 0 < v
  dec : ∀ v, dec = some v → 0 < v

theorem half_nonneg {a : Option ℝ} (h : ∀ v, a = some v → 0 < v) : 0 ≤ half a := by
  cases a with
  | none => exact le_rfl
  | some v => have := h v rfl; unfold half; positivity

theorem movement_sound {length : ℝ} {vmax v0 v1 acc dec : Option ℝ} (g : Given length vmax v0 v1 acc dec) {m : Movement}
    (h : movement length vmax v0 v1 acc dec = .ok m) : Sound m length (vmax.getD 1) (v1.getD (vmax.getD 1)) ∧ m.v0 = v0.getD (vmax.getD 1) ∧ m.acc = acc ∧ m.dec = dec := by
  have hvp : 0 < vmax.getD 1 := by
    cases hv : vmax with
    | none => simp
    | some v => exact g.vmax v hv
  have hv0 : 0 ≤ v0.getD (vmax.getD 1) := by
    cases hv : v0 with
    | none => exact hvp.le
    | some v => exact g.v0 v hv
  have hv1 : 0 ≤ v1.getD (vmax.getD 1) := by
    cases hv : v1 with
    | none => exact hvp.le
    | some v => exact g.v1 v hv
  unfold movement at h
  simp only at h
  generalize vmax.getD 1 = V at *
  generalize v0.getD V = V0 at *
  generalize v1.getD V = V1 at *
  have hA := half_nonneg g.acc
  have hD := half_nonneg g.dec
  split at h
  · cases h
  split at h
  · cases h
  rename_i W hW
  split at h
  · cases h
  rename_i hneg
  split at h
  · cases h
  rename_i hne
  rw [not_or, not_lt, not_lt] at hneg
  injection h with h
  -- the top speed
  have htop : 0 ≤ W ∧ W ≤ V ∧ 0 ≤ length - (W ^ 2 - V0 ^ 2) * half acc - (W ^ 2 - V1 ^ 2) * half dec := by
    unfold topSpeed at hW
    split at hW
    · rename_i hgt
      split at hW
      · cases hW
      rename_i hs
      split at hW
      · cases hW
      rename_i hnn
      injection hW with hW
      have hs' : 0 < half acc + half dec := lt_of_le_of_ne (by linarith) (Ne.symm hs)
      have hsq : W ^ 2 = (length + V0 ^ 2 * half acc + V1 ^ 2 * half dec) / (half acc + half dec) := by
        rw [← hW, Real.sq_sqrt (not_lt.1 hnn)]
      have hW0 : 0 ≤ W := by rw [← hW]; exact Real.sqrt_nonneg _
      have hsq' : W ^ 2 * (half acc + half dec) = length + V0 ^ 2 * half acc + V1 ^ 2 * half dec := by rw [hsq]; field_simp
      refine ⟨hW0, ?_, by nlinarith⟩
      refine abs_le_of_sq_le_sq' ?_ hvp.le |>.2
      by_contra hc
      rw [not_le] at hc
      nlinarith
    · rename_i hgt
      injection hW with hW
      subst hW
      exact ⟨hvp.le, le_rfl, by linarith⟩
  obtain ⟨hW0, hWV, hlmax⟩ := htop
  have hWp : 0 < W := lt_of_le_of_ne hW0 (Ne.symm hne)
  subst h
  refine ⟨⟨?_, div_nonneg hlmax hW0, ?_, rfl, hv0, hv1, hWp, hWV, ?_, ?_, ?_, by ring, ?_, ?_⟩, rfl, rfl, rfl⟩
  · show 0 ≤ over (W - V0) acc
    cases ha : acc with
    | none => exact le_rfl
    | some a =>
      have hap := g.acc a ha
      have h1 := hneg.1
      rw [ha] at h1
      unfold half at h1
      have : 0 ≤ W ^ 2 - V0 ^ 2 := by
        by_contra hc
        rw [not_le] at hc
        have : (W ^ 2 - V0 ^ 2) * (1 / (2 * a)) < 0 := mul_neg_of_neg_of_pos hc (by positivity)
        linarith
      have : V0 ≤ W := by nlinarith
      unfold over
      exact div_nonneg (by linarith) hap.le
  · show 0 ≤ over (W - V1) dec
    cases ha : dec with
    | none => exact le_rfl
    | some a =>
      have hap := g.dec a ha
      have h1 := hneg.2
      rw [ha] at h1
      unfold half at h1
      have : 0 ≤ W ^ 2 - V1 ^ 2 := by
        by_contra hc
        rw [not_le] at hc
        have : (W ^ 2 - V1 ^ 2) * (1 / (2 * a)) < 0 := mul_neg_of_neg_of_pos hc (by positivity)
        linarith
      have : V1 ≤ W := by nlinarith
      unfold over
      exact div_nonneg (by linarith) hap.le
  · show (W ^ 2 - V0 ^ 2) * half acc = match (generalizing := false) acc with | none => 0 | some a => V0 * over (W - V0) acc + a * over (W - V0) acc ^ 2 / 2
    cases ha : acc with
    | none => simp [half]
    | some a =>
      have hap := g.acc a ha
      simp only [half, over]
      field_simp
      ring
  · show (W ^ 2 - V1 ^ 2) * half dec = match (generalizing := false) dec with | none => 0 | some a => W * over (W - V1) dec - a * over (W - V1) dec ^ 2 / 2
    cases ha : dec with
    | none => simp [half]
    | some a =>
      have hap := g.dec a ha
      simp only [half, over]
      field_simp
      ring
  · show _ = W * ((length - (W ^ 2 - V0 ^ 2) * half acc - (W ^ 2 - V1 ^ 2) * half dec) / W)
    field_simp
  · show match (generalizing := false) acc with | none => over (W - V0) acc = 0 | some a => 0 < a ∧ V0 + a * over (W - V0) acc = W
    cases ha : acc with
    | none => rfl
    | some a =>
      have hap := g.acc a ha
      refine ⟨hap, ?_⟩
      simp only [over]
      field_simp
      ring
  · show match (generalizing := false) dec with | none => over (W - V1) dec = 0 | some a => 0 < a ∧ W - a * over (W - V1) dec = V1
    cases ha : dec with
    | none => rfl
    | some a =>
      have hap := g.dec a ha
      refine ⟨hap, ?_⟩
      simp only [over]
      field_simp
      ring

/-- the length travelled: in the acceleration, at constant speed and in the deceleration -/
noncomputable def closed (m : Movement) (t : ℝ) : ℝ :=
  (m.v0 * clamp m.tAcc t + m.acc.getD 0 * clamp m.tAcc t ^ 2 / 2) + m.vmax * clamp m.tMax (t - m.tAcc) +
    (m.vmax * clamp m.tDec (t - m.tAcc - m.tMax) - m.dec.getD 0 * clamp m.tDec (t - m.tAcc - m.tMax) ^ 2 / 2)

theorem at_eq {m : Movement} {length vmax v1 : ℝ} (s : Sound m length vmax v1) (t : ℝ) : m.at t = closed m t := by
  have hA := s.tAcc; have hM := s.tMax; have hD := s.tDec; have ht := s.total
  unfold Movement.at closed
  by_cases h0 : t < 0
  · rw [if_pos h0, clamp_lo h0.le hA, clamp_lo (by linarith) hM, clamp_lo (by linarith) hD]; ring
  rw [if_neg h0, not_lt] at *
  simp only
  -- limit t to the total
  have hlim : ∀ t', t' = (if t > m.t then m.t else t) → 0 ≤ t' ∧ t' ≤ m.t ∧ clamp m.tAcc t' = clamp m.tAcc t ∧ clamp m.tMax (t' - m.tAcc) = clamp m.tMax (t - m.tAcc) ∧
      clamp m.tDec (t' - m.tAcc - m.tMax) = clamp m.tDec (t - m.tAcc - m.tMax) := by
    intro t' h'
    split at h'
    · rename_i hgt
      subst h'
      rw [clamp_hi (by linarith) hA, clamp_hi (by linarith) hA, clamp_hi (by linarith) hM, clamp_hi (by linarith) hM, clamp_hi (by linarith) hD, clamp_hi (by linarith) hD]
      exact ⟨by linarith, le_rfl, rfl, rfl, rfl⟩
    · rename_i hgt
      subst h'
      exact ⟨h0, not_lt.1 hgt, rfl, rfl, rfl⟩
  obtain ⟨a1, a2, a3, a4, a5⟩ := hlim _ rfl
  generalize (if t > m.t then m.t else t) = t' at *
  rw [← a3, ← a4, ← a5]
  clear a3 a4 a5 hlim
  by_cases hinf : m.acc = none ∧ m.dec = none
  · rw [if_pos hinf]
    have e1 := s.acc; have e2 := s.dec
    rw [hinf.1] at e1; rw [hinf.2] at e2
    simp only at e1 e2
    rw [e1, e2, hinf.1, hinf.2, clamp_hi a1 le_rfl, clamp_in (by linarith) (by linarith), clamp_lo (by linarith) le_rfl]
    simp
  rw [if_neg hinf]
  by_cases h1 : t' < m.tAcc
  · rw [if_pos h1, clamp_in a1 h1.le, clamp_lo (by linarith) hM, clamp_lo (by linarith) hD]; ring
  rw [if_neg h1, not_lt] at *
  have hlA : m.v0 * m.tAcc + m.acc.getD 0 * m.tAcc ^ 2 / 2 = m.lAcc := by
    rw [s.lAcc]
    have e1 := s.acc
    cases hacc : m.acc with
    | none => rw [hacc] at e1; simp only at e1; rw [e1]; simp
    | some a => simp
  rw [clamp_hi h1 hA, hlA]
  by_cases h2 : t' - m.tAcc < m.tMax
  · rw [if_pos h2, clamp_in (by linarith) h2.le, clamp_lo (by linarith) hD]; ring
  rw [if_neg h2, not_lt] at *
  rw [clamp_hi h2 hM, ← s.lMax, clamp_in (by linarith) (by linarith)]
  cases m.dec with
  | none => simp
  | some d => simp only [Option.getD_some]; ring

theorem quad_le {v a d x y : ℝ} (hv : 0 ≤ v) (ha : 0 ≤ a) (hx : 0 ≤ x) (hxy : x ≤ y) (hy : y ≤ d) :
    v * x + a * x ^ 2 / 2 ≤ v * y + a * y ^ 2 / 2 ∧ (v * y + a * y ^ 2 / 2) - (v * x + a * x ^ 2 / 2) ≤ (v + a * d) * (y - x) := by
  have h1 : 0 ≤ a * (x + y) := mul_nonneg ha (by linarith)
  constructor
  · nlinarith [mul_nonneg hv (sub_nonneg.2 hxy), mul_nonneg h1 (sub_nonneg.2 hxy)]
  · have : a * (x + y) / 2 ≤ a * d := by nlinarith
    nlinarith [mul_le_mul_of_nonneg_right this (sub_nonneg.2 hxy)]

theorem quad_ge {v a d x y : ℝ} (ha : 0 ≤ a) (hd : 0 ≤ v - a * d) (hx : 0 ≤ x) (hxy : x ≤ y) (hy : y ≤ d) :
    v * x - a * x ^ 2 / 2 ≤ v * y - a * y ^ 2 / 2 ∧ (v * y - a * y ^ 2 / 2) - (v * x - a * x ^ 2 / 2) ≤ v * (y - x) := by
  have h1 : 0 ≤ a * (x + y) := mul_nonneg ha (by linarith)
  constructor
  · have : a * (x + y) / 2 ≤ v := by nlinarith
    nlinarith [mul_le_mul_of_nonneg_right this (sub_nonneg.2 hxy)]
  · nlinarith [mul_nonneg h1 (sub_nonneg.2 hxy)]

/-- C48: for each accepted movement, nothing has been travelled at the start (and before), the full length at the end (and after), the length travelled
is continuous, does not decrease, and its speed is never above vmax -/
theorem C48_length {length : ℝ} {vmax v0 v1 acc dec : Option ℝ} (g : Given length vmax v0 v1 acc dec) {m : Movement}
    (h : movement length vmax v0 v1 acc dec = .ok m) :
    0 ≤ m.t ∧ (∀ t ≤ 0, m.at t = 0) ∧ (∀ t, m.t ≤ t → m.at t = length) ∧ Continuous m.at ∧ Monotone m.at ∧
      ∀ t t', t ≤ t' → m.at t' - m.at t ≤ vmax.getD 1 * (t' - t) := by
  obtain ⟨s, -⟩ := movement_sound g h
  have hA := s.tAcc; have hM := s.tMax; have hD := s.tDec; have ht := s.total
  have heq : m.at = closed m := funext (at_eq s)
  have hac : 0 ≤ m.acc.getD 0 ∧ m.v0 + m.acc.getD 0 * m.tAcc ≤ m.vmax ∨ m.tAcc = 0 := by
    have e := s.acc
    cases hacc : m.acc with
    | none => rw [hacc] at e; exact Or.inr e
    | some a => rw [hacc] at e; exact Or.inl ⟨e.1.le, e.2.le⟩
  have hdc : 0 ≤ m.dec.getD 0 ∧ 0 ≤ m.vmax - m.dec.getD 0 * m.tDec := by
    have e := s.dec
    cases hdec : m.dec with
    | none => simpa using s.pos.le
    | some a => rw [hdec] at e; exact ⟨e.1.le, e.2.ge.trans' s.fin⟩
  have key : ∀ t t', t ≤ t' → closed m t ≤ closed m t' ∧ closed m t' - closed m t ≤ m.vmax * (t' - t) := by
    intro t t' htt
    have c1 := clamp_mono m.tAcc htt
    have c2 := clamp_mono m.tMax (show t - m.tAcc ≤ t' - m.tAcc by linarith)
    have c3 := clamp_mono m.tDec (show t - m.tAcc - m.tMax ≤ t' - m.tAcc - m.tMax by linarith)
    have p1 : (m.v0 * clamp m.tAcc t + m.acc.getD 0 * clamp m.tAcc t ^ 2 / 2) ≤ (m.v0 * clamp m.tAcc t' + m.acc.getD 0 * clamp m.tAcc t' ^ 2 / 2) ∧
        (m.v0 * clamp m.tAcc t' + m.acc.getD 0 * clamp m.tAcc t' ^ 2 / 2) - (m.v0 * clamp m.tAcc t + m.acc.getD 0 * clamp m.tAcc t ^ 2 / 2) ≤ m.vmax * (clamp m.tAcc t' - clamp m.tAcc t) := by
      rcases hac with ⟨h1, h2⟩ | h0
      · obtain ⟨q1, q2⟩ := quad_le s.v0 h1 (clamp_mem hA t).1 c1 (clamp_mem hA t').2
        exact ⟨q1, q2.trans (mul_le_mul_of_nonneg_right h2 (by linarith))⟩
      · have z : ∀ t, clamp m.tAcc t = 0 := fun t => le_antisymm ((clamp_mem hA t).2.trans h0.le) (clamp_mem hA t).1
        rw [z t, z t']; simp
    have p3 := quad_ge (v := m.vmax) hdc.1 hdc.2 (clamp_mem hD (t - m.tAcc - m.tMax)).1 c3 (clamp_mem hD (t' - m.tAcc - m.tMax)).2
    have p2 : m.vmax * clamp m.tMax (t - m.tAcc) ≤ m.vmax * clamp m.tMax (t' - m.tAcc) := mul_le_mul_of_nonneg_left c2 s.pos.le
    refine ⟨by unfold closed; linarith [p1.1, p3.1], ?_⟩
    have hs := clamp_sum (t := t) hA hM hD
    have hs' := clamp_sum (t := t') hA hM hD
    have hlip : clamp (m.tAcc + m.tMax + m.tDec) t' - clamp (m.tAcc + m.tMax + m.tDec) t ≤ t' - t := by
      unfold clamp
      rcases le_total t' (m.tAcc + m.tMax + m.tDec) with a | a <;> rcases le_total t (m.tAcc + m.tMax + m.tDec) with b | b <;>
        simp only [min_eq_left, min_eq_right, a, b] <;>
        rcases le_total 0 t with c | c <;> rcases le_total 0 t' with d | d <;>
        simp only [max_eq_left, max_eq_right, c, d, show (0 : ℝ) ≤ m.tAcc + m.tMax + m.tDec by linarith] <;> linarith
    have hmul := mul_le_mul_of_nonneg_left hlip s.pos.le
    have : closed m t' - closed m t ≤ m.vmax * (clamp (m.tAcc + m.tMax + m.tDec) t' - clamp (m.tAcc + m.tMax + m.tDec) t) := by
      rw [← hs, ← hs']
      unfold closed
      linarith [p1.2, p3.2]
    linarith
  refine ⟨by linarith, ?_, ?_, ?_, ?_, ?_⟩
  · intro t h0
    rw [heq]
    unfold closed
    rw [clamp_lo h0 hA, clamp_lo (by linarith) hM, clamp_lo (by linarith) hD]; ring
  · intro t h0
    rw [heq]
    unfold closed
    rw [clamp_hi (by linarith) hA, clamp_hi (by linarith) hM, clamp_hi (by linarith) hD, ← s.len, s.lMax, s.lAcc, s.lDec]
    have e1 := s.acc; have e2 := s.dec
    cases hacc : m.acc with
    | none =>
      rw [hacc] at e1; simp only at e1
      cases hdec : m.dec with
      | none => rw [hdec] at e2; simp only at e2; rw [e1, e2]; simp
      | some d => rw [e1]; simp
    | some a =>
      cases hdec : m.dec with
      | none => rw [hdec] at e2; simp only at e2; rw [e2]; simp
      | some d => simp
  · rw [heq]
    unfold closed
    have c1 := clamp_continuous m.tAcc
    have c2 : Continuous fun t => clamp m.tMax (t - m.tAcc) := (clamp_continuous m.tMax).comp (continuous_id.sub continuous_const)
    have c3 : Continuous fun t => clamp m.tDec (t - m.tAcc - m.tMax) := (clamp_continuous m.tDec).comp ((continuous_id.sub continuous_const).sub continuous_const)
    exact (((continuous_const.mul c1).add ((continuous_const.mul (c1.pow 2)).div_const 2)).add (continuous_const.mul c2)).add
      ((continuous_const.mul c3).sub ((continuous_const.mul (c3.pow 2)).div_const 2))
  · intro t t' htt
    rw [heq]
    exact (key t t' htt).1
  · intro t t' htt
    rw [heq]
    exact ((key t t' htt).2).trans (mul_le_mul_of_nonneg_right s.le (by linarith))

/-- C48: the phases. First the speed increases from v0 with acc, in the middle part it is constant, in the last part it decreases with dec to v1
(x is the time within the phase). -/
theorem C48_phases {length : ℝ} {vmax v0 v1 acc dec : Option ℝ} (g : Given length vmax v0 v1 acc dec) {m : Movement}
    (h : movement length vmax v0 v1 acc dec = .ok m) :
    (∀ a x, acc = some a → 0 ≤ x → x ≤ m.tAcc → m.at x = v0.getD (vmax.getD 1) * x + a * x ^ 2 / 2) ∧
    (∀ x, 0 ≤ x → x ≤ m.tMax → m.at (m.tAcc + x) = m.at m.tAcc + m.vmax * x) ∧
    (∀ a x, dec = some a → 0 ≤ x → x ≤ m.tDec → m.at (m.t - x) = length - (v1.getD (vmax.getD 1) * x + a * x ^ 2 / 2)) := by
  have hL := C48_length g h
  obtain ⟨s, hv0, hacc, hdec⟩ := movement_sound g h
  have hA := s.tAcc; have hM := s.tMax; have hD := s.tDec; have ht := s.total
  have heq : m.at = closed m := funext (at_eq s)
  refine ⟨?_, ?_, ?_⟩
  · intro a x ha h0 h1
    rw [heq]
    unfold closed
    rw [clamp_in h0 h1, clamp_lo (by linarith) hM, clamp_lo (by linarith) hD, hv0, hacc, ha]
    simp
  · intro x h0 h1
    rw [heq]
    unfold closed
    rw [clamp_hi (by linarith) hA, clamp_in (by linarith) (by linarith), clamp_lo (by linarith) hD, clamp_hi le_rfl hA, clamp_lo (by linarith) hM, clamp_lo (by linarith) hD]
    ring
  · intro a x ha h0 h1
    have hend := hL.2.2.1 m.t le_rfl
    rw [heq] at hend ⊢
    rw [← hend]
    have e := s.dec
    rw [hdec, ha] at e
    unfold closed
    rw [hdec, ha, clamp_hi (by linarith) hA, clamp_hi (by linarith) hM, clamp_in (by linarith) (by linarith), clamp_hi (by linarith) hA, clamp_hi (by linarith) hM, clamp_in (by linarith) (by linarith)]
    have hv1 : v1.getD (vmax.getD 1) = m.vmax - a * m.tDec := e.2.symm
    rw [hv1, ht]
    simp only [Option.getD_some]
    ring

/-- C48: the speed increases up to the speed of the middle part and decreases from there; that speed is vmax, unless the length is too short to reach
vmax: then there's no middle part -/
theorem C48_top_speed {length : ℝ} {vmax v0 v1 acc dec : Option ℝ} (g : Given length vmax v0 v1 acc dec) {m : Movement}
    (h : movement length vmax v0 v1 acc dec = .ok m) :
    (∀ a, acc = some a → v0.getD (vmax.getD 1) + a * m.tAcc = m.vmax) ∧ (∀ a, dec = some a → v1.getD (vmax.getD 1) + a * m.tDec = m.vmax) ∧
      m.vmax ≤ vmax.getD 1 ∧ (m.vmax = vmax.getD 1 ∨ m.tMax = 0) ∧ m.t = m.tAcc + m.tMax + m.tDec ∧ (acc = none → m.tAcc = 0) ∧ (dec = none → m.tDec = 0) := by
  obtain ⟨s, hv0, hacc, hdec⟩ := movement_sound g h
  refine ⟨fun a ha => ?_, fun a ha => ?_, s.le, ?_, s.total, fun ha => ?_, fun ha => ?_⟩
  · have e := s.acc
    rw [hacc, ha, hv0] at e
    exact e.2
  · have e := s.dec
    rw [hdec, ha] at e
    linarith [e.2]
  · have hA := half_nonneg g.acc
    have hD := half_nonneg g.dec
    unfold movement at h
    simp only at h
    split at h
    · cases h
    split at h
    · cases h
    rename_i W hW
    split at h
    · cases h
    split at h
    · cases h
    injection h with h
    subst h
    show W = _ ∨ (length - (W ^ 2 - _) * half acc - (W ^ 2 - _) * half dec) / W = 0
    unfold topSpeed at hW
    split at hW
    · right
      split at hW
      · cases hW
      rename_i hs
      split at hW
      · cases hW
      rename_i hnn
      injection hW with hW
      have hsq : W ^ 2 = (length + v0.getD (vmax.getD 1) ^ 2 * half acc + v1.getD (vmax.getD 1) ^ 2 * half dec) / (half acc + half dec) := by
        rw [← hW, Real.sq_sqrt (not_lt.1 hnn)]
      have hsq' : W ^ 2 * (half acc + half dec) = length + v0.getD (vmax.getD 1) ^ 2 * half acc + v1.getD (vmax.getD 1) ^ 2 * half dec := by
        rw [hsq]; field_simp
      rw [show length - (W ^ 2 - v0.getD (vmax.getD 1) ^ 2) * half acc - (W ^ 2 - v1.getD (vmax.getD 1) ^ 2) * half dec = 0 by linarith, zero_div]
    · left
      injection hW with hW
      exact hW.symm
  · have e := s.acc
    rw [hacc, ha] at e
    exact e
  · have e := s.dec
    rw [hdec, ha] at e
    exact e

/-- a movement of length 16 with vmax 4 from standstill to standstill, acc 2 and dec 4: 2 seconds acceleration, 2.5 at constant speed, 1 deceleration -/
example : ∃ m, movement 16 (some 4) (some 0) (some 0) (some 2) (some 4) = .ok m ∧ Given 16 (some 4) (some 0) (some 0) (some 2) (some 4) ∧ m.tAcc = 2 ∧ m.tMax = 5 / 2 ∧
    m.tDec = 1 := by
  refine ⟨⟨4, 2, 10, 2, 5 / 2, 1, 11 / 2, 0, 4, some 2, some 4⟩, ?_, ⟨by norm_num, by simp, by simp, by simp, by simp, by simp⟩, rfl, rfl, rfl⟩
  unfold movement topSpeed half over
  norm_num

/-- too short for vmax: length 4 from standstill to standstill with acc 1 and dec 1 reaches speed 2 -/
example : ∃ m, movement 4 (some 10) (some 0) (some 0) (some 1) (some 1) = .ok m ∧ Given 4 (some 10) (some 0) (some 0) (some 1) (some 1) ∧ m.vmax = 2 ∧ m.t = 4 ∧ m.at 1 = 1 / 2 ∧
    m.at 3 = 7 / 2 := by
  refine ⟨⟨2, 2, 0, 2, 0, 2, 4, 0, 2, some 1, some 1⟩, ?_, ⟨by norm_num, by simp, by simp, by simp, by simp, by simp⟩, rfl, rfl, ?_, ?_⟩
  · unfold movement topSpeed half over
    norm_num
  · unfold Movement.at; norm_num; simp
  · unfold Movement.at; norm_num; simp

/-- speeds that can be reached: `v0` and `v1` are not above `vmax`, and it is possible to get from the one to the other within the length; a speed does not matter where
the acceleration (deceleration) is unlimited -/
structure Feasible (length vmax v0 v1 : ℝ) (acc dec : Option ℝ) : Prop where
  start : acc ≠ none → v0 ≤ vmax
  stop : dec ≠ none → v1 ≤ vmax
  reach : ∀ a d, acc = some a → dec = some d → v1 ^ 2 ≤ v0 ^ 2 + 2 * a * length ∧ v0 ^ 2 ≤ v1 ^ 2 + 2 * d * length

/-- C48: which movements are accepted; all others are refused with a ValueError -/
theorem C48_accepted {length : ℝ} {vmax v0 v1 acc dec : Option ℝ} (g : Given length vmax v0 v1 acc dec) (hl : 0 < length) :
    (Feasible length (vmax.getD 1) (v0.getD (vmax.getD 1)) (v1.getD (vmax.getD 1)) acc dec → ∃ m, movement length vmax v0 v1 acc dec = .ok m) ∧
    (¬ Feasible length (vmax.getD 1) (v0.getD (vmax.getD 1)) (v1.getD (vmax.getD 1)) acc dec → movement length vmax v0 v1 acc dec = .error .value) := by
  have hF : ∀ V u v, Feasible length V u v acc dec ↔ ((acc ≠ none → u ≤ V) ∧ (dec ≠ none → v ≤ V) ∧
      ∀ a d, acc = some a → dec = some d → v ^ 2 ≤ u ^ 2 + 2 * a * length ∧ u ^ 2 ≤ v ^ 2 + 2 * d * length) :=
    fun V u v => ⟨fun h => ⟨h.start, h.stop, h.reach⟩, fun h => ⟨h.1, h.2.1, h.2.2⟩⟩
  rw [hF]
  have hV : 0 < vmax.getD 1 := by cases vmax with | none => exact one_pos | some v => exact g.vmax v rfl
  have h0 : 0 ≤ v0.getD (vmax.getD 1) := by cases v0 with | none => exact hV.le | some v => exact g.v0 v rfl
  have h1 : 0 ≤ v1.getD (vmax.getD 1) := by cases v1 with | none => exact hV.le | some v => exact g.v1 v rfl
  have gacc := g.acc
  have gdec := g.dec
  unfold movement
  simp only
  generalize vmax.getD 1 = V at *
  generalize v0.getD V = u at *
  generalize v1.getD V = v at *
  have hne : ¬ (acc = some 0 ∨ dec = some 0) := by
    rintro (h | h)
    · exact absurd (gacc 0 h) (lt_irrefl _)
    · exact absurd (gdec 0 h) (lt_irrefl _)
  rw [if_neg hne]
  have sq : ∀ {p q : ℝ}, 0 ≤ p → 0 ≤ q → (p ^ 2 ≤ q ^ 2 ↔ p ≤ q) := fun hp hq => by
    rw [sq_le_sq, abs_of_nonneg hp, abs_of_nonneg hq]
  have key : ∀ A D : ℝ, half acc = A → half dec = D → 0 ≤ A → 0 ≤ D → (acc ≠ none ↔ 0 < A) → (dec ≠ none ↔ 0 < D) →
      (∀ T, topSpeed length V u v acc dec = .ok T → 0 < T ∧ ((0 ≤ (T ^ 2 - u ^ 2) * A ∧ 0 ≤ (T ^ 2 - v ^ 2) * D) ↔
        ((acc ≠ none → u ≤ V) ∧ (dec ≠ none → v ≤ V) ∧ (0 < A → 0 < D → (v ^ 2 - u ^ 2) * A ≤ length ∧ (u ^ 2 - v ^ 2) * D ≤ length)))) ∧
      ∃ T, topSpeed length V u v acc dec = .ok T := by
    intro A D hA hD pA pD eA eD
    unfold topSpeed
    rw [hA, hD, eA, eD]
    by_cases hc : (V ^ 2 - u ^ 2) * A + (V ^ 2 - v ^ 2) * D > length
    · rw [if_pos hc]
      have hs : 0 < A + D := by
        rcases pA.lt_or_eq with h | h
        · linarith
        · rcases pD.lt_or_eq with h' | h'
          · linarith
          · rw [← h, ← h'] at hc; simp at hc; linarith
      rw [if_neg hs.ne']
      have hn : 0 < length + u ^ 2 * A + v ^ 2 * D := by positivity
      have hq : 0 < (length + u ^ 2 * A + v ^ 2 * D) / (A + D) := div_pos hn hs
      rw [if_neg (not_lt.mpr hq.le)]
      refine ⟨fun T hT => ?_, _, rfl⟩
      cases hT
      refine ⟨Real.sqrt_pos.mpr hq, ?_⟩
      rw [Real.sq_sqrt hq.le]
      have e1 : (length + u ^ 2 * A + v ^ 2 * D) / (A + D) - u ^ 2 = (length - (u ^ 2 - v ^ 2) * D) / (A + D) := by field_simp; ring
      have e2 : (length + u ^ 2 * A + v ^ 2 * D) / (A + D) - v ^ 2 = (length - (v ^ 2 - u ^ 2) * A) / (A + D) := by field_simp; ring
      rw [e1, e2]
      have f1 : 0 ≤ (length - (u ^ 2 - v ^ 2) * D) / (A + D) * A ↔ (0 < A → (u ^ 2 - v ^ 2) * D ≤ length) := by
        constructor
        · intro h hA
          have := nonneg_of_mul_nonneg_left h hA
          have := mul_nonneg this hs.le
          rw [div_mul_cancel₀ _ hs.ne'] at this
          linarith
        · intro h
          rcases pA.lt_or_eq with hA | hA
          · have := h hA
            exact mul_nonneg (div_nonneg (by linarith) hs.le) pA
          · rw [← hA]; simp
      have f2 : 0 ≤ (length - (v ^ 2 - u ^ 2) * A) / (A + D) * D ↔ (0 < D → (v ^ 2 - u ^ 2) * A ≤ length) := by
        constructor
        · intro h hA
          have := nonneg_of_mul_nonneg_left h hA
          have := mul_nonneg this hs.le
          rw [div_mul_cancel₀ _ hs.ne'] at this
          linarith
        · intro h
          rcases pD.lt_or_eq with hA | hA
          · have := h hA
            exact mul_nonneg (div_nonneg (by linarith) hs.le) pD
          · rw [← hA]; simp
      rw [f1, f2]
      constructor
      · rintro ⟨k1, k2⟩
        refine ⟨fun hA => ?_, fun hD => ?_, fun hA hD => ⟨k2 hD, k1 hA⟩⟩
        · by_contra hu
          have hu' : V ^ 2 < u ^ 2 := by
            have := (sq h0 hV.le).not.mpr hu; exact not_le.mp this
          have := k1 hA
          nlinarith
        · by_contra hu
          have hu' : V ^ 2 < v ^ 2 := by
            have := (sq h1 hV.le).not.mpr hu; exact not_le.mp this
          have := k2 hD
          nlinarith
      · rintro ⟨k1, k2, k3⟩
        refine ⟨fun hA => ?_, fun hD => ?_⟩
        · rcases pD.lt_or_eq with h | h
          · exact (k3 hA h).2
          · rw [← h]; simpa using hl.le
        · rcases pA.lt_or_eq with h | h
          · exact (k3 h hD).1
          · rw [← h]; simpa using hl.le
    · rw [if_neg hc]
      refine ⟨fun T hT => ?_, _, rfl⟩
      cases hT
      refine ⟨hV, ?_⟩
      have hc' := not_lt.mp hc
      constructor
      · rintro ⟨k1, k2⟩
        have z1 : 0 < A → u ≤ V := fun hA => (sq h0 hV.le).mp (by have := nonneg_of_mul_nonneg_left k1 hA; linarith)
        have z2 : 0 < D → v ≤ V := fun hD => (sq h1 hV.le).mp (by have := nonneg_of_mul_nonneg_left k2 hD; linarith)
        refine ⟨z1, z2, fun hA hD => ?_⟩
        have y1 := (sq h0 hV.le).mpr (z1 hA)
        have y2 := (sq h1 hV.le).mpr (z2 hD)
        constructor <;> nlinarith
      · rintro ⟨k1, k2, _⟩
        refine ⟨?_, ?_⟩
        · rcases pA.lt_or_eq with hA | hA
          · exact mul_nonneg (by have := (sq h0 hV.le).mpr (k1 hA); linarith) pA
          · rw [← hA]; simp
        · rcases pD.lt_or_eq with hA | hA
          · exact mul_nonneg (by have := (sq h1 hV.le).mpr (k2 hA); linarith) pD
          · rw [← hA]; simp
  have pos : ∀ {o : Option ℝ}, (∀ a, o = some a → 0 < a) → (o ≠ none ↔ 0 < half o) := by
    intro o h
    cases o with
    | none => simp [half]
    | some a => have := h a rfl; simp [half, this]
  obtain ⟨k, T, hT⟩ := key _ _ rfl rfl (half_nonneg gacc) (half_nonneg gdec) (pos gacc) (pos gdec)
  obtain ⟨hTp, hk⟩ := k T hT
  have hcond : (∀ a d, acc = some a → dec = some d → v ^ 2 ≤ u ^ 2 + 2 * a * length ∧ u ^ 2 ≤ v ^ 2 + 2 * d * length) ↔
      (0 < half acc → 0 < half dec → (v ^ 2 - u ^ 2) * half acc ≤ length ∧ (u ^ 2 - v ^ 2) * half dec ≤ length) := by
    cases acc with
    | none => simp [half]
    | some a =>
      cases dec with
      | none => simp [half]
      | some d =>
        have pa := gacc a rfl
        have pd := gdec d rfl
        simp only [half, Option.some.injEq, mul_one_div]
        rw [div_le_iff₀ (by positivity), div_le_iff₀ (by positivity)]
        constructor
        · rintro h _ _
          have := h a d rfl rfl
          constructor <;> linarith [this.1, this.2]
        · rintro h a' d' rfl rfl
          have := h (by positivity) (by positivity)
          constructor <;> linarith [this.1, this.2]
  rw [hcond, ← hk, hT]
  simp only
  constructor
  · rintro ⟨h1, h2⟩
    rw [if_neg (by push Not; exact ⟨h1, h2⟩), if_neg hTp.ne']
    exact ⟨_, rfl⟩
  · intro h
    rw [if_pos (by by_contra h'; push Not at h'; exact h h')]

/-- braking from 4 to 0 with 2 takes a length of 4 -/
example : (∃ m, movement 4 (some 4) (some 4) (some 0) (some 1) (some 2) = .ok m) ∧ movement 3 (some 4) (some 4) (some 0) (some 1) (some 2) = .error .value := by
  have g : ∀ l : ℝ, 0 ≤ l → Given l (some 4) (some 4) (some 0) (some 1) (some 2) := fun l hl =>
    ⟨hl, by simp, by simp, by simp, by simp, by simp⟩
  refine ⟨(C48_accepted (g 4 (by norm_num)) (by norm_num)).1 ⟨by simp, by simp, ?_⟩, (C48_accepted (g 3 (by norm_num)) (by norm_num)).2 fun h => ?_⟩
  · rintro a d h1 h2; cases h1; cases h2; norm_num
  · have := (h.reach 1 2 rfl rfl).2; norm_num at this

/-- a movement of length 0 from standstill to standstill is not feasible: ZeroDivisionError -/
theorem C48_zero_counterexample : movement 0 (some 1) (some 0) (some 0) (some 1) (some 1) = .error .zeroDivision := by
  unfold movement topSpeed half over
  norm_num

end Traj
end Verif
