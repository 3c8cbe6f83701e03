import Verif.Props.Movement
import Verif.Props.Util

/-! # C49: merged trajectories, C54: polygons and circles -/

namespace Verif
namespace Traj

open Real

/-! ## merged trajectories -/

theorem partialSums_length (s : ℝ) (l : List ℝ) : (partialSums s l).length = l.length := by
  induction l generalizing s with
  | nil => rfl
  | cons d l ih => simp [partialSums, ih]

theorem partialSums_at (s : ℝ) (pre : List ℝ) (d : ℝ) (post : List ℝ) : (partialSums s (pre ++ d :: post)).getD pre.length 0 = s + pre.sum := by
  induction pre generalizing s with
  | nil => simp [partialSums]
  | cons a pre ih =>
    simp only [List.cons_append, partialSums, List.length_cons, List.getD_cons_succ, List.sum_cons]
    rw [ih]; ring

theorem partialSums_ge (s : ℝ) {l : List ℝ} (h : ∀ d ∈ l, 0 ≤ d) : ∀ x ∈ partialSums s l, s ≤ x := by
  induction l generalizing s with
  | nil => simp [partialSums]
  | cons d l ih =>
    intro x hx
    simp only [partialSums, List.mem_cons] at hx
    rcases hx with rfl | hx
    · exact le_rfl
    · have := ih (s + d) (fun e he => h e (by simp [he])) x hx
      have := h d (by simp)
      linarith

theorem partialSums_asc (s : ℝ) {l : List ℝ} (h : ∀ d ∈ l, 0 ≤ d) : Util.Ascending (partialSums s l) := by
  unfold Util.Ascending
  induction l generalizing s with
  | nil => simp [partialSums]
  | cons d l ih =>
    simp only [partialSums, List.pairwise_cons]
    refine ⟨?_, ih _ (fun e he => h e (by simp [he]))⟩
    intro x hx
    have := partialSums_ge (s + d) (fun e he => h e (by simp [he])) x hx
    have := h d (by simp)
    linarith

/-- the moment at which the part after `pre` starts in the merged trajectory -/
noncomputable def startOf (t0 : ℝ) (pre : List Trajectory) : ℝ := t0 + (pre.map (·.duration)).sum

/-- when the part after `pre` (with `post` behind it) is the active one: the first one until its end, the last one from its start on, the others from their
start to their end. At the change the earlier one, or the last one. -/
def Active (t0 : ℝ) (pre : List Trajectory) (p : Trajectory) (post : List Trajectory) (t : ℝ) : Prop :=
  (pre = [] ∨ startOf t0 pre < t ∨ (post = [] ∧ startOf t0 pre ≤ t ∧ t0 < t)) ∧
  (post = [] ∨ (t ≤ startOf t0 (pre ++ [p]) ∧ (t ≤ t0 ∨ t < startOf t0 (pre ++ p :: post.dropLast))))

theorem index_active {t0 t : ℝ} {pre post : List Trajectory} {p : Trajectory} (hd : ∀ q ∈ pre ++ p :: post, 0 ≤ q.duration) (h : Active t0 pre p post t) :
    mergedIndex (partialSums t0 ((pre ++ p :: post).map (·.duration))) t = pre.length := by
  set ts := partialSums t0 ((pre ++ p :: post).map (·.duration)) with hts
  have hd' : ∀ d ∈ (pre ++ p :: post).map (·.duration), 0 ≤ d := by
    intro d hdm
    obtain ⟨q, hq, rfl⟩ := List.mem_map.1 hdm
    exact hd q hq
  have hlen : ts.length = pre.length + 1 + post.length := by rw [hts, partialSums_length]; simp; omega
  have hasc : Util.Ascending ts := partialSums_asc t0 hd'
  have h0 : ts.getD 0 0 = t0 := by
    rw [hts]
    cases pre <;> simp [partialSums]
  have hp : ts.getD pre.length 0 = startOf t0 pre := by
    have := partialSums_at t0 (pre.map (·.duration)) p.duration (post.map (·.duration))
    rw [List.length_map] at this
    rw [hts, List.map_append, List.map_cons, this]; rfl
  have hnext : ∀ q r, post = q :: r → ts.getD (pre.length + 1) 0 = startOf t0 (pre ++ [p]) := by
    intro q r e
    have := partialSums_at t0 ((pre ++ [p]).map (·.duration)) q.duration (r.map (·.duration))
    rw [List.length_map, List.length_append] at this
    rw [hts, e]
    rw [show (pre ++ p :: q :: r).map (·.duration) = (pre ++ [p]).map (·.duration) ++ q.duration :: r.map (·.duration) by simp]
    exact this
  have hlast : ∀ q r, post = q :: r → ts.getD (ts.length - 1) 0 = startOf t0 (pre ++ p :: post.dropLast) := by
    intro q r e
    have hne : post ≠ [] := by rw [e]; simp
    have := partialSums_at t0 ((pre ++ p :: post.dropLast).map (·.duration)) (post.getLast hne).duration []
    have e2 : (pre ++ p :: post).map (·.duration) = (pre ++ p :: post.dropLast).map (·.duration) ++ [(post.getLast hne).duration] := by
      conv_lhs => rw [← List.dropLast_append_getLast hne]
      simp
    rw [← e2, ← hts, List.length_map] at this
    rw [show ts.length - 1 = (pre ++ p :: post.dropLast).length by rw [hlen, e]; simp [List.length_append]; omega]
    exact this
  have hpre : pre ≠ [] → t0 ≤ startOf t0 pre := by
    intro _
    unfold startOf
    have : 0 ≤ (pre.map (·.duration)).sum := List.sum_nonneg (by
      intro x hx; obtain ⟨q, hq, rfl⟩ := List.mem_map.1 hx; exact hd q (by simp [hq]))
    linarith
  obtain ⟨a1, a2⟩ := h
  unfold mergedIndex
  rw [h0]
  by_cases ht0 : t ≤ t0
  · rw [if_pos ht0]
    rcases a1 with a1 | a1 | a1
    · rw [a1]; rfl
    · by_cases hn : pre = []
      · rw [hn]; rfl
      · have := hpre hn; linarith
    · linarith [a1.2.2]
  rw [if_neg ht0]
  cases hpost : post with
  | nil =>
    have e1 : ts.length - 1 = pre.length := by rw [hlen, hpost]; simp
    rw [e1, hp]
    have hge : startOf t0 pre ≤ t := by
      rcases a1 with a1 | a1 | a1
      · rw [a1]; unfold startOf; simp; linarith
      · exact a1.le
      · exact a1.2.1
    rw [if_pos hge]
  | cons q r =>
    rw [hlast q r hpost]
    rcases a2 with a2 | ⟨a2, a3⟩
    · rw [hpost] at a2; cases a2
    have a3' : t < startOf t0 (pre ++ p :: post.dropLast) := by
      rcases a3 with a3 | a3
      · exact absurd a3 ht0
      · exact a3
    rw [if_neg (not_le.2 a3'), Util.bisectLeft_eq hasc]
    have hst : startOf t0 pre < t := by
      rcases a1 with a1 | a1 | a1
      · rw [a1]; unfold startOf; simp; linarith
      · exact a1
      · rw [hpost] at a1; cases a1.1
    have hcount : ts.countP (fun e => decide (e < t)) = pre.length + 1 := by
      refine Util.countP_split (by omega) (fun i hi => ?_) (fun i h1 h2 => ?_)
      · have := Util.asc_getD hasc (show i ≤ pre.length by omega) (by omega)
        rw [hp] at this
        simpa using lt_of_le_of_lt this hst
      · have := Util.asc_getD hasc h1 h2
        rw [hnext q r hpost] at this
        simpa using a2.trans this
    rw [hcount]; rfl

/-- C49: a merged trajectory starts with its first part, lasts the sum of the durations and has the sum of the lengths; only an empty list is refused -/
theorem C49_sums (l : List Trajectory) : (merged l = .error .index ↔ l = []) ∧ ∀ m, merged l = .ok m →
    (∀ p ∈ l.head?, m.t0 = p.t0) ∧ m.duration = (l.map (·.duration)).sum ∧ m.t1 = m.t0 + m.duration ∧ m.len = (l.map (·.len)).sum := by
  cases l with
  | nil => exact ⟨by simp [merged], by intro m h; simp [merged] at h⟩
  | cons p r =>
    refine ⟨by simp [merged], ?_⟩
    intro m h
    simp only [merged] at h
    injection h with h
    subst h
    exact ⟨by simp, rfl, rfl, rfl⟩

/-- C49: at each moment the merged trajectory follows the part that is active, started at the end of the parts before it; the length is that of the
parts before it and of what has been travelled in the active one -/
theorem C49_follow {pre post : List Trajectory} {p f : Trajectory} {m : Trajectory} (hd : ∀ q ∈ pre ++ p :: post, 0 ≤ q.duration) (hm : merged (pre ++ p :: post) = .ok m)
    (hf : (pre ++ p :: post).head? = some f) {t : ℝ} (h : Active f.t0 pre p post t) (o : Option ℝ) :
    m.x t o = p.x t (some (startOf f.t0 pre)) ∧ m.y t o = p.y t (some (startOf f.t0 pre)) ∧ m.angle t o = p.angle t (some (startOf f.t0 pre)) ∧
      m.length (some t) o = (p.length (some t) (some (startOf f.t0 pre))).map (· + (pre.map (·.len)).sum) := by
  have hi := index_active hd h
  have hget : (pre ++ p :: post)[pre.length]? = some p := by simp
  have hstart : (partialSums f.t0 ((pre ++ p :: post).map (·.duration))).getD pre.length 0 = startOf f.t0 pre := by
    have := partialSums_at f.t0 (pre.map (·.duration)) p.duration (post.map (·.duration))
    rw [List.length_map] at this
    rw [List.map_append, List.map_cons, this]; rfl
  have hcum : (partialSums 0 ((pre ++ p :: post).map (·.len))).getD pre.length 0 = (pre.map (·.len)).sum := by
    have := partialSums_at 0 (pre.map (·.len)) p.len (post.map (·.len))
    rw [List.length_map] at this
    rw [List.map_append, List.map_cons, this, zero_add]
  generalize pre ++ p :: post = l at *
  cases l with
  | nil => simp at hf
  | cons g r =>
    simp only [List.head?_cons, Option.some.injEq] at hf
    subst hf
    simp only [merged] at hm
    injection hm with hm
    subst hm
    simp only [mergedCall, hi, hget, hstart, hcum]
    trivial

/-- C49: at each moment some part is active -/
theorem C49_covered {f : Trajectory} {r : List Trajectory} (hd : ∀ q ∈ f :: r, 0 ≤ q.duration) (t : ℝ) : ∃ pre p post, f :: r = pre ++ p :: post ∧ Active f.t0 pre p post t := by
  by_cases h0 : t ≤ f.t0
  · refine ⟨[], f, r, rfl, Or.inl rfl, ?_⟩
    by_cases hr : r = []
    · exact Or.inl hr
    · refine Or.inr ⟨?_, Or.inl h0⟩
      unfold startOf
      have := hd f (by simp)
      simp; linarith
  rw [not_le] at h0
  have hne : f :: r ≠ [] := by simp
  by_cases hl : startOf f.t0 (f :: r).dropLast ≤ t
  · refine ⟨(f :: r).dropLast, (f :: r).getLast hne, [], (List.dropLast_append_getLast hne).symm, Or.inr (Or.inr ⟨rfl, hl, h0⟩), Or.inl rfl⟩
  rw [not_le] at hl
  -- the longest list of first parts that start before t
  have key : ∀ (k : List Trajectory) (pre : List Trajectory), f :: r = pre ++ k → startOf f.t0 pre < t → k ≠ [] →
      ∃ pre p post, f :: r = pre ++ p :: post ∧ startOf f.t0 pre < t ∧ t ≤ startOf f.t0 (pre ++ [p]) ∨ startOf f.t0 ((f :: r).dropLast) < t := by
    intro k
    induction k with
    | nil => intro _ _ _ h; exact absurd rfl h
    | cons q k ih =>
      intro pre he hs _
      by_cases hk : k = []
      · refine ⟨pre, q, k, Or.inr ?_⟩
        rw [he, hk, List.dropLast_concat]; exact hs
      by_cases hq : t ≤ startOf f.t0 (pre ++ [q])
      · exact ⟨pre, q, k, Or.inl ⟨he, hs, hq⟩⟩
      · exact ih (pre ++ [q]) (by rw [he]; simp) (not_le.1 hq) hk
  obtain ⟨pre, p, post, hx⟩ := key (f :: r) [] rfl (by unfold startOf; simpa using h0) hne
  rcases hx with ⟨he, h1, h2⟩ | hx
  · refine ⟨pre, p, post, he, Or.inr (Or.inl h1), ?_⟩
    by_cases hp : post = []
    · exact Or.inl hp
    · refine Or.inr ⟨h2, Or.inr ?_⟩
      have : (f :: r).dropLast = pre ++ p :: post.dropLast := by
        rw [he, List.dropLast_append_of_ne_nil (by simp), List.dropLast_cons_of_ne_nil hp]
      rw [← this]; exact hl
  · exact absurd hx (not_lt.2 hl.le)

/-- a trajectory that can be started at another moment -/
def Movable (p : Trajectory) : Prop := ∀ t s, p.x t (some s) = p.x (p.t0 + (t - s)) none ∧ p.y t (some s) = p.y (p.t0 + (t - s)) none ∧
  p.angle t (some s) = p.angle (p.t0 + (t - s)) none ∧ p.length (some t) (some s) = p.length (some (p.t0 + (t - s))) none

/-- C49: standstills, polygons and circles can be started at any moment -/
theorem C49_standstill (x y d a t0 : ℝ) : Movable (standstill x y d a t0) := fun _ _ => ⟨rfl, rfl, rfl, rfl⟩

theorem C49_polygon {ps : List (ℝ × ℝ)} {t0 : ℝ} {vmax v0 v1 acc dec : Option ℝ} {orient : ℝ → ℝ} {p : Trajectory} (h : polygon ps t0 vmax v0 v1 acc dec orient = .ok p) : Movable p := by
  unfold polygon at h
  split at h
  · cases h
  simp only at h
  split at h
  · cases h
  rename_i m _
  injection h with h
  subst h
  intro t s
  have e : since t0 m.t (some (t0 + (t - s))) none = since t0 m.t (some t) (some s) := by simp [since]
  simp only [e]
  exact ⟨trivial, trivial, trivial, trivial⟩

theorem C49_circle {r xc yc a0 a1 t0 : ℝ} {vmax v0 v1 acc dec : Option ℝ} {orient : ℝ → ℝ} {p : Trajectory} (h : circle r xc yc a0 a1 t0 vmax v0 v1 acc dec orient = .ok p) :
    Movable p := by
  unfold circle at h
  simp only at h
  split at h
  · cases h
  rename_i m _
  injection h with h
  subst h
  intro t s
  have e : circleLength m t0 (some (t0 + (t - s))) none = circleLength m t0 (some t) (some s) := by
    simp only [circleLength, Option.getD_none, Option.getD_some]
    have c1 : (t0 + (t - s) < t0) = (t < s) := by apply propext; constructor <;> intro h <;> linarith
    have c2 : (t0 + (t - s) > t0 + m.t) = (t > s + m.t) := by apply propext; constructor <;> intro h <;> linarith
    simp only [c1, c2]
    congr 2
    split
    · ring
    · split <;> ring
  simp only [e]
  exact ⟨trivial, trivial, trivial, trivial⟩

/-- C49: a merged trajectory as the first part (as in (a + b) + c and in sum) is followed as it is -/
theorem C49_first {l : List Trajectory} {p : Trajectory} (h : merged l = .ok p) (t s : ℝ) : p.x t (some s) = p.x t none ∧ p.y t (some s) = p.y t none ∧
    p.angle t (some s) = p.angle t none ∧ p.length (some t) (some s) = p.length (some t) none := by
  cases l with
  | nil => simp [merged] at h
  | cons g r =>
    simp only [merged] at h
    injection h with h
    subst h
    exact ⟨rfl, rfl, rfl, rfl⟩

/-- three standstills of two seconds -/
noncomputable def stand (x : ℝ) : Trajectory := standstill x 0 2 0 0

/-- the hypotheses of `C49_follow` are met -/
example : Active (stand 1).t0 [stand 1] (stand 2) [stand 3] 3 ∧ (∀ q ∈ [stand 1, stand 2, stand 3], 0 ≤ q.duration) := by
  refine ⟨⟨Or.inr (Or.inl ?_), Or.inr ⟨?_, Or.inr ?_⟩⟩, ?_⟩
  · simp [startOf, stand, standstill]; norm_num
  · simp [startOf, stand, standstill]; norm_num
  · simp [startOf, stand, standstill]; norm_num
  · intro q hq; simp at hq; rcases hq with rfl | rfl | rfl <;> simp [stand, standstill]

/-- a + (b + c) is not what (a + b) + c is: at 3 it should be in b -/
theorem C49_nested_counterexample : ∃ bc m m', merged [stand 2, stand 3] = .ok bc ∧ merged [stand 1, bc] = .ok m ∧ merged [stand 1, stand 2, stand 3] = .ok m' ∧
    m.x 3 none = .ok 3 ∧ m'.x 3 none = .ok 2 := by
  refine ⟨_, _, _, rfl, rfl, rfl, ?_, ?_⟩
  · simp only [mergedCall, mergedIndex, List.map_cons, List.map_nil, partialSums, stand, standstill, List.getD_cons_zero, List.length_cons, List.length_nil]
    norm_num
  · refine (C49_follow (pre := [stand 1]) (p := stand 2) (post := [stand 3]) (f := stand 1) ?_ rfl rfl ?_ none).1
    · intro q hq; simp at hq; rcases hq with rfl | rfl | rfl <;> simp [stand, standstill]
    · refine ⟨Or.inr (Or.inl ?_), Or.inr ⟨?_, Or.inr ?_⟩⟩
      · simp [startOf, stand, standstill]; norm_num
      · simp [startOf, stand, standstill]; norm_num
      · simp [startOf, stand, standstill]; norm_num

/-- length() of a circle, and so of a merged trajectory that ends with a circle, raises TypeError -/
theorem C49_circle_counterexample {r xc yc a0 a1 t0 : ℝ} {vmax v0 v1 acc dec : Option ℝ} {orient : ℝ → ℝ} {p : Trajectory}
    (h : circle r xc yc a0 a1 t0 vmax v0 v1 acc dec orient = .ok p) (o : Option ℝ) : p.length none o = .error .type := by
  unfold circle at h
  simp only at h
  split at h
  · cases h
  injection h with h
  subst h
  rfl

/-! ## polygons -/

/-- the length of the first i segments -/
noncomputable def upTo : Nat → List (ℝ × ℝ) → ℝ
  | 0, _ => 0
  | i + 1, p :: q :: r => dist p q + upTo i (q :: r)
  | _ + 1, _ => 0

theorem cumLengths_length (c : ℝ) (ps : List (ℝ × ℝ)) : (cumLengths c ps).length = ps.length := by
  induction ps generalizing c with
  | nil => rfl
  | cons p r ih =>
    cases r with
    | nil => rfl
    | cons q r => simp only [cumLengths, List.length_cons]; rw [ih]; rfl

theorem cumLengths_at {ps : List (ℝ × ℝ)} : ∀ {c : ℝ} {i : Nat}, i < ps.length → (cumLengths c ps).getD i 0 = c + upTo i ps := by
  induction ps with
  | nil => intro c i h; simp at h
  | cons p r ih =>
    intro c i h
    cases r with
    | nil =>
      simp only [List.length_cons, List.length_nil, zero_add, Nat.lt_one_iff] at h
      subst h; simp [cumLengths, upTo]
    | cons q r =>
      cases i with
      | zero => simp [cumLengths, upTo]
      | succ i =>
        simp only [cumLengths, List.getD_cons_succ]
        rw [ih (by simpa using h)]
        simp only [upTo]; ring

theorem dist_nonneg (p q : ℝ × ℝ) : 0 ≤ dist p q := Real.sqrt_nonneg _

theorem upTo_succ {ps : List (ℝ × ℝ)} : ∀ {i : Nat} (h : i + 1 < ps.length), upTo (i + 1) ps = upTo i ps + dist (ps[i]'(by omega)) ps[i + 1] := by
  induction ps with
  | nil => intro i h; simp at h
  | cons p r ih =>
    intro i h
    cases r with
    | nil => simp at h
    | cons q r =>
      cases i with
      | zero => simp [upTo]
      | succ i =>
        have := ih (i := i) (by simpa using h)
        simp only [upTo]
        rw [this]
        simp only [List.getElem_cons_succ]
        ring

theorem upTo_mono {ps : List (ℝ × ℝ)} {i j : Nat} (hij : i ≤ j) (hj : j < ps.length) : upTo i ps ≤ upTo j ps := by
  induction j with
  | zero => rw [Nat.le_zero.1 hij]
  | succ j ih =>
    rcases Nat.lt_or_ge i (j + 1) with h | h
    · rw [upTo_succ hj]
      exact (ih (by omega) (by omega)).trans (le_add_of_nonneg_right (dist_nonneg _ _))
    · rw [Nat.le_antisymm hij h]

theorem cum_asc (ps : List (ℝ × ℝ)) : Util.Ascending (cumLengths 0 ps) := by
  unfold Util.Ascending
  rw [List.pairwise_iff_getElem]
  intro i j hi hj hij
  rw [cumLengths_length] at hi hj
  have e1 := cumLengths_at (c := 0) hi
  have e2 := cumLengths_at (c := 0) hj
  rw [List.getD_eq_getElem _ _ (by rw [cumLengths_length]; exact hi)] at e1
  rw [List.getD_eq_getElem _ _ (by rw [cumLengths_length]; exact hj)] at e2
  rw [e1, e2, zero_add, zero_add]
  exact upTo_mono hij.le hj

/-- the interpolation between two points of an interval -/
theorem interp_two {l a b u v : ℝ} (hab : a < b) (h1 : a ≤ l) (h2 : l ≤ b) : Util.interp l [a, b] [u, v] none none = some (u + (v - u) * (l - a) / (b - a)) := by
  have := (Util.C44_interp (xp := [a, b]) (fp := [u, v]) (by simpa using hab) rfl (by simp) l none none).2.2.2 0 (by simp) (by simpa using h1) (by simpa using h2)
  simpa using this

theorem interp_same {l a u : ℝ} (h : l < a ∨ l = a) : Util.interp l [a, a] [u, u] none none = some u := by
  unfold Util.interp
  rcases h with h | h
  · simp [h]
  · subst h
    have : ¬ (l > l) := lt_irrefl l
    simp only [List.length_cons, List.length_nil, ne_eq, not_true_eq_false, if_false, List.getD_cons_zero, lt_irrefl, List.getD_cons_succ]
    have hb : Util.bisectRight [l, l] l = 2 := by
      rw [Util.bisectRight_eq (by simp [Util.Ascending])]
      simp
    rw [hb]
    norm_num

/-- what a polygon trajectory is made of -/
theorem polygon_def {ps : List (ℝ × ℝ)} {t0 : ℝ} {vmax v0 v1 acc dec : Option ℝ} {orient : ℝ → ℝ} {p : Trajectory} (h : polygon ps t0 vmax v0 v1 acc dec orient = .ok p) :
    2 ≤ ps.length ∧ p.len = upTo (ps.length - 1) ps ∧ p.t0 = t0 ∧ p.t1 = t0 + p.duration ∧ ∃ m, movement p.len vmax v0 v1 acc dec = .ok m ∧ p.duration = m.t ∧
      (∀ t, p.x t none = coordinate (cumLengths 0 ps) (ps.map (·.1)) (indexes m (cumLengths 0 ps) (t - t0))) ∧
      (∀ t, p.y t none = coordinate (cumLengths 0 ps) (ps.map (·.2)) (indexes m (cumLengths 0 ps) (t - t0))) ∧
      (∀ t, p.length (some t) none = .ok ((cumLengths 0 ps).getD (indexes m (cumLengths 0 ps) (t - t0)).2.1 0 + (indexes m (cumLengths 0 ps) (t - t0)).1)) ∧
      p.length none none = .ok ((cumLengths 0 ps).getD (indexes m (cumLengths 0 ps) m.t).2.1 0 + (indexes m (cumLengths 0 ps) m.t).1) := by
  unfold polygon at h
  split at h
  · cases h
  rename_i hl
  simp only at h
  have hlen : (cumLengths 0 ps).getD ((cumLengths 0 ps).length - 1) 0 = upTo (ps.length - 1) ps := by
    rw [cumLengths_length, cumLengths_at (by omega), zero_add]
  rw [hlen] at h
  split at h
  · cases h
  rename_i m hm
  injection h with h
  subst h
  exact ⟨by omega, rfl, rfl, rfl, m, hm, rfl, fun _ => rfl, fun _ => rfl, fun _ => rfl, rfl⟩

/-- the indexes: the segment in which the length l lies -/
theorem indexes_mid {ps : List (ℝ × ℝ)} {m : Movement} {t : ℝ} {i : Nat} (hi : i + 1 < ps.length) (h1 : upTo i ps < m.at t) (h2 : m.at t ≤ upTo (i + 1) ps)
    (h3 : m.at t < upTo (ps.length - 1) ps) : indexes m (cumLengths 0 ps) t = (m.at t, i, i + 1) := by
  have h0 : 0 ≤ upTo i ps := by
    have := upTo_mono (ps := ps) (Nat.zero_le i) (by omega)
    simpa [upTo] using this
  have c0 : (cumLengths 0 ps).getD 0 0 = 0 := by rw [cumLengths_at (by omega)]; simp [upTo]
  unfold indexes
  simp only
  rw [c0, if_neg (by linarith), cumLengths_length, cumLengths_at (by omega), zero_add, if_neg (by linarith), Util.bisectLeft_eq (cum_asc ps)]
  have : (cumLengths 0 ps).countP (fun e => decide (e < m.at t)) = i + 1 := by
    refine Util.countP_split (by rw [cumLengths_length]; omega) (fun j hj => ?_) (fun j hj hj2 => ?_)
    · rw [cumLengths_at (by omega), zero_add]
      have := upTo_mono (ps := ps) (show j ≤ i by omega) (by omega)
      simpa using lt_of_le_of_lt this h1
    · rw [cumLengths_length] at hj2
      rw [cumLengths_at hj2, zero_add]
      have := upTo_mono (ps := ps) hj hj2
      simpa using h2.trans this
  rw [this]
  rfl

theorem indexes_first {ps : List (ℝ × ℝ)} {m : Movement} {t : ℝ} (hp : 0 < ps.length) (h : m.at t ≤ 0) : indexes m (cumLengths 0 ps) t = (m.at t, 0, 0) := by
  have c0 : (cumLengths 0 ps).getD 0 0 = 0 := by rw [cumLengths_at hp]; simp [upTo]
  unfold indexes
  simp only
  rw [c0, if_pos h]

theorem indexes_last {ps : List (ℝ × ℝ)} {m : Movement} {t : ℝ} (hp : 0 < ps.length) (h0 : 0 < m.at t) (h : upTo (ps.length - 1) ps ≤ m.at t) :
    indexes m (cumLengths 0 ps) t = (0, ps.length - 1, ps.length - 1) := by
  have c0 : (cumLengths 0 ps).getD 0 0 = 0 := by rw [cumLengths_at hp]; simp [upTo]
  unfold indexes
  simp only
  rw [c0, if_neg (by linarith), cumLengths_length, cumLengths_at (by omega), zero_add, if_pos h]

/-- C54: the position on a polygon. When the length l has been travelled (as a movement over the total length), the position is on segment i where the lengths
of the first segments are around l, at the right distances from both ends -/
theorem C54_polygon {ps : List (ℝ × ℝ)} {t0 : ℝ} {vmax v0 v1 acc dec : Option ℝ} {orient : ℝ → ℝ} {p : Trajectory} (h : polygon ps t0 vmax v0 v1 acc dec orient = .ok p) :
    ∃ m, movement p.len vmax v0 v1 acc dec = .ok m ∧ p.duration = m.t ∧ ∀ t i (hi : i + 1 < ps.length), upTo i ps < m.at (t - t0) → m.at (t - t0) ≤ upTo (i + 1) ps →
      ∃ x y, p.x t none = .ok x ∧ p.y t none = .ok y ∧ dist (ps[i]'(by omega)) (x, y) = m.at (t - t0) - upTo i ps ∧ dist (x, y) ps[i + 1] = upTo (i + 1) ps - m.at (t - t0) := by
  obtain ⟨h2, hlen, -, -, m, hm, hdur, hx, hy, -⟩ := polygon_def h
  refine ⟨m, hm, hdur, ?_⟩
  intro t i hi l1 l2
  set l := m.at (t - t0) with hl
  have h0 : 0 ≤ upTo i ps := by
    have := upTo_mono (ps := ps) (Nat.zero_le i) (by omega)
    simpa [upTo] using this
  have hab : upTo i ps < upTo (i + 1) ps := lt_of_lt_of_le l1 l2
  have hd := upTo_succ hi
  set a := upTo i ps with ha
  set b := upTo (i + 1) ps with hb
  obtain ⟨P, hP⟩ : ∃ P, P = ps[i]'(by omega) := ⟨_, rfl⟩
  obtain ⟨Q, hQ⟩ : ∃ Q, Q = ps[i + 1] := ⟨_, rfl⟩
  rw [← hP, ← hQ] at hd
  have hcoord : ∀ c : ℝ × ℝ → ℝ, coordinate (cumLengths 0 ps) (ps.map c) (indexes m (cumLengths 0 ps) (t - t0)) = .ok (c P + (c Q - c P) * (l - a) / (b - a)) := by
    intro c
    have g1 : (ps.map c).getD i 0 = c P := by rw [List.getD_eq_getElem _ _ (by simpa using (by omega : i < ps.length)), List.getElem_map, hP]
    have g2 : (ps.map c).getD (i + 1) 0 = c Q := by rw [List.getD_eq_getElem _ _ (by simpa using hi), List.getElem_map, hQ]
    by_cases hend : l < upTo (ps.length - 1) ps
    · rw [indexes_mid hi l1 l2 hend]
      unfold coordinate
      simp only
      rw [cumLengths_at (by omega), cumLengths_at hi, zero_add, zero_add, g1, g2, interp_two hab l1.le l2]
    · rw [not_lt] at hend
      have hbl : b = l := le_antisymm ((upTo_mono (show i + 1 ≤ ps.length - 1 by omega) (by omega)).trans hend) l2
      rw [indexes_last (by omega) (by linarith) hend]
      -- all points from i+1 on coincide
      have hsame : ∀ j (hj : j < ps.length), i + 1 ≤ j → ps[j] = Q := by
        intro j
        induction j with
        | zero => intro _ h; omega
        | succ j ih =>
          intro hj hij
          rcases Nat.lt_or_ge i j with hij' | hij'
          · have e1 := ih (by omega) (by omega)
            have e2 := upTo_succ hj
            have e3 : upTo (j + 1) ps ≤ l := (upTo_mono (show j + 1 ≤ ps.length - 1 by omega) (by omega)).trans hend
            have e4 : b ≤ upTo j ps := upTo_mono (by omega) (by omega)
            have e5 := dist_nonneg (ps[j]'(by omega)) ps[j + 1]
            have e6 : dist (ps[j]'(by omega)) ps[j + 1] = 0 := by linarith
            unfold dist at e6
            rw [Real.sqrt_eq_zero (by nlinarith [mul_self_nonneg (ps[j + 1].1 - (ps[j]'(by omega)).1), mul_self_nonneg (ps[j + 1].2 - (ps[j]'(by omega)).2)])] at e6
            have f1 : ps[j + 1].1 - (ps[j]'(by omega)).1 = 0 := by
              have := mul_self_nonneg (ps[j + 1].2 - (ps[j]'(by omega)).2)
              exact mul_self_eq_zero.1 (le_antisymm (by linarith) (mul_self_nonneg _))
            have f2 : ps[j + 1].2 - (ps[j]'(by omega)).2 = 0 := by
              have := mul_self_nonneg (ps[j + 1].1 - (ps[j]'(by omega)).1)
              exact mul_self_eq_zero.1 (le_antisymm (by linarith) (mul_self_nonneg _))
            rw [← e1]
            exact Prod.ext (by linarith) (by linarith)
          · have : j = i := by omega
            subst this; exact hQ.symm
      have g3 : (ps.map c).getD (ps.length - 1) 0 = c Q := by
        rw [List.getD_eq_getElem _ _ (by simp; omega), List.getElem_map, hsame (ps.length - 1) (by omega) (by omega)]
      unfold coordinate
      simp only
      rw [cumLengths_at (by omega), zero_add, g3, interp_same (Or.inl (lt_of_lt_of_le (by linarith) (upTo_mono (show i + 1 ≤ ps.length - 1 by omega) (by omega))))]
      rw [← hbl]
      have : b - a ≠ 0 := by linarith
      field_simp
      ring
  refine ⟨_, _, (hx t).trans (hcoord (·.1)), (hy t).trans (hcoord (·.2)), ?_, ?_⟩
  · rw [← hP]
    have hD : dist P Q = b - a := by linarith
    have hba : 0 < b - a := by linarith
    unfold dist at hD ⊢
    have : (P.1 + (Q.1 - P.1) * (l - a) / (b - a) - P.1) * (P.1 + (Q.1 - P.1) * (l - a) / (b - a) - P.1) +
        (P.2 + (Q.2 - P.2) * (l - a) / (b - a) - P.2) * (P.2 + (Q.2 - P.2) * (l - a) / (b - a) - P.2) =
        ((l - a) / (b - a)) ^ 2 * ((Q.1 - P.1) * (Q.1 - P.1) + (Q.2 - P.2) * (Q.2 - P.2)) := by field_simp; ring
    simp only
    rw [this, Real.sqrt_mul (sq_nonneg _), Real.sqrt_sq (div_nonneg (by linarith) hba.le), hD]
    field_simp
  · rw [← hQ]
    have hD : dist P Q = b - a := by linarith
    have hba : 0 < b - a := by linarith
    unfold dist at hD ⊢
    have : (Q.1 - (P.1 + (Q.1 - P.1) * (l - a) / (b - a))) * (Q.1 - (P.1 + (Q.1 - P.1) * (l - a) / (b - a))) +
        (Q.2 - (P.2 + (Q.2 - P.2) * (l - a) / (b - a))) * (Q.2 - (P.2 + (Q.2 - P.2) * (l - a) / (b - a))) =
        ((b - l) / (b - a)) ^ 2 * ((Q.1 - P.1) * (Q.1 - P.1) + (Q.2 - P.2) * (Q.2 - P.2)) := by field_simp; ring
    simp only
    rw [this, Real.sqrt_mul (sq_nonneg _), Real.sqrt_sq (div_nonneg (by linarith) hba.le), hD]
    field_simp

/-- C54: a polygon starts in its first point at t0, and is in its last point from t1 on -/
theorem C54_polygon_ends {ps : List (ℝ × ℝ)} {t0 : ℝ} {vmax v0 v1 acc dec : Option ℝ} {orient : ℝ → ℝ} {p : Trajectory} (h : polygon ps t0 vmax v0 v1 acc dec orient = .ok p)
    (g : Given p.len vmax v0 v1 acc dec) :
    (∀ t q, t ≤ p.t0 → ps.head? = some q → p.x t none = .ok q.1 ∧ p.y t none = .ok q.2) ∧
    (0 < p.len → ∀ t q, p.t1 ≤ t → ps.getLast? = some q → p.x t none = .ok q.1 ∧ p.y t none = .ok q.2) := by
  obtain ⟨h2, hlen, ht0, ht1, m, hm, hdur, hx, hy, -⟩ := polygon_def h
  obtain ⟨-, c1, c2, -⟩ := C48_length g hm
  constructor
  · intro t q ht hq
    have hz : m.at (t - t0) = 0 := c1 _ (by rw [ht0] at ht; linarith)
    have hq' : ps[0]? = some q := by rw [← hq]; cases ps <;> rfl
    have hcoord : ∀ c : ℝ × ℝ → ℝ, coordinate (cumLengths 0 ps) (ps.map c) (indexes m (cumLengths 0 ps) (t - t0)) = .ok (c q) := by
      intro c
      rw [indexes_first (by omega) hz.le, hz]
      unfold coordinate
      simp only
      rw [cumLengths_at (by omega), show (ps.map c).getD 0 0 = c q by rw [List.getD_eq_getElem?_getD, List.getElem?_map, hq']; rfl]
      simp only [upTo, zero_add]
      rw [interp_same (Or.inr rfl)]
    exact ⟨(hx t).trans (hcoord _), (hy t).trans (hcoord _)⟩
  · intro hp t q ht hq
    have hz : m.at (t - t0) = p.len := c2 _ (by rw [ht1] at ht; linarith)
    have hq' : ps[ps.length - 1]? = some q := by rw [← hq, List.getLast?_eq_getElem?]
    have hcoord : ∀ c : ℝ × ℝ → ℝ, coordinate (cumLengths 0 ps) (ps.map c) (indexes m (cumLengths 0 ps) (t - t0)) = .ok (c q) := by
      intro c
      rw [indexes_last (by omega) (by linarith) (by rw [hz, hlen])]
      unfold coordinate
      simp only
      rw [cumLengths_at (by omega), zero_add, ← hlen, show (ps.map c).getD (ps.length - 1) 0 = c q by rw [List.getD_eq_getElem?_getD, List.getElem?_map, hq']; rfl,
        interp_same (Or.inl hp)]
    exact ⟨(hx t).trans (hcoord _), (hy t).trans (hcoord _)⟩

/-- the movement over length 20 with the default speed 1 -/
theorem movement_default {length : ℝ} (h : 0 ≤ length) : movement length none none none none none = .ok ⟨0, 0, length, 0, length, 0, length, 1, 1, none, none⟩ := by
  unfold movement topSpeed half over
  simp [not_lt.2 h]

/-- length(t) is wrong after the first segment: 15 of the 20 have been travelled at 15, length(15) is 25 -/
theorem C54_length_counterexample : ∃ p, polygon [(0, 0), (10, 0), (20, 0)] 0 none none none none none id = .ok p ∧ p.len = 20 ∧ p.x 15 none = .ok 15 ∧
    p.length (some 15) none = .ok 25 := by
  have d1 : dist (0, 0) (10, 0) = 10 := by unfold dist; norm_num
  have d2 : dist (10, 0) (20, 0) = 10 := by unfold dist; norm_num
  have u1 : upTo 1 [((0 : ℝ), (0 : ℝ)), (10, 0), (20, 0)] = 10 := by simp [upTo, d1]
  have u2 : upTo 2 [((0 : ℝ), (0 : ℝ)), (10, 0), (20, 0)] = 20 := by simp [upTo, d1, d2]; norm_num
  have hc : (cumLengths 0 [((0 : ℝ), (0 : ℝ)), (10, 0), (20, 0)]).getD ((cumLengths 0 [((0 : ℝ), (0 : ℝ)), (10, 0), (20, 0)]).length - 1) 0 = 20 := by
    rw [cumLengths_length, cumLengths_at (by simp)]
    simpa using u2
  have hm := movement_default (length := 20) (by norm_num)
  obtain ⟨p, hp⟩ : ∃ p, polygon [(0, 0), (10, 0), (20, 0)] 0 none none none none none id = .ok p := by
    unfold polygon
    simp only [hc, hm]
    exact ⟨_, rfl⟩
  refine ⟨p, hp, ?_⟩
  obtain ⟨-, hlen, -, -, m, hmm, -, hx, -, hl, -⟩ := polygon_def hp
  have hlen' : p.len = 20 := by rw [hlen]; simpa using u2
  rw [hlen', hm] at hmm
  injection hmm with hmm
  have hat : m.at (15 - 0) = 15 := by rw [← hmm]; unfold Movement.at; norm_num
  have hi := indexes_mid (ps := [((0 : ℝ), (0 : ℝ)), (10, 0), (20, 0)]) (m := m) (t := 15 - 0) (i := 1) (by simp) (by rw [u1, hat]; norm_num) (by rw [u2, hat]; norm_num)
    (by rw [hat]; simp only [List.length_cons, List.length_nil]; norm_num [u2])
  refine ⟨hlen', ?_, ?_⟩
  · rw [hx, hi, hat]
    unfold coordinate
    simp only
    rw [cumLengths_at (by simp), cumLengths_at (by simp), u1, u2, interp_two (by norm_num) (by norm_num) (by norm_num)]
    simp
    norm_num
  · rw [hl, hi, hat]
    simp only
    rw [cumLengths_at (by simp), u1]
    norm_num

/-- C54: the position on a circle: the angle goes from angle0 to angle1 in proportion to the length travelled, the position is at the radius from the centre -/
theorem C54_circle {r xc yc a0 a1 t0 : ℝ} {vmax v0 v1 acc dec : Option ℝ} {orient : ℝ → ℝ} {p : Trajectory} (h : circle r xc yc a0 a1 t0 vmax v0 v1 acc dec orient = .ok p)
    (g : Given p.len vmax v0 v1 acc dec) (hp : 0 < p.len) (t : ℝ) :
    ∃ l a x y, p.length (some t) none = .ok l ∧ 0 ≤ l ∧ l ≤ p.len ∧ a = a0 + (a1 - a0) * l / p.len ∧ p.x t none = .ok x ∧ p.y t none = .ok y ∧
      x = xc + r * cos (radians a) ∧ y = yc + r * sin (radians a) ∧ (x - xc) ^ 2 + (y - yc) ^ 2 = r ^ 2 ∧ (t ≤ p.t0 → a = a0) ∧ (p.t1 ≤ t → a = a1) := by
  unfold circle at h
  simp only at h
  split at h
  · cases h
  rename_i m hm
  injection h with h
  subst h
  simp only at g hp hm
  obtain ⟨c0, c1, c2, c3, c4, c5⟩ := C48_length g hm
  generalize |radians (a1 - a0)| * r = len at *
  obtain ⟨l, hl⟩ : ∃ l, circleLength m t0 (some t) none = .ok l := ⟨_, rfl⟩
  have hb : 0 ≤ l ∧ l ≤ len := by
    simp only [circleLength, Except.ok.injEq, Option.getD_none] at hl
    rw [← hl]
    refine ⟨?_, ?_⟩
    · rw [← c1 0 le_rfl]
      apply c4
      split
      · linarith
      · split <;> linarith
    · rw [← c2 m.t le_rfl]
      apply c4
      split
      · linarith
      · split <;> linarith
  have ha : circleAngle len a0 a1 (circleLength m t0 (some t) none) = .ok (a0 + (a1 - a0) * l / len) := by
    rw [hl]
    simp only [circleAngle]
    rw [interp_two hp hb.1 hb.2]
    simp
  refine ⟨l, _, _, _, hl, hb.1, hb.2, rfl, ?_, ?_, rfl, rfl, ?_, ?_, ?_⟩
  · simp only [ha]; rfl
  · simp only [ha]; rfl
  · have := Real.sin_sq_add_cos_sq (radians (a0 + (a1 - a0) * l / len))
    linear_combination r ^ 2 * this
  · intro ht
    simp only [circleLength, Except.ok.injEq, Option.getD_none] at hl
    have hz : l = 0 := by
      rw [← hl]
      apply c1
      simp only at ht
      split
      · linarith
      · split <;> linarith
    rw [hz]; simp
  · intro ht
    simp only [circleLength, Except.ok.injEq, Option.getD_none] at hl
    have hz : l = len := by
      rw [← hl]
      apply c2
      simp only at ht
      split
      · linarith
      · split <;> linarith
    rw [hz]; field_simp; ring

/-- a polygon and a circle that meet the hypotheses -/
example : ∃ p, circle 2 0 0 0 90 0 none none none none none id = .ok p ∧ Given p.len none none none none none ∧ 0 < p.len := by
  have hpos : 0 < |radians (90 - 0)| * 2 := by
    have : radians (90 - 0) ≠ 0 := by unfold radians; have := Real.pi_pos; positivity
    positivity
  obtain ⟨p, hp, hl⟩ : ∃ p, circle 2 0 0 0 90 0 none none none none none id = .ok p ∧ p.len = |radians (90 - 0)| * 2 := by
    unfold circle
    simp only [movement_default hpos.le]
    exact ⟨_, rfl, rfl⟩
  exact ⟨p, hp, by rw [hl]; exact ⟨hpos.le, by simp, by simp, by simp, by simp, by simp⟩, by rw [hl]; exact hpos⟩

/-- C54: a polygon of at least two points is accepted when the movement over the sum of the distances between them is, a polygon of fewer points never -/
theorem C54_polygon_accepted (ps : List (ℝ × ℝ)) (t0 : ℝ) (vmax v0 v1 acc dec : Option ℝ) (orient : ℝ → ℝ) :
    (∃ p, polygon ps t0 vmax v0 v1 acc dec orient = .ok p ∧ p.len = upTo (ps.length - 1) ps ∧ p.t0 = t0) ↔
      2 ≤ ps.length ∧ ∃ m, movement (upTo (ps.length - 1) ps) vmax v0 v1 acc dec = .ok m := by
  constructor
  · rintro ⟨p, h, _, _⟩
    obtain ⟨h1, h2, _, _, m, h3, _⟩ := polygon_def h
    rw [h2] at h3
    exact ⟨h1, m, h3⟩
  · rintro ⟨h1, m, h2⟩
    have hlen : (cumLengths 0 ps).getD ((cumLengths 0 ps).length - 1) 0 = upTo (ps.length - 1) ps := by
      rw [cumLengths_length, cumLengths_at (by omega), zero_add]
    unfold polygon
    rw [if_neg (by omega)]
    simp only
    rw [hlen, h2]
    exact ⟨_, rfl, rfl, rfl⟩

/-- C54: a circle is accepted when the movement over the length of the arc is -/
theorem C54_circle_accepted (r xc yc a0 a1 t0 : ℝ) (vmax v0 v1 acc dec : Option ℝ) (orient : ℝ → ℝ) :
    (∃ p, circle r xc yc a0 a1 t0 vmax v0 v1 acc dec orient = .ok p ∧ p.len = |(a1 - a0) * π / 180| * r ∧ p.t0 = t0) ↔
      ∃ m, movement (|(a1 - a0) * π / 180| * r) vmax v0 v1 acc dec = .ok m := by
  unfold circle radians
  simp only
  constructor
  · rintro ⟨p, h, _, _⟩
    split at h
    · cases h
    · rename_i m hm
      exact ⟨m, hm⟩
  · rintro ⟨m, h⟩
    rw [h]
    exact ⟨_, rfl, rfl, rfl⟩

end Traj
end Verif
