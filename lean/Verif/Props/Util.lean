import Verif.Util
import Mathlib.Data.List.GetD
import Mathlib.Tactic.Linarith
import Mathlib.Tactic.Ring
import Mathlib.Tactic.FieldSimp
import Mathlib.Algebra.Order.Archimedean.Basic
import Mathlib.Data.Rat.Floor

/-!
# Claims about the utility functions (C43 - C47)
-/

namespace Verif
namespace Util

/-! ## C43 -/

theorem mix_num {p a b : Rat} : mix p (some a) (some b) = some (a + p * (b - a)) := by
  unfold mix
  split
  · rename_i h; cases h; simp
  · simp; ring

/-- C43. Full statement: for t <= t0 the value is v0, also if t0 = t1. That is false for t0 = t1 (see `C43_empty_interval_counterexample`).
What holds: up to the first moment the value is the first one, whatever the kind of value and the order of the interval -/
theorem C43_before_partial {V : Type} [DecidableEq V] (comb : Rat → V → V → V) {t t0 t1 : WithTop Rat} (v0 v1 : V) :
    (t0 < t1 → t ≤ t0 → interpolateWith comb t t0 t1 v0 v1 = v0) ∧ (t1 < t0 → t ≤ t1 → interpolateWith comb t t0 t1 v0 v1 = v1) := by
  unfold interpolateWith
  constructor
  · intro h ht
    rw [if_neg (not_lt.2 h.le)]
    simp only [h.ne, ht, if_true, if_false]
    split <;> first | rfl | (split <;> rfl)
  · intro h ht
    rw [if_pos h]
    simp only [h.ne, ht, if_true, if_false]
    split
    · assumption
    · split <;> rfl

/-- C43: from the last moment on the value is the last one -/
theorem C43_after {V : Type} [DecidableEq V] (comb : Rat → V → V → V) {t t0 t1 : WithTop Rat} (v0 v1 : V) :
    (t0 < t1 → t1 ≠ ⊤ → t1 ≤ t → interpolateWith comb t t0 t1 v0 v1 = v1) ∧ (t1 < t0 → t0 ≠ ⊤ → t0 ≤ t → interpolateWith comb t t0 t1 v0 v1 = v0) := by
  unfold interpolateWith
  constructor
  · intro h hi ht
    rw [if_neg (not_lt.2 h.le)]
    simp only [h.ne, hi, not_le.2 (lt_of_lt_of_le h ht), ht, ge_iff_le, if_true, if_false]
    split
    · assumption
    · rfl
  · intro h hi ht
    rw [if_pos h]
    simp only [h.ne, hi, not_le.2 (lt_of_lt_of_le h ht), ht, ge_iff_le, if_true, if_false]
    split <;> rfl

/-- C43: an interval that never ends: the value of the finite end -/
theorem C43_infinite {V : Type} [DecidableEq V] (comb : Rat → V → V → V) (t t0 : WithTop Rat) (v0 v1 : V) (h : t0 ≠ ⊤) :
    interpolateWith comb t t0 ⊤ v0 v1 = v0 ∧ interpolateWith comb t ⊤ t0 v0 v1 = v1 := by
  unfold interpolateWith
  have h1 : ¬ t0 > ⊤ := not_top_lt
  have h2 : (⊤ : WithTop Rat) > t0 := lt_top_iff_ne_top.2 h
  rw [if_neg h1, if_pos h2]
  simp only [if_true]
  refine ⟨by split <;> rfl, ?_⟩
  split
  · assumption
  · rfl

/-- C43: both orders of the end points give the same -/
theorem C43_reversed {V : Type} [DecidableEq V] (comb : Rat → V → V → V) (t : WithTop Rat) {t0 t1 : WithTop Rat} (h : t0 < t1) (v0 v1 : V) :
    interpolateWith comb t t1 t0 v1 v0 = interpolateWith comb t t0 t1 v0 v1 := by
  unfold interpolateWith
  rw [if_pos (show t1 > t0 from h), if_neg (show ¬ t0 > t1 from not_lt.2 h.le)]
  by_cases hv : v0 = v1
  · rw [if_pos hv, if_pos hv.symm, hv]
  · rw [if_neg hv, if_neg (Ne.symm hv)]

theorem interpolate_mid {V : Type} [DecidableEq V] (comb : Rat → V → V → V) {t t0 t1 : Rat} (h0 : t0 < t) (h1 : t < t1) {v0 v1 : V} (hv : v0 ≠ v1) :
    interpolateWith comb (t : Rat) (t0 : Rat) (t1 : Rat) v0 v1 = comb ((t - t0) / (t1 - t0)) v0 v1 := by
  unfold interpolateWith
  have a1 : ¬ (t0 : WithTop Rat) > t1 := not_lt.2 (WithTop.coe_le_coe.2 (by linarith))
  have a2 : (t0 : WithTop Rat) ≠ t1 := fun h => by have := WithTop.coe_injective h; linarith
  have a3 : ¬ (t : WithTop Rat) ≤ t0 := not_le.2 (WithTop.coe_lt_coe.2 h0)
  have a4 : ¬ (t : WithTop Rat) ≥ t1 := not_le.2 (WithTop.coe_lt_coe.2 h1)
  rw [if_neg hv, if_neg a1]
  simp only [WithTop.coe_ne_top, a2, a3, a4, if_false]

/-- C43: the straight line in between -/
theorem C43_line {t t0 t1 v0 v1 : Rat} (h0 : t0 ≤ t) (h1 : t ≤ t1) (h : t0 < t1) :
    interpolate (t : Rat) (t0 : Rat) (t1 : Rat) (some v0) (some v1) = some (v0 + (v1 - v0) * ((t - t0) / (t1 - t0))) := by
  have hd : t1 - t0 ≠ 0 := by have : t1 - t0 > 0 := by linarith
                              exact this.ne'
  have hc : (t0 : WithTop Rat) < t1 := WithTop.coe_lt_coe.2 h
  rcases eq_or_lt_of_le h0 with rfl | h0
  · unfold interpolate
    rw [(C43_before_partial mix _ _).1 hc le_rfl]; simp
  rcases eq_or_lt_of_le h1 with rfl | h1
  · unfold interpolate
    rw [(C43_after mix _ _).1 hc WithTop.coe_ne_top le_rfl, div_self hd]; congr 1; ring
  by_cases hv : v0 = v1
  · subst hv; unfold interpolate interpolateWith; rw [if_pos rfl]; simp
  · unfold interpolate
    rw [interpolate_mid mix h0 h1 (by simpa using hv), mix_num]; congr 1; ring

/-- C43: strictly between the two moments there is nothing halfway a number and None -/
theorem C43_none {t t0 t1 : Rat} (h0 : t0 < t) (h1 : t < t1) (v : Rat) :
    interpolate (t : Rat) (t0 : Rat) (t1 : Rat) (some v) none = none ∧ interpolate (t : Rat) (t0 : Rat) (t1 : Rat) none (some v) = none ∧
    interpolate (t : Rat) (t0 : Rat) (t1 : Rat) none none = none := by
  unfold interpolate
  rw [interpolate_mid mix h0 h1 (by simp), interpolate_mid mix h0 h1 (by simp)]
  refine ⟨by simp [mix], by simp [mix], ?_⟩
  unfold interpolateWith
  rw [if_pos rfl]

/-- the value as function of `t`, clamped -/
theorem interpolate_clamp {t t0 t1 : Rat} (v0 v1 : Rat) (h : t0 < t1) :
    interpolate (t : Rat) (t0 : Rat) (t1 : Rat) (some v0) (some v1) = some (v0 + (v1 - v0) * ((max t0 (min t t1) - t0) / (t1 - t0))) := by
  have hd : t1 - t0 ≠ 0 := by have : t1 - t0 > 0 := by linarith
                              exact this.ne'
  have hc : (t0 : WithTop Rat) < t1 := WithTop.coe_lt_coe.2 h
  by_cases h0 : t ≤ t0
  · rw [min_eq_left (by linarith), max_eq_left h0]
    unfold interpolate
    rw [(C43_before_partial mix _ _).1 hc (WithTop.coe_le_coe.2 h0)]; simp
  · push Not at h0
    by_cases h1 : t1 ≤ t
    · rw [min_eq_right h1, max_eq_right h.le, div_self hd]
      unfold interpolate
      rw [(C43_after mix _ _).1 hc WithTop.coe_ne_top (WithTop.coe_le_coe.2 h1)]; congr 1; ring
    · push Not at h1
      rw [min_eq_left h1.le, max_eq_right h0.le]
      exact C43_line h0.le h1.le h

/-- C43: the value stays between the two values and is monotone in time -/
theorem C43_between_monotone {t t' t0 t1 v0 v1 : Rat} (hv : v0 ≤ v1) (h : t0 < t1) (ht : t ≤ t') :
    (∃ a b, interpolate (t : Rat) (t0 : Rat) (t1 : Rat) (some v0) (some v1) = some a ∧ interpolate (t' : Rat) (t0 : Rat) (t1 : Rat) (some v0) (some v1) = some b ∧
      v0 ≤ a ∧ a ≤ b ∧ b ≤ v1) ∧
    (∃ a b, interpolate (t : Rat) (t0 : Rat) (t1 : Rat) (some v1) (some v0) = some a ∧ interpolate (t' : Rat) (t0 : Rat) (t1 : Rat) (some v1) (some v0) = some b ∧
      v0 ≤ b ∧ b ≤ a ∧ a ≤ v1) := by
  have hp : 0 < t1 - t0 := by linarith
  have m0 : t0 ≤ max t0 (min t t1) := le_max_left _ _
  have m1 : max t0 (min t t1) ≤ max t0 (min t' t1) := max_le_max le_rfl (min_le_min ht le_rfl)
  have m2 : max t0 (min t' t1) ≤ t1 := max_le h.le (min_le_right _ _)
  have p0 : 0 ≤ (max t0 (min t t1) - t0) / (t1 - t0) := div_nonneg (by linarith) hp.le
  have p1 : (max t0 (min t t1) - t0) / (t1 - t0) ≤ (max t0 (min t' t1) - t0) / (t1 - t0) := div_le_div_of_nonneg_right (by linarith) hp.le
  have p2 : (max t0 (min t' t1) - t0) / (t1 - t0) ≤ 1 := (div_le_one hp).2 (by linarith)
  have hw : 0 ≤ v1 - v0 := by linarith
  refine ⟨⟨_, _, interpolate_clamp v0 v1 h, interpolate_clamp v0 v1 h, ?_, ?_, ?_⟩, ⟨_, _, interpolate_clamp v1 v0 h, interpolate_clamp v1 v0 h, ?_, ?_, ?_⟩⟩ <;> nlinarith

/-- C43: tuples (possibly with None) are treated element by element -/
theorem C43_elementwise (t t0 t1 : WithTop Rat) {v0 v1 : List (Option Rat)} (hl : v0.length = v1.length) :
    interpolateT t t0 t1 v0 v1 = List.zipWith (interpolate t t0 t1) v0 v1 := by
  have same : ∀ v : List (Option Rat), List.zipWith (interpolate t t0 t1) v v = v := by
    intro v
    induction v with
    | nil => rfl
    | cons a v ih => simp only [List.zipWith_cons_cons, ih]; unfold interpolate interpolateWith; rw [if_pos rfl]
  have first : ∀ (f : Option Rat → Option Rat → Option Rat) (v v' : List (Option Rat)), v.length = v'.length → (∀ a b, f a b = a) → List.zipWith f v v' = v := by
    intro f v
    induction v with
    | nil => intro v' _ _; rfl
    | cons a v ih =>
      intro v' hl hf
      cases v' with
      | nil => simp at hl
      | cons b v' => simp only [List.zipWith_cons_cons, hf]; rw [ih v' (by simpa using hl) hf]
  have second : ∀ (f : Option Rat → Option Rat → Option Rat) (v v' : List (Option Rat)), v.length = v'.length → (∀ a b, f a b = b) → List.zipWith f v v' = v' := by
    intro f v
    induction v with
    | nil => intro v' hl _; cases v' with
      | nil => rfl
      | cons => simp at hl
    | cons a v ih =>
      intro v' hl hf
      cases v' with
      | nil => simp at hl
      | cons b v' => simp only [List.zipWith_cons_cons, hf]; rw [ih v' (by simpa using hl) hf]
  by_cases hv : v0 = v1
  · subst hv; rw [same]; unfold interpolateT interpolateWith; rw [if_pos rfl]
  -- the result for other values is decided by the times alone
  have key : ∀ {t0 t1 : WithTop Rat} {v0 v1 : List (Option Rat)}, ¬ t0 > t1 → v0.length = v1.length → v0 ≠ v1 →
      interpolateT t t0 t1 v0 v1 = List.zipWith (interpolate t t0 t1) v0 v1 := by
    intro t0 t1 v0 v1 hg hl hv
    unfold interpolateT interpolate interpolateWith
    rw [if_neg hv]
    simp only [if_neg hg]
    by_cases c1 : t1 = ⊤
    · simp only [c1, if_true]; exact (first _ _ _ hl (fun a b => by split <;> rfl)).symm
    by_cases c2 : t0 = t1
    · simp only [c1, c2, if_true, if_false]
      exact (second _ _ _ hl (fun a b => by split; assumption; rfl)).symm
    by_cases c3 : t ≤ t0
    · simp only [c1, c2, c3, if_true, if_false]; exact (first _ _ _ hl (fun a b => by split <;> rfl)).symm
    by_cases c4 : t ≥ t1
    · simp only [c1, c2, c3, c4, if_true, if_false]; exact (second _ _ _ hl (fun a b => by split; assumption; rfl)).symm
    simp only [c1, c2, c3, c4, if_false]
    have n0 : t0 ≠ ⊤ := fun h => c3 (h ▸ le_top)
    have nt : t ≠ ⊤ := fun h => c4 (h ▸ le_top)
    obtain ⟨t0, rfl⟩ := WithTop.ne_top_iff_exists.1 n0
    obtain ⟨t1, rfl⟩ := WithTop.ne_top_iff_exists.1 c1
    obtain ⟨t, rfl⟩ := WithTop.ne_top_iff_exists.1 nt
    show List.zipWith (mix ((t - t0) / (t1 - t0))) v0 v1 = List.zipWith (fun a b => if a = b then a else mix ((t - t0) / (t1 - t0)) a b) v0 v1
    congr 1
    funext a b
    split
    · rename_i h; rw [h]; unfold mix; rw [if_pos rfl]
    · rfl
  by_cases hg : t0 > t1
  · have e1 : interpolateT t t0 t1 v0 v1 = interpolateT t t1 t0 v1 v0 := C43_reversed _ t hg v1 v0
    have e2 : ∀ a b, interpolate t t0 t1 a b = interpolate t t1 t0 b a := fun a b => C43_reversed mix t hg b a
    rw [e1, key (not_lt.2 (le_of_lt hg)) hl.symm (Ne.symm hv), List.zipWith_comm]
    congr 1
    funext a b; rw [e2]
  · exact key hg hl hv

/-- an interval of length 0 gives the second value, also before the interval, where the documentation promises the first one -/
theorem C43_empty_interval_counterexample : interpolate (0 : Rat) (1 : Rat) (1 : Rat) (some 5) (some 7) = some 7 := by decide +kernel

/-- what holds for an interval of length 0 -/
theorem C43_empty_interval {V : Type} [DecidableEq V] (comb : Rat → V → V → V) (t : WithTop Rat) (t0 : Rat) (v0 v1 : V) :
    interpolateWith comb t (t0 : Rat) (t0 : Rat) v0 v1 = v1 := by
  unfold interpolateWith
  rw [if_neg (lt_irrefl _)]
  simp only [WithTop.coe_ne_top, if_true, if_false]
  split
  · assumption
  · rfl

/-- non-vacuity of C43 -/
example : interpolate (3 : Rat) (2 : Rat) (6 : Rat) (some 10) (some 20) = some (25 / 2) ∧ interpolate (3 : Rat) (6 : Rat) (2 : Rat) (some 10) (some 20) = some (35 / 2) ∧
    interpolateT (3 : Rat) (2 : Rat) (6 : Rat) [some 10, none, some 1] [some 20, some 1, some 1] = [some (25 / 2), none, some 1] := by decide +kernel

section

/-! ## C44 -/

variable {K : Type} [Field K] [LinearOrder K]

/-- non descending -/
def Ascending {K : Type} [LE K] (a : List K) : Prop := a.Pairwise (· ≤ ·)

theorem countP_split {a : List K} {below : K → Bool} {k : Nat} (hk : k ≤ a.length) (h1 : ∀ i, i < k → below (a.getD i 0) = true)
    (h2 : ∀ i, k ≤ i → i < a.length → below (a.getD i 0) = false) : a.countP below = k := by
  rw [← List.take_append_drop k a, List.countP_append]
  have e1 : (a.take k).countP below = k := by
    rw [List.countP_eq_length.2, List.length_take, min_eq_left hk]
    intro x hx
    obtain ⟨i, hi, rfl⟩ := List.mem_iff_getElem.1 hx
    simp only [List.length_take] at hi
    have := h1 i (by omega)
    rw [List.getD_eq_getElem _ _ (by omega)] at this
    simpa using this
  have e2 : (a.drop k).countP below = 0 := by
    rw [List.countP_eq_zero]
    intro x hx
    obtain ⟨i, hi, rfl⟩ := List.mem_iff_getElem.1 hx
    simp only [List.length_drop] at hi
    have := h2 (k + i) (by omega) (by omega)
    rw [List.getD_eq_getElem _ _ (by omega)] at this
    simpa using this
  rw [e1, e2]; rfl

theorem bisectLoop_spec {a : List K} {below : K → Bool} (hmono : ∀ i j, i ≤ j → j < a.length → below (a.getD j 0) = true → below (a.getD i 0) = true) :
    ∀ lo hi, lo ≤ hi → hi ≤ a.length → (∀ i, i < lo → below (a.getD i 0) = true) → (∀ i, hi ≤ i → i < a.length → below (a.getD i 0) = false) →
    bisectLoop a below lo hi = a.countP below := by
  intro lo hi
  induction lo, hi using bisectLoop.induct (a := a) (below := below) with
  | case1 lo hi h mid hb ih =>
    intro h1 h2 h3 h4
    rw [bisectLoop, dif_pos h]; simp only; rw [if_pos hb]
    exact ih (by omega) h2 (fun i hi' => hmono i mid (by omega) (by omega) hb) h4
  | case2 lo hi h mid hb ih =>
    intro h1 h2 h3 h4
    rw [bisectLoop, dif_pos h]; simp only; rw [if_neg hb]
    refine ih (by omega) (by omega) h3 (fun i hi' hl => ?_)
    cases hx : below (a.getD i 0) with
    | false => rfl
    | true => exact absurd (hmono mid i hi' hl hx) hb
  | case3 lo hi h =>
    intro h1 h2 h3 h4
    rw [bisectLoop, dif_neg h]
    exact (countP_split (by omega) h3 (fun i hi' hl => h4 i (by omega) hl)).symm

theorem asc_getD {a : List K} (h : Ascending a) {i j : Nat} (hij : i ≤ j) (hj : j < a.length) : a.getD i 0 ≤ a.getD j 0 := by
  rw [List.getD_eq_getElem _ _ (by omega), List.getD_eq_getElem _ _ hj]
  rcases eq_or_lt_of_le hij with rfl | hlt
  · exact le_rfl
  · exact List.pairwise_iff_getElem.1 h i j (by omega) hj hlt

theorem bisectRight_eq {a : List K} (h : Ascending a) (v : K) : bisectRight a v = a.countP (fun e => decide (e ≤ v)) := by
  have : (fun e => !decide (v < e)) = (fun e : K => decide (e ≤ v)) := by
    funext e; by_cases hx : e ≤ v
    · simp [hx]
    · simp [hx, not_le.1 hx]
  unfold bisectRight; rw [this]
  refine bisectLoop_spec ?_ 0 a.length (by omega) le_rfl (fun i hi => by omega) (fun i h1 h2 => by omega)
  intro i j hij hj hb
  simp only [decide_eq_true_eq] at hb ⊢
  exact le_trans (asc_getD h hij hj) hb

theorem bisectLeft_eq {a : List K} (h : Ascending a) (v : K) : bisectLeft a v = a.countP (fun e => decide (e < v)) := by
  unfold bisectLeft
  refine bisectLoop_spec ?_ 0 a.length (by omega) le_rfl (fun i hi => by omega) (fun i h1 h2 => by omega)
  intro i j hij hj hb
  simp only [decide_eq_true_eq] at hb ⊢
  exact lt_of_le_of_lt (asc_getD h hij hj) hb

/-- C44: the number of elements below the value (left), respectively not above it (right); any other side is refused -/
theorem C44_searchsorted {a : List K} (h : Ascending a) (v : K) :
    searchsorted a v .left = some (a.countP (fun e => decide (e < v))) ∧ searchsorted a v .right = some (a.countP (fun e => decide (e ≤ v))) ∧
    searchsorted a v .other = none := by
  simp [searchsorted, bisectLeft_eq h, bisectRight_eq h]

variable [IsStrictOrderedRing K]

/-- C44: the places left and right are where the value can be inserted -/
theorem C44_insertion {a : List K} (h : Ascending a) (v : K) (side : Side) {i : Nat} (hi : searchsorted a v side = some i) :
    i ≤ a.length ∧ Ascending (a.take i ++ v :: a.drop i) := by
  have key : ∀ (below : K → Bool), (∀ x y, x ≤ y → below y = true → below x = true) → (∀ x, below x = true → x ≤ v) → (∀ x, below x = false → v ≤ x) →
      ∀ (l : List K), Ascending l → l.countP below ≤ l.length ∧ Ascending (l.take (l.countP below) ++ v :: l.drop (l.countP below)) := by
    intro below hm h1 h2 l
    induction l with
    | nil => intro _; exact ⟨le_rfl, by simp [Ascending]⟩
    | cons x l ih =>
      intro hl
      refine ⟨List.countP_le_length, ?_⟩
      unfold Ascending at hl
      rw [List.pairwise_cons] at hl
      obtain ⟨i1, i2⟩ := ih hl.2
      by_cases hb : below x = true
      · rw [List.countP_cons_of_pos hb]
        simp only [List.take_succ_cons, List.drop_succ_cons, List.cons_append]
        unfold Ascending
        rw [List.pairwise_cons]
        refine ⟨?_, i2⟩
        intro y hy
        rcases List.mem_append.1 hy with hy | hy
        · exact hl.1 y (List.mem_of_mem_take hy)
        · rcases List.mem_cons.1 hy with rfl | hy
          · exact h1 x hb
          · exact hl.1 y (List.mem_of_mem_drop hy)
      · have hz : (x :: l).countP below = 0 := by
          rw [List.countP_eq_zero]
          intro y hy hyb
          rcases List.mem_cons.1 hy with rfl | hy
          · exact hb hyb
          · exact hb (hm x y (hl.1 y hy) hyb)
        rw [hz]
        simp only [List.take_zero, List.drop_zero, List.nil_append]
        have hx := h2 x (by simpa using hb)
        unfold Ascending
        rw [List.pairwise_cons]
        refine ⟨?_, by rw [List.pairwise_cons]; exact hl⟩
        intro y hy
        rcases List.mem_cons.1 hy with rfl | hy
        · exact hx
        · exact le_trans hx (hl.1 y hy)
  cases side with
  | left =>
    rw [(C44_searchsorted h v).1] at hi; cases hi
    exact key _ (fun x y hxy hy => by simp at hy ⊢; linarith) (fun x hx => by simp at hx; linarith) (fun x hx => by simpa using hx) a h
  | right =>
    rw [(C44_searchsorted h v).2.1] at hi; cases hi
    exact key _ (fun x y hxy hy => by simp at hy ⊢; linarith) (fun x hx => by simpa using hx) (fun x hx => by simp at hx; linarith) a h
  | other => simp [searchsorted] at hi

/-- C44: outside the points `interp` is constant (or the given left/right value), inside it is the straight line between the neighbouring points -/
theorem C44_interp {xp fp : List K} (h : xp.Pairwise (· < ·)) (hl : xp.length = fp.length) (hn : xp ≠ []) (x : K) (left right : Option K) :
    (x < xp.getD 0 0 → interp x xp fp left right = some (left.getD (fp.getD 0 0))) ∧
    (xp.getD (xp.length - 1) 0 < x → interp x xp fp left right = some (right.getD (fp.getD (xp.length - 1) 0))) ∧
    (∀ i, i < xp.length → x = xp.getD i 0 → interp x xp fp left right = some (fp.getD i 0)) ∧
    (∀ i, i + 1 < xp.length → xp.getD i 0 ≤ x → x ≤ xp.getD (i + 1) 0 → interp x xp fp left right =
      some (fp.getD i 0 + (fp.getD (i + 1) 0 - fp.getD i 0) * (x - xp.getD i 0) / (xp.getD (i + 1) 0 - xp.getD i 0))) := by
  have hpos : 0 < xp.length := List.length_pos_iff.2 hn
  have hasc : Ascending xp := h.imp le_of_lt
  have hstrict : ∀ {i j}, i < j → j < xp.length → xp.getD i 0 < xp.getD j 0 := by
    intro i j hij hj
    rw [List.getD_eq_getElem _ _ (by omega), List.getD_eq_getElem _ _ hj]
    exact List.pairwise_iff_getElem.1 h i j (by omega) hj hij
  have hidx : ∀ i, i < xp.length → xp.getD i 0 ≤ x → (∀ j, i < j → j < xp.length → x < xp.getD j 0) → bisectRight xp x = i + 1 := by
    intro i hi h1 h2
    rw [bisectRight_eq hasc]
    refine countP_split (by omega) (fun j hj => ?_) (fun j h3 h4 => ?_)
    · simpa using le_trans (asc_getD hasc (show j ≤ i by omega) hi) h1
    · simpa using h2 j (by omega) h4
  have hpt : ∀ i, i < xp.length → x = xp.getD i 0 → interp x xp fp left right = some (fp.getD i 0) := by
    intro i hi hx
    have a1 : ¬ x < xp.getD 0 0 := not_lt.2 (hx ▸ asc_getD hasc (Nat.zero_le _) hi)
    have a2 : ¬ x > xp.getD (xp.length - 1) 0 := not_lt.2 (hx ▸ asc_getD hasc (by omega) (by omega))
    have hb : bisectRight xp x = i + 1 := hidx i hi hx.ge (fun j h1 h2 => hx ▸ hstrict h1 h2)
    unfold interp
    rw [if_neg (by simpa using hl), if_neg (by omega), if_neg a1, if_neg a2]
    split
    · have : i = 0 := by omega
      rw [this]
    · simp only [hb]
      split
      · have : fp.length - 1 = i := by omega
        rw [this]
      · simp only [Nat.add_sub_cancel, ← hx]; simp
  have hin : ∀ i, i + 1 < xp.length → xp.getD i 0 ≤ x → x < xp.getD (i + 1) 0 → interp x xp fp left right =
      some (fp.getD i 0 + (fp.getD (i + 1) 0 - fp.getD i 0) * (x - xp.getD i 0) / (xp.getD (i + 1) 0 - xp.getD i 0)) := by
    intro i hi h1 h2
    have a1 : ¬ x < xp.getD 0 0 := not_lt.2 (le_trans (asc_getD hasc (Nat.zero_le _) (by omega)) h1)
    have a2 : ¬ x > xp.getD (xp.length - 1) 0 := not_lt.2 (le_trans h2.le (asc_getD hasc (by omega) (by omega)))
    have hb : bisectRight xp x = i + 1 := hidx i (by omega) h1 (fun j h3 h4 => lt_of_lt_of_le h2 (asc_getD hasc (by omega) h4))
    unfold interp
    rw [if_neg (by simpa using hl), if_neg (by omega), if_neg a1, if_neg a2, if_neg (by omega)]
    simp only [hb]
    rw [if_neg (by omega), Nat.add_sub_cancel]
  refine ⟨fun hx => ?_, fun hx => ?_, hpt, fun i hi h1 h2 => ?_⟩
  · unfold interp; rw [if_neg (by simpa using hl), if_neg (by omega), if_pos hx]
  · have a1 : ¬ x < xp.getD 0 0 := not_lt.2 (le_trans (asc_getD hasc (Nat.zero_le _) (by omega)) hx.le)
    unfold interp
    rw [if_neg (by simpa using hl), if_neg (by omega), if_neg a1, if_pos hx, ← hl]
  · rcases eq_or_lt_of_le h2 with hx | hx
    · rw [hpt (i + 1) hi hx, hx, mul_div_assoc, div_self (sub_ne_zero.2 (hstrict (Nat.lt_succ_self i) hi).ne')]
      congr 1; ring
    · exact hin i hi h1 hx

/-- C44: lists of different lengths and empty lists are refused -/
theorem C44_refuse (x : K) (xp fp : List K) (left right : Option K) : interp x xp fp left right = none ↔ xp.length ≠ fp.length ∨ xp = [] := by
  unfold interp
  by_cases h1 : xp.length = fp.length
  · by_cases h2 : xp = []
    · subst h2; simp at h1 ⊢
    · have : xp.length ≠ 0 := by simpa using h2
      simp only [h1, ne_eq, not_true_eq_false, if_false, h2, or_false, iff_false]
      rw [if_neg (by omega)]
      repeat' split
      all_goals simp
  · simp [h1]

end

/-- non-vacuity of C44 -/
example : searchsorted [1, 2, 2, 5] (2 : Rat) .left = some 1 ∧ searchsorted [1, 2, 2, 5] (2 : Rat) .right = some 3 ∧ interp (3 : Rat) [1, 2, 4] [10, 20, 0] none none = some 10 := by decide +kernel

/-! ## C45 -/

theorem arangeLoop_up {stop step : Rat} (hs : 0 < step) : ∀ f value acc r, arangeLoop stop step f value acc = some r →
    ∃ n : Nat, r = acc ++ (List.range n).map (fun i : Nat => value + i * step) ∧ (∀ i : Nat, i < n → value + i * step < stop) ∧ stop ≤ value + n * step := by
  intro f
  induction f with
  | zero => intro v a r h; cases h
  | succ f ih =>
    intro v a r h
    unfold arangeLoop at h
    split at h
    · rename_i hc
      cases h
      have : stop ≤ v := by
        rcases hc with ⟨_, hc⟩ | ⟨hc, _⟩
        · exact hc
        · linarith
      exact ⟨0, by simp, fun i hi => by omega, by simpa using this⟩
    · rename_i hc
      push Not at hc
      have hv : v < stop := by
        by_contra hx
        exact absurd (hc.1 hs) (by push Not at hx ⊢; linarith)
      obtain ⟨n, h1, h2, h3⟩ := ih _ _ _ h
      refine ⟨n + 1, ?_, ?_, ?_⟩
      · rw [h1, List.range_succ_eq_map]
        simp only [List.map_cons, List.map_map, List.append_assoc, List.singleton_append, Nat.cast_zero, zero_mul, add_zero]
        congr 3
        funext i; simp only [Function.comp]; push_cast; ring
      · intro i hi
        cases i with
        | zero => simpa using hv
        | succ i => have := h2 i (by omega); push_cast; linarith
      · push_cast; linarith

theorem arangeLoop_some_up {stop step : Rat} (hs : 0 < step) : ∀ (n : Nat) value acc, stop ≤ value + n * step → ∃ r, arangeLoop stop step (n + 1) value acc = some r := by
  intro n
  induction n with
  | zero =>
    intro v a h
    refine ⟨a, ?_⟩
    unfold arangeLoop
    rw [if_pos (.inl ⟨hs, by simpa using h⟩)]
  | succ n ih =>
    intro v a h
    unfold arangeLoop
    split
    · exact ⟨_, rfl⟩
    · exact ih _ _ (by push_cast at h; linarith)

/-- negation turns a descending range into an ascending one -/
theorem arangeLoop_neg {stop step : Rat} : ∀ f value acc, arangeLoop (-stop) (-step) f (-value) (acc.map (- ·)) = (arangeLoop stop step f value acc).map (List.map (- ·)) := by
  intro f
  induction f with
  | zero => intro v a; rfl
  | succ f ih =>
    intro v a
    unfold arangeLoop
    have : ((-step > 0 ∧ -v ≥ -stop) ∨ (-step < 0 ∧ -v ≤ -stop)) ↔ ((step > 0 ∧ v ≥ stop) ∨ (step < 0 ∧ v ≤ stop)) := by
      constructor
      · rintro (⟨a, b⟩ | ⟨a, b⟩)
        · right; constructor <;> linarith
        · left; constructor <;> linarith
      · rintro (⟨a, b⟩ | ⟨a, b⟩)
        · right; constructor <;> linarith
        · left; constructor <;> linarith
    by_cases hc : (step > 0 ∧ v ≥ stop) ∨ (step < 0 ∧ v ≤ stop)
    · rw [if_pos hc, if_pos (this.2 hc)]; rfl
    · rw [if_neg hc, if_neg (fun h => hc (this.1 h)), ← ih]
      congr 1
      · ring
      · simp

/-- C45: `arange` with a positive step ends, and gives the values start + i*step below stop, in ascending order -/
theorem C45_arange_up (start stop : Rat) {step : Rat} (hs : 0 < step) :
    (∃ f r, arange f start stop step = some r) ∧
    ∀ f r, arange f start stop step = some r → (∀ x, x ∈ r ↔ x < stop ∧ ∃ i : Nat, x = start + i * step) ∧ r.Pairwise (· < ·) ∧
      ∀ i, i < r.length → r[i]? = some (start + i * step) := by
  constructor
  · obtain ⟨n, hn⟩ := exists_nat_ge ((stop - start) / step)
    rw [div_le_iff₀ hs] at hn
    obtain ⟨r, hr⟩ := arangeLoop_some_up (stop := stop) hs n start [] (by linarith)
    exact ⟨_, r, hr⟩
  · intro f r h
    obtain ⟨n, h1, h2, h3⟩ := arangeLoop_up hs f start [] r h
    rw [List.nil_append] at h1
    subst h1
    refine ⟨fun x => ?_, ?_, ?_⟩
    · simp only [List.mem_map, List.mem_range]
      constructor
      · rintro ⟨i, hi, rfl⟩; exact ⟨h2 i hi, i, rfl⟩
      · rintro ⟨hx, i, rfl⟩
        refine ⟨i, ?_, rfl⟩
        by_contra hc
        push Not at hc
        have : (n : Rat) ≤ i := by exact_mod_cast hc
        nlinarith
    · rw [List.pairwise_map]
      refine List.pairwise_lt_range.imp ?_
      intro a b hab
      have : (a : Rat) < b := by exact_mod_cast hab
      nlinarith
    · intro i hi
      simp at hi
      simp [hi]

/-- C45: the same with a negative step, in descending order -/
theorem C45_arange_down (start stop : Rat) {step : Rat} (hs : step < 0) :
    (∃ f r, arange f start stop step = some r) ∧
    ∀ f r, arange f start stop step = some r → (∀ x, x ∈ r ↔ stop < x ∧ ∃ i : Nat, x = start + i * step) ∧ r.Pairwise (· > ·) ∧
      ∀ i, i < r.length → r[i]? = some (start + i * step) := by
  have hrel : ∀ f, arange f (-start) (-stop) (-step) = (arange f start stop step).map (List.map (- ·)) := by
    intro f; exact arangeLoop_neg f start []
  obtain ⟨⟨f0, r0, h0⟩, hall⟩ := C45_arange_up (-start) (-stop) (step := -step) (by linarith)
  constructor
  · rw [hrel] at h0
    obtain ⟨r, hr, _⟩ := Option.map_eq_some_iff.1 h0
    exact ⟨f0, r, hr⟩
  · intro f r h
    obtain ⟨a1, a2, a3⟩ := hall f (r.map (- ·)) (by rw [hrel, h]; rfl)
    refine ⟨fun x => ?_, ?_, ?_⟩
    · have := a1 (-x)
      simp only [List.mem_map, neg_inj, exists_eq_right] at this
      rw [this]
      constructor
      · rintro ⟨h1, i, hi⟩; exact ⟨by linarith, i, by linarith⟩
      · rintro ⟨h1, i, hi⟩; exact ⟨by linarith, i, by linarith⟩
    · rw [List.pairwise_map] at a2
      exact a2.imp (fun h => by linarith)
    · intro i hi
      have := a3 i (by simpa using hi)
      rw [List.getElem?_map, List.getElem?_eq_getElem hi] at this
      simp only [Option.map_some, Option.some.injEq] at this
      rw [List.getElem?_eq_getElem hi]
      congr 1; linarith

/-- C45: with step 0 the loop never ends (numpy raises ZeroDivisionError) -/
theorem C45_arange_zero_step (start stop : Rat) (f : Nat) : arange f start stop 0 = none := by
  unfold arange
  generalize ([] : List Rat) = acc
  induction f generalizing start acc with
  | zero => rfl
  | succ f ih => unfold arangeLoop; simp only [lt_irrefl, false_and, or_self, if_false]; exact ih _ _

/-- C45: `linspace` has the given number of values, starting with the first, at equal distances, the last being stop, or one distance before
it without endpoint -/
theorem C45_linspace (start stop : Rat) (n : Nat) (endpoint : Bool) :
    (linspace start stop n endpoint).length = n ∧
    (0 < n → (linspace start stop n endpoint)[0]? = some start) ∧
    (2 ≤ n → ∃ d : Rat, (∀ i, i < n → (linspace start stop n endpoint)[i]? = some (start + i * d)) ∧
      (endpoint = true → (linspace start stop n endpoint)[n - 1]? = some stop) ∧
      (endpoint = false → (linspace start stop n endpoint)[n - 1]? = some (stop - d))) := by
  unfold linspace
  by_cases h0 : n = 0
  · subst h0; simp
  by_cases h1 : n = 1
  · subst h1; simp
  rw [if_neg h0, if_neg h1]
  have hget : ∀ d : Rat, ∀ i, i < n → ((List.range n).map (fun i : Nat => start + d * i))[i]? = some (start + i * d) := by
    intro d i hi; simp [hi]; ring
  refine ⟨by simp, fun h => by rw [hget _ 0 h]; simp, fun h2 => ⟨_, fun i hi => hget _ i hi, ?_, ?_⟩⟩
  · intro he
    have hn : (n : Rat) - 1 ≠ 0 := by
      have : (2 : Rat) ≤ n := by exact_mod_cast h2
      intro hx; linarith
    rw [hget _ _ (by omega), he]
    simp only [if_true]
    have : ((n - 1 : Nat) : Rat) = n - 1 := by push_cast [Nat.cast_sub (show 1 ≤ n by omega)]; ring
    rw [this, mul_div_cancel₀ _ hn]; congr 1; ring
  · intro he
    have hn : (n : Rat) ≠ 0 := by exact_mod_cast h0
    rw [hget _ _ (by omega), he]
    simp only [Bool.false_eq_true, if_false]
    have : ((n - 1 : Nat) : Rat) = n - 1 := by push_cast [Nat.cast_sub (show 1 ≤ n by omega)]; ring
    rw [this]; congr 1; field_simp; ring

/-- non-vacuity of C45 -/
example : arange 10 1 3 (1 / 2) = some [1, 3 / 2, 2, 5 / 2] ∧ arange 10 3 1 (-1) = some [3, 2] ∧ linspace 0 1 5 true = [0, 1 / 4, 1 / 2, 3 / 4, 1] := by decide +kernel

/-! ## C46 -/

/-- base names that are serialized -/
def Serialized (b : List Char) : Prop := b.getLast? = some '.' ∨ b.getLast? = some ','
instance (b) : Decidable (Serialized b) := by unfold Serialized; infer_instance
/-- number of the first object -/
def firstNo (b : List Char) : Nat := if b.getLast? = some ',' then 1 else 0

/-- the base names of a sequence of creations -/
def bases (l : List (List Char × Option (List Char))) : List (List Char) := l.map (fun p => baseName p.1 p.2)

/-- C46: the name of an object is based on the name given; if there is none, or just a dot or a comma, on the name of its class (in lower case) -/
theorem C46_base (cls n : List Char) :
    (bases [(cls, none)] = [cls ++ ['.']] ∧ bases [(cls, some [])] = [cls ++ ['.']] ∧ bases [(cls, some ['.'])] = [cls ++ ['.']] ∧ bases [(cls, some [','])] = [cls ++ [',']]) ∧
    (n ≠ [] → n ≠ ['.'] → n ≠ [','] → bases [(cls, some n)] = [n]) ∧
    ∀ l l', bases (l ++ l') = bases l ++ bases l' := by
  refine ⟨⟨rfl, rfl, rfl, rfl⟩, fun h1 h2 h3 => ?_, fun l l' => List.map_append⟩
  simp [bases, baseName, h1, h2, h3]

theorem createAll_spec : ∀ (l : List (List Char × Option (List Char))) (prev : List (List Char)) (ser : Serial),
    (∀ b, Serialized b → ser b = if prev.count b = 0 then none else some (firstNo b + prev.count b - 1)) →
    ∀ (i : Nat) (b : List Char), (bases l)[i]? = some b → (createAll l ser)[i]? = some
      (if Serialized b then (⟨b.dropLast ++ ['.'] ++ Nat.toDigits 10 (firstNo b + (prev ++ (bases l).take i).count b), some (b, firstNo b + (prev ++ (bases l).take i).count b)⟩ : Named)
       else ⟨b, none⟩) := by
  intro l
  induction l with
  | nil => intro prev ser _ i b h; simp [bases] at h
  | cons p l ih =>
    intro prev ser hser i b h
    obtain ⟨cls, name⟩ := p
    have hb : bases ((cls, name) :: l) = baseName cls name :: bases l := rfl
    rw [hb] at h ⊢
    have hstep : setName cls name ser = (if Serialized (baseName cls name) then
        (⟨(baseName cls name).dropLast ++ ['.'] ++ Nat.toDigits 10 (firstNo (baseName cls name) + prev.count (baseName cls name)),
          some (baseName cls name, firstNo (baseName cls name) + prev.count (baseName cls name))⟩,
          fun n => if n = baseName cls name then some (firstNo (baseName cls name) + prev.count (baseName cls name)) else ser n)
        else (⟨baseName cls name, none⟩, ser)) := by
      unfold setName
      by_cases hs : Serialized (baseName cls name)
      · rw [if_pos hs]
        have hs' := hs
        unfold Serialized at hs'
        simp only [hs', if_true]
        have hq : nextNo ser (baseName cls name) = firstNo (baseName cls name) + prev.count (baseName cls name) := by
          unfold nextNo
          rw [hser _ hs]
          by_cases hc : prev.count (baseName cls name) = 0
          · rw [if_pos hc, hc]; rfl
          · rw [if_neg hc]; simp only; omega
        rw [hq]
      · rw [if_neg hs]
        unfold Serialized at hs
        simp only [hs, if_false]
    cases i with
    | zero =>
      simp only [List.getElem?_cons_zero, Option.some.injEq] at h
      subst h
      simp only [createAll, List.getElem?_cons_zero, hstep, List.take_zero, List.append_nil]
      split <;> rfl
    | succ i =>
      simp only [List.getElem?_cons_succ] at h
      simp only [createAll, List.getElem?_cons_succ, List.take_succ_cons]
      have := ih (prev ++ [baseName cls name]) (setName cls name ser).2 ?_ i b h
      · rw [this]; simp only [List.append_assoc, List.singleton_append]
      · intro b' hb'
        rw [hstep]
        by_cases hbb : b' = baseName cls name
        · subst hbb
          rw [if_pos hb']
          simp only [if_true, List.count_append, List.count_singleton_self]
          rw [if_neg (by omega)]
          congr 1
        · have hcnt : (prev ++ [baseName cls name]).count b' = prev.count b' := by
            rw [List.count_append, List.count_singleton]; simp [Ne.symm hbb]
          rw [hcnt, ← hser b' hb']
          split
          · simp [hbb]
          · rfl

/-- C46: the object with serialized base name `b` that is preceded by `k` objects with that base name gets sequence number `k` (or `k + 1` for a
comma), and the name consists of the base name and that number -/
theorem C46_sequence (l : List (List Char × Option (List Char))) (i : Nat) (b : List Char) (h : (bases l)[i]? = some b) :
    (createAll l (fun _ => none))[i]? = some
      (if Serialized b then ⟨b.dropLast ++ ['.'] ++ Nat.toDigits 10 (firstNo b + ((bases l).take i).count b), some (b, firstNo b + ((bases l).take i).count b)⟩
       else ⟨b, none⟩) := by
  have := createAll_spec l [] (fun _ => none) (fun b _ => by simp) i b h
  simpa using this

theorem append_split_unique {α : Type} {c : α} : ∀ {a b a' b' : List α}, c ∉ a → c ∉ a' → a ++ c :: b = a' ++ c :: b' → a = a' ∧ b = b'
  | [], b, [], b', _, _, h => by simpa using h
  | [], b, x :: a', b', _, h', h => by simp at h h'; exact absurd h.1 h'.1
  | x :: a, b, [], b', h', _, h => by simp at h h'; exact absurd h.1.symm h'.1
  | x :: a, b, y :: a', b', h1, h2, h => by
    simp at h h1 h2
    obtain ⟨e1, e2⟩ := append_split_unique h1.2 h2.2 h.2
    exact ⟨by rw [h.1, e1], e2⟩

theorem digits_no_dot (n : Nat) : '.' ∉ Nat.toDigits 10 n := by
  intro h
  have := Nat.isDigit_of_mem_toDigits (by decide) (by decide) h
  simp at this

theorem digits_inj {n m : Nat} (h : Nat.toDigits 10 n = Nat.toDigits 10 m) : n = m := by
  have h1 := Nat.ofDigitChars_toDigits (b := 10) (n := n) (by decide) (by decide)
  have h2 := Nat.ofDigitChars_toDigits (b := 10) (n := m) (by decide) (by decide)
  rw [← h1, ← h2, h]

theorem name_inj {p p' : List Char} {n n' : Nat} (h : p ++ ['.'] ++ Nat.toDigits 10 n = p' ++ ['.'] ++ Nat.toDigits 10 n') : p = p' ∧ n = n' := by
  have h' := congrArg List.reverse h
  simp only [List.reverse_append, List.reverse_cons, List.reverse_nil, List.nil_append, List.singleton_append] at h'
  obtain ⟨a, b⟩ := append_split_unique (by simpa using digits_no_dot n) (by simpa using digits_no_dot n') h'
  exact ⟨List.reverse_injective b, digits_inj (List.reverse_injective a)⟩

/-- C46. Full statement: any two objects with serialized names have different names. It is false when the same base name is used with a dot and
with a comma (see below). What holds: two different objects whose base names both end in a dot, or both in a comma, have different names. -/
theorem C46_unique_partial (l : List (List Char × Option (List Char))) {i j : Nat} {b b' : List Char} (hij : i < j) (hi : (bases l)[i]? = some b) (hj : (bases l)[j]? = some b')
    (hb : Serialized b) (he : b.getLast? = b'.getLast?) :
    ∃ x y, (createAll l (fun _ => none))[i]? = some x ∧ (createAll l (fun _ => none))[j]? = some y ∧ x.name ≠ y.name ∧ x.base ≠ y.base := by
  have hb' : Serialized b' := by unfold Serialized at *; rw [← he]; exact hb
  have h1 := C46_sequence l i b hi
  have h2 := C46_sequence l j b' hj
  rw [if_pos hb] at h1
  rw [if_pos hb'] at h2
  have hlt : ((bases l).take i).count b < ((bases l).take j).count b := by
    have hsub : (bases l).take j = (bases l).take i ++ ((bases l).take j).drop i := by
      conv => lhs; rw [← List.take_append_drop i ((bases l).take j), List.take_take, min_eq_left hij.le]
    have hmem : b ∈ ((bases l).take j).drop i := by
      rw [List.mem_iff_getElem?]
      refine ⟨0, ?_⟩
      rw [List.getElem?_drop, Nat.add_zero, List.getElem?_take, if_pos hij]; exact hi
    rw [hsub, List.count_append]
    have := List.count_pos_iff.2 hmem
    omega
  have hbb : ∀ {n n'}, b.dropLast ++ ['.'] ++ Nat.toDigits 10 n = b'.dropLast ++ ['.'] ++ Nat.toDigits 10 n' → b = b' ∧ n = n' := by
    intro n n' h
    obtain ⟨e1, e2⟩ := name_inj h
    refine ⟨?_, e2⟩
    have hne : b ≠ [] := by intro h; subst h; simp [Serialized] at hb
    have hne' : b' ≠ [] := by intro h; subst h; simp [Serialized] at hb'
    rw [← List.dropLast_append_getLast hne, ← List.dropLast_append_getLast hne', e1]
    congr 2
    rw [List.getLast?_eq_some_getLast hne, List.getLast?_eq_some_getLast hne'] at he
    exact Option.some.inj he
  refine ⟨_, _, h1, h2, ?_, ?_⟩
  · intro h
    obtain ⟨rfl, h⟩ := hbb h
    omega
  · intro h
    simp only [Option.some.injEq, Prod.mk.injEq] at h
    obtain ⟨rfl, h⟩ := h
    omega

/-- 'car.' twice and 'car,' once: two objects have the name car.1 -/
theorem C46_counterexample : ((createAll [([], some "car.".toList), ([], some "car.".toList), ([], some "car,".toList)] (fun _ => none)).map Named.name) =
    ["car.0".toList, "car.1".toList, "car.1".toList] := by decide +kernel

/-- non-vacuity of C46 -/
example : (createAll [("queue".toList, none), ("car".toList, some ".".toList), ("queue".toList, some "".toList), ("queue".toList, some "x".toList), ("car".toList, some ",".toList)] (fun _ => none)).map Named.name =
    ["queue.0".toList, "car.0".toList, "queue.1".toList, "x".toList, "car.1".toList] := by decide +kernel

/-! ## C47 -/

/-- the parts of a line of an item file -/
inductive Seg
  | plain (s : List Char)
  | quoted (q : Char) (s : List Char)
  | brace (s : List Char)
  | blank (c : Char)

/-- how a part is written -/
def Seg.text : Seg → List Char
  | .plain s => s
  | .quoted q s => q :: s ++ [q]
  | .brace s => '{' :: s ++ ['}']
  | .blank c => [c]

/-- the item that it stands for -/
def Seg.item : Seg → List (List Char)
  | .plain s => [s]
  | .quoted _ s => [s]
  | _ => []

/-- characters that can't be in an item that isn't quoted -/
def special : List Char := [' ', '\t', '\r', '\n', '#', '\'', '"', '{']

def Seg.Valid : Seg → Prop
  | .plain s => s ≠ [] ∧ ∀ c ∈ s, c ∉ special
  | .quoted q s => (q = '\'' ∨ q = '"') ∧ ∀ c ∈ s, c ≠ q ∧ c ≠ '\r' ∧ c ≠ '\n'
  | .brace s => ∀ c ∈ s, c ≠ '}' ∧ c ≠ '\n'
  | .blank c => c = ' ' ∨ c = '\t'

def Seg.isPlain : Seg → Bool
  | .plain _ => true
  | _ => false

/-- a line: parts, such that there is something between two plain items, perhaps a comment, perhaps a carriage return at the end -/
structure Line where
  segs : List Seg
  comment : Option (List Char)
  cr : Bool

def Line.text (l : Line) : List Char :=
  l.segs.flatMap Seg.text ++ (match l.comment with | none => [] | some s => '#' :: s) ++ (if l.cr then ['\r'] else [])
def Line.Valid (l : Line) : Prop := (∀ s ∈ l.segs, s.Valid) ∧ l.segs.IsChain (fun a b => ¬ (a.isPlain = true ∧ b.isPlain = true)) ∧ ∀ s, l.comment = some s → '\n' ∉ s
def Line.items (l : Line) : List (List Char) := l.segs.flatMap Seg.item

theorem scan_plain : ∀ (s r rest : List Char), (∀ c ∈ s, c ∉ special) → scanLine .plain r (s ++ rest) = scanLine .plain (r ++ s) rest := by
  intro s
  induction s with
  | nil => intro r rest _; simp
  | cons c s ih =>
    intro r rest h
    have hc := h c (by simp)
    simp only [special, List.mem_cons, List.not_mem_nil, or_false, not_or] at hc
    obtain ⟨c1, c2, c3, c4, c5, c6, c7, c8⟩ := hc
    rw [List.cons_append, scanLine]
    simp only [c1, c2, c3, c4, c5, c6, c7, c8, or_self, if_false]
    rw [ih _ _ (fun c hc => h c (by simp [hc]))]; simp

theorem scan_quote : ∀ (s r rest : List Char) (q : Char), (∀ c ∈ s, c ≠ q ∧ c ≠ '\r' ∧ c ≠ '\n') → q ≠ '\r' → q ≠ '\n' →
    scanLine (.quote q) r (s ++ q :: rest) = (r ++ s) :: scanLine .plain [] rest := by
  intro s
  induction s with
  | nil => intro r rest q _ h1 h2; rw [List.nil_append, scanLine]; simp [h1, h2]
  | cons c s ih =>
    intro r rest q h h1 h2
    obtain ⟨a1, a2, a3⟩ := h c (by simp)
    rw [List.cons_append, scanLine]
    simp only [a1, a2, a3, or_self, if_false]
    rw [ih _ _ _ (fun c hc => h c (by simp [hc])) h1 h2]; simp

theorem scan_brace : ∀ (s rest : List Char), (∀ c ∈ s, c ≠ '}' ∧ c ≠ '\n') → scanLine .brace [] (s ++ '}' :: rest) = scanLine .plain [] rest := by
  intro s
  induction s with
  | nil => intro rest _; rw [List.nil_append, scanLine]; simp
  | cons c s ih =>
    intro rest h
    obtain ⟨a1, a2⟩ := h c (by simp)
    rw [List.cons_append, scanLine]
    have := ih rest (fun c hc => h c (by simp [hc]))
    split
    · exact this
    · exact this

theorem scan_segs (tail : List Char) (ht : ∀ r, scanLine .plain r tail = flush r) : ∀ (segs : List Seg) (r : List Char), (∀ s ∈ segs, s.Valid) →
    segs.IsChain (fun a b => ¬ (a.isPlain = true ∧ b.isPlain = true)) → (r ≠ [] → ∀ s, segs.head? = some s → s.isPlain = false) →
    scanLine .plain r (segs.flatMap Seg.text ++ tail) = flush r ++ segs.flatMap Seg.item := by
  intro segs
  induction segs with
  | nil => intro r _ _ _; simp [ht]
  | cons x segs ih =>
    intro r hv hc hr
    have hx := hv x (by simp)
    have hv' : ∀ s ∈ segs, s.Valid := fun s hs => hv s (by simp [hs])
    have hc' : segs.IsChain (fun a b => ¬ (a.isPlain = true ∧ b.isPlain = true)) := by
      cases segs with
      | nil => simp
      | cons y ys => exact (List.isChain_cons_cons.1 hc).2
    simp only [List.flatMap_cons, List.append_assoc]
    have ih0 := ih [] hv' hc' (fun h => absurd rfl h)
    simp only [flush, if_true, List.nil_append] at ih0
    cases x with
    | plain s =>
      have hr0 : r = [] := by
        by_contra h
        have := hr h (.plain s) rfl
        simp [Seg.isPlain] at this
      subst hr0
      simp only [Seg.text]
      rw [scan_plain _ _ _ hx.2, List.nil_append, ih s hv' hc' ?_]
      · simp [flush, hx.1, Seg.item]
      · intro _ y hy
        cases segs with
        | nil => simp at hy
        | cons z zs =>
          simp at hy; subst hy
          have := (List.isChain_cons_cons.1 hc).1
          simpa [Seg.isPlain] using this
    | quoted q s =>
      have hq : q ≠ '\r' ∧ q ≠ '\n' ∧ q ≠ '#' := by rcases hx.1 with rfl | rfl <;> decide
      simp only [Seg.text, List.cons_append, List.append_assoc, List.singleton_append, List.nil_append]
      rw [scanLine]
      simp only [hq.1, hq.2.1, hq.2.2, or_self, if_false, hx.1, if_true]
      rw [scan_quote _ _ _ _ hx.2 hq.1 hq.2.1, ih0]; rfl
    | brace s =>
      simp only [Seg.text, List.cons_append, List.append_assoc, List.singleton_append, List.nil_append]
      rw [scanLine]
      simp only [show ¬ ('{' = '\r' ∨ '{' = '\n') by decide, show ¬ '{' = '#' by decide, show ¬ ('{' = '\'' ∨ '{' = '"') by decide, if_false, if_true]
      rw [scan_brace _ _ hx, ih0]; rfl
    | blank c =>
      have hq : ¬ (c = '\r' ∨ c = '\n') ∧ c ≠ '#' ∧ ¬ (c = '\'' ∨ c = '"') ∧ c ≠ '{' := by rcases hx with rfl | rfl <;> decide
      have hx' : c = ' ' ∨ c = '\t' := hx
      simp only [Seg.text, List.singleton_append]
      rw [scanLine]
      simp only [hq, if_false, hx', if_true]
      rw [ih0]; rfl

theorem scan_line (l : Line) (hv : l.Valid) (nl : Bool) : scanLine .plain [] (l.text ++ (if nl then ['\n'] else [])) = l.items := by
  obtain ⟨h1, h2, h3⟩ := hv
  have := scan_segs ((match l.comment with | none => [] | some s => '#' :: s) ++ ((if l.cr then ['\r'] else []) ++ (if nl then ['\n'] else []))) ?_ l.segs [] h1 h2 (fun h => absurd rfl h)
  · simp only [flush, if_true, List.nil_append] at this
    unfold Line.text Line.items
    simpa only [List.append_assoc] using this
  · intro r
    have h4 : ∀ t : List Char, (∀ c ∈ t, c = '\r' ∨ c = '\n') → scanLine .plain r t = flush r := by
      intro t
      induction t with
      | nil => intro _; rw [scanLine]
      | cons c t ih => intro h; rw [scanLine, if_pos (h c (by simp))]; exact ih (fun c hc => h c (by simp [hc]))
    cases l.comment with
    | none =>
      refine h4 _ ?_
      intro c hc
      simp only [List.nil_append, List.mem_append] at hc
      rcases hc with hc | hc
      · split at hc <;> simp at hc; exact .inl hc
      · split at hc <;> simp at hc; exact .inr hc
    | some s =>
      simp only [List.cons_append]
      rw [scanLine]; simp

theorem text_no_newline (l : Line) (hv : l.Valid) : '\n' ∉ l.text := by
  obtain ⟨h1, _, h3⟩ := hv
  unfold Line.text
  simp only [List.mem_append, not_or, List.mem_flatMap, not_exists, not_and]
  refine ⟨⟨?_, ?_⟩, by split <;> simp⟩
  · intro x hx
    have := h1 x hx
    cases x with
    | plain s => intro h; exact this.2 _ h (by simp [special])
    | quoted q s =>
      intro h
      simp only [Seg.text, List.cons_append, List.mem_cons, List.mem_append, List.not_mem_nil, or_false] at h
      have hq : '\n' ≠ q := by rcases this.1 with h | h <;> rw [h] <;> decide
      rcases h with h | h | h
      · exact hq h
      · exact (this.2 _ h).2.2 rfl
      · exact hq h
    | brace s =>
      intro h
      simp [Seg.text] at h
      exact (this _ h).2 rfl
    | blank c => rcases this with h | h <;> simp [Seg.text, h]
  · cases hc : l.comment with
    | none => simp
    | some s => simp; exact h3 s hc

theorem lines_newline : ∀ (t acc rest : List Char), '\n' ∉ t → lines acc (t ++ '\n' :: rest) = (acc ++ t ++ ['\n']) :: lines [] rest := by
  intro t
  induction t with
  | nil => intro acc rest _; simp [lines]
  | cons c t ih =>
    intro acc rest h
    simp only [List.mem_cons, not_or] at h
    rw [List.cons_append, lines, if_neg (Ne.symm h.1), ih _ _ h.2]; simp

theorem lines_last : ∀ (t acc : List Char), '\n' ∉ t → lines acc t = if acc ++ t = [] then [] else [acc ++ t] := by
  intro t
  induction t with
  | nil => intro acc _; simp [lines]
  | cons c t ih =>
    intro acc h
    simp only [List.mem_cons, not_or] at h
    rw [lines, if_neg (Ne.symm h.1), ih _ h.2]; simp

/-- C47: an item file with any layout (lines that end in a newline, and one last line that doesn't) is read as its items, in order -/
theorem C47_items (ls : List Line) (last : Line) (hv : ∀ l ∈ ls, l.Valid) (hl : last.Valid) :
    items (ls.flatMap (fun l => l.text ++ ['\n']) ++ last.text) = ls.flatMap Line.items ++ last.items := by
  unfold items
  induction ls with
  | nil =>
    simp only [List.flatMap_nil, List.nil_append]
    rw [lines_last _ _ (text_no_newline last hl), List.nil_append]
    have := scan_line last hl false
    simp only [Bool.false_eq_true, if_false, List.append_nil] at this
    split
    · rename_i h
      rw [h] at this
      rw [← this]; rfl
    · simpa using this
  | cons l ls ih =>
    simp only [List.flatMap_cons, List.append_assoc, List.singleton_append, List.cons_append]
    rw [lines_newline _ _ _ (text_no_newline l (hv l (by simp))), List.nil_append, List.flatMap_cons]
    have h1 := scan_line l (hv l (by simp)) true
    simp only [if_true] at h1
    have h2 := ih (fun l hl => hv l (by simp [hl]))
    rw [h1, List.nil_append, h2]

/-- the item of the `k+1`-th call of `read_item`, `none` for EOFError -/
def nthRead : Nat → List (List Char) → Option (List Char)
  | 0, l => (readItem l).map Prod.fst
  | k + 1, l => (readItem l).bind (fun r => nthRead k r.2)

/-- C47: the items are read one by one; after the last one EOFError is raised -/
theorem C47_read (text : List Char) (k : Nat) : nthRead k (items text) = (items text)[k]? := by
  generalize items text = l
  induction k generalizing l with
  | zero => cases l <;> rfl
  | succ k ih =>
    cases l with
    | nil => rfl
    | cons a l => simpa [nthRead, readItem] using ih l

/-- non-vacuity of C47: the example of the documentation -/
example : items "Item1\n\"Item 2\"\n    Item3 Item4 # comment\nItem5 {five} Item6 {six}\n'Double quote\" in item'\n\"Single quote' in item\"\r\nTrue".toList =
    ["Item1", "Item 2", "Item3", "Item4", "Item5", "Item6", "Double quote\" in item", "Single quote' in item", "True"].map String.toList := by decide +kernel
/-- non-vacuity of C47: a valid line -/
example : (⟨[.blank ' ', .plain ['a', 'b'], .quoted '"' [], .plain ['c'], .brace ['x'], .plain ['d'], .blank '\t'], some [' ', '#'], true⟩ : Line).Valid := by
  refine ⟨?_, ?_, ?_⟩
  · intro s hs
    simp only [List.mem_cons, List.not_mem_nil, or_false] at hs
    rcases hs with rfl | rfl | rfl | rfl | rfl | rfl | rfl <;> simp [Seg.Valid, special]
  · simp [Seg.isPlain]
  · simp

end Util
end Verif
