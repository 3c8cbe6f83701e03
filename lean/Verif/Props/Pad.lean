import Verif.Pad
import Mathlib.Algebra.Order.Floor.Ring
import Mathlib.Tactic.FieldSimp
import Mathlib.Tactic.Linarith
import Mathlib.Tactic.Positivity

/-!
# C110: inserting an image into a video
-/

namespace Verif
namespace Pad

theorem pyround_near (q : Rat) : |(pyround q : Rat) - q| ≤ 1 / 2 := by
  have h0 := Int.floor_le q
  have h1 := Int.lt_floor_add_one q
  rw [abs_le]
  unfold pyround
  simp only
  split_ifs <;> constructor <;> push_cast <;> linarith

theorem pyround_le {q : Rat} {n : Int} (h : q ≤ n) : pyround q ≤ n := by
  have := (abs_le.1 (pyround_near q)).2
  have h2 : (pyround q : Rat) < ((n + 1 : Int) : Rat) := by push_cast; linarith
  have := Int.cast_lt.1 h2
  omega

theorem le_pyround {q : Rat} {n : Int} (h : (n : Rat) ≤ q) : n ≤ pyround q := by
  have := (abs_le.1 (pyround_near q)).1
  have h2 : ((n - 1 : Int) : Rat) < (pyround q : Rat) := by push_cast; linarith
  have := Int.cast_lt.1 h2
  omega

theorem pyround_int (n : Int) : pyround (n : Rat) = n := le_antisymm (pyround_le le_rfl) (le_pyround le_rfl)

/-- half of an integer, rounded -/
theorem pyround_half (d : Int) : 2 * pyround ((d : Rat) / 2) = d ∨ (pyround ((d : Rat) / 2) % 2 = 0 ∧ (2 * pyround ((d : Rat) / 2) = d + 1 ∨ 2 * pyround ((d : Rat) / 2) = d - 1)) := by
  rcases Int.even_or_odd' d with ⟨k, rfl | rfl⟩
  · left
    have : (((2 * k : Int) : Rat)) / 2 = (k : Int) := by push_cast; ring
    rw [this, pyround_int]
  · right
    have hf : ⌊((2 * k + 1 : Int) : Rat) / 2⌋ = k := by
      rw [Int.floor_eq_iff]; push_cast; constructor <;> linarith
    have he : ((2 * k + 1 : Int) : Rat) / 2 - k = 1 / 2 := by push_cast; ring
    have : pyround (((2 * k + 1 : Int) : Rat) / 2) = if k % 2 = 0 then k else k + 1 := by
      unfold pyround
      simp only [hf, he, lt_irrefl, if_false]
    rw [this]
    split_ifs with h
    · exact ⟨h, by omega⟩
    · exact ⟨by omega, by omega⟩

theorem resized_spec {w h tw th : Nat} (hw : 0 < w) (hh : 0 < h) (htw : 0 < tw) :
    ((resized w h tw th).1 = tw ∧ (h : Rat) * tw < th * w ∧ (resized w h tw th).2 = pyround ((tw : Rat) * h / w)) ∨
    ((resized w h tw th).2 = th ∧ (th : Rat) * w ≤ h * tw ∧ (resized w h tw th).1 = pyround ((th : Rat) * w / h)) := by
  have w0 : (0 : Rat) < w := by exact_mod_cast hw
  have h0 : (0 : Rat) < h := by exact_mod_cast hh
  have tw0 : (0 : Rat) < tw := by exact_mod_cast htw
  by_cases hc : (th : Rat) / tw > h / w
  · left
    simp only [resized, if_pos hc]
    refine ⟨trivial, ?_, by rw [mul_div_assoc]⟩
    rw [gt_iff_lt, div_lt_div_iff₀ w0 tw0] at hc
    exact hc
  · right
    simp only [resized, if_neg hc]
    refine ⟨trivial, ?_, by rw [div_div_eq_mul_div]⟩
    rw [gt_iff_lt, not_lt, div_le_div_iff₀ tw0 w0] at hc
    exact hc

theorem resized_fits {w h tw th : Nat} (hw : 0 < w) (hh : 0 < h) (htw : 0 < tw) :
    (resized w h tw th).1 ≤ tw ∧ (resized w h tw th).2 ≤ th ∧ ((resized w h tw th).1 = tw ∨ (resized w h tw th).2 = th) := by
  have w0 : (0 : Rat) < w := by exact_mod_cast hw
  have h0 : (0 : Rat) < h := by exact_mod_cast hh
  rcases resized_spec (th := th) hw hh htw with ⟨e1, e2, e3⟩ | ⟨e1, e2, e3⟩
  · refine ⟨e1.le, ?_, .inl e1⟩
    rw [e3]; apply pyround_le
    rw [div_le_iff₀ w0]; push_cast; linarith
  · refine ⟨?_, e1.le, .inr e1⟩
    rw [e3]; apply pyround_le
    rw [div_le_iff₀ h0]; push_cast; linarith

/-- what is known of a place -/
theorem place_cases {w h tw th : Nat} {r o : Int × Int} (e : place w h tw th = some (r, o)) :
    (h = th ∧ w = tw ∧ r = ((w : Int), (h : Int)) ∧ o = (0, 0)) ∨ (¬ (h = th ∧ w = tw) ∧ r = resized w h tw th ∧ 0 < r.1 ∧ 0 < r.2 ∧
      o = (pyround (((tw - r.1 : Int) : Rat) / 2), pyround (((th - r.2 : Int) : Rat) / 2))) := by
  unfold place at e
  simp only at e
  split_ifs at e with h1 h2
  · left
    obtain ⟨rfl, rfl⟩ := Prod.mk.inj (Option.some.inj e)
    exact ⟨h1.1, h1.2, rfl, rfl⟩
  · right
    obtain ⟨rfl, rfl⟩ := Prod.mk.inj (Option.some.inj e)
    rw [not_or, not_le, not_le] at h2
    exact ⟨h1, rfl, h2.1, h2.2, rfl⟩

/-- **C110.** The image lies within the frame, and fills its width or its height. -/
theorem C110_inside {w h tw th : Nat} (hw : 0 < w) (hh : 0 < h) (htw : 0 < tw) {r o : Int × Int} (e : place w h tw th = some (r, o)) :
    0 ≤ o.1 ∧ 0 < r.1 ∧ o.1 + r.1 ≤ tw ∧ 0 ≤ o.2 ∧ 0 < r.2 ∧ o.2 + r.2 ≤ th ∧ (r.1 = tw ∨ r.2 = th) := by
  rcases place_cases e with ⟨h1, h2, rfl, rfl⟩ | ⟨_, hr, h1, h2, rfl⟩
  · subst h1 h2; simp only; exact ⟨le_rfl, by omega, by omega, le_rfl, by omega, by omega, .inl trivial⟩
  · obtain ⟨f1, f2, f3⟩ := resized_fits (th := th) hw hh htw
    rw [← hr] at f1 f2 f3
    have p1 := pyround_half (tw - r.1)
    have p2 := pyround_half (th - r.2)
    simp only
    refine ⟨by omega, h1, by omega, by omega, h2, by omega, f3⟩

/-- C110: it is in the middle: the margins on both sides are equal or, if that is impossible, differ by one, with the even one at the left and at the top -/
theorem C110_middle {w h tw th : Nat} {r o : Int × Int} (e : place w h tw th = some (r, o)) :
    (o.1 = tw - r.1 - o.1 ∨ (o.1 % 2 = 0 ∧ |o.1 - (tw - r.1 - o.1)| = 1)) ∧ (o.2 = th - r.2 - o.2 ∨ (o.2 % 2 = 0 ∧ |o.2 - (th - r.2 - o.2)| = 1)) := by
  rcases place_cases e with ⟨h1, h2, rfl, rfl⟩ | ⟨_, hr, h1, h2, rfl⟩
  · subst h1 h2; simp
  · have p1 := pyround_half (tw - r.1)
    have p2 := pyround_half (th - r.2)
    simp only
    constructor
    · rcases p1 with p | ⟨pe, p⟩
      · left; omega
      · right; refine ⟨pe, ?_⟩
        rcases p with p | p
        · rw [abs_of_nonneg] <;> omega
        · rw [abs_of_nonpos] <;> omega
    · rcases p2 with p | ⟨pe, p⟩
      · left; omega
      · right; refine ⟨pe, ?_⟩
        rcases p with p | p
        · rw [abs_of_nonneg] <;> omega
        · rw [abs_of_nonpos] <;> omega

/-- C110: it is scaled by the largest factor with which it fits in the frame, up to half a pixel -/
theorem C110_scale {w h tw th : Nat} (hw : 0 < w) (hh : 0 < h) (htw : 0 < tw) {r o : Int × Int} (e : place w h tw th = some (r, o)) :
    ∃ f : Rat, f * w ≤ tw ∧ f * h ≤ th ∧ (∀ g : Rat, g * w ≤ tw → g * h ≤ th → g ≤ f) ∧ |r.1 - f * w| ≤ 1 / 2 ∧ |r.2 - f * h| ≤ 1 / 2 := by
  have w0 : (0 : Rat) < w := by exact_mod_cast hw
  have h0 : (0 : Rat) < h := by exact_mod_cast hh
  rcases place_cases e with ⟨h1, h2, rfl, rfl⟩ | ⟨_, hr, h1, h2, rfl⟩
  · subst h1 h2
    refine ⟨1, by linarith, by linarith, fun g hg _ => ?_, by norm_num, by norm_num⟩
    by_contra hn
    rw [not_le] at hn
    nlinarith
  · rw [hr]
    rcases resized_spec (th := th) hw hh htw with ⟨e1, e2, e3⟩ | ⟨e1, e2, e3⟩
    · refine ⟨tw / w, ?_, ?_, fun g hg _ => ?_, ?_, ?_⟩
      · rw [div_mul_cancel₀ _ w0.ne']
      · rw [div_mul_eq_mul_div, div_le_iff₀ w0]; linarith
      · rw [le_div_iff₀ w0]; exact hg
      · rw [e1, div_mul_cancel₀ _ w0.ne']; simp
      · rw [e3, div_mul_eq_mul_div]; exact pyround_near _
    · refine ⟨th / h, ?_, ?_, fun g _ hg => ?_, ?_, ?_⟩
      · rw [div_mul_eq_mul_div, div_le_iff₀ h0]; linarith
      · rw [div_mul_cancel₀ _ h0.ne']
      · rw [le_div_iff₀ h0]; exact hg
      · rw [e3, div_mul_eq_mul_div]; exact pyround_near _
      · rw [e1, div_mul_cancel₀ _ h0.ne']; simp

/-- C110: an image with the proportions of the frame fills it -/
theorem C110_fills {w h tw th : Nat} (hw : 0 < w) (hh : 0 < h) (htw : 0 < tw) (hth : 0 < th) (hp : w * th = h * tw) :
    place w h tw th = some (((tw : Int), (th : Int)), (0, 0)) := by
  have h0 : (0 : Rat) < h := by exact_mod_cast hh
  have hq : (w : Rat) * th = h * tw := by exact_mod_cast hp
  have e : resized w h tw th = ((tw : Int), (th : Int)) := by
    rcases resized_spec (th := th) hw hh htw with ⟨e1, e2, e3⟩ | ⟨e1, e2, e3⟩
    · exfalso; linarith
    · refine Prod.ext ?_ e1
      rw [e3]
      have : (th : Rat) * w / h = ((tw : Int) : Rat) := by
        rw [div_eq_iff h0.ne']; push_cast; linarith
      rw [this, pyround_int]
  unfold place
  simp only
  split_ifs with h1 h2
  · rw [h1.1, h1.2]
  · rw [e] at h2; simp only at h2; omega
  · rw [e]
    have z : pyround 0 = 0 := by simpa using pyround_int 0
    simp [z]

/-- C110: it fails exactly if the image has another size and would become narrower or lower than half a pixel -/
theorem C110_refused {w h tw th : Nat} (hw : 0 < w) (hh : 0 < h) (htw : 0 < tw) (hth : 0 < th) :
    place w h tw th = none ↔ (tw : Rat) * h / w ≤ 1 / 2 ∨ (th : Rat) * w / h ≤ 1 / 2 := by
  have w0 : (0 : Rat) < w := by exact_mod_cast hw
  have h0 : (0 : Rat) < h := by exact_mod_cast hh
  have tw1 : (1 : Rat) ≤ tw := by exact_mod_cast htw
  have th1 : (1 : Rat) ≤ th := by exact_mod_cast hth
  have key : ∀ q : Rat, 0 ≤ q → (pyround q ≤ 0 ↔ q ≤ 1 / 2) := by
    intro q hq
    constructor
    · intro hp
      have := (abs_le.1 (pyround_near q)).1
      have h2 : (pyround q : Rat) ≤ 0 := by exact_mod_cast hp
      linarith
    · intro hp
      have hf : ⌊q⌋ = 0 := by rw [Int.floor_eq_iff]; push_cast; constructor <;> linarith
      unfold pyround
      simp only [hf]
      split_ifs with a b c
      · exact le_rfl
      · push_cast at b; linarith
      · exact le_rfl
      · exact absurd rfl c
  by_cases hs : h = th ∧ w = tw
  · obtain ⟨rfl, rfl⟩ := hs
    have e : place w h w h ≠ none := by simp [place]
    refine ⟨fun h => absurd h e, fun hc => ?_⟩
    rw [mul_div_assoc, mul_div_assoc, mul_div_cancel₀ _ w0.ne', mul_div_cancel₀ _ h0.ne'] at hc
    rcases hc with hc | hc <;> linarith
  · have e : place w h tw th = none ↔ (resized w h tw th).1 ≤ 0 ∨ (resized w h tw th).2 ≤ 0 := by
      unfold place
      rw [if_neg hs]
      simp only
      split_ifs with h <;> simp [h]
    rw [e]
    rcases resized_spec (th := th) hw hh htw with ⟨e1, e2, e3⟩ | ⟨e1, e2, e3⟩
    · rw [e1, e3, key _ (by positivity)]
      have a : ¬ ((tw : Int) ≤ 0) := by omega
      have b : ¬ ((th : Rat) * w / h ≤ 1 / 2) := by
        rw [not_le, lt_div_iff₀ h0]; nlinarith
      simp only [a, b, or_false, false_or]
    · rw [e1, e3, key _ (by positivity)]
      have a : ¬ ((th : Int) ≤ 0) := by omega
      have b : ¬ ((tw : Rat) * h / w ≤ 1 / 2) := by
        rw [not_le, lt_div_iff₀ w0]; nlinarith
      simp only [a, b, or_false, false_or]

/-- non-vacuity: an image of 400 by 300 in a frame of 1024 by 768, 1024 by 769, and 100 by 100 -/
example : place 400 300 1024 768 = some ((1024, 768), (0, 0)) ∧ place 400 300 1024 769 = some ((1024, 768), (0, 0)) ∧ place 400 300 100 100 = some ((100, 75), (0, 12)) ∧
    place 300 400 101 103 = some ((77, 103), (12, 0)) := by decide +kernel

/-- an image that is very wide or very high can't be inserted -/
theorem C110_thin_counterexample : place 3000 1 1024 768 = none ∧ place 1 2000 1024 768 = none := by decide +kernel

end Pad
end Verif
