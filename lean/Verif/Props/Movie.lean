import Verif.Movie
import Mathlib.Algebra.Order.Floor.Ring
import Mathlib.Algebra.BigOperators.Group.List.Basic
import Mathlib.Tactic.FieldSimp
import Mathlib.Tactic.Linarith
import Mathlib.Tactic.Ring
import Mathlib.Tactic.NormNum

/-!
# C108: animated images
-/

namespace Verif
namespace Movie

/-- how long one round takes -/
def round (p : Play) (stop : Rat) : Rat := if p.pingpong then 2 * (stop - p.start) else stop - p.start

/-- where the movie is, `r` after the beginning of a round: forward, and with pingpong backward in the second half -/
def spot (p : Play) (stop r : Rat) : Rat := if p.pingpong = true ∧ stop - p.start < r then stop - (r - (stop - p.start)) else p.start + r

/-- the part that is asked for is a part of the movie that ends at `stop` -/
def Valid (ds : List Rat) (p : Play) (stop : Rat) : Prop :=
  (p.stop = (stop : WithTop Rat) ∨ (p.stop = ⊤ ∧ stop = ds.sum)) ∧ 0 ≤ p.start ∧ p.start < stop ∧ stop ≤ ds.sum

theorem pymod_spec {i r : Rat} (n : Nat) (h0 : 0 ≤ r) (h1 : r < i) : pymod (n * i + r) i = r := by
  have hi : 0 < i := lt_of_le_of_lt h0 h1
  have e : (n * i + r) / i = n + r / i := by field_simp
  have f : ⌊(n * i + r) / i⌋ = (n : Int) := by
    rw [e, Int.floor_eq_iff]
    refine ⟨?_, ?_⟩
    · have := div_nonneg h0 hi.le; push_cast; linarith
    · have := (div_lt_one hi).2 h1; push_cast; linarith
  rw [pymod, f]; push_cast; ring

theorem pymod_mem {i : Rat} (hi : 0 < i) (t : Rat) : 0 ≤ pymod t i ∧ pymod t i < i := by
  have h1 := Int.floor_le (t / i)
  have h2 := Int.lt_floor_add_one (t / i)
  rw [le_div_iff₀ hi] at h1
  rw [div_lt_iff₀ hi] at h2
  unfold pymod
  constructor <;> linarith

theorem pymod_add {i : Rat} (hi : 0 < i) (t : Rat) (n : Nat) : pymod (t + n * i) i = pymod t i := by
  have e : (t + n * i) / i = t / i + (n : Int) := by push_cast; field_simp
  unfold pymod
  rw [e, Int.floor_add_intCast]
  push_cast; ring

theorem ends_length (ds : List Rat) (t : Rat) : (ends ds t).length = ds.length := by
  induction ds generalizing t with
  | nil => rfl
  | cons d l ih =>
    cases l with
    | nil => rfl
    | cons e l => rw [ends, List.length_cons, ih, List.length_cons (a := d)]; simp

theorem ends_at (ds : List Rat) (t : Rat) {j : Nat} (hj : j < ds.length) :
    (ends ds t)[j]? = some (if j + 1 < ds.length then ((t + (ds.take (j + 1)).sum : Rat) : WithTop Rat) else ⊤) := by
  induction ds generalizing t j with
  | nil => simp at hj
  | cons d l ih =>
    cases l with
    | nil =>
      have : j = 0 := by simpa using hj
      subst this
      simp [ends]
    | cons e l =>
      have e0 : ends (d :: e :: l) t = ((t + d : Rat) : WithTop Rat) :: ends (e :: l) (t + d) := rfl
      rw [e0]
      cases j with
      | zero => simp
      | succ j =>
        rw [List.getElem?_cons_succ, ih _ (by simpa using hj)]
        simp only [List.length_cons, Nat.add_lt_add_iff_right, List.take_succ_cons, List.sum_cons, add_assoc]
        simp

theorem find_spec (s : Rat) (l : List (WithTop Rat)) (n : Nat) :
    (∀ i, find s l n = some i → n ≤ i ∧ (∃ e, l[i - n]? = some e ∧ (s : WithTop Rat) ≤ e) ∧ ∀ j < i - n, ∀ e, l[j]? = some e → e < (s : WithTop Rat)) ∧
    (find s l n = none → ∀ e ∈ l, e < (s : WithTop Rat)) := by
  induction l generalizing n with
  | nil => simp [find]
  | cons a l ih =>
    rw [find]
    by_cases h : (s : WithTop Rat) ≤ a
    · rw [if_pos h]
      refine ⟨fun i hi => ?_, fun hi => by simp at hi⟩
      simp only [Option.some.injEq] at hi
      subst hi
      exact ⟨le_rfl, ⟨a, by simp, h⟩, fun j hj => by omega⟩
    · rw [if_neg h]
      obtain ⟨h1, h2⟩ := ih (n + 1)
      refine ⟨fun i hi => ?_, fun hi e he => ?_⟩
      · obtain ⟨g1, ⟨e, g2, g3⟩, g4⟩ := h1 i hi
        have hs : i - n = (i - (n + 1)) + 1 := by omega
        refine ⟨by omega, ⟨e, by rw [hs]; simpa using g2, g3⟩, fun j hj e' he' => ?_⟩
        cases j with
        | zero => simp only [List.getElem?_cons_zero, Option.some.injEq] at he'; rw [← he']; exact not_le.1 h
        | succ j => exact g4 j (by omega) e' (by simpa using he')
      · rcases List.mem_cons.1 he with rfl | he
        · exact not_le.1 h
        · exact h2 hi e he

theorem find_frame {ds : List Rat} (h : ds ≠ []) {s : Rat} (hs : s ≤ ds.sum) :
    ∃ i, find s (ends ds 0) 0 = some i ∧ i < ds.length ∧ (∀ j < i, (ds.take (j + 1)).sum < s) ∧ s ≤ (ds.take (i + 1)).sum := by
  have hl : 0 < ds.length := List.length_pos_iff.2 h
  cases hf : find s (ends ds 0) 0 with
  | none =>
    exfalso
    have h1 := (find_spec s (ends ds 0) 0).2 hf
    have h2 := ends_at ds 0 (j := ds.length - 1) (by omega)
    rw [if_neg (by omega)] at h2
    exact absurd (h1 _ (List.mem_of_getElem? h2)) not_top_lt
  | some i =>
    obtain ⟨_, ⟨e, h2, h3⟩, h4⟩ := (find_spec s (ends ds 0) 0).1 i hf
    simp only [Nat.sub_zero] at h2 h4
    have hi : i < ds.length := by
      have := (List.getElem?_eq_some_iff.1 h2).1
      rwa [ends_length] at this
    refine ⟨i, rfl, hi, fun j hj => ?_, ?_⟩
    · have := h4 j hj _ (ends_at ds 0 (by omega))
      rw [if_pos (by omega), zero_add] at this
      exact WithTop.coe_lt_coe.1 this
    · rw [ends_at ds 0 hi] at h2
      by_cases hc : i + 1 < ds.length
      · rw [if_pos hc, zero_add] at h2
        simp only [Option.some.injEq] at h2
        rw [← h2] at h3
        exact WithTop.coe_le_coe.1 h3
      · rw [List.take_of_length_le (by omega)]; exact hs

theorem getImage_valid {ds : List Rat} (h2 : 2 ≤ ds.length) {p : Play} {stop : Rat} (hv : Valid ds p stop) {t : Rat} (ht : 0 ≤ t) :
    getImage ds p t = match moment p stop t with | none => some (none, 0) | some s => (find s (ends ds 0) 0).map (fun i => (some i, (i : Int))) := by
  obtain ⟨v1, v2, v3, v4⟩ := hv
  have hd : duration ds = ds.sum := by rw [duration, if_neg (by omega)]
  have hs : p.stop.untopD (duration ds) = stop := by
    rcases v1 with v1 | ⟨v1, e⟩
    · rw [v1]; simp
    · rw [v1, hd, e]; simp
  rw [getImage, if_neg (by omega), if_neg (not_lt.2 ht)]
  simp only [hs]
  rw [if_neg (not_not.2 ⟨v2, v3⟩), hd, if_neg (not_lt.2 v4)]
  rfl

theorem round_pos {ds : List Rat} {p : Play} {stop : Rat} (hv : Valid ds p stop) : 0 < round p stop := by
  have := hv.2.2.1
  unfold round
  split <;> linarith

theorem moment_spot {ds : List Rat} {p : Play} {stop : Rat} (_ : Valid ds p stop) {t : Rat} (hr : p.repeats = true ∨ t ≤ round p stop) :
    moment p stop t = some (spot p stop (pymod t (round p stop))) := by
  have hc : (!p.repeats && decide (t > round p stop)) = false := by
    rcases hr with h | h
    · simp [h]
    · simp [not_lt.2 h]
  have e : moment p stop t = if (!p.repeats && decide (t > round p stop)) then none else
      some (if p.pingpong then (if pymod t (round p stop) ≤ round p stop / 2 then p.start + pymod t (round p stop) else p.start + round p stop - pymod t (round p stop))
        else p.start + pymod t (round p stop)) := rfl
  rw [e, hc]
  simp only [Bool.false_eq_true, if_false, Option.some.injEq]
  unfold spot
  cases hp : p.pingpong with
  | false => simp
  | true =>
    have hh : round p stop / 2 = stop - p.start := by simp [round, hp]
    rw [hh]
    simp only [if_true, true_and]
    by_cases h : pymod t (round p stop) ≤ stop - p.start
    · rw [if_pos h, if_neg (not_lt.2 h)]
    · rw [if_neg h, if_pos (not_le.1 h)]
      have : round p stop = 2 * (stop - p.start) := by simp [round, hp]
      rw [show p.start + round p stop - pymod t (round p stop) = stop - (pymod t (round p stop) - (stop - p.start)) by rw [this]; ring]

theorem spot_le {ds : List Rat} {p : Play} {stop : Rat} (hv : Valid ds p stop) {r : Rat} (h1 : r < round p stop) : spot p stop r ≤ ds.sum := by
  obtain ⟨_, _, v3, v4⟩ := hv
  unfold spot
  split
  · rename_i h; linarith [h.2]
  · rename_i h
    cases hp : p.pingpong with
    | false => simp only [round, hp] at h1; simp at h1; linarith
    | true => simp only [hp, true_and, not_lt] at h; linarith

/-- **C108.** In the round number `n` (the first one only, unless repeated), `r` after its beginning, the frame is shown that contains the moment of the movie: animation_from + r, and in the
second half with pingpong as much before animation_to. -/
theorem C108_frame {ds : List Rat} (h2 : 2 ≤ ds.length) {p : Play} {stop : Rat} (hv : Valid ds p stop) {r : Rat} (h0 : 0 ≤ r) (h1 : r < round p stop) (n : Nat)
    (hn : n = 0 ∨ p.repeats = true) :
    ∃ i : Nat, getImage ds p (n * round p stop + r) = some (some i, (i : Int)) ∧ i < ds.length ∧ (∀ j < i, (ds.take (j + 1)).sum < spot p stop r) ∧
      spot p stop r ≤ (ds.take (i + 1)).sum := by
  have hp := round_pos hv
  have ht : 0 ≤ n * round p stop + r := add_nonneg (mul_nonneg (Nat.cast_nonneg _) hp.le) h0
  obtain ⟨i, i1, i2⟩ := find_frame (ds := ds) (by intro e; simp [e] at h2) (spot_le hv h1)
  refine ⟨i, ?_, i2⟩
  rw [getImage_valid h2 hv ht, moment_spot hv, pymod_spec n h0 h1]
  · simp [i1]
  · rcases hn with rfl | hn
    · right; simpa using h1.le
    · exact .inl hn

/-- C108: before the start nothing is shown, and neither after the first round, unless repeated -/
theorem C108_nothing {ds : List Rat} (h2 : 2 ≤ ds.length) {p : Play} :
    (∀ t < 0, (getImage ds p t).map (·.1) = some none) ∧
    (∀ stop, Valid ds p stop → p.repeats = false → ∀ t, round p stop < t → (getImage ds p t).map (·.1) = some none) := by
  refine ⟨fun t ht => ?_, fun stop hv hr t ht => ?_⟩
  · rw [getImage, if_neg (by omega), if_pos ht]; rfl
  · rw [getImage_valid h2 hv ((round_pos hv).le.trans ht.le)]
    have e : moment p stop t = none := by
      have : (!p.repeats && decide (t > round p stop)) = true := by simp [hr, ht]
      unfold moment
      exact if_pos this
    rw [e]; rfl

/-- C108: an image with one frame is always shown -/
theorem C108_single (d : Rat) (p : Play) (t : Rat) : getImage [d] p t = some (some 0, 0) := rfl

/-- C108: if repeated, the same frame is shown after any number of rounds -/
theorem C108_repeat {ds : List Rat} (h2 : 2 ≤ ds.length) {p : Play} {stop : Rat} (hv : Valid ds p stop) (hr : p.repeats = true) {t : Rat} (ht : 0 ≤ t) (n : Nat) :
    getImage ds p (t + n * round p stop) = getImage ds p t := by
  have hp := round_pos hv
  have ht' : 0 ≤ t + n * round p stop := add_nonneg ht (mul_nonneg (Nat.cast_nonneg _) hp.le)
  rw [getImage_valid h2 hv ht', getImage_valid h2 hv ht, moment_spot hv (.inl hr), moment_spot hv (.inl hr), pymod_add hp]

/-- C108: with pingpong, the way back shows the same frames as the way forth -/
theorem C108_mirror {ds : List Rat} (h2 : 2 ≤ ds.length) {p : Play} {stop : Rat} (hv : Valid ds p stop) (hp : p.pingpong = true) {u : Rat} (h0 : 0 ≤ u) (h1 : u ≤ stop - p.start) :
    getImage ds p (stop - p.start + u) = getImage ds p (stop - p.start - u) := by
  have hv3 := hv.2.2.1
  have hro : round p stop = 2 * (stop - p.start) := by simp [round, hp]
  rw [getImage_valid h2 hv (by linarith), getImage_valid h2 hv (by linarith), moment_spot hv (.inr (by rw [hro]; linarith)), moment_spot hv (.inr (by rw [hro]; linarith))]
  have m2 : pymod (stop - p.start - u) (round p stop) = stop - p.start - u := by
    have := pymod_spec (i := round p stop) (r := stop - p.start - u) 0 (by linarith) (by rw [hro]; linarith)
    simpa using this
  rw [m2]
  rcases eq_or_lt_of_le h1 with e | h1
  · have m1 : pymod (stop - p.start + u) (round p stop) = 0 := by
      have := pymod_spec (i := round p stop) (r := 0) 1 le_rfl (round_pos hv)
      rw [← this]; congr 1; rw [hro, e]; push_cast; ring
    rw [m1, e, sub_self]
  · have m1 : pymod (stop - p.start + u) (round p stop) = stop - p.start + u := by
      have := pymod_spec (i := round p stop) (r := stop - p.start + u) 0 (by linarith) (by rw [hro]; linarith)
      simpa using this
    rw [m1]
    have e : spot p stop (stop - p.start + u) = spot p stop (stop - p.start - u) := by
      unfold spot
      rw [if_neg (show ¬ (p.pingpong = true ∧ stop - p.start < stop - p.start - u) from fun h => by linarith [h.2])]
      by_cases hu : u = 0
      · subst hu; simp
      · have : 0 < u := lt_of_le_of_ne h0 (Ne.symm hu)
        rw [if_pos ⟨hp, by linarith⟩]; ring
    rw [e]

/-- C108: ValueError is raised exactly if the image is animated and started, and the part that is asked for isn't a part of the movie -/
theorem C108_refused {ds : List Rat} (h : ds ≠ []) (p : Play) (t : Rat) : getImage ds p t = none ↔ 2 ≤ ds.length ∧ 0 ≤ t ∧ ¬ ∃ stop, Valid ds p stop := by
  have hl : 0 < ds.length := List.length_pos_iff.2 h
  constructor
  · intro hn
    by_cases h1 : ds.length = 1
    · rw [getImage, if_pos h1] at hn; simp at hn
    by_cases ht : t < 0
    · rw [getImage, if_neg h1, if_pos ht] at hn; simp at hn
    refine ⟨by omega, not_lt.1 ht, ?_⟩
    rintro ⟨stop, hv⟩
    rw [getImage_valid (by omega) hv (not_lt.1 ht)] at hn
    by_cases hr : p.repeats = true ∨ t ≤ round p stop
    · rw [moment_spot hv hr] at hn
      obtain ⟨i, i1, _⟩ := find_frame h (spot_le hv (pymod_mem (round_pos hv) t).2)
      simp [i1] at hn
    · have hc : (!p.repeats && decide (t > round p stop)) = true := by
        rw [not_or] at hr
        simp [hr.1, not_le.1 hr.2]
      have e : moment p stop t = none := by unfold moment; exact if_pos hc
      rw [e] at hn
      simp at hn
  · rintro ⟨h2, ht, hv⟩
    have hd : duration ds = ds.sum := by rw [duration, if_neg (by omega)]
    rw [getImage, if_neg (by omega), if_neg (not_lt.2 ht)]
    simp only
    split
    · rfl
    · rename_i c1
      split
      · rfl
      · rename_i c2
        exfalso
        apply hv
        rw [not_not] at c1
        rw [hd] at c1 c2
        refine ⟨p.stop.untopD ds.sum, ?_, c1.1, c1.2, not_lt.1 c2⟩
        induction hps : p.stop using WithTop.recTopCoe with
        | top => right; simp
        | coe s => left; simp

/-! ## the screen -/

/-- not after the end -/
def Live (ds : List Rat) (p : Play) (t : Rat) : Prop := ds.length = 1 ∨ t < 0 ∨ p.repeats = true ∨ ∀ stop, Valid ds p stop → t ≤ round p stop

/-- any history of the screen that isn't after the end; the parameters may be different each time -/
inductive Shows (ds : List Rat) : Screen → Prop
  | new : Shows ds ⟨none, none⟩
  | tick {s : Screen} {p : Play} {t : Rat} {r : Option Nat × Int} : Shows ds s → Live ds p t → getImage ds p t = some r → Shows ds (draw s r)

theorem live_result {ds : List Rat} (h : ds ≠ []) {p : Play} {t : Rat} (hl : Live ds p t) {r : Option Nat × Int} (hr : getImage ds p t = some r) :
    r = (none, -1) ∨ ∃ i : Nat, r = (some i, (i : Int)) := by
  have hl0 : 0 < ds.length := List.length_pos_iff.2 h
  by_cases h1 : ds.length = 1
  · rw [getImage, if_pos h1] at hr; right; exact ⟨0, by simpa using hr.symm⟩
  by_cases ht : t < 0
  · rw [getImage, if_neg h1, if_pos ht] at hr; left; simpa using hr.symm
  right
  by_cases hv : ∃ stop, Valid ds p stop
  · obtain ⟨stop, hv⟩ := hv
    have hrep : p.repeats = true ∨ t ≤ round p stop := by
      rcases hl with h | h | h | h
      · exact absurd h h1
      · exact absurd h ht
      · exact .inl h
      · exact .inr (h stop hv)
    rw [getImage_valid (by omega) hv (not_lt.1 ht), moment_spot hv hrep] at hr
    obtain ⟨i, i1, _⟩ := find_frame h (spot_le hv (pymod_mem (round_pos hv) t).2)
    exact ⟨i, by simpa [i1] using hr.symm⟩
  · rw [(C108_refused h p t).2 ⟨by omega, not_lt.1 ht, hv⟩] at hr
    simp at hr

theorem shows_inv {ds : List Rat} (h : ds ≠ []) {s : Screen} (hs : Shows ds s) :
    (s.id = some (-1) → s.frame = none) ∧ ∀ i : Nat, s.id = some (i : Int) → s.frame = some i := by
  induction hs with
  | new => simp
  | @tick s p t r _ hl hr ih =>
    unfold draw
    split
    · exact ih
    · rcases live_result h hl hr with rfl | ⟨i, rfl⟩
      · refine ⟨fun _ => rfl, fun i hi => ?_⟩
        simp only [Option.some.injEq] at hi; omega
      · refine ⟨fun hi => ?_, fun j hj => ?_⟩
        · simp only [Option.some.injEq] at hi; omega
        · simp only [Option.some.injEq] at hj ⊢; omega

/-- C108: although the picture is only made anew if the id has changed, the screen always shows the frame that it should, up to the end -/
theorem C108_screen {ds : List Rat} (h : ds ≠ []) {s : Screen} (hs : Shows ds s) {p : Play} {t : Rat} (hl : Live ds p t) {r : Option Nat × Int} (hr : getImage ds p t = some r) :
    (draw s r).frame = r.1 := by
  unfold draw
  split
  · rename_i e
    rcases live_result h hl hr with rfl | ⟨i, rfl⟩
    · exact (shows_inv h hs).1 e
    · exact (shows_inv h hs).2 i e
  · rfl

/-! ## a concrete case: three frames of 1, 2 and 1 seconds -/

/-- played once, forth and back -/
def demo : Play := ⟨false, true, 0, ⊤⟩

example : Valid [1, 2, 1] demo 4 := ⟨.inr ⟨rfl, by norm_num⟩, by decide +kernel, by decide +kernel, by norm_num⟩
example : getImage [1, 2, 1] demo (7 / 2) = some (some 2, 2) ∧ getImage [1, 2, 1] demo (9 / 2) = some (some 2, 2) ∧ getImage [1, 2, 1] demo 6 = some (some 1, 1) ∧
    getImage [1, 2, 1] ⟨true, false, 1, (3 : Rat)⟩ (13 / 2) = some (some 1, 1) ∧ getImage [1, 2, 1] ⟨true, false, 1, (5 : Rat)⟩ 0 = none := by decide +kernel

/-- a movie that is played once shows its first frame again at the very end -/
theorem C108_end_counterexample : getImage [1, 2, 1] ⟨false, false, 0, ⊤⟩ (7 / 2) = some (some 2, 2) ∧ getImage [1, 2, 1] ⟨false, false, 0, ⊤⟩ 4 = some (some 0, 0) ∧
    getImage [1, 2, 1] ⟨false, false, 0, ⊤⟩ (9 / 2) = some (none, 0) := by decide +kernel

/-- a movie that is played once, forth and back, doesn't disappear after the end: as the empty image has the same id as the first frame, the first frame stays on the screen -/
theorem C108_stays_counterexample : ∃ s, Shows [1, 2, 1] s ∧ s.frame = some 0 ∧ ∃ r, getImage [1, 2, 1] demo 10 = some r ∧ r.1 = none ∧ (draw s r).frame = some 0 :=
  ⟨draw ⟨none, none⟩ (some 0, 0), .tick (p := demo) (t := 1 / 2) .new
    (.inr (.inr (.inr (fun stop hv => by
      rcases hv.1 with h | ⟨_, rfl⟩
      · exact absurd h WithTop.top_ne_coe
      · decide +kernel)))) (by decide +kernel), by decide +kernel, (none, 0), by decide +kernel, rfl, by decide +kernel⟩

end Movie
end Verif
