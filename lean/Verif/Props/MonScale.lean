import Verif.Props.Bins
import Verif.Props.MonTally
import Verif.Props.MonMerge

/-! C76: the automatic scale of a histogram. C22: which monitors can be merged. -/

namespace Verif
namespace Mon

/-- the bin widths of a histogram: 1, 2, 5, 10, 20, 50, ... up to 5000000000 -/
def IsWidth (w : Rat) : Prop := ∃ i < 10, ∃ d : Rat, (d = 1 ∨ d = 2 ∨ d = 5) ∧ w = d * 10 ^ i

/-- n bins of width w, the first of which starts at lb, a multiple of w, contain the numbers from lo to hi -/
def Spans (lo hi w lb : Rat) (n : Int) : Prop := (∃ k : Int, lb = k * w) ∧ lb ≤ lo ∧ hi ≤ lb + n * w

/-- a proper scale for numbers from lo to hi: nothing is left out, no bins are wasted, at most 30 bins (unless the numbers are too far apart for the widest bins),
and no smaller width would do -/
structure Scaled (lo hi w lb : Rat) (n : Int) : Prop where
  width : IsWidth w
  spans : Spans lo hi w lb n
  low : lo < lb + w
  high : lb + n * w < hi + w
  few : n ≤ 30 ∨ w = 5 * 10 ^ 9
  least : ∀ w', IsWidth w' → w' < w → ∀ lb' n', Spans lo hi w' lb' n' → 30 < n'

theorem scales_width : ∀ w ∈ scales, IsWidth w := by
  intro w hw
  unfold scales at hw
  obtain ⟨i, hi, hw⟩ := List.mem_flatMap.1 hw
  refine ⟨i, List.mem_range.1 hi, ?_⟩
  simp only [List.mem_cons, List.not_mem_nil, or_false] at hw
  rcases hw with h | h | h
  · exact ⟨1, by simp, by rw [h]; ring⟩
  · exact ⟨2, by simp, by rw [h]; ring⟩
  · exact ⟨5, by simp, by rw [h]; ring⟩

theorem width_scales {w : Rat} (h : IsWidth w) : w ∈ scales := by
  obtain ⟨i, hi, d, hd, rfl⟩ := h
  unfold scales
  refine List.mem_flatMap.2 ⟨i, List.mem_range.2 hi, ?_⟩
  simp only [List.mem_cons, List.not_mem_nil, or_false]
  rcases hd with h | h | h <;> subst h
  · left; ring
  · right; left; ring
  · right; right; ring

theorem IsWidth.pos {w : Rat} (h : IsWidth w) : 0 < w := by
  obtain ⟨i, _, d, hd, rfl⟩ := h
  rcases hd with h | h | h <;> subst h <;> positivity

theorem scaleFor_tight {lo hi w : Rat} (hw : 0 < w) (h : lo ≤ hi) :
    Spans lo hi w (scaleFor lo hi w).1 (scaleFor lo hi w).2 ∧ lo < (scaleFor lo hi w).1 + w ∧ (scaleFor lo hi w).1 + (scaleFor lo hi w).2 * w < hi + w := by
  obtain ⟨c1, c2, c3⟩ := scaleFor_covers hw h
  refine ⟨⟨⟨_, rfl⟩, c1, c2⟩, ?_, ?_⟩
  · have h1 : lo / w < (Rat.floor (lo / w) : Rat) + 1 := by have := Rat.lt_floor_add_one (lo / w); push_cast at this; exact this
    rw [div_lt_iff₀ hw] at h1
    unfold scaleFor
    simp only
    linarith
  · unfold scaleFor
    simp only
    have h1 : (Rat.ceil ((hi - (Rat.floor (lo / w) : Rat) * w) / w) : Rat) < (hi - (Rat.floor (lo / w) : Rat) * w) / w + 1 := by
      by_contra hn
      have h2 : (hi - (Rat.floor (lo / w) : Rat) * w) / w ≤ ((Rat.ceil ((hi - (Rat.floor (lo / w) : Rat) * w) / w) - 1 : Int) : Rat) := by push_cast; linarith [not_lt.1 hn]
      have := Rat.ceil_le_iff.2 h2
      omega
    rw [← sub_lt_iff_lt_add, lt_div_iff₀ hw] at h1
    linarith

theorem scaleFor_least {lo hi w lb : Rat} {n : Int} (hw : 0 < w) (h : Spans lo hi w lb n) : (scaleFor lo hi w).2 ≤ n := by
  obtain ⟨⟨k, rfl⟩, h1, h2⟩ := h
  unfold scaleFor
  simp only
  rw [Rat.ceil_le_iff, div_le_iff₀ hw]
  have h3 : k ≤ Rat.floor (lo / w) := by rw [Rat.le_floor_iff, le_div_iff₀ hw]; exact h1
  have h4 : (k : Rat) * w ≤ (Rat.floor (lo / w) : Rat) * w := mul_le_mul_of_nonneg_right (by exact_mod_cast h3) hw.le
  linarith

theorem scaleLoop_first (lo hi : Rat) : ∀ l, l ≠ [] → l.Pairwise (· < ·) → ∃ w ∈ l, scaleLoop lo hi l = (w, scaleFor lo hi w) ∧
    ((scaleFor lo hi w).2 ≤ 30 ∨ l.getLast? = some w) ∧ ∀ u ∈ l, u < w → 30 < (scaleFor lo hi u).2
  | [], h, _ => absurd rfl h
  | [w], _, _ => ⟨w, by simp, rfl, Or.inr rfl, by intro u hu h; simp at hu; subst hu; exact absurd h (lt_irrefl _)⟩
  | w :: v :: r, _, hp => by
    by_cases h : (scaleFor lo hi w).2 ≤ 30
    · refine ⟨w, by simp, by rw [scaleLoop, if_pos h]; simp, Or.inl h, ?_⟩
      intro u hu hlt
      rcases List.mem_cons.1 hu with rfl | hu
      · exact absurd hlt (lt_irrefl _)
      · exact absurd ((List.pairwise_cons.1 hp).1 u hu) (not_lt.2 hlt.le)
    · obtain ⟨x, hx, e, h1, h2⟩ := scaleLoop_first lo hi (v :: r) (by simp) (List.pairwise_cons.1 hp).2
      refine ⟨x, List.mem_cons_of_mem _ hx, by rw [scaleLoop, if_neg h]; exact e; simp, ?_, ?_⟩
      · rcases h1 with h1 | h1
        · exact Or.inl h1
        · right; rw [List.getLast?_cons_cons]; exact h1
      · intro u hu hlt
        rcases List.mem_cons.1 hu with rfl | hu
        · exact not_le.1 h
        · exact h2 u hu hlt

theorem scaleLoop_scaled {lo hi : Rat} (h : lo ≤ hi) : ∃ w lb n, scaleLoop lo hi scales = (w, lb, n) ∧ Scaled lo hi w lb n := by
  obtain ⟨w, hw, e, h1, h2⟩ := scaleLoop_first lo hi scales (by decide +kernel) (by decide +kernel)
  have hw' := scales_width w hw
  obtain ⟨t1, t2, t3⟩ := scaleFor_tight hw'.pos h
  refine ⟨w, _, _, e, hw', t1, t2, t3, ?_, ?_⟩
  · rcases h1 with h1 | h1
    · exact Or.inl h1
    · right
      have : scales.getLast? = some (5 * 10 ^ 9) := by decide +kernel
      rw [this] at h1
      exact (Option.some.inj h1).symm
  · intro w' hw' hlt lb' n' hs
    exact lt_of_lt_of_le (h2 w' (width_scales hw') hlt) (scaleFor_least hw'.pos hs)

theorem autoscale_scaled {m : Monitor} {now : Rat} {ex0 : Bool} (hso : m.statsOnly = false)
    (hl : (m.xweight now ex0 true).1.1.length = (m.xweight now ex0 true).1.2.length) :
    (m.sysWeight now ex0 = 0 → m.autoscale now ex0 = .ok (1, 0, 0)) ∧
    (m.sysWeight now ex0 ≠ 0 → ∃ lo hi w lb n, m.minimum now ex0 = some lo ∧ m.maximum now ex0 = some hi ∧ m.autoscale now ex0 = .ok (w, lb, n) ∧ Scaled lo hi w lb n) := by
  refine ⟨fun h => by unfold Monitor.autoscale; rw [hso]; simp [h], fun hs => ?_⟩
  have hne : nums (m.xweight now ex0 true).1.1 ≠ [] := by
    intro h0
    apply hs
    unfold Monitor.sysWeight
    rw [hso]
    have : (m.xweight now ex0 true).1.1 = [] := by simpa [nums] using h0
    rw [this] at hl
    rw [List.length_eq_zero_iff.1 hl.symm]
    rfl
  obtain ⟨lo, hlo⟩ : ∃ lo, m.minimum now ex0 = some lo := by
    unfold Monitor.minimum; rw [hso]
    cases hx : nums (m.xweight now ex0 true).1.1 with
    | nil => exact absurd hx hne
    | cons a r => exact ⟨_, rfl⟩
  obtain ⟨hi, hhi⟩ : ∃ hi, m.maximum now ex0 = some hi := by
    unfold Monitor.maximum; rw [hso]
    cases hx : nums (m.xweight now ex0 true).1.1 with
    | nil => exact absurd hx hne
    | cons a r => exact ⟨_, rfl⟩
  have hle : lo ≤ hi := by
    unfold Monitor.minimum at hlo
    unfold Monitor.maximum at hhi
    rw [hso] at hlo hhi
    simp only [Bool.false_eq_true, if_false] at hlo hhi
    exact (minOf_spec hlo).2 hi (maxOf_spec hhi).1
  obtain ⟨w, lb, n, e, hsc⟩ := scaleLoop_scaled hle
  refine ⟨lo, hi, w, lb, n, hlo, hhi, ?_, hsc⟩
  unfold Monitor.autoscale
  rw [hso, hlo, hhi]
  simp [hs, e]

/-- C76 for level monitors: after any history the automatic scale of the histogram is found; if the monitor was on for some time (apart from the zeros if ex0), it
is a proper scale from the minimum to the maximum -/
theorem C76_level {ty : XType} {v : Option Val} {b : Bool} {t0 now : Rat} {h : List (Rat × Op)} (ha : ty.accepts (v.getD (.num 0)) = true)
    (hno : v.getD (.num 0) ≠ ty.off) (hc : Chrono t0 h now) (hf : ∀ e ∈ h, Fine ty e.2) (ex0 : Bool) :
    let m := (create true v ty false b t0).1.run h
    (m.sysWeight now ex0 = 0 → m.autoscale now ex0 = .ok (1, 0, 0)) ∧
    (m.sysWeight now ex0 ≠ 0 → ∃ lo hi w lb n, m.minimum now ex0 = some lo ∧ m.maximum now ex0 = some hi ∧ m.autoscale now ex0 = .ok (w, lb, n) ∧ Scaled lo hi w lb n) :=
  autoscale_scaled (level_full ha hno hc hf) (level_lengths ha hno hc hf ex0 true)

/-- C76 for non level monitors: after any history the automatic scale of the histogram is found; if there are tallies that count, it is a proper scale for them -/
theorem C76_plain (ty : XType) (b : Bool) (t0 : Rat) {h : List (Rat × Op)} (hf : ∀ e ∈ h, FineN ty e.2) (now : Rat) (ex0 : Bool) :
    let m := (create false none ty false b t0).1.run h
    let E := entries ex0 (tallies b h)
    (E = [] → m.autoscale now ex0 = .ok (1, 0, 0)) ∧
    (E ≠ [] → ∃ w lb n, m.autoscale now ex0 = .ok (w, lb, n) ∧ (∀ e ∈ E, lb ≤ e.1 ∧ e.1 ≤ lb + n * w) ∧ ∃ lo ∈ E, ∃ hi ∈ E, Scaled lo.1 hi.1 w lb n) := by
  intro m E
  obtain ⟨hL, hS, hP⟩ := tally_core ty b t0 hf now
  obtain ⟨hP, hpos⟩ := hP ex0
  have hP : IsPairs (m.xweight now ex0 true).1 E := hP
  obtain ⟨a1, a2⟩ := autoscale_scaled (m := m) (now := now) (ex0 := ex0) hL.2.1 hP.len
  obtain ⟨_, c2, _, c4⟩ := C56_statistics ty false b t0 hf now ex0
  constructor
  · intro hE
    refine a1 ?_
    rw [show m.sysWeight now ex0 = _ from c2]
    show total _ E = 0
    rw [hE]; rfl
  · intro hE
    have hW : m.sysWeight now ex0 ≠ 0 := by
      rw [show m.sysWeight now ex0 = _ from c2]
      exact (psum_pos' hpos hE).ne'
    obtain ⟨lo, hi, w, lb, n, h1, h2, h3, h4⟩ := a2 hW
    obtain ⟨_, _, ⟨lo', d1, ⟨p, hp, d2⟩, d3⟩, hi', d4, ⟨r, hr, d5⟩, d6⟩ := c4 hE
    have e1 : lo = lo' := Option.some.inj (h1.symm.trans d1)
    have e2 : hi = hi' := Option.some.inj (h2.symm.trans d4)
    subst e1 e2
    refine ⟨w, lb, n, h3, fun e he => ⟨le_trans h4.spans.2.1 (d3 e he), le_trans (d6 e he) h4.spans.2.2⟩, p, hp, r, hr, ?_⟩
    rw [d2, d5]
    exact h4

/-- tallies of 3 and 250: bins of width 10 from 0 on; with width 5 there would be 50 -/
example :
    let h : List (Rat × Op) := [(1, .tally (.num 3) 1), (2, .tally (.num 250) 1), (2, .tally (.num 0) 1)]
    (∀ e ∈ h, FineN .any e.2) ∧ entries true (tallies true h) = [(3, 1), (250, 1)] ∧
      ((create false none .any false true 0).1.run h).autoscale 5 true = .ok (10, 0, 25) := by
  refine ⟨?_, by decide +kernel, by decide +kernel⟩
  intro e he
  simp only [List.mem_cons, List.not_mem_nil, or_false] at he
  rcases he with rfl | rfl | rfl <;> exact ⟨by decide +kernel, rfl, by decide⟩

/-- a level history -/
example : ((create true none .any false true 0).1.run demoHist).autoscale 8 false = .ok (1, 0, 4) ∧ ((create true none .any false true 0).1.run demoHist).sysWeight 8 false ≠ 0 := by
  decide +kernel

/-! ### which monitors can be merged -/

theorem levelRound_values {f : List Val → Val} {P : Val → Prop} (hf : ∀ c, P (f c)) (es : List (Rat × Nat × Val)) :
    ∀ s : List Val × List Val × List Rat, (∀ v ∈ s.2.1, P v) → ∀ v ∈ (es.foldl (levelRound f) s).2.1, P v := by
  induction es with
  | nil => intro s h; exact h
  | cons e es ih =>
    intro s h
    rw [List.foldl_cons]
    refine ih _ ?_
    intro v hv
    unfold levelRound at hv
    simp only at hv
    split at hv
    · rcases List.mem_append.1 hv with hv | hv
      · exact h v (List.dropLast_subset _ hv)
      · rw [List.mem_singleton.1 hv]; exact hf _
    · rcases List.mem_append.1 hv with hv | hv
      · exact h v hv
      · rw [List.mem_singleton.1 hv]; exact hf _

/-- C22, which level monitors can be merged: those of type any, float or double (also of different types, as the result is of type any then); monitors that are
stats_only cannot be merged, nor can a level monitor and a non level monitor -/
theorem C22_merges (now : Rat) (m : Monitor) (ms : List Monitor) :
    ((∀ k ∈ m :: ms, ∃ L, LevelOk now k.xtype k L) → mergedType m.xtype ms ∈ [XType.any, .float, .double] → ∃ new, merge now m ms = .ok new) ∧
    ((∃ k ∈ m :: ms, k.statsOnly = true) → ∀ new, merge now m ms ≠ .ok new) ∧
    ((∃ k ∈ m :: ms, ∃ l ∈ m :: ms, k.level = true ∧ l.level = false) → ∀ new, merge now m ms ≠ .ok new) := by
  refine ⟨?_, ?_, ?_⟩
  · intro hok hty
    unfold merge
    rw [if_neg, if_neg]
    · have hlev : m.level = true := by obtain ⟨L, hL⟩ := hok m (by simp); exact hL.level
      simp only [hlev, if_true]
      rw [if_neg]
      · exact ⟨_, rfl⟩
      · simp only [List.any_eq_true, not_exists, not_and, Bool.not_eq_true, Bool.not_eq_false']
        refine levelRound_values (P := fun v => (mergedType m.xtype ms).accepts v = true) ?_ _ _ (by simp)
        intro c
        unfold sumOrOff
        split <;> revert hty <;> cases mergedType m.xtype ms <;> simp [XType.coded, XType.accepts, XType.off]
    · simp only [List.any_eq_true, not_exists, not_and]
      intro k hk
      obtain ⟨L, hL⟩ := hok m (by simp)
      obtain ⟨L', hL'⟩ := hok k (by simp [hk])
      rw [hL.level, hL'.level]; simp
    · simp only [List.any_eq_true, not_exists, not_and]
      intro k hk
      obtain ⟨L, hL⟩ := hok k hk
      rw [hL.full]; simp
  · rintro ⟨k, hk, h⟩ new
    unfold merge
    rw [if_pos (List.any_eq_true.2 ⟨k, hk, h⟩)]
    simp
  · rintro ⟨k, hk, l, hl, h1, h2⟩ new
    unfold merge
    split
    · simp
    · rw [if_pos]
      · simp
      · rw [List.any_eq_true]
        rcases List.mem_cons.1 hk with rfl | hk
        · rcases List.mem_cons.1 hl with rfl | hl
          · rw [h1] at h2; simp at h2
          · exact ⟨l, hl, by rw [h1, h2]; rfl⟩
        · by_cases hm : m.level = true
          · rcases List.mem_cons.1 hl with rfl | hl
            · rw [hm] at h2; simp at h2
            · exact ⟨l, hl, by rw [hm, h2]; rfl⟩
          · exact ⟨k, hk, by rw [h1, Bool.eq_false_iff.2 hm]; rfl⟩

/-- two level monitors of different types, and two that cannot be merged -/
example :
    let a := (create true (some (.num 1)) .float false true 0).1
    let b := (create true (some (.num 10)) .any false true 0).1
    let c := (create false none .any false true 0).1
    mergedType a.xtype [b] = .any ∧ (merge 8 a [b]).isOk = true ∧ (merge 8 a [c]).isOk = false := by decide +kernel

end Mon
end Verif
