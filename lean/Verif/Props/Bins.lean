import Verif.Props.Percentile
import Mathlib.Data.Rat.Floor

/-! C25: bins and values of a histogram partition the tallies. -/

namespace Verif
namespace Mon

/-- consecutive bins with these boundaries, from a lower bound on -/
def binsFrom : Option Rat → List Rat → List (Option Rat × Option Rat)
  | lb, [] => [(lb, none)]
  | lb, b :: r => (lb, some b) :: binsFrom (some b) r

theorem binsFrom_count (v : Rat) : ∀ (bs : List Rat) (lb : Option Rat), (∀ l ∈ lb, ∀ b ∈ bs, l ≤ b) → bs.Pairwise (· ≤ ·) →
    (binsFrom lb bs).countP (fun b => inBin b.1 b.2 v) = if inBin lb none v then 1 else 0 := by
  intro bs
  induction bs with
  | nil =>
    intro lb _ _
    simp only [binsFrom, List.countP_cons, List.countP_nil, Nat.zero_add]
  | cons b bs ih =>
    intro lb hl hs
    rw [List.pairwise_cons] at hs
    simp only [binsFrom, List.countP_cons]
    rw [ih (some b) (by intro l hl'; cases hl'; exact hs.1) hs.2]
    cases lb with
    | none =>
      by_cases h : v ≤ b
      · simp [inBin, h]
      · simp [inBin, h, not_le.1 h]
    | some l =>
      have := hl l rfl b (by simp)
      by_cases h : v ≤ b
      · simp [inBin, h]
      · have h1 : l < v := lt_of_le_of_lt this (not_le.1 h)
        simp [inBin, h, not_le.1 h, h1]

/-- every number is in exactly one bin -/
theorem one_bin {bs : List Rat} (h : bs.Pairwise (· ≤ ·)) (v : Rat) : (binsFrom none bs).countP (fun b => inBin b.1 b.2 v) = 1 := by
  rw [binsFrom_count v bs none (by simp) h]; simp [inBin]

/-- counting by rows or by columns -/
theorem sum_swap {α β : Type} (R : α → β → Bool) (A : List α) (l : List β) (w : β → Rat) :
    (A.map (fun a => ((l.filter (R a)).map w).sum)).sum = (l.map (fun b => (A.countP (fun a => R a b) : Rat) * w b)).sum := by
  induction A with
  | nil => simp
  | cons a A ih =>
    rw [List.map_cons, List.sum_cons, ih]
    clear ih
    induction l with
    | nil => simp
    | cons b l ih =>
      simp only [List.map_cons, List.sum_cons, List.countP_cons, List.filter_cons] at ih ⊢
      by_cases h : R a b = true
      · simp only [h, if_true, List.map_cons, List.sum_cons] at ih ⊢
        push_cast at ih ⊢
        linarith
      · simp only [h, Bool.false_eq_true, if_false] at ih ⊢
        push_cast at ih ⊢
        linarith

theorem sum_binCounts (B : List (Option Rat × Option Rat)) (l : List Rat) :
    (B.map (fun b => l.countP (inBin b.1 b.2))).sum = (l.map (fun v => B.countP (fun b => inBin b.1 b.2 v))).sum := by
  induction B with
  | nil => simp
  | cons b B ih =>
    rw [List.map_cons, List.sum_cons, ih]
    clear ih
    induction l with
    | nil => simp
    | cons v l ih =>
      simp only [List.map_cons, List.sum_cons, List.countP_cons] at ih ⊢
      omega

/-- the weights of consecutive bins add up to the total weight -/
theorem bins_weight {m : Monitor} {now : Rat} (hso : m.statsOnly = false) (hl : (m.xweight now false true).1.1.length = (m.xweight now false true).1.2.length)
    {bs : List Rat} (hb : bs.Pairwise (· ≤ ·)) : ((binsFrom none bs).map (fun b => m.binWeight now b.1 b.2)).sum = m.sysWeight now false := by
  unfold Monitor.binWeight Monitor.sysWeight
  rw [hso]
  simp only [Bool.false_eq_true, if_false]
  rw [sum_swap (fun (b : Option Rat × Option Rat) (p : Rat × Rat) => inBin b.1 b.2 p.1)]
  have e : ((nums (m.xweight now false true).1.1).zip (m.xweight now false true).1.2).map (fun p => ((binsFrom none bs).countP (fun b => inBin b.1 b.2 p.1) : Rat) * p.2) =
      ((nums (m.xweight now false true).1.1).zip (m.xweight now false true).1.2).map (·.2) := by
    apply List.map_congr_left
    intro p _
    rw [one_bin hb]; simp
  rw [e, List.map_snd_zip (by unfold nums; rw [List.length_map]; omega)]

/-- C25 for level monitors: after any history the durations of consecutive bins add up to the duration -/
theorem C25_duration {ty : XType} {v : Option Val} {b : Bool} {t0 now : Rat} {h : List (Rat × Op)} (ha : ty.accepts (v.getD (.num 0)) = true)
    (hno : v.getD (.num 0) ≠ ty.off) (hc : Chrono t0 h now) (hf : ∀ e ∈ h, Fine ty e.2) {bs : List Rat} (hb : bs.Pairwise (· ≤ ·)) :
    let m := (create true v ty false b t0).1.run h
    ((binsFrom none bs).map (fun b => m.binWeight now b.1 b.2)).sum = m.sysWeight now false :=
  bins_weight (level_full ha hno hc hf) (level_lengths ha hno hc hf false true) hb

/-- C25 for non level monitors: after any history the weights of consecutive bins add up to the weight -/
theorem C25_weight (ty : XType) (b : Bool) (t0 : Rat) (h : List (Rat × Op)) (hf : ∀ e ∈ h, FineN ty e.2) (now : Rat) {bs : List Rat} (hb : bs.Pairwise (· ≤ ·)) :
    let m := (create false none ty false b t0).1.run h
    ((binsFrom none bs).map (fun b => m.binWeight now b.1 b.2)).sum = m.sysWeight now false := by
  obtain ⟨Z, hB, _⟩ := simN_run (simN_create ty b t0) hf
  refine bins_weight hB.2.1 ?_ hb
  rw [C21_plain]
  exact (hB.fresh now false).len

/-- C25 for non level monitors, whatever is stored: the numbers of entries of consecutive bins add up to the number of entries -/
theorem C25_entries {m : Monitor} {now : Rat} {ex0 : Bool} {n : Nat} (hn : m.numberOfEntries now ex0 = .ok n) (hso : m.statsOnly = false)
    {bs : List Rat} (hb : bs.Pairwise (· ≤ ·)) :
    ∃ f : Option Rat × Option Rat → Nat, (∀ b, m.binEntries now b.1 b.2 ex0 = .ok (f b)) ∧ ((binsFrom none bs).map f).sum = n := by
  unfold Monitor.numberOfEntries at hn
  split at hn
  · cases hn
  · rename_i hlev
    rw [hso] at hn
    simp only [Bool.false_eq_true, if_false, Except.ok.injEq] at hn
    refine ⟨fun b => (nums (m.xweight now ex0 true).1.1).countP (inBin b.1 b.2), ?_, ?_⟩
    · intro b; unfold Monitor.binEntries; simp [hso, hlev]
    · rw [sum_binCounts]
      have e : (nums (m.xweight now ex0 true).1.1).map (fun v => (binsFrom none bs).countP (fun b => inBin b.1 b.2 v)) = (nums (m.xweight now ex0 true).1.1).map (fun _ => 1) := by
        apply List.map_congr_left
        intro v _
        exact one_bin hb v
      rw [e]
      simp only [List.map_const', List.sum_replicate, smul_eq_mul, mul_one]
      unfold nums; rw [List.length_map]; exact hn

/-- the bins of a printed histogram are consecutive, with boundaries lowerbound, lowerbound + width, ... -/
theorem histogramBins_eq (lb w : Rat) (n : Nat) : histogramBins lb w n = binsFrom none ((List.range (n + 1)).map (fun i : Nat => lb + (i : Rat) * w)) := by
  have key : ∀ n (k : Nat), binsFrom (some (lb + (k : Rat) * w)) ((List.range n).map (fun i : Nat => lb + ((k + i + 1 : Nat) : Rat) * w)) =
      (List.range n).map (fun i : Nat => (some (lb + ((k + i : Nat) : Rat) * w), some (lb + ((k + i + 1 : Nat) : Rat) * w))) ++ [(some (lb + ((k + n : Nat) : Rat) * w), none)] := by
    intro n
    induction n with
    | zero => intro k; simp [binsFrom]
    | succ n ih =>
      intro k
      rw [List.range_succ_eq_map]
      simp only [List.map_cons, List.map_map, binsFrom, List.cons_append]
      have := ih (k + 1)
      simp only [Nat.add_zero]
      congr 1
      have e1 : ((fun i : Nat => lb + ((k + i + 1 : Nat) : Rat) * w) ∘ Nat.succ) = (fun i : Nat => lb + ((k + 1 + i + 1 : Nat) : Rat) * w) := by
        funext i; simp only [Function.comp]; congr 3; omega
      have e2 : ((fun i : Nat => (some (lb + ((k + i : Nat) : Rat) * w), some (lb + ((k + i + 1 : Nat) : Rat) * w))) ∘ Nat.succ) =
          (fun i : Nat => (some (lb + ((k + 1 + i : Nat) : Rat) * w), some (lb + ((k + 1 + i + 1 : Nat) : Rat) * w))) := by
        funext i; simp only [Function.comp]; congr 4 <;> (congr 1; omega)
      rw [e1, e2, this]
      rw [show k + 1 + n = k + (n + 1) by omega]
  unfold histogramBins
  rw [List.range_succ_eq_map]
  simp only [List.map_cons, List.map_map, binsFrom, Nat.cast_zero, zero_mul, add_zero]
  congr 1
  have h0 := key n 0
  simp only [Nat.cast_zero, zero_mul, add_zero, Nat.zero_add] at h0
  have e1 : ((fun i : Nat => lb + (i : Rat) * w) ∘ Nat.succ) = (fun i : Nat => lb + ((i + 1 : Nat) : Rat) * w) := by
    funext i; rfl
  rw [e1, h0]
  congr 1
  apply List.map_congr_left
  intro i _
  push_cast
  rfl

theorem histogram_ascending {lb w : Rat} (hw : 0 ≤ w) (n : Nat) : ((List.range (n + 1)).map (fun i : Nat => lb + (i : Rat) * w)).Pairwise (· ≤ ·) := by
  rw [List.pairwise_map]
  refine List.pairwise_lt_range.imp ?_
  intro a b hab
  have : (a : Rat) ≤ b := by exact_mod_cast hab.le
  have := mul_le_mul_of_nonneg_right this hw
  linarith

/-- C25: what is printed in a histogram of a level monitor adds up to the duration, for any lowerbound, number of bins and bin width that is not negative -/
theorem C25_histogram_duration {ty : XType} {v : Option Val} {b : Bool} {t0 now : Rat} {h : List (Rat × Op)} (ha : ty.accepts (v.getD (.num 0)) = true)
    (hno : v.getD (.num 0) ≠ ty.off) (hc : Chrono t0 h now) (hf : ∀ e ∈ h, Fine ty e.2) (lb w : Rat) (hw : 0 ≤ w) (n : Nat) :
    let m := (create true v ty false b t0).1.run h
    ((histogramBins lb w n).map (fun b => m.binWeight now b.1 b.2)).sum = m.sysWeight now false := by
  rw [histogramBins_eq]; exact C25_duration ha hno hc hf (histogram_ascending hw n)

/-- C25: what is printed in a histogram of a non level monitor adds up to the weight, respectively the number of entries -/
theorem C25_histogram (ty : XType) (b : Bool) (t0 : Rat) (h : List (Rat × Op)) (hf : ∀ e ∈ h, FineN ty e.2) (now : Rat) (lb w : Rat) (hw : 0 ≤ w) (n : Nat) :
    let m := (create false none ty false b t0).1.run h
    ((histogramBins lb w n).map (fun b => m.binWeight now b.1 b.2)).sum = m.sysWeight now false ∧
    ∀ ex0 k, m.numberOfEntries now ex0 = .ok k →
      ∃ f : Option Rat × Option Rat → Nat, (∀ b, m.binEntries now b.1 b.2 ex0 = .ok (f b)) ∧ ((histogramBins lb w n).map f).sum = k := by
  rw [histogramBins_eq]
  refine ⟨C25_weight ty b t0 h hf now (histogram_ascending hw n), fun ex0 k hk => C25_entries hk ?_ (histogram_ascending hw n)⟩
  obtain ⟨Z, hB, _⟩ := simN_run (simN_create ty b t0) hf
  exact hB.2.1

/-! ### the values -/

theorem unique_spec : ∀ (xs acc : List Val), acc.Nodup → (unique acc xs).Nodup ∧ ∀ v, v ∈ unique acc xs ↔ v ∈ acc ∨ v ∈ xs := by
  intro xs
  induction xs with
  | nil => intro acc h; exact ⟨h, by simp [unique]⟩
  | cons x xs ih =>
    intro acc h
    simp only [unique]
    by_cases hx : x ∈ acc
    · rw [if_pos (by simpa using hx)]
      refine ⟨(ih acc h).1, fun v => ?_⟩
      rw [(ih acc h).2]
      constructor
      · rintro (h | h)
        · exact Or.inl h
        · exact Or.inr (by simp [h])
      · rintro (h | h)
        · exact Or.inl h
        · rcases List.mem_cons.1 h with rfl | h
          · exact Or.inl hx
          · exact Or.inr h
    · rw [if_neg (by simpa using hx)]
      have hn : (acc ++ [x]).Nodup := by
        rw [List.nodup_append]
        exact ⟨h, by simp, by intro a ha b hb; simp at hb; subst hb; rintro rfl; exact hx ha⟩
      refine ⟨(ih _ hn).1, fun v => ?_⟩
      rw [(ih _ hn).2]
      simp [or_assoc]

/-- each value is found in exactly one of the unique values -/
theorem one_value {U : List Val} (hU : U.Nodup) {v : Val} (hv : v ∈ U) : U.countP (fun u => [u].contains v) = 1 := by
  have e : U.countP (fun u => [u].contains v) = U.count v := by
    unfold List.count
    congr 1
    funext u
    simp only [List.contains_cons, List.contains_nil, Bool.or_false]
    exact BEq.comm
  rw [e, List.count_eq_one_of_mem hU hv]

/-- C25 for the values of a level monitor, after any history: each value of the signal is in values() exactly once, and the durations of the values add up to
the total duration -/
theorem C25_values_duration {ty : XType} {v : Option Val} {b : Bool} {t0 now : Rat} {h : List (Rat × Op)} (ha : ty.accepts (v.getD (.num 0)) = true)
    (hno : v.getD (.num 0) ≠ ty.off) (hc : Chrono t0 h now) (hf : ∀ e ∈ h, Fine ty e.2) :
    let m := (create true v ty false b t0).1.run h
    (m.uniqueValues now false false).Nodup ∧ ((m.uniqueValues now false false).map (fun u => m.valueWeight now [u])).sum = m.sysWeight now false := by
  intro m
  have hs := unique_spec (m.xweight now false false).1.1 [] List.nodup_nil
  refine ⟨hs.1, ?_⟩
  have hl := level_lengths (b := b) ha hno hc hf false false
  have h1 := level_sum (b := b) ha hno hc hf false false (fun _ => 1)
  rw [wsum_one hl] at h1
  have h2 := level_sum (b := b) ha hno hc hf false true (fun _ => 1)
  rw [wsum_one (level_lengths ha hno hc hf false true)] at h2
  have hso : m.statsOnly = false := level_full ha hno hc hf
  have hw : ∀ fn, weigh ty false fn (fun _ => 1) = fun v => if v ≠ ty.off then 1 else 0 := by
    intro fn
    funext v
    have h3 : (seen ty fn v = ty.off) = (v = ty.off) := by
      unfold seen
      cases fn <;> cases ty <;> cases v <;> simp [XType.coded, XType.off, Val.force]
    unfold weigh counts
    simp [h3]
  rw [hw] at h1 h2
  have : m.sysWeight now false = (m.xweight now false false).1.2.sum := by
    unfold Monitor.sysWeight
    rw [hso]
    simp only [Bool.false_eq_true, if_false]
    exact h2.trans h1.symm
  rw [this]
  unfold Monitor.valueWeight Monitor.uniqueValues
  simp only
  rw [sum_swap (fun (u : Val) (p : Val × Rat) => [u].contains p.1)]
  have e : ((m.xweight now false false).1.1.zip (m.xweight now false false).1.2).map (fun p => ((unique [] (m.xweight now false false).1.1).countP (fun u => [u].contains p.1) : Rat) * p.2) =
      ((m.xweight now false false).1.1.zip (m.xweight now false false).1.2).map (·.2) := by
    apply List.map_congr_left
    intro p hp
    rw [one_value hs.1 ((hs.2 p.1).2 (Or.inr (List.of_mem_zip (a := p.1) (b := p.2) hp).1))]
    simp
  rw [e, List.map_snd_zip (by exact le_of_eq hl.symm)]

/-- C25 for the values of a non level monitor, whatever is stored: the numbers of entries of the values add up to the number of entries (that are stored) -/
theorem C25_values_entries {m : Monitor} {now : Rat} (hso : m.statsOnly = false) (hlev : m.level = false) :
    (m.uniqueValues now false false).Nodup ∧
    ∃ f : Val → Nat, (∀ u, m.valueEntries now [u] = .ok (f u)) ∧ ((m.uniqueValues now false false).map f).sum = (m.xweight now false false).1.1.length := by
  have hs := unique_spec (m.xweight now false false).1.1 [] List.nodup_nil
  refine ⟨hs.1, fun u => (m.xweight now false false).1.1.countP (fun v => [u].contains v), ?_, ?_⟩
  · intro u; unfold Monitor.valueEntries; simp [hso, hlev]
  · unfold Monitor.uniqueValues
    generalize hX : (m.xweight now false false).1.1 = X at hs ⊢
    have hsw : ∀ (U : List Val) (l : List Val), (U.map (fun u => l.countP (fun v => [u].contains v))).sum = (l.map (fun v => U.countP (fun u => [u].contains v))).sum := by
      intro U l
      induction U with
      | nil => simp
      | cons b B ih =>
        rw [List.map_cons, List.sum_cons, ih]
        clear ih
        induction l with
        | nil => simp
        | cons v l ih =>
          simp only [List.map_cons, List.sum_cons, List.countP_cons] at ih ⊢
          omega
    rw [hsw]
    have e : X.map (fun v => (unique [] X).countP (fun u => [u].contains v)) = X.map (fun _ => 1) := by
      apply List.map_congr_left
      intro v hv
      exact one_value hs.1 ((hs.2 v).2 (Or.inr hv))
    rw [e]
    simp only [List.map_const', List.sum_replicate, smul_eq_mul, mul_one]

/-! ### autoscale -/

theorem scaleFor_covers {xmin xmax w : Rat} (hw : 0 < w) (h : xmin ≤ xmax) :
    (scaleFor xmin xmax w).1 ≤ xmin ∧ xmax ≤ (scaleFor xmin xmax w).1 + ((scaleFor xmin xmax w).2 : Rat) * w ∧ 0 ≤ (scaleFor xmin xmax w).2 := by
  unfold scaleFor
  simp only
  have h1 : ((Rat.floor (xmin / w) : Int) : Rat) ≤ xmin / w := Rat.floor_le _
  have h2 : ((Rat.floor (xmin / w) : Int) : Rat) * w ≤ xmin := by rwa [← le_div_iff₀ hw]
  have h3 : (xmax - ((Rat.floor (xmin / w) : Int) : Rat) * w) / w ≤ (Rat.ceil ((xmax - ((Rat.floor (xmin / w) : Int) : Rat) * w) / w) : Rat) := Rat.le_ceil
  rw [div_le_iff₀ hw] at h3
  refine ⟨h2, by linarith, ?_⟩
  have h4 : (0 : Rat) ≤ (xmax - ((Rat.floor (xmin / w) : Int) : Rat) * w) / w := div_nonneg (by linarith) hw.le
  have h5 : (0 : Rat) ≤ (Rat.ceil ((xmax - ((Rat.floor (xmin / w) : Int) : Rat) * w) / w) : Rat) := le_trans h4 (Rat.le_ceil)
  exact_mod_cast h5

theorem scaleLoop_mem (xmin xmax : Rat) : ∀ l, l ≠ [] → ∃ w ∈ l, scaleLoop xmin xmax l = (w, scaleFor xmin xmax w)
  | [], h => absurd rfl h
  | [w], _ => ⟨w, by simp, rfl⟩
  | w :: w' :: r, _ => by
    simp only [scaleLoop]
    split
    · exact ⟨w, by simp, rfl⟩
    · obtain ⟨u, hu, e⟩ := scaleLoop_mem xmin xmax (w' :: r) (by simp)
      exact ⟨u, by simp only [List.mem_cons] at hu ⊢; tauto, e⟩

/-- C25: if there is something to show, the automatic scale has a positive width and its bins contain all tallied values: the lowerbound is at or below the
minimum and the last boundary is at or above the maximum -/
theorem C25_autoscale {m : Monitor} {now : Rat} {ex0 : Bool} {w lb : Rat} {n : Int} (h : m.autoscale now ex0 = .ok (w, lb, n)) (hs : m.sysWeight now ex0 ≠ 0)
    (hso : m.statsOnly = false) :
    0 < w ∧ 0 ≤ n ∧ ∀ x ∈ nums (m.xweight now ex0 true).1.1, lb ≤ x ∧ x ≤ lb + (n : Rat) * w := by
  unfold Monitor.autoscale at h
  rw [hso] at h
  simp only [Bool.false_eq_true, if_false, hs] at h
  split at h
  · rename_i xmin xmax h1 h2
    unfold Monitor.minimum at h1
    unfold Monitor.maximum at h2
    rw [hso] at h1 h2
    simp only [Bool.false_eq_true, if_false] at h1 h2
    obtain ⟨m1, m2⟩ := minOf_spec h1
    obtain ⟨m3, m4⟩ := maxOf_spec h2
    obtain ⟨u, hu, e⟩ := scaleLoop_mem xmin xmax scales (by decide +kernel)
    rw [e] at h
    cases h
    have hpos : ∀ u ∈ scales, 0 < u := by decide +kernel
    obtain ⟨c1, c2, c3⟩ := scaleFor_covers (hpos w hu) (m2 xmax m3)
    exact ⟨hpos w hu, c3, fun x hx => ⟨le_trans c1 (m2 x hx), le_trans (m4 x hx) c2⟩⟩
  · cases h

/-- a histogram of a level history: 3 bins and the outer two -/
example :
    let m := (create true none .any false true 0).1.run demoHist
    (histogramBins 0 2 2).map (fun b => m.binWeight 8 b.1 b.2) = [3, 0, 3, 0] ∧ m.sysWeight 8 false = 6 ∧
    (m.uniqueValues 8 false false).map (fun u => m.valueWeight 8 [u]) = [3, 3] ∧ m.autoscale 8 false = .ok (1, 0, 4) := by
  decide +kernel

end Mon
end Verif
