import Verif.Props.Dist
import Mathlib.Algebra.Order.BigOperators.Group.List

/-!
# Claims about Pdf and CumPdf (C38, C41)
-/

namespace Verif
namespace Distr

/-- what the loop over values and probabilities yields -/
theorem pdfRead_spec {f : Option Rat} {l : List (Item × Rat)} {S : Rat} {m : Mean} {out : List (Item × Rat)} {t : Rat} {mm : Mean}
    (h : pdfRead f l S m = some (out, t, mm)) :
    out.length = l.length ∧ t = S + (l.map Prod.snd).sum ∧
    ∀ i x p, l[i]? = some (x, p) → ∃ y, x.scale f = some y ∧ out[i]? = some (y, S + ((l.map Prod.snd).take (i + 1)).sum) := by
  induction l generalizing S m out t mm with
  | nil => simp only [pdfRead, Option.some.injEq, Prod.mk.injEq] at h; obtain ⟨rfl, rfl, _⟩ := h; simp
  | cons a l ih =>
    obtain ⟨x, p⟩ := a
    simp only [pdfRead] at h
    split at h
    · cases h
    · rename_i y hy
      split at h
      · cases h
      · split at h
        · cases h
        · rename_i l' t' hr
          cases h
          obtain ⟨h1, h2, h3⟩ := ih hr
          refine ⟨by simp [h1], by rw [h2]; simp [add_assoc], ?_⟩
          intro i x' p' hi
          cases i with
          | zero => simp at hi; obtain ⟨rfl, rfl⟩ := hi; exact ⟨y, hy, by simp⟩
          | succ i =>
            simp only [List.getElem?_cons_succ] at hi
            obtain ⟨y', hy', ho⟩ := h3 i x' p' hi
            refine ⟨y', hy', ?_⟩
            rw [List.getElem?_cons_succ, ho, List.map_cons, List.take_succ_cons, List.sum_cons, add_assoc]

theorem PSpec.read_length {spec : PSpec} {xs : List Item} {ps : List Rat} (h : spec.read = some (xs, ps)) : xs.length = ps.length := by
  have hz : ∀ l : List (Item × Rat), (unzipFlat l).1.length = (unzipFlat l).2.length := by
    intro l; induction l with
    | nil => rfl
    | cons a l ih => simp [unzipFlat, ih]
  cases spec with
  | pairs l =>
    simp only [PSpec.read] at h
    split at h
    · cases h
    · have := hz l; simp only [Option.some.injEq] at h; rw [h] at this; exact this
  | odd => cases h
  | lists xs' ps' =>
    simp only [PSpec.read] at h
    split at h
    · cases h
    · rename_i hl; cases h; simpa using hl
  | equal xs' => cases h; simp

/-- the data of a Pdf in terms of the specification -/
theorem pdfNew_spec {spec : PSpec} {f : Option Rat} {o : PdfObj} (h : pdfNew spec f = some o) :
    ∃ xs ps, spec.read = some (xs, ps) ∧ o.pts.length = xs.length ∧ ps.sum ≠ 0 ∧ (o.supportsN = true ↔ ps.drop 1 = ps.dropLast) ∧
      ∀ i x, xs[i]? = some x → ∃ y, x.scale f = some y ∧ o.pts[i]? = some (y, (ps.take (i + 1)).sum / ps.sum) := by
  unfold pdfNew at h
  split at h
  · cases h
  · rename_i xs ps hr
    have hlen := PSpec.read_length hr
    split at h
    · cases h
    · rename_i l t mm hp
      split at h
      · cases h
      · rename_i hne
        cases h
        obtain ⟨h1, h2, h3⟩ := pdfRead_spec hp
        have hps : (xs.zip ps).map Prod.snd = ps := by
          rw [List.map_snd_zip (by omega)]
        rw [hps, zero_add] at h2
        subst h2
        refine ⟨xs, ps, hr, by simp [h1, hlen], hne, by simp, ?_⟩
        intro i x hi
        have hil : i < xs.length := (List.getElem?_eq_some_iff.1 hi).1
        obtain ⟨y, hy, ho⟩ := h3 i x (ps[i]'(by omega)) (by
          rw [List.getElem?_zip_eq_some]
          exact ⟨hi, List.getElem?_eq_getElem _⟩)
        refine ⟨y, hy, ?_⟩
        rw [List.getElem?_map, ho, hps]; simp

theorem pick_spec {r : Rat} {l : List (Item × Rat)} {i : Nat} {y : Item} {c : Rat} (hi : l[i]? = some (y, c)) (hr : r ≤ c)
    (hlt : ∀ j, j < i → ∀ z d, l[j]? = some (z, d) → d < r) : pick r l = y := by
  induction l generalizing i with
  | nil => simp at hi
  | cons a l ih =>
    obtain ⟨x, d⟩ := a
    cases i with
    | zero => simp at hi; obtain ⟨rfl, rfl⟩ := hi; simp [pick, hr]
    | succ i =>
      have := hlt 0 (by omega) x d (by simp)
      rw [pick, if_neg (not_le.2 this)]
      exact ih (i := i) (by simpa using hi) (fun j hj z e hz => hlt (j + 1) (by omega) z e (by simpa using hz))

theorem take_sum_mono {ps : List Rat} (hp : ∀ p ∈ ps, 0 ≤ p) {i j : Nat} (hij : i ≤ j) : (ps.take i).sum ≤ (ps.take j).sum := by
  have : ps.take j = ps.take i ++ (ps.take j).drop i := by
    conv_lhs => rw [← List.take_append_drop i (ps.take j)]
    rw [List.take_take, min_eq_left hij]
  rw [this, List.sum_append]
  have : 0 ≤ ((ps.take j).drop i).sum := by
    apply List.sum_nonneg
    intro x hx
    exact hp x (List.mem_of_mem_take (List.mem_of_mem_drop hx))
  linarith

theorem all_equal_iff (ps : List Rat) : ps.drop 1 = ps.dropLast ↔ ∀ p ∈ ps, ∀ q ∈ ps, p = q := by
  constructor
  · intro h
    have key : ∀ i (hi : i < ps.length), ps[i] = ps[0]'(by omega) := by
      intro i
      induction i with
      | zero => intro hi; rfl
      | succ i ih =>
        intro hi
        have e1 : (ps.drop 1)[i]? = some ps[i + 1] := by rw [List.getElem?_drop, Nat.add_comm 1 i, List.getElem?_eq_getElem hi]
        have e2 : (ps.dropLast)[i]? = some (ps[i]'(by omega)) := by
          rw [List.getElem?_eq_getElem (by rw [List.length_dropLast]; omega), List.getElem_dropLast]
        rw [h, e2] at e1
        rw [← ih (by omega)]
        exact (Option.some.inj e1).symm
    intro p hp q hq
    obtain ⟨i, hi, rfl⟩ := List.getElem_of_mem hp
    obtain ⟨j, hj, rfl⟩ := List.getElem_of_mem hq
    rw [key i hi, key j hj]
  · intro h
    apply List.ext_getElem
    · simp
    · intro i h1 h2
      exact h _ (List.mem_of_mem_drop (List.getElem_mem h1)) _ (List.dropLast_subset _ (List.getElem_mem h2))

/-- C38. Full statement: for every random number in [0,1) the sample is one of the specified values, and the random numbers that give the `i`-th
value form an interval of length `p_i / sum(p)`. That is false for the random number 0 (`C38_zero_counterexample`).
What holds for unequal probabilities: for a random number in `((p_0 + ... + p_(i-1)) / sum, (p_0 + ... + p_i) / sum]` the sample is the `i`-th value
(in the time unit), or, if that is a distribution, a sample of it -/
theorem C38_interval_partial {spec : PSpec} {f : Option Rat} {o : PdfObj} (h : pdfNew spec f = some o) {xs : List Item} {ps : List Rat}
    (hread : spec.read = some (xs, ps)) (hps : ∀ p ∈ ps, 0 ≤ p) (hne : ∃ p ∈ ps, ∃ q ∈ ps, p ≠ q) {i : Nat} {x : Item} (hi : xs[i]? = some x)
    {s : Stream} {k : Nat} (h0 : (ps.take i).sum / ps.sum < s k) (h1 : s k ≤ (ps.take (i + 1)).sum / ps.sum) :
    ∃ y, x.scale f = some y ∧ o.sample1 s k = y.sample s (k + 1) := by
  obtain ⟨xs', ps', hr, hl, hS, hsup, hpt⟩ := pdfNew_spec h
  rw [hread] at hr
  cases hr
  have hSpos : 0 < ps.sum := lt_of_le_of_ne (List.sum_nonneg hps) (Ne.symm hS)
  have hsup' : o.supportsN = false := by
    by_contra hc
    have := (all_equal_iff ps).1 (hsup.1 (by simpa using hc))
    obtain ⟨p, hp, q, hq, hpq⟩ := hne
    exact hpq (this p hp q hq)
  obtain ⟨y, hy, ho⟩ := hpt i x hi
  refine ⟨y, hy, ?_⟩
  have hr0 : 0 < s k := by
    refine lt_of_le_of_lt (div_nonneg ?_ hSpos.le) h0
    exact List.sum_nonneg fun x hx => hps x (List.mem_of_mem_take hx)
  unfold PdfObj.sample1
  rw [hsup']
  simp only [Bool.false_eq_true, if_false]
  have : pick (s k) ((.val (.num 0), 0) :: o.pts) = y := by
    refine pick_spec (i := i + 1) (by simpa using ho) h1 ?_
    intro j hj z d hz
    cases j with
    | zero => simp at hz; rw [← hz.2]; exact hr0
    | succ j =>
      simp only [List.getElem?_cons_succ] at hz
      have hjl : j < o.pts.length := (List.getElem?_eq_some_iff.1 hz).1
      rw [hl] at hjl
      obtain ⟨y', _, ho'⟩ := hpt j xs[j] (List.getElem?_eq_getElem hjl)
      rw [hz] at ho'
      cases ho'
      refine lt_of_le_of_lt ?_ h0
      exact div_le_div_of_nonneg_right (take_sum_mono hps (by omega)) hSpos.le
  rw [this]

/-- C38: the intervals have the right lengths and together are all of (0, 1] -/
theorem C38_lengths {ps : List Rat} (hps : ∀ p ∈ ps, 0 ≤ p) (hS : ps.sum ≠ 0) :
    (∀ i p, ps[i]? = some p → (ps.take (i + 1)).sum / ps.sum - (ps.take i).sum / ps.sum = p / ps.sum) ∧
    ∀ r : Rat, 0 < r → r ≤ 1 → ∃ i, i < ps.length ∧ (ps.take i).sum / ps.sum < r ∧ r ≤ (ps.take (i + 1)).sum / ps.sum := by
  have hSpos : 0 < ps.sum := lt_of_le_of_ne (List.sum_nonneg hps) (Ne.symm hS)
  constructor
  · intro i p hi
    obtain ⟨hil, rfl⟩ := List.getElem?_eq_some_iff.1 hi
    rw [List.take_succ_eq_append_getElem hil, List.sum_append]
    simp [add_div]
  · intro r h0 h1
    have hex : ∃ n, r ≤ (ps.take n).sum / ps.sum := ⟨ps.length, by rw [List.take_length, div_self hS]; exact h1⟩
    classical
    obtain ⟨n, hn, hmin⟩ : ∃ n, r ≤ (ps.take n).sum / ps.sum ∧ ∀ m, m < n → ¬ r ≤ (ps.take m).sum / ps.sum :=
      ⟨Nat.find hex, Nat.find_spec hex, fun m hm => Nat.find_min hex hm⟩
    cases n with
    | zero => simp at hn; linarith
    | succ n =>
      have hlt := hmin n (by omega)
      refine ⟨n, ?_, not_le.1 hlt, hn⟩
      by_contra hge
      apply hlt
      rw [List.take_of_length_le (by omega), div_self hS]; exact h1

theorem below_eq {n i : Nat} {r : Rat} (hn : 0 < n) (h0 : (i : Rat) / n ≤ r) (h1 : r < ((i : Rat) + 1) / n) : below n r = i := by
  have hn' : (0 : Rat) < n := by exact_mod_cast hn
  rw [div_le_iff₀ hn'] at h0
  rw [lt_div_iff₀ hn'] at h1
  unfold below
  have : (r * n).floor = (i : Int) := by
    rw [show (r * n).floor = ⌊r * (n : Rat)⌋ from rfl, Int.floor_eq_iff]
    exact ⟨by push_cast; exact h0, by push_cast; exact h1⟩
  rw [this]; simp

/-- C38: with equal probabilities, for a random number in `[i/n, (i+1)/n)` (length 1/n) the sample is the `i`-th value. A distribution is returned as
it is (`C38_distribution_counterexample`) -/
theorem C38_equal {spec : PSpec} {f : Option Rat} {o : PdfObj} (h : pdfNew spec f = some o) {xs : List Item} {ps : List Rat}
    (hread : spec.read = some (xs, ps)) (heq : ∀ p ∈ ps, ∀ q ∈ ps, p = q) {i : Nat} {v : Val} (hi : xs[i]? = some (.val v))
    {s : Stream} {k : Nat} (h0 : (i : Rat) / xs.length ≤ s k) (h1 : s k < ((i : Rat) + 1) / xs.length) :
    ∃ w, (Item.val v).scale f = some (.val w) ∧ o.sample1 s k = (some w, k + 1) := by
  obtain ⟨xs', ps', hr, hl, hS, hsup, hpt⟩ := pdfNew_spec h
  rw [hread] at hr
  cases hr
  obtain ⟨y, hy, ho⟩ := hpt i _ hi
  have hil : i < xs.length := (List.getElem?_eq_some_iff.1 hi).1
  have hyv : ∃ w, y = .val w := by
    unfold Item.scale at hy
    cases f with
    | none => simp at hy; exact ⟨v, hy.symm⟩
    | some f => cases v <;> simp at hy; exact ⟨_, hy.symm⟩
  obtain ⟨w, rfl⟩ := hyv
  refine ⟨w, hy, ?_⟩
  unfold PdfObj.sample1
  rw [if_pos (hsup.2 ((all_equal_iff ps).2 heq)), hl, below_eq (by omega) h0 h1, ho]
  rfl

/-- C38 fails for the random number 0 (which `random.random()` can give): then the sample is the number 0, although that is not one of the values -/
theorem C38_zero_counterexample :
    ∃ o, pdfNew (.pairs [(.val (.num 1), 30), (.val (.num 2), 70)]) none = some o ∧ o.sample1 (fun _ => 0) 0 = (some (.num 0), 1) := by
  refine ⟨⟨[(.val (.num 1), 3 / 10), (.val (.num 2), 1)], false, .val (17 / 10)⟩, ?_, by decide +kernel⟩
  simp [pdfNew, PSpec.read, unzipFlat, pdfRead, Item.scale, Item.forMean, addMean, meanDiv]
  norm_num

/-- C38 fails for a distribution as value if all probabilities are equal: not a sample of it is returned (as documented), but the distribution -/
theorem C38_distribution_counterexample (d : Dist) (a : Mean) (ha : d.attr = some a) (s : Stream) (h0 : 0 ≤ s 0) (h1 : s 0 < 1) :
    ∃ o, pdfNew (.equal [.dist d]) none = some o ∧ o.sample1 s 0 = (some .obj, 1) := by
  have hr : pdfRead none [(.dist d, (1 : Rat))] 0 (.val 0) = some ([(.dist d, 0 + 1)], 0 + 1, addMean (.val 0) a 1) := by
    simp [pdfRead, Item.scale, Item.forMean, ha]
  refine ⟨⟨[(.dist d, 1)], true, meanDiv (addMean (.val 0) a 1) (0 + 1)⟩, ?_, ?_⟩
  · simp only [pdfNew, PSpec.read, List.length_singleton, List.replicate_one, List.zip_cons_cons, List.zip_nil_right, hr]
    norm_num
  · have : below 1 (s 0) = 0 := below_eq (by omega) (by simpa using h0) (by simpa using h1)
    simp [PdfObj.sample1, this, Item.asIs]

/-- the values as numbers -/
def nums (qs : List Rat) : List Item := qs.map fun q => .val (.num q)

theorem pdfRead_mean {f : Option Rat} {qs ps : List Rat} {S m : Rat} {out : List (Item × Rat)} {t : Rat} {mm : Mean}
    (h : pdfRead f ((nums qs).zip ps) S (.val m) = some (out, t, mm)) :
    mm = .val (m + (List.zipWith (fun q p => q * (f.getD 1) * p) qs ps).sum) := by
  induction qs generalizing ps S m out t mm with
  | nil => simp [nums, pdfRead] at h; simp [h.2.2]
  | cons q qs ih =>
    cases ps with
    | nil => simp [nums, pdfRead] at h; simp [h.2.2]
    | cons p ps =>
      have hs : (Item.val (.num q)).scale f = some (.val (.num (q * f.getD 1))) := by cases f <;> simp [Item.scale]
      simp only [nums, List.map_cons, List.zip_cons_cons, pdfRead, hs, Item.forMean, addMean] at h
      split at h
      · cases h
      · rename_i hr
        cases h
        rw [ih hr]
        simp [add_assoc]

/-- C38: the mean of a Pdf with numbers as values is the mean of the values (in the time unit) weighted with the probabilities -/
theorem C38_mean {spec : PSpec} {f : Option Rat} {o : PdfObj} (h : pdfNew spec f = some o) {qs ps : List Rat} (hread : spec.read = some (nums qs, ps)) :
    o.mean = .val ((List.zipWith (fun q p => q * f.getD 1 * p) qs ps).sum / ps.sum) := by
  unfold pdfNew at h
  rw [hread] at h
  simp only at h
  split at h
  · cases h
  · rename_i hp
    split at h
    · cases h
    · cases h
      have h2 := (pdfRead_spec hp).2.1
      have hlen := PSpec.read_length hread
      rw [List.map_snd_zip (by omega), zero_add] at h2
      rw [pdfRead_mean hp, h2]
      simp [meanDiv]

/-- C38 fails for the mean if a value is a distribution with a time unit: the mean before conversion is taken. Uniform(0, 2) minutes with probability 1/3 and
5 seconds with probability 2/3 has mean (60 + 2 * 5) / 3, but mean() is (1 + 2 * 5) / 3 -/
theorem C38_mean_counterexample :
    ∃ d, uniform 0 (some 2) 60 = some d ∧ d.mean = .val 60 ∧
      (pdfNew (.pairs [(.dist d, 1), (.val (.num 5), 2)]) none).map (·.mean) = some (.val (11 / 3)) := by
  refine ⟨scaled (rUniform 0 2) ((0 + 2) / 2) 60, ?_, ?_, ?_⟩
  · simp [uniform]
  · simp [scaled]
  · simp [pdfNew, PSpec.read, unzipFlat, pdfRead, Item.scale, Item.forMean, scaled, addMean, meanDiv]
    norm_num

/-- red 30%, green 60%, blue 10%: the random number 0.75 gives green -/
example : ((pdfNew (.pairs [(.val (.other 0), 30), (.val (.other 1), 60), (.val (.other 2), 10)]) none).map fun o =>
    (o.sample1 (fun _ => 3 / 4) 0, o.mean)) = some ((some (.other 1), 1), .nan) := by decide +kernel
example : ((pdfNew (.pairs [(.val (.num 5), 30), (.val (.num 8), 60), (.val (.num 2), 10)]) (some 60)).map fun o =>
    (o.sample1 (fun _ => 3 / 4) 0, o.mean)) = some ((some (.num 480), 1), .val 390) := by decide +kernel

/-! ## drawing without replacement -/

theorem perm_set_dropLast {α : Type} {pool : List α} {j : Nat} {x y : α} (hx : pool[j]? = some x) (hy : pool.getLast? = some y) :
    (x :: (pool.set j y).dropLast).Perm pool := by
  obtain ⟨hj, rfl⟩ := List.getElem?_eq_some_iff.1 hx
  obtain ⟨init, rfl⟩ : ∃ init, pool = init ++ [y] := by
    have hne : pool ≠ [] := by rintro rfl; simp at hy
    refine ⟨pool.dropLast, ?_⟩
    have := List.dropLast_append_getLast hne
    rw [List.getLast?_eq_some_getLast hne] at hy
    rw [← Option.some.inj hy, this]
  by_cases hji : j < init.length
  · rw [List.set_append_left _ _ hji, List.dropLast_concat, List.getElem_append_left hji]
    have h1 : init = init.take j ++ init[j] :: init.drop (j + 1) := by
      rw [← List.drop_eq_getElem_cons hji, List.take_append_drop]
    have h2 : init.set j y = init.take j ++ y :: init.drop (j + 1) := List.set_eq_take_append_cons_drop .. |>.trans (by simp [hji])
    rw [h2]
    conv_rhs => rw [h1]
    rw [List.append_assoc, List.cons_append]
    refine List.Perm.trans ?_ (List.perm_middle).symm
    refine List.Perm.cons _ ?_
    refine List.Perm.trans List.perm_middle ?_
    rw [← List.append_assoc]
    exact (List.perm_append_singleton y _).symm
  · have : j = init.length := by simp at hj; omega
    subst this
    rw [List.set_append_right _ _ le_rfl]
    simpa using (List.perm_append_singleton y init).symm

theorem rSample_spec {α : Type} (n : Nat) (pool : List α) (s : Stream) (k : Nat) (hs : ∀ k, 0 ≤ s k ∧ s k < 1) (hn : n ≤ pool.length) :
    (rSample n pool s k).1.length = n ∧ (rSample n pool s k).2 = k + n ∧ ∃ rest, ((rSample n pool s k).1 ++ rest).Perm pool := by
  induction n generalizing pool k with
  | zero => exact ⟨rfl, rfl, pool, List.Perm.refl _⟩
  | succ n ih =>
    have hpos : 0 < pool.length := by omega
    have hb : below pool.length (s k) < pool.length := by
      unfold below
      have h0 := (hs k).1
      have h1 := (hs k).2
      have hp : (0 : Rat) < pool.length := by exact_mod_cast hpos
      have : (s k * pool.length).floor < (pool.length : Int) := by
        rw [show (s k * pool.length).floor = ⌊s k * (pool.length : Rat)⌋ from rfl, Int.floor_lt]
        push_cast
        nlinarith
      omega
    obtain ⟨y, hy⟩ : ∃ y, pool.getLast? = some y := ⟨_, List.getLast?_eq_some_getLast (by rintro rfl; simp at hpos)⟩
    simp only [rSample, List.getElem?_eq_getElem hb, hy]
    have hperm := perm_set_dropLast (List.getElem?_eq_getElem hb) hy
    obtain ⟨h1, h2, rest, h3⟩ := ih ((pool.set (below pool.length (s k)) y).dropLast) (k + 1) (by simp; omega)
    refine ⟨by simp [h1], by rw [h2]; omega, rest, ?_⟩
    exact (List.Perm.cons _ h3).trans hperm

/-- C38: `sample(n)` raises, without using a random number, for a negative `n` and if the probabilities are not all the same -/
theorem C38_refused (o : PdfObj) (n : Int) (s : Stream) (k : Nat) (h : n < 0 ∨ o.supportsN = false) : o.sampleN n s k = (none, k) := by
  unfold PdfObj.sampleN
  rcases h with h | h
  · rw [if_pos h]
    split <;> rfl
  · rw [h]
    rfl

/-- C38: `sample(n)` with equal probabilities gives `n` different ones of the values (all of them if `n` is larger), as many random numbers being used -/
theorem C38_without_replacement {spec : PSpec} {f : Option Rat} {o : PdfObj} (h : pdfNew spec f = some o) {vs : List Val}
    (hv : o.pts.map Prod.fst = vs.map .val) (heq : o.supportsN = true) (n : Nat) (s : Stream) (k : Nat) (hs : ∀ k, 0 ≤ s k ∧ s k < 1) :
    ∃ l rest, o.sampleN n s k = (some l, k + min n vs.length) ∧ l.length = min n vs.length ∧ (l ++ rest).Perm vs := by
  have hlen : o.pts.length = vs.length := by have := congrArg List.length hv; simpa using this
  obtain ⟨h1, h2, rest, h3⟩ := rSample_spec (min n vs.length) (vs.map Item.val) s k hs (by simp)
  unfold PdfObj.sampleN
  rw [if_pos heq, if_neg (by omega), hv, hlen]
  simp only [Int.toNat_natCast]
  revert h1 h2 h3
  rcases rSample (min n vs.length) (vs.map Item.val) s k with ⟨l, k'⟩
  rintro h1 rfl h3
  have hall : ∀ x ∈ l ++ rest, ∃ v, x = Item.val v := by
    intro x hx
    obtain ⟨v, _, rfl⟩ := List.mem_map.1 (h3.mem_iff.1 hx)
    exact ⟨v, rfl⟩
  have hex : ∀ m : List Item, (∀ x ∈ m, ∃ v, x = Item.val v) → ∃ ws : List Val, m = ws.map Item.val := by
    intro m
    induction m with
    | nil => exact fun _ => ⟨[], rfl⟩
    | cons a m ih =>
      intro hm
      obtain ⟨v, rfl⟩ := hm a (by simp)
      obtain ⟨ws, rfl⟩ := ih fun x hx => hm x (by simp [hx])
      exact ⟨v :: ws, rfl⟩
  obtain ⟨ws, rfl⟩ := hex l fun x hx => hall x (by simp [hx])
  obtain ⟨us, rfl⟩ := hex rest fun x hx => hall x (by simp [hx])
  have hsa : ∀ (ws : List Val) (k : Nat), sampleAll (ws.map Item.val) s k = (some ws, k) := by
    intro ws
    induction ws with
    | nil => intro k; rfl
    | cons v ws ih => intro k; simp [sampleAll, Item.sample, ih]
  refine ⟨ws, us, by rw [hsa], by simpa using h1, ?_⟩
  rw [← List.map_append] at h3
  have := h3.map Item.asIs
  rw [List.map_map, List.map_map] at this
  simpa [Function.comp_def, Item.asIs] using this

/-! ## CumPdf -/

theorem cumRead_spec {f : Option Rat} {l : List (Item × Rat)} {S : Rat} {m : Mean} {out : List (Item × Rat)} {t : Rat} {mm : Mean}
    (h : cumRead f l S m = some (out, t, mm)) :
    out.length = l.length ∧ t = ((l.getLast?).map Prod.snd).getD S ∧ (l.Pairwise fun a b => a.2 ≤ b.2) ∧ (∀ a ∈ l, S ≤ a.2) ∧
    ∀ (i : Nat) (x : Item) (c : Rat), l[i]? = some (x, c) → ∃ y, x.scale f = some y ∧ out[i]? = some (y, c) := by
  induction l generalizing S m out t mm with
  | nil => simp only [cumRead, Option.some.injEq, Prod.mk.injEq] at h; obtain ⟨rfl, rfl, _⟩ := h; simp
  | cons a l ih =>
    obtain ⟨x, c⟩ := a
    simp only [cumRead] at h
    split at h
    · cases h
    · rename_i y hy
      split at h
      · cases h
      · rename_i hc
        split at h
        · cases h
        · split at h
          · cases h
          · rename_i l' t' hr
            cases h
            rw [show S + (c - S) = c by ring] at hr ⊢
            obtain ⟨h1, h2, h3, h4, h5⟩ := ih hr
            have hSc : S ≤ c := by linarith
            refine ⟨by simp [h1], ?_, List.pairwise_cons.2 ⟨h4, h3⟩, ?_, ?_⟩
            · rw [h2]
              cases l with
              | nil => simp
              | cons b l =>
                obtain ⟨z, hz⟩ : ∃ z, (b :: l).getLast? = some z := ⟨_, List.getLast?_eq_some_getLast (List.cons_ne_nil _ _)⟩
                rw [List.getLast?_cons_cons, hz]; simp
            · intro a ha
              rcases List.mem_cons.1 ha with rfl | ha
              · exact hSc
              · exact hSc.trans (h4 a ha)
            · intro i x' c' hi
              cases i with
              | zero => simp at hi; obtain ⟨rfl, rfl⟩ := hi; exact ⟨y, hy, by simp⟩
              | succ i => exact h5 i x' c' (by simpa using hi)

/-- C38 for CumPdf: with cumulative probabilities `c_0 <= c_1 <= ...` (others are refused) the sample is the `i`-th value for random numbers in
`(c_(i-1) / c_n, c_i / c_n]` (c_(-1) = 0) -/
theorem C38_cum_partial {spec : List (Item × Rat)} {f : Option Rat} {o : PdfObj} (h : cumNew spec f = some o) {i : Nat} {x : Item} {c : Rat}
    (hi : spec[i]? = some (x, c)) {C : Rat} (hC : (spec.getLast?).map Prod.snd = some C) {s : Stream} {k : Nat}
    (hpos : 0 < s k) (h0 : ∀ y b, i ≠ 0 → spec[i - 1]? = some (y, b) → b / C < s k) (h1 : s k ≤ c / C) :
    (spec.Pairwise fun a b => a.2 ≤ b.2) ∧ 0 < C ∧ ∃ y, x.scale f = some y ∧ o.sample1 s k = y.sample s (k + 1) := by
  unfold cumNew at h
  split at h
  · cases h
  · split at h
    · cases h
    · rename_i l t mm hr
      split at h
      · cases h
      · rename_i hne
        cases h
        obtain ⟨hl, ht, hpw, hge, hpt⟩ := cumRead_spec hr
        rw [hC, Option.getD_some] at ht
        subst ht
        have hCpos : 0 < t := by
          refine lt_of_le_of_ne ?_ (Ne.symm hne)
          obtain ⟨z, hz, rfl⟩ := Option.map_eq_some_iff.1 hC
          exact hge z (List.mem_of_getLast? hz)
        obtain ⟨y, hy, ho⟩ := hpt i x c hi
        refine ⟨hpw, hCpos, y, hy, ?_⟩
        unfold PdfObj.sample1
        simp only [Bool.false_eq_true, if_false]
        have : pick (s k) ((.val (.num 0), 0) :: l.map fun c => (c.1, c.2 / t)) = y := by
          refine pick_spec (i := i + 1) (by simp only [List.getElem?_cons_succ, List.getElem?_map, ho]; rfl) h1 ?_
          intro j hj z d hz
          cases j with
          | zero => simp at hz; rw [← hz.2]; exact hpos
          | succ j =>
            simp only [List.getElem?_cons_succ, List.getElem?_map] at hz
            obtain ⟨⟨z', d'⟩, hz', he⟩ := Option.map_eq_some_iff.1 hz
            cases he
            have hjl : j < spec.length := by rw [← hl]; exact (List.getElem?_eq_some_iff.1 hz').1
            obtain ⟨y', _, ho'⟩ := hpt j (spec[j]).1 (spec[j]).2 (by rw [List.getElem?_eq_getElem hjl])
            rw [hz'] at ho'
            simp only [Option.some.injEq, Prod.mk.injEq] at ho'
            rw [ho'.2]
            have hi1 : i - 1 < spec.length := by have := (List.getElem?_eq_some_iff.1 hi).1; omega
            refine lt_of_le_of_lt ?_ (h0 (spec[i - 1]).1 (spec[i - 1]).2 (by omega) (by rw [List.getElem?_eq_getElem hi1]))
            refine div_le_div_of_nonneg_right ?_ hCpos.le
            rcases eq_or_lt_of_le (show j ≤ i - 1 by omega) with rfl | hlt
            · exact le_rfl
            · exact List.pairwise_iff_getElem.1 hpw j (i - 1) hjl hi1 hlt
        rw [this]

theorem cumRead_mean {f : Option Rat} {qs cs : List Rat} {S m : Rat} {out : List (Item × Rat)} {t : Rat} {mm : Mean}
    (h : cumRead f ((nums qs).zip cs) S (.val m) = some (out, t, mm)) :
    mm = .val (m + (List.zipWith (fun q p => q * (f.getD 1) * p) qs (List.zipWith (fun a b => b - a) (S :: cs) cs)).sum) := by
  induction qs generalizing cs S m out t mm with
  | nil => simp [nums, cumRead] at h; simp [h.2.2]
  | cons q qs ih =>
    cases cs with
    | nil => simp [nums, cumRead] at h; simp [h.2.2]
    | cons c cs =>
      have hs : (Item.val (.num q)).scale f = some (.val (.num (q * f.getD 1))) := by cases f <;> simp [Item.scale]
      simp only [nums, List.map_cons, List.zip_cons_cons, cumRead, hs, Item.forMean, addMean] at h
      split at h
      · cases h
      · split at h
        · cases h
        · rename_i hr
          cases h
          rw [show S + (c - S) = c by ring] at hr
          rw [ih hr]
          simp [add_assoc]

/-- C38: the mean of a CumPdf: each value counts with the increase of the cumulative probability -/
theorem C38_cum_mean {qs cs : List Rat} {f : Option Rat} {o : PdfObj} (h : cumNew ((nums qs).zip cs) f = some o) (hlen : qs.length = cs.length)
    {C : Rat} (hC : cs.getLast? = some C) :
    o.mean = .val ((List.zipWith (fun q p => q * f.getD 1 * p) qs (List.zipWith (fun a b => b - a) (0 :: cs) cs)).sum / C) := by
  unfold cumNew at h
  split at h
  · cases h
  · split at h
    · cases h
    · rename_i hr
      split at h
      · cases h
      · cases h
        have ht := (cumRead_spec hr).2.1
        have : (((nums qs).zip cs).getLast?).map Prod.snd = some C := by
          rw [← List.getLast?_map, List.map_snd_zip (by simp [nums, hlen]), hC]
        rw [this, Option.getD_some] at ht
        subst ht
        rw [cumRead_mean hr]
        simp [meanDiv]

/-! ## C41 -/

theorem times_num (f q : Rat) : (Val.num q).times f = .num (q * f) := rfl

/-- a value of a specification in another scale -/
def Item.times (f : Rat) : Item → Item
  | .val v => .val (v.times f)
  | d => d

theorem pick_times {f : Rat} (r : Rat) (l : List (Item × Rat)) (hl : ∀ c ∈ l, ∃ q, c.1 = .val (.num q)) :
    ∃ v, pick r l = .val v ∧ pick r (l.map (fun c => (c.1.times f, c.2))) = .val (v.times f) := by
  induction l with
  | nil => exact ⟨.pyNone, rfl, rfl⟩
  | cons c l ih =>
    obtain ⟨x, b⟩ := c
    obtain ⟨q, hq⟩ := hl (x, b) (by simp)
    simp only at hq
    subst hq
    simp only [pick, List.map_cons]
    by_cases hr : r ≤ b
    · simp only [hr, if_true]; exact ⟨_, rfl, rfl⟩
    · simp only [hr, if_false]; exact ih fun c hc => hl c (by simp [hc])

theorem isScaled_pts {f : Rat} {out : List (Item × Rat)} (t mm : Rat) (b : Bool) (h3 : ∀ c ∈ out, ∃ q, c.1 = .val (.num q)) :
    IsScaled f (PdfObj.toDist ⟨out.map fun c => (c.1, c.2 / t), b, meanDiv (.val mm) t⟩)
      (PdfObj.toDist ⟨(out.map fun c => (c.1.times f, c.2)).map fun c => (c.1, c.2 / t), b, meanDiv (.val (mm * f)) t⟩) := by
  refine ⟨fun s k => ?_, ?_⟩
  · simp only [PdfObj.toDist, PdfObj.sample1]
    split
    · simp only [List.length_map, List.getElem?_map]
      cases ho : out[below out.length (s k)]? with
      | none => simp
      | some c =>
        obtain ⟨q, hq⟩ := h3 c (List.mem_of_getElem? ho)
        simp [hq, Item.asIs, Item.times]
    · have h4 : ∀ c ∈ (((Item.val (.num 0), (0 : Rat)) :: out.map fun c => (c.1, c.2 / t)) : List (Item × Rat)), ∃ q, c.1 = .val (.num q) := by
        intro c hc
        rcases List.mem_cons.1 hc with rfl | hc
        · exact ⟨0, rfl⟩
        · obtain ⟨c', hc', rfl⟩ := List.mem_map.1 hc
          exact h3 c' hc'
      obtain ⟨v, e1, e2⟩ := pick_times (f := f) (s k) _ h4
      rw [e1]
      simp only [List.map_cons, Item.times, times_num, zero_mul, List.map_map] at e2
      rw [List.map_map]
      have e3 : ((fun c : Item × Rat => (c.1, c.2 / t)) ∘ fun c : Item × Rat => (c.1.times f, c.2)) =
          ((fun c : Item × Rat => (c.1.times f, c.2)) ∘ fun c => (c.1, c.2 / t)) := rfl
      rw [e3]
      refine (congrArg (fun x => Item.sample x s (k + 1)) e2).trans ?_
      simp [Item.sample]
  · simp only [PdfObj.toDist, meanDiv, Mean.times]
    rw [div_mul_eq_mul_div]

theorem pdfRead_times {f : Rat} (qs ps : List Rat) (S m : Rat) :
    ∃ out t mm, pdfRead none ((nums qs).zip ps) S (.val m) = some (out, t, .val mm) ∧
      pdfRead (some f) ((nums qs).zip ps) S (.val (m * f)) = some (out.map (fun c => (c.1.times f, c.2)), t, .val (mm * f)) ∧
      ∀ c ∈ out, ∃ q, c.1 = .val (.num q) := by
  induction qs generalizing ps S m with
  | nil => exact ⟨[], S, m, by simp [nums, pdfRead], by simp [nums, pdfRead], by simp⟩
  | cons q qs ih =>
    cases ps with
    | nil => exact ⟨[], S, m, by simp [nums, pdfRead], by simp [nums, pdfRead], by simp⟩
    | cons p ps =>
      obtain ⟨out, t, mm, h1, h2, h3⟩ := ih ps (S + p) (m + q * p)
      rw [show (m + q * p) * f = m * f + q * f * p by ring] at h2
      simp only [nums] at h1 h2
      refine ⟨(.val (.num q), S + p) :: out, t, mm, ?_, ?_, ?_⟩
      · simp [nums, pdfRead, Item.scale, Item.forMean, addMean, h1]
      · simp [nums, pdfRead, Item.scale, Item.forMean, addMean, h2, Item.times, Val.times]
      · intro c hc
        rcases List.mem_cons.1 hc with rfl | hc
        · exact ⟨q, rfl⟩
        · exact h3 c hc

theorem cumRead_times {f : Rat} (qs cs : List Rat) (S m : Rat) :
    (cumRead none ((nums qs).zip cs) S (.val m) = none ∧ cumRead (some f) ((nums qs).zip cs) S (.val (m * f)) = none) ∨
    ∃ out t mm, cumRead none ((nums qs).zip cs) S (.val m) = some (out, t, .val mm) ∧
      cumRead (some f) ((nums qs).zip cs) S (.val (m * f)) = some (out.map (fun c => (c.1.times f, c.2)), t, .val (mm * f)) ∧
      ∀ c ∈ out, ∃ q, c.1 = .val (.num q) := by
  induction qs generalizing cs S m with
  | nil => exact Or.inr ⟨[], S, m, by simp [nums, cumRead], by simp [nums, cumRead], by simp⟩
  | cons q qs ih =>
    cases cs with
    | nil => exact Or.inr ⟨[], S, m, by simp [nums, cumRead], by simp [nums, cumRead], by simp⟩
    | cons c cs =>
      by_cases hc : c - S < 0
      · left
        constructor <;> simp only [nums, List.map_cons, List.zip_cons_cons, cumRead, Item.scale, hc, if_true]
      · have ih := ih cs (S + (c - S)) (m + q * (c - S))
        rw [show (m + q * (c - S)) * f = m * f + q * f * (c - S) by ring] at ih
        simp only [nums] at ih
        rcases ih with ⟨h1, h2⟩ | ⟨out, t, mm, h1, h2, h3⟩
        · left
          constructor <;> simp only [nums, List.map_cons, List.zip_cons_cons, cumRead, Item.scale, hc, if_false, Item.forMean, addMean, h1, h2]
        · right
          refine ⟨(.val (.num q), S + (c - S)) :: out, t, mm, ?_, ?_, ?_⟩
          · simp only [nums, List.map_cons, List.zip_cons_cons, cumRead, Item.scale, hc, if_false, Item.forMean, addMean, h1]
          · simp only [nums, List.map_cons, List.zip_cons_cons, cumRead, Item.scale, hc, if_false, Item.forMean, addMean, h2, Item.times, Val.times]
          · intro c hc
            rcases List.mem_cons.1 hc with rfl | hc
            · exact ⟨q, rfl⟩
            · exact h3 c hc

/-- C41: a Pdf of numbers in a time unit: samples and mean are multiplied by the factor. The random number 0 (see `C38_zero_counterexample`) is no exception -/
theorem C41_pdf {spec : PSpec} {qs ps : List Rat} (hread : spec.read = some (nums qs, ps)) (f : Rat) :
    match pdf spec none, pdf spec (some f) with
    | some d, some d' => IsScaled f d d'
    | none, none => True
    | _, _ => False := by
  obtain ⟨out, t, mm, h1, h2, h3⟩ := pdfRead_times (f := f) qs ps 0 0
  rw [zero_mul] at h2
  unfold pdf pdfNew
  rw [hread]
  simp only [h1, h2]
  by_cases ht : t = 0
  · simp [ht]
  · simp only [ht, if_false, Option.map_some]
    exact isScaled_pts t mm _ h3

/-- C41: a CumPdf of numbers in a time unit -/
theorem C41_cumpdf (qs cs : List Rat) (f : Rat) :
    match cumPdf ((nums qs).zip cs) none, cumPdf ((nums qs).zip cs) (some f) with
    | some d, some d' => IsScaled f d d'
    | none, none => True
    | _, _ => False := by
  have h := cumRead_times (f := f) qs cs 0 0
  rw [zero_mul] at h
  unfold cumPdf cumNew
  by_cases he : (nums qs).zip cs = []
  · simp [he]
  · simp only [he, if_false]
    rcases h with ⟨h1, h2⟩ | ⟨out, t, mm, h1, h2, h3⟩
    · simp only [h1, h2, Option.map_none]
    · simp only [h1, h2]
      by_cases ht : t = 0
      · simp [ht]
      · simp only [ht, if_false, Option.map_some]
        exact isScaled_pts t mm _ h3

/-- each of a list of cumulative probabilities with a time unit -/
example : ((cumPdf ((nums [5, 8, 2]).zip [30, 90, 100]) (some 60)).map fun d => ((d.draw (fun _ => 3 / 4) 0).1, d.mean)) =
    some (some (.num 480), .val 390) := by decide +kernel

end Distr
end Verif
