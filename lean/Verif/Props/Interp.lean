import Verif.Props.Percentile

/-!
The interpolation methods of `percentile` (C60).

With weights the numbers that qualify as a q percentile (`IsPercentile`) form an interval; 'lower' gives its lower end, 'higher' its upper end, and
'linear' and 'midpoint' the middle. Without weights the methods are given by the position q/100*(n-1) in the sorted values.
-/

namespace Verif
namespace Mon

/-- the weight at or below a number below value k of a sorted list is at most that of the first k -/
theorem massLe_before {l : List (Rat × Rat)} (hs : (l.map (·.1)).Pairwise (· ≤ ·)) (hw : ∀ p ∈ l, 0 ≤ p.2) {k : Nat} {v : Rat}
    (hv : k < l.length → v < (l.map (·.1)).getD k 0) : massLe v l ≤ ((l.map (·.2)).take k).sum := by
  unfold massLe
  conv_lhs => rw [← List.take_append_drop k l, List.filter_append, List.map_append, List.sum_append]
  have h1 : (l.drop k).filter (fun p => decide (p.1 ≤ v)) = [] := by
    rw [List.filter_eq_nil_iff]
    intro p hp
    obtain ⟨i, hi, rfl⟩ := List.mem_drop_iff_getElem.1 hp
    have := getD_mono hs (i := k) (j := i + k) (by omega) (by simp; omega)
    rw [List.getD_eq_getElem _ _ (by simp; omega : i + k < _)] at this
    simp only [List.getElem_map] at this
    have := hv (by omega)
    have e : l[k + i] = l[i + k] := by congr 1; omega
    simp only [decide_eq_true_eq]
    rw [e]
    linarith
  rw [h1, List.map_nil, List.sum_nil, add_zero, ← List.map_take]
  have : ∀ t : List (Rat × Rat), (∀ p ∈ t, 0 ≤ p.2) → ((t.filter (fun p => decide (p.1 ≤ v))).map (·.2)).sum ≤ (t.map (·.2)).sum := by
    intro t
    induction t with
    | nil => intro _; simp
    | cons p t ih =>
      intro ht
      have i := ih (fun q hq => ht q (List.mem_cons_of_mem _ hq))
      have p0 := ht p List.mem_cons_self
      rw [List.filter_cons]
      split
      · simp only [List.map_cons, List.sum_cons]; linarith
      · simp only [List.map_cons, List.sum_cons]; linarith
  exact this _ (fun p hp => hw p (List.mem_of_mem_take hp))

/-- the weight at or above a number above value k of a sorted list is at most that of the values after it -/
theorem massGe_after {l : List (Rat × Rat)} (hs : (l.map (·.1)).Pairwise (· ≤ ·)) (hw : ∀ p ∈ l, 0 ≤ p.2) {k : Nat} (hk : k < l.length) {v : Rat}
    (hv : (l.map (·.1)).getD k 0 < v) : massGe v l ≤ (l.map (·.2)).sum - ((l.map (·.2)).take (k + 1)).sum := by
  have e : massGe v l = (l.map (·.2)).sum - ((l.filter (fun p => !decide (v ≤ p.1))).map (·.2)).sum := by
    unfold massGe
    have : ((l.filter (fun p => decide (v ≤ p.1))).map (·.2)).sum + ((l.filter (fun p => !decide (v ≤ p.1))).map (·.2)).sum = (l.map (·.2)).sum := by
      clear * -
      induction l with
      | nil => simp
      | cons p l ih =>
        by_cases h : v ≤ p.1
        · simp only [List.filter_cons, h, decide_true, if_true, Bool.not_true, Bool.false_eq_true, if_false, List.map_cons, List.sum_cons]; linarith
        · simp only [List.filter_cons, h, decide_false, Bool.not_false, if_true, Bool.false_eq_true, if_false, List.map_cons, List.sum_cons]; linarith
    linarith
  rw [e]
  have h1 : (l.take (k + 1)).filter (fun p => !decide (v ≤ p.1)) = l.take (k + 1) := by
    rw [List.filter_eq_self]
    intro p hp
    obtain ⟨i, hi, rfl⟩ := List.mem_take_iff_getElem.1 hp
    have := getD_mono hs (i := i) (j := k) (by omega) (by simpa using hk)
    rw [List.getD_eq_getElem _ _ (by simp; omega)] at this
    simp only [List.getElem_map] at this
    simp only [Bool.not_eq_true', decide_eq_false_iff_not, not_le]
    linarith
  have h2 : ((l.filter (fun p => !decide (v ≤ p.1))).map (·.2)).sum = ((l.map (·.2)).take (k + 1)).sum +
      (((l.drop (k + 1)).filter (fun p => !decide (v ≤ p.1))).map (·.2)).sum := by
    conv_lhs => rw [← List.take_append_drop (k + 1) l, List.filter_append, List.map_append, List.sum_append, h1, List.map_take]
  rw [h2]
  have := sum_filter_nonneg (l := l.drop (k + 1)) (fun p hp => hw p (List.mem_of_mem_drop hp)) (fun p => !decide (v ≤ p.1))
  linarith

/-- the index found by a weighted percentile and what each method gives for it -/
theorem weighted_at {q : Rat} (hq1 : q < 1) {xs ws : List Rat} (hl : xs.length = ws.length) (hS : 0 < ws.sum) :
    let l := sortPairs (xs.zip ws)
    let x : List Rat := l.map (·.1)
    ∃ k : Nat, k < l.length ∧ q ≤ cumAt (l.map (·.2)) ws.sum k ∧ (∀ i < k, cumAt (l.map (·.2)) ws.sum i < q) ∧
      (cumAt (l.map (·.2)) ws.sum k = q → k + 1 < l.length) ∧
      ∀ it : Interp, percentileW it q xs ws = if cumAt (l.map (·.2)) ws.sum k ≠ q then some (x.getD k 0) else
        match (generalizing := false) it with
        | .linear | .midpoint => some ((x.getD k 0 + x.getD (k + 1) 0) / 2)
        | .lower => some (x.getD k 0)
        | .higher => some (x.getD (k + 1) 0)
        | _ => none := by
  intro l x
  have hlen : l.length = ws.length := by
    rw [(sortPairs_perm _).length_eq, List.length_zip]; omega
  have hsum : (l.map (·.2)).sum = ws.sum := by
    rw [((sortPairs_perm (xs.zip ws)).map _).sum_eq, List.map_snd_zip (by omega)]
  have hn : 0 < l.length := by
    rw [hlen]
    rcases Nat.eq_zero_or_pos ws.length with h | h
    · rw [List.length_eq_zero_iff.1 h] at hS; simp at hS
    · exact h
  have hlast : cumAt (l.map (·.2)) ws.sum (l.length - 1) = 1 := by
    unfold cumAt
    rw [List.take_of_length_le (by simp; omega), hsum]
    field_simp
  have hxl : x.length = l.length := by simp [x]
  obtain ⟨k, hk⟩ : ∃ k, k = firstIdx (fun k => decide (cumAt (l.map (·.2)) ws.sum k ≥ q)) 0 x.length := ⟨_, rfl⟩
  obtain ⟨_, h2, h3, h4⟩ := firstIdx_spec (fun k => decide (cumAt (l.map (·.2)) ws.sum k ≥ q)) x.length 0 (by omega)
    (by simp only [decide_eq_true_eq]; rw [show 0 + x.length - 1 = l.length - 1 by omega, hlast]; exact hq1.le)
  rw [← hk] at h2 h3 h4
  refine ⟨k, by omega, by simpa using h3, ?_, ?_, ?_⟩
  · intro i hi
    have := h4 i (by omega) hi
    simpa using this
  · intro he
    by_contra hc
    have : k = l.length - 1 := by omega
    rw [this, hlast] at he
    linarith
  · intro it
    rw [hk]; rfl

/-- C60, weighted values (all weights positive): the numbers that qualify as a q percentile are an interval; 'lower' gives its lower end, 'higher' its upper
end, 'linear' and 'midpoint' the middle -/
theorem C60_weighted {q : Rat} (hq0 : 0 < q) (hq1 : q < 100) {xs ws : List Rat} (hl : xs.length = ws.length) (hw : ∀ w ∈ ws, 0 < w) (hne : xs ≠ []) :
    ∃ lo hi, percentileOf true .lower q xs ws = .ok (some lo) ∧ percentileOf true .higher q xs ws = .ok (some hi) ∧
      percentileOf true .linear q xs ws = .ok (some ((lo + hi) / 2)) ∧ percentileOf true .midpoint q xs ws = .ok (some ((lo + hi) / 2)) ∧
      ∀ v, IsPercentile q xs ws v ↔ lo ≤ v ∧ v ≤ hi := by
  have hwne : ws ≠ [] := by
    rintro rfl
    exact hne (List.length_eq_zero_iff.1 hl)
  have hS : 0 < ws.sum := List.sum_pos _ hw hwne
  by_cases h2 : 2 ≤ xs.length
  · rw [percentileOf_mid (by simp) hq0 hq1 h2 hS.ne', percentileOf_mid (by simp) hq0 hq1 h2 hS.ne', percentileOf_mid (by simp) hq0 hq1 h2 hS.ne',
      percentileOf_mid (by simp) hq0 hq1 h2 hS.ne']
    simp only [if_true]
    obtain ⟨k, hk, c1, c2, c3, val⟩ := weighted_at (q := q / 100) (by linarith) hl hS
    have hp := sortPairs_perm (xs.zip ws)
    have hwn : ∀ p ∈ sortPairs (xs.zip ws), 0 ≤ p.2 := fun p h => zip_nonneg (fun w h => (hw w h).le) p (hp.mem_iff.1 h)
    have hpos : ∀ p ∈ sortPairs (xs.zip ws), 0 < p.2 := fun p h => hw _ (List.of_mem_zip (a := p.1) (b := p.2) (hp.mem_iff.1 h)).2
    have hsum : ((sortPairs (xs.zip ws)).map (·.2)).sum = ws.sum := by rw [(hp.map _).sum_eq, List.map_snd_zip (by omega)]
    have hcum : ∀ i, cumAt ((sortPairs (xs.zip ws)).map (·.2)) ws.sum i * ws.sum = (((sortPairs (xs.zip ws)).map (·.2)).take (i + 1)).sum := by
      intro i; unfold cumAt; field_simp
    have hso := sortPairs_sorted (xs.zip ws)
    have low : ∀ v, q / 100 * ws.sum ≤ massLe v (sortPairs (xs.zip ws)) → ((sortPairs (xs.zip ws)).map (·.1)).getD k 0 ≤ v := by
      intro v hv
      by_contra hc
      have := massLe_before hso hwn (fun _ => not_le.1 hc)
      cases k with
      | zero =>
        simp only [List.take_zero, List.sum_nil] at this
        have : 0 < q / 100 * ws.sum := mul_pos (by linarith) hS
        linarith
      | succ k =>
        rw [← hcum] at this
        have := mul_lt_mul_of_pos_right (c2 k (by omega)) hS
        linarith
    have qk : q / 100 * ws.sum ≤ (((sortPairs (xs.zip ws)).map (·.2)).take (k + 1)).sum := by
      rw [← hcum]; exact mul_le_mul_of_nonneg_right c1 hS.le
    rw [val, val, val, val]
    by_cases he : cumAt ((sortPairs (xs.zip ws)).map (·.2)) ws.sum k = q / 100
    · simp only [he, ne_eq, not_true_eq_false, if_false]
      refine ⟨_, _, rfl, rfl, rfl, rfl, ?_⟩
      intro v
      unfold IsPercentile
      rw [← massLe_perm hp, ← massGe_perm hp]
      constructor
      · rintro ⟨_, _, m1, m2⟩
        refine ⟨low v m1, ?_⟩
        by_contra hc
        have := massGe_after hso hwn (c3 he) (not_le.1 hc)
        rw [hsum, List.take_add_one, List.sum_append, ← hcum, he] at this
        have hg : 0 < (((sortPairs (xs.zip ws)).map (·.2))[k + 1]?.toList).sum := by
          rw [List.getElem?_eq_getElem (by simpa using c3 he)]
          simp only [Option.toList_some, List.sum_cons, List.sum_nil, add_zero, List.getElem_map]
          exact hpos _ (List.getElem_mem _)
        linarith
      · rintro ⟨m1, m2⟩
        refine ⟨⟨_, mem_sorted hl hk, m1⟩, ⟨_, mem_sorted hl (c3 he), m2⟩, le_trans qk (massLe_take hso hwn hk m1), ?_⟩
        refine le_trans ?_ (massGe_drop (k := k + 1) hso hwn (fun _ => m2))
        rw [hsum, ← hcum, he]
        linarith
    · simp only [he, ne_eq, not_false_eq_true, if_true]
      refine ⟨_, _, rfl, rfl, by congr 2; ring, by congr 2; ring, ?_⟩
      intro v
      unfold IsPercentile
      rw [← massLe_perm hp, ← massGe_perm hp]
      constructor
      · rintro ⟨_, _, m1, m2⟩
        refine ⟨low v m1, ?_⟩
        by_contra hc
        have := massGe_after hso hwn hk (not_le.1 hc)
        rw [hsum, ← hcum] at this
        have := mul_lt_mul_of_pos_right (lt_of_le_of_ne c1 (Ne.symm he)) hS
        linarith
      · rintro ⟨m1, m2⟩
        refine ⟨⟨_, mem_sorted hl hk, m1⟩, ⟨_, mem_sorted hl hk, m2⟩, le_trans qk (massLe_take hso hwn hk m1), ?_⟩
        refine le_trans ?_ (massGe_drop (k := k) hso hwn (fun _ => m2))
        rw [hsum]
        cases k with
        | zero =>
          simp only [List.take_zero, List.sum_nil]
          have : 0 < q / 100 * ws.sum := mul_pos (by linarith) hS
          linarith
        | succ k =>
          rw [← hcum]
          have := mul_le_mul_of_nonneg_right (c2 k (by omega)).le hS.le
          linarith
  · obtain ⟨a, rfl⟩ : ∃ a, xs = [a] := by
      match xs, hne, h2 with
      | [a], _, _ => exact ⟨a, rfl⟩
      | a :: b :: r, _, h => simp at h
    obtain ⟨w, rfl⟩ : ∃ w, ws = [w] := List.length_eq_one_iff.1 hl.symm
    have w0 : 0 < w := hw w (by simp)
    rw [percentileOf_one (by simp), percentileOf_one (by simp), percentileOf_one (by simp), percentileOf_one (by simp)]
    refine ⟨a, a, rfl, rfl, by congr 2; ring, by congr 2; ring, ?_⟩
    intro v
    constructor
    · rintro ⟨⟨b, hb, h1⟩, ⟨c, hc, h3⟩, _⟩
      simp only [List.mem_singleton] at hb hc
      subst hb; subst hc
      exact ⟨h1, h3⟩
    · rintro ⟨h1, h2⟩
      refine ⟨⟨a, by simp, h1⟩, ⟨a, by simp, h2⟩, ?_, ?_⟩
      · simp only [massLe, List.zip_cons_cons, List.zip_nil_left, List.filter_cons, h1, decide_true, if_true, List.filter_nil, List.map_cons, List.map_nil, List.sum_cons,
          List.sum_nil, add_zero]
        have : q / 100 * w ≤ 1 * w := mul_le_mul_of_nonneg_right (by linarith) w0.le
        linarith
      · simp only [massGe, List.zip_cons_cons, List.zip_nil_left, List.filter_cons, h2, decide_true, if_true, List.filter_nil, List.map_cons, List.map_nil, List.sum_cons,
          List.sum_nil, add_zero]
        have : 0 ≤ q / 100 * w := mul_nonneg (by linarith) w0.le
        linarith

/-- what a method gives at the position h, which is i or between i and i+1, in the sorted values s -/
def Interp.at (it : Interp) (s : List Rat) (i : Nat) (h : Rat) : Option Rat :=
  match it with
  | .lower => s[i]?
  | .higher => s[i + 1]?
  | .midpoint => do return ((← s[i]?) + (← s[i + 1]?)) / 2
  | .linear => do return (1 - (h - i)) * (← s[i]?) + (h - i) * (← s[i + 1]?)
  | .nearest => if h - i ≤ 1 / 2 then s[i]? else s[i + 1]?
  | .other => none

/-- C60, values without weights: with h = q/100*(n-1) the position of the percentile in the sorted values and i ≤ h < i+1, 'lower' gives value i, 'higher'
value i+1, 'midpoint' their mean, 'linear' the line between them and 'nearest' the nearest one -/
theorem C60_plain {it : Interp} (hit : it ≠ .other) {q : Rat} (hq0 : 0 < q) (hq1 : q < 100) {xs ws : List Rat} (hl : xs.length = ws.length)
    (hw : ∀ w ∈ ws, w = 1) (h2 : 2 ≤ xs.length) {s : List Rat} (hs : s.Perm xs) (hso : s.Pairwise (· ≤ ·)) {i : Nat}
    (hi : (i : Rat) ≤ q / 100 * ((xs.length : Rat) - 1)) (hi' : q / 100 * ((xs.length : Rat) - 1) < (i : Rat) + 1) :
    ∃ v, percentileOf false it q xs ws = .ok (some v) ∧ it.at s i (q / 100 * ((xs.length : Rat) - 1)) = some v := by
  have hsum : ws.sum ≠ 0 := by
    have e : ws = List.replicate ws.length 1 := List.eq_replicate_iff.2 ⟨rfl, hw⟩
    rw [e, List.sum_replicate, ← hl]
    have : (2 : Rat) ≤ xs.length := by exact_mod_cast h2
    simp only [nsmul_eq_mul, mul_one]
    linarith
  rw [percentileOf_mid ⟨hit, by simp⟩ hq0 hq1 h2 hsum]
  simp only [Bool.false_eq_true, if_false]
  have hx : (sortPairs (xs.zip ws)).map (·.1) = s := by
    refine List.Perm.eq_of_pairwise' (r := (· ≤ ·)) (sortPairs_sorted _) hso ?_
    refine ((sortPairs_perm (xs.zip ws)).map _).trans ?_
    rw [List.map_fst_zip (by omega)]
    exact hs.symm
  have hxl : s.length = xs.length := hs.length_eq
  have hn : (0 : Rat) < (xs.length : Rat) - 1 := by
    have : (2 : Rat) ≤ xs.length := by exact_mod_cast h2
    linarith
  set p := q / 100 with hp
  have p1 : p < 1 := by rw [hp]; linarith
  have hi1 : i + 1 < s.length := by
    have : (i : Rat) + 1 < (xs.length : Rat) := by nlinarith
    rw [hxl]; exact_mod_cast this
  have hfst : firstIdx (fun k => decide (((k + 1 : Nat) : Rat) / ((s.length : Rat) - 1) > p)) 0 s.length = i := by
    have hx : ∀ i : Nat, (decide (((i + 1 : Nat) : Rat) / ((s.length : Rat) - 1) > p)) = decide (p * ((xs.length : Rat) - 1) < (i : Rat) + 1) := by
      intro i
      rw [hxl]
      simp only [gt_iff_lt, lt_div_iff₀ hn]
      push_cast
      rfl
    simp only [hx]
    obtain ⟨_, a2, a3, a4⟩ := firstIdx_spec (fun k => decide (p * ((xs.length : Rat) - 1) < (k : Rat) + 1)) s.length 0 (by omega) (by
      simp only [decide_eq_true_eq]
      refine lt_of_lt_of_le hi' ?_
      have : (i : Rat) ≤ ((0 + s.length - 1 : Nat) : Rat) := by exact_mod_cast (by omega : i ≤ 0 + s.length - 1)
      linarith)
    generalize firstIdx (fun k => decide (p * ((xs.length : Rat) - 1) < (k : Rat) + 1)) 0 s.length = k at *
    simp only [decide_eq_true_eq] at a3
    rcases lt_trichotomy k i with h | h | h
    · have : (k : Rat) + 1 ≤ i := by exact_mod_cast h
      linarith
    · exact h
    · have := a4 i (by omega) h
      simp only [decide_eq_false_iff_not] at this
      exact absurd hi' this
  have g0 : s[i]? = some (s.getD i 0) := by rw [List.getD_eq_getElem _ _ (by omega)]; exact List.getElem?_eq_getElem _
  have g1 : s[i + 1]? = some (s.getD (i + 1) 0) := by rw [List.getD_eq_getElem _ _ (by omega)]; exact List.getElem?_eq_getElem _
  unfold percentileN
  simp only [hx, hfst]
  have hd : ((s.length : Rat) - 1) = (xs.length : Rat) - 1 := by rw [hxl]
  have hlt : (i : Rat) / ((s.length : Rat) - 1) < ((i + 1 : Nat) : Rat) / ((s.length : Rat) - 1) := by
    rw [hd]
    apply div_lt_div_of_pos_right _ hn
    push_cast; linarith
  have hm : s.getD i 0 ≤ s.getD (i + 1) 0 := getD_mono hso (by omega) hi1
  cases it with
  | lower => exact ⟨_, rfl, g0⟩
  | higher => exact ⟨_, rfl, g1⟩
  | midpoint => exact ⟨_, rfl, by simp only [Interp.at, g0, g1]; rfl⟩
  | nearest =>
    have hiff : p - (i : Rat) / ((s.length : Rat) - 1) ≤ ((i + 1 : Nat) : Rat) / ((s.length : Rat) - 1) - p ↔ p * ((xs.length : Rat) - 1) - i ≤ 1 / 2 := by
      rw [hd, ← mul_le_mul_iff_left₀ hn]
      have e1 : (p - (i : Rat) / ((xs.length : Rat) - 1)) * ((xs.length : Rat) - 1) = p * ((xs.length : Rat) - 1) - i := by field_simp
      have e2 : (((i + 1 : Nat) : Rat) / ((xs.length : Rat) - 1) - p) * ((xs.length : Rat) - 1) = (i + 1) - p * ((xs.length : Rat) - 1) := by
        push_cast; field_simp
      rw [e1, e2]
      constructor <;> intro h <;> linarith
    by_cases hc : p * ((xs.length : Rat) - 1) - i ≤ 1 / 2
    · exact ⟨s.getD i 0, by simp only [hiff.2 hc, if_true], by simp only [Interp.at, hc, if_true, g0]⟩
    · exact ⟨s.getD (i + 1) 0, by simp only [mt hiff.1 hc, if_false], by simp only [Interp.at, hc, if_false, g1]⟩
  | linear =>
    have hlo : (i : Rat) / ((s.length : Rat) - 1) ≤ p := by rw [hd, div_le_iff₀ hn]; exact hi
    have hup : p ≤ ((i + 1 : Nat) : Rat) / ((s.length : Rat) - 1) := by rw [hd, le_div_iff₀ hn]; push_cast; exact hi'.le
    refine ⟨_, congrArg Except.ok (Util.C43_line hlo hup hlt), ?_⟩
    simp only [Interp.at, g0, g1, hd]
    simp only [Option.bind_eq_bind, Option.bind_some, Option.pure_def, Option.some.injEq]
    push_cast
    field_simp
    ring
  | other => exact absurd rfl hit

/-- cases that meet the hypotheses: 1 (weight 2), 2 (weight 1) and 3 (weight 1), and the values 3, 1 and 2 without weights -/
example : percentileOf true .lower 50 [3, 1, 2] [1, 2, 1] = .ok (some 1) ∧ percentileOf true .higher 50 [3, 1, 2] [1, 2, 1] = .ok (some 2) ∧
    percentileOf true .linear 50 [3, 1, 2] [1, 2, 1] = .ok (some (3 / 2)) := by decide +kernel

example : ([1, 2, 3] : List Rat).Perm [3, 1, 2] ∧ ((1 : Nat) : Rat) ≤ 70 / 100 * ((3 : Nat) - 1) ∧ 70 / 100 * (((3 : Nat) : Rat) - 1) < (1 : Nat) + 1 ∧
    percentileOf false .linear 70 [3, 1, 2] [1, 1, 1] = .ok (some (12 / 5)) ∧ percentileOf false .nearest 70 [3, 1, 2] [1, 1, 1] = .ok (some 2) := by decide +kernel

/-- the doc says that without weights the method only matters when the percentile lies between two data points and that 50 gives the median. In the code it
also matters when the position is exactly that of a value: the median of 1, 2 and 3 is 3 with 'higher' and 2.5 with 'midpoint' -/
theorem C60_exact_counterexample : percentileOf false .linear 50 [1, 2, 3] [1, 1, 1] = .ok (some 2) ∧
    percentileOf false .higher 50 [1, 2, 3] [1, 1, 1] = .ok (some 3) ∧ percentileOf false .midpoint 50 [1, 2, 3] [1, 1, 1] = .ok (some (5 / 2)) := by
  decide +kernel

/-- with zero weights 'higher' and 'linear' may use a value without any weight: 1 and 3 have the same weight and 2 has none, still 'higher' gives 2 (and 3
qualifies as well) -/
theorem C60_zero_weight_counterexample : percentileOf true .higher 50 [1, 2, 3] [1, 0, 1] = .ok (some 2) ∧
    percentileOf true .linear 50 [1, 2, 3] [1, 0, 1] = .ok (some (3 / 2)) ∧ IsPercentile 50 [1, 2, 3] [1, 0, 1] 3 := by
  refine ⟨by decide +kernel, by decide +kernel, ⟨3, by simp, le_rfl⟩, ⟨3, by simp, le_rfl⟩, by decide +kernel, by decide +kernel⟩

end Mon
end Verif
