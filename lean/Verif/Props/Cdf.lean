import Verif.Props.Dist

/-!
# Claims about Cdf (C37, C41)
-/

namespace Verif
namespace Distr

/-- the points given by the user, as one list: x0, c0, x1, c1, ... -/
def flat : List (Rat × Rat) → List Rat
  | [] => []
  | (x, c) :: l => x :: c :: flat l

/-- the documented requirements: at least one point, x-values and cumulative values do not decrease, the first cumulative value is 0,
the last one is positive -/
structure Valid (pts : List (Rat × Rat)) : Prop where
  first : (pts.head?).map Prod.snd = some 0
  last : ∃ c, (pts.getLast?).map Prod.snd = some c ∧ 0 < c
  xs : pts.Pairwise fun a b => a.1 ≤ b.1
  cums : pts.Pairwise fun a b => a.2 ≤ b.2

/-- last cumulative value -/
def total (pts : List (Rat × Rat)) : Rat := ((pts.getLast?).map Prod.snd).getD 0

theorem flat_cases (spec : List Rat) : (∃ pts, spec = flat pts) ∨ ∃ pts x, spec = flat pts ++ [x] := by
  match spec with
  | [] => exact Or.inl ⟨[], rfl⟩
  | [x] => exact Or.inr ⟨[], x, rfl⟩
  | x :: c :: rest =>
    rcases flat_cases rest with ⟨pts, h⟩ | ⟨pts, y, h⟩
    · exact Or.inl ⟨(x, c) :: pts, by simp [flat, h]⟩
    · exact Or.inr ⟨(x, c) :: pts, y, by simp [flat, h]⟩

theorem cdfRead_odd (f : Rat) (pts : List (Rat × Rat)) (x : Rat) (lx : Option Rat) (lc : Rat) : cdfRead f (flat pts ++ [x]) lx lc = none := by
  induction pts generalizing lx lc with
  | nil => simp [flat, cdfRead]
  | cons p pts ih =>
    simp only [flat, List.cons_append, cdfRead]
    split
    · rfl
    split
    · rfl
    rw [ih]

/-- the condition checked by the loop -/
def Rising (f : Rat) (lx : Option Rat) (lc : Rat) (pts : List (Rat × Rat)) : Prop :=
  (∀ p ∈ pts, (∀ l, lx = some l → l ≤ p.1 * f) ∧ lc ≤ p.2) ∧ (pts.Pairwise fun a b => a.1 * f ≤ b.1 * f) ∧ pts.Pairwise fun a b => a.2 ≤ b.2

theorem rising_cons (f : Rat) (lx : Option Rat) (lc : Rat) (x c : Rat) (pts : List (Rat × Rat)) :
    Rising f lx lc ((x, c) :: pts) ↔ (∀ l, lx = some l → l ≤ x * f) ∧ lc ≤ c ∧ Rising f (some (x * f)) c pts := by
  unfold Rising
  simp only [List.mem_cons, forall_eq_or_imp, List.pairwise_cons, Option.some.injEq, forall_eq']
  constructor
  · rintro ⟨⟨⟨h1, h2⟩, h3⟩, ⟨h4, h5⟩, h6, h7⟩
    exact ⟨h1, h2, fun p hp => ⟨h4 p hp, h6 p hp⟩, h5, h7⟩
  · rintro ⟨h1, h2, h3, h5, h7⟩
    refine ⟨⟨⟨h1, h2⟩, fun p hp => ⟨fun l hl => (h1 l hl).trans (h3 p hp).1, h2.trans (h3 p hp).2⟩⟩, ⟨fun p hp => (h3 p hp).1, h5⟩,
      fun p hp => (h3 p hp).2, h7⟩

theorem ltLast_false (x : Rat) (lx : Option Rat) : ltLast x lx = false ↔ ∀ l, lx = some l → l ≤ x := by
  cases lx <;> simp [ltLast]

theorem cdfRead_flat (f : Rat) (pts : List (Rat × Rat)) (lx : Option Rat) (lc : Rat) (out : List (Rat × Rat) × Rat) :
    cdfRead f (flat pts) lx lc = some out ↔
      Rising f lx lc pts ∧ out = (pts.map fun p => (p.1 * f, p.2), ((pts.getLast?).map Prod.snd).getD lc) := by
  induction pts generalizing lx lc out with
  | nil => simp [flat, cdfRead, Rising, eq_comm]
  | cons p pts ih =>
    obtain ⟨x, c⟩ := p
    rw [rising_cons]
    simp only [flat, cdfRead]
    by_cases h1 : ltLast (x * f) lx = true
    · simp only [h1, if_true]
      have : ¬ ∀ l, lx = some l → l ≤ x * f := by rw [← ltLast_false, h1]; simp
      simp [this]
    · rw [if_neg h1]
      have h1' : ∀ l, lx = some l → l ≤ x * f := by rw [← ltLast_false]; simpa using h1
      by_cases h2 : c < lc
      · simp [h2]
      · rw [if_neg h2]
        have hl : ((((x, c) :: pts).getLast?).map Prod.snd).getD lc = ((pts.getLast?).map Prod.snd).getD c := by
          cases pts with
          | nil => simp
          | cons q pts =>
            have : ∃ z, (q :: pts).getLast? = some z := by
              exact ⟨_, List.getLast?_eq_some_getLast (List.cons_ne_nil _ _)⟩
            obtain ⟨z, hz⟩ := this
            rw [List.getLast?_cons_cons, hz]; simp
        rw [hl]
        have h2' : lc ≤ c := not_lt.1 h2
        constructor
        · intro h
          split at h
          · cases h
          · rename_i l c' hr
            cases h
            rw [ih] at hr
            obtain ⟨hr, he⟩ := hr
            simp only [Prod.mk.injEq] at he
            exact ⟨⟨h1', h2', hr⟩, by simp [he.1, he.2]⟩
        · rintro ⟨⟨_, _, hr⟩, rfl⟩
          have := (ih (some (x * f)) c (pts.map fun p => (p.1 * f, p.2), ((pts.getLast?).map Prod.snd).getD c)).2 ⟨hr, rfl⟩
          rw [this]; simp

/-- C37: exactly the valid specifications are accepted, and are then kept as the points with the cumulative values divided by the last one -/
theorem cdfPoints_iff {f : Rat} (hf : 0 < f) (spec : List Rat) (l : List (Rat × Rat)) :
    cdfPoints f spec = some l ↔ ∃ pts, spec = flat pts ∧ Valid pts ∧ l = pts.map fun p => (p.1 * f, p.2 / total pts) := by
  have hmul : ∀ a b : Rat, a * f ≤ b * f ↔ a ≤ b := fun a b => mul_le_mul_iff_left₀ hf
  have hinj : ∀ pts pts' : List (Rat × Rat), flat pts = flat pts' → pts = pts' := by
    intro pts
    induction pts with
    | nil => intro pts' h; cases pts' with
      | nil => rfl
      | cons p q => simp [flat] at h
    | cons p pts ih => intro pts' h; cases pts' with
      | nil => simp [flat] at h
      | cons p' q =>
        simp only [flat, List.cons.injEq] at h
        rw [ih q h.2.2]
        congr 1
        exact Prod.ext h.1 h.2.1
  unfold cdfPoints
  rcases flat_cases spec with ⟨pts, rfl⟩ | ⟨pts, x, rfl⟩
  · cases pts with
    | nil =>
      simp only [flat, if_true]
      constructor
      · simp
      · rintro ⟨pts', h, hv, _⟩
        have := hinj [] pts' h
        subst this
        simpa using hv.first
    | cons p pts =>
      obtain ⟨x, c⟩ := p
      rw [if_neg (by simp [flat])]
      by_cases hc : c = 0
      · subst hc
        rw [if_neg (by simp [flat])]
        constructor
        · intro h
          split at h
          · cases h
          · rename_i l' lc hr
            rw [cdfRead_flat] at hr
            obtain ⟨⟨h1, h2, h3⟩, he⟩ := hr
            simp only [Prod.mk.injEq] at he
            split at h
            · cases h
            · rename_i hne
              cases h
              refine ⟨_, rfl, ⟨by simp, ?_, ?_, h3⟩, ?_⟩
              · have : ∃ z, ((x, (0 : Rat)) :: pts).getLast? = some z := by
                  exact ⟨_, List.getLast?_eq_some_getLast (List.cons_ne_nil _ _)⟩
                obtain ⟨z, hz⟩ := this
                refine ⟨z.2, by rw [hz]; rfl, ?_⟩
                have hz2 : lc = z.2 := by rw [he.2, hz]; rfl
                rw [← hz2]
                refine lt_of_le_of_ne ?_ (Ne.symm hne)
                rw [hz2]
                exact (h1 z (List.mem_of_getLast? hz)).2
              · simpa only [hmul] using h2
              · rw [he.1, List.map_map]
                have : lc = total ((x, 0) :: pts) := he.2
                rw [this]; rfl
        · rintro ⟨pts', h, hv, rfl⟩
          have := hinj ((x, 0) :: pts) pts' h
          subst this
          have hr : Rising f none 0 ((x, 0) :: pts) := by
            refine ⟨?_, by simpa only [hmul] using hv.xs, hv.cums⟩
            intro p hp
            refine ⟨by simp, ?_⟩
            rcases List.mem_cons.1 hp with rfl | hp
            · exact le_rfl
            · exact (List.pairwise_cons.1 hv.cums).1 p hp
          rw [(cdfRead_flat f _ none 0 _).2 ⟨hr, rfl⟩]
          obtain ⟨cl, hcl, hpos⟩ := hv.last
          simp only [hcl, Option.getD_some, if_neg hpos.ne', List.map_map, total]
          rfl
      · rw [if_pos (by simpa [flat] using hc)]
        constructor
        · simp
        · rintro ⟨pts', h, hv, _⟩
          have := hinj ((x, c) :: pts) pts' h
          subst this
          exact absurd (by simpa using hv.first) hc
  · have hno : ¬ ∃ pts', flat pts ++ [x] = flat pts' ∧ Valid pts' ∧ l = pts'.map fun p => (p.1 * f, p.2 / total pts') := by
      rintro ⟨pts', h, _, _⟩
      have h1 := cdfRead_odd 0 pts x none 0
      have hlen : ∀ q : List (Rat × Rat), (flat q).length = 2 * q.length := by
        intro q; induction q with
        | nil => rfl
        | cons a q ih => simp [flat, ih]; omega
      have := congrArg List.length h
      rw [List.length_append, hlen, hlen] at this
      simp at this
      omega
    simp only [hno, iff_false]
    split
    · simp
    split
    · simp
    rw [cdfRead_odd]; simp

/-! ## sampling -/

/-- what the constructor yields: values that do not decrease, from cumulative value 0 to 1 -/
structure Normal (l : List (Rat × Rat)) : Prop where
  xs : ∀ i j, i ≤ j → j < l.length → (l.getD i (0, 0)).1 ≤ (l.getD j (0, 0)).1
  cums : ∀ i j, i ≤ j → j < l.length → (l.getD i (0, 0)).2 ≤ (l.getD j (0, 0)).2
  pos : 0 < l.length
  first : (l.getD 0 (0, 0)).2 = 0
  last : (l.getD (l.length - 1) (0, 0)).2 = 1

theorem Normal.segment {l : List (Rat × Rat)} (h : Normal l) {r : Rat} (h0 : 0 ≤ r) (h1 : r < 1) :
    ∃ i, i + 1 < l.length ∧ (l.getD i (0, 0)).2 ≤ r ∧ r < (l.getD (i + 1) (0, 0)).2 ∧
      cdfAt l r = (l.getD i (0, 0)).1 + ((l.getD (i + 1) (0, 0)).1 - (l.getD i (0, 0)).1) *
        ((r - (l.getD i (0, 0)).2) / ((l.getD (i + 1) (0, 0)).2 - (l.getD i (0, 0)).2)) := by
  unfold cdfAt
  have hpos := h.pos
  cases hf : (List.range l.length).find? (fun i => decide (r < (l.getD i (0, 0)).2)) with
  | none =>
    exfalso
    rw [List.find?_eq_none] at hf
    have := hf (l.length - 1) (by simp; omega)
    rw [h.last] at this
    simp at this
    linarith
  | some i =>
    have hlt : r < (l.getD i (0, 0)).2 := by simpa using List.find?_some hf
    have hi : i < l.length := by simpa using List.mem_of_find?_eq_some hf
    have hmin : ∀ j, j < i → (l.getD j (0, 0)).2 ≤ r := by
      intro j hj
      have := (List.find?_range_eq_some.1 hf).2.2 j hj
      simpa using this
    cases i with
    | zero => rw [h.first] at hlt; linarith
    | succ i =>
      refine ⟨i, hi, hmin i (by omega), hlt, ?_⟩
      simp only [Nat.add_one_ne_zero, if_false, Nat.add_sub_cancel]
      have hle := hmin i (by omega)
      have := Util.C43_line (t := r) (v0 := (l.getD i (0, 0)).1) (v1 := (l.getD (i + 1) (0, 0)).1) hle hlt.le (lt_of_le_of_lt hle hlt)
      exact congrArg (fun o => Option.getD o 0) this

/-- value on a segment lies between the ends -/
theorem seg_bounds {x0 x1 c0 c1 r : Rat} (hx : x0 ≤ x1) (h0 : c0 ≤ r) (h1 : r < c1) :
    x0 ≤ x0 + (x1 - x0) * ((r - c0) / (c1 - c0)) ∧ x0 + (x1 - x0) * ((r - c0) / (c1 - c0)) ≤ x1 := by
  have hc : 0 < c1 - c0 := by linarith
  have hp : 0 ≤ (r - c0) / (c1 - c0) := div_nonneg (by linarith) hc.le
  have hp1 : (r - c0) / (c1 - c0) ≤ 1 := by rw [div_le_one hc]; linarith
  constructor
  · nlinarith
  · nlinarith

theorem Normal.at_most {l : List (Rat × Rat)} (h : Normal l) {r : Rat} (h0 : 0 ≤ r) (h1 : r < 1) {i : Nat} (hi : i < l.length)
    (hr : r < (l.getD i (0, 0)).2) : cdfAt l r ≤ (l.getD i (0, 0)).1 := by
  obtain ⟨j, hj, hl, hu, he⟩ := h.segment h0 h1
  rw [he]
  refine (seg_bounds (h.xs j (j + 1) (by omega) hj) hl hu).2.trans (h.xs _ _ ?_ hi)
  by_contra hlt
  have := h.cums i j (by omega) (by omega)
  linarith

theorem Normal.at_least {l : List (Rat × Rat)} (h : Normal l) {r : Rat} (h0 : 0 ≤ r) (h1 : r < 1) {i : Nat} (hi : i < l.length)
    (hr : (l.getD i (0, 0)).2 ≤ r) : (l.getD i (0, 0)).1 ≤ cdfAt l r := by
  obtain ⟨j, hj, hl, hu, he⟩ := h.segment h0 h1
  rw [he]
  refine (h.xs _ _ ?_ (by omega)).trans (seg_bounds (h.xs j (j + 1) (by omega) hj) hl hu).1
  by_contra hlt
  have := h.cums (j + 1) i (by omega) hi
  linarith

theorem Normal.more {l : List (Rat × Rat)} (h : Normal l) {r : Rat} (h0 : 0 ≤ r) (h1 : r < 1) {i : Nat} (hi : i + 1 < l.length)
    (hx : (l.getD i (0, 0)).1 < (l.getD (i + 1) (0, 0)).1) (hr : (l.getD i (0, 0)).2 < r) : (l.getD i (0, 0)).1 < cdfAt l r := by
  obtain ⟨j, hj, hl, hu, he⟩ := h.segment h0 h1
  have hij : i ≤ j := by
    by_contra hlt
    have := h.cums (j + 1) i (by omega) (by omega)
    linarith
  rcases eq_or_lt_of_le hij with rfl | hij
  · rw [he]
    have hp : 0 < (r - (l.getD i (0, 0)).2) / ((l.getD (i + 1) (0, 0)).2 - (l.getD i (0, 0)).2) := div_pos (by linarith) (by linarith)
    have := mul_pos (sub_pos.2 hx) hp
    linarith
  · rw [he]
    have h1 := h.xs (i + 1) j hij (by omega)
    have h2 := (seg_bounds (h.xs j (j + 1) (by omega) hj) hl hu).1
    linarith

theorem Normal.mono {l : List (Rat × Rat)} (h : Normal l) {r r' : Rat} (h0 : 0 ≤ r) (hrr : r ≤ r') (h1 : r' < 1) : cdfAt l r ≤ cdfAt l r' := by
  obtain ⟨j, hj, hl, hu, he⟩ := h.segment h0 (lt_of_le_of_lt hrr h1)
  by_cases hc : r' < (l.getD (j + 1) (0, 0)).2
  · obtain ⟨j', hj', hl', hu', he'⟩ := h.segment (h0.trans hrr) h1
    have hjj : j = j' := by
      apply le_antisymm
      · by_contra hlt
        have := h.cums (j' + 1) j (by omega) (by omega)
        linarith
      · by_contra hlt
        have := h.cums (j + 1) j' (by omega) (by omega)
        linarith
    subst hjj
    rw [he, he']
    have hx := h.xs j (j + 1) (by omega) hj
    have : (r - (l.getD j (0, 0)).2) / ((l.getD (j + 1) (0, 0)).2 - (l.getD j (0, 0)).2) ≤
        (r' - (l.getD j (0, 0)).2) / ((l.getD (j + 1) (0, 0)).2 - (l.getD j (0, 0)).2) := by
      apply div_le_div_of_nonneg_right (by linarith) (by linarith)
    have := mul_le_mul_of_nonneg_left this (sub_nonneg.2 hx)
    linarith
  · have h2 := h.at_least (h0.trans hrr) h1 hj (not_lt.1 hc)
    have h3 := (seg_bounds (h.xs j (j + 1) (by omega) hj) hl hu).2
    rw [he]; linarith

theorem Valid.pos {pts : List (Rat × Rat)} (h : Valid pts) : 0 < pts.length := by
  cases pts with
  | nil => simpa using h.first
  | cons => simp

theorem Valid.total_pos {pts : List (Rat × Rat)} (h : Valid pts) : 0 < total pts := by
  obtain ⟨c, hc, hp⟩ := h.last
  unfold total; rw [hc]; exact hp

theorem Valid.total_eq {pts : List (Rat × Rat)} (h : Valid pts) : total pts = (pts.getD (pts.length - 1) (0, 0)).2 := by
  have hp := h.pos
  have hl : pts.getLast? = some (pts.getD (pts.length - 1) (0, 0)) := by
    rw [List.getLast?_eq_getElem?, List.getD_eq_getElem _ _ (by omega), List.getElem?_eq_getElem]
  unfold total
  rw [hl]; rfl

theorem getD_map_pts (pts : List (Rat × Rat)) (g : Rat × Rat → Rat × Rat) (i : Nat) (hi : i < pts.length) :
    (pts.map g).getD i (0, 0) = g (pts.getD i (0, 0)) := by
  rw [List.getD_eq_getElem _ _ (by simpa using hi), List.getD_eq_getElem _ _ hi, List.getElem_map]

theorem Valid.normal {pts : List (Rat × Rat)} (h : Valid pts) {f : Rat} (hf : 0 < f) :
    Normal (pts.map fun p => (p.1 * f, p.2 / total pts)) := by
  have hp := h.pos
  have ht := h.total_pos
  have key : ∀ (R : Rat × Rat → Rat × Rat → Prop), (∀ a, R a a) → pts.Pairwise R → ∀ i j, i ≤ j → j < pts.length →
      R (pts.getD i (0, 0)) (pts.getD j (0, 0)) := by
    intro R hR hpw i j hij hj
    rcases eq_or_lt_of_le hij with rfl | hlt
    · exact hR _
    · rw [List.getD_eq_getElem _ _ (by omega), List.getD_eq_getElem _ _ hj]
      exact List.pairwise_iff_getElem.1 hpw i j (by omega) hj hlt
  refine ⟨?_, ?_, by simpa using hp, ?_, ?_⟩
  · intro i j hij hj
    simp only [List.length_map] at hj
    rw [getD_map_pts _ _ _ (by omega), getD_map_pts _ _ _ hj]
    exact mul_le_mul_of_nonneg_right (key (fun a b => a.1 ≤ b.1) (fun _ => le_rfl) h.xs i j hij hj) hf.le
  · intro i j hij hj
    simp only [List.length_map] at hj
    rw [getD_map_pts _ _ _ (by omega), getD_map_pts _ _ _ hj]
    exact div_le_div_of_nonneg_right (key (fun a b => a.2 ≤ b.2) (fun _ => le_rfl) h.cums i j hij hj) ht.le
  · rw [getD_map_pts _ _ _ hp]
    have : (pts.getD 0 (0, 0)).2 = 0 := by
      have h1 := h.first
      cases pts with
      | nil => simp at hp
      | cons a l => simpa using h1
    simp only [this, zero_div]
  · rw [List.length_map, getD_map_pts _ _ _ (by omega), ← h.total_eq]
    exact div_self ht.ne'

/-- the sample of a Cdf for the random number `r` -/
def sampleAt (d : Dist) (r : Rat) : Option Rat := (d.draw (fun _ => r) 0).1.bind Val.toNum

/-- C37: exactly the documented specifications are accepted, and each sample uses one random number -/
theorem C37_accepts {f : Rat} (hf : 0 < f) (spec : List Rat) :
    (cdf spec f ≠ none ↔ ∃ pts, spec = flat pts ∧ Valid pts) ∧
    ∀ d, cdf spec f = some d → ∀ s k, d.draw s k = ((sampleAt d (s k)).map Val.num, k + 1) := by
  constructor
  · unfold cdf
    constructor
    · intro h
      cases hc : cdfPoints f spec with
      | none => rw [hc] at h; exact absurd rfl h
      | some l =>
        obtain ⟨pts, hs, hv, _⟩ := (cdfPoints_iff hf spec l).1 hc
        exact ⟨pts, hs, hv⟩
    · rintro ⟨pts, hs, hv⟩
      rw [(cdfPoints_iff hf spec _).2 ⟨pts, hs, hv, rfl⟩]
      simp
  · intro d hd s k
    unfold cdf at hd
    split at hd
    · cases hd
    · cases hd; simp [sampleAt, Val.toNum]

theorem cdf_sampleAt {pts : List (Rat × Rat)} (h : Valid pts) {f : Rat} (hf : 0 < f) {d : Dist} (hd : cdf (flat pts) f = some d) (r : Rat) :
    sampleAt d r = some (cdfAt (pts.map fun p => (p.1 * f, p.2 / total pts)) r) := by
  unfold cdf at hd
  rw [(cdfPoints_iff hf _ _).2 ⟨pts, rfl, h, rfl⟩] at hd
  cases hd
  simp [sampleAt, Val.toNum]

/-- C37: for every random number in [0,1) there is a sample; it does not decrease in the random number and lies between the first and the last
x-value (in the time unit) -/
theorem C37_monotone {pts : List (Rat × Rat)} (h : Valid pts) {f : Rat} (hf : 0 < f) {d : Dist} (hd : cdf (flat pts) f = some d) :
    ∃ x : Rat → Rat, (∀ r, sampleAt d r = some (x r)) ∧ (∀ r r', 0 ≤ r → r ≤ r' → r' < 1 → x r ≤ x r') ∧
      ∀ r, 0 ≤ r → r < 1 → (pts.getD 0 (0, 0)).1 * f ≤ x r ∧ x r ≤ (pts.getD (pts.length - 1) (0, 0)).1 * f := by
  have hn := h.normal hf
  have hp := h.pos
  refine ⟨_, cdf_sampleAt h hf hd, fun r r' h0 hrr h1 => hn.mono h0 hrr h1, fun r h0 h1 => ⟨?_, ?_⟩⟩
  · have := hn.at_least h0 h1 (i := 0) (by simpa using hp) (by rw [hn.first]; exact h0)
    rwa [getD_map_pts _ _ _ hp] at this
  · have := hn.at_most h0 h1 (i := pts.length - 1) (by simp; omega) (by
      have := hn.last
      rw [List.length_map] at this
      rw [this]; exact h1)
    rwa [getD_map_pts _ _ _ (by omega)] at this

/-- C37: the random numbers for which the sample is at most `x_i` are those up to `cum_i / cum_n`: all below it, and none above it (if the next
x-value is larger than `x_i`; otherwise look at the last point with that x-value). So they form an interval of length `cum_i / cum_n` -/
theorem C37_inverse {pts : List (Rat × Rat)} (h : Valid pts) {f : Rat} (hf : 0 < f) {d : Dist} (hd : cdf (flat pts) f = some d)
    {i : Nat} (hi : i < pts.length) {r : Rat} (h0 : 0 ≤ r) (h1 : r < 1) :
    ∃ x, sampleAt d r = some x ∧
      (r < (pts.getD i (0, 0)).2 / total pts → x ≤ (pts.getD i (0, 0)).1 * f) ∧
      ((pts.getD i (0, 0)).2 / total pts < r → i + 1 < pts.length → (pts.getD i (0, 0)).1 < (pts.getD (i + 1) (0, 0)).1 → (pts.getD i (0, 0)).1 * f < x) := by
  have hn := h.normal hf
  refine ⟨_, cdf_sampleAt h hf hd r, ?_, ?_⟩
  · intro hr
    have := hn.at_most h0 h1 (i := i) (by simpa using hi) (by rwa [getD_map_pts _ _ _ hi])
    rwa [getD_map_pts _ _ _ hi] at this
  · intro hr hi1 hx
    have := hn.more h0 h1 (i := i) (by simpa using hi1)
      (by rw [getD_map_pts _ _ _ hi, getD_map_pts _ _ _ hi1]; exact mul_lt_mul_of_pos_right hx hf) (by rwa [getD_map_pts _ _ _ hi])
    rwa [getD_map_pts _ _ _ hi] at this

/-- C37: the random numbers with samples above all given x-values: none; so nothing is lost at the last point -/
theorem C37_points {pts : List (Rat × Rat)} (h : Valid pts) {f : Rat} (hf : 0 < f) {d : Dist} (hd : cdf (flat pts) f = some d)
    {i : Nat} (hi : i + 1 < pts.length) {r : Rat} (h0 : (pts.getD i (0, 0)).2 / total pts ≤ r) (h1 : r < (pts.getD (i + 1) (0, 0)).2 / total pts) :
    sampleAt d r = some (f * ((pts.getD i (0, 0)).1 + ((pts.getD (i + 1) (0, 0)).1 - (pts.getD i (0, 0)).1) *
      ((r * total pts - (pts.getD i (0, 0)).2) / ((pts.getD (i + 1) (0, 0)).2 - (pts.getD i (0, 0)).2)))) := by
  have hn := h.normal hf
  have ht := h.total_pos
  have hlast := hn.last
  have hfirst := hn.first
  have hr0 : 0 ≤ r := by
    have := hn.cums 0 i (by omega) (by simp; omega)
    rw [hfirst, getD_map_pts _ _ _ (by omega)] at this
    exact this.trans h0
  have hr1 : r < 1 := by
    have := hn.cums (i + 1) (pts.length - 1) (by omega) (by simp; omega)
    rw [List.length_map] at hlast
    rw [hlast, getD_map_pts _ _ _ hi] at this
    exact lt_of_lt_of_le h1 this
  obtain ⟨j, hj, hl, hu, he⟩ := hn.segment hr0 hr1
  simp only [List.length_map] at hj
  have hij : j = i := by
    apply le_antisymm
    · by_contra hlt
      have := hn.cums (i + 1) j (by omega) (by simp; omega)
      rw [getD_map_pts _ _ _ hi] at this
      simp only at this
      linarith
    · by_contra hlt
      have := hn.cums (j + 1) i (by omega) (by simp; omega)
      rw [getD_map_pts _ _ i (by omega)] at this
      simp only at this
      linarith
  subst hij
  rw [cdf_sampleAt h hf hd r, he, getD_map_pts _ _ _ hi, getD_map_pts _ _ _ (by omega)]
  simp only
  have hc : (pts.getD (j + 1) (0, 0)).2 - (pts.getD j (0, 0)).2 ≠ 0 := by
    have := lt_of_le_of_lt h0 h1
    rw [div_lt_div_iff_of_pos_right ht] at this
    linarith
  congr 1
  have ht' := ht.ne'
  have : (pts.getD (j + 1) (0, 0)).2 / total pts - (pts.getD j (0, 0)).2 / total pts = ((pts.getD (j + 1) (0, 0)).2 - (pts.getD j (0, 0)).2) / total pts := by
    rw [sub_div]
  rw [this]
  field_simp

/-- (5, 0, 10, 50, 20, 90, 30, 100): the random number 0.7 lies halfway 10 and 20 -/
example : Valid [(5, 0), (10, 50), (20, 90), (30, 100)] := by
  refine ⟨by simp, ⟨100, by simp, by norm_num⟩, ?_, ?_⟩ <;> simp <;> norm_num
example : ((cdf [5, 0, 10, 50, 20, 90, 30, 100] 1).bind fun d => sampleAt d (7 / 10)) = some 15 := by decide +kernel

theorem interpolate_times {f : Rat} (hf : 0 < f) (r c0 c1 : WithTop Rat) (x0 x1 : Rat) :
    (Util.interpolate r c0 c1 (some (x0 * f)) (some (x1 * f))).getD 0 = (Util.interpolate r c0 c1 (some x0) (some x1)).getD 0 * f := by
  have e : ∀ p : Rat, ∀ a b : Rat, (Util.mix p (some (a * f)) (some (b * f))).getD 0 = (Util.mix p (some a) (some b)).getD 0 * f := by
    intro p a b
    rw [Util.mix_num, Util.mix_num]; simp; ring
  have hinj : (some (x0 * f) = some (x1 * f)) ↔ (some x0 = some x1) := by
    simp [hf.ne']
  unfold Util.interpolate Util.interpolateWith
  simp only [hinj]
  by_cases h : some x0 = some x1
  · simp [h]
    left; simpa using h
  · simp only [h, if_false]
    by_cases hc : c0 > c1
    · simp only [hc, if_true]
      split
      · simp
      split
      · simp
      split
      · simp
      split
      · simp
      split
      · exact e _ _ _
      · simp
    · simp only [hc, if_false]
      split
      · simp
      split
      · simp
      split
      · simp
      split
      · simp
      split
      · exact e _ _ _
      · simp

/-- C41: Cdf with a time unit -/
theorem C41_cdf (spec : List Rat) : Scales (cdf spec) := by
  intro f hf
  cases h1 : cdfPoints 1 spec with
  | none =>
    have hfn : cdfPoints f spec = none := by
      cases h2 : cdfPoints f spec with
      | none => rfl
      | some l =>
        obtain ⟨pts, hs, hv, _⟩ := (cdfPoints_iff hf spec l).1 h2
        rw [(cdfPoints_iff one_pos spec _).2 ⟨pts, hs, hv, rfl⟩] at h1
        cases h1
    simp only [cdf, h1, hfn]
  | some l =>
    obtain ⟨pts, hs, hv, rfl⟩ := (cdfPoints_iff one_pos spec l).1 h1
    have h2 := (cdfPoints_iff hf spec _).2 ⟨pts, hs, hv, rfl⟩
    simp only [cdf, h1, h2]
    have hL : ∀ i, (pts.map fun p => (p.1 * f, p.2 / total pts)).getD i (0, 0) =
        (((pts.map fun p => (p.1 * 1, p.2 / total pts)).getD i (0, 0)).1 * f, ((pts.map fun p => (p.1 * 1, p.2 / total pts)).getD i (0, 0)).2) := by
      intro i
      by_cases hi : i < pts.length
      · rw [getD_map_pts _ _ _ hi, getD_map_pts _ _ _ hi]; simp
      · rw [List.getD_eq_default _ _ (by simpa using hi), List.getD_eq_default _ _ (by simpa using hi)]; simp
    have hlen : (pts.map fun p => (p.1 * f, p.2 / total pts)).length = (pts.map fun p => (p.1 * (1 : Rat), p.2 / total pts)).length := by simp
    generalize (pts.map fun p => (p.1 * f, p.2 / total pts)) = l' at *
    generalize (pts.map fun p => (p.1 * (1 : Rat), p.2 / total pts)) = l at *
    refine ⟨fun s k => ?_, ?_⟩
    · simp only [Option.map_some, Val.times, Prod.mk.injEq, Option.some.injEq, Val.num.injEq, and_true]
      generalize s k = r
      unfold cdfAt
      simp only [hlen, hL]
      split
      · rename_i i _
        generalize l.getD (if i = 0 then l.length - 1 else i - 1) (0, 0) = a
        generalize l.getD i (0, 0) = b
        obtain ⟨x0, c0⟩ := a
        obtain ⟨x1, c1⟩ := b
        simp only
        exact interpolate_times hf _ _ _ _ _
      · rfl
    · simp only [Mean.times, Mean.val.injEq]
      unfold cdfMean
      simp only [hlen, hL]
      generalize List.range (l.length - 1) = ns
      have : ∀ a : Rat, List.foldl (fun m i => m + ((l.getD i (0, 0)).1 * f + (l.getD (i + 1) (0, 0)).1 * f) / 2 * ((l.getD (i + 1) (0, 0)).2 - (l.getD i (0, 0)).2)) (a * f) ns =
          List.foldl (fun m i => m + ((l.getD i (0, 0)).1 + (l.getD (i + 1) (0, 0)).1) / 2 * ((l.getD (i + 1) (0, 0)).2 - (l.getD i (0, 0)).2)) a ns * f := by
        induction ns with
        | nil => simp
        | cons i ns ih =>
          intro a
          simp only [List.foldl_cons]
          rw [← ih]
          congr 1
          ring
      simpa using this 0

end Distr
end Verif
