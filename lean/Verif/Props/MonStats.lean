import Verif.Props.Monitor
import Mathlib.Algebra.Order.BigOperators.Group.List
import Mathlib.Tactic.LinearCombination

/-!
# Claims about stats_only monitors, percentiles and bins (C20, C24, C25)
-/

namespace Verif
namespace Mon

/-! ## the running statistics -/

/-- the statistics after a list of values with weights -/
def statsOf (l : List (Rat × Rat)) : Stats := l.foldl (fun s p => s.add p.1 p.2) {}

/-- sum of `g value * weight` -/
def psum (g : Rat → Rat) (l : List (Rat × Rat)) : Rat := (l.map (fun p => g p.1 * p.2)).sum

theorem psum_snoc (g : Rat → Rat) (l : List (Rat × Rat)) (p : Rat × Rat) : psum g (l ++ [p]) = psum g l + g p.1 * p.2 := by simp [psum]

theorem statsOf_snoc (l : List (Rat × Rat)) (p : Rat × Rat) : statsOf (l ++ [p]) = (statsOf l).add p.1 p.2 := by simp [statsOf]

theorem psum_pos {l : List (Rat × Rat)} (h : ∀ p ∈ l, 0 < p.2) : 0 ≤ psum (fun _ => 1) l := by
  unfold psum
  apply List.sum_nonneg
  intro x hx
  obtain ⟨p, hp, rfl⟩ := List.mem_map.1 hx
  have := h p hp; linarith

theorem psum_pos' {l : List (Rat × Rat)} (h : ∀ p ∈ l, 0 < p.2) (hne : l ≠ []) : 0 < psum (fun _ => 1) l := by
  cases l with
  | nil => exact absurd rfl hne
  | cons a r =>
    have h1 := psum_pos (l := r) (fun p hp => h p (by simp [hp]))
    have h2 := h a (by simp)
    unfold psum at *
    simp only [List.map_cons, List.sum_cons]; linarith

theorem foldl_min_snoc (a b : Rat) (l : List Rat) : (l ++ [b]).foldl min a = min (l.foldl min a) b := by simp
theorem foldl_max_snoc (a b : Rat) (l : List Rat) : (l ++ [b]).foldl max a = max (l.foldl max a) b := by simp

/-- the running statistics of a stats_only monitor are number, weight, mean, sum of squared deviations, minimum and maximum of the values -/
theorem statsOf_spec (l : List (Rat × Rat)) (hw : ∀ p ∈ l, 0 < p.2) :
    (statsOf l).n = l.length ∧ (statsOf l).sumw = psum (fun _ => 1) l ∧ (statsOf l).mun * psum (fun _ => 1) l = psum (fun x => x) l ∧
    (statsOf l).sn = psum (fun x => x ^ 2) l - (statsOf l).mun ^ 2 * psum (fun _ => 1) l ∧
    (statsOf l).mn = minOf (l.map (·.1)) ∧ (statsOf l).mx = maxOf (l.map (·.1)) := by
  induction l using List.reverseRecOn with
  | nil => simp [statsOf, psum, minOf, maxOf]
  | append_singleton l p ih =>
    obtain ⟨h1, h2, h3, h4, h5, h6⟩ := ih (fun q hq => hw q (by simp [hq]))
    have hS := psum_pos (l := l) (fun q hq => hw q (by simp [hq]))
    have hp := hw p (by simp)
    obtain ⟨v, w⟩ := p
    rw [statsOf_snoc]
    simp only [psum_snoc]
    generalize statsOf l = s at *
    have hS' : psum (fun _ => 1) l + w ≠ 0 := by simp only at hp; linarith
    simp only [Stats.add, List.length_append, List.length_singleton, h1, h2, one_mul]
    have hm : (s.mun + w / (psum (fun _ => 1) l + w) * (v - s.mun)) * (psum (fun _ => 1) l + w) = psum (fun x => x) l + v * w := by
      rw [← h3]; field_simp; ring
    refine ⟨trivial, trivial, hm, ?_, ?_, ?_⟩
    · generalize s.mun + w / (psum (fun _ => 1) l + w) * (v - s.mun) = M at hm
      rw [h4]
      rw [← h3] at hm
      linear_combination (s.mun + M) * hm
    · rw [h5]
      cases l with
      | nil => simp [minOf]
      | cons a r => simp [minOf]
    · rw [h6]
      cases l with
      | nil => simp [maxOf]
      | cons a r => simp [maxOf]

/-! ## the statistics of a list, both ways -/

/-- the values and weights of a read as pairs of numbers -/
def IsPairs (xw : XW) (l : List (Rat × Rat)) : Prop := nums xw.1 = l.map (·.1) ∧ xw.2 = l.map (·.2)

theorem IsPairs.len {xw : XW} {l : List (Rat × Rat)} (h : IsPairs xw l) : xw.1.length = xw.2.length := by
  have := congrArg List.length h.1
  rw [h.2]; simpa [nums] using this

theorem IsPairs.sum {xw : XW} {l : List (Rat × Rat)} (h : IsPairs xw l) : xw.2.sum = psum (fun _ => 1) l := by
  rw [h.2, psum]; simp

theorem IsPairs.wsum {xw : XW} {l : List (Rat × Rat)} (h : IsPairs xw l) (g : Rat → Rat) : wsum (fun v => g v.toRat) xw = psum g l := by
  have e : Mon.wsum (fun v => g v.toRat) xw = (List.zipWith (fun v w => g v * w) (nums xw.1) xw.2).sum := by
    unfold Mon.wsum nums; rw [List.zipWith_map_left]
  rw [e, h.1, h.2, List.zipWith_map, psum]
  congr 1
  induction l with
  | nil => rfl
  | cons a l ih => simp

theorem mean_both {xw : XW} {l : List (Rat × Rat)} (h : IsPairs xw l) (hw : ∀ p ∈ l, 0 < p.2) :
    (if (statsOf l).sumw ≠ 0 then some (statsOf l).mun else none) = meanOf xw := by
  obtain ⟨_, h2, h3, _⟩ := statsOf_spec l hw
  unfold meanOf
  rw [← wsum_toRat, h.sum, h.wsum (fun x => x), h2]
  split
  · rename_i hne
    rw [← h3]; field_simp
  · rfl

theorem variance_both {xw : XW} {l : List (Rat × Rat)} (h : IsPairs xw l) (hw : ∀ p ∈ l, 0 < p.2) :
    (if (statsOf l).sumw ≠ 0 then some ((statsOf l).sn / (statsOf l).sumw) else none) = varianceOf xw := by
  obtain ⟨_, h2, h3, h4, _⟩ := statsOf_spec l hw
  rw [h2]
  split
  · rename_i hne
    rw [varianceOf_eq xw h.len (by rw [h.sum]; exact hne), h.sum, h.wsum (fun x => x), h.wsum (fun x => x ^ 2), h4, ← h3]
    congr 1
    field_simp
  · rename_i hne
    unfold varianceOf
    rw [h.sum, if_neg hne]

theorem min_both {xw : XW} {l : List (Rat × Rat)} (h : IsPairs xw l) (hw : ∀ p ∈ l, 0 < p.2) :
    (if (statsOf l).n ≠ 0 then (statsOf l).mn else none) = minOf (nums xw.1) := by
  obtain ⟨h1, _, _, _, h5, _⟩ := statsOf_spec l hw
  rw [h1, h5, h.1]
  cases l <;> simp [minOf]

theorem max_both {xw : XW} {l : List (Rat × Rat)} (h : IsPairs xw l) (hw : ∀ p ∈ l, 0 < p.2) :
    (if (statsOf l).n ≠ 0 then (statsOf l).mx else none) = maxOf (nums xw.1) := by
  obtain ⟨h1, _, _, _, _, h6⟩ := statsOf_spec l hw
  rw [h1, h6, h.1]
  cases l <;> simp [maxOf]

/-! ## C20 for non level monitors -/

/-- operations: values of the type that are not infinite, positive weights, resets that do not change stats_only -/
def FineN (ty : XType) : Op → Prop
  | .tally v w => 0 < w ∧ ty.accepts v = true ∧ v ≠ .ninf
  | .reset _ s => s = none
  | _ => True

/-- the stored values and weights -/
def Holds (ty : XType) (B : Monitor) (Z : List (Val × Rat)) : Prop :=
  B.level = false ∧ B.statsOnly = false ∧ B.generated = false ∧ B.xtype = ty ∧ B.x = Z.map (·.1) ∧
  ((B.weight = .no ∧ ∀ p ∈ Z, p.2 = 1) ∨ (Z ≠ [] ∧ B.weight = .list (Z.map (·.2)))) ∧ (∀ p ∈ Z, 0 < p.2 ∧ ty.accepts p.1 = true ∧ p.1 ≠ .ninf)

/-- the values and weights as numbers, without zeros if ex0 -/
def pairs (ex0 : Bool) (Z : List (Val × Rat)) : List (Rat × Rat) :=
  (Z.map (fun p => (p.1.toRat, p.2))).filter (fun p => !ex0 || p.1 != 0)

theorem seen_zero {ty : XType} {v : Val} (ha : ty.accepts v = true) (hn : v ≠ .ninf) : (seen ty true v != .num 0) = (v.toRat != 0) := by
  unfold seen
  cases v with
  | ninf => exact absurd rfl hn
  | num q =>
    split
    · simp [Val.toRat, bne, beq_eq_decide]
    · simp [Val.force, Val.toRat, bne, beq_eq_decide]
  | obj a b c =>
    have : ty = .any := by cases ty <;> simp [XType.accepts] at ha ⊢
    subst this
    simp [XType.coded, Val.force, bne, beq_eq_decide]

theorem Holds.fresh {ty : XType} {B : Monitor} {Z : List (Val × Rat)} (h : Holds ty B Z) (now : Rat) (ex0 : Bool) :
    IsPairs (B.fresh now ex0 true) (pairs ex0 Z) := by
  obtain ⟨h1, _, _, h4, h5, h6, h7⟩ := h
  have hfil : ∀ Z : List (Val × Rat), (∀ p ∈ Z, 0 < p.2 ∧ ty.accepts p.1 = true ∧ p.1 ≠ .ninf) →
      nums ((Z.map (fun p => seen ty true p.1)).filter (fun v => v != .num 0)) = (pairs true Z).map (·.1) ∧
      (((Z.map (fun p => seen ty true p.1)).zip (Z.map (·.2))).filter (fun p => p.1 != .num 0)).map (·.2) = (pairs true Z).map (·.2) := by
    intro Z
    induction Z with
    | nil => intro _; exact ⟨rfl, rfl⟩
    | cons a Z ih =>
      intro hh
      obtain ⟨i1, i2⟩ := ih (fun p hp => hh p (by simp [hp]))
      obtain ⟨_, a2, a3⟩ := hh a (by simp)
      have hz := seen_zero a2 a3
      unfold nums pairs at *
      simp only [List.map_cons, List.filter_cons, List.zip_cons_cons, hz, Bool.not_true, Bool.false_or] at i1 i2 ⊢
      by_cases hq : (a.1.toRat != 0) = true
      · simp only [hq, if_true, List.map_cons, i1, i2, seen_toRat]; exact ⟨trivial, trivial⟩
      · simp only [hq, Bool.false_eq_true, if_false, i1, i2]; exact ⟨trivial, trivial⟩
  have hlen : ∀ Z : List (Val × Rat), (∀ p ∈ Z, p.2 = 1) → ∀ q : Rat × Rat → Bool,
      (((Z.map (fun p => (p.1.toRat, p.2))).filter q).map (·.2)) = List.replicate ((Z.map (fun p => (p.1.toRat, p.2))).filter q).length 1 := by
    intro Z hh q
    rw [List.eq_replicate_iff]
    refine ⟨by simp, ?_⟩
    intro b hb
    obtain ⟨p, hp, rfl⟩ := List.mem_map.1 hb
    obtain ⟨z, hz, rfl⟩ := List.mem_map.1 (List.mem_filter.1 hp).1
    exact hh z hz
  have hnums : nums (Z.map (fun p => seen ty true p.1)) = (pairs false Z).map (·.1) := by
    unfold nums pairs; simp [List.map_map, Function.comp_def, seen_toRat]
  obtain ⟨f1, f2⟩ := hfil Z h7
  unfold Monitor.fresh
  simp only [h1, Bool.false_eq_true, if_false, values_eq, h4, h5, List.map_map]
  have hcomp : (seen ty true ∘ fun x : Val × Rat => x.1) = fun p => seen ty true p.1 := rfl
  rw [hcomp]
  rcases h6 with ⟨hno, hone⟩ | ⟨hne, hlist⟩
  · rw [hno]
    cases ex0 with
    | false =>
      simp only [Bool.false_eq_true, if_false]
      refine ⟨hnums, ?_⟩
      have := hlen Z hone (fun p => !false || p.1 != 0)
      unfold pairs
      rw [this]; simp
    | true =>
      simp only [if_true]
      refine ⟨f1, ?_⟩
      have := hlen Z hone (fun p => !true || p.1 != 0)
      have e := congrArg List.length f1
      unfold pairs at e ⊢
      rw [this]
      simp only [nums, List.length_map] at e
      rw [e]
  · rw [hlist]
    cases hZ : Z with
    | nil => exact absurd hZ hne
    | cons z zs =>
      rw [hZ] at f1 f2 hnums
      cases ex0 with
      | false =>
        simp only [List.map_cons, Bool.false_eq_true, if_false]
        exact ⟨hnums, by simp [pairs, List.map_map, Function.comp_def]⟩
      | true =>
        simp only [List.map_cons, if_true]
        simp only [List.map_cons] at f1 f2
        exact ⟨f1, f2⟩

/-- the relation between a stats_only monitor and one with all tallies -/
def SimN (ty : XType) (A B : Monitor) (Z : List (Val × Rat)) : Prop :=
  Holds ty B Z ∧ A.level = false ∧ A.statsOnly = true ∧ A.generated = false ∧ A.on = B.on ∧ A.all = statsOf (pairs false Z) ∧ A.ex0 = statsOf (pairs true Z)

theorem pairs_snoc (ex0 : Bool) (Z : List (Val × Rat)) (v : Val) (w : Rat) :
    pairs ex0 (Z ++ [(v, w)]) = if !ex0 || v.toRat != 0 then pairs ex0 Z ++ [(v.toRat, w)] else pairs ex0 Z := by
  unfold pairs
  rw [List.map_append, List.filter_append]
  split
  · rename_i h; simp [List.filter_cons, h]
  · rename_i h; simp [List.filter_cons, h]

theorem push_list {ws : Weights} {Z : List (Val × Rat)} (h6 : (ws = .no ∧ ∀ p ∈ Z, p.2 = 1) ∨ (Z ≠ [] ∧ ws = .list (Z.map (·.2)))) (v : Val) (w : Rat) :
    (ws.push Z.length w = .no ∧ ∀ p ∈ Z ++ [(v, w)], p.2 = 1) ∨ (Z ++ [(v, w)] ≠ [] ∧ ws.push Z.length w = .list ((Z ++ [(v, w)]).map (·.2))) := by
  rcases h6 with ⟨rfl, hone⟩ | ⟨hne, rfl⟩
  · unfold Weights.push
    by_cases hw : w = 1
    · left
      refine ⟨by simp [hw], ?_⟩
      intro p hp
      rcases List.mem_append.1 hp with hp | hp
      · exact hone p hp
      · simp at hp; subst hp; exact hw
    · right
      refine ⟨by simp, ?_⟩
      simp only [hw, if_false, List.map_append, List.map_singleton]
      congr 2
      symm
      rw [List.eq_replicate_iff]
      refine ⟨by simp, ?_⟩
      intro b hb
      obtain ⟨p, hp, rfl⟩ := List.mem_map.1 hb
      exact hone p hp
  · right
    refine ⟨by simp, ?_⟩
    unfold Weights.push
    have : Z.map (·.2) ≠ [] := by simpa using hne
    simp [hne]

theorem SimN.apply {ty : XType} {A B : Monitor} {Z : List (Val × Rat)} (h : SimN ty A B Z) {e : Rat × Op} (hf : FineN ty e.2) :
    ∃ Z', SimN ty (A.apply e) (B.apply e) Z' := by
  obtain ⟨hB, a1, a2, a3, a4, a5, a6⟩ := h
  have hB0 := hB
  obtain ⟨b1, b2, b3, b4, b5, b6, b7⟩ := hB
  obtain ⟨now, op⟩ := e
  cases op with
  | tally v w =>
    obtain ⟨hw, hacc, hninf⟩ := hf
    show ∃ Z', SimN ty (A.doTally now v w).1 (B.doTally now v w).1 Z'
    unfold Monitor.doTally
    simp only [a1, a2, a3, b1, b2, b3, Bool.false_eq_true, if_false, if_true]
    by_cases hon : B.on = true
    · simp only [hon, if_true, b4, hacc]
      refine ⟨Z ++ [(v, w)], ⟨rfl, rfl, rfl, rfl, ?_, ?_, ?_⟩, ?_⟩
      · show B.x ++ [v] = _
        rw [b5]; simp
      · show (B.weight.push B.x.length w = _ ∧ _) ∨ _
        have := push_list b6 v w
        rw [b5, List.length_map]
        exact this
      · intro p hp
        rcases List.mem_append.1 hp with hp | hp
        · exact b7 p hp
        · simp at hp; subst hp; exact ⟨hw, hacc, hninf⟩
      · have hA : A.on = true := by rw [a4]; exact hon
        unfold Monitor.addStats
        simp only [hA, Bool.true_and, bne_iff_ne, ne_eq, hw.ne', not_false_eq_true, if_true]
        refine ⟨a1, a2, a3, trivial, ?_, ?_⟩
        · rw [pairs_snoc]; simp [statsOf_snoc, a5]
        · rw [pairs_snoc]
          by_cases hz : v.toRat = 0
          · simp [hz, a6]
          · simp [hz, a6, statsOf_snoc]
    · have hA : A.on = false := by rw [a4]; simpa using hon
      refine ⟨Z, ?_⟩
      simp only [hon, if_false]
      unfold Monitor.addStats
      simp only [hA, Bool.false_and, Bool.false_eq_true, if_false]
      refine ⟨⟨rfl, rfl, rfl, b4, b5, b6, b7⟩, a1, a2, a3, ?_, a5, a6⟩
      rw [hA]
  | monitor b =>
    refine ⟨Z, ?_⟩
    show SimN ty (A.setMonitor now (some b)).1 (B.setMonitor now (some b)).1 Z
    unfold Monitor.setMonitor
    simp only [a1, a2, a3, b1, b2, b3, Bool.false_eq_true, if_false, if_true, Bool.and_false]
    exact ⟨⟨rfl, rfl, rfl, b4, b5, b6, b7⟩, rfl, rfl, rfl, rfl, a5, a6⟩
  | reset b so =>
    cases hf
    show ∃ Z', SimN ty (A.reset now b none).1 (B.reset now b none).1 Z'
    refine ⟨[], ?_⟩
    unfold Monitor.reset
    simp only [a1, a2, a3, b1, b2, b3, Bool.false_eq_true, if_false, if_true, Option.getD_none, a4]
    cases b with
    | none =>
      refine ⟨⟨rfl, rfl, rfl, b4, rfl, Or.inl ⟨rfl, by simp⟩, by simp⟩, rfl, rfl, rfl, rfl, rfl, rfl⟩
    | some b =>
      unfold Monitor.setMonitor
      simp only [Bool.false_eq_true, if_false, if_true, Bool.and_false]
      exact ⟨⟨rfl, rfl, rfl, b4, rfl, Or.inl ⟨rfl, by simp⟩, by simp⟩, rfl, rfl, rfl, rfl, rfl, rfl⟩
  | read ex0 fn =>
    refine ⟨Z, ?_⟩
    show SimN ty (if A.statsOnly then A else _) (if B.statsOnly then B else (B.xweight now ex0 fn).2) Z
    simp only [a2, b2, if_true, Bool.false_eq_true, if_false]
    unfold Monitor.xweight
    split
    · exact ⟨hB0, a1, a2, a3, a4, a5, a6⟩
    · exact ⟨⟨b1, b2, b3, b4, b5, b6, b7⟩, a1, a2, a3, a4, a5, a6⟩
  | addNow =>
    refine ⟨Z, ?_⟩
    show SimN ty (if A.statsOnly && A.level then _ else A) (if B.statsOnly && B.level then _ else B) Z
    simp only [a1, b1, Bool.and_false, Bool.false_eq_true, if_false]
    exact ⟨hB0, a1, a2, a3, a4, a5, a6⟩

theorem simN_run {ty : XType} {h : List (Rat × Op)} : ∀ {A B : Monitor} {Z : List (Val × Rat)}, SimN ty A B Z → (∀ e ∈ h, FineN ty e.2) →
    ∃ Z', SimN ty (A.run h) (B.run h) Z' := by
  induction h with
  | nil => exact fun hS _ => ⟨_, hS⟩
  | cons e h ih =>
    intro A B Z hS hf
    obtain ⟨Z', hS'⟩ := hS.apply (hf e (by simp))
    exact ih hS' (fun a ha => hf a (by simp [ha]))

theorem simN_create (ty : XType) (b : Bool) (t0 : Rat) : SimN ty (create false none ty true b t0).1 (create false none ty false b t0).1 [] := by
  cases b <;> exact ⟨⟨rfl, rfl, rfl, rfl, rfl, Or.inl ⟨rfl, by simp⟩, by simp⟩, rfl, rfl, rfl, rfl, rfl, rfl⟩

theorem pairs_pos {ty : XType} {B : Monitor} {Z : List (Val × Rat)} (h : Holds ty B Z) (ex0 : Bool) : ∀ p ∈ pairs ex0 Z, 0 < p.2 := by
  intro p hp
  obtain ⟨z, hz, rfl⟩ := List.mem_map.1 (List.mem_filter.1 hp).1
  exact (h.2.2.2.2.2.2 z hz).1

/-- C20 for non level monitors: after any history of tallies (values of the type, positive weights), switching on and off, resets and reads, a stats_only
monitor has the same number of entries, weight, mean, standard deviation, minimum and maximum as one that stores all, with and without zeros.
`Full statement`: also for level monitors and tallies with weight 0; see `C20_level_partial` and the counterexamples below. -/
theorem C20_plain (ty : XType) (b : Bool) (t0 : Rat) (h : List (Rat × Op)) (hf : ∀ e ∈ h, FineN ty e.2) (now : Rat) (ex0 : Bool) :
    let A := (create false none ty true b t0).1.run h
    let B := (create false none ty false b t0).1.run h
    A.numberOfEntries now ex0 = B.numberOfEntries now ex0 ∧ A.sysWeight now ex0 = B.sysWeight now ex0 ∧ A.mean now ex0 = B.mean now ex0 ∧
    A.variance now ex0 = B.variance now ex0 ∧ A.minimum now ex0 = B.minimum now ex0 ∧ A.maximum now ex0 = B.maximum now ex0 := by
  intro A B
  obtain ⟨Z, hB, a1, a2, a3, a4, a5, a6⟩ := simN_run (simN_create ty b t0) hf
  have hx : (B.xweight now ex0 true).1 = B.fresh now ex0 true := C21_plain ty b t0 h now ex0 true
  have hP : IsPairs (B.fresh now ex0 true) (pairs ex0 Z) := hB.fresh now ex0
  have hst : A.stats ex0 = statsOf (pairs ex0 Z) := by
    unfold Monitor.stats
    cases ex0 with
    | false => exact a5
    | true => exact a6
  have hpos := pairs_pos hB ex0
  obtain ⟨s1, s2, _⟩ := statsOf_spec _ hpos
  have hAs : A.statsOnly = true := a2
  have hAl : A.level = false := a1
  have hBs : B.statsOnly = false := hB.2.1
  have hBl : B.level = false := hB.1
  refine ⟨?_, ?_, ?_, ?_, ?_, ?_⟩
  · unfold Monitor.numberOfEntries
    simp only [hAl, hAs, hBl, hBs, Bool.false_eq_true, if_false, if_true, hx, hst, s1]
    have := congrArg List.length hP.1
    simp only [nums, List.length_map] at this
    rw [this]
  · unfold Monitor.sysWeight
    simp only [hAs, hBs, Bool.false_eq_true, if_false, if_true, hx, hst, s2, hP.sum]
  · unfold Monitor.mean
    simp only [hAs, hAl, hBs, Bool.false_eq_true, if_false, if_true, hx, hst]
    exact mean_both hP hpos
  · unfold Monitor.variance
    simp only [hAs, hAl, hBs, Bool.false_eq_true, if_false, if_true, hx, hst]
    exact variance_both hP hpos
  · unfold Monitor.minimum
    simp only [hAs, hBs, Bool.false_eq_true, if_false, if_true, hx, hst]
    exact min_both hP hpos
  · unfold Monitor.maximum
    simp only [hAs, hBs, Bool.false_eq_true, if_false, if_true, hx, hst]
    exact max_both hP hpos

/-- C20 fails for a tally with weight 0: it is an entry, and the minimum, of a monitor that stores all; a stats_only monitor skips it -/
theorem C20_weight_zero_counterexample :
    let h := [((0 : Rat), Op.tally (.num (-1)) 0), (1, .tally (.num 5) 1)]
    let A := (create false none .any true true 0).1.run h
    let B := (create false none .any false true 0).1.run h
    A.numberOfEntries 1 false = .ok 1 ∧ B.numberOfEntries 1 false = .ok 2 ∧ A.minimum 1 false = some 5 ∧ B.minimum 1 false = some (-1) := by decide +kernel

example :
    let h := [((0 : Rat), Op.tally (.num 3) 2), (1, .tally (.num 0) 1), (1, .monitor false), (2, .tally (.num 9) 1), (3, .monitor true), (3, .tally (.num 5) 1)]
    (∀ e ∈ h, FineN .any e.2) ∧ ((create false none .any true true 0).1.run h).mean 3 false = some (11 / 4) ∧
      ((create false none .any false true 0).1.run h).mean 3 false = some (11 / 4) ∧ ((create false none .any true true 0).1.run h).variance 3 true = some (8 / 9) := by
  refine ⟨?_, by decide +kernel⟩
  intro e he
  simp only [List.mem_cons, List.not_mem_nil, or_false] at he
  rcases he with rfl | rfl | rfl | rfl | rfl | rfl <;> simp [FineN, XType.accepts]

/-! ## C20 for level monitors -/

/-- operations that a level monitor of this type accepts, and resets that do not change stats_only -/
def FineS (ty : XType) : Op → Prop
  | .tally v w => w = 1 ∧ ty.accepts v = true ∧ v ≠ ty.off
  | .reset _ s => s = none
  | _ => True

theorem FineS.fine {ty : XType} {op : Op} (h : FineS ty op) : Fine ty op := by
  cases op with
  | tally v w => exact h
  | reset b s => cases h; simp [Fine]
  | _ => trivial

/-- add a value with a weight, unless the weight is 0 -/
def addL (l : List (Rat × Rat)) (q w : Rat) : List (Rat × Rat) := if w = 0 then l else l ++ [(q, w)]

theorem psum_addL (g : Rat → Rat) (l : List (Rat × Rat)) (q w : Rat) : psum g (addL l q w) = psum g l + g q * w := by
  unfold addL; split
  · rename_i h; simp [h]
  · rw [psum_snoc]

/-- the zeros left out -/
def noZero (l : List (Rat × Rat)) : List (Rat × Rat) := l.filter (fun p => p.1 != 0)

theorem noZero_snoc (l : List (Rat × Rat)) (q w : Rat) : noZero (l ++ [(q, w)]) = if q ≠ 0 then noZero l ++ [(q, w)] else noZero l := by
  unfold noZero
  rw [List.filter_append]
  by_cases h : q = 0 <;> simp [h]

theorem psum_noZero (g : Rat → Rat) (l : List (Rat × Rat)) : psum g (noZero l) = psum (fun x => if x ≠ 0 then g x else 0) l := by
  unfold psum noZero
  induction l with
  | nil => rfl
  | cons a l ih =>
    by_cases h : a.1 = 0
    · simp [h] at ih ⊢; exact ih
    · simp [h] at ih ⊢; exact ih

/-- a stats_only level monitor: its statistics are those of the list `l` of values with durations up to `T` -/
structure RepS (A : Monitor) (s : Sig) (l : List (Rat × Rat)) : Prop where
  level : A.level = true
  stats : A.statsOnly = true
  gen : A.generated = false
  on : A.on = s.on
  tally : A.tally = s.cur
  all : A.all = statsOf l
  ex0 : A.ex0 = statsOf (noZero l)
  pos : ∀ p ∈ l, 0 < p.2

theorem pos_addL {l : List (Rat × Rat)} (h : ∀ p ∈ l, 0 < p.2) {q w : Rat} (hw : 0 ≤ w) : ∀ p ∈ addL l q w, 0 < p.2 := by
  unfold addL
  split
  · exact h
  · rename_i hne
    intro p hp
    rcases List.mem_append.1 hp with hp | hp
    · exact h p hp
    · simp at hp; subst hp; exact lt_of_le_of_ne hw (Ne.symm hne)

theorem RepS.addStats {A : Monitor} {s : Sig} {l : List (Rat × Rat)} (h : RepS A s l) (hon : s.on = true) {v : Val} {w : Rat} (hw : 0 ≤ w) :
    RepS (A.addStats v w) s (addL l v.toRat w) := by
  have hA : A.on = true := by rw [h.on]; exact hon
  unfold Monitor.addStats addL
  by_cases h0 : w = 0
  · simp only [hA, h0, bne_self_eq_false, Bool.and_false, Bool.false_eq_true, if_false, if_true]; exact h
  · have hb : (w != 0) = true := by simp [h0]
    simp only [hA, hb, Bool.and_self, if_true, h0, if_false]
    exact { level := h.level, stats := h.stats, gen := h.gen, on := h.on.symm ▸ hA.symm ▸ rfl, tally := h.tally
            all := by rw [statsOf_snoc, ← h.all]
            ex0 := by
              show (if v.toRat ≠ 0 then A.ex0.add v.toRat w else A.ex0) = _
              rw [noZero_snoc]
              by_cases hz : v.toRat ≠ 0
              · rw [if_pos hz, if_pos hz, statsOf_snoc, ← h.ex0]
              · rw [if_neg hz, if_neg hz]; exact h.ex0
            pos := by have := pos_addL h.pos (q := v.toRat) hw; unfold addL at this; rw [if_neg h0] at this; exact this }

theorem RepS.doTally {A : Monitor} {s : Sig} {l : List (Rat × Rat)} (h : RepS A s l) {now : Rat} (hT : s.on = true → A.ttallyMonitored ≤ now) (v : Val) :
    RepS (A.doTally now v 1).1 { s with cur := v } (if s.on then addL l s.cur.toRat (now - A.ttallyMonitored) else l) ∧
    (s.on = true → (A.doTally now v 1).1.ttallyMonitored = now) := by
  unfold Monitor.doTally
  simp only [h.level, h.stats, h.gen, Bool.false_eq_true, if_false, if_true, ne_eq, not_true]
  by_cases hon : s.on = true
  · have hA : A.on = true := by rw [h.on]; exact hon
    simp only [hA, if_true, hon]
    have h0 : RepS ({ A with ttallyMonitored := now, tally := v, ttally := now } : Monitor) { s with cur := v } l :=
      { level := h.level, stats := h.stats, gen := h.gen, on := h.on, tally := rfl, all := h.all, ex0 := h.ex0, pos := h.pos }
    have h1 := h0.addStats hon (v := A.tally) (w := now - A.ttallyMonitored) (by have := hT hon; linarith)
    have hfr : ∀ (m : Monitor) a b, (m.addStats a b).ttallyMonitored = m.ttallyMonitored := by
      intro m a b; unfold Monitor.addStats; split <;> rfl
    rw [h.tally] at h1 ⊢
    refine ⟨?_, fun _ => hfr _ _ _⟩
    simpa only [h.level, h.stats, h.gen, hA, hon] using h1
  · have hA : A.on = false := by rw [h.on]; simpa using hon
    simp only [hA, Bool.false_eq_true, if_false, hon]
    exact ⟨{ level := rfl, stats := rfl, gen := rfl, on := by simp [hon], tally := rfl, all := h.all, ex0 := h.ex0, pos := h.pos }, fun h => absurd h (by simp)⟩

theorem RepS.addNow {A : Monitor} {s : Sig} {l : List (Rat × Rat)} (h : RepS A s l) {now : Rat} (hT : s.on = true → A.ttallyMonitored ≤ now) :
    RepS (A.tallyAddNow now) s (if s.on then addL l s.cur.toRat (now - A.ttallyMonitored) else l) ∧
    (s.on = true → (A.tallyAddNow now).ttallyMonitored = now) := by
  obtain ⟨h1, h2⟩ := h.doTally hT A.tally
  unfold Monitor.tallyAddNow
  have e : ({ s with cur := A.tally } : Sig) = s := by rw [h.tally]
  rw [e] at h1
  exact ⟨{ level := h1.level, stats := h1.stats, gen := h1.gen, on := h1.on, tally := h1.tally, all := h1.all, ex0 := h1.ex0, pos := h1.pos }, h2⟩

theorem RepS.setMonitor {A : Monitor} {s : Sig} {l : List (Rat × Rat)} (h : RepS A s l) {now : Rat} (hT : s.on = true → A.ttallyMonitored ≤ now) (b : Bool) :
    RepS (A.setMonitor now (some b)).1 { s with on := b } (if s.on then addL l s.cur.toRat (now - A.ttallyMonitored) else l) ∧
    (A.setMonitor now (some b)).1.ttallyMonitored = now := by
  have e : (A.setMonitor now (some b)).1 = { (if s.on then A.tallyAddNow now else A) with ttallyMonitored := now, on := b } := by
    unfold Monitor.setMonitor
    simp only [h.stats, if_true, h.level, Bool.and_true, h.on]
  rw [e]
  refine ⟨?_, rfl⟩
  obtain ⟨d, _⟩ := h.addNow hT
  by_cases ho : s.on = true
  · rw [if_pos ho] at d ⊢
    rw [if_pos ho]
    exact { level := d.level, stats := d.stats, gen := d.gen, on := rfl, tally := d.tally, all := d.all, ex0 := d.ex0, pos := d.pos }
  · rw [if_neg ho, if_neg ho]
    exact { level := h.level, stats := h.stats, gen := h.gen, on := rfl, tally := h.tally, all := h.all, ex0 := h.ex0, pos := h.pos }

theorem RepS.reset {A : Monitor} {s : Sig} {l : List (Rat × Rat)} (h : RepS A s l) (now : Rat) (b : Option Bool) :
    RepS (A.reset now b none).1 { s with on := b.getD s.on, start := now } [] ∧ (A.reset now b none).1.ttallyMonitored = now := by
  have e : A.reset now b none = ({ A with on := b.getD A.on, start := now, all := {}, ex0 := {}, ttallyMonitored := now, weight := .no, cache := [] } : Monitor).setMonitor now b := by
    unfold Monitor.reset
    simp only [h.gen, Option.getD_none, h.stats, h.level, Bool.false_eq_true, if_false, if_true]
  have h0 : RepS ({ A with on := b.getD A.on, start := now, all := {}, ex0 := {}, ttallyMonitored := now, weight := .no, cache := [] } : Monitor)
      { s with on := b.getD s.on, start := now } [] :=
    { level := h.level, stats := h.stats, gen := h.gen, on := by rw [h.on], tally := h.tally, all := rfl, ex0 := rfl, pos := by simp }
  rw [e]
  cases b with
  | none => exact ⟨h0, rfl⟩
  | some b =>
    obtain ⟨d, d2⟩ := h0.setMonitor (now := now) (fun _ => le_rfl) b
    refine ⟨?_, d2⟩
    simpa [addL] using d

/-- the integrand for a function of the number of a value -/
def lift (off : Val) (g : Rat → Rat) (v : Val) : Rat := if v = off then 0 else g v.toRat

/-- after any history the statistics and what is still to be added make the integral of the signal -/
theorem statsLevel_run {ty : XType} {v : Option Val} {b : Bool} {t0 : Rat} (ha : ty.accepts (v.getD (.num 0)) = true) (hno : v.getD (.num 0) ≠ ty.off)
    (h : List (Rat × Op)) : ∀ now, Chrono t0 h now → (∀ e ∈ h, FineS ty e.2) →
    let A := (create true v ty true b t0).1.run h
    ∃ l, RepS A (signal (born v b t0) h) l ∧ ((signal (born v b t0) h).on = true → A.ttallyMonitored ≤ now) ∧ (signal (born v b t0) h).cur ≠ ty.off ∧
      ty.accepts (signal (born v b t0) h).cur = true ∧
      (∀ g n', psum g l + (if (signal (born v b t0) h).on then g (signal (born v b t0) h).cur.toRat * (n' - A.ttallyMonitored) else 0) =
        integral (lift ty.off g) ty.off (born v b t0) t0 h n') := by
  induction h using List.reverseRecOn with
  | nil =>
    intro now hc _
    rw [chrono_nil] at hc
    refine ⟨[], ?_, ?_, hno, ha, ?_⟩
    · have base : ∀ (m : Monitor) (s : Sig), m.level = true → m.statsOnly = true → m.generated = false → m.on = s.on → m.tally = s.cur → m.all = {} → m.ex0 = {} → RepS m s [] :=
        fun m s h1 h2 h3 h4 h5 h6 h7 => ⟨h1, h2, h3, h4, h5, h6, h7, by simp⟩
      have e : (create true v ty true b t0).1.all = {} ∧ (create true v ty true b t0).1.ex0 = {} := by
        cases b
        · exact ⟨rfl, rfl⟩
        · unfold create Monitor.reset Monitor.setMonitor Monitor.tallyAddNow Monitor.doTally Monitor.addStats
          simp
      apply base
      · cases b
        · rfl
        · unfold Monitor.run create Monitor.reset Monitor.setMonitor Monitor.tallyAddNow Monitor.doTally Monitor.addStats; simp
      · cases b
        · rfl
        · unfold Monitor.run create Monitor.reset Monitor.setMonitor Monitor.tallyAddNow Monitor.doTally Monitor.addStats; simp
      · cases b
        · rfl
        · unfold Monitor.run create Monitor.reset Monitor.setMonitor Monitor.tallyAddNow Monitor.doTally Monitor.addStats; simp
      · cases b
        · rfl
        · unfold Monitor.run create Monitor.reset Monitor.setMonitor Monitor.tallyAddNow Monitor.doTally Monitor.addStats; simp [signal, born]
      · cases b
        · rfl
        · unfold Monitor.run create Monitor.reset Monitor.setMonitor Monitor.tallyAddNow Monitor.doTally Monitor.addStats; simp [signal, born]
      · exact e.1
      · exact e.2
    · intro _
      have : ((create true v ty true b t0).1.run []).ttallyMonitored = t0 := by cases b <;> rfl
      rw [this]; exact hc
    · intro g n'
      have : ((create true v ty true b t0).1.run []).ttallyMonitored = t0 := by cases b <;> rfl
      rw [this]
      cases b
      · simp [psum, signal, born, integral, lift, Sig.val]
      · simp only [signal, List.foldl_nil, born, integral, lift, Sig.val, psum, List.map_nil, List.sum_nil, if_true]
        rw [if_neg hno]
  | append_singleton h e ih =>
    intro now hc hf
    rw [chrono_snoc] at hc
    obtain ⟨l, hR, hT, hcur, hacc, hI⟩ := ih e.1 hc.1 (fun a ha => hf a (by simp [ha]))
    have hfe := hf e (by simp)
    have hrun : (create true v ty true b t0).1.run (h ++ [e]) = ((create true v ty true b t0).1.run h).apply e := by simp [Monitor.run]
    have hsig : signal (born v b t0) (h ++ [e]) = (signal (born v b t0) h).step e := by simp [signal]
    simp only [hrun, hsig, integral_snoc]
    generalize (create true v ty true b t0).1.run h = A at *
    generalize signal (born v b t0) h = s at *
    obtain ⟨te, op⟩ := e
    simp only at hT hI hc
    have key : ∀ (A' : Monitor) (s' : Sig) (l' : List (Rat × Rat)), RepS A' s' l' → (s'.on = true → A'.ttallyMonitored = te) → s'.cur ≠ ty.off →
        ty.accepts s'.cur = true → (∀ g, psum g l' = integral (lift ty.off g) ty.off (born v b t0) t0 h te) →
        ∃ l, RepS A' s' l ∧ (s'.on = true → A'.ttallyMonitored ≤ now) ∧ s'.cur ≠ ty.off ∧ ty.accepts s'.cur = true ∧
          (∀ g n', psum g l + (if s'.on then g s'.cur.toRat * (n' - A'.ttallyMonitored) else 0) =
            integral (lift ty.off g) ty.off (born v b t0) t0 h te + lift ty.off g (s'.val ty.off) * (n' - te)) := by
      intro A' s' l' k1 k2 k3 k4 k5
      refine ⟨l', k1, fun ho => by rw [k2 ho]; exact hc.2, k3, k4, ?_⟩
      intro g n'
      rw [k5]
      by_cases ho : s'.on = true
      · rw [if_pos ho, k2 ho]; simp [Sig.val, ho, lift, k3]
      · rw [if_neg ho]; simp [Sig.val, ho, lift]
    have done : ∀ g, psum g (if s.on then addL l s.cur.toRat (te - A.ttallyMonitored) else l) = integral (lift ty.off g) ty.off (born v b t0) t0 h te := by
      intro g
      rw [← hI g te]
      split
      · rw [psum_addL]
      · ring
    cases op with
    | tally v' w =>
      obtain ⟨rfl, f1, f2⟩ := hfe
      obtain ⟨d1, d2⟩ := hR.doTally hT v'
      exact key _ _ _ d1 d2 f2 f1 done
    | monitor b' =>
      obtain ⟨d1, d2⟩ := hR.setMonitor hT b'
      exact key _ _ _ d1 (fun _ => d2) hcur hacc done
    | reset b' so =>
      cases hfe
      obtain ⟨d1, d2⟩ := hR.reset te b'
      refine ⟨[], d1, fun _ => le_of_eq_of_le d2 hc.2, hcur, hacc, ?_⟩
      intro g n'
      show psum g [] + (if b'.getD s.on then g s.cur.toRat * (n' - (A.reset te b' none).1.ttallyMonitored) else 0) =
        0 + lift ty.off g (if b'.getD s.on then s.cur else ty.off) * (n' - te)
      rw [d2]
      by_cases ho : b'.getD s.on = true
      · rw [if_pos ho, if_pos ho]; simp [lift, hcur, psum]
      · rw [if_neg ho, if_neg ho]; simp [lift, psum]
    | read ex0 fn =>
      have e1 : A.apply (te, .read ex0 fn) = A := by simp [Monitor.apply, hR.stats]
      rw [e1]
      refine ⟨l, hR, fun ho => le_trans (hT ho) hc.2, hcur, hacc, ?_⟩
      intro g n'
      show psum g l + (if s.on then _ else 0) = _ + lift ty.off g (s.val ty.off) * _
      rw [← hI g te]
      by_cases ho : s.on = true
      · simp only [ho, if_true, Sig.val, lift, hcur, if_false, Sig.step]; ring
      · simp [ho, Sig.val, lift, Sig.step]
    | addNow =>
      have e1 : A.apply (te, .addNow) = A.tallyAddNow te := by simp [Monitor.apply, hR.stats, hR.level]
      rw [e1]
      obtain ⟨d1, d2⟩ := hR.addNow hT
      exact key _ _ _ d1 d2 hcur hacc done

theorem nonzero_iff {ty : XType} {v : Val} (ha : ty.accepts v = true) (hno : v ≠ ty.off) : nonzero ty v ↔ v.toRat ≠ 0 := by
  unfold nonzero seen
  cases v with
  | num q => cases ty <;> simp [XType.coded, Val.force, Val.toRat]
  | ninf => cases ty <;> simp [XType.accepts, XType.off] at ha hno
  | obj s i f => cases ty <;> simp [XType.accepts, XType.coded, Val.force] at ha ⊢

theorem included_iff {ty : XType} {v : Val} (ha : ty.accepts v = true) (hno : v ≠ ty.off) (ex0 : Bool) : included ty ex0 v ↔ (ex0 = true → v.toRat ≠ 0) := by
  unfold included
  rw [nonzero_iff ha hno]
  simp [hno]

/-- the integral depends on the integrand at off and at the accepted values only -/
theorem integral_congr {ty : XType} {g1 g2 : Val → Rat} (h0 : g1 ty.off = g2 ty.off) (hg : ∀ v, ty.accepts v = true → v ≠ ty.off → g1 v = g2 v)
    {s : Sig} (hs : ty.accepts s.cur = true ∧ s.cur ≠ ty.off) (t0 : Rat) (h : List (Rat × Op)) (hf : ∀ e ∈ h, FineS ty e.2) (now : Rat) :
    integral g1 ty.off s t0 h now = integral g2 ty.off s t0 h now := by
  have hval : ∀ s : Sig, (ty.accepts s.cur = true ∧ s.cur ≠ ty.off) → g1 (s.val ty.off) = g2 (s.val ty.off) := by
    intro s hs
    unfold Sig.val
    split
    · exact hg _ hs.1 hs.2
    · exact h0
  have hstep : ∀ (s : Sig) (e : Rat × Op), FineS ty e.2 → (ty.accepts s.cur = true ∧ s.cur ≠ ty.off) → (ty.accepts (s.step e).cur = true ∧ (s.step e).cur ≠ ty.off) := by
    intro s e he hs
    obtain ⟨t, op⟩ := e
    cases op with
    | tally v w => exact he.2
    | _ => exact hs
  have hsig : ∀ (h : List (Rat × Op)) (s : Sig), (∀ e ∈ h, FineS ty e.2) → (ty.accepts s.cur = true ∧ s.cur ≠ ty.off) →
      (ty.accepts (signal s h).cur = true ∧ (signal s h).cur ≠ ty.off) := by
    intro h
    induction h with
    | nil => intro s _ hs; exact hs
    | cons e h ih =>
      intro s hf hs
      exact ih (s.step e) (fun a ha => hf a (by simp [ha])) (hstep s e (hf e (by simp)) hs)
  induction h using List.reverseRecOn generalizing now with
  | nil => simp only [integral, List.foldl_nil, hval s hs]
  | append_singleton h e ih =>
    rw [integral_snoc, integral_snoc, hval _ (hstep _ _ (hf e (by simp)) (hsig h s (fun a ha => hf a (by simp [ha])) hs)),
      ih (fun a ha => hf a (by simp [ha]))]

/-- C20 for level monitors, in part: after any history of tallies, switching on and off, resets and reads, a stats_only level monitor has the same mean
and standard deviation as one that stores all, and the same duration, total and zero, provided the statistics are brought up to date (as reading the mean
does), with and without zeros. `Full statement`: the duration, the minimum, the maximum and the number of entries are the same without that; that is not
so, see the counterexamples. -/
theorem C20_level_partial (ty : XType) (v : Option Val) (b : Bool) (t0 now : Rat) (h : List (Rat × Op)) (ha : ty.accepts (v.getD (.num 0)) = true)
    (hno : v.getD (.num 0) ≠ ty.off) (hc : Chrono t0 h now) (hf : ∀ e ∈ h, FineS ty e.2) (ex0 : Bool) :
    let A := (create true v ty true b t0).1.run h
    let B := (create true v ty false b t0).1.run h
    A.mean now ex0 = B.mean now ex0 ∧ A.variance now ex0 = B.variance now ex0 ∧
    (A.tallyAddNow now).sysWeight now ex0 = B.sysWeight now ex0 ∧ (A.tallyAddNow now).sysWeightZero now = B.sysWeightZero now := by
  intro A B
  obtain ⟨l, hR, hT, hcur, hacc, hI⟩ := statsLevel_run (b := b) ha hno h now hc hf
  have hF : ∀ e ∈ h, Fine ty e.2 := fun e he => (hf e he).fine
  obtain ⟨d, _⟩ := hR.addNow hT
  obtain ⟨l', hl'⟩ : ∃ l', l' = (if (signal (born v b t0) h).on then addL l (signal (born v b t0) h).cur.toRat (now - A.ttallyMonitored) else l) := ⟨_, rfl⟩
  rw [← hl'] at d
  have hsum : ∀ g, psum g l' = integral (lift ty.off g) ty.off (born v b t0) t0 h now := by
    intro g
    rw [hl', ← hI g now]
    split
    · rw [psum_addL]
    · ring
  have hb : ty.accepts (born v b t0).cur = true ∧ (born v b t0).cur ≠ ty.off := ⟨ha, hno⟩
  let k : Bool → List (Rat × Rat) := fun ex0 => if ex0 then noZero l' else l'
  have hk : ∀ ex0, (A.tallyAddNow now).stats ex0 = statsOf (k ex0) := by
    intro ex0; cases ex0
    · exact d.all
    · exact d.ex0
  have hpos : ∀ ex0, ∀ p ∈ k ex0, 0 < p.2 := by
    intro ex0 p hp; cases ex0
    · exact d.pos p hp
    · exact d.pos p (List.mem_of_mem_filter hp)
  have hint : ∀ ex0 (g : Rat → Rat), psum g (k ex0) = integral (fun v => if included ty ex0 v then g v.toRat else 0) ty.off (born v b t0) t0 h now := by
    intro ex0 g
    have e0 : ∀ ex0, ¬ included ty ex0 ty.off := fun ex0 hi => hi.1 rfl
    cases ex0
    · show psum g l' = _
      rw [hsum]
      refine integral_congr ?_ ?_ hb t0 h hf now
      · simp [lift, e0]
      · intro v h1 h2
        simp [lift, h2, included_iff h1 h2]
    · show psum g (noZero l') = _
      rw [psum_noZero, hsum]
      refine integral_congr ?_ ?_ hb t0 h hf now
      · simp [lift, e0]
      · intro v h1 h2
        simp [lift, h2, included_iff h1 h2]
  have hw : ∀ ex0, (A.tallyAddNow now).sysWeight now ex0 = B.sysWeight now ex0 := by
    intro ex0
    obtain ⟨_, h2, _⟩ := statsOf_spec (k ex0) (hpos ex0)
    rw [C19_duration ha hno hc hF ex0]
    unfold Monitor.sysWeight
    rw [d.stats, if_pos rfl, hk, h2, hint]
  obtain ⟨_, h2, h3, h4, _⟩ := statsOf_spec (k ex0) (hpos ex0)
  refine ⟨?_, ?_, hw ex0, ?_⟩
  · rw [C19_mean ha hno hc hF ex0]
    unfold Monitor.mean
    rw [hR.stats, hR.level]
    simp only [if_true]
    rw [hk, h2, ← hint ex0 (fun _ => 1), ← hint ex0 (fun x => x)]
    split
    · rw [← h3]; congr 1; field_simp
    · rfl
  · rw [C19_variance ha hno hc hF ex0]
    unfold Monitor.variance
    rw [hR.stats, hR.level]
    simp only [if_true]
    rw [hk, h2, ← hint ex0 (fun _ => 1), ← hint ex0 (fun x => x), ← hint ex0 (fun x => x ^ 2)]
    split
    · rw [h4, ← h3]; congr 1; field_simp
    · rfl
  · unfold Monitor.sysWeightZero
    rw [hw, hw]

/-- a history that meets the hypotheses of `C20_level_partial` -/
example : Chrono 0 demoHist 8 ∧ (∀ e ∈ demoHist, FineS .any e.2) ∧ ((create true none .any true true 0).1.run demoHist).mean 8 true = some 4 := by
  refine ⟨by unfold Chrono; decide +kernel, ?_, by decide +kernel⟩
  intro e he
  simp only [demoHist, List.mem_cons, List.not_mem_nil, or_false] at he
  rcases he with rfl | rfl | rfl | rfl | rfl | rfl <;> simp [FineS, XType.accepts, XType.off]

/-- C20, the full claim is false for level monitors: a level monitor has value 0 since time 0, 5 from time 2 and 9 from time 4 up to now, time 6. With
stats_only it reports a duration of 4 and a maximum of 5. After the mean is read the duration is 6 and the maximum 9. The monitor that stores all reports 6
and 9 at once. -/
theorem C20_level_counterexample :
    let h : List (Rat × Op) := [(2, .tally (.num 5) 1), (4, .tally (.num 9) 1)]
    let A := (create true none .any true true 0).1.run h
    let B := (create true none .any false true 0).1.run h
    A.sysWeight 6 false = 4 ∧ B.sysWeight 6 false = 6 ∧ (A.tallyAddNow 6).sysWeight 6 false = 6 ∧
    A.maximum 6 false = some 5 ∧ B.maximum 6 false = some 9 ∧ (A.tallyAddNow 6).maximum 6 false = some 9 := by
  decide +kernel

end Mon
end Verif
