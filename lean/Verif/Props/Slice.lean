import Verif.Props.MonPlain

/-!
# Slices of monitors, C23
-/

namespace Verif
namespace Mon

theorem insertRun_eq {α : Type} (le : α → α → Bool) (a : α) (k : List α → List α) (T : List α) :
    insertRun le a k T = T.takeWhile (fun x => !le a x) ++ a :: k (T.dropWhile (fun x => !le a x)) := by
  induction T with
  | nil => rfl
  | cons b T ih =>
    unfold insertRun
    by_cases h : le a b = true
    · simp [h]
    · simp [h, ih]

theorem mergeTwo_pair {α : Type} (le : α → α → Bool) (a b : α) (rest T : List α) :
    mergeTwo le (a :: b :: rest) T = T.takeWhile (fun x => !le a x) ++ a :: ((T.dropWhile (fun x => !le a x)).takeWhile (fun x => !le b x) ++
      b :: mergeTwo le rest ((T.dropWhile (fun x => !le a x)).dropWhile (fun x => !le b x))) := by
  simp only [mergeTwo, insertRun_eq]

/-- in a list in which p holds up to some place, the first part is what satisfies p -/
theorem takeWhile_filter {α : Type} (p : α → Bool) (T : List α) (h : T.Pairwise (fun a b => p b = true → p a = true)) :
    T.takeWhile p = T.filter p ∧ T.dropWhile p = T.filter (fun x => !p x) := by
  induction T with
  | nil => exact ⟨rfl, rfl⟩
  | cons a T ih =>
    obtain ⟨h1, h2⟩ := List.pairwise_cons.1 h
    obtain ⟨i1, i2⟩ := ih h2
    by_cases hp : p a = true
    · simp [hp, i1, i2]
    · have : ∀ x ∈ T, p x = false := by
        intro x hx
        cases hpx : p x with
        | false => rfl
        | true => exact absurd (h1 x hx hpx) hp
      constructor
      · simp only [hp, List.takeWhile_cons, List.filter_cons, Bool.false_eq_true, if_false]
        rw [eq_comm, List.filter_eq_nil_iff]
        intro x hx; rw [this x hx]; simp
      · simp only [hp, List.dropWhile_cons, List.filter_cons, Bool.false_eq_true, if_false, Bool.not_false, if_true]
        rw [List.filter_eq_self.2]
        intro x hx; rw [this x hx]; rfl

/-- is a moment before the end of the slice -/
def beforeEnd (b : Act) (s t : Rat) : Bool := if b = .stop then decide (t < s) else decide (t ≤ s)

/-- the items of the loop: tallies before the start, start, tallies in the slice, stop, and the other actions with the tallies after it -/
theorem items_more {start s : Rat} {b : Act} (hb : b = .stop ∨ b = .stopIncl) (rest : List (Rat × Act)) {β : Type} (T : List β) (tm : β → Rat) (x : β → Val)
    (w : β → Rat) (hT : T.Pairwise (fun a c => tm a ≤ tm c)) :
    mergeTwo leAct ((start, .start) :: (s, b) :: rest) (T.map (fun z => (tm z, Act.tally (x z) (w z)))) =
      (T.filter (fun z => decide (tm z < start))).map (fun z => (tm z, Act.tally (x z) (w z))) ++ (start, .start) ::
        ((T.filter (fun z => !decide (tm z < start) && beforeEnd b s (tm z))).map (fun z => (tm z, Act.tally (x z) (w z))) ++ (s, b) ::
          mergeTwo leAct rest ((T.filter (fun z => !decide (tm z < start) && !beforeEnd b s (tm z))).map (fun z => (tm z, Act.tally (x z) (w z))))) := by
  have e1 : ∀ z : β, (!leAct (start, Act.start) (tm z, Act.tally (x z) (w z))) = decide (tm z < start) := by
    intro z
    simp only [leAct, Act.rank, Nat.zero_le, decide_true, Bool.and_true]
    rw [Bool.eq_iff_iff]
    simp only [Bool.not_eq_true', Bool.or_eq_false_iff, decide_eq_false_iff_not, decide_eq_true_eq, not_lt]
    constructor
    · rintro ⟨h1, h2⟩; exact lt_of_le_of_ne h1 (Ne.symm h2)
    · intro h; exact ⟨h.le, fun e => absurd h (by rw [e]; exact lt_irrefl _)⟩
  have e2 : ∀ z : β, (!leAct (s, b) (tm z, Act.tally (x z) (w z))) = beforeEnd b s (tm z) := by
    intro z
    unfold beforeEnd
    rcases hb with rfl | rfl
    · simp only [leAct, Act.rank, if_true]
      rw [Bool.eq_iff_iff]
      simp only [Bool.not_eq_true', Bool.or_eq_false_iff, Bool.and_eq_false_iff, decide_eq_false_iff_not, decide_eq_true_eq, not_lt]
      constructor
      · rintro ⟨h1, h2⟩
        rcases h2 with h2 | h2
        · exact lt_of_le_of_ne h1 (Ne.symm h2)
        · exact absurd h2 (by simp)
      · intro h; exact ⟨h.le, Or.inl (fun e => absurd h (by rw [e]; exact lt_irrefl _))⟩
    · simp only [leAct, Act.rank]
      rw [if_neg (by decide), Bool.eq_iff_iff]
      simp only [Bool.not_eq_true', Bool.or_eq_false_iff, Bool.and_eq_false_iff, decide_eq_false_iff_not, decide_eq_true_eq, not_lt]
      constructor
      · rintro ⟨h1, _⟩; exact h1
      · intro h; exact ⟨h, Or.inr (by simp)⟩
  have c1 : ((fun y => !leAct (start, Act.start) y) ∘ fun z : β => (tm z, Act.tally (x z) (w z))) = fun z => decide (tm z < start) := funext e1
  have c2 : ((fun y => !leAct (s, b) y) ∘ fun z : β => (tm z, Act.tally (x z) (w z))) = fun z => beforeEnd b s (tm z) := funext e2
  have p1 : T.Pairwise (fun a c => decide (tm c < start) = true → decide (tm a < start) = true) := by
    refine hT.imp ?_
    intro a c hac h
    simp only [decide_eq_true_eq] at *
    exact lt_of_le_of_lt hac h
  have hsub : (T.filter (fun z => !decide (tm z < start))).Pairwise (fun a c => beforeEnd b s (tm c) = true → beforeEnd b s (tm a) = true) := by
    refine List.Pairwise.filter _ (hT.imp ?_)
    intro a c hac h
    unfold beforeEnd at *
    split at h
    · rename_i hb'
      rw [if_pos hb']
      simp only [decide_eq_true_eq] at *
      exact lt_of_le_of_lt hac h
    · rename_i hb'
      rw [if_neg hb']
      simp only [decide_eq_true_eq] at *
      exact le_trans hac h
  obtain ⟨q1, q2⟩ := takeWhile_filter (fun z => decide (tm z < start)) T p1
  obtain ⟨q3, q4⟩ := takeWhile_filter (fun z => beforeEnd b s (tm z)) _ hsub
  rw [mergeTwo_pair]
  simp only [List.takeWhile_map, List.dropWhile_map, c1, c2]
  rw [q1, q2, q3, q4, List.filter_filter, List.filter_filter]
  congr 5
  · congr 1
    funext z; rw [Bool.and_comm]
  · congr 3
    funext z; rw [Bool.and_comm]

/-- the items of the loop: tallies before the start, start, tallies in the slice, stop, tallies after -/
theorem items_eq {start s : Rat} {b : Act} (hb : b = .stop ∨ b = .stopIncl) {β : Type} (T : List β) (tm : β → Rat) (x : β → Val) (w : β → Rat)
    (hT : T.Pairwise (fun a c => tm a ≤ tm c)) :
    mergeTwo leAct [(start, .start), (s, b)] (T.map (fun z => (tm z, Act.tally (x z) (w z)))) =
      (T.filter (fun z => decide (tm z < start))).map (fun z => (tm z, Act.tally (x z) (w z))) ++ (start, .start) ::
        ((T.filter (fun z => !decide (tm z < start) && beforeEnd b s (tm z))).map (fun z => (tm z, Act.tally (x z) (w z))) ++ (s, b) ::
          (T.filter (fun z => !decide (tm z < start) && !beforeEnd b s (tm z))).map (fun z => (tm z, Act.tally (x z) (w z)))) :=
  items_more hb [] T tm x w hT

/-! ### non level monitors -/

/-- the end of a slice and what to do there -/
def sliceEnd (now offset : Rat) : Option Rat → Rat × Act
  | none => (now - offset, .stopIncl)
  | some s => (min (s + offset) (now - offset), .stop)

theorem plainActions_eq (now offset start : Rat) (stop : Option Rat) : plainActions now offset start stop = [(start, .start), sliceEnd now offset stop] := by
  cases stop <;> rfl

theorem sliceEnd_act (now offset : Rat) (stop : Option Rat) : (sliceEnd now offset stop).2 = .stop ∨ (sliceEnd now offset stop).2 = .stopIncl := by
  cases stop
  · exact Or.inr rfl
  · exact Or.inl rfl

theorem fold_disabled (A : List (Rat × Val × Rat)) (m : Monitor) :
    (A.map (fun z => (z.1, Act.tally z.2.1 z.2.2))).foldl plainSliceRound (false, m) = (false, m) := by
  induction A with
  | nil => rfl
  | cons a A ih => rw [List.map_cons, List.foldl_cons]; exact ih

theorem fold_enabled (A : List (Rat × Val × Rat)) (m : Monitor) (Z : List (Rat × Val × Rat)) {now : Rat}
    (h : PlainOk now m Z) (hE : ∀ e ∈ A, e.1 ≤ now) (hS : (Z ++ A).Pairwise (fun a b => a.1 ≤ b.1)) :
    ∃ m', (A.map (fun z => (z.1, Act.tally z.2.1 z.2.2))).foldl plainSliceRound (true, m) = (true, m') ∧ PlainOk now m' (Z ++ A) ∧ m'.generated = m.generated := by
  induction A generalizing m Z with
  | nil => exact ⟨m, rfl, by simpa using h, rfl⟩
  | cons e E ih =>
    rw [List.append_cons] at hS ⊢
    have h' : PlainOk now (plainSliceRound (true, m) (e.1, Act.tally e.2.1 e.2.2)).2 (Z ++ [e]) := by
      refine ⟨h.level, h.full, ?_, ?_, ?_, (List.pairwise_append.1 hS).1, ?_⟩
      · show m.t ++ [e.1] = _; rw [h.ht]; simp
      · show m.x ++ [e.2.1] = _; rw [h.hx]; simp
      · rw [weights_eq]
        show weightsOf (m.weight.push m.x.length e.2.2) (m.x ++ [e.2.1]).length = _
        rw [List.length_append, List.length_singleton, weightsOf_push, ← weights_eq, h.hw]; simp
      · intro z hz
        rcases List.mem_append.1 hz with hz | hz
        · exact h.past z hz
        · simp at hz; subst hz; exact hE _ (by simp)
    obtain ⟨m', a, b, c⟩ := ih _ (Z ++ [e]) h' (fun a ha => hE a (by simp [ha])) hS
    exact ⟨m', a, b, c⟩

/-- C23 for non level monitors: slice(start, stop) has the tallies with start ≤ t < stop (up to now), with their weights, in the same order;
slice(start) those with start ≤ t. For an environment with a shifted clock: see the counterexample -/
theorem C23_plain {now : Rat} {m : Monitor} {Z : List (Rat × Val × Rat)} (hok : PlainOk now m Z) (fuel : Nat) (start : Rat) (stop : Option Rat) (offset : Rat) :
    ∃ new, slice fuel now offset m (some start) stop none = .ok new ∧
      PlainOk now new (Z.filter (fun z => decide (start ≤ z.1) && match stop with
        | none => decide (z.1 ≤ now - offset)
        | some s => decide (z.1 < s + offset) && decide (z.1 < now - offset))) := by
  refine ⟨sliceWith now m (plainActions now offset start stop), ?_, ?_⟩
  · unfold slice
    rw [hok.full]; rfl
  have hT : m.t.zip (List.zipWith Act.tally m.x m.weights) = Z.map (fun z => (z.1, Act.tally z.2.1 z.2.2)) := by
    rw [hok.ht, hok.hx, hok.hw]
    clear hok
    induction Z with
    | nil => rfl
    | cons a Z ih => simp only [List.map_cons, List.zipWith_cons_cons, List.zip_cons_cons, ih]
  have hF : Z.filter (fun z => decide (start ≤ z.1) && match stop with
        | none => decide (z.1 ≤ now - offset)
        | some s => decide (z.1 < s + offset) && decide (z.1 < now - offset)) =
      Z.filter (fun z => !decide (z.1 < start) && beforeEnd (sliceEnd now offset stop).2 (sliceEnd now offset stop).1 z.1) := by
    congr 1
    funext z
    have : (!decide (z.1 < start)) = decide (start ≤ z.1) := by rw [Bool.eq_iff_iff]; simp
    rw [this]
    congr 1
    cases stop with
    | none => rfl
    | some s =>
      unfold beforeEnd sliceEnd
      simp only [if_true]
      rw [Bool.eq_iff_iff]
      simp
  rw [hF]
  unfold sliceWith
  simp only [hok.level, Bool.false_eq_true, if_false]
  rw [plainActions_eq, hT, show sliceEnd now offset stop = ((sliceEnd now offset stop).1, (sliceEnd now offset stop).2) from rfl,
    items_eq (sliceEnd_act now offset stop) Z (·.1) (·.2.1) (·.2.2) hok.sorted]
  rw [List.foldl_append, fold_disabled, List.foldl_cons]
  show PlainOk now (finish (List.foldl plainSliceRound (true, system false m.xtype now) _).2 now) _
  rw [List.foldl_append]
  obtain ⟨m', e, hm', hg⟩ := fold_enabled (Z.filter (fun z => !decide (z.1 < start) && beforeEnd (sliceEnd now offset stop).2 (sliceEnd now offset stop).1 z.1))
    (system false m.xtype now) [] (plain_system m.xtype now).1 (fun z hz => hok.past z (List.mem_of_mem_filter hz)) (by
      rw [List.nil_append]; exact hok.sorted.filter _)
  rw [e, List.foldl_cons]
  have hoff : plainSliceRound (true, m') ((sliceEnd now offset stop).1, (sliceEnd now offset stop).2) = (false, m') := by
    rcases sliceEnd_act now offset stop with h | h <;> rw [h] <;> rfl
  rw [hoff, fold_disabled]
  rw [List.nil_append] at hm'
  rw [finish_plain hm'.level hm'.full (by rw [hg]; rfl)]
  exact hm'.same le_rfl rfl rfl rfl rfl rfl

/-! ### level monitors -/

/-- the state of the loop, when enabled -/
structure SliceOk (ty : XType) (s : SliceSt) (t : Rat) (R : List (Rat × Val)) : Prop where
  ht : s.t = R.map (·.1)
  hx : s.x = R.map (·.2)
  asc : Asc R
  last : ∃ pre a, R = pre ++ [(a, s.cur)] ∧ a ≤ t
  acc : ∀ p ∈ R, ty.accepts p.2 = true

theorem switch_put {s : SliceSt} {pre : List (Rat × Val)} {a : Rat} {c : Val} (ht : s.t = (pre ++ [(a, c)]).map (·.1)) (hx : s.x = (pre ++ [(a, c)]).map (·.2))
    (t : Rat) (v : Val) (h : a = t ∨ c ≠ v) :
    (s.switch t v).t = (putL (pre ++ [(a, c)]) t v).map (·.1) ∧ (s.switch t v).x = (putL (pre ++ [(a, c)]) t v).map (·.2) ∧ (s.switch t v).cur = s.cur ∧
      (s.switch t v).enabled = s.enabled := by
  unfold SliceSt.switch putL
  by_cases hat : a = t
  · subst hat
    have h1 : s.t.getLast? = some a := by rw [ht]; simp
    rw [if_pos h1]
    have h2 : ((pre ++ [(a, c)]).map (·.1)).getLast? = some a := by simp
    rw [if_pos h2]
    refine ⟨?_, ?_, rfl, rfl⟩
    · show s.t = _; rw [ht]; simp
    · show s.x.dropLast ++ [v] = _; rw [hx]; simp
  · have h1 : ¬ s.t.getLast? = some t := by rw [ht]; simpa using hat
    have h2 : ¬ ((pre ++ [(a, c)]).map (·.1)).getLast? = some t := by simpa using hat
    have h3 : ¬ s.x.getLast? = some v := by rw [hx]; simpa using h.resolve_left hat
    rw [if_neg h1, if_neg h2, if_neg h3]
    refine ⟨?_, ?_, rfl, rfl⟩
    · show s.t ++ [t] = _; rw [ht]; simp
    · show s.x ++ [v] = _; rw [hx]; simp

theorem putL_shape' {pre : List (Rat × Val)} {a t : Rat} {c v : Val} : ∃ pre', putL (pre ++ [(a, c)]) t v = pre' ++ [(t, v)] := by
  unfold putL
  split
  · exact ⟨_, rfl⟩
  · exact ⟨_, rfl⟩

theorem foldl_disabled (off : Val) (A : List (Rat × Val)) (s : SliceSt) (h : s.enabled = false) :
    (A.map (fun p => (p.1, Act.tally p.2 1))).foldl (sliceRound off) s = { s with cur := A.foldl (fun _ p => p.2) s.cur } := by
  induction A generalizing s with
  | nil => rfl
  | cons a A ih =>
    rw [List.map_cons, List.foldl_cons, List.foldl_cons]
    have : sliceRound off s (a.1, Act.tally a.2 1) = { s with cur := a.2 } := by
      simp only [sliceRound, h, Bool.false_and, Bool.false_eq_true, if_false]
    rw [this]
    exact ih { s with cur := a.2 } h

theorem foldl_enabled {ty : XType} (off : Val) (B : List (Rat × Val)) (s : SliceSt) (h : s.enabled = true) {t : Rat} {R : List (Rat × Val)} (hR : SliceOk ty s t R)
    (hB : ((t :: B.map (·.1))).Pairwise (· ≤ ·)) {e : Rat} (hte : t ≤ e) (hBe : ∀ p ∈ B, p.1 ≤ e) (hBa : ∀ p ∈ B, ty.accepts p.2 = true) :
    let s' := (B.map (fun p => (p.1, Act.tally p.2 1))).foldl (sliceRound off) s
    s'.enabled = true ∧ ∃ R', SliceOk ty s' e R' ∧ ∀ τ, stepAt off R' τ = B.foldl (fun v p => if p.1 ≤ τ then p.2 else v) (stepAt off R τ) := by
  induction B generalizing s t R with
  | nil =>
    refine ⟨h, R, ⟨hR.ht, hR.hx, hR.asc, ?_, hR.acc⟩, fun τ => rfl⟩
    obtain ⟨pre, a, h1, h2⟩ := hR.last
    exact ⟨pre, a, h1, le_trans h2 hte⟩
  | cons b B ih =>
    rw [List.map_cons, List.foldl_cons]
    rw [List.map_cons] at hB
    obtain ⟨hB1, hB2⟩ := List.pairwise_cons.1 hB
    have htb : t ≤ b.1 := hB1 b.1 (by simp)
    obtain ⟨pre, a, h1, h2⟩ := hR.last
    by_cases hc : s.cur = b.2
    · have hs : sliceRound off s (b.1, Act.tally b.2 1) = { s with cur := b.2 } := by
        simp [sliceRound, hc]
      rw [hs]
      have hR' : SliceOk ty { s with cur := b.2 } b.1 R := ⟨hR.ht, hR.hx, hR.asc, ⟨pre, a, by rw [h1, hc], le_trans h2 htb⟩, hR.acc⟩
      obtain ⟨g1, R', g2, g3⟩ := ih { s with cur := b.2 } h hR' hB2 (hBe b (by simp)) (fun p hp => hBe p (by simp [hp])) (fun p hp => hBa p (by simp [hp]))
      refine ⟨g1, R', g2, ?_⟩
      intro τ
      rw [g3, List.foldl_cons]
      congr 1
      by_cases hτ : b.1 ≤ τ
      · rw [if_pos hτ, h1, stepAt_snoc, if_pos (le_trans (le_trans h2 htb) hτ), hc]
      · rw [if_neg hτ]
    · have hs : sliceRound off s (b.1, Act.tally b.2 1) = { s.switch b.1 b.2 with cur := b.2 } := by
        have : (s.cur != b.2) = true := by simpa using hc
        simp only [sliceRound, h, this, Bool.and_true, if_true]
      rw [hs]
      obtain ⟨k1, k2, k3, k4⟩ := switch_put (by rw [hR.ht, h1]) (by rw [hR.hx, h1]) b.1 b.2 (Or.inr hc)
      have hA : Asc (pre ++ [(a, s.cur)]) := by rw [← h1]; exact hR.asc
      have hR' : SliceOk ty { s.switch b.1 b.2 with cur := b.2 } b.1 (putL R b.1 b.2) := by
        refine ⟨by rw [h1]; exact k1, by rw [h1]; exact k2, by rw [h1]; exact asc_putL hA (le_trans h2 htb), ?_, acc_putL hR.acc (hBa b (by simp))⟩
        obtain ⟨pre', hp⟩ := putL_shape' (pre := pre) (a := a) (t := b.1) (c := s.cur) (v := b.2)
        exact ⟨pre', b.1, by rw [h1]; exact hp, le_rfl⟩
      obtain ⟨g1, R', g2, g3⟩ := ih { s.switch b.1 b.2 with cur := b.2 } (by show (s.switch b.1 b.2).enabled = true; rw [k4]; exact h) hR' hB2 (hBe b (by simp)) (fun p hp => hBe p (by simp [hp])) (fun p hp => hBa p (by simp [hp]))
      refine ⟨g1, R', g2, ?_⟩
      intro τ
      rw [g3, List.foldl_cons]
      congr 1
      rw [h1, stepAt_putL off pre a b.1 τ s.cur b.2 (le_trans h2 htb)]

theorem foldl_val_last (A : List (Rat × Val)) (off : Val) (τ : Rat) (h : ∀ p ∈ A, p.1 ≤ τ) : A.foldl (fun _ p => p.2) off = stepAt off A τ := by
  unfold stepAt
  induction A generalizing off with
  | nil => rfl
  | cons a A ih =>
    rw [List.foldl_cons, List.foldl_cons, if_pos (h a (by simp))]
    exact ih _ (fun p hp => h p (by simp [hp]))

theorem foldl_late (B : List (Rat × Val)) (v : Val) (τ : Rat) (h : ∀ p ∈ B, τ < p.1) : B.foldl (fun v p => if p.1 ≤ τ then p.2 else v) v = v := by
  induction B with
  | nil => rfl
  | cons a A ih =>
    rw [List.foldl_cons, if_neg (not_le.2 (h a (by simp)))]
    exact ih (fun p hp => h p (by simp [hp]))

theorem partition3' {γ : Type} {start e : Rat} {b : Act} (L : List (Rat × γ)) (hA : L.Pairwise (fun a c => a.1 ≤ c.1)) :
    L = L.filter (fun z => decide (z.1 < start)) ++ (L.filter (fun z => !decide (z.1 < start) && beforeEnd b e z.1) ++
      L.filter (fun z => !decide (z.1 < start) && !beforeEnd b e z.1)) := by
  have p1 : L.Pairwise (fun a c => decide (c.1 < start) = true → decide (a.1 < start) = true) := by
    refine hA.imp ?_
    intro a c hac h
    simp only [decide_eq_true_eq] at *
    exact lt_of_le_of_lt hac h
  have hsub : (L.filter (fun z => !decide (z.1 < start))).Pairwise (fun a c => beforeEnd b e c.1 = true → beforeEnd b e a.1 = true) := by
    refine List.Pairwise.filter _ (hA.imp ?_)
    intro a c hac h
    unfold beforeEnd at *
    split at h
    · rename_i hb'
      rw [if_pos hb']
      simp only [decide_eq_true_eq] at *
      exact lt_of_le_of_lt hac h
    · rename_i hb'
      rw [if_neg hb']
      simp only [decide_eq_true_eq] at *
      exact le_trans hac h
  obtain ⟨q1, q2⟩ := takeWhile_filter _ L p1
  obtain ⟨q3, q4⟩ := takeWhile_filter _ _ hsub
  have h1 := List.takeWhile_append_dropWhile (p := fun z : Rat × γ => decide (z.1 < start)) (l := L)
  have h2 := List.takeWhile_append_dropWhile (p := fun z : Rat × γ => beforeEnd b e z.1) (l := L.filter (fun z => !decide (z.1 < start)))
  rw [q1, q2] at h1
  rw [q3, q4, List.filter_filter, List.filter_filter] at h2
  conv_lhs => rw [← h1, ← h2]
  congr 2
  · congr 1
    funext z; rw [Bool.and_comm]
  · congr 1
    funext z; rw [Bool.and_comm]

/-- C23 for level monitors: slice(start, stop) has the value of the monitor at each moment of [start, stop) and is off outside.
`e` is the end (stop, or now without stop). Hypotheses: the monitor is not off just before the end (see the counterexample), nothing was tallied before the start
of monitoring. For an environment with a shifted clock the start is not shifted: see the counterexample -/
theorem C23_level {now : Rat} {ty : XType} {m : Monitor} {L : List (Rat × Val)} (hok : LevelOk now ty m L) (hst : ∀ p ∈ L, m.start ≤ p.1) (fuel : Nat)
    {start : Rat} {stop : Option Rat} {offset e : Rat} (he : e = match stop with | none => now - offset | some s => min (s + offset) (now - offset))
    (h1 : start < e) (h2 : e ≤ now) {τ0 : Rat} (h3 : τ0 < e) (h4 : start ≤ τ0) (h5 : ∀ τ, τ0 ≤ τ → τ < e → m.get now 0 (some τ) ≠ .ok m.off) :
    ∃ new, slice fuel now offset m (some start) stop none = .ok new ∧ (∃ L', LevelOk now ty new L') ∧
      ∀ τ, τ + offset < now → new.get now offset (some τ) = if start ≤ τ + offset ∧ τ + offset < e then m.get now offset (some τ) else .ok m.off := by
  have hoff : m.off = ty.off := by rw [Monitor.off, hok.type]
  have hend : sliceEnd now offset stop = (e, (sliceEnd now offset stop).2) := by
    rw [he]; cases stop <;> rfl
  obtain ⟨b, hb⟩ : ∃ b, b = (sliceEnd now offset stop).2 := ⟨_, rfl⟩
  have hbc : b = .stop ∨ b = .stopIncl := by rw [hb]; exact sliceEnd_act now offset stop
  rw [← hb] at hend
  have hle : L.Pairwise (fun a c => a.1 ≤ c.1) := hok.asc.imp le_of_lt
  have hT : m.t.zip (List.zipWith Act.tally m.x (List.replicate m.x.length 1)) = L.map (fun p => (p.1, Act.tally p.2 1)) := by
    rw [hok.ht, hok.hx]
    clear hok hle hst
    induction L with
    | nil => rfl
    | cons a Z ih => simp only [List.map_cons, List.length_cons, List.replicate_succ, List.zipWith_cons_cons, List.zip_cons_cons, ih]
  let A := L.filter (fun z => decide (z.1 < start))
  let B := L.filter (fun z => !decide (z.1 < start) && beforeEnd b e z.1)
  let C := L.filter (fun z => !decide (z.1 < start) && !beforeEnd b e z.1)
  have hL : L = A ++ (B ++ C) := partition3' L hle
  have hAt : ∀ p ∈ A, p.1 < start := by
    intro p hp
    have := (List.mem_filter.1 hp).2
    simpa using this
  have hBt : ∀ p ∈ B, start ≤ p.1 ∧ p.1 ≤ e := by
    intro p hp
    have := (List.mem_filter.1 hp).2
    simp only [Bool.and_eq_true, Bool.not_eq_true', decide_eq_false_iff_not, not_lt] at this
    refine ⟨this.1, ?_⟩
    have h := this.2
    unfold beforeEnd at h
    split at h
    · exact (by simpa using h : p.1 < e).le
    · simpa using h
  have hCt : ∀ p ∈ C, e ≤ p.1 := by
    intro p hp
    have := (List.mem_filter.1 hp).2
    simp only [Bool.and_eq_true, Bool.not_eq_true', decide_eq_false_iff_not, not_lt] at this
    have h := this.2
    unfold beforeEnd at h
    split at h
    · simpa using h
    · exact (by simpa using h : e < p.1).le
  -- the state after the tallies before the start
  let c0 := A.foldl (fun _ p => p.2) ty.off
  have hc0 : ∀ τ, start ≤ τ → stepAt ty.off A τ = c0 := by
    intro τ hτ
    exact (foldl_val_last A ty.off τ (fun p hp => le_trans (hAt p hp).le hτ)).symm
  let s0 : SliceSt := { cur := ty.off, enabled := false, x := [ty.off], t := [m.start] }
  let s1 : SliceSt := { s0 with cur := c0 }
  have f1 : (A.map (fun p => (p.1, Act.tally p.2 1))).foldl (sliceRound ty.off) s0 = s1 := foldl_disabled ty.off A s0 rfl
  -- the start
  let s2 : SliceSt := { s1.switch start c0 with enabled := true }
  have hc0a : ty.accepts c0 = true := by
    rw [← hc0 start le_rfl]
    rcases stepAt_mem ty.off A start with h | ⟨p, hp, h⟩
    · rw [h]; exact accepts_off ty
    · rw [h]; exact hok.acc p (List.mem_of_mem_filter hp)
  have hs2 : ∃ R, SliceOk ty s2 start R ∧ ∀ τ, stepAt ty.off R τ = if start ≤ τ then c0 else ty.off := by
    by_cases hms : m.start = start
    · have : s1.switch start c0 = { s1 with x := [c0] } := by
        unfold SliceSt.switch
        rw [if_pos (by simp [s1, s0, hms])]
        rfl
      refine ⟨[(start, c0)], ⟨?_, ?_, by simp [Asc], ⟨[], start, ?_, le_rfl⟩, by simpa using hc0a⟩, ?_⟩
      · simp only [s2, this]; simp only [s1, s0, hms]; rfl
      · simp only [s2, this]; rfl
      · simp only [s2, this, s1]; rfl
      · intro τ; rfl
    · by_cases hc : c0 = ty.off
      · have : s1.switch start c0 = { s1 with t := [start] } := by
          unfold SliceSt.switch
          rw [if_neg (by simp [s1, s0, hms]), if_pos (by simp [s1, s0, hc])]
          rfl
        refine ⟨[(start, c0)], ⟨?_, ?_, by simp [Asc], ⟨[], start, ?_, le_rfl⟩, by simpa using hc0a⟩, ?_⟩
        · simp only [s2, this]; rfl
        · simp only [s2, this]; simp only [s1, s0, hc]; rfl
        · simp only [s2, this, s1]; rfl
        · intro τ; rfl
      · have hlt : m.start < start := by
          have hAne : A ≠ [] := by intro h; exact hc (by simp only [c0, h]; rfl)
          obtain ⟨p, hp⟩ := List.exists_mem_of_ne_nil A hAne
          exact lt_of_le_of_lt (hst p (List.mem_of_mem_filter hp)) (hAt p hp)
        have : s1.switch start c0 = { s1 with t := [m.start, start], x := [ty.off, c0] } := by
          unfold SliceSt.switch
          rw [if_neg (by simp [s1, s0, hms]), if_neg (by simp [s1, s0, Ne.symm hc])]
          rfl
        refine ⟨[(m.start, ty.off), (start, c0)], ⟨?_, ?_, ?_, ⟨[(m.start, ty.off)], start, ?_, le_rfl⟩, by simpa using ⟨accepts_off ty, hc0a⟩⟩, ?_⟩
        · simp only [s2, this]; rfl
        · simp only [s2, this]; rfl
        · simp only [Asc, List.pairwise_cons]; simp [hlt]
        · simp only [s2, this, s1]; rfl
        · intro τ
          show stepAt ty.off ([(m.start, ty.off)] ++ [(start, c0)]) τ = _
          rw [stepAt_snoc]
          split
          · rfl
          · unfold stepAt; simp
  obtain ⟨R, hR, hRv⟩ := hs2
  -- the tallies in the slice
  have hBp : (start :: B.map (·.1)).Pairwise (· ≤ ·) := by
    rw [List.pairwise_cons]
    constructor
    · intro x hx
      obtain ⟨p, hp, rfl⟩ := List.mem_map.1 hx
      exact (hBt p hp).1
    · rw [List.pairwise_map]
      exact hle.filter _
  obtain ⟨g1, R', g2, g3⟩ := foldl_enabled ty.off B s2 rfl hR hBp h1.le (fun p hp => (hBt p hp).2) (fun p hp => hok.acc p (List.mem_of_mem_filter hp))
  let s3 := (B.map (fun p => (p.1, Act.tally p.2 1))).foldl (sliceRound ty.off) s2
  have hval : ∀ τ, start ≤ τ → τ < e → stepAt ty.off R' τ = stepAt ty.off L τ := by
    intro τ ha hbτ
    rw [g3, hRv, if_pos ha, ← hc0 τ ha]
    conv_rhs => rw [hL]
    unfold stepAt
    rw [List.foldl_append, List.foldl_append, foldl_late C _ τ (fun p hp => lt_of_lt_of_le hbτ (hCt p hp))]
  have hpre : ∀ τ, τ < start → stepAt ty.off R' τ = ty.off := by
    intro τ ha
    rw [g3, hRv, if_neg (not_le.2 ha)]
    exact foldl_late B _ τ (fun p hp => lt_of_lt_of_le ha (hBt p hp).1)
  -- the stop
  obtain ⟨pre, a, r1, r2⟩ := g2.last
  have hcond : a = e ∨ s3.cur ≠ ty.off := by
    rcases eq_or_lt_of_le r2 with h | h
    · exact Or.inl h
    · right
      intro hcur
      have hm : max τ0 a < e := max_lt h3 h
      have := h5 (max τ0 a) (le_max_left _ _) hm
      rw [hok.get 0 _ (by rw [add_zero]; exact lt_of_lt_of_le hm h2), add_zero, ← hval _ (le_trans h4 (le_max_left _ _)) hm, r1, stepAt_snoc, if_pos (le_max_right _ _), hoff] at this
      exact this (by show Except.ok s3.cur = _; rw [hcur])
  obtain ⟨k1, k2, k3, k4⟩ := switch_put (s := s3) (by rw [g2.ht, r1]) (by rw [g2.hx, r1]) e ty.off hcond
  let s4 : SliceSt := { s3.switch e ty.off with enabled := false }
  have f4 : sliceRound ty.off s3 (e, b) = s4 := by
    rcases hbc with h | h <;> rw [h] <;> rfl
  have f5 : (C.map (fun p => (p.1, Act.tally p.2 1))).foldl (sliceRound ty.off) s4 = { s4 with cur := C.foldl (fun _ p => p.2) s4.cur } := foldl_disabled ty.off C s4 rfl
  obtain ⟨q1, q2, q3, q4⟩ := system_ok ty now
  have hA' : Asc (pre ++ [(a, s3.cur)]) := by rw [← r1]; exact g2.asc
  have hnew0 : LevelOk now ty { system true ty now with x := s4.x, t := s4.t } (putL R' e ty.off) := by
    refine ⟨q1, q2, q4, ?_, ?_, ?_, ?_, ?_, ?_⟩
    · show s4.t = _
      rw [r1]; exact k1
    · show s4.x = _
      rw [r1]; exact k2
    · rw [r1]; exact asc_putL hA' r2
    · obtain ⟨pre', hp⟩ := putL_shape' (pre := pre) (a := a) (t := e) (c := s3.cur) (v := ty.off)
      rw [r1, hp]; simp
    · intro p hp
      obtain ⟨pre', hp'⟩ := putL_shape' (pre := pre) (a := a) (t := e) (c := s3.cur) (v := ty.off)
      have hA'' := asc_putL (v := ty.off) hA' r2
      rw [r1] at hp
      rw [hp'] at hp hA''
      rcases List.mem_append.1 hp with hp | hp
      · exact le_trans (le_of_lt ((List.pairwise_append.1 hA'').2.2 p hp (e, ty.off) (by simp))) h2
      · simp at hp; subst hp; exact h2
    · exact acc_putL g2.acc (accepts_off ty)
  obtain ⟨L', hok', htal, hstp⟩ := finish_level hnew0 q3
  refine ⟨_, ?_, ⟨L', hok'⟩, ?_⟩
  · unfold slice
    rw [hok.full]
    simp only [Bool.false_eq_true, if_false]
    unfold sliceWith
    simp only [hok.level, if_true, hok.type, hoff]
    rw [plainActions_eq, hend, hT, items_eq hbc L (·.1) (·.2) (fun _ => 1) hle]
    rw [List.foldl_append]
    show Except.ok (finish { system true ty now with
      x := (List.foldl (sliceRound ty.off) (List.foldl (sliceRound ty.off) s0 (A.map (fun p => (p.1, Act.tally p.2 1)))) ((start, Act.start) :: (B.map (fun p => (p.1, Act.tally p.2 1)) ++ (e, b) :: C.map (fun p => (p.1, Act.tally p.2 1))))).x,
      t := (List.foldl (sliceRound ty.off) (List.foldl (sliceRound ty.off) s0 (A.map (fun p => (p.1, Act.tally p.2 1)))) ((start, Act.start) :: (B.map (fun p => (p.1, Act.tally p.2 1)) ++ (e, b) :: C.map (fun p => (p.1, Act.tally p.2 1))))).t } now) = _
    rw [f1, List.foldl_cons]
    have f2 : sliceRound ty.off s1 (start, Act.start) = s2 := rfl
    rw [f2, List.foldl_append]
    rw [List.foldl_cons]
    show Except.ok (finish { system true ty now with
      x := (List.foldl (sliceRound ty.off) (sliceRound ty.off s3 (e, b)) (C.map (fun p => (p.1, Act.tally p.2 1)))).x,
      t := (List.foldl (sliceRound ty.off) (sliceRound ty.off s3 (e, b)) (C.map (fun p => (p.1, Act.tally p.2 1)))).t } now) = _
    rw [f4, f5]
  · intro τ hτ
    rw [hok'.get offset τ hτ, hstp, if_neg (not_le.2 hτ), hoff, hok.get offset τ hτ]
    rw [r1, stepAt_putL ty.off pre a e (τ + offset) _ ty.off r2, ← r1]
    by_cases hbτ : τ + offset < e
    · rw [if_neg (not_le.2 hbτ)]
      by_cases ha : start ≤ τ + offset
      · rw [if_pos ⟨ha, hbτ⟩, hval _ ha hbτ]
      · rw [if_neg (fun h => ha h.1), hpre _ (not_le.1 ha)]
    · rw [if_pos (not_lt.1 hbτ), if_neg (fun h : start ≤ τ + offset ∧ τ + offset < e => hbτ h.2)]

/-! ### the hypothesis on the start of monitoring -/

/-- nothing was stored before the start of monitoring -/
def Started (m : Monitor) (now : Rat) : Prop := m.start ≤ now ∧ ∀ t ∈ m.t, m.start ≤ t

theorem started_put {m : Monitor} {now : Rat} (h : Started m now) (v : Val) : Started (m.put now v).1 now := by
  unfold Monitor.put
  split
  · exact h
  · split
    · exact h
    · split
      · exact h
      · refine ⟨h.1, ?_⟩
        intro t ht
        rcases List.mem_append.1 ht with ht | ht
        · exact h.2 t ht
        · simp at ht; subst ht; exact h.1

theorem addStats_start (m : Monitor) (v : Val) (w : Rat) : (m.addStats v w).start = m.start ∧ (m.addStats v w).t = m.t := by
  unfold Monitor.addStats
  split <;> exact ⟨rfl, rfl⟩

theorem started_tally {m : Monitor} {now : Rat} (h : Started m now) (v : Val) (w : Rat) : Started (m.doTally now v w).1 now := by
  unfold Monitor.doTally
  split
  · exact h
  split
  · split
    · split
      · exact h
      · split
        · obtain ⟨a, b⟩ := addStats_start { m with ttallyMonitored := now, tally := v, ttally := now } m.tally (now - m.ttallyMonitored)
          unfold Started
          simp only [a, b]
          exact h
        · exact h
    · obtain ⟨a, b⟩ := addStats_start m v w
      unfold Started
      simp only [a, b]
      exact h
  · simp only
    split
    · split
      · exact h
      · split
        · exact h
        · split
          · exact started_put (m := { m with cache := [], tally := v, ttally := now }) h v
          · exact h
    · split
      · split
        · refine ⟨h.1, ?_⟩
          intro t ht
          rcases List.mem_append.1 ht with ht | ht
          · exact h.2 t ht
          · simp at ht; subst ht; exact h.1
        · exact h
      · exact h

theorem started_addNow {m : Monitor} {now : Rat} (h : Started m now) : Started (m.tallyAddNow now) now := started_tally h m.tally 1

theorem started_setMonitor {m : Monitor} {now : Rat} (h : Started m now) (b : Option Bool) : Started (m.setMonitor now b).1 now := by
  unfold Monitor.setMonitor
  split
  · exact h
  · rename_i b
    split
    · simp only
      split
      · exact started_addNow h
      · exact h
    · split
      · exact h
      · simp only
        split
        · split
          · exact started_tally (m := { m with on := b }) h _ _
          · split
            · exact h
            · exact started_put (m := { m with on := b }) h _
        · exact h

theorem started_reset {m : Monitor} {now : Rat} (h : Started m now) (b s : Option Bool) (hs : s.getD m.statsOnly = false) : Started (m.reset now b s).1 now := by
  unfold Monitor.reset
  by_cases hg : m.generated = true
  · rw [if_pos hg]; exact h
  · rw [if_neg hg]
    simp only [hs, Bool.false_eq_true, if_false]
    by_cases hl : m.level = true
    · simp only [hl, if_true]
      generalize (if b.getD m.on then m.tally else _) = v
      split
      · exact ⟨le_rfl, by simp⟩
      · refine started_setMonitor ?_ _
        exact ⟨le_rfl, by simp⟩
    · simp only [hl, Bool.false_eq_true, if_false]
      refine started_setMonitor ?_ _
      exact ⟨le_rfl, by simp⟩

theorem started_run {ty : XType} {h : List (Rat × Op)} : ∀ {m : Monitor} {s : Sig} {L : List (Rat × Val)} {t0 now : Rat}, Rep ty m s L t0 → Started m t0 →
    Chrono t0 h now → (∀ e ∈ h, Fine ty e.2) → ∃ t', t' ≤ now ∧ Started (m.run h) t' := by
  induction h with
  | nil =>
    intro m s L t0 now hR ha hc _
    rw [chrono_nil] at hc
    exact ⟨t0, hc, ha⟩
  | cons e h ih =>
    intro m s L t0 now hR ha hc hf
    have h1 : t0 ≤ e.1 := by
      unfold Chrono at hc
      exact (List.pairwise_cons.1 hc).1 e.1 (by simp)
    have h2 : Chrono e.1 h now := by
      unfold Chrono at hc ⊢
      have := (List.pairwise_cons.1 hc).2
      simpa using this
    obtain ⟨L', hR', hcase⟩ := hR.apply h1 (hf e (by simp))
    refine ih hR' ?_ h2 (fun a ha => hf a (by simp [ha]))
    have ha' : Started m e.1 := ⟨le_trans ha.1 h1, ha.2⟩
    have hfe := hf e (by simp)
    obtain ⟨t, op⟩ := e
    cases op with
    | tally v w => exact started_tally ha' v w
    | monitor b => exact started_setMonitor ha' (some b)
    | reset b s =>
      refine started_reset ha' b s ?_
      cases s with
      | none => exact hR.full
      | some s => cases s
                  · rfl
                  · exact absurd rfl hfe
    | read ex0 fn =>
      show Started (if m.statsOnly then m else (m.xweight t ex0 fn).2) t
      split
      · exact ha'
      · unfold Monitor.xweight
        split
        · exact ha'
        · exact ha'
    | addNow =>
      show Started (if m.statsOnly && m.level then m.tallyAddNow t else m) t
      split
      · exact started_addNow ha'
      · exact ha'

/-- C23 for the level monitors of any history -/
theorem C23_history {ty : XType} {v : Option Val} {b : Bool} {t0 : Rat} (ha : ty.accepts (v.getD (.num 0)) = true) (hno : v.getD (.num 0) ≠ ty.off)
    {h : List (Rat × Op)} {now : Rat} (hc : Chrono t0 h now) (hf : ∀ e ∈ h, Fine ty e.2) (fuel : Nat) {start stop τ0 : Rat}
    (h1 : start < stop) (h2 : stop ≤ now) (h3 : τ0 < stop) (h4 : start ≤ τ0)
    (h5 : ∀ τ, τ0 ≤ τ → τ < stop → ((create true v ty false b t0).1.run h).get now 0 (some τ) ≠ .ok ty.off) :
    ∃ new, slice fuel now 0 ((create true v ty false b t0).1.run h) (some start) (some stop) none = .ok new ∧
      ∀ τ, τ < now → new.get now 0 (some τ) = if start ≤ τ ∧ τ < stop then ((create true v ty false b t0).1.run h).get now 0 (some τ) else .ok ty.off := by
  obtain ⟨L, hok⟩ := levelOk_run (b := b) ha hno hc hf
  have hR := create_rep (b := b) (t0 := t0) ha hno
  have hs0 : Started (create true v ty false b t0).1 t0 := by
    unfold create
    simp only [Bool.not_true, Bool.false_and, Bool.false_eq_true, if_false]
    exact started_reset ⟨le_rfl, by simp⟩ _ _ rfl
  obtain ⟨t', _, hst⟩ := started_run hR hs0 hc hf
  generalize (create true v ty false b t0).1.run h = m at *
  have hoff : m.off = ty.off := by rw [Monitor.off, hok.type]
  obtain ⟨new, e, _, hv⟩ := C23_level hok (fun p hp => hst.2 p.1 (by rw [hok.ht]; exact List.mem_map_of_mem hp)) fuel (start := start) (stop := some stop) (offset := 0) (e := stop)
    (by simp [h2]) h1 h2 h3 h4 (by rw [hoff]; exact h5)
  refine ⟨new, e, ?_⟩
  intro τ hτ
  have := hv τ (by rw [add_zero]; exact hτ)
  rw [hoff, add_zero] at this
  exact this

/-- a history and a slice that meet the hypotheses of `C23_history` -/
example :
    let m := (create true (some (.num 1)) .any false true 0).1.run [(2, .tally (.num 4) 1), (5, .tally (.num 3) 1), (7, .monitor false)]
    (slice 0 9 0 m (some 1) (some 6) none).map (fun n => [n.get 9 0 (some 0), n.get 9 0 (some 1), n.get 9 0 (some 3), n.get 9 0 (some (11 / 2)), n.get 9 0 (some 6), n.get 9 0 (some 8)]) =
      .ok [.ok .ninf, .ok (.num 1), .ok (.num 4), .ok (.num 3), .ok .ninf, .ok .ninf] := by decide +kernel

example :
    let m := (create false none .any false true 0).1.run [(1, .tally (.num 10) 1), (2, .tally (.num 20) 2), (6, .tally (.num 30) 1)]
    (slice 0 9 0 m (some 1) (some 6) none).map (fun n => n.t.zip (n.x.zip n.weights)) = .ok [(1, .num 10, 1), (2, .num 20, 2)] := by decide +kernel

/-- the monitor is off from 3 on; the slice from 1 to 6 shows its last value until 6 -/
theorem C23_off_counterexample :
    let m := (create true (some (.num 1)) .any false true 0).1.run [(3, .monitor false)]
    m.get 9 0 (some 5) = .ok .ninf ∧ (slice 0 9 0 m (some 1) (some 6) none).map (fun n => n.get 9 0 (some 5)) = .ok (.ok (.num 1)) := by decide +kernel

/-- without a start, the documented default, an exception is raised -/
theorem C23_start_counterexample :
    slice 0 9 0 ((create true (some (.num 1)) .any false true 0).1) none (some 6) none = .error .type := by decide +kernel

/-- a slice of a slice is not what it should be: the value at 2 is lost -/
theorem C23_twice_counterexample :
    let m := (create true (some (.num 1)) .any false true 0).1.run [(4, .tally (.num 2) 1)]
    (slice 0 9 0 m (some 0) (some 6) none).map (fun n => (n.get 9 0 (some 2), (slice 0 9 0 n (some 1) (some 5) none).map (fun k => k.get 9 0 (some 2)))) =
      .ok (.ok (.num 1), .ok (.ok .ninf)) := by decide +kernel

/-- after reset_now (the clock shows 0 at the moment 10) the start of the slice is not shifted: the slice from 3 to 4 contains everything since the moment 3 -/
theorem C23_offset_counterexample :
    let m := (create false none .any false true 0).1.run [(5, .tally (.num 10) 1), (13, .tally (.num 20) 1)]
    (slice 0 30 10 m (some 3) (some 4) none).map (fun n => n.x) = .ok [.num 10, .num 20] := by decide +kernel

end Mon
end Verif
