import Verif.Props.Generator

/-!
# When a component generator can be made (C42)

The claims in `Props/Generator.lean` are about generators whose construction doesn't raise. Here is which arguments are refused.
-/

namespace Verif
namespace Generator

/-! ## specification -/

/-- arguments that contradict each other, or ask for nothing sensible: both at and delay, both till and duration, till before at, a negative number -/
def Contradict (a : Args) (now : Rat) : Prop :=
  (a.at_.isSome = true ∧ a.delay.isSome = true) ∨ (a.till.isSome = true ∧ a.duration.isSome = true) ∨ closing a now < (opening a now : ETime) ∨
    ∃ n : Int, a.number = some n ∧ n < 0

/-- the moment of the first event of a generator by inter arrival times -/
def firstEvent (a : Args) (now : Rat) (iat : Nat → Rat) : ETime :=
  min (if a.forceAt = true ∨ a.disturbance.isSome = true then (opening a now : ETime) else ((opening a now + iat 0 : Rat) : ETime)) (closing a now)

/-! ## proof -/

theorem begins_opening {a : Args} {now : Rat} (h : ¬ (a.at_.isSome = true ∧ a.delay.isSome = true)) : a.begins now 0 = some (opening a now) := by
  unfold Args.begins opening
  cases h1 : a.at_ <;> cases h2 : a.delay <;> simp_all

theorem ends_closing {a : Args} {now : Rat} (h : ¬ (a.till.isSome = true ∧ a.duration.isSome = true)) : a.ends (opening a now) 0 = some (closing a now) := by
  unfold Args.ends closing
  cases h1 : a.till <;> cases h2 : a.duration <;> simp_all

theorem begins_none {a : Args} {now : Rat} (h : a.at_.isSome = true ∧ a.delay.isSome = true) : a.begins now 0 = none := by
  unfold Args.begins
  cases h1 : a.at_ <;> cases h2 : a.delay <;> simp_all

theorem ends_none {a : Args} {at_ : Rat} (h : a.till.isSome = true ∧ a.duration.isSome = true) : a.ends at_ 0 = none := by
  unfold Args.ends
  cases h1 : a.till <;> cases h2 : a.duration <;> simp_all

/-- nothing is constructed of contradicting arguments -/
theorem start_contradict {a : Args} {now : Rat} {r} (h : Contradict a now) : start a now 0 false r = none := by
  unfold start
  split
  · rfl
  split
  · rfl
  by_cases h1 : a.at_.isSome = true ∧ a.delay.isSome = true
  · rw [begins_none h1]
  rw [begins_opening h1]
  by_cases h2 : a.till.isSome = true ∧ a.duration.isSome = true
  · simp only [ends_none h2]
  simp only [ends_closing h2]
  split
  · rfl
  rename_i h3
  rcases h with h | h | h | ⟨n, h, hn⟩
  · exact absurd h h1
  · exact absurd h h2
  · exact absurd h h3
  · simp [h, hn]

theorem number_pos {a : Args} {now : Rat} (h : ¬ Contradict a now) : a.number.any (· < 0) = false := by
  cases hn : a.number with
  | none => rfl
  | some n =>
    simp only [Option.any_some, decide_eq_false_iff_not]
    exact fun hlt => h (.inr (.inr (.inr ⟨n, hn, hlt⟩)))

theorem number_nz {a : Args} {now : Rat} (h : ¬ Contradict a now) (hn : a.number ≠ some 0) : a.number.map Int.toNat ≠ some 0 := by
  cases hk : a.number with
  | none => simp
  | some n =>
    simp only [Option.map_some, ne_eq, Option.some.injEq]
    intro h0
    have : n ≤ 0 := by omega
    rcases lt_or_eq_of_le this with h1 | h1
    · exact h (.inr (.inr (.inr ⟨n, hk, h1⟩)))
    · exact hn (by rw [hk, h1])

/-- a generator by inter arrival times, or an equidistant one, that is not contradictory -/
theorem start_byIat {a : Args} {now : Rat} {r} (h : ¬ Contradict a now) (hm : a.moments = none) (hi : a.iat.isSome = true ∨ a.equidistant = true)
    (hn : a.number ≠ some 0) : start a now 0 false r = none ↔
      ∀ c g, a.byIat (opening a now) (closing a now) (a.number.map Int.toNat) 0 false = some (c, g) → g.time < now := by
  unfold start
  have e1 : (a.disturbance.isSome && a.iat.isNone && !a.equidistant) = false := by
    rcases hi with hi | hi
    · cases hx : a.iat <;> simp_all
    · simp [hi]
  have e2 : (a.iat.isNone && !a.equidistant) = false := by
    rcases hi with hi | hi
    · cases hx : a.iat <;> simp_all
    · simp [hi]
  have h1 : ¬ (a.at_.isSome = true ∧ a.delay.isSome = true) := fun hh => h (.inl hh)
  have h2 : ¬ (a.till.isSome = true ∧ a.duration.isSome = true) := fun hh => h (.inr (.inl hh))
  have h3 : ¬ closing a now < (opening a now : ETime) := fun hh => h (.inr (.inr (.inl hh)))
  have h4 := number_pos h
  have h5 := number_nz h hn
  simp only [hm, Option.isSome_none, Bool.false_and, Bool.false_eq_true, if_false, e1, begins_opening h1, ends_closing h2, h3, h4, h5, e2, Bool.or_false]
  cases hb : a.byIat (opening a now) (closing a now) (a.number.map Int.toNat) 0 false with
  | none => simp
  | some x =>
    obtain ⟨c, g⟩ := x
    simp only [schedule, add_zero, Option.some.injEq, Prod.mk.injEq, Bool.false_eq_true, if_false]
    constructor
    · rintro hh c' g' ⟨rfl, rfl⟩
      by_contra hlt
      rw [if_neg hlt] at hh
      cases hh
    · intro hh
      rw [if_pos (hh c g ⟨rfl, rfl⟩)]
      rfl

/-- the first event is at the first moment, or at till if that is earlier -/
theorem first_time (x now : Rat) (t : ETime) (cc : Conf) (u : Nat) (s : Stage) :
    (∀ (c : Conf) (g : Gen), (if (x : ETime) > t then (match t with
      | some t => some (cc, ({ time := t, stage := .finalize, used := u } : Gen))
      | none => none) else some (cc, { time := x, stage := s, used := u })) = some (c, g) → g.time < now) ↔ min (x : ETime) t < (now : ETime) := by
  by_cases h : (x : ETime) > t
  · simp only [if_pos h]
    rw [min_eq_right (le_of_lt h)]
    cases t with
    | none => exact absurd h (not_lt.2 (le_top (α := ETime)))
    | some t =>
      have : ((t : Rat) : ETime) < (now : ETime) ↔ t < now := WithTop.coe_lt_coe
      refine Iff.trans ?_ this.symm
      exact ⟨fun hh => hh _ _ rfl, fun hh c g hg => by cases hg; exact hh⟩
  · simp only [if_neg h]
    rw [min_eq_left (not_lt.1 h), WithTop.coe_lt_coe]
    exact ⟨fun hh => hh _ _ rfl, fun hh c g hg => by cases hg; exact hh⟩

/-! ## claims -/

/-- C42: a generator by inter arrival times is refused exactly if its arguments contradict each other, force_till is given, or its first event would be in the past -/
theorem C42_iat_starts {a : Args} {iat : Nat → Rat} {now : Rat} {r : Nat → Rat} (hi : a.iat = some iat) (he : a.equidistant = false) (hm : a.moments = none)
    (hn : a.number ≠ some 0) :
    start a now 0 false r = none ↔ Contradict a now ∨ a.forceTill = true ∨ firstEvent a now iat < (now : ETime) := by
  by_cases hc : Contradict a now
  · exact ⟨fun _ => .inl hc, fun _ => start_contradict hc⟩
  rw [start_byIat hc hm (.inl (by rw [hi]; rfl)) hn]
  simp only [hc, false_or]
  unfold Args.byIat firstEvent
  simp only [he, Bool.false_eq_true, if_false, hi, Option.getD_some, Bool.not_false, Bool.and_true, Bool.or_false]
  cases hf : a.forceTill
  swap
  · simp
  simp only [Bool.false_eq_true, if_false, false_or]
  have key : ∀ (x : Rat), (a.forceAt || a.disturbance.isSome) = true ∧ x = opening a now ∨ (a.forceAt || a.disturbance.isSome) = false ∧ x = opening a now + iat 0 →
      (if (!a.forceAt && a.disturbance.isNone) = true then opening a now + iat 0 else opening a now) = x ∧
      (if a.forceAt = true ∨ a.disturbance.isSome = true then (opening a now : ETime) else ((opening a now + iat 0 : Rat) : ETime)) = (x : ETime) := by
    intro x hx
    cases h1 : a.forceAt <;> cases h2 : a.disturbance <;> simp_all
  obtain ⟨x, hx⟩ : ∃ x, (a.forceAt || a.disturbance.isSome) = true ∧ x = opening a now ∨ (a.forceAt || a.disturbance.isSome) = false ∧ x = opening a now + iat 0 := by
    cases (a.forceAt || a.disturbance.isSome)
    · exact ⟨_, .inr ⟨rfl, rfl⟩⟩
    · exact ⟨_, .inl ⟨rfl, rfl⟩⟩
  rw [(key x hx).1, (key x hx).2]
  exact first_time _ _ _ _ _ _

/-- C42: an equidistant generator is refused exactly if its arguments contradict each other, there is no end, just one component is asked for, an iat is given, or at is in
the past -/
theorem C42_equidistant_starts {a : Args} {now : Rat} {r : Nat → Rat} (he : a.equidistant = true) (hm : a.moments = none) (hn : a.number ≠ some 0) :
    start a now 0 false r = none ↔ Contradict a now ∨ closing a now = ⊤ ∨ a.number = some 1 ∨ a.iat.isSome = true ∨ opening a now < now := by
  by_cases hc : Contradict a now
  · exact ⟨fun _ => .inl hc, fun _ => start_contradict hc⟩
  rw [start_byIat hc hm (.inr he) hn]
  simp only [hc, false_or]
  have h3 : ¬ closing a now < (opening a now : ETime) := fun hh => hc (.inr (.inr (.inl hh)))
  unfold Args.byIat
  simp only [he, if_true, Bool.not_true, Bool.and_false, Bool.false_eq_true, if_false, Bool.or_true, Bool.false_and]
  have h1 : a.number.map Int.toNat = some 1 ↔ a.number = some 1 := by
    cases hk : a.number with
    | none => simp
    | some n => simp only [Option.map_some, Option.some.injEq]; omega
  cases hcl : closing a now with
  | none => exact ⟨fun _ => .inl rfl, fun _ c g hg => by cases hg⟩
  | some t =>
    have h4 : ¬ t - opening a now < 0 := by
      rw [hcl] at h3
      have : ¬ t < opening a now := fun hh => h3 (WithTop.coe_lt_coe.2 hh)
      linarith
    have h5 : ¬ (show ETime from some t) = ⊤ := WithTop.coe_ne_top
    refine Iff.trans ?_ (or_iff_right h5).symm
    simp only [if_neg h4, h1]
    by_cases h6 : a.number = some 1
    · simp [h6]
    simp only [h6, false_or]
    cases h7 : a.iat with
    | some f => simp
    | none =>
      simp only [Option.isSome_none, Bool.false_eq_true, if_false, false_or]
      have h8 : ¬ ((opening a now : ETime) > ⊤) := by simp
      rw [if_neg h8]
      exact ⟨fun hh => hh _ _ rfl, fun hh c g hg => by cases hg; exact hh⟩

/-- C42: a generator with given moments and no other arguments is refused exactly if one of the moments is in the past -/
theorem C42_moments_starts {l : List Rat} {now off : Rat} {r : Nat → Rat} (hne : l ≠ []) :
    start { moments := some l } now off false r = none ↔ ∃ m ∈ l, m + off < now := by
  obtain ⟨m, ms, rfl⟩ : ∃ m ms, l = m :: ms := List.exists_cons_of_ne_nil hne
  have hp : (sorted (m :: ms)).Perm (m :: ms) := List.perm_insertionSort _ _
  have hw : (sorted (m :: ms)).Pairwise (· ≤ ·) := List.pairwise_insertionSort _ _
  cases hx : sorted (m :: ms) with
  | nil => rw [hx] at hp; exact absurd hp.symm.eq_nil (by simp)
  | cons x xs =>
    rw [hx] at hp hw
    have : start { moments := some (m :: ms) } now off false r = (schedule false now (x + off)).map (fun t =>
        (⟨⊤, none, fun _ => 0, fun _ => 0, false, off, false⟩, { time := t, stage := .spread (intervals (x :: xs)).2 })) := by
      simp [start, Args.others, Args.begins, Args.ends, hx, intervals]
    rw [this]
    unfold schedule
    simp only [Option.map_eq_none_iff, Bool.false_eq_true, if_false]
    constructor
    · intro hh
      refine ⟨x, hp.mem_iff.1 (by simp), ?_⟩
      by_contra hlt
      rw [if_neg hlt] at hh
      cases hh
    · rintro ⟨y, hy, hlt⟩
      have : x ≤ y := by
        rcases List.mem_cons.1 (hp.mem_iff.2 hy) with h1 | h1
        · rw [h1]
        · exact (List.pairwise_cons.1 hw).1 y h1
      rw [if_pos (by linarith)]

/-- C42: a random spread of `n` components between at and till, both in the future, is never refused, but for a single component forced to both ends -/
theorem C42_spread_starts {a : Args} {now t : Rat} {n : Nat} {r : Nat → Rat} (hi : a.iat = none) (he : a.equidistant = false) (hm : a.moments = none)
    (hd : a.disturbance = none) (hn : a.number = some (n : Int)) (hn0 : 0 < n) (htill : a.till = some (t : ETime)) (hr : ∀ k, 0 ≤ r k ∧ r k < 1)
    (hc : ¬ Contradict a now) (hp : now ≤ opening a now) :
    start a now 0 false r = none ↔ n = 1 ∧ a.numberSampled = false ∧ a.forceAt = true ∧ a.forceTill = true := by
  have h1 : ¬ (a.at_.isSome = true ∧ a.delay.isSome = true) := fun hh => hc (.inl hh)
  have h2 : ¬ (a.till.isSome = true ∧ a.duration.isSome = true) := fun hh => hc (.inr (.inl hh))
  have h3 : ¬ closing a now < (opening a now : ETime) := fun hh => hc (.inr (.inr (.inl hh)))
  have h4 := number_pos hc
  have h5 := number_nz hc (by rw [hn]; simp; omega)
  have h6 : ¬ t < opening a now := by
    intro hh
    apply h3
    unfold closing
    rw [htill]
    exact WithTop.coe_lt_coe.2 hh
  have e : start a now 0 false r = none ↔ a.spreadMoments (opening a now) n r = none := by
    unfold start
    simp only [hm, hd, hi, he, Option.isSome_none, Bool.false_and, Bool.false_eq_true, if_false, Option.isNone_none, Bool.not_false, Bool.and_true, Bool.and_self,
      begins_opening h1, ends_closing h2, h3, h4, h5, Bool.or_false, if_true]
    rw [hn]
    simp only [Option.map_some, Int.toNat_natCast]
    cases hs : a.spreadMoments (opening a now) n r with
    | none => simp
    | some ms =>
      obtain ⟨_, k1, k2, k3, _⟩ := spreadMoments_spec htill hn0 hr hs hn
      cases ms with
      | nil => simp at k1; omega
      | cons m ms =>
        have := (k3 m (by simp)).1
        simp [intervals_cons, schedule, not_lt.2 (le_trans hp this)]
  rw [e]
  unfold Args.spreadMoments
  rw [htill]
  have h7 : ¬ (some ((t : Rat) : ETime) = some ⊤) := by simp
  have h8 : (Option.any (fun u : Rat => decide (u < opening a now)) (some t)) = false := by simpa using h6
  simp only [if_neg h7, hd, Option.isSome_none, Bool.false_eq_true, if_false]
  rw [h8, hn]
  simp only [Bool.false_eq_true, if_false, Option.isNone_some, Bool.and_false, Option.map_some]
  have h9 : decide (some (n : Int) = some 1) = decide (n = 1) := by
    congr 1; simp
  cases a.forceAt <;> cases a.forceTill <;> cases a.numberSampled <;> by_cases hk : n = 1 <;> simp_all

/-! ## examples -/

/-- a generator that is accepted, one with both at and delay, and one that would begin in the past -/
example : start piArgs 2 0 false (fun _ => 0) ≠ none ∧ start { piArgs with delay := some 1 } 2 0 false (fun _ => 0) = none ∧
    start piArgs 12 0 false (fun _ => 0) = none := by
  refine ⟨fun h => ?_, (C42_iat_starts rfl rfl rfl (by decide)).2 (.inl (.inl ⟨rfl, rfl⟩)), (C42_iat_starts rfl rfl rfl (by decide)).2 (.inr (.inr (by decide +kernel)))⟩
  have : (start piArgs 2 0 false (fun _ => 0)).isNone = false := by decide +kernel
  rw [h] at this; cases this

/-- an equidistant generator can't make just one component -/
example : start { at_ := some 10, duration := some (15 : Rat), number := some 1, equidistant := true } 2 0 false (fun _ => 0) = none :=
  (C42_equidistant_starts rfl rfl (by decide)).2 (.inr (.inr (.inl rfl)))

/-- moment 3 is in the past -/
example : start { moments := some [7, 3, 5] } 4 0 false (fun _ => 0) = none := (C42_moments_starts (by decide)).2 ⟨3, by decide, by decide +kernel⟩

/-- three components, forced to both ends -/
example : start { at_ := some 10, till := some (20 : Rat), number := some 3, forceAt := true, forceTill := true } 2 0 false (fun k => (k % 4 : Nat) / 4) ≠ none := by
  intro h
  have := (C42_spread_starts (t := 20) (n := 3) rfl rfl rfl rfl rfl (by decide) rfl (fun k => ⟨by positivity, by
    have : ((k % 4 : Nat) : Rat) < 4 := by exact_mod_cast Nat.mod_lt k (by decide)
    linarith⟩) (by
      rintro (h | h | h | ⟨n, h, hn⟩)
      · exact absurd h.2 (by decide)
      · exact absurd h.2 (by decide)
      · exact absurd h (by decide +kernel)
      · cases h; exact absurd hn (by decide)) (by decide +kernel)).1 h
  exact absurd this.1 (by decide)

end Generator
end Verif
