import Verif.Generator
import Verif.Props.Util
import Mathlib.Algebra.BigOperators.Group.List.Basic
import Mathlib.Data.List.GetD
import Mathlib.Tactic.Linarith
import Mathlib.Tactic.Ring
import Mathlib.Tactic.FieldSimp

/-!
# Claims about the component generator (C42)
-/

namespace Verif
namespace Generator

/-! ## what is expected -/

/-- the sum of the first `m` samples -/
def total (s : Nat → Rat) (m : Nat) : Rat := ((List.range m).map s).sum

/-- the moment the generator is to start, when the clock has not been reset -/
def opening (a : Args) (now : Rat) : Rat := a.at_.getD (now + a.delay.getD 0)

/-- the moment till which is to be generated, when the clock has not been reset -/
def closing (a : Args) (now : Rat) : ETime :=
  match a.till, a.duration with
  | some t, _ => t
  | none, some d => (opening a now : ETime) + d
  | none, none => ⊤

/-- the moment of component `k`: after `k + 1` inter arrival times, or with force_at after `k` -/
def due (a : Args) (now : Rat) (iat : Nat → Rat) (k : Nat) : Rat :=
  opening a now + total iat (if a.forceAt then k else k + 1)

theorem total_succ (s : Nat → Rat) (m : Nat) : total s (m + 1) = total s m + s m := by
  unfold total; rw [List.range_succ, List.map_append, List.sum_append]; simp

theorem total_zero (s : Nat → Rat) : total s 0 = 0 := rfl

/-! ## the invariant of do_iat -/

/-- what holds between the events of a generator by iat, `T k` being the moment of component `k` -/
structure IatInv (T : Nat → Rat) (lead : Nat) (c : Conf) (g : Gen) : Prop where
  made : g.made = (List.range g.n).map T
  before : ∀ k < g.n, (T k : ETime) ≤ c.till
  few : ∀ m, c.number = some m → g.n ≤ m
  stage : (g.stage = .iat ∧ g.time = T g.n ∧ (T g.n : ETime) ≤ c.till ∧ (∀ m, c.number = some m → g.n < m) ∧ g.ended = [] ∧ g.used = g.n + lead)
    ∨ (g.stage = .finalize ∧ (g.time : ETime) = c.till ∧ c.till < (T g.n : ETime) ∧ g.ended = [])
    ∨ (g.stage = .over ∧ c.number = some g.n ∧ g.ended = [T (g.n - 1)] ∧ 0 < g.n)
    ∨ (g.stage = .over ∧ c.till < (T g.n : ETime) ∧ ∃ t : Rat, c.till = t ∧ g.ended = [t])
    ∨ (g.stage = .failed ∧ T g.n < T (g.n - 1) ∧ 0 < g.n ∧ g.ended = [])

theorem enough_iff {c : Conf} {n : Nat} : c.enough n = true ↔ ∃ m, c.number = some m ∧ m ≤ n := by
  unfold Conf.enough
  cases c.number <;> simp

theorem iat_step {T : Nat → Rat} {lead : Nat} {c : Conf} {g : Gen} (hT : ∀ k, T (k + 1) = T k + c.iat (k + lead)) (ho : c.off = 0) (hc : c.cap = false)
    (h : IatInv T lead c g) : IatInv T lead c (step c g) := by
  rcases h with ⟨hm, hb, hf, h | h | h | h | h⟩
  · obtain ⟨hs, ht, hle, hn, he, hu⟩ := h
    have hst : step c g = stepIat c g := by unfold step; rw [hs]
    rw [hst]
    have hmade : g.made ++ [g.time] = (List.range (g.n + 1)).map T := by
      rw [List.range_succ, List.map_append, ← hm, ht]; rfl
    have hbefore : ∀ k < g.n + 1, (T k : ETime) ≤ c.till := by
      intro k hk
      rcases Nat.lt_or_ge k g.n with h | h
      · exact hb k h
      · have : k = g.n := by omega
        rw [this]; exact hle
    have hfew : ∀ m, c.number = some m → g.n + 1 ≤ m := fun m hm => hn m hm
    have hnext : g.time + c.iat g.used = T (g.n + 1) := by rw [hT, ht, hu]
    unfold stepIat
    by_cases hen : c.enough (g.n + 1) = true
    · simp only [hen, if_true]
      refine ⟨hmade, hbefore, hfew, .inr (.inr (.inl ⟨rfl, ?_, ?_, Nat.succ_pos _⟩))⟩
      · obtain ⟨m, h1, h2⟩ := enough_iff.1 hen
        have := hn m h1
        show c.number = some (g.n + 1)
        rw [h1]; congr 1; omega
      · show g.ended ++ [g.time] = [T (g.n + 1 - 1)]
        rw [he, ht]; rfl
    · have hless : ∀ m, c.number = some m → g.n + 1 < m := by
        intro m hm
        have h1 := hn m hm
        rcases Nat.lt_or_ge (g.n + 1) m with h | h
        · exact h
        · exact absurd (enough_iff.2 ⟨m, hm, h⟩) hen
      simp only [hen, if_false, hnext, Bool.false_eq_true]
      by_cases hlt : (T (g.n + 1) : ETime) > c.till
      · rw [if_pos hlt]
        unfold Gen.stop
        cases htl : c.till with
        | none => rw [htl] at hlt; exact absurd hlt (not_lt.2 (le_top : _ ≤ (⊤ : ETime)))
        | some q =>
          rw [htl] at hlt hle
          have hq : ¬ q + c.off < g.time := by
            rw [ho, ht, add_zero]; exact not_lt.2 (WithTop.coe_le_coe.1 hle)
          show IatInv T lead c (Gen.at_ _ _ (q + c.off) _)
          unfold Gen.at_ schedule
          simp only [hq, if_false]
          refine ⟨hmade, hbefore, hfew, .inr (.inl ⟨rfl, ?_, ?_, he⟩)⟩
          · show ((q + c.off : Rat) : ETime) = c.till
            rw [htl, ho, add_zero]; rfl
          · show c.till < (T (g.n + 1) : ETime)
            rw [htl]; exact hlt
      · rw [if_neg hlt]
        unfold Gen.at_ schedule
        simp only [ho, add_zero, hc]
        by_cases hneg : T (g.n + 1) < g.time
        · simp only [hneg, if_true, Bool.false_eq_true, if_false]
          refine ⟨hmade, hbefore, hfew, .inr (.inr (.inr (.inr ⟨rfl, ?_, Nat.succ_pos _, he⟩)))⟩
          show T (g.n + 1) < T (g.n + 1 - 1)
          rw [ht] at hneg; exact hneg
        · simp only [hneg, if_false]
          refine ⟨hmade, hbefore, hfew, .inl ⟨rfl, rfl, not_lt.1 hlt, hless, he, ?_⟩⟩
          show g.used + 1 = g.n + 1 + lead
          omega
  · obtain ⟨hs, ht, hlt, he⟩ := h
    have hst : step c g = { g with ended := g.ended ++ [g.time], stage := .over } := by unfold step; rw [hs]
    rw [hst]
    exact ⟨hm, hb, hf, .inr (.inr (.inr (.inl ⟨rfl, hlt, g.time, ht.symm, by show g.ended ++ [g.time] = _; rw [he]; rfl⟩)))⟩
  · have hst : step c g = g := by unfold step; rw [h.1]
    rw [hst]; exact ⟨hm, hb, hf, .inr (.inr (.inl h))⟩
  · have hst : step c g = g := by unfold step; rw [h.1]
    rw [hst]; exact ⟨hm, hb, hf, .inr (.inr (.inr (.inl h)))⟩
  · have hst : step c g = g := by unfold step; rw [h.1]
    rw [hst]; exact ⟨hm, hb, hf, .inr (.inr (.inr (.inr h)))⟩

theorem run_succ (c : Conf) (k : Nat) (g : Gen) : run c (k + 1) g = step c (run c k g) := by
  unfold run; rw [Function.iterate_succ', Function.comp]

theorem iat_run {T : Nat → Rat} {lead : Nat} {c : Conf} {g : Gen} (hT : ∀ k, T (k + 1) = T k + c.iat (k + lead)) (ho : c.off = 0) (hc : c.cap = false)
    (h : IatInv T lead c g) (k : Nat) : IatInv T lead c (run c k g) := by
  induction k with
  | zero => exact h
  | succ k ih => rw [run_succ]; exact iat_step hT ho hc ih

/-- as long as it generates, each event gives a component -/
theorem iat_count {T : Nat → Rat} {lead : Nat} {c : Conf} {g : Gen} (hT : ∀ k, T (k + 1) = T k + c.iat (k + lead)) (ho : c.off = 0) (hc : c.cap = false)
    (h : IatInv T lead c g) (k : Nat) :
    ((run c k g).stage = .iat → k ≤ (run c k g).n) ∧ ((run c k g).stage = .finalize → k ≤ (run c k g).n) := by
  induction k with
  | zero => exact ⟨fun _ => Nat.zero_le _, fun _ => Nat.zero_le _⟩
  | succ k ih =>
    have hi := iat_run hT ho hc h k
    rw [run_succ]
    rcases hi.stage with h | h | h | h | h
    · have hst : step c (run c k g) = stepIat c (run c k g) := by unfold step; rw [h.1]
      have hk := ih.1 h.1
      have : (stepIat c (run c k g)).n = (run c k g).n + 1 := by
        unfold stepIat
        dsimp only
        split
        · rfl
        split
        · unfold Gen.stop
          split
          · unfold Gen.at_; split <;> rfl
          · rfl
        · unfold Gen.at_; split <;> rfl
      rw [hst, this]
      exact ⟨fun _ => by omega, fun _ => by omega⟩
    · have hst : (step c (run c k g)).stage = .over := by unfold step; rw [h.1]
      rw [hst]; exact ⟨(by intro h; cases h), (by intro h; cases h)⟩
    all_goals
      have hst : step c (run c k g) = run c k g := by unfold step; rw [h.1]
      rw [hst, h.1]; exact ⟨(by intro h; cases h), (by intro h; cases h)⟩

/-! ## the construction of a generator by iat -/

theorem opening_begins {a : Args} {now at_ : Rat} (h : a.begins now 0 = some at_) : at_ = opening a now := by
  unfold Args.begins at h
  unfold opening
  cases h1 : a.at_ <;> cases h2 : a.delay <;> simp [h1, h2] at h ⊢ <;> exact h.symm

theorem closing_ends {a : Args} {now : Rat} {till : ETime} (h : a.ends (opening a now) 0 = some till) : till = closing a now := by
  unfold Args.ends at h
  unfold closing
  cases h1 : a.till <;> cases h2 : a.duration <;> simp [h1, h2] at h ⊢ <;> exact h.symm

/-- what `start` comes down to for a generator that is not by given moments and has something to generate -/
theorem start_plan {a : Args} {now : Rat} {r : Nat → Rat} {c : Conf} {g : Gen} (hn : a.number ≠ some 0) (hm : a.moments = none)
    (h : start a now 0 false r = some (c, g)) :
    (opening a now : ETime) ≤ closing a now ∧ (∀ m, a.number = some m → 0 < m) ∧ now ≤ g.time ∧
    (a.iat.isNone && !a.equidistant) = false ∧ a.byIat (opening a now) (closing a now) (a.number.map Int.toNat) 0 false = some (c, g) ∨
    (opening a now : ETime) ≤ closing a now ∧ (∀ m, a.number = some m → 0 < m) ∧ now ≤ g.time ∧
    (a.iat.isNone && !a.equidistant) = true ∧ ∃ n ms, a.number = some n ∧ a.spreadMoments (opening a now) n.toNat r = some ms ∧
      c = ⟨closing a now, some n.toNat, fun _ => 0, fun _ => 0, a.forceAt, 0, false⟩ ∧ g = { time := (intervals ms).1, stage := .spread (intervals ms).2 } := by
  unfold start at h
  rw [hm] at h
  simp only [Option.isSome_none, Bool.false_and, Bool.false_eq_true, if_false] at h
  split at h
  · cases h
  split at h
  · cases h
  rename_i at_ hat
  have e1 := opening_begins hat
  subst e1
  split at h
  · cases h
  rename_i till htl
  have e2 := closing_ends htl
  subst e2
  split at h
  · cases h
  rename_i hle
  split at h
  · cases h
  rename_i hneg
  have hpos : ∀ m, a.number = some m → 0 < m := by
    intro m hm
    rw [hm] at hneg hn
    simp at hneg hn
    omega
  split at h
  · rename_i h0
    cases hnum : a.number with
    | none => rw [hnum] at h0; cases h0
    | some m => rw [hnum] at h0; simp at h0; have := hpos m hnum; omega
  split at h
  · cases h
  rename_i c' g' hplan
  cases hs : schedule false now (g'.time + 0) with
  | none => rw [hs] at h; cases h
  | some t =>
    rw [hs] at h
    simp only [Option.map_some, Option.some.injEq, Prod.mk.injEq] at h
    obtain ⟨rfl, rfl⟩ := h
    have hge : now ≤ g'.time ∧ t = g'.time := by
      unfold schedule at hs
      split at hs
      · simp at hs
      · rename_i hlt
        simp only [add_zero, Option.some.injEq] at hs hlt
        exact ⟨not_lt.1 hlt, hs.symm⟩
    obtain ⟨hge, rfl⟩ := hge
    simp only [Bool.or_false] at hplan
    split at hplan
    · rename_i hb
      right
      refine ⟨not_lt.1 hle, hpos, hge, hb, ?_⟩
      cases hnum : a.number with
      | none => rw [hnum] at hplan; cases hplan
      | some n =>
        rw [hnum] at hplan
        simp only [Option.map_some] at hplan
        cases hms : a.spreadMoments (opening a now) n.toNat r with
        | none => rw [hms] at hplan; cases hplan
        | some ms =>
          rw [hms] at hplan
          simp only [Option.map_some, Option.some.injEq, Prod.mk.injEq] at hplan
          obtain ⟨rfl, rfl⟩ := hplan
          exact ⟨n, ms, rfl, hms, rfl, rfl⟩
    · rename_i hb
      left
      refine ⟨not_lt.1 hle, hpos, hge, by simpa using hb, ?_⟩
      rw [hplan]

/-- the generator as constructed with an iat -/
theorem start_iat {a : Args} {iat : Nat → Rat} {now : Rat} {r : Nat → Rat} {c : Conf} {g : Gen} (hi : a.iat = some iat) (hd : a.disturbance = none)
    (hn : a.number ≠ some 0) (h : start a now 0 false r = some (c, g)) :
    c = ⟨closing a now, a.number.map Int.toNat, iat, fun _ => 0, a.forceAt, 0, false⟩ ∧ now ≤ g.time ∧
    IatInv (due a now iat) (if a.forceAt then 0 else 1) c g := by
  have hm : a.moments = none := by
    cases hm : a.moments with
    | none => rfl
    | some l =>
      unfold start Args.others at h
      rw [hm, hi] at h
      simp at h
  rcases start_plan hn hm h with ⟨hle, hpos, hge, _, hb⟩ | ⟨_, _, _, hno, _⟩
  swap
  · rw [hi] at hno; simp at hno
  unfold Args.byIat at hb
  have heq : a.equidistant = false := by
    cases he : a.equidistant with
    | false => rfl
    | true =>
      rw [he, hi] at hb
      cases hc : closing a now with
      | none => rw [hc] at hb; simp at hb
      | some t =>
        rw [hc] at hb
        simp only [if_true, Option.isSome_some] at hb
        split at hb
        · cases hb
        · rename_i hx
          split at hx
          · cases hx
          · split at hx
            · cases hx
            · cases hx
  rw [heq, hi, hd] at hb
  simp only [Bool.false_eq_true, if_false, Option.getD_some, Option.getD_none, Option.isSome_none, Bool.or_false, Option.isNone_none, Bool.and_true,
    Bool.not_false] at hb
  split at hb
  · cases hb
  have hfirst : (if (!a.forceAt) = true then opening a now + iat 0 else opening a now) = due a now iat 0 := by
    unfold due
    cases a.forceAt
    · simp [total_succ, total_zero]
    · simp [total_zero]
  have hused : (if (!a.forceAt) = true then 1 else 0) = if a.forceAt then 0 else 1 := by cases a.forceAt <;> rfl
  rw [hfirst, hused] at hb
  split at hb
  · rename_i hlt
    cases hc : closing a now with
    | none => rw [hc] at hlt; exact absurd hlt (not_lt.2 (le_top : _ ≤ (⊤ : ETime)))
    | some t =>
      rw [hc] at hb hlt
      simp only [Option.some.injEq, Prod.mk.injEq] at hb
      obtain ⟨rfl, rfl⟩ := hb
      refine ⟨rfl, hge, rfl, ?_, ?_, .inr (.inl ⟨rfl, rfl, hlt, rfl⟩)⟩
      · intro k hk; exact absurd hk (Nat.not_lt_zero _)
      · intro m _; exact Nat.zero_le _
  · rename_i hlt
    simp only [Option.some.injEq, Prod.mk.injEq] at hb
    obtain ⟨rfl, rfl⟩ := hb
    refine ⟨rfl, hge, rfl, ?_, ?_, .inl ⟨rfl, rfl, not_lt.1 hlt, ?_, rfl, (Nat.zero_add _).symm⟩⟩
    · intro k hk; exact absurd hk (Nat.not_lt_zero _)
    · intro m _; exact Nat.zero_le _
    · intro m hm
      cases hnum : a.number with
      | none => simp [hnum] at hm
      | some x =>
        have := hpos x hnum
        simp [hnum] at hm
        show 0 < m
        omega

theorem due_succ (a : Args) (now : Rat) (iat : Nat → Rat) (k : Nat) :
    due a now iat (k + 1) = due a now iat k + iat (k + if a.forceAt then 0 else 1) := by
  unfold due
  cases a.forceAt
  · simp only [Bool.false_eq_true, if_false]; rw [total_succ, add_assoc]
  · simp only [if_true, add_zero]; rw [total_succ, add_assoc]

/-! ## C42 -/

/-- C42, for a generator by inter arrival times, at any moment: the components generated are the first ones that are due, each at the sum of the sampled inter
arrival times after the start (one less with force_at), none after till and not more than number. While it is generating at_end has not been called. When it
has ended at_end has been called exactly once: on the generation of the last component in case the number was reached, and otherwise at till, which is then
before the next component would be due. An exception is raised only if a sample of iat was negative. -/
theorem C42_iat {a : Args} {iat : Nat → Rat} {now : Rat} {r : Nat → Rat} {c : Conf} {g : Gen} (hi : a.iat = some iat) (hd : a.disturbance = none)
    (hn : a.number ≠ some 0) (h : start a now 0 false r = some (c, g)) (k : Nat) :
    let made := (run c k g).made
    let ended := (run c k g).ended
    made = (List.range made.length).map (due a now iat) ∧ (∀ t ∈ made, (t : ETime) ≤ closing a now) ∧ (∀ m, a.number = some m → (made.length : Int) ≤ m) ∧
    ((run c k g).stage ≠ .over → ended = []) ∧
    ((run c k g).stage = .over → (a.number = some (made.length : Int) ∧ ended = [due a now iat (made.length - 1)]) ∨
      (∃ t : Rat, closing a now = t ∧ t < due a now iat made.length ∧ ended = [t])) ∧
    ((run c k g).stage = .failed → ∃ i, iat i < 0) := by
  obtain ⟨hc, _, hinv⟩ := start_iat hi hd hn h
  have hci : c.iat = iat := by rw [hc]
  have hcn : c.number = a.number.map Int.toNat := by rw [hc]
  have hct : c.till = closing a now := by rw [hc]
  have hT : ∀ k, due a now iat (k + 1) = due a now iat k + c.iat (k + if a.forceAt then 0 else 1) := by rw [hci]; exact due_succ a now iat
  have := iat_run hT (by rw [hc]) (by rw [hc]) hinv k
  generalize run c k g = g' at this ⊢
  obtain ⟨hm, hb, hf, hs⟩ := this
  have hlen : g'.made.length = g'.n := by rw [hm]; simp
  rw [hct] at hb hs
  have hnum : ∀ x : Int, a.number = some x → 0 ≤ x := by
    intro x hx
    by_contra hneg
    unfold start at h
    rw [hx] at h
    simp only [Option.any_some] at h
    split at h
    · cases h
    split at h
    · cases h
    split at h
    · cases h
    split at h
    · cases h
    split at h
    · cases h
    rw [if_pos (by simpa using hneg)] at h
    cases h
  dsimp only
  rw [hlen]
  refine ⟨hm, ?_, ?_, ?_, ?_, ?_⟩
  · intro t ht
    rw [hm] at ht
    obtain ⟨i, hi, rfl⟩ := List.mem_map.1 ht
    exact hb i (List.mem_range.1 hi)
  · intro x hx
    have := hf x.toNat (by rw [hcn, hx]; rfl)
    have := hnum x hx
    omega
  · intro hno
    rcases hs with h | h | h | h | h
    · exact h.2.2.2.2.1
    · exact h.2.2.2
    · exact absurd h.1 hno
    · exact absurd h.1 hno
    · exact h.2.2.2
  · intro ho
    rcases hs with h | h | h | h | h
    · rw [ho] at h; cases h.1
    · rw [ho] at h; cases h.1
    · left
      refine ⟨?_, h.2.2.1⟩
      have h2 := h.2.1
      rw [hcn] at h2
      cases hx : a.number with
      | none => rw [hx] at h2; cases h2
      | some x =>
        rw [hx] at h2
        have := hnum x hx
        simp only [Option.map_some, Option.some.injEq] at h2
        congr 1; omega
    · right
      obtain ⟨_, hlt, t, h1, h2⟩ := h
      rw [h1] at hlt
      exact ⟨t, h1, WithTop.coe_lt_coe.1 hlt, h2⟩
    · rw [ho] at h; cases h.1
  · intro ho
    rcases hs with h | h | h | h | h
    · rw [ho] at h; cases h.1
    · rw [ho] at h; cases h.1
    · rw [ho] at h; cases h.1
    · rw [ho] at h; cases h.1
    · obtain ⟨_, hlt, hpos, _⟩ := h
      have hnn : g'.n = (g'.n - 1) + 1 := by omega
      have := due_succ a now iat (g'.n - 1)
      rw [← hnn] at this
      exact ⟨_, by linarith⟩

/-- C42: the generator comes to its end: if `m` components are asked for or component `m` (counted from 0) would be due after till, it has ended after `m + 1` events -/
theorem C42_iat_ends {a : Args} {iat : Nat → Rat} {now : Rat} {r : Nat → Rat} {c : Conf} {g : Gen} (hi : a.iat = some iat) (hd : a.disturbance = none)
    (hn : a.number ≠ some 0) (hpos : ∀ i, 0 ≤ iat i) (h : start a now 0 false r = some (c, g)) {m : Nat}
    (hm : a.number = some (m : Int) ∨ closing a now < (due a now iat m : ETime)) : (run c (m + 1) g).stage = .over := by
  obtain ⟨hc, _, hinv⟩ := start_iat hi hd hn h
  have hci : c.iat = iat := by rw [hc]
  have hcn : c.number = a.number.map Int.toNat := by rw [hc]
  have hct : c.till = closing a now := by rw [hc]
  have hT : ∀ k, due a now iat (k + 1) = due a now iat k + c.iat (k + if a.forceAt then 0 else 1) := by rw [hci]; exact due_succ a now iat
  have hmono : ∀ j k, due a now iat j ≤ due a now iat (j + k) := by
    intro j k
    induction k with
    | zero => exact le_refl _
    | succ k ih => rw [← add_assoc, due_succ]; have := hpos (j + k + if a.forceAt then 0 else 1); linarith
  have hI := iat_run hT (by rw [hc]) (by rw [hc]) hinv (m + 1)
  have hC := iat_count hT (by rw [hc]) (by rw [hc]) hinv (m + 1)
  -- the number of components is at most m
  have hle : (run c (m + 1) g).n ≤ m := by
    rcases hm with hm | hm
    · exact hI.few m (by rw [hcn, hm]; rfl)
    · by_contra hgt
      have := hI.before m (by omega)
      rw [hct] at this
      exact absurd hm (not_lt.2 this)
  rcases hI.stage with h | h | h | h | h
  · have := hC.1 h.1; omega
  · have := hC.2 h.1; omega
  · exact h.1
  · exact h.1
  · obtain ⟨_, hlt, hp, _⟩ := h
    have hnn : (run c (m + 1) g).n = ((run c (m + 1) g).n - 1) + 1 := by omega
    have h1 := hmono ((run c (m + 1) g).n - 1) 1
    rw [← hnn] at h1
    exact absurd hlt (not_lt.2 h1)

/-- C42: with inter arrival times that are not negative no component is generated before at, and the moments are in order -/
theorem C42_iat_order {a : Args} {iat : Nat → Rat} {now : Rat} {r : Nat → Rat} {c : Conf} {g : Gen} (hi : a.iat = some iat) (hd : a.disturbance = none)
    (hn : a.number ≠ some 0) (hpos : ∀ i, 0 ≤ iat i) (h : start a now 0 false r = some (c, g)) (k : Nat) :
    (∀ t ∈ (run c k g).made, opening a now ≤ t) ∧ (run c k g).made.Pairwise (· ≤ ·) ∧ (a.forceAt = true → ∀ t ∈ (run c k g).made.head?, t = opening a now) := by
  have hm := (C42_iat hi hd hn h k).1
  have hmono : ∀ j k, due a now iat j ≤ due a now iat (j + k) := by
    intro j k
    induction k with
    | zero => exact le_refl _
    | succ k ih => rw [← add_assoc, due_succ]; have := hpos (j + k + if a.forceAt then 0 else 1); linarith
  have h0 : opening a now ≤ due a now iat 0 := by
    unfold due
    cases a.forceAt
    · simp only [Bool.false_eq_true, if_false]; rw [total_succ, total_zero]; have := hpos 0; linarith
    · simp [total_zero]
  refine ⟨?_, ?_, ?_⟩
  · intro t ht
    rw [hm] at ht
    obtain ⟨i, _, rfl⟩ := List.mem_map.1 ht
    have := hmono 0 i
    rw [Nat.zero_add] at this
    linarith
  · rw [hm, List.pairwise_map]
    refine List.Pairwise.imp ?_ (List.pairwise_lt_range (n := (run c k g).made.length))
    intro i j hij
    have := hmono i (j - i)
    rwa [show i + (j - i) = j by omega] at this
  · intro hf t ht
    rw [hm] at ht
    cases hl : (run c k g).made.length with
    | zero => rw [hl] at ht; simp at ht
    | succ n =>
      rw [hl, List.range_succ_eq_map] at ht
      simp only [List.map_cons, List.head?_cons, Option.mem_def, Option.some.injEq] at ht
      rw [← ht]
      unfold due; rw [hf]; simp [total_zero]

/-- iat 3, 1, 4, 1, 5, ... from 10 till 20, at most 10 components, force_at -/
def piArgs : Args := { at_ := some 10, till := some (20 : Rat), number := some 10, iat := some (fun k => [3, 1, 4, 1, 5].getD k 9), forceAt := true }

/-- an example: components at 10, 13, 14, 18 and 19; at_end at 20 -/
theorem C42_iat_example : ((start piArgs 2 0 false (fun _ => 0)).map fun (c, g) => (run c 6 g)) =
    some { time := 20, stage := .over, n := 5, used := 5, made := [10, 13, 14, 18, 19], ended := [20] } := by decide +kernel

/-- and with at most three components -/
theorem C42_number_example : ((start { piArgs with number := some 3, forceAt := false } 2 0 false (fun _ => 0)).map fun (c, g) => (run c 4 g)) =
    some { time := 18, stage := .over, n := 3, used := 3, made := [13, 14, 18], ended := [18] } := by decide +kernel

/-- C42, equidistant: `n` components are generated, evenly from at up to and including till, and at_end is called exactly once, at till -/
theorem C42_equidistant {a : Args} {now : Rat} {r : Nat → Rat} {c : Conf} {g : Gen} {n : Int} (he : a.equidistant = true) (hd : a.disturbance = none)
    (hn : a.number = some n) (hn0 : n ≠ 0) (h : start a now 0 false r = some (c, g)) :
    ∃ t : Rat, closing a now = t ∧ opening a now ≤ t ∧ 2 ≤ n ∧ ∀ k : Nat, n ≤ k → (run c k g).stage = .over ∧
      (run c k g).made = (List.range n.toNat).map (fun j : Nat => opening a now + (j : Rat) * ((t - opening a now) / ((n : Rat) - 1))) ∧
      (run c k g).ended = [t] := by
  have hm : a.moments = none := by
    cases hm : a.moments with
    | none => rfl
    | some l =>
      unfold start Args.others at h
      rw [hm, he] at h
      simp at h
  rcases start_plan (by rw [hn]; simpa using hn0) hm h with ⟨hle, hpos, hge, _, hb⟩ | ⟨_, _, _, hno, _⟩
  swap
  · rw [he] at hno; simp at hno
  have hp := hpos n hn
  unfold Args.byIat at hb
  rw [he, hd, hn] at hb
  cases hc : closing a now with
  | none => rw [hc] at hb; simp at hb
  | some t =>
    rw [hc] at hb hle
    simp only [if_true, Option.map_some, Bool.not_true, Bool.and_false, Bool.or_true, Bool.false_and, Option.isSome_none, Bool.false_eq_true, if_false,
      Option.getD_none, Option.isNone_none] at hb
    split at hb
    · cases hb
    rename_i till iat hx
    split at hx
    · cases hx
    rename_i hnonneg
    split at hx
    · cases hx
    rename_i hne
    split at hx
    · cases hx
    simp only [Option.some.injEq, Prod.mk.injEq] at hx
    obtain ⟨rfl, rfl⟩ := hx
    rw [if_neg (not_lt.2 (le_top : _ ≤ (⊤ : ETime)))] at hb
    simp only [Option.some.injEq, Prod.mk.injEq] at hb
    obtain ⟨rfl, rfl⟩ := hb
    have hn2 : 2 ≤ n := by
      simp only [Option.some.injEq] at hne
      omega
    have hcast : ((n.toNat : Nat) : Rat) = (n : Rat) := by
      have : ((n.toNat : Nat) : Int) = n := Int.toNat_of_nonneg (by omega)
      exact_mod_cast congrArg (Int.cast (R := Rat)) this
    have hn1 : (0 : Rat) < (n : Rat) - 1 := by
      have : (2 : Rat) ≤ (n : Rat) := by exact_mod_cast hn2
      linarith
    have ht : opening a now ≤ t := WithTop.coe_le_coe.1 hle
    refine ⟨t, rfl, ht, hn2, ?_⟩
    generalize hD : (t - opening a now) / ((n : Rat) - 1) = D
    have hD0 : 0 ≤ D := by rw [← hD]; exact div_nonneg (by linarith) hn1.le
    rw [hcast, hD]
    intro k hk
    let T : Nat → Rat := fun j => opening a now + (j : Rat) * D
    have hT : ∀ j, T (j + 1) = T j + D := by
      intro j
      show opening a now + ((j + 1 : Nat) : Rat) * D = opening a now + (j : Rat) * D + D
      push_cast; ring
    have hI0 : IatInv T 0 ⟨⊤, some n.toNat, fun _ => D, fun _ => 0, a.forceAt, 0, false⟩ { time := opening a now, stage := .iat, used := 0 } := by
      refine ⟨rfl, ?_, ?_, .inl ⟨rfl, ?_, le_top, ?_, rfl, rfl⟩⟩
      · intro k hk; exact absurd hk (Nat.not_lt_zero _)
      · intro m _; exact Nat.zero_le _
      · show opening a now = opening a now + ((0 : Nat) : Rat) * D
        rw [Nat.cast_zero, zero_mul, add_zero]
      · intro m hm
        simp only [Option.some.injEq] at hm
        show 0 < m
        omega
    have hI := iat_run hT rfl rfl hI0 k
    have hC := iat_count hT rfl rfl hI0 k
    generalize run (⟨⊤, some n.toNat, fun _ => D, fun _ => 0, a.forceAt, 0, false⟩ : Conf) k { time := opening a now, stage := .iat, used := 0 } = g' at hI hC ⊢
    have hfew := hI.few n.toNat rfl
    rcases hI.stage with h | h | h | h | h
    · have h1 := hC.1 h.1
      have h2 := h.2.2.2.1 n.toNat rfl
      omega
    · exact absurd h.2.2.1 (not_lt.2 (le_top : _ ≤ (⊤ : ETime)))
    · have hnn := h.2.1
      simp only [Option.some.injEq] at hnn
      refine ⟨h.1, ?_, ?_⟩
      · rw [hI.made, ← hnn]
      · rw [h.2.2.1, ← hnn]
        congr 1
        show opening a now + ((n.toNat - 1 : Nat) : Rat) * D = t
        rw [Nat.cast_sub (by omega), hcast, ← hD, Nat.cast_one]
        field_simp
        ring
    · exact absurd h.2.1 (not_lt.2 (le_top : _ ≤ (⊤ : ETime)))
    · have := hT (g'.n - 1)
      rw [show g'.n - 1 + 1 = g'.n by omega] at this
      have := h.2.1
      linarith

/-- an example: 4 components from 10 till 25 -/
theorem C42_equidistant_example : ((start { at_ := some 10, duration := some (15 : Rat), number := some 4, equidistant := true } 2 0 false (fun _ => 0)).map fun (c, g) => (run c 4 g)) =
    some { time := 25, stage := .over, n := 4, used := 3, made := [10, 15, 20, 25], ended := [25] } := by decide +kernel

/-- not so with a disturbance, even one that is 0 all the time: force_at is then not applied, so each component is one interval late and the last one is after
till, and at_end is not called -/
theorem C42_equidistant_disturbance_counterexample :
    ((start { at_ := some 10, till := some (25 : Rat), number := some 4, equidistant := true, disturbance := some (fun _ => 0) } 2 0 false (fun _ => 0)).map
      fun (c, g) => (run c 4 g)) = some { time := 25, stage := .over, n := 4, used := 4, made := [15, 20, 25, 30], ended := [] } := by decide +kernel

/-! ## with disturbance -/

/-- the invariant of do_iat_disturbance: `B k` is the moment of event `k`, `M k` that of component `k` -/
structure DistInv (B M : Nat → Rat) (c : Conf) (g : Gen) : Prop where
  made : g.made = (List.range g.n).map M
  before : ∀ k < g.n, (M k : ETime) ≤ c.till ∧ B k ≤ M k
  few : ∀ m, c.number = some m → g.n ≤ m
  stage : (g.stage = .disturbed ∧ g.time = B g.n ∧ (∀ m, c.number = some m → g.n < m) ∧ g.ended = [] ∧ g.used = g.n)
    ∨ (g.stage = .finalize ∧ (g.time : ETime) = c.till ∧ c.till < (M g.n : ETime) ∧ g.ended = [])
    ∨ (g.stage = .over ∧ c.number = some g.n ∧ g.ended = [])
    ∨ (g.stage = .over ∧ c.till < (M g.n : ETime) ∧ ∃ t : Rat, c.till = t ∧ g.ended = [t])
    ∨ (g.stage = .failed ∧ g.ended = [] ∧ (M g.n < B g.n ∨ B g.n < B (g.n - 1) ∨ c.till < (B g.n : ETime)))

theorem dist_step {B M : Nat → Rat} {c : Conf} {g : Gen} (hB : ∀ k, B (k + 1) = B k + c.iat k)
    (hM : ∀ k, M k = (if c.forceAt then B k else B (k + 1)) + c.disturbance k) (ho : c.off = 0) (hc : c.cap = false)
    (h : DistInv B M c g) : DistInv B M c (step c g) := by
  rcases h with ⟨hm, hb, hf, h | h | h | h | h⟩
  · obtain ⟨hs, ht, hn, he, hu⟩ := h
    have hst : step c g = stepDisturbed c g := by unfold step; rw [hs]
    rw [hst]
    have hat : (if c.forceAt then g.time + c.disturbance g.used else g.time + c.iat g.used + c.disturbance g.used) = M g.n := by
      rw [hM, ht, hu]; split
      · rfl
      · rw [hB]
    have hnext : g.time + c.iat g.used = B (g.n + 1) := by rw [hB, ht, hu]
    unfold stepDisturbed
    simp only [hat]
    simp only [hnext]
    by_cases hlt : (M g.n : ETime) > c.till
    · rw [if_pos hlt]
      unfold Gen.stop
      cases htl : c.till with
      | none => rw [htl] at hlt; exact absurd hlt (not_lt.2 (le_top : _ ≤ (⊤ : ETime)))
      | some q =>
        rw [htl] at hlt
        show DistInv B M c (Gen.at_ _ _ (q + c.off) _)
        unfold Gen.at_ schedule
        simp only [ho, add_zero, hc]
        by_cases hq : q < g.time
        · simp only [hq, if_true, Bool.false_eq_true, if_false]
          refine ⟨hm, hb, hf, .inr (.inr (.inr (.inr ⟨rfl, he, .inr (.inr ?_)⟩)))⟩
          show c.till < (B g.n : ETime)
          rw [htl, ← ht]; exact WithTop.coe_lt_coe.2 hq
        · simp only [hq, if_false]
          refine ⟨hm, hb, hf, .inr (.inl ⟨rfl, ?_, ?_, he⟩)⟩
          · show ((q : Rat) : ETime) = c.till
            rw [htl]; rfl
          · show c.till < (M g.n : ETime)
            rw [htl]; exact hlt
    · rw [if_neg hlt]
      unfold schedule
      simp only [ho, add_zero, hc]
      by_cases hneg : M g.n < g.time
      · simp only [hneg, if_true, Bool.false_eq_true, if_false]
        refine ⟨hm, hb, hf, .inr (.inr (.inr (.inr ⟨rfl, he, .inl ?_⟩)))⟩
        show M g.n < B g.n
        rw [← ht]; exact hneg
      · simp only [hneg, if_false]
        have hmade : g.made ++ [M g.n] = (List.range (g.n + 1)).map M := by
          rw [List.range_succ, List.map_append, ← hm]; rfl
        have hbefore : ∀ k < g.n + 1, (M k : ETime) ≤ c.till ∧ B k ≤ M k := by
          intro k hk
          rcases Nat.lt_or_ge k g.n with h | h
          · exact hb k h
          · have : k = g.n := by omega
            rw [this]; exact ⟨not_lt.1 hlt, by rw [← ht]; exact not_lt.1 hneg⟩
        have hfew : ∀ m, c.number = some m → g.n + 1 ≤ m := fun m hm => hn m hm
        by_cases hen : c.enough (g.n + 1) = true
        · simp only [hen, if_true]
          refine ⟨hmade, hbefore, hfew, .inr (.inr (.inl ⟨rfl, ?_, he⟩))⟩
          obtain ⟨m, h1, h2⟩ := enough_iff.1 hen
          have := hn m h1
          show c.number = some (g.n + 1)
          rw [h1]; congr 1; omega
        · have hless : ∀ m, c.number = some m → g.n + 1 < m := by
            intro m hm
            have h1 := hn m hm
            rcases Nat.lt_or_ge (g.n + 1) m with h | h
            · exact h
            · exact absurd (enough_iff.2 ⟨m, hm, h⟩) hen
          simp only [hen, if_false, Bool.false_eq_true]
          unfold Gen.at_ schedule
          by_cases hneg2 : B (g.n + 1) < g.time
          · simp only [hneg2, if_true, Bool.false_eq_true, if_false]
            refine ⟨hmade, hbefore, hfew, .inr (.inr (.inr (.inr ⟨rfl, he, .inr (.inl ?_)⟩)))⟩
            show B (g.n + 1) < B (g.n + 1 - 1)
            rw [ht] at hneg2; exact hneg2
          · simp only [hneg2, if_false]
            refine ⟨hmade, hbefore, hfew, .inl ⟨rfl, rfl, hless, he, ?_⟩⟩
            show g.used + 1 = g.n + 1
            omega
  · obtain ⟨hs, ht, hlt, he⟩ := h
    have hst : step c g = { g with ended := g.ended ++ [g.time], stage := .over } := by unfold step; rw [hs]
    rw [hst]
    exact ⟨hm, hb, hf, .inr (.inr (.inr (.inl ⟨rfl, hlt, g.time, ht.symm, by show g.ended ++ [g.time] = _; rw [he]; rfl⟩)))⟩
  · have hst : step c g = g := by unfold step; rw [h.1]
    rw [hst]; exact ⟨hm, hb, hf, .inr (.inr (.inl h))⟩
  · have hst : step c g = g := by unfold step; rw [h.1]
    rw [hst]; exact ⟨hm, hb, hf, .inr (.inr (.inr (.inl h)))⟩
  · have hst : step c g = g := by unfold step; rw [h.1]
    rw [hst]; exact ⟨hm, hb, hf, .inr (.inr (.inr (.inr h)))⟩

theorem dist_run {B M : Nat → Rat} {c : Conf} {g : Gen} (hB : ∀ k, B (k + 1) = B k + c.iat k)
    (hM : ∀ k, M k = (if c.forceAt then B k else B (k + 1)) + c.disturbance k) (ho : c.off = 0) (hc : c.cap = false)
    (h : DistInv B M c g) (k : Nat) : DistInv B M c (run c k g) := by
  induction k with
  | zero => exact h
  | succ k ih => rw [run_succ]; exact dist_step hB hM ho hc ih

theorem start_dist {a : Args} {iat dst : Nat → Rat} {now : Rat} {r : Nat → Rat} {c : Conf} {g : Gen} (hi : a.iat = some iat) (hd : a.disturbance = some dst)
    (hn : a.number ≠ some 0) (h : start a now 0 false r = some (c, g)) :
    c = ⟨closing a now, a.number.map Int.toNat, iat, dst, a.forceAt, 0, false⟩ ∧
    DistInv (fun k => opening a now + total iat k) (fun k => due a now iat k + dst k) c g := by
  have hm : a.moments = none := by
    cases hm : a.moments with
    | none => rfl
    | some l =>
      unfold start Args.others at h
      rw [hm, hi] at h
      simp at h
  rcases start_plan hn hm h with ⟨hle, hpos, hge, _, hb⟩ | ⟨_, _, _, hno, _⟩
  swap
  · rw [hi] at hno; simp at hno
  unfold Args.byIat at hb
  have heq : a.equidistant = false := by
    cases he : a.equidistant with
    | false => rfl
    | true =>
      rw [he, hi] at hb
      cases hc : closing a now with
      | none => rw [hc] at hb; simp at hb
      | some t =>
        rw [hc] at hb
        simp only [if_true, Option.isSome_some] at hb
        split at hb
        · cases hb
        · rename_i hx
          split at hx
          · cases hx
          · split at hx
            · cases hx
            · cases hx
  rw [heq, hi, hd] at hb
  simp only [Bool.false_eq_true, if_false, Option.getD_some, Option.isSome_some, Bool.or_false, Option.isNone_some, Bool.and_false, if_true,
    Bool.not_false] at hb
  split at hb
  · cases hb
  rw [if_neg (not_lt.2 hle)] at hb
  simp only [Option.some.injEq, Prod.mk.injEq] at hb
  obtain ⟨rfl, rfl⟩ := hb
  refine ⟨rfl, rfl, ?_, ?_, .inl ⟨rfl, ?_, ?_, rfl, rfl⟩⟩
  · intro k hk; exact absurd hk (Nat.not_lt_zero _)
  · intro m _; exact Nat.zero_le _
  · show opening a now = opening a now + total iat 0
    rw [total_zero, add_zero]
  · intro m hm
    cases hnum : a.number with
    | none => simp [hnum] at hm
    | some x =>
      have := hpos x hnum
      simp [hnum] at hm
      show 0 < m
      omega

/-- C42 for a generator with disturbance: component `k` is at its disturbance after the moment it is due, the disturbances not being accumulated; none is after
till and none before at when iat is not negative. Generation ends when the next one would be after till, then at_end is called exactly once, at till, or with the
required number, and then at_end is not called at all. -/
theorem C42_disturbance {a : Args} {iat dst : Nat → Rat} {now : Rat} {r : Nat → Rat} {c : Conf} {g : Gen} (hi : a.iat = some iat) (hd : a.disturbance = some dst)
    (hn : a.number ≠ some 0) (h : start a now 0 false r = some (c, g)) (k : Nat) :
    let made := (run c k g).made
    let ended := (run c k g).ended
    made = (List.range made.length).map (fun k => due a now iat k + dst k) ∧
    (∀ t ∈ made, (t : ETime) ≤ closing a now ∧ ((∀ i, 0 ≤ iat i) → opening a now ≤ t)) ∧ (∀ m, a.number = some m → (made.length : Int) ≤ m) ∧
    ((run c k g).stage ≠ .over → ended = []) ∧
    ((run c k g).stage = .over → (a.number = some (made.length : Int) ∧ ended = []) ∨
      (∃ t : Rat, closing a now = t ∧ t < due a now iat made.length + dst made.length ∧ ended = [t])) := by
  obtain ⟨hc, hinv⟩ := start_dist hi hd hn h
  have hci : c.iat = iat := by rw [hc]
  have hcn : c.number = a.number.map Int.toNat := by rw [hc]
  have hct : c.till = closing a now := by rw [hc]
  have hB : ∀ k, opening a now + total iat (k + 1) = opening a now + total iat k + c.iat k := by rw [hci]; intro k; rw [total_succ, add_assoc]
  have := dist_run hB (by
    intro k
    have h1 : c.forceAt = a.forceAt := by rw [hc]
    have h2 : c.disturbance = dst := by rw [hc]
    rw [h1, h2]; unfold due; cases a.forceAt <;> rfl) (by rw [hc]) (by rw [hc]) hinv k
  generalize run c k g = g' at this ⊢
  obtain ⟨hm, hb, hf, hs⟩ := this
  have hlen : g'.made.length = g'.n := by rw [hm]; simp
  rw [hct] at hb hs
  have hnum : ∀ x : Int, a.number = some x → 0 ≤ x := by
    intro x hx
    by_contra hneg
    unfold start at h
    rw [hx] at h
    simp only [Option.any_some] at h
    split at h
    · cases h
    split at h
    · cases h
    split at h
    · cases h
    split at h
    · cases h
    split at h
    · cases h
    rw [if_pos (by simpa using hneg)] at h
    cases h
  dsimp only
  rw [hlen]
  refine ⟨hm, ?_, ?_, ?_, ?_⟩
  · intro t ht
    rw [hm] at ht
    obtain ⟨i, hi, rfl⟩ := List.mem_map.1 ht
    refine ⟨(hb i (List.mem_range.1 hi)).1, fun hp => ?_⟩
    have h1 := (hb i (List.mem_range.1 hi)).2
    have h2 : 0 ≤ total iat i := by
      induction i with
      | zero => rw [total_zero]
      | succ i ih =>
        clear h1
        have : ∀ j, 0 ≤ total iat j := by
          intro j
          induction j with
          | zero => rw [total_zero]
          | succ j ih => rw [total_succ]; have := hp j; linarith
        exact this _
    linarith
  · intro x hx
    have := hf x.toNat (by rw [hcn, hx]; rfl)
    have := hnum x hx
    omega
  · intro hno
    rcases hs with h | h | h | h | h
    · exact h.2.2.2.1
    · exact h.2.2.2
    · exact absurd h.1 hno
    · exact absurd h.1 hno
    · exact h.2.1
  · intro ho
    rcases hs with h | h | h | h | h
    · rw [ho] at h; cases h.1
    · rw [ho] at h; cases h.1
    · left
      refine ⟨?_, h.2.2⟩
      have h2 := h.2.1
      rw [hcn] at h2
      cases hx : a.number with
      | none => rw [hx] at h2; cases h2
      | some x =>
        rw [hx] at h2
        have := hnum x hx
        simp only [Option.map_some, Option.some.injEq] at h2
        congr 1; omega
    · right
      obtain ⟨_, hlt, t, h1, h2⟩ := h
      rw [h1] at hlt
      exact ⟨t, h1, WithTop.coe_lt_coe.1 hlt, h2⟩
    · rw [ho] at h; cases h.1

/-- an example, and the at_end that is never called: 3 components with iat 10 and disturbances 1, 2, 0 -/
theorem C42_disturbance_counterexample :
    ((start { at_ := some 5, number := some 3, iat := some (fun _ => 10), disturbance := some (fun k => [1, 2].getD k 0) } 5 0 false (fun _ => 0)).map
      fun (c, g) => (run c 3 g)) = some { time := 25, stage := .over, n := 3, used := 3, made := [16, 27, 35], ended := [] } := by decide +kernel

/-! ## given moments and random spread -/

/-- the differences of a list, after `t` -/
def diffs (t : Rat) : List Rat → List Rat
  | [] => []
  | m :: ms => (m - t) :: diffs m ms

theorem zip_diffs (t : Rat) (ms : List Rat) : List.zipWith (fun t0 t1 => t1 - t0) (t :: ms) ms = diffs t ms := by
  induction ms generalizing t with
  | nil => rfl
  | cons m ms ih => rw [List.zipWith_cons_cons, ih]; rfl

theorem intervals_cons (m : Rat) (ms : List Rat) : intervals (m :: ms) = (m, 0 :: diffs m ms) := by
  unfold intervals
  rw [zip_diffs]
  simp [diffs]

theorem run_over {c : Conf} {g : Gen} (h : g.stage = .over) (k : Nat) : run c k g = g := by
  induction k with
  | zero => rfl
  | succ k ih => rw [run_succ, ih]; unfold step; rw [h]

theorem run_succ' (c : Conf) (k : Nat) (g : Gen) : run c (k + 1) g = run c k (step c g) := by
  unfold run; rw [Function.iterate_succ, Function.comp]

/-- do_spread from a hold on -/
theorem held_run {c : Conf} {t off : Rat} {ms : List Rat} (hs : (t :: ms).Pairwise (· ≤ ·)) (k : Nat) (g : Gen)
    (hg : g.stage = .held (diffs t ms)) (ht : g.time = t + off) :
    (run c k g).made = g.made ++ ((t :: ms).map (· + off)).take k ∧ (run c k g).ended = g.ended ++ (if k ≤ ms.length then [] else [(t :: ms).getLastD 0 + off]) ∧
    ((run c k g).stage = .over ↔ ms.length < k) := by
  induction ms generalizing t k g with
  | nil =>
    cases k with
    | zero => simp [run, hg]
    | succ k =>
      rw [run_succ']
      have h1 : step c g = { g with made := g.made ++ [g.time], ended := g.ended ++ [g.time], stage := .over } := by unfold step; rw [hg]; rfl
      rw [h1, run_over rfl]
      simp [ht]
  | cons m ms ih =>
    cases k with
    | zero => simp [run, hg]
    | succ k =>
      rw [run_succ']
      have hle : t ≤ m := (List.pairwise_cons.1 hs).1 m (List.mem_cons_self ..)
      have h1 : step c g = { g with made := g.made ++ [g.time], time := m + off, stage := .held (diffs m ms) } := by
        unfold step; rw [hg]
        show Gen.at_ _ _ (g.time + (m - t)) _ = _
        unfold Gen.at_ schedule
        have : ¬ g.time + (m - t) < g.time := by linarith
        simp only [this, if_false]
        rw [ht]; congr 1; ring
      rw [h1]
      obtain ⟨a1, a2, a3⟩ := ih (List.pairwise_cons.1 hs).2 k { g with made := g.made ++ [g.time], time := m + off, stage := .held (diffs m ms) } rfl rfl
      refine ⟨?_, ?_, ?_⟩
      · rw [a1, ht]; simp
      · rw [a2]; simp
      · rw [a3]; simp

/-- do_spread from its start on -/
theorem spread_run {c : Conf} {off : Rat} {ms : List Rat} (hne : ms ≠ []) (hs : ms.Pairwise (· ≤ ·)) (k : Nat) :
    let g := run c (k + 1) { time := (intervals ms).1 + off, stage := .spread (intervals ms).2 }
    g.made = (ms.map (· + off)).take k ∧ g.ended = (if k < ms.length then [] else [ms.getLastD 0 + off]) ∧ (g.stage = .over ↔ ms.length ≤ k) := by
  cases ms with
  | nil => exact absurd rfl hne
  | cons m ms =>
    rw [intervals_cons]
    dsimp only
    rw [run_succ']
    have h1 : step c { time := m + off, stage := .spread (0 :: diffs m ms) } = { time := m + off, stage := .held (diffs m ms) } := by
      show Gen.at_ _ _ (m + off + 0) _ = _
      unfold Gen.at_ schedule
      simp
    rw [h1]
    obtain ⟨a1, a2, a3⟩ := held_run (c := c) (off := off) hs k { time := m + off, stage := .held (diffs m ms) } rfl rfl
    refine ⟨?_, ?_, ?_⟩
    · rw [a1]; rfl
    · rw [a2]; simp only [List.nil_append, List.length_cons, Nat.lt_succ_iff]
    · rw [a3]; simp [Nat.succ_le_iff]

theorem sorted_perm (l : List Rat) : (sorted l).Perm l := List.perm_insertionSort _ l
theorem sorted_pairwise (l : List Rat) : (sorted l).Pairwise (· ≤ ·) := List.pairwise_insertionSort _ l

/-- C42 for a generator with given moments, in any order and whatever the offset of the clock: the components are generated at exactly these moments, as seen on
the clock, and then at_end is called exactly once -/
theorem C42_moments {a : Args} {l : List Rat} {now off : Rat} {r : Nat → Rat} {c : Conf} {g : Gen} (hm : a.moments = some l) (hne : l ≠ []) (hn : a.number = none)
    (h : start a now off false r = some (c, g)) :
    ∃ ms : List Rat, ms.Perm l ∧ ms.Pairwise (· ≤ ·) ∧ (∀ m ∈ ms, now - off ≤ m) ∧ ∀ k,
      (run c (k + 1) g).made = (ms.map (· + off)).take k ∧ (run c (k + 1) g).ended = (if k < l.length then [] else [ms.getLastD 0 + off]) ∧
      ((run c (k + 1) g).stage = .over ↔ l.length ≤ k) := by
  cases l with
  | nil => exact absurd rfl hne
  | cons x xs =>
    refine ⟨sorted (x :: xs), sorted_perm _, sorted_pairwise _, ?_⟩
    have hsne : sorted (x :: xs) ≠ [] := by
      intro h0
      have := (sorted_perm (x :: xs)).length_eq
      rw [h0] at this; simp at this
    have hg : g = { time := (intervals (sorted (x :: xs))).1 + off, stage := .spread (intervals (sorted (x :: xs))).2 } ∧ now ≤ g.time := by
      unfold start at h
      rw [hm, hn] at h
      simp only [Option.any_none, Option.map_none, Bool.false_eq_true, if_false, reduceCtorEq, Option.isSome_some, Bool.or_true, if_true, Option.map_some] at h
      split at h
      · cases h
      split at h
      · cases h
      split at h
      · cases h
      split at h
      · cases h
      split at h
      · cases h
      cases hs : schedule false now ((intervals (sorted (x :: xs))).1 + off) with
      | none => rw [hs] at h; cases h
      | some t =>
        rw [hs] at h
        simp only [Option.map_some, Option.some.injEq, Prod.mk.injEq] at h
        obtain ⟨rfl, rfl⟩ := h
        unfold schedule at hs
        split at hs
        · simp at hs
        · rename_i hlt
          simp only [Option.some.injEq] at hs
          subst hs
          exact ⟨rfl, not_lt.1 hlt⟩
    obtain ⟨hg, hnow⟩ := hg
    refine ⟨?_, ?_⟩
    · cases hs : sorted (x :: xs) with
      | nil => exact absurd hs hsne
      | cons m ms =>
        rw [hg, hs, intervals_cons] at hnow
        have hp := sorted_pairwise (x :: xs)
        rw [hs] at hp
        intro y hy
        rcases List.mem_cons.1 hy with rfl | hy
        · show now - off ≤ y
          have : now ≤ y + off := hnow
          linarith
        · have := (List.pairwise_cons.1 hp).1 y hy
          have : now ≤ m + off := hnow
          linarith
    · intro k
      have := spread_run (c := c) (off := off) hsne (sorted_pairwise (x :: xs)) k
      rw [hg]
      rw [← (sorted_perm (x :: xs)).length_eq]
      exact this

/-- an example: moments 7, 3 and 5 after the clock has been reset by 10 -/
theorem C42_moments_example : ((start { moments := some [7, 3, 5] } 12 10 false (fun _ => 0)).map fun (c, g) => (run c 4 g)) =
    some { time := 17, stage := .over, made := [13, 15, 17], ended := [17] } := by decide +kernel

/-- the samples of a random spread: uniform between `lo` and `hi` -/
def samples (lo hi : Rat) (r : Nat → Rat) (n : Nat) : List Rat := (List.range n).map (fun k => lo + (hi - lo) * r k)

theorem headD_le {l : List Rat} (h : l.Pairwise (· ≤ ·)) : ∀ x ∈ l, l.headD 0 ≤ x := by
  cases l with
  | nil => intro x hx; cases hx
  | cons y ys =>
    intro x hx
    rcases List.mem_cons.1 hx with rfl | hx
    · exact le_refl _
    · exact (List.pairwise_cons.1 h).1 x hx

theorem le_lastD {l : List Rat} (h : l.Pairwise (· ≤ ·)) : ∀ x ∈ l, x ≤ l.getLastD 0 := by
  induction l with
  | nil => intro x hx; cases hx
  | cons y ys ih =>
    intro x hx
    cases ys with
    | nil => rw [List.mem_singleton.1 hx]; exact le_refl _
    | cons z zs =>
      have hp := List.pairwise_cons.1 h
      have e : (y :: z :: zs).getLastD 0 = (z :: zs).getLastD 0 := by simp [List.getLastD]
      rw [e]
      rcases List.mem_cons.1 hx with rfl | hx
      · exact le_trans (hp.1 z (List.mem_cons_self ..)) (ih hp.2 z (List.mem_cons_self ..))
      · exact ih hp.2 x hx

theorem headD_mem {l : List Rat} (h : l ≠ []) : l.headD 0 ∈ l := by
  cases l with
  | nil => exact absurd rfl h
  | cons y ys => exact List.mem_cons_self ..

theorem lastD_mem {l : List Rat} (h : l ≠ []) : l.getLastD 0 ∈ l := by
  cases l with
  | nil => exact absurd rfl h
  | cons y ys => rw [List.getLastD_cons, ← List.getLast_eq_getLastD]; exact List.getLast_mem _; exact h

/-- the forced moments as a map of the moments: the straight line from the first to the last; when all are the same, at the last -/
theorem forced_eq {lo up vA vT x : Rat} (h0 : lo ≤ x) (h1 : x ≤ up) :
    (Util.interpolate (x : WithTop Rat) (lo : WithTop Rat) (up : WithTop Rat) (some vA) (some vT)).getD 0 =
      if lo < up then vA + (vT - vA) * ((x - lo) / (up - lo)) else vT := by
  by_cases h : lo < up
  · rw [if_pos h, Util.C43_line h0 h1 h]; rfl
  · have e : lo = up := le_antisymm (le_trans h0 h1) (not_lt.1 h)
    subst e
    rw [if_neg h]
    unfold Util.interpolate Util.interpolateWith
    by_cases hv : (some vA : Option Rat) = some vT
    · rw [if_pos hv, hv]; rfl
    · rw [if_neg hv]
      simp

/-- the moments of a random spread with till as an argument -/
theorem spreadMoments_spec {a : Args} {lo t : Rat} {n : Nat} {r : Nat → Rat} {ms : List Rat} (htill : a.till = some (t : ETime)) (hn : 0 < n)
    (hr : ∀ k, 0 ≤ r k ∧ r k < 1) (h : a.spreadMoments lo n r = some ms) (hnn : a.number = some (n : Int)) :
    lo ≤ t ∧ ms.length = n ∧ ms.Pairwise (· ≤ ·) ∧ (∀ m ∈ ms, lo ≤ m ∧ m ≤ t) ∧
    (a.forceAt = false → a.forceTill = false → ms.Perm (samples lo t r n)) ∧
    (a.forceTill = true → ms.getLastD 0 = t) ∧
    (a.forceAt = true → ((n = 1 ∧ a.numberSampled = false) ∨ ∃ i < n, ∃ j < n, r i ≠ r j) → ms.headD 0 = lo) ∧
    ((n ≠ 1 ∨ a.numberSampled = true) → ∀ x ∈ samples lo t r n, ∀ y ∈ samples lo t r n, x < y → (∀ z ∈ samples lo t r n, x ≤ z ∧ z ≤ y) →
      ms.Perm ((samples lo t r n).map (fun z => (if a.forceAt then lo else x) + ((if a.forceTill then t else y) - (if a.forceAt then lo else x)) * ((z - x) / (y - x))))) := by
  unfold Args.spreadMoments at h
  rw [htill] at h
  rw [if_neg (by intro h0; cases h0)] at h
  split at h
  · cases h
  simp only [Option.any_some] at h
  split at h
  · cases h
  rename_i hlt
  have hlot : lo ≤ t := by simpa using hlt
  simp only [Option.getD_some] at h
  have hS : (sorted (samples lo t r n)).Perm (samples lo t r n) := sorted_perm _
  have hP : (sorted (samples lo t r n)).Pairwise (· ≤ ·) := sorted_pairwise _
  have hL : (sorted (samples lo t r n)).length = n := by rw [hS.length_eq]; simp [samples]
  have hB : ∀ m ∈ sorted (samples lo t r n), lo ≤ m ∧ m ≤ t := by
    intro m hm
    obtain ⟨k, _, rfl⟩ := List.mem_map.1 (hS.mem_iff.1 hm)
    have := hr k
    have h1 : 0 ≤ (t - lo) * r k := mul_nonneg (by linarith) this.1
    have h2 : (t - lo) * r k ≤ (t - lo) * 1 := mul_le_mul_of_nonneg_left this.2.le (by linarith)
    constructor <;> linarith
  have hne : sorted (samples lo t r n) ≠ [] := by intro h0; rw [h0] at hL; simp at hL; omega
  change (if (a.forceAt || a.forceTill) = true then _ else some (sorted (samples lo t r n))) = some ms at h
  change (if (a.forceAt || a.forceTill) = true then if (a.number = some 1 && !a.numberSampled) = true then _ else if (a.forceTill && _) = true then _ else
    some ((sorted (samples lo t r n)).map (fun m : Rat => (Util.interpolate (m : WithTop Rat) ((sorted (samples lo t r n)).headD 0 : WithTop Rat) ((sorted (samples lo t r n)).getLastD 0 : WithTop Rat)
      (some (if a.forceAt then lo else (sorted (samples lo t r n)).headD 0)) (some (if a.forceTill then t else (sorted (samples lo t r n)).getLastD 0))).getD 0)) else _) = some ms at h
  generalize hs : sorted (samples lo t r n) = S at *
  have hline : ∀ x ∈ samples lo t r n, ∀ y ∈ samples lo t r n, (∀ z ∈ samples lo t r n, x ≤ z ∧ z ≤ y) → x = S.headD 0 ∧ y = S.getLastD 0 := by
    intro x hx y hy hz
    refine ⟨le_antisymm ?_ ?_, le_antisymm ?_ ?_⟩
    · exact (hz _ (hS.mem_iff.1 (headD_mem hne))).1
    · exact headD_le hP x (hS.mem_iff.2 hx)
    · exact le_lastD hP y (hS.mem_iff.2 hy)
    · exact (hz _ (hS.mem_iff.1 (lastD_mem hne))).2
  by_cases hf : (a.forceAt || a.forceTill) = true
  swap
  · rw [if_neg hf] at h
    simp only [Option.some.injEq] at h
    subst h
    have hfa : a.forceAt = false := by cases h : a.forceAt <;> simp [h] at hf ⊢
    have hft : a.forceTill = false := by cases h : a.forceTill <;> simp [h] at hf ⊢
    rw [hfa, hft]
    refine ⟨hlot, hL, hP, hB, fun _ _ => hS, (by intro h; cases h), (by intro h; cases h), ?_⟩
    intro _ x hx y hy hxy _
    have : (samples lo t r n).map (fun z => (if false = true then lo else x) + ((if false = true then t else y) - (if false = true then lo else x)) * ((z - x) / (y - x))) = samples lo t r n := by
      conv_rhs => rw [← List.map_id (samples lo t r n)]
      apply List.map_congr_left
      intro z _
      have : y - x ≠ 0 := by intro h0; linarith
      simp only [Bool.false_eq_true, if_false, id]
      field_simp
      ring
    rw [this]; exact hS
  rw [if_pos hf] at h
  by_cases h1 : (a.number = some 1 && !a.numberSampled) = true
  · rw [if_pos h1] at h
    rw [hnn] at h1
    simp only [Bool.and_eq_true, decide_eq_true_eq, Option.some.injEq, Bool.not_eq_true'] at h1
    have hn1 : n = 1 := by omega
    split at h
    · cases h
    rename_i hboth
    by_cases hfa : a.forceAt = true
    · have hft : a.forceTill = false := by cases h : a.forceTill <;> simp [h, hfa] at hboth ⊢
      rw [if_pos hfa] at h
      simp only [Option.some.injEq] at h
      subst h
      refine ⟨hlot, by simp [hn1], by simp, ?_, ?_, ?_, fun _ _ => rfl, ?_⟩
      · intro m hm; rw [List.mem_singleton.1 hm]; exact ⟨le_refl _, hlot⟩
      · intro h; rw [hfa] at h; cases h
      · intro h; rw [hft] at h; cases h
      · intro h; rcases h with h | h
        · exact absurd hn1 h
        · rw [h1.2] at h; cases h
    · rw [if_neg hfa] at h
      simp only [Option.map_some, Option.some.injEq] at h
      subst h
      have hft : a.forceTill = true := by cases h : a.forceTill <;> simp [h] at hf ⊢; exact absurd hf hfa
      refine ⟨hlot, by simp [hn1], by simp, ?_, ?_, fun _ => rfl, ?_, ?_⟩
      · intro m hm; rw [List.mem_singleton.1 hm]; exact ⟨hlot, le_refl _⟩
      · intro _ h; rw [hft] at h; cases h
      · intro h; exact absurd h hfa
      · intro h; rcases h with h | h
        · exact absurd hn1 h
        · rw [h1.2] at h; cases h
  · rw [if_neg h1] at h
    simp only [Option.isNone_some, Bool.and_false, Bool.false_eq_true, if_false, Option.some.injEq] at h
    generalize hlo : S.headD 0 = x0 at *
    generalize hup : S.getLastD 0 = y0 at *
    have hx0 : x0 ∈ S := by rw [← hlo]; exact headD_mem hne
    have hy0 : y0 ∈ S := by rw [← hup]; exact lastD_mem hne
    have hle0 : ∀ z ∈ S, x0 ≤ z ∧ z ≤ y0 := by
      intro z hz
      exact ⟨by rw [← hlo]; exact headD_le hP z hz, by rw [← hup]; exact le_lastD hP z hz⟩
    let vA := if a.forceAt then lo else x0
    let vT := if a.forceTill then t else y0
    have hvA : lo ≤ vA ∧ vA ≤ x0 := by
      show lo ≤ (if a.forceAt then lo else x0) ∧ (if a.forceAt then lo else x0) ≤ x0
      split
      · exact ⟨le_refl _, (hB x0 hx0).1⟩
      · exact ⟨(hB x0 hx0).1, le_refl _⟩
    have hvT : y0 ≤ vT ∧ vT ≤ t := by
      show y0 ≤ (if a.forceTill then t else y0) ∧ (if a.forceTill then t else y0) ≤ t
      split
      · exact ⟨(hB y0 hy0).2, le_refl _⟩
      · exact ⟨le_refl _, (hB y0 hy0).2⟩
    let f : Rat → Rat := fun z => if x0 < y0 then vA + (vT - vA) * ((z - x0) / (y0 - x0)) else vT
    have hms : ms = S.map f := by
      rw [← h]
      apply List.map_congr_left
      intro z hz
      exact forced_eq (hle0 z hz).1 (hle0 z hz).2
    have hxy0 : x0 ≤ y0 := (hle0 x0 hx0).2
    have hAT : vA ≤ vT := by linarith [hvA.2, hvT.1]
    have hmono : ∀ z z', z ≤ z' → f z ≤ f z' := by
      intro z z' hz
      show (if x0 < y0 then _ else _) ≤ (if x0 < y0 then _ else _)
      split
      · rename_i hlt
        have h1 : (z - x0) / (y0 - x0) ≤ (z' - x0) / (y0 - x0) := div_le_div_of_nonneg_right (by linarith) (by linarith)
        have h2 := mul_le_mul_of_nonneg_left h1 (show 0 ≤ vT - vA by linarith)
        linarith
      · exact le_refl _
    have hf0 : x0 < y0 → f x0 = vA := by
      intro hlt
      show (if x0 < y0 then vA + (vT - vA) * ((x0 - x0) / (y0 - x0)) else vT) = vA
      rw [if_pos hlt, sub_self, zero_div, mul_zero, add_zero]
    have hf1 : f y0 = vT := by
      show (if x0 < y0 then vA + (vT - vA) * ((y0 - x0) / (y0 - x0)) else vT) = vT
      split
      · rename_i hlt
        rw [div_self (by intro h0; linarith)]; ring
      · rfl
    have hrange : ∀ z ∈ S, vA ≤ f z ∧ f z ≤ vT := by
      intro z hz
      refine ⟨?_, by rw [← hf1]; exact hmono z y0 (hle0 z hz).2⟩
      by_cases hlt : x0 < y0
      · rw [← hf0 hlt]; exact hmono x0 z (hle0 z hz).1
      · show vA ≤ (if x0 < y0 then _ else vT)
        rw [if_neg hlt]; exact hAT
    have hhead : ms.headD 0 = f x0 := by
      rw [hms, ← hlo]
      cases S with
      | nil => exact absurd rfl hne
      | cons => rfl
    have hlast : ms.getLastD 0 = f y0 := by
      rw [hms, ← hup]
      rw [List.getLastD_eq_getLast?, List.getLastD_eq_getLast?, List.getLast?_map]
      cases hl : S.getLast? with
      | none => exact absurd (List.getLast?_eq_none_iff.1 hl) hne
      | some z => rfl
    refine ⟨hlot, ?_, ?_, ?_, ?_, ?_, ?_, ?_⟩
    · rw [hms, List.length_map, hL]
    · rw [hms, List.pairwise_map]; exact hP.imp (fun h => hmono _ _ h)
    · intro m hm
      rw [hms] at hm
      obtain ⟨z, hz, rfl⟩ := List.mem_map.1 hm
      have := hrange z hz
      exact ⟨by linarith [hvA.1], by linarith [hvT.2]⟩
    · intro hfa hft; rw [hfa, hft] at hf; cases hf
    · intro hft
      rw [hlast, hf1]
      show (if a.forceTill then t else y0) = t
      rw [if_pos hft]
    · intro hfa hd
      have hvA' : vA = lo := by show (if a.forceAt then lo else x0) = lo; rw [if_pos hfa]
      rcases hd with hd | ⟨i, hi, j, hj, hij⟩
      · rw [hnn, hd.1, hd.2] at h1; simp at h1
      · rw [hhead]
        by_cases hlt : x0 < y0
        · rw [hf0 hlt, hvA']
        · -- all samples are the same, so the interval is a single moment
          have hsame : ∀ z ∈ S, z = y0 := fun z hz => le_antisymm (hle0 z hz).2 (by linarith [(hle0 z hz).1])
          have h2 : ∀ k < n, lo + (t - lo) * r k ∈ S := fun k hk => hS.mem_iff.2 (List.mem_map.2 ⟨k, List.mem_range.2 hk, rfl⟩)
          have h3 : (t - lo) * (r i - r j) = 0 := by have := hsame _ (h2 i hi); have := hsame _ (h2 j hj); linarith
          have h4 : t - lo = 0 := by
            rcases mul_eq_zero.1 h3 with h | h
            · exact h
            · exact absurd (sub_eq_zero.1 h) hij
          have := hrange x0 hx0
          linarith [hvA.1, hvT.2]
    · intro _ x hx y hy hxy hz
      obtain ⟨e1, e2⟩ := hline x hx y hy hz
      rw [hms]
      subst e1 e2
      refine (hS.map f).trans (List.Perm.of_eq ?_)
      apply List.map_congr_left
      intro z _
      show (if x < y then _ else _) = _
      rw [if_pos hxy]

/-- C42 for a random spread between at and till: exactly `n` components are generated, in order, all between at and till. Without force flags the moments are
the `n` uniform samples; otherwise they are stretched linearly, such that with force_till the last one is exactly at till, and with force_at the first one is
exactly at at, provided that the samples are not all the same. After that at_end is called exactly once, at the moment of the last component. -/
theorem C42_spread {a : Args} {now t : Rat} {n : Nat} {r : Nat → Rat} {c : Conf} {g : Gen} (hi : a.iat = none) (he : a.equidistant = false) (hm : a.moments = none)
    (hn : a.number = some (n : Int)) (hn0 : 0 < n) (htill : a.till = some (t : ETime)) (hr : ∀ k, 0 ≤ r k ∧ r k < 1) (h : start a now 0 false r = some (c, g)) :
    let S := samples (opening a now) t r n
    ∃ ms : List Rat, ms.length = n ∧ ms.Pairwise (· ≤ ·) ∧ (∀ m ∈ ms, opening a now ≤ m ∧ m ≤ t) ∧
    (a.forceAt = false → a.forceTill = false → ms.Perm S) ∧
    (a.forceTill = true → ms.getLastD 0 = t) ∧
    (a.forceAt = true → ((n = 1 ∧ a.numberSampled = false) ∨ ∃ i < n, ∃ j < n, r i ≠ r j) → ms.headD 0 = opening a now) ∧
    ((n ≠ 1 ∨ a.numberSampled = true) → ∀ x ∈ S, ∀ y ∈ S, x < y → (∀ z ∈ S, x ≤ z ∧ z ≤ y) →
      ms.Perm (S.map (fun z => (if a.forceAt then opening a now else x) + ((if a.forceTill then t else y) - (if a.forceAt then opening a now else x)) * ((z - x) / (y - x))))) ∧
    ∀ k, (run c (k + 1) g).made = ms.take k ∧ (run c (k + 1) g).ended = (if k < n then [] else [ms.getLastD 0]) ∧ ((run c (k + 1) g).stage = .over ↔ n ≤ k) := by
  rcases start_plan (by rw [hn]; simp; omega) hm h with ⟨_, _, _, hno, _⟩ | ⟨_, _, _, _, n', ms, hn', hms, hc, hg⟩
  · rw [hi, he] at hno; simp at hno
  rw [hn] at hn'
  simp only [Option.some.injEq] at hn'
  subst hn'
  rw [Int.toNat_natCast] at hms
  obtain ⟨_, h1, h2, h3, h4, h5, h6, h7⟩ := spreadMoments_spec htill hn0 hr hms hn
  refine ⟨ms, h1, h2, h3, h4, h5, h6, h7, ?_⟩
  intro k
  have hne : ms ≠ [] := by intro h0; rw [h0] at h1; simp at h1; omega
  have := spread_run (c := c) (off := 0) hne h2 k
  simp only [add_zero, List.map_id'] at this
  rw [← hg, h1] at this
  exact this

/-- an example: 3 components between 10 and 20, with samples at 3/4, 1/2 and 1/4 of the interval; without force at 12.5, 15 and 17.5 -/
theorem C42_spread_example : ((start { at_ := some 10, till := some (20 : Rat), number := some 3 } 2 0 false (fun k => (3 - k) / 4)).map fun (c, g) => (run c 4 g)) =
    some { time := 35 / 2, stage := .over, made := [25 / 2, 15, 35 / 2], ended := [35 / 2] } := by decide +kernel

/-- and with both ends forced at 10, 15 and 20 -/
theorem C42_forced_example : ((start { at_ := some 10, till := some (20 : Rat), number := some 3, forceAt := true, forceTill := true } 2 0 false (fun k => (3 - k) / 4)).map
    fun (c, g) => (run c 4 g)) = some { time := 20, stage := .over, made := [10, 15, 20], ended := [20] } := by decide +kernel

/-- if the number is a distribution, which gives 1, force_at has no effect -/
theorem C42_force_at_counterexample : ((start { at_ := some 10, till := some (20 : Rat), number := some 1, numberSampled := true, forceAt := true } 2 0 false (fun _ => 1 / 2)).map
    fun (c, g) => (run c 2 g)) = some { time := 15, stage := .over, made := [15], ended := [15] } := by decide +kernel

/-- with a duration instead of till there is no spread at all: all components are generated at at -/
theorem C42_spread_duration_counterexample : ((start { at_ := some 10, duration := some (10 : Rat), number := some 3 } 2 0 false (fun k => (3 - k) / 4)).map
    fun (c, g) => (run c 4 g)) = some { time := 10, stage := .over, made := [10, 10, 10], ended := [10] } := by decide +kernel

/-- after the clock has been reset by 5 units, the components of a generator from at=10 on the clock are not at 10, 11 and 12, but at 15, 21 and 27 on the clock:
the offset is added twice, and again for each next component -/
theorem C42_reset_counterexample : ((start { at_ := some 10, number := some 3, iat := some (fun _ => 1), forceAt := true } 5 5 false (fun _ => 0)).map
    fun (c, g) => (run c 3 g).made.map (· - 5)) = some [15, 21, 27] := by decide +kernel

/-- when nothing is to be generated, at_end is not called -/
theorem C42_nothing {a : Args} {now off : Rat} {cap : Bool} {r : Nat → Rat} {c : Conf} {g : Gen} (hn : a.number = some 0) (h : start a now off cap r = some (c, g)) (k : Nat) :
    (run c k g).made = [] ∧ (run c k g).ended = [] := by
  unfold start at h
  rw [hn] at h
  simp only [Option.any_some, lt_irrefl, decide_false, Bool.false_eq_true, if_false, Option.map_some, Int.toNat_zero, if_true] at h
  split at h
  · cases h
  split at h
  · cases h
  split at h
  · cases h
  split at h
  · cases h
  split at h
  · cases h
  simp only [Option.some.injEq, Prod.mk.injEq] at h
  obtain ⟨rfl, rfl⟩ := h
  rw [run_over rfl]
  exact ⟨rfl, rfl⟩

end Generator
end Verif
