import Verif.Resample
import Verif.Props.MonRead
import Verif.Props.Util

/-!
# as_resampled_dataframe (C98)
-/

namespace Verif
namespace Mon

/-! ## specification -/

/-- how a level monitor was made (initial value, type, monitor on or off, moment) and what was done with it -/
structure Course where
  v : Option Val
  ty : XType
  b : Bool
  t0 : Rat
  h : List (Rat × Op)

/-- this monitor -/
def Course.mon (c : Course) : Monitor := (create true c.v c.ty false c.b c.t0).1.run c.h

/-- the operations are made one after the other, up to now, and are accepted -/
def Course.Legal (c : Course) (now : Rat) : Prop :=
  c.ty.accepts (c.v.getD (.num 0)) = true ∧ c.v.getD (.num 0) ≠ c.ty.off ∧ Chrono c.t0 c.h now ∧ ∀ e ∈ c.h, Fine c.ty e.2

/-- the moment it was made or reset last -/
def Course.start (c : Course) : Rat := (signal (born c.v c.b c.t0) c.h).start

/-- what should be shown for a moment: the value last tallied at or before it; nothing if that's before the start or if monitoring was off -/
def Course.shown (c : Course) (τ : Rat) : Option Val :=
  if τ < c.start then none
  else if (signalAt (born c.v c.b c.t0) c.h τ).on then some (signalAt (born c.v c.b c.t0) c.h τ).cur else none

/-! ## the loop -/

theorem stepAt_cons (x : Val) (p : Rat × Val) (l : List (Rat × Val)) (τ : Rat) : stepAt x (p :: l) τ = stepAt (if p.1 ≤ τ then p.2 else x) l τ := rfl

theorem stepAt_past {l : List (Rat × Val)} {τ : Rat} (h : ∀ p ∈ l, τ < p.1) (x : Val) : stepAt x l τ = x := by
  induction l with
  | nil => rfl
  | cons p l ih =>
    rw [stepAt_cons, if_neg (not_le.2 (h p (List.mem_cons_self ..)))]
    exact ih (fun q hq => h q (List.mem_cons_of_mem _ hq))

theorem catchUp_spec (t : Rat) : ∀ (l : List (Rat × Val)) (x : Val), Asc l →
    (catchUp t x l).1 = stepAt x l t ∧ Asc (catchUp t x l).2 ∧ ∀ t', t ≤ t' → stepAt (catchUp t x l).1 (catchUp t x l).2 t' = stepAt x l t'
  | [], x, h => ⟨rfl, h, fun _ _ => rfl⟩
  | p :: r, x, h => by
    have hr : Asc r := (List.pairwise_cons.1 h).2
    unfold catchUp
    by_cases hp : t ≥ p.1
    · rw [if_pos hp]
      obtain ⟨h1, h2, h3⟩ := catchUp_spec t r p.2 hr
      refine ⟨?_, h2, fun t' ht => ?_⟩
      · rw [h1, stepAt_cons, if_pos hp]
      · rw [h3 t' ht, stepAt_cons, if_pos (le_trans hp ht)]
    · rw [if_neg hp]
      refine ⟨(stepAt_past (fun q hq => ?_) x).symm, h, fun _ _ => rfl⟩
      rcases List.mem_cons.1 hq with rfl | hq
      · exact not_le.1 hp
      · exact lt_trans (not_le.1 hp) ((List.pairwise_cons.1 h).1 q hq)

theorem column_spec (na : Val) : ∀ (ts : List Rat) (x : Val) (l : List (Rat × Val)), Asc l → ts.Pairwise (· < ·) →
    column na x l ts = ts.map (fun t => if stepAt x l t = na then none else some (stepAt x l t))
  | [], _, _, _, _ => rfl
  | t :: ts, x, l, h, hs => by
    obtain ⟨h1, h2, h3⟩ := catchUp_spec t l x h
    unfold column
    simp only
    rw [column_spec na ts _ _ h2 (List.pairwise_cons.1 hs).2, List.map_cons, h1]
    congr 1
    refine List.map_congr_left fun t' ht' => ?_
    rw [← h1, h3 t' (le_of_lt ((List.pairwise_cons.1 hs).1 t' ht'))]

/-! ## one monitor -/

theorem signal_noff {ty : XType} : ∀ (h : List (Rat × Op)) (s : Sig), s.cur ≠ ty.off → (∀ e ∈ h, Fine ty e.2) → (signal s h).cur ≠ ty.off
  | [], s, hs, _ => hs
  | e :: h, s, hs, hf => by
    refine signal_noff h (s.step e) ?_ (fun e' he' => hf e' (List.mem_cons_of_mem _ he'))
    have := hf e (List.mem_cons_self ..)
    unfold Sig.step
    cases hx : e.2 with
    | tally v w => rw [hx] at this; exact this.2.2
    | monitor b => exact hs
    | reset b s' => exact hs
    | _ => exact hs

theorem Course.Legal.rep {c : Course} {now : Rat} (h : c.Legal now) : ∃ L : List (Rat × Val), c.mon.level = true ∧ c.mon.t.head? = some c.start ∧ c.mon.off = c.ty.off ∧ c.mon.t.zip c.mon.x = L ∧ Asc L ∧
    ∀ τ, (if stepAt c.ty.off L τ = c.ty.off then none else some (stepAt c.ty.off L τ)) = c.shown τ := by
  obtain ⟨ha, hno, hc, hf⟩ := h
  obtain ⟨L, hR, hat, _⟩ := level_run (b := c.b) ha hno hc hf
  have hz : ∀ l : List (Rat × Val), (l.map (·.1)).zip (l.map (·.2)) = l := by
    intro l
    induction l with
    | nil => rfl
    | cons a l ih => simp [ih]
  refine ⟨L, hR.level, ?_, ?_, ?_, hR.asc, fun τ => ?_⟩
  · show ((create true c.v c.ty false c.b c.t0).1.run c.h).t.head? = _
    rw [hR.ht, List.head?_map]; exact hR.head
  · show ((create true c.v c.ty false c.b c.t0).1.run c.h).xtype.off = _
    rw [hR.type]
  · show ((create true c.v c.ty false c.b c.t0).1.run c.h).t.zip ((create true c.v c.ty false c.b c.t0).1.run c.h).x = L
    rw [hR.ht, hR.hx, hz]
  · unfold Course.shown
    by_cases h1 : τ < c.start
    · have hall : ∀ p ∈ L, τ < p.1 := by
        have hhd := hR.head
        have hA := hR.asc
        cases L with
        | nil => simp at hhd
        | cons a r =>
          simp only [List.head?_cons, Option.map_some, Option.some.injEq] at hhd
          have ha : τ < a.1 := by rw [hhd]; exact h1
          intro p hp
          rcases List.mem_cons.1 hp with rfl | hp
          · exact ha
          · exact lt_trans ha ((List.pairwise_cons.1 hA).1 p hp)
      rw [if_pos h1, stepAt_past hall, if_pos rfl]
    · rw [if_neg h1, hat τ (not_lt.1 h1)]
      have hn : (signalAt (born c.v c.b c.t0) c.h τ).cur ≠ c.ty.off :=
        signal_noff _ _ hno (fun e he => hf e (List.mem_of_mem_filter he))
      unfold Sig.val
      cases (signalAt (born c.v c.b c.t0) c.h τ).on with
      | true => simp only [if_true]; rw [if_neg hn]
      | false => simp

/-! ## C98 -/

/-- C98: the dataframe has the moments min_t, min_t + delta_t, min_t + 2 delta_t, … before max_t (by default from the start of the monitor, in steps of 1, till now), and for each
monitor and each of these moments the value at that moment; NA before the start and while monitoring is off. This is for monitors with the same value for off. The moments are
those of the internal clock. -/
theorem C98_values {now : Rat} {self : Course} {extra : List Course} (hl : ∀ c ∈ self :: extra, c.Legal now) (hs : ∀ c ∈ extra, c.start = self.start)
    (ho : ∀ c ∈ extra, c.ty.off = self.ty.off) (offset : Rat) (tmin tmax : Option Rat) {delta : Option Rat} (hd : 0 < delta.getD 1) :
    (∃ fuel r, self.mon.resampled fuel now offset (extra.map Course.mon) delta tmin tmax = some r) ∧
    ∀ fuel r, self.mon.resampled fuel now offset (extra.map Course.mon) delta tmin tmax = some r →
      ∃ ts, r = .ok (ts, (self :: extra).map (fun c => ts.map c.shown)) ∧
        (let lo := (tmin.map (· + offset)).getD self.start; let hi := (tmax.map (· + offset)).getD now
         (∀ t, t ∈ ts ↔ t < hi ∧ ∃ i : Nat, t = lo + i * delta.getD 1) ∧ ∀ i, i < ts.length → ts[i]? = some (lo + i * delta.getD 1)) := by
  obtain ⟨L0, l0, hd0, off0, -, -, -⟩ := Course.Legal.rep (hl self (List.mem_cons_self ..))
  obtain ⟨rest, hrest⟩ : ∃ rest, self.mon.t = self.start :: rest := by
    cases hx : self.mon.t with
    | nil => rw [hx] at hd0; cases hd0
    | cons a r => rw [hx] at hd0; simp only [List.head?_cons, Option.some.injEq] at hd0; exact ⟨r, by rw [hd0]⟩
  have hany : (self.mon :: extra.map Course.mon).any (fun k => !k.level || k.t.head? != some self.start) = false := by
    rw [← List.map_cons (f := Course.mon), List.any_eq_false]
    intro k hk
    obtain ⟨c, hc, rfl⟩ := List.mem_map.1 hk
    obtain ⟨_, a1, a2, -⟩ := Course.Legal.rep (hl c hc)
    have : c.start = self.start := by
      rcases List.mem_cons.1 hc with rfl | hc
      · rfl
      · exact hs c hc
    rw [a1, a2, this]; simp
  have hcols : ∀ ts : List Rat, ts.Pairwise (· < ·) →
      (self.mon :: extra.map Course.mon).map (fun k => column self.mon.off k.off (k.t.zip k.x) ts) = (self :: extra).map (fun c => ts.map c.shown) := by
    intro ts hts
    rw [← List.map_cons (f := Course.mon), List.map_map]
    refine List.map_congr_left fun c hc => ?_
    obtain ⟨L, -, -, a3, a4, a5, a6⟩ := Course.Legal.rep (hl c hc)
    have e : self.mon.off = c.ty.off := by
      rw [off0]
      rcases List.mem_cons.1 hc with rfl | hc
      · rfl
      · exact (ho c hc).symm
    simp only [Function.comp]
    rw [e, a3, a4, column_spec _ _ _ _ a5 hts]
    exact List.map_congr_left fun t _ => a6 t
  have key : ∀ fuel, self.mon.resampled fuel now offset (extra.map Course.mon) delta tmin tmax =
      match Util.arange fuel ((tmin.map (· + offset)).getD self.start) ((tmax.map (· + offset)).getD now) (delta.getD 1) with
      | none => none
      | some ts => some (.ok (ts, (self.mon :: extra.map Course.mon).map (fun k => column self.mon.off k.off (k.t.zip k.x) ts))) := by
    intro fuel
    unfold Monitor.resampled
    rw [hrest]
    simp only [hany, Bool.false_eq_true, if_false]
    cases tmin <;> cases tmax <;> rfl
  obtain ⟨⟨f, ts, hts⟩, hall⟩ := Util.C45_arange_up ((tmin.map (· + offset)).getD self.start) ((tmax.map (· + offset)).getD now) hd
  refine ⟨⟨f, _, by rw [key, hts]⟩, fun fuel r hr => ?_⟩
  rw [key] at hr
  cases ha : Util.arange fuel ((tmin.map (· + offset)).getD self.start) ((tmax.map (· + offset)).getD now) (delta.getD 1) with
  | none => rw [ha] at hr; cases hr
  | some ts =>
    rw [ha] at hr
    obtain ⟨b1, b2, b3⟩ := hall fuel ts ha
    refine ⟨ts, ?_, b1, b3⟩
    rw [← hcols ts b2]
    exact (Option.some.inj hr).symm

/-- C98: a dataframe with a monitor that isn't a level monitor, or that has another start, is refused -/
theorem C98_refused {fuel : Nat} {now offset : Rat} {m : Monitor} {extra : List Monitor} {delta tmin tmax : Option Rat} {r} (h : m.resampled fuel now offset extra delta tmin tmax = some r)
    {k : Monitor} (hk : k ∈ m :: extra) (hbad : k.level = false ∨ k.t.head? ≠ m.t.head?) : ∃ e, r = .error e ∧ (e = .value ∨ m.t = []) := by
  unfold Monitor.resampled at h
  cases ht : m.t with
  | nil => rw [ht] at h; exact ⟨_, (Option.some.inj h).symm, .inr rfl⟩
  | cons start rest =>
    rw [ht] at h
    simp only at h
    split at h
    · cases h
    · rw [if_pos] at h
      · exact ⟨_, (Option.some.inj h).symm, .inl rfl⟩
      · rw [List.any_eq_true]
        refine ⟨k, hk, ?_⟩
        rcases hbad with hb | hb
        · simp [hb]
        · rw [ht] at hb
          simp only [List.head?_cons] at hb
          simp only [Bool.or_eq_true, bne_iff_ne, ne_eq]
          exact .inr hb

/-- a float monitor that is 3 from 0 on and 5 from 2 on, and one that is 1 and switched off between 1 and 3 -/
def courseA : Course := ⟨some (.num 3), .float, true, 0, [(2, .tally (.num 5) 1)]⟩
def courseB : Course := ⟨some (.num 1), .any, true, 0, [(1, .monitor false), (3, .monitor true)]⟩

/-- the hypotheses of `C98_values` -/
example : (∀ c ∈ [courseA, courseB], c.Legal 4) ∧ courseB.start = courseA.start ∧ courseB.ty.off = courseA.ty.off ∧
    courseA.mon.resampled 9 4 0 [courseB.mon] none none none = some (.ok ([0, 1, 2, 3], [[some (.num 3), some (.num 3), some (.num 5), some (.num 5)], [some (.num 1), none, none, some (.num 1)]])) := by
  refine ⟨?_, by decide +kernel, rfl, by decide +kernel⟩
  intro c hc
  rcases List.mem_cons.1 hc with rfl | hc
  · refine ⟨by decide +kernel, by decide +kernel, by unfold Chrono courseA; decide +kernel, ?_⟩
    intro e he
    rcases List.mem_singleton.1 he with rfl
    exact ⟨rfl, by decide +kernel, by decide +kernel⟩
  · rcases List.mem_singleton.1 hc with rfl
    refine ⟨by decide +kernel, by decide +kernel, by unfold Chrono courseB; decide +kernel, ?_⟩
    intro e he
    rcases List.mem_cons.1 he with rfl | he
    · trivial
    · rcases List.mem_singleton.1 he with rfl
      trivial

/-- a monitor of type int8 that is 1, and switched off between 1 and 3; and one of type float that is -128 -/
def courseC : Course := ⟨some (.num 1), .int8, true, 0, [(1, .monitor false), (3, .monitor true)]⟩
def courseD : Course := ⟨some (.num (-128)), .float, true, 0, []⟩

/-- C98: with different types it goes wrong: next to a monitor of type float, a monitor of type int8 that is off is shown as -128, not as NA; and next to a monitor of type int8,
the value -128 of a float monitor is shown as NA -/
theorem C98_types_counterexample :
    (courseA.mon.resampled 9 4 0 [courseC.mon] none none none = some (.ok ([0, 1, 2, 3],
      [[some (.num 3), some (.num 3), some (.num 5), some (.num 5)], [some (.num 1), some (.num (-128)), some (.num (-128)), some (.num 1)]])) ∧
      [0, 1, 2, 3].map courseC.shown = [some (.num 1), none, none, some (.num 1)]) ∧
    (courseC.mon.resampled 9 2 0 [courseD.mon] none none none = some (.ok ([0, 1], [[some (.num 1), none], [none, none]])) ∧
      [0, 1].map courseD.shown = [some (.num (-128)), some (.num (-128))]) := by
  refine ⟨⟨?_, ?_⟩, ?_, ?_⟩ <;> decide +kernel

/-- C98: after `reset_now(0)` at 10 (offset 10), at time 12 of the internal clock: a dataframe from time 0 on, that is now() = 0 and now() = 1, has t = 10 and t = 11 -/
theorem C98_offset_counterexample :
    courseA.mon.resampled 9 12 10 [] none (some 0) none = some (.ok ([10, 11], [[some (.num 5), some (.num 5)]])) := by
  decide +kernel

end Mon
end Verif
