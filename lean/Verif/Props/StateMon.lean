import Verif.Props.ResMon
import Verif.Waits

/-!
# The monitor of a state

C86: the monitor `value` of a state is always in step with `get()`; looking back it shows the value at that moment; a state only changes by
calls of its own `set`, `reset` and `trigger`; and a trigger takes no time.
-/

namespace Verif
open World

/-! ## the invariant -/

/-- the log of this state is in step, and has grown from `l` by tallies at moment `n` -/
structure SRec (n : Rat) (l : List (Rat × Val)) (v : Val) (l' : List (Rat × Val)) : Prop where
  last : lastTally l' = some v
  grown : Added n l l'

theorem st_slog {L} {w w' : World} (h : St L w w') (s : SId) (hl : lastTally (w.slog s) = some (w.states s)) :
    w'.now = w.now ∧ SRec w.now (w.slog s) (w'.states s) (w'.slog s) := by
  induction h with
  | refl => exact ⟨rfl, hl, .refl _ _⟩
  | comp _ h1 _ _ _ h5 _ _ _ _ ih =>
    obtain ⟨e1, e2⟩ := Prod.mk.inj h5
    rw [e1, e2]
    exact ⟨h1.trans ih.1, ih.2⟩
  | push _ _ _ _ _ ih => exact ih
  | remove _ _ _ _ _ ih => exact ih
  | res _ _ _ _ ih => exact ih
  | state s' v _ _ ih =>
    refine ⟨ih.1, ?_⟩
    by_cases he : s = s'
    · subst he
      simp only [World.setState, if_pos]
      rw [ih.1]
      exact ⟨rfl, ih.2.grown.cons v⟩
    · simp only [World.setState, if_neg he]
      exact ih.2
  | queue _ _ _ _ _ ih => exact ih

theorem st_states {L} {w w' : World} (h : St L w w') (s : SId) (hs : ¬ L .set s) : w'.states s = w.states s ∧ w'.slog s = w.slog s := by
  induction h with
  | refl => exact ⟨rfl, rfl⟩
  | comp _ _ _ _ _ h5 _ _ _ _ ih =>
    obtain ⟨e1, e2⟩ := Prod.mk.inj h5
    rw [e1, e2]
    exact ih
  | push _ _ _ _ _ ih => exact ih
  | remove _ _ _ _ _ ih => exact ih
  | res _ _ _ _ ih => exact ih
  | state s' v _ hv ih =>
    have he : s ≠ s' := fun e => hs (e ▸ hv)
    simp only [World.setState, if_neg he]
    exact ih
  | queue _ _ _ _ _ ih => exact ih

theorem step_slog {w : World} (h : Inv0 w) (s : SId) : (step w).world.states s = w.states s ∧ (step w).world.slog s = w.slog s := by
  cases step_kind w h.heap with
  | turn c _ _ _ _ hst => exact st_states hst s (by simp [LK.only])
  | ev _ hk =>
    cases hk with
    | empty l s' _ _ _ hst => exact st_states hst s (by simp [LK.only])
    | event l s' e es _ _ _ hst => exact st_states hst s (by simp [LK.only])

theorem exec_slog {w : World} (h : Inv0 w) (s : SId) (hl : lastTally (w.slog s) = some (w.states s)) (fuel o) :
    SRec (exec fuel o w).world.now (w.slog s) ((exec fuel o w).world.states s) ((exec fuel o w).world.slog s) := by
  by_cases hp : o.plain = true
  · obtain ⟨e, k⟩ := st_slog (exec_st fuel hp w) s hl
    rw [e]; exact k
  · cases o <;> first | exact absurd rfl hp | skip
    · rename_i c n i
      rcases exec_insertAt fuel c n i w with e | ⟨q', _, e⟩ <;> rw [e] <;> exact ⟨hl, .refl _ _⟩
    · exact ⟨hl, .refl _ _⟩
    · obtain ⟨e1, e2⟩ := step_slog h s
      simp only [exec]
      rw [e1, e2]
      exact ⟨hl, .refl _ _⟩

/-- C86: after any calls (also if they raised), the monitor `value` of a state shows what `get()` returns -/
theorem C86_now {w : World} (h : Reach Any w) (s : SId) : lastTally (w.slog s) = some (w.states s) := by
  induction h with
  | init hf => rw [hf.slog s]; rfl
  | op fuel o h _ ih => exact (exec_slog h.inv0 s ih fuel o).last

theorem slog_past {w : World} (h : Reach Any w) (s : SId) : ∀ e ∈ w.slog s, e.1 ≤ w.now := by
  induction h with
  | init hf => rw [hf.slog s]; simp
  | op fuel o h _ ih =>
    exact (exec_slog h.inv0 s (C86_now h s) fuel o).grown.le fun e he => (ih e he).trans (exec_now h.inv0 fuel o)

/-- C86: once the clock has moved on, the monitor shows for the moments in between what `get()` returned when the clock left, whatever happens later -/
theorem C86_history {w w' : World} (h : Reach Any w) {fuel : Nat} {t : Rat} (ht : w.now ≤ t) (ht' : t < (exec fuel .step w).world.now)
    (h' : After Any (exec fuel .step w).world w') (s : SId) : tallyAt (w'.slog s) t = some (w.states s) := by
  have h1 : Reach Any (exec fuel .step w).world := .op fuel .step h trivial
  have key : ∀ {w' : World}, After Any (exec fuel .step w).world w' → Later t (w.slog s) (w'.slog s) := by
    intro w' h'
    induction h' with
    | refl => exact Later.grown ⟨[], rfl, by simp⟩ ht' (exec_slog h.inv0 s (C86_now h s) fuel .step).grown
    | @op w2 fuel2 o h2 _ ih =>
      have hr := h1.after h2
      have hn : t < (exec fuel2 o w2).world.now := lt_of_lt_of_le ht' (C01_clock_monotone h1 (.op fuel2 o h2 trivial))
      exact ih.grown hn (exec_slog hr.inv0 s (C86_now hr s) fuel2 o).grown
  rw [(key h').at fun e he => (slog_past h s e he).trans ht]
  exact C86_now h s

/-- C86: no call changes a state, or its monitor, except `set`, `reset` and `trigger` of that state -/
theorem C86_only {w : World} (h : Reach Any w) (fuel : Nat) {o : Op} {s : SId} (h1 : ∀ v, o ≠ .stateSet s v) (h2 : ∀ v a m, o ≠ .stateTrigger s v a m) :
    (exec fuel o w).world.states s = w.states s ∧ (exec fuel o w).world.slog s = w.slog s := by
  by_cases hp : o.plain = true
  · refine st_states (exec_st fuel hp w) s fun hs => ?_
    cases o <;> simp [Op.lists, Op.sets] at hs
    · subst hs; exact h1 _ rfl
    · subst hs; exact h2 _ _ _ rfl
  · cases o <;> first | exact absurd rfl hp | skip
    · rename_i c n i
      rcases exec_insertAt fuel c n i w with e | ⟨q', _, e⟩ <;> rw [e] <;> exact ⟨rfl, rfl⟩
    · exact ⟨rfl, rfl⟩
    · exact step_slog h.inv0 s

/-- letting the components go on that have waited long enough doesn't change any state -/
theorem tryWaits_slog (l : List CId) (mx) (w : World) : (stateTryWait l mx w).world.states = w.states ∧ (stateTryWait l mx w).world.slog = w.slog ∧
    (stateTryWait l mx w).world.now = w.now := by
  have h := (sr_stateTryWait (L := fun k _ => k ≠ .set) l mx w (.refl w)).world
  exact ⟨funext fun s => (st_states h s (by simp)).1, funext fun s => (st_states h s (by simp)).2, h.now⟩

/-- C86: `set(v)` / `reset(v)` lets `get()` return `v`, and the monitor tallies it, once, if the value changes; if not, nothing is tallied -/
theorem C86_set (fuel : Nat) (s : SId) (v : Val) (w : World) : (exec fuel (.stateSet s v) w).world.states s = v ∧
    (w.states s = v → (exec fuel (.stateSet s v) w).world.slog s = w.slog s) ∧
    (w.states s ≠ v → (exec fuel (.stateSet s v) w).world.slog s = (w.now, v) :: w.slog s) := by
  simp only [exec]
  unfold stateSet
  split
  · rename_i e
    exact ⟨e, fun _ => rfl, fun h => absurd e h⟩
  · rename_i e
    obtain ⟨h1, h2, _⟩ := tryWaits_slog ((w.setState s v).inQ (.waiters s)) none (w.setState s v)
    simp only [h1, h2]
    simp [World.setState, e]

/-- C86: `trigger(v, value_after=a)` lets `get()` return `a`, or what it returned before if `a` isn't given; both tallies are made at this moment -/
theorem C86_trigger {fuel : Nat} {s : SId} {v : Val} {a : Option Val} {mx : Option Int} {w w' : World} (h : exec fuel (.stateTrigger s v a mx) w = .ok w') :
    w'.states s = a.getD (w.states s) ∧ w'.slog s = (w.now, a.getD (w.states s)) :: (w.now, v) :: w.slog s := by
  simp only [exec] at h
  unfold stateTrigger at h
  obtain ⟨w1, h1, h2⟩ := andThen_ok h
  obtain ⟨a1, a2, a3⟩ := tryWaits_slog ((w.setState s v).inQ (.waiters s)) mx (w.setState s v)
  obtain ⟨b1, b2, _⟩ := tryWaits_slog ((w1.setState s (a.getD (w.states s))).inQ (.waiters s)) none (w1.setState s (a.getD (w.states s)))
  simp only [h1, R.world] at a1 a2 a3
  simp only [h2, R.world] at b1 b2
  rw [b1, b2]
  simp [World.setState, a2, a3]

/-! ## examples -/

/-- component 1 waits for state 0; component 2 holds 3, sets the state to 1, sets it to 1 again, holds 1 and triggers it with the value 7 -/
def stateOps : List Op := born 1 ++ [.wait 1 [{ s := 0 }] false none none (0 : Rat) false false] ++ born 2 ++
  [.hold 2 (some (3 : Rat)) none (0 : Rat) false false 0, .step, .stateSet 0 1, .stateSet 0 1, .hold 2 (some (1 : Rat)) none (0 : Rat) false false 0, .step,
    .passivate 1, .step, .stateTrigger 0 7 none none]

example : (execAll 20 stateOps World.init).now = 4 ∧ (execAll 20 stateOps World.init).slog 0 = [(4, 1), (4, 7), (3, 1), (0, 0)] ∧
    (execAll 20 stateOps World.init).states 0 = 1 ∧ (execAll 20 stateOps World.init).slog 1 = [(0, 0)] ∧
    tallyAt ((execAll 20 stateOps World.init).slog 0) 2 = some 0 ∧ tallyAt ((execAll 20 stateOps World.init).slog 0) (7 / 2) = some 1 := by
  decide +kernel

/-- the hypotheses of `C86_history`: between 3 and 4, the state is 1 -/
example : Reach Any (execAll 20 (stateOps.take 12) World.init) ∧ (execAll 20 (stateOps.take 12) World.init).now = 3 ∧
    (execAll 20 (stateOps.take 12) World.init).states 0 = 1 ∧ (exec 20 .step (execAll 20 (stateOps.take 12) World.init)).world.now = 4 :=
  ⟨reach_execAll _ (.init fresh_init) _, by decide +kernel, by decide +kernel, by decide +kernel⟩

end Verif
