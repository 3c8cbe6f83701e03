import Verif.CalmStep
import Verif.Props.Interrupt

/-!
# The status of a component (C09)
-/

namespace Verif
open World

/-- specification: the statuses in which a call can leave the component it is made for, given the status before; `[]` means that the
call has to raise an exception -/
def statusTable : Op → Status → List Status
  | .hold _ _ _ _ _ _ i, s => if s = .data then [] else if i = 0 then [.scheduled] else [.interrupted]
  | .passivate _, s => if s = .data then [] else [.passive]
  | .activate .., _ => [.scheduled]
  | .create .., s => if s = .data then [.scheduled] else []
  | .interrupt _, s => if s = .scheduled ∨ s = .interrupted then [.interrupted] else []
  | .resume .., s => if s = .interrupted then [.interrupted, .scheduled] else []
  | .standby _, s => if s = .data then [] else [.standby]
  | .setRemaining .., s => if s = .current ∨ s = .standby then [] else [s]
  | .cancel _, _ => [.data]
  | .terminate, _ => [.data]
  | .request .., s | .fromStore .., s | .toStore .., s => if s = .data then [] else [.scheduled, .requesting]
  | .wait .., s | .waitFor .., s => if s = .data then [] else [.scheduled, .waiting]
  | _, s => [s]

/-- C09: a call that returns leaves the component it is made for in a status of the table -/
theorem C09_moves {w w' : World} {fuel o c} (hr : Reach Calm w) (hc : Calm fuel w o) (hs : o.subject w = some c) (h : exec fuel o w = .ok w') :
    w'.status c ∈ statusTable o (w.status c) := by
  have hg := hr.good
  obtain ⟨hex, hok, hc⟩ := hc
  clear hex
  cases o <;> simp only [Op.subject, Option.some.injEq, reduceCtorEq] at hs <;> subst hs <;> simp only [exec] at h <;> simp only [statusTable]
  case hold =>
    obtain ⟨_, h1, _, _, _, h2, h3⟩ := hold_out hg h
    rw [if_neg h1]
    split
    · rename_i hi; simp [(h2 hi).status]
    · rename_i hi; simp [(h3 hi).1]
  case passivate =>
    obtain ⟨_, h1, h2⟩ := passivate_out hg h
    rw [if_neg h2]; simp [h1.status]
  case activate =>
    obtain ⟨_, h1, _⟩ := activate_out hg (by simp) h
    simp [h1]
  case create =>
    obtain ⟨_, h1, _, h2⟩ := create_out hg h
    rw [if_pos h2]; simp [h1.status]
  case interrupt =>
    obtain ⟨_, h1 | h1⟩ := interrupt_out hg h
    · rw [if_pos (.inr h1.1)]; simp [World.status, h1.2]; exact h1.1
    · rw [if_pos (.inl h1.1)]; simp [World.status, h1.2]
  case resume =>
    obtain ⟨_, h1, h2 | h2⟩ := resume_out h
    · rw [if_pos h1]; simp [World.status, h2.2.2]; exact .inl h1
    · rw [if_pos h1]; simp [World.status, h2.2.2.2]
  case standby =>
    obtain ⟨_, h1, h2⟩ := standby_out hg h
    rw [if_neg h2]; simp [h1.status]
  case setRemaining =>
    obtain ⟨_, h1, h2⟩ := setRemaining_out hg h
    rw [if_neg, h1]
    · simp
    · rcases h2 with ⟨h2 | h2, _⟩ | ⟨_, _, h2, h3, _⟩ <;> simp_all
  case cancel => simp [(cancel_out hg h).2]
  case terminate => simp [(terminate_out hg hc h).2]
  case request =>
    obtain ⟨_, h1, _, _, h2 | h2⟩ := request_out hg hok hc h <;> rw [if_neg h1] <;> simp [h2.1.status]
  case wait =>
    obtain ⟨_, h1, _, _, h2 | h2⟩ := wait_out hg hc h <;> rw [if_neg h1] <;> simp [h2.1.status]
  case waitFor =>
    obtain ⟨_, h1, _, _, h2 | h2⟩ := waitFor_out hg hc h <;> rw [if_neg h1] <;> simp [h2.1.status]
  case fromStore =>
    obtain ⟨_, h1, _, _, h2 | h2⟩ := fromStore_out hg h <;> rw [if_neg h1] <;> simp [h2.1.status]
  case toStore =>
    obtain ⟨_, h1, _, _, h2 | h2⟩ := toStore_out hg h <;> rw [if_neg h1] <;> simp [h2.1.status]

/-- C09: `resume` leaves the component interrupted as long as there is another interrupt to be resumed (unless `all`) -/
theorem C09_resume {w w' : World} {c all p u} (h : resume c all p u w = .ok w') :
    w'.status c = if (w.comps c).intrLevel = 1 ∨ all = true then .scheduled else .interrupted := by
  obtain ⟨_, h1, ⟨h2, h3, h4⟩ | ⟨h2, _, _, h3⟩⟩ := resume_out h
  · rw [if_neg (by rintro (h | h) <;> [omega; simp_all])]; simp [World.status, h4]; exact h1
  · rw [if_pos (h2.imp (by intro h; omega) id)]; simp [World.status, h3]

theorem andThen_err {r : R} {f : World → R} (h : r.isOk = false) : (r ⊳ f).isOk = false := by
  cases r with
  | ok w => cases h
  | err e w => rfl

theorem preamble_data {w : World} {c : CId} (h : w.status c = .data) : (preamble c w).isOk = false := by
  simp [preamble, h, checkNotData, R.isOk, R.andThen]

/-- C09: where the table has no entry the call raises; this holds in every state, reachable or not -/
theorem C09_illegal (w : World) (fuel : Nat) (o : Op) (c : CId) (hs : o.subject w = some c) (ht : statusTable o (w.status c) = []) :
    (exec fuel o w).isOk = false := by
  have hm : ∀ {d : CId} {f : Comp → Comp} (e : CId), (∀ x, (f x).status = x.status) → (w.modC d f).status e = w.status e := by
    intro d f e hf
    simp only [World.status, World.modC]; split
    · rename_i he; rw [hf, he]
    · rfl
  cases o <;> simp only [Op.subject, Option.some.injEq, reduceCtorEq] at hs <;> subst hs <;> simp only [statusTable] at ht <;> simp only [exec]
  case hold c _ _ _ _ _ _ =>
    have hd : w.status c = .data := by
      by_contra hd; rw [if_neg hd] at ht; split at ht <;> cases ht
    refine andThen_err ?_
    simp [hd, checkNotData, R.isOk, R.andThen]
  case passivate =>
    have hd : w.status ‹_› = .data := by
      by_contra hd; rw [if_neg hd] at ht; cases ht
    refine andThen_err ?_
    simp [hd, checkNotData, R.isOk, R.andThen]
  case activate => cases ht
  case create =>
    have hd : w.status ‹_› ≠ .data := by
      intro hd; rw [if_pos hd] at ht; cases ht
    simp [create, hd, R.isOk]
  case interrupt =>
    have hd : ¬ (w.status ‹_› = .scheduled ∨ w.status ‹_› = .interrupted) := by
      intro hd; rw [if_pos hd] at ht; cases ht
    rw [not_or] at hd
    simp [interrupt, hd.1, hd.2, R.isOk]
  case resume =>
    have hd : w.status ‹_› ≠ .interrupted := by
      intro hd; rw [if_pos hd] at ht; cases ht
    simp [resume, hd, R.isOk]
  case standby =>
    have hd : w.status ‹_› = .data := by
      by_contra hd; rw [if_neg hd] at ht; cases ht
    exact andThen_err (preamble_data hd)
  case setRemaining =>
    have hd : w.status ‹_› = .current ∨ w.status ‹_› = .standby := by
      by_contra hd; rw [if_neg hd] at ht; cases ht
    rcases hd with hd | hd <;> simp [setRemaining, hd, R.isOk]
  case cancel => cases ht
  case terminate => cases ht
  case request =>
    have hd : w.status ‹_› = .data := by
      by_contra hd; rw [if_neg hd] at ht; cases ht
    unfold request
    first
    | exact andThen_err (preamble_data ((hm _ (by intro _; rfl)).trans hd))
    | (refine andThen_err ?_; exact preamble_data ((hm _ (by intro _; rfl)).trans hd))
  case wait =>
    have hd : w.status ‹_› = .data := by
      by_contra hd; rw [if_neg hd] at ht; cases ht
    unfold wait
    exact andThen_err (preamble_data ((hm _ (by intro _; rfl)).trans hd))
  case waitFor =>
    have hd : w.status ‹_› = .data := by
      by_contra hd; rw [if_neg hd] at ht; cases ht
    exact andThen_err (preamble_data hd)
  case fromStore =>
    have hd : w.status ‹_› = .data := by
      by_contra hd; rw [if_neg hd] at ht; cases ht
    unfold fromStore
    split
    · rfl
    · exact andThen_err (preamble_data hd)
  case toStore c _ _ _ _ _ _ _ _ _ =>
    have hd : w.status c = .data := by
      by_contra hd; rw [if_neg hd] at ht; cases ht
    unfold toStore
    split
    · rfl
    · exact andThen_err (preamble_data hd)

/-- C09: whatever a call does (and also if it raises, and in every state), all other components keep their status, but for those that
become scheduled -/
theorem C09_others (w : World) (fuel : Nat) (o : Op) (d : CId) (ho : o ≠ .step) (hs : o.subject w ≠ some d) :
    (exec fuel o w).world.status d = w.status d ∨ (exec fuel o w).world.status d = .scheduled := by
  by_cases hp : o.plain
  · have := (exec_st fuel hp w).lists.stat d
    rcases this with h | h | h
    · exact .inl h
    · exact .inr h
    · exact absurd (by cases o <;> exact h) hs
  · cases o <;> simp [Op.plain] at hp
    · rename_i c n i
      rcases exec_insertAt fuel c n i w with he | ⟨q', _, he⟩ <;> rw [he] <;> exact .inl rfl
    · exact .inl rfl
    · exact absurd rfl ho

/-- C09: and those that are not requesting or waiting (nor interrupted with a kept request or wait) and don't claim a preemptive resource that is requested keep their status -/
theorem C09_untouched {w w' : World} {fuel o d} (hr : Reach Calm w) (hc : Calm fuel w o) (ho : o ≠ .step) (h : exec fuel o w = .ok w')
    (hd : ¬ o.touches w d) (hn : w.status d ≠ .requesting ∧ w.status d ≠ .waiting)
    (hi : w.status d = .interrupted → NoWait (w.comps d)) : w'.status d = w.status d := by
  by_cases hs : w.status d = .scheduled
  · have := C09_others w fuel o d ho (by rintro h; apply hd; cases o <;> simp_all [Op.subject, Op.touches])
    rw [h] at this
    rw [hs] at this ⊢
    exact this.elim id id
  · have hk : NoWait (w.comps d) := by
      by_cases hs2 : w.status d = .interrupted
      · exact hi hs2
      · exact hr.good.idle d (by simp) (by cases hst : w.status d <;> simp_all [Status.idle])
    obtain ⟨l, hl⟩ := (exec_frozen hr.good hc ho h).2.2.1 d hd hk
    simp [World.status, hl]

/-- C09: a step makes one component current, that was in standby or scheduled, requesting or waiting, or is main; all others keep their
status -/
theorem C09_step {w w' : World} (hr : Reach Calm w) (h : step w = .ok w') :
    w'.status w'.current = .current ∧ (∀ d, d ≠ w'.current → w'.status d = w.status d) ∧
      (w.status w'.current ∈ [.standby, .scheduled, .requesting, .waiting] ∨ (w'.current = w.main ∧ w.events = [])) := by
  have so := step_out hr.good h
  refine ⟨so.status, fun d hd => by simp [World.status, so.other d hd], ?_⟩
  rcases so.cases with ⟨_, h1, _⟩ | ⟨e, h1, h2, _⟩ | ⟨h1, _, _, h2⟩
  · exact .inl (by simp [h1])
  · left
    have hm : e ∈ w.events := h1.mem_iff.2 (by simp)
    have hon : (w.comps e.c).onList = true := (hr.good.inv.on e.c).2 ⟨e, hm, rfl⟩
    have hd := fun h => (hr.good.dat e.c (by simp) h)
    have hoff := fun h => (off_of_status hr.good.inv (c := e.c) h).2
    rw [← h2]
    cases hst : w.status e.c <;> simp
    · rw [hd hst] at hon; cases hon
    all_goals (rw [hoff (by simp [hst])] at hon; cases hon)
  · exact .inr ⟨h2, h1⟩

/-! ### examples -/

/-- the world of `calmOps`, in which components have seven different statuses (9 is a data component) -/
def calmW : World := execAll 20 calmOps World.init

theorem calmW_reach : Reach Calm calmW := reach_calm _ (.init fresh_init) _ (by decide +kernel)

/-- for every kind of call that is not refused: the call is fine, its subject, and the statuses before and after -/
def tryOut (o : Op) : Bool × Option (Status × Status) :=
  (calmb 20 calmW o, (o.subject calmW).map fun c => (calmW.status c, (exec 20 o calmW).world.status c))

example : tryOut (.hold 4 (some (2 : Rat)) none (0 : Rat) false false 0) = (true, some (.passive, .scheduled)) ∧
    tryOut (.hold 5 (some (2 : Rat)) none (0 : Rat) false false 2) = (true, some (.standby, .interrupted)) ∧
    tryOut (.passivate 3) = (true, some (.waiting, .passive)) ∧
    tryOut (.activate 2 none (1 : Rat) (0 : Rat) false false false false false) = (true, some (.requesting, .scheduled)) ∧
    tryOut (.create 9 none (1 : Rat) (0 : Rat) false false false) = (true, some (.data, .scheduled)) ∧
    tryOut (.interrupt 1) = (true, some (.scheduled, .interrupted)) ∧ tryOut (.interrupt 6) = (true, some (.interrupted, .interrupted)) ∧
    tryOut (.resume 6 false (0 : Rat) false) = (true, some (.interrupted, .scheduled)) ∧
    tryOut (.standby 3) = (true, some (.waiting, .standby)) ∧
    tryOut (.setRemaining 2 (7 : Rat) (0 : Rat) false) = (true, some (.requesting, .requesting)) ∧
    tryOut (.cancel 1) = (true, some (.scheduled, .data)) ∧
    tryOut (.request 4 [{ r := 1 }] false false none none (0 : Rat) false false) = (true, some (.passive, .scheduled)) ∧
    tryOut (.request 4 [{ r := 0 }] false false none none (0 : Rat) false false) = (true, some (.passive, .requesting)) ∧
    tryOut (.wait 4 [{ s := 0 }] false none none (0 : Rat) false false) = (true, some (.passive, .waiting)) := by
  refine ⟨?_, ?_, ?_, ?_, ?_, ?_, ?_, ?_, ?_, ?_, ?_, ?_, ?_, ?_⟩ <;> decide +kernel

/-- calls that the table refuses -/
example : statusTable (.interrupt 4) (calmW.status 4) = [] ∧ statusTable (.hold 9 none none (0 : Rat) false false 0) (calmW.status 9) = [] ∧
    statusTable (.resume 1 false (0 : Rat) false) (calmW.status 1) = [] := by
  refine ⟨?_, ?_, ?_⟩ <;> decide +kernel

/-- canceling the component that claims the resource makes the requester scheduled, and leaves the others as they are -/
example : calmb 20 calmW (.cancel 1) = true ∧ (List.range 7).map (exec 20 (.cancel 1) calmW).world.status =
    [.scheduled, .data, .scheduled, .waiting, .passive, .standby, .interrupted] := ⟨by decide +kernel, by decide +kernel⟩

/-- the current component going on to the next -/
example : (step calmW).isOk = true ∧ (step calmW).world.current = 5 ∧ calmW.status 5 = .standby := by
  refine ⟨?_, ?_, ?_⟩ <;> decide +kernel

/-- C09 for a kept request: a component that waits for an item of a store, is activated with `keep_request=True` and is interrupted
becomes scheduled again as soon as there is an item, without any `resume` -/
theorem C09_kept_request_counterexample : ∃ w : World, Reach Calm w ∧ w.status 4 = .interrupted ∧ calmb 20 w (.storeEnter 9 0 none) = true ∧
    (exec 20 (.storeEnter 9 0 none) w).world.status 4 = .scheduled := by
  refine ⟨execAll 20 [.fromStore 4 [0] (fun _ => true) none 0 none none (0 : Rat) false false,
    .activate 4 none (1 : Rat) (0 : Rat) false false false true false, .interrupt 4] calmW,
    reach_calm _ calmW_reach _ (by decide +kernel), ?_, ?_, ?_⟩ <;> decide +kernel

end Verif
