import Verif.Heard
import Verif.Props.Interrupt
import Verif.Props.Scheduling

/-!
# Waiting for states (C33) and triggering states (C34)
-/

namespace Verif
open World

/-! ## what is claimed -/

/-- the condition of a call of `wait`, for given values of the states: all of, or at least one of the tests succeed -/
def Holds (all : Bool) (args : List WArg) (σ : SId → Val) : Prop :=
  if all then ∀ a ∈ args, a.ok (σ a.s) = true else ∃ a ∈ args, a.ok (σ a.s) = true

/-- the component is waiting for at least one state -/
def Waiter (w : World) (c : CId) : Prop := w.status c = .waiting ∧ ∃ s, c ∈ w.inQ (.waiters s)

/-- the component continues: it's scheduled for now, and not in the waiters of any state anymore -/
structure Continues (w w' : World) (c : CId) : Prop where
  status : w'.status c = .scheduled
  event : ∃ e ∈ w'.events, e.c = c ∧ e.t = w.now
  gone : ∀ s, c ∉ w'.inQ (.waiters s)

/-- nothing changes for the component -/
structure Stays (w w' : World) (c : CId) : Prop where
  comp : w'.comps c = w.comps c
  queues : ∀ q, c ∈ w'.inQ q ↔ c ∈ w.inQ q

/-! ## waiting -/

theorem waiter_waits {w : World} (hg : Good ∅ w) {c : CId} (h : Waiter w c) : (w.comps c).waits ≠ [] := by
  obtain ⟨_, s, hs⟩ := h
  have := hg.coh _ _ hs
  intro h0
  rw [show awaits (w.comps c) (.waiters s) = (s ∈ (w.comps c).waits.map Wait.s) from rfl, h0] at this
  cases this

theorem met_args {x : Comp} {args : List WArg} {all : Bool} (h1 : x.waits = args.map fun a => ⟨a.s, a.ok⟩) (h2 : x.cond = none)
    (h3 : x.waitAll = all) (σ) : Met x σ ↔ Holds all args σ := by
  subst h3
  unfold Met Holds
  rw [h2, h1]
  simp only
  cases x.waitAll <;> simp

theorem exec_after {w w' : World} {fuel o} (h : Reach CalmW w) (hc : CalmW fuel w o) (he : exec fuel o w = .ok w') : Reach CalmW w' := by
  have := Reach.op fuel o h hc
  rwa [he] at this

theorem event_of {w : World} (h : Reach Calm w) {c : CId} {t : Rat} (hs : w.status c = .scheduled) (hst : (w.comps c).schedTime = (t : ETime)) :
    ∃ e ∈ w.events, e.c = c ∧ e.t = t := by
  have hon : (w.comps c).onList = true := h.good.timed c (by simp) (by simp [Status.timed, hs]) (by rw [hst]; exact WithTop.coe_ne_top)
  obtain ⟨e, he, hc⟩ := (h.good.inv.on c).1 hon
  refine ⟨e, he, hc, ?_⟩
  have h1 : w.status e.c ≠ .data := by rw [hc, hs]; simp
  have this : (w.comps e.c).schedTime = (e.t : ETime) := h.good.inv.sched e he h1
  rw [hc, hst] at this
  exact (WithTop.coe_inj.1 this).symm

/-- C33: `wait`. If the condition holds the component continues right away; otherwise it's waiting, for that condition, in the waiters
of all the given states. -/
theorem C33_wait {w w' : World} {fuel c args all fa fd p u k} (h : Reach CalmW w) (hc : CalmW fuel w (.wait c args all fa fd p u k))
    (he : exec fuel (.wait c args all fa fd p u k) w = .ok w') : w'.states = w.states ∧
    (Holds all args w.states → Continues w w' c) ∧
    (¬ Holds all args w.states → w'.status c = .waiting ∧ (∀ a ∈ args, c ∈ w'.inQ (.waiters a.s)) ∧
      ∀ σ, Met (w'.comps c) σ ↔ Holds all args σ) := by
  have hr := exec_after h hc he
  have h0 := he
  simp only [exec] at he
  obtain ⟨w3, t, s, c3, a3, _, h3, k3⟩ := wait_start h.calmOf.good hc.1.2.2 he
  have hm := met_args (x := w3.comps c) s.waits c3 a3
  obtain ⟨_, hst, _, hh⟩ := waitEnd_exact s.good s.off (by rw [s.status]; exact hc.2) h3
  rw [hm, s.states] at hh
  refine ⟨hst.trans s.states, fun hH => ?_, fun hH => ?_⟩
  · rcases hh with ⟨_, h1, h2, h4, h5⟩ | ⟨hn, _⟩
    · refine ⟨h1, event_of hr.calmOf h1 (by rw [h4, s.now]), fun x hx => ?_⟩
      rw [h5] at hx
      simp at hx
    · exact absurd hH hn
  · rcases hh with ⟨hn, _⟩ | ⟨_, h1, h2, _, h5⟩
    · exact absurd hn hH
    · refine ⟨h1, fun a ha => ?_, fun σ => ?_⟩
      · have := (k3 h.heard).mem c ⟨a.s, a.ok⟩ (by rw [s.waits]; exact List.mem_map_of_mem ha)
        simpa only [World.inQ, h5] using this
      · rw [met_congr h2, hm]

/-- C33: `wait_for` -/
theorem C33_wait_for {w w' : World} {fuel c f ss fa fd p u k} (h : Reach CalmW w) (hc : CalmW fuel w (.waitFor c f ss fa fd p u k))
    (he : exec fuel (.waitFor c f ss fa fd p u k) w = .ok w') : w'.states = w.states ∧
    (f w.states = true → Continues w w' c) ∧
    (f w.states = false → w'.status c = .waiting ∧ (∀ s ∈ ss, c ∈ w'.inQ (.waiters s)) ∧ ∀ σ, Met (w'.comps c) σ ↔ f σ = true) := by
  have hr := exec_after h hc he
  have h0 := he
  simp only [exec] at he
  obtain ⟨w3, t, s, c3, _, h3, k3⟩ := waitFor_start h.calmOf.good hc.1.2.2 he
  have hm : ∀ σ, Met (w3.comps c) σ ↔ f σ = true := by intro σ; unfold Met; rw [c3]
  obtain ⟨_, hst, _, hh⟩ := waitEnd_exact s.good s.off (by rw [s.status]; exact hc.2.1) h3
  rw [hm, s.states] at hh
  refine ⟨hst.trans s.states, fun hH => ?_, fun hH => ?_⟩
  · rcases hh with ⟨_, h1, h2, h4, h5⟩ | ⟨hn, _⟩
    · refine ⟨h1, event_of hr.calmOf h1 (by rw [h4, s.now]), fun x hx => ?_⟩
      rw [h5] at hx
      simp at hx
    · exact absurd hH hn
  · rcases hh with ⟨hn, _⟩ | ⟨_, h1, h2, _, h5⟩
    · rw [hH] at hn; cases hn
    · refine ⟨h1, fun a ha => ?_, fun σ => ?_⟩
      · have := (k3 h.heard).mem c ⟨a, fun _ => false⟩ (by rw [s.waits]; exact List.mem_map_of_mem (f := fun s => (⟨s, fun _ => false⟩ : Wait)) ha)
        simpa only [World.inQ, h5] using this
      · rw [met_congr h2, hm]

/-! ## the condition of a component does not change while it waits -/

/-- not waiting for a state, or waiting for the same -/
def Same (c : CId) (y : Comp) (w : World) : Prop :=
  (w.comps c).waits = [] ∨ ((w.comps c).waits = y.waits ∧ (w.comps c).waitAll = y.waitAll ∧ (w.comps c).cond = y.cond)

theorem Same.of {c : CId} {y : Comp} {w w' : World} (h : Same c y w) (h1 : (w'.comps c).waits = [] ∨ ((w'.comps c).waits = (w.comps c).waits ∧
    (w'.comps c).waitAll = (w.comps c).waitAll ∧ (w'.comps c).cond = (w.comps c).cond)) : Same c y w' := by
  unfold Same at h ⊢
  rcases h1 with h1 | ⟨h1, h2, h3⟩
  · exact .inl h1
  · rw [h1, h2, h3]; exact h

theorem same_modC {c : CId} {y : Comp} {w : World} (h : Same c y w) (d : CId) (f : Comp → Comp)
    (hf : ∀ x, (f x).waits = [] ∨ ((f x).waits = x.waits ∧ (f x).waitAll = x.waitAll ∧ (f x).cond = x.cond)) : Same c y (w.modC d f) := by
  refine h.of ?_
  by_cases hd : c = d
  · subst hd; rw [modC_self]; exact hf _
  · rw [modC_other hd]; simp

theorem same_base (c : CId) (y : Comp) : SBase (Same c y) := by
  refine ⟨⟨?_, ?_, ?_, ?_, ?_, ?_, ?_⟩, ?_, ?_⟩
  · intro w w' h h1 _ _; exact h.of (.inr (by rw [h1]; simp))
  · intro w d f h h1 _
    exact same_modC h d f fun x => .inr ⟨congrArg WC.waits (h1 x), congrArg WC.waitAll (h1 x), congrArg WC.cond (h1 x)⟩
  · intro w q f h _; exact h
  · intro w q _ _ h; exact h
  · intro w w' d h hf
    unfold checkFailWait at hf
    split at hf
    · cases hf; exact h
    · obtain ⟨w1, h1, h2⟩ := andThen_ok hf
      have g := forR_gone (fun _ _ _ => leaveWaiters_gone) _ h1
      cases h2
      exact same_modC (h.of (w' := w1) (.inr (by rw [g.comps]; simp))) d _ fun x => .inl rfl
  · intro w w' d h hf
    unfold checkFailFrom at hf
    split at hf
    · cases hf; exact h
    · obtain ⟨w1, h1, h2⟩ := andThen_ok hf
      have g := forR_gone (K := QRef.isFrom) (fun s _ _ h => leaveQ_gone (by trivial) h) _ h1
      cases h2
      exact same_modC (h.of (w' := w1) (.inr (by rw [g.comps]; simp))) d _ fun x => .inr ⟨rfl, rfl, rfl⟩
  · intro w w' d h hf
    unfold checkFailTo at hf
    split at hf
    · cases hf; exact h
    · obtain ⟨w1, h1, h2⟩ := andThen_ok hf
      have g := forR_gone (K := QRef.isTo) (fun s _ _ h => leaveQ_gone (by trivial) h) _ h1
      cases h2
      exact same_modC (h.of (w' := w1) (.inr (by rw [g.comps]; simp))) d _ fun x => .inr ⟨rfl, rfl, rfl⟩
  · intro w d f h h1 _; exact same_modC h d f fun x => .inr (h1 x)
  · intro w q f h _; exact h

theorem same_freed {c : CId} {y : Comp} {sel : List CId} {w w' : World} (h : Same c y w) (hf : Freed sel w w') : Same c y w' := by
  refine h.of ?_
  by_cases hc : c ∈ sel
  · left; rw [hf.self c hc]
  · right; rw [hf.other c hc]; simp

/-- C33: a call other than a `wait` or `wait_for` for the component itself leaves its condition as it is, as long as it waits. -/
theorem C33_condition_stays {w w' : World} {fuel o} (c : CId) (h : Reach CalmW w) (hc : CalmW fuel w o) (he : exec fuel o w = .ok w')
    (ho : match o with | .wait d .. | .waitFor d .. => d ≠ c | _ => True) (hw : ∃ s, c ∈ w'.inQ (.waiters s)) (σ : SId → Val) :
    Met (w'.comps c) σ ↔ Met (w.comps c) σ := by
  have key : Same c (w.comps c) w' := by
    have h0 : Same c (w.comps c) w := .inr ⟨rfl, rfl, rfl⟩
    by_cases hs : match o with | .wait .. | .waitFor .. | .stateSet .. | .stateTrigger .. => False | _ => True
    · exact (exec_sbase (same_base c _) h0 fuel o hs).to he
    · cases o <;> (first | exact absurd trivial hs | skip) <;> simp only [exec] at he
      · obtain ⟨w3, t, s, c3, a3, _, h3, k3⟩ := wait_start h.calmOf.good hc.1.2.2 he
        obtain ⟨_, _, hh, _⟩ := waitEnd_exact s.good s.off (by rw [s.status]; exact hc.2) h3
        exact h0.of (.inr (by rw [hh c (Ne.symm ho), s.other c (Ne.symm ho)]; simp))
      · obtain ⟨w3, t, s, c3, _, h3, k3⟩ := waitFor_start h.calmOf.good hc.1.2.2 he
        obtain ⟨_, _, hh, _⟩ := waitEnd_exact s.good s.off (by rw [s.status]; exact hc.2.1) h3
        exact h0.of (.inr (by rw [hh c (Ne.symm ho), s.other c (Ne.symm ho)]; simp))
      · rcases stateSet_exact h.calmOf.good he with ⟨_, rfl⟩ | ⟨_, hf⟩
        · exact h0
        · exact same_freed (w := w.setState _ _) h0 hf
      · obtain ⟨w1, f1, f2⟩ := stateTrigger_exact h.calmOf.good he
        have h1 : Same c (w.comps c) w1 := same_freed (w := w.setState _ _) h0 f1
        exact same_freed (w := w1.setState _ _) h1 f2
  obtain ⟨s, hs⟩ := hw
  rcases key with h1 | ⟨h1, h2, h3⟩
  · have := (exec_after h hc he).calmOf.good.coh _ _ hs
    rw [show awaits (w'.comps c) (.waiters s) = (s ∈ (w'.comps c).waits.map Wait.s) from rfl, h1] at this
    cases this
  · unfold Met; rw [h1, h2, h3]

/-! ## changing states -/

/-- C33: at no moment there's a component waiting for states while its condition holds. -/
theorem C33_nobody_missed {w : World} (h : Reach CalmW w) {c : CId} (hc : Waiter w c) : ¬ Met (w.comps c) w.states :=
  h.heard.miss c (by simp) hc.1 (waiter_waits h.calmOf.good hc)

/-- only a change of a state it waits for makes that the condition of a waiter holds -/
theorem met_in {w : World} (h : Reach CalmW w) {c : CId} (hc : Waiter w c) {σ : SId → Val} (hm : Met (w.comps c) σ) {s : SId}
    (hσ : ∀ x, x ≠ s → σ x = w.states x) : c ∈ w.inQ (.waiters s) := by
  by_contra hn
  refine C33_nobody_missed h hc ?_
  have hl := h.heard.dep c (by simp) hc.1 (waiter_waits h.calmOf.good hc)
  refine (hl σ w.states fun a ha => hσ _ ?_).1 hm
  rintro rfl
  exact hn (h.heard.mem c a ha)

theorem freed_stays {w w' : World} {sel : List CId} (h : Freed sel w w') {c : CId} (hc : c ∉ sel) : Stays w w' c := by
  refine ⟨h.other c hc, fun q => ?_⟩
  by_cases hq : ∃ s, q = .waiters s
  · obtain ⟨s, rfl⟩ := hq
    rw [h.waiters]
    simp [hc]
  · simp only [World.inQ, h.queues q (fun s hs => hq ⟨s, hs⟩)]

theorem freed_continues {w w' : World} {sel : List CId} (h : Freed sel w w') (hr : Reach Calm w') {c : CId} (hc : c ∈ sel) : Continues w w' c := by
  have hs : w'.status c = .scheduled := by rw [World.status, h.self c hc]
  refine ⟨hs, event_of hr hs (by rw [h.self c hc]), fun s hm => ?_⟩
  rw [h.waiters] at hm
  simp [hc] at hm

/-- C33: `set`. A component that waits for states continues when its condition holds for the values after the change, and isn't
affected otherwise. -/
theorem C33_set {w w' : World} {fuel s v} (h : Reach CalmW w) (he : exec fuel (.stateSet s v) w = .ok w') :
    (∀ x, w'.states x = if x = s then v else w.states x) ∧
    ∀ c, Waiter w c → (Met (w.comps c) w'.states → Continues w w' c) ∧ (¬ Met (w.comps c) w'.states → Stays w w' c) := by
  have hr := exec_after h ⟨⟨⟨w', he⟩, trivial, trivial⟩, trivial⟩ he
  simp only [exec] at he
  rcases stateSet_exact h.calmOf.good he with ⟨hv, rfl⟩ | ⟨_, hf⟩
  · refine ⟨fun x => ?_, fun c hc => ⟨fun hm => absurd hm (C33_nobody_missed h hc), fun _ => ⟨rfl, fun _ => Iff.rfl⟩⟩⟩
    split
    · rename_i hx; rw [hx, hv]
    · rfl
  · have hst : ∀ x, w'.states x = if x = s then v else w.states x := fun x => by rw [hf.states]; rfl
    refine ⟨hst, fun c hc => ⟨fun hm => ?_, fun hm => ?_⟩⟩
    · have hin := met_in h hc hm (s := s) (fun x hx => by rw [hst, if_neg hx])
      have := freed_continues hf hr.calmOf (c := c) ?_
      · exact ⟨this.status, this.event, this.gone⟩
      · refine List.mem_filter.2 ⟨hin, decide_eq_true ⟨?_, ?_⟩⟩
        · rw [show (w.setState s v).status c = w.status c from rfl, hc.1]; simp
        · rw [← hf.states]; exact hm
    · have := freed_stays hf (c := c) ?_
      · exact ⟨this.comp, this.queues⟩
      · intro hin
        have := (of_decide_eq_true (List.mem_filter.1 hin).2).2
        rw [← hf.states] at this
        exact hm this

/-! ## trigger -/

/-- the components in the waiters of the state, in order, whose condition holds when the state has the given value; interrupted
components are not considered -/
noncomputable def eligible (w : World) (s : SId) (v : Val) : List CId :=
  (w.inQ (.waiters s)).filter fun c =>
    decide (w.status c ≠ .interrupted ∧ Met (w.comps c) fun x => if x = s then v else w.states x)

theorem trigger_exact {w w' : World} {fuel s v a mx} (h : Reach CalmW w) (he : exec fuel (.stateTrigger s v a mx) w = .ok w') :
    (∀ x, w'.states x = if x = s then a.getD (w.states s) else w.states x) ∧
    ∀ c, Waiter w c → (c ∈ pick mx (eligible w s v) ∨ Met (w.comps c) w'.states → Continues w w' c) ∧
      (c ∉ pick mx (eligible w s v) → ¬ Met (w.comps c) w'.states → Stays w w' c) := by
  have hr := exec_after h ⟨⟨⟨w', he⟩, trivial, trivial⟩, trivial⟩ he
  simp only [exec] at he
  obtain ⟨w1, f1, f2⟩ := stateTrigger_exact h.calmOf.good he
  have hst : ∀ x, w'.states x = if x = s then a.getD (w.states s) else w.states x := by
    intro x
    rw [f2.states]
    simp only [World.setState]
    split
    · rfl
    · rw [f1.states]; simp only [World.setState]; rw [if_neg (by assumption)]
  have hE : over (w.setState s v) (w.inQ (.waiters s)) = eligible w s v := rfl
  rw [hE] at f1
  refine ⟨hst, fun c hc => ?_⟩
  have hnow : w1.now = w.now := f1.now
  have key : c ∉ pick mx (eligible w s v) → (c ∈ over (w1.setState s (a.getD (w.states s))) (w1.inQ (.waiters s)) ↔ Met (w.comps c) w'.states) := by
    intro hn
    have hcc : w1.comps c = w.comps c := f1.other c hn
    rw [f2.states]
    constructor
    · intro hm
      have := (of_decide_eq_true (List.mem_filter.1 hm).2).2
      rwa [show (w1.setState s (a.getD (w.states s))).comps c = w.comps c from hcc] at this
    · intro hm
      have hin := met_in h hc (s := s) hm (fun x hx => by rw [← f2.states, hst, if_neg hx])
      refine List.mem_filter.2 ⟨?_, decide_eq_true ⟨?_, ?_⟩⟩
      · rw [f1.waiters]
        exact List.mem_filter.2 ⟨hin, decide_eq_true hn⟩
      · rw [show (w1.setState s (a.getD (w.states s))).status c = (w1.comps c).status from rfl, hcc, show (w.comps c).status = .waiting from hc.1]; simp
      · rw [show (w1.setState s (a.getD (w.states s))).comps c = w.comps c from hcc]; exact hm
  refine ⟨fun hm => ?_, fun hn hm => ?_⟩
  · by_cases hn : c ∈ pick mx (eligible w s v)
    · have hg1 : ∀ x, c ∉ w1.inQ (.waiters x) := by
        intro x hx
        rw [f1.waiters] at hx
        exact absurd hn (of_decide_eq_true (List.mem_filter.1 hx).2)
      have hn2 : c ∉ over (w1.setState s (a.getD (w.states s))) (w1.inQ (.waiters s)) := fun hx => hg1 s (List.mem_filter.1 hx).1
      have hc' : w'.comps c = w1.comps c := f2.other c hn2
      have hs : w'.status c = .scheduled := by rw [World.status, hc', f1.self c hn]
      refine ⟨hs, event_of hr.calmOf hs (by rw [hc', f1.self c hn]; rfl), fun x hx => ?_⟩
      rw [f2.waiters] at hx
      exact hg1 x (List.mem_filter.1 hx).1
    · have := freed_continues f2 hr.calmOf ((key hn).2 (hm.resolve_left hn))
      refine ⟨this.status, ?_, this.gone⟩
      obtain ⟨e, h1, h2, h3⟩ := this.event
      exact ⟨e, h1, h2, h3.trans hnow⟩
  · have h1 := freed_stays f1 hn
    have h2 := freed_stays f2 (fun hx => hm ((key hn).1 hx))
    exact ⟨h2.comp.trans h1.comp, fun q => (h2.queues q).trans (h1.queues q)⟩

/-- C34: `trigger` without a maximum -/
theorem C34_trigger_all {w w' : World} {fuel s v a} (h : Reach CalmW w) (he : exec fuel (.stateTrigger s v a none) w = .ok w') :
    (∀ x, w'.states x = if x = s then a.getD (w.states s) else w.states x) ∧
    ∀ c, Waiter w c → (c ∈ eligible w s v ∨ Met (w.comps c) w'.states → Continues w w' c) ∧
      (c ∉ eligible w s v → ¬ Met (w.comps c) w'.states → Stays w w' c) := trigger_exact h he

/-- C34: `trigger(max=n)`, for any value_after: afterwards the state has value_after (if not given: the value before); a waiter
continues exactly if it's one of the first `n` whose condition holds for the trigger value, or its condition holds for value_after. -/
theorem C34_trigger_max {w w' : World} {fuel s v a} {n : Nat} (hn : 0 < n) (h : Reach CalmW w)
    (he : exec fuel (.stateTrigger s v a (some (n : Int))) w = .ok w') :
    (∀ x, w'.states x = if x = s then a.getD (w.states s) else w.states x) ∧
    ∀ c, Waiter w c → (c ∈ (eligible w s v).take n ∨ Met (w.comps c) w'.states → Continues w w' c) ∧
      (c ∉ (eligible w s v).take n → ¬ Met (w.comps c) w'.states → Stays w w' c) := by
  have := trigger_exact h he
  rwa [show pick (some (n : Int)) (eligible w s v) = (eligible w s v).take n by simp [pick, hn]] at this

/-- C34: with a value_after that is the value before (the default), the waiters that continue are the first `n` whose condition holds
for the trigger value -/
theorem C34_first_n {w w' : World} {fuel s v a} {n : Nat} (hn : 0 < n) (h : Reach CalmW w) (ha : a = none ∨ a = some (w.states s))
    (he : exec fuel (.stateTrigger s v a (some (n : Int))) w = .ok w') : w'.states = w.states ∧
    ∀ c, Waiter w c → (c ∈ (eligible w s v).take n → Continues w w' c) ∧ (c ∉ (eligible w s v).take n → Stays w w' c) := by
  obtain ⟨h1, h2⟩ := C34_trigger_max hn h he
  have hs : w'.states = w.states := by
    funext x
    rw [h1]
    split
    · rename_i hx; subst hx
      rcases ha with rfl | rfl <;> rfl
    · rfl
  refine ⟨hs, fun c hc => ⟨fun hm => (h2 c hc).1 (.inl hm), fun hm => (h2 c hc).2 hm ?_⟩⟩
  rw [hs]
  exact C33_nobody_missed h hc

/-- C34: so no more than `n` waiters continue -/
theorem C34_at_most {w w' : World} {fuel s v a} {n : Nat} (hn : 0 < n) (h : Reach CalmW w) (ha : a = none ∨ a = some (w.states s))
    (he : exec fuel (.stateTrigger s v a (some (n : Int))) w = .ok w') (l : List CId) (hl : l.Nodup)
    (hw : ∀ c ∈ l, Waiter w c ∧ ¬ Waiter w' c) : l.length ≤ n := by
  obtain ⟨_, h2⟩ := C34_first_n hn h ha he
  have hsub : l ⊆ (eligible w s v).take n := by
    intro c hc
    by_contra hx
    obtain ⟨h3, h4⟩ := hw c hc
    have := (h2 c h3).2 hx
    obtain ⟨h5, x, h6⟩ := h3
    exact h4 ⟨by rw [World.status, this.comp]; exact h5, x, (this.queues _).2 h6⟩
  have := (hl.subperm hsub).length_le
  rw [List.length_take] at this
  omega

/-! ## examples -/

theorem eligible_eq (w : World) (s : SId) (v : Val) :
    eligible w s v = (w.inQ (.waiters s)).filter fun c => w.status c != .interrupted && waitOver (w.setState s v) c := by
  refine List.filter_congr fun c _ => ?_
  rw [Bool.eq_iff_iff, decide_eq_true_iff, Bool.and_eq_true, waitOver_iff]
  simp only [bne_iff_ne]
  exact Iff.rfl

/-- a check of `CalmW` by evaluation, for calls other than `wait_for` -/
def calmwb (fuel : Nat) (w : World) (o : Op) : Bool :=
  calmb fuel w o && match o with
  | .wait c .. => w.status c != .interrupted
  | .waitFor .. => false
  | _ => true

theorem calmwb_calmW {fuel w o} (h : calmwb fuel w o = true) : CalmW fuel w o := by
  unfold calmwb at h
  rw [Bool.and_eq_true] at h
  refine ⟨calmb_calm h.1, ?_⟩
  obtain ⟨_, h2⟩ := h
  cases o <;> simp only [Attentive] <;> simp only at h2
  · simpa using h2
  · cases h2

def calmwAll (fuel : Nat) : List Op → World → Bool
  | [], _ => true
  | o :: os, w => calmwb fuel w o && calmwAll fuel os (exec fuel o w).world

theorem reach_calmW (fuel : Nat) {w : World} (h : Reach CalmW w) (ops : List Op) (hc : calmwAll fuel ops w = true) :
    Reach CalmW (execAll fuel ops w) := by
  induction ops generalizing w with
  | nil => exact h
  | cons o os ih =>
    simp only [calmwAll, Bool.and_eq_true] at hc
    exact ih (.op fuel o h (calmwb_calmW hc.1)) hc.2

def begin (c : CId) : List Op := [.create c none (0 : Rat) (0 : Rat) false false false, .step]

/-- state 0 is 1 or state 1 is 1 -/
def orArgs : List WArg := [{ s := 0 }, { s := 1 }]
/-- state 0 is 2 -/
def twoArgs : List WArg := [{ s := 0, ok := fun v => v == 2 }]

/-- components 1, 2 and 3 wait for state 0 or state 1 to be 1; component 4 for both, component 5 for state 0 being 2; component 3 has
priority; component 6 is passive -/
def waitOps : List Op :=
  begin 1 ++ [.wait 1 orArgs false none none (0 : Rat) false false] ++ begin 2 ++ [.wait 2 orArgs false none none (0 : Rat) false false] ++
  begin 3 ++ [.wait 3 [{ s := 0, prio := some (-1 : Rat) }, { s := 1 }] false none none (0 : Rat) false false] ++
  begin 4 ++ [.wait 4 orArgs true none none (0 : Rat) false false] ++ begin 5 ++ [.wait 5 twoArgs false none none (0 : Rat) false false] ++
  begin 6 ++ [.passivate 6]

def waitW : World := execAll 20 waitOps World.init

theorem waitW_reach : Reach CalmW waitW := reach_calmW _ (.init fresh_init) _ (by decide +kernel)

theorem waiter_iff (w : World) (c : CId) (s : SId) (h : w.status c = .waiting ∧ c ∈ w.inQ (.waiters s)) : Waiter w c := ⟨h.1, s, h.2⟩

example : Waiter waitW 1 ∧ Waiter waitW 4 ∧ waitW.inQ (.waiters 0) = [3, 1, 2, 4, 5] ∧ waitW.inQ (.waiters 1) = [1, 2, 3, 4] := by
  refine ⟨waiter_iff _ _ 0 ?_, waiter_iff _ _ 1 ?_, ?_, ?_⟩ <;> decide +kernel

/-- setting state 0 lets 1, 2 and 3 continue, and then setting state 1 component 4 -/
example : ∃ w' w'', exec 20 (.stateSet 0 1) waitW = .ok w' ∧ exec 20 (.stateSet 1 1) w' = .ok w'' ∧
    (List.range 7).map w'.status = [.current, .scheduled, .scheduled, .scheduled, .waiting, .waiting, .passive] ∧
    (List.range 7).map w''.status = [.current, .scheduled, .scheduled, .scheduled, .scheduled, .waiting, .passive] := by
  refine ⟨_, _, ok_world (by decide +kernel), ok_world (by decide +kernel), ?_, ?_⟩ <;> decide +kernel

/-- the hypotheses of `C33_wait` (with the condition holding, and not), and of `C33_wait_for` -/
example : CalmW 20 waitW (.wait 6 orArgs false none none (0 : Rat) false false) ∧ ¬ Holds false orArgs waitW.states ∧
    CalmW 20 waitW (.wait 6 [{ s := 0, ok := fun v => v == 0 }] true none none (0 : Rat) false false) ∧
    Holds true [{ s := 0, ok := fun v => v == 0 }] waitW.states ∧
    CalmW 20 waitW (.waitFor 6 (fun σ => σ 0 == σ 1 + 1) [0, 1] none none 0 false false) := by
  have h0 : waitW.states 0 = 0 := by decide +kernel
  have h1 : waitW.states 1 = 0 := by decide +kernel
  refine ⟨calmwb_calmW (by decide +kernel), ?_, calmwb_calmW (by decide +kernel), ?_, calmb_calm (by decide +kernel), ?_, ?_⟩
  · simp [Holds, orArgs, h0, h1]
  · simp [Holds, h0]
  · decide +kernel
  · intro σ τ h
    simp only [h 0 (by simp), h 1 (by simp)]

/-- triggering state 0 with the value 1 and at most two components to continue: 3 and 1 -/
example : eligible waitW 0 1 = [3, 1, 2] ∧ ∃ w', exec 20 (.stateTrigger 0 1 none (some 2)) waitW = .ok w' ∧
    (List.range 7).map w'.status = [.current, .scheduled, .waiting, .scheduled, .waiting, .waiting, .passive] ∧ w'.states 0 = 0 := by
  refine ⟨?_, _, ok_world (by decide +kernel), ?_, ?_⟩
  · rw [eligible_eq]; decide +kernel
  · decide +kernel
  · decide +kernel

/-- C34 with another value_after: at most one is to continue, but besides component 3 (the first one in the waiters queue, whose
condition holds for the trigger value), also component 5 does, as its condition holds for value_after. -/
theorem C34_value_after_counterexample : ∃ w w', Reach CalmW w ∧ exec 20 (.stateTrigger 0 1 (some 2) (some 1)) w = .ok w' ∧
    Waiter w 3 ∧ Waiter w 5 ∧ w'.status 3 = .scheduled ∧ w'.status 5 = .scheduled := by
  refine ⟨waitW, _, waitW_reach, ok_world (by decide +kernel), waiter_iff _ _ 0 ?_, waiter_iff _ _ 0 ?_, ?_, ?_⟩ <;> decide +kernel

/-- C34 with `max=0`: all components continue, instead of none -/
theorem C34_max_zero_counterexample : ∃ w w', Reach CalmW w ∧ exec 20 (.stateTrigger 0 1 none (some 0)) w = .ok w' ∧
    Waiter w 1 ∧ Waiter w 2 ∧ Waiter w 3 ∧ w'.status 1 = .scheduled ∧ w'.status 2 = .scheduled ∧ w'.status 3 = .scheduled := by
  refine ⟨waitW, _, waitW_reach, ok_world (by decide +kernel), waiter_iff _ _ 0 ?_, waiter_iff _ _ 0 ?_, waiter_iff _ _ 0 ?_, ?_, ?_, ?_⟩ <;>
    decide +kernel

/-- C33 when an interrupted component is told to wait (by another component) for a condition that holds already: it becomes waiting,
forever if the state doesn't change -/
theorem C33_interrupted_counterexample : ∃ w c w', Reach Calm w ∧ Calm 20 w (.wait c [{ s := 0, ok := fun v => v == 0 }] false none none (0 : Rat) false false) ∧
    exec 20 (.wait c [{ s := 0, ok := fun v => v == 0 }] false none none (0 : Rat) false false) w = .ok w' ∧
    Holds false [{ s := 0, ok := fun v => v == 0 }] w.states ∧ Waiter w' c := by
  refine ⟨execAll 20 (begin 1 ++ [.hold 1 (some (5 : Rat)) none (0 : Rat) false false 0, .interrupt 1]) World.init, 1, _,
    reach_calm _ (.init fresh_init) _ (by decide +kernel), calmb_calm (by decide +kernel), ok_world (by decide +kernel), ?_, waiter_iff _ _ 0 (by decide +kernel)⟩
  have h0 : (execAll 20 (begin 1 ++ [.hold 1 (some (5 : Rat)) none (0 : Rat) false false 0, .interrupt 1]) World.init).states 0 = 0 := by decide +kernel
  simp only [Holds]
  exact ⟨_, List.mem_singleton.2 rfl, by rw [h0]; rfl⟩

end Verif
