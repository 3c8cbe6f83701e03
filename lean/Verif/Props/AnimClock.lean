import Verif.AnimClock
import Verif.Props.SchedTime
import Mathlib.Tactic.Cases
import Mathlib.Tactic.Linarith
import Mathlib.Tactic.Ring
import Mathlib.Tactic.NormNum

/-!
# C105: the clock of the animation
-/

namespace Verif
namespace AnimClock

variable {S : Type}

/-- what is needed of the simulation: the next step isn't in the past, and takes place at the moment that `peek()` says -/
structure Lawful (m : Sim S) : Prop where
  later : ∀ s, (m.now s : WithTop Rat) ≤ m.peek s
  moves : ∀ s s' (p : Rat), m.peek s = (p : WithTop Rat) → m.Step s s' → m.now s' = p

/-- something happens, while the clock on the wall goes on; `P` tells which calls -/
inductive Next (m : Sim S) (P : Call → Prop) : Clock S × Rat → Clock S × Rat → Prop
  | call {k : Clock S} {c c' : Rat} (o : Call) : P o → c ≤ c' → Next m P (k, c) (o.run c' k, c')
  | tick {k k' : Clock S} {c c' : Rat} : c ≤ c' → Tick m c' k k' → Next m P (k, c) (k', c')
  | single {k : Clock S} {s : S} {c c' : Rat} : c ≤ c' → m.peek k.sim ≠ ⊤ → m.Step k.sim s → Next m P (k, c) (single m c' k s, c')

/-- any history from the moment that the animation is switched on -/
def Reach (m : Sim S) (P : Call → Prop) (k : Clock S) (c : Rat) : Prop :=
  ∃ s speed synced c0, 0 ≤ speed ∧ Relation.ReflTransGen (Next m P) (start m s speed synced c0, c0) (k, c)

/-- the synced button of the menu isn't used and the speed isn't negative -/
def Fair : Call → Prop
  | .syncedButton => False
  | .speed s => 0 ≤ s
  | _ => True

/-- what holds all the time -/
structure Inv (m : Sim S) (k : Clock S) (c : Rat) : Prop where
  low : m.now k.sim ≤ k.t
  high : (k.t : WithTop Rat) ≤ m.peek k.sim
  speed : 0 ≤ k.speed
  paused : k.synced = true → k.paused = true → k.startTime = k.t
  going : k.synced = true → k.paused = false → k.t ≤ k.startTime + (c - k.startClock) * k.speed

theorem inv_rebase {m : Sim S} {k : Clock S} {c : Rat} (h1 : m.now k.sim ≤ k.t) (h2 : (k.t : WithTop Rat) ≤ m.peek k.sim) (h3 : 0 ≤ k.speed) :
    Inv m (rebase c k) c :=
  ⟨h1, h2, h3, fun _ _ => rfl, fun _ _ => by simp [rebase]⟩

theorem Inv.later {m : Sim S} {k : Clock S} {c c' : Rat} (h : Inv m k c) (hc : c ≤ c') : Inv m k c' := by
  refine ⟨h.low, h.high, h.speed, h.paused, fun h1 h2 => (h.going h1 h2).trans ?_⟩
  have := mul_le_mul_of_nonneg_right (sub_le_sub_right hc k.startClock) h.speed
  linarith

theorem inv_call {m : Sim S} {k : Clock S} {c c' : Rat} (h : Inv m k c) (hc : c ≤ c') {o : Call} (ho : Fair o) : Inv m (o.run c' k) c' := by
  cases o with
  | speed s => exact inv_rebase h.low h.high ho
  | half => exact inv_rebase h.low h.high (by have := h.speed; simp only; linarith)
  | double => exact inv_rebase h.low h.high (by have := h.speed; simp only; linarith)
  | paused b => exact inv_rebase h.low h.high h.speed
  | synced b => exact inv_rebase h.low h.high h.speed
  | syncedButton => exact ho.elim
  | go =>
    have h' : Inv m (rebase c' { k with paused := false }) c' := inv_rebase h.low h.high h.speed
    simp only [Call.run]
    split
    · exact inv_rebase h'.low h'.high h'.speed
    · exact ⟨h'.low, h'.high, h'.speed, h'.paused, h'.going⟩
  | menu => exact inv_rebase h.low h.high h.speed
  | stepButton =>
    have h' := h.later hc
    exact ⟨h'.low, h'.high, h'.speed, h'.paused, h'.going⟩

theorem catchUp_spec {m : Sim S} (hm : Lawful m) {t : Rat} {s s' : S} (h : CatchUp m t s s') (h0 : m.now s ≤ t) :
    m.now s' ≤ t ∧ (t : WithTop Rat) ≤ m.peek s' := by
  induction h with
  | done hp => exact ⟨h0, not_lt.1 hp⟩
  | @step s s' s'' hp hs _ ih =>
    apply ih
    obtain ⟨p, hp'⟩ := WithTop.ne_top_iff_exists.1 (ne_top_of_lt hp)
    rw [hm.moves s s' p hp'.symm hs]
    rw [← hp'] at hp
    exact (WithTop.coe_lt_coe.1 hp).le

theorem moment_ge {m : Sim S} {k : Clock S} {c : Rat} (h : Inv m k c) (hs : k.synced = true) : k.t ≤ k.moment c := by
  unfold Clock.moment
  cases hp : k.paused with
  | true => simpa using (h.paused hs hp).ge
  | false => simpa using h.going hs hp

theorem inv_tick {m : Sim S} (hm : Lawful m) {k k' : Clock S} {c : Rat} (h : Inv m k c) (ht : Tick m c k k') : Inv m k' c ∧ k.t ≤ k'.t := by
  cases ht with
  | synced hs hc =>
    have hg := moment_ge h hs
    obtain ⟨h1, h2⟩ := catchUp_spec hm hc (h.low.trans hg)
    refine ⟨⟨h1, h2, h.speed, fun _ hp => ?_, fun _ hp => ?_⟩, hg⟩
    · simp only [Clock.moment] at hp ⊢; rw [if_pos hp]
    · simp only [Clock.moment] at hp ⊢; rw [if_neg (by simp [hp])]
  | @step s keep hs hb hne hst =>
    obtain ⟨p, hp⟩ := WithTop.ne_top_iff_exists.1 hne
    have hn := hm.moves _ _ p hp.symm hst
    have hh := h.high
    rw [← hp] at hh
    refine ⟨⟨le_refl _, hm.later s, h.speed, fun hs' => ?_, fun hs' => ?_⟩, ?_⟩
    · simp only at hs'; rw [hs] at hs'; cases hs'
    · simp only at hs'; rw [hs] at hs'; cases hs'
    · simp only; rw [hn]; exact WithTop.coe_le_coe.1 hh
  | idle _ _ => exact ⟨h, le_refl _⟩

theorem inv_next {m : Sim S} (hm : Lawful m) {a b : Clock S × Rat} (h : Inv m a.1 a.2) (hn : Next m Fair a b) : Inv m b.1 b.2 ∧ a.1.t ≤ b.1.t := by
  cases hn with
  | @call k c c' o ho hc =>
    refine ⟨inv_call h hc ho, le_of_eq ?_⟩
    cases o with
    | go => simp only [Call.run, rebase]; cases hk : k.synced <;> simp
    | _ => rfl
  | tick hc ht => exact inv_tick hm (h.later hc) ht
  | @single k s c c' hc hne hst =>
    obtain ⟨p, hp⟩ := WithTop.ne_top_iff_exists.1 hne
    have hh := h.high
    simp only at hh
    rw [← hp] at hh
    exact ⟨inv_rebase (le_refl _) (hm.later s) h.speed, by simp only [single, rebase]; rw [hm.moves _ _ p hp.symm hst]; exact WithTop.coe_le_coe.1 hh⟩

theorem inv_many {m : Sim S} (hm : Lawful m) {a b : Clock S × Rat} (h : Inv m a.1 a.2) (hn : Relation.ReflTransGen (Next m Fair) a b) :
    Inv m b.1 b.2 ∧ a.1.t ≤ b.1.t := by
  induction hn with
  | refl => exact ⟨h, le_refl _⟩
  | tail _ h2 ih =>
    obtain ⟨i1, i2⟩ := inv_next hm ih.1 h2
    exact ⟨i1, ih.2.trans i2⟩

theorem reach_inv {m : Sim S} (hm : Lawful m) {k : Clock S} {c : Rat} (h : Reach m Fair k c) : Inv m k c := by
  obtain ⟨s, speed, synced, c0, h0, h⟩ := h
  exact (inv_many hm (inv_rebase (le_refl _) (hm.later s) h0) h).1

/-- **C105.** At any moment, what is shown is the simulation at the moment `t()` of the animation clock: all that is before has taken place, and nothing that is after. -/
theorem C105_shown {m : Sim S} (hm : Lawful m) {k : Clock S} {c : Rat} (h : Reach m Fair k c) :
    m.now k.sim ≤ k.t ∧ (k.t : WithTop Rat) ≤ m.peek k.sim := ⟨(reach_inv hm h).low, (reach_inv hm h).high⟩

/-- C105: the animation clock never runs backwards, whatever is called or clicked (other than the synced button of the menu) -/
theorem C105_forward {m : Sim S} (hm : Lawful m) {k k' : Clock S} {c c' : Rat} (h : Reach m Fair k c)
    (hn : Relation.ReflTransGen (Next m Fair) (k, c) (k', c')) : k.t ≤ k'.t := (inv_many hm (reach_inv hm h) hn).2

/-- rounds of the animation loop, with nothing in between -/
inductive Ticks (m : Sim S) : Clock S → Rat → Clock S → Rat → Prop
  | one {k k' : Clock S} {c c' : Rat} : c ≤ c' → Tick m c' k k' → Ticks m k c k' c'
  | more {k k' k'' : Clock S} {c c' c'' : Rat} : Ticks m k c k' c' → c' ≤ c'' → Tick m c'' k' k'' → Ticks m k c k'' c''

theorem ticks_synced {m : Sim S} {k k' : Clock S} {c c' : Rat} (h : Ticks m k c k' c') (hs : k.synced = true) :
    k'.synced = true ∧ k'.paused = k.paused ∧ k'.startTime = k.startTime ∧ k'.startClock = k.startClock ∧ k'.speed = k.speed ∧ k'.t = k.moment c' := by
  induction h with
  | one _ ht =>
    cases ht with
    | synced _ _ => exact ⟨hs, rfl, rfl, rfl, rfl, rfl⟩
    | step _ h => rw [hs] at h; cases h
    | idle h => rw [hs] at h; cases h
  | more _ _ ht ih =>
    obtain ⟨h1, h2, h3, h4, h5, h6⟩ := ih
    cases ht with
    | synced _ _ => exact ⟨h1, h2, h3, h4, h5, by simp only [Clock.moment, h2, h3, h4, h5]⟩
    | step _ h => rw [h1] at h; cases h
    | idle h => rw [h1] at h; cases h

theorem ticks_still {m : Sim S} {k0 k' : Clock S} {c0 c' : Rat} (hs : k0.synced = true) (hp : k0.paused = true) (h0 : (k0.startTime : WithTop Rat) ≤ m.peek k0.sim)
    (ht : Ticks m k0 c0 k' c') : k'.sim = k0.sim := by
  have still : ∀ {k1 k2 : Clock S} {c : Rat}, k1.synced = true → k1.paused = true → (k1.startTime : WithTop Rat) ≤ m.peek k1.sim → Tick m c k1 k2 → k2.sim = k1.sim := by
    intro k1 k2 c a1 a2 a3 ht
    cases ht with
    | synced _ hcu =>
      simp only [Clock.moment, a2, if_true] at hcu
      cases hcu with
      | done _ => rfl
      | step hlt => exact absurd hlt (not_lt.2 a3)
    | step _ h => rw [a1] at h; cases h
    | idle h => rfl
  induction ht with
  | one _ ht => exact still hs hp h0 ht
  | more h1 _ ht ih =>
    obtain ⟨a1, a2, a3, _, _, _⟩ := ticks_synced h1 hs
    have e := ih
    exact (still a1 (a2.trans hp) (by rw [a3, e]; exact h0) ht).trans e

/-- C105: after any change of the speed, of paused or of synced (by a call, or with the buttons `go` and `menu`), the animation clock goes on from where it was, with
`speed` units per second if synced and not paused; if synced and paused, it stands still and nothing happens in the simulation -/
theorem C105_rate {m : Sim S} (hm : Lawful m) {k k' : Clock S} {c c0 c' : Rat} (h : Reach m Fair k c) (hc : c ≤ c0) {o : Call} (ho : Fair o) (hb : o ≠ .stepButton)
    (hs : (o.run c0 k).synced = true) (ht : Ticks m (o.run c0 k) c0 k' c') :
    ((o.run c0 k).paused = false → k'.t = k.t + (c' - c0) * (o.run c0 k).speed) ∧
    ((o.run c0 k).paused = true → k'.t = k.t ∧ k'.sim = k.sim) := by
  have hstart : (o.run c0 k).startTime = k.t ∧ (o.run c0 k).startClock = c0 ∧ (o.run c0 k).sim = k.sim ∧ (o.run c0 k).t = k.t := by
    cases o with
    | syncedButton => exact ho.elim
    | stepButton => exact absurd rfl hb
    | go => simp only [Call.run, rebase]; cases hk : k.synced <;> simp
    | _ => exact ⟨rfl, rfl, rfl, rfl⟩
  obtain ⟨s1, s2, s3, s4⟩ := hstart
  have hi : Inv m (o.run c0 k) c0 := inv_call (reach_inv hm h) hc ho
  have h6 := (ticks_synced ht hs).2.2.2.2.2
  constructor
  · intro hp
    rw [h6, Clock.moment, if_neg (by simp [hp]), s1, s2]
  · intro hp
    refine ⟨by rw [h6, Clock.moment, if_pos hp, s1], ?_⟩
    rw [← s3]
    exact ticks_still hs hp (by rw [s1, ← s4]; exact hi.high) ht

/-- C105: in synced mode, the buttons: half and double the speed, go on and stop; whether or not the animation was paused for the last two -/
theorem C105_buttons {m : Sim S} (hm : Lawful m) {k k' : Clock S} {c c0 c' : Rat} (h : Reach m Fair k c) (hc : c ≤ c0) (hs : k.synced = true) :
    (k.paused = false → Ticks m (Call.half.run c0 k) c0 k' c' → k'.t = k.t + (c' - c0) * k.speed / 2) ∧
    (k.paused = false → Ticks m (Call.double.run c0 k) c0 k' c' → k'.t = k.t + (c' - c0) * k.speed * 2) ∧
    (∀ s, 0 ≤ s → k.paused = false → Ticks m ((Call.speed s).run c0 k) c0 k' c' → k'.t = k.t + (c' - c0) * s) ∧
    (Ticks m (Call.go.run c0 k) c0 k' c' ∨ Ticks m ((Call.paused false).run c0 k) c0 k' c' → k'.t = k.t + (c' - c0) * k.speed) ∧
    (Ticks m (Call.menu.run c0 k) c0 k' c' ∨ Ticks m ((Call.paused true).run c0 k) c0 k' c' → k'.t = k.t ∧ k'.sim = k.sim) := by
  refine ⟨fun hp ht => ?_, fun hp ht => ?_, fun s h0 hp ht => ?_, fun ht => ?_, fun ht => ?_⟩
  · rw [(C105_rate hm h hc (o := .half) trivial (by simp) hs ht).1 hp]; simp only [Call.run, rebase]; ring
  · rw [(C105_rate hm h hc (o := .double) trivial (by simp) hs ht).1 hp]; simp only [Call.run, rebase]; ring
  · exact (C105_rate hm h hc (o := .speed s) h0 (by simp) hs ht).1 hp
  · rcases ht with ht | ht
    · have := (C105_rate hm h hc (o := .go) trivial (by simp) (by simp [Call.run, rebase, hs]) ht).1 (by simp [Call.run, rebase, hs])
      simpa [Call.run, rebase, hs] using this
    · exact (C105_rate hm h hc (o := .paused false) trivial (by simp) hs ht).1 rfl
  · rcases ht with ht | ht
    · exact (C105_rate hm h hc (o := .menu) trivial (by simp) hs ht).2 rfl
    · exact (C105_rate hm h hc (o := .paused true) trivial (by simp) hs ht).2 rfl

/-- C105: if not synced, a round makes one step and shows the simulation at that moment; if paused, nothing changes, unless the step button was pressed -/
theorem C105_unsynced {m : Sim S} {k k' : Clock S} {c : Rat} (hs : k.synced = false) (ht : Tick m c k k') :
    ((k.paused = false ∨ k.stepPressed = true) → m.Step k.sim k'.sim ∧ k'.t = m.now k'.sim ∧ k'.paused = k.paused) ∧
    (k.paused = true → k.stepPressed = false → k'.sim = k.sim ∧ k'.t = k.t ∧ k'.paused = true ∧ k'.stepPressed = false) := by
  cases ht with
  | synced h => rw [hs] at h; cases h
  | step keep _ hb _ hst =>
    refine ⟨fun _ => ⟨hst, rfl, rfl⟩, fun h1 h2 => ?_⟩
    rw [h1, h2] at hb
    simp at hb
  | idle _ hb =>
    refine ⟨fun h => absurd h.symm hb, fun h1 h2 => ⟨rfl, rfl, h1, h2⟩⟩

/-- C105: the step button, and `an_single_step`, in an animation that is paused and not synced: one step, after which nothing happens (if the component that has become current
doesn't suppress the pause) -/
theorem C105_step {m : Sim S} {k : Clock S} {c : Rat} (hs : k.synced = false) (hp : k.paused = true) (hne : m.peek k.sim ≠ ⊤) {s : S} (hst : m.Step k.sim s) :
    ∃ k', Tick m c (Call.stepButton.run c k) k' ∧ k'.sim = s ∧ k'.t = m.now s ∧ ∀ c' k'', Tick m c' k' k'' → k''.sim = s ∧ k''.t = m.now s := by
  refine ⟨_, Tick.step false hs (.inl rfl) hne hst, rfl, rfl, fun c' k'' ht => ?_⟩
  obtain ⟨h1, h2, _⟩ := (C105_unsynced (by exact hs) ht).2 hp (by simp)
  exact ⟨h1, h2⟩

/-- C105: `an_single_step` in synced mode: one step is made, and from then on the moment of that step is shown, paused -/
theorem C105_single {m : Sim S} (hm : Lawful m) {k k' : Clock S} {c0 c' : Rat} (hs : k.synced = true) {s : S}
    (ht : Ticks m (single m c0 k s) c0 k' c') : k'.t = m.now s ∧ k'.sim = s ∧ k'.paused = true := by
  obtain ⟨_, h2, _, _, _, h6⟩ := ticks_synced ht hs
  exact ⟨h6, ticks_still (k0 := single m c0 k s) hs rfl (hm.later s) ht, h2⟩

/-- the kernel model as the simulation: any state, unless the current component was made with skip_standby while others are in standby (see C69) -/
def kernel : Sim { w : World // Verif.Reach Calm w ∧ ((w.comps w.current).skipStandby = false ∨ w.pending = []) } where
  now w := w.1.now
  peek w := Verif.peek w.1
  Step w w' := ∃ v, Verif.step w.1 = .ok v ∧ w'.1.now = v.now

/-- C105: the kernel is as needed -/
theorem C105_kernel : Lawful kernel where
  later w := (C69_first w.2.1).1
  moves w w' p hp := by
    rintro ⟨v, hv, h⟩
    exact h.trans (C69_next w.2.1 w.2.2 hp hv).1

/-- a simulation with something at each of the given moments -/
def demo : Sim (Rat × List Rat) where
  now s := s.1
  peek s := match s.2 with | [] => ⊤ | e :: _ => if s.1 ≤ e then (e : WithTop Rat) else (s.1 : WithTop Rat)
  Step s s' := match s.2 with | [] => False | e :: l => s' = (max s.1 e, l)

theorem demo_lawful : Lawful demo where
  later s := by
    obtain ⟨n, l⟩ := s
    cases l with
    | nil => exact le_top
    | cons e l =>
      simp only [demo]
      split
      · exact WithTop.coe_le_coe.2 (by assumption)
      · exact le_refl _
  moves s s' p hp hs := by
    obtain ⟨n, l⟩ := s
    cases l with
    | nil => exact hs.elim
    | cons e l =>
      simp only [demo] at hp hs
      subst hs
      simp only [demo]
      split at hp
      · rename_i h; rw [max_eq_right h]; exact WithTop.coe_inj.1 hp
      · rename_i h; rw [max_eq_left (not_le.1 h).le]; exact WithTop.coe_inj.1 hp

theorem first_tick : Tick demo 102 (start demo (0, [1, 3, 5]) 1 true 100) { start demo (0, [1, 3, 5]) 1 true 100 with t := 2, sim := (1, [3, 5]) } := by
  have h := Tick.synced (m := demo) (c := 102) (k := start demo (0, [1, 3, 5]) 1 true 100) (s := (1, [3, 5])) rfl
    (.step (s' := (1, [3, 5])) (by decide +kernel) (show ((1, [3, 5]) : Rat × List Rat) = (max 0 1, [3, 5]) by norm_num) (.done (by decide +kernel)))
  have e : (start demo (0, [1, 3, 5]) 1 true 100).moment 102 = 2 := by decide +kernel
  rwa [e] at h

/-- non-vacuity of C105: switched on at 100 seconds, after 2 seconds the moment 2 is shown, where the first event has taken place -/
example : ∃ k, Reach demo Fair k 102 ∧ k.t = 2 ∧ k.sim = (1, [3, 5]) :=
  ⟨_, ⟨(0, [1, 3, 5]), 1, true, 100, by norm_num, .single (.tick (by norm_num) first_tick)⟩, rfl, rfl⟩

/-- with the synced button of the menu the animation clock may run backwards, as `an_synced` doesn't call set_start_animation: the menu is opened at 2, synced is switched off, a step
is made to the event at 3, and synced is switched on again; then the moment 2 is shown, with the simulation at 3 -/
theorem C105_button_counterexample : ∃ (k k' : Clock (Rat × List Rat)) (c c' : Rat), Reach demo (fun _ => True) k c ∧ c ≤ c' ∧ Tick demo c' k k' ∧ k'.t < k.t ∧ k'.t < demo.now k'.sim := by
  let k1 : Clock (Rat × List Rat) := { start demo (0, [1, 3, 5]) 1 true 100 with t := 2, sim := (1, [3, 5]) }
  let k2 := Call.stepButton.run 102 (Call.syncedButton.run 102 (Call.menu.run 102 k1))
  let k3 : Clock (Rat × List Rat) := { k2 with sim := (3, [5]), t := 3, stepPressed := false }
  let k4 := Call.syncedButton.run 103 k3
  have t2 : Tick demo 103 k2 k3 := by
    have h := Tick.step (m := demo) (c := 103) (k := k2) (s := (3, [5])) false rfl (.inl rfl) (by decide +kernel)
      (show demo.Step (1, [3, 5]) (3, [5]) by simp [demo])
    exact h
  have e : k4.moment 104 = 2 := by decide +kernel
  have t3 : Tick demo 104 k4 { k4 with t := 2, sim := (3, [5]) } := by
    have h := Tick.synced (m := demo) (c := 104) (k := k4) (s := (3, [5])) rfl (.done (by decide +kernel))
    rwa [e] at h
  refine ⟨k4, _, 103, 104, ⟨(0, [1, 3, 5]), 1, true, 100, by norm_num, ?_⟩, by norm_num, t3, by decide +kernel, by decide +kernel⟩
  refine .tail (.tail (.tail (.tail (.tail (.tail .refl (.tick (c' := 102) (by norm_num) first_tick)) (.call .menu trivial (le_refl _))) (.call .syncedButton trivial (le_refl _)))
    (.call .stepButton trivial (le_refl _))) (.tick (c' := 103) (by norm_num) t2)) (.call .syncedButton trivial (le_refl _))

end AnimClock
end Verif
