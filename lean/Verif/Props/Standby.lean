import Verif.Props.Interrupt

/-!
# C08: components in standby get their turn after every event
-/

namespace Verif
open World

/-! ## specification -/

/-- specification: those whose turn comes before the next event, and those that went into standby since the last event -/
structure Line where
  first : List CId
  later : List CId

/-- Specification of what happens to the line: a step gives the first component its turn; if there is none, the step takes an event, and
all components in standby come in line. `standby` puts a component at the end. A component that is taken out of standby (`st`: the
statuses after the call) leaves the line. -/
def Line.next (o : Op) (st : CId → Status) (l : Line) : Line :=
  match o with
  | .step => match l.first with
    | _ :: rest => ⟨rest, l.later⟩
    | [] => ⟨l.later, []⟩
  | .standby c => ⟨l.first.filter (fun d => d != c), l.later.filter (fun d => d != c) ++ [c]⟩
  | _ => ⟨l.first.filter (fun c => st c == .standby), l.later.filter (fun c => st c == .standby)⟩

/-- calls as in `Calm` that don't create components with `skip_standby` -/
def NoSkip (fuel : Nat) (w : World) (o : Op) : Prop := Calm fuel w o ∧ ∀ c a d p u k, o ≠ .create c a d p u k true

/-- histories, together with the line according to the specification -/
inductive Turns : World → Line → Prop
  | init {w} : Fresh w → Turns w ⟨[], []⟩
  | op {w l} (fuel : Nat) (o : Op) : Turns w l → NoSkip fuel w o → Turns (exec fuel o w).world (l.next o (exec fuel o w).world.status)

/-! ## the line of the model -/

theorem Turns.reach {w : World} {l : Line} (h : Turns w l) : Reach Calm w := by
  induction h with
  | init h => exact .init h
  | op fuel o _ ho ih => exact .op fuel o ih ho.1

theorem step_skip {w w' : World} (hg : Good ∅ w) (h : step w = .ok w') (hs : ∀ d, (w.comps d).skipStandby = false) :
    ∀ d, (w'.comps d).skipStandby = false := by
  have hk := step_kind w (show Heapq.IsHeap Ev.lt w.events from hg.inv.heap)
  rw [h] at hk
  have key : ∀ {w1 : World} {c : CId}, St (LK.only c) w1 w' → w1.comps = w.comps → ∀ d, (w'.comps d).skipStandby = false := by
    intro w1 c h1 h2 d
    cases hb : (w'.comps d).skipStandby with
    | false => rfl
    | true =>
      rcases h1.lists.skip d hb with h3 | h3
      · rw [h2, hs] at h3; cases h3
      · exact h3.elim
  cases hk with
  | turn _ _ _ _ _ h1 => exact key h1 rfl
  | ev _ h1 =>
    cases h1 with
    | empty _ _ _ _ _ h1 => exact key h1 rfl
    | event _ _ _ _ _ _ _ h1 => exact key h1 rfl

theorem stepEvent_lists {w w' : World} (hg : Good ∅ w) (h : stepEvent w = .ok w') (hp : w.pending = []) : w'.pending = w.standby ∧ w'.standby = [] := by
  unfold stepEvent at h
  simp only at h
  have e1 : ∀ w1 : World, w1 = (if w.standby = [] then w else { w with pending := w.standby, standby := [] } : World) →
      w1.pending = w.standby ∧ w1.standby = [] := by
    intro w1 h1; rw [h1]
    split
    · rename_i hs; exact ⟨hp.trans hs.symm, hs⟩
    · exact ⟨rfl, rfl⟩
  have g1 := good_turns hg (fun _ => hp)
  generalize (if w.standby = [] then w else { w with pending := w.standby, standby := [] } : World) = w1 at h e1 g1
  have e1 := e1 w1 rfl
  split at h
  · rename_i hpop
    split at h
    · cases h; exact e1
    · have hev := (checkFail_good h (popped_good g1 hpop).2).2.1.ev
      exact ⟨(congrArg EV.pending hev).trans e1.1, (congrArg EV.standby hev).trans e1.2⟩
  · cases h; exact e1

theorem step_lists {w w' : World} (hg : Good ∅ w) (hs : ∀ d, (w.comps d).skipStandby = false) (h : step w = .ok w') :
    (w.pending = [] ∧ w'.pending = w.standby ∧ w'.standby = [] ∧ stepEvent w = .ok w') ∨
    ∃ c rest, w.pending = c :: rest ∧ w'.pending = rest ∧ w'.standby = w.standby ∧ w'.current = c ∧ w'.now = w.now ∧ w'.events = w.events := by
  unfold step at h
  rw [if_neg (by simp [hs])] at h
  split at h
  · rename_i hp
    exact .inl ⟨hp, (stepEvent_lists hg h hp).1, (stepEvent_lists hg h hp).2, h⟩
  · rename_i c rest hp
    simp only at h
    rw [if_pos (show ({ w with pending := rest } : World).status c = .standby from (hg.sb.mem c (by simp [World.lined, hp])).2)] at h
    cases h
    exact .inr ⟨c, rest, hp, rfl, rfl, rfl, rfl, rfl⟩

/-- lists of the same kind with the same elements -/
theorem sublist_filter {l l' : List CId} (p : CId → Bool) (h : l'.Sublist l) (hn : l.Nodup) (hm : ∀ c, c ∈ l → (c ∈ l' ↔ p c = true)) :
    l' = l.filter p := by
  induction h with
  | slnil => rfl
  | @cons l1 l2 a h ih =>
    have hn' := List.nodup_cons.1 hn
    rw [List.filter_cons_of_neg]
    · exact ih hn'.2 fun c hc => hm c (List.mem_cons_of_mem _ hc)
    · intro ha
      exact hn'.1 (h.subset ((hm a (by simp)).2 ha))
  | @cons_cons l1 l2 a h ih =>
    have hn' := List.nodup_cons.1 hn
    rw [List.filter_cons_of_pos ((hm a (by simp)).1 (by simp))]
    congr 1
    refine ih hn'.2 fun c hc => ?_
    rw [← hm c (List.mem_cons_of_mem _ hc), List.mem_cons]
    constructor
    · exact .inr
    · rintro (rfl | h)
      · exact absurd hc hn'.1
      · exact h

/-- a call other than a step takes components out of the line, and only `standby` adds one -/
theorem exec_lists {w w' : World} {fuel : Nat} {o : Op} (hs : o ≠ .step) (h : exec fuel o w = .ok w') : Lists (o.lists w) w w' := by
  by_cases hp : o.plain
  · have := (exec_st fuel hp w).lists
    rwa [h] at this
  · cases o <;> simp [Op.plain] at hp
    · rename_i c n i
      rcases exec_insertAt fuel c n i w with he | ⟨q', _, he⟩ <;> rw [h] at he <;> simp only [R.world] at he <;> rw [he] <;> exact .same
    · cases h; exact .same
    · exact absurd rfl hs

/-- those who are still in standby after a call keep their places -/
theorem line_filter {e : Set CId} {w w' : World} (hg : SB ∅ w) (hg' : SB e w') (hs : ∀ d, (w'.comps d).skipStandby = false) (p : CId → Bool)
    (hp : ∀ c ∈ w.lined, p c = true ↔ c ∉ e ∧ w'.status c = .standby) (h1 : w'.pending.Sublist w.pending) (h2 : w'.standby.Sublist w.standby) :
    w'.pending = w.pending.filter p ∧ w'.standby = w.standby.filter p := by
  have hn := List.nodup_append.1 hg.nd
  have key : ∀ c ∈ w.lined, c ∈ w'.lined ↔ p c = true := by
    intro c hc
    rw [hp c hc]
    exact ⟨fun h => hg'.mem c h, fun h => hg'.all hs c h.1 h.2⟩
  constructor
  · refine sublist_filter p h1 hn.1 fun c hc => ?_
    rw [← key c (List.mem_append_left _ hc)]
    constructor
    · exact fun h => List.mem_append_left _ h
    · intro h
      rcases List.mem_append.1 h with h | h
      · exact h
      · exact absurd rfl (hn.2.2 c hc c (h2.subset h))
  · refine sublist_filter p h2 hn.2.1 fun c hc => ?_
    rw [← key c (List.mem_append_right _ hc)]
    constructor
    · exact fun h => List.mem_append_right _ h
    · intro h
      rcases List.mem_append.1 h with h | h
      · exact absurd rfl (hn.2.2 c (h1.subset h) c hc)
      · exact h

theorem standby_lists {w w' : World} {c : CId} (hg : Good ∅ w) (hs : ∀ d, (w.comps d).skipStandby = false) (h : standby c w = .ok w') :
    w'.pending = w.pending.filter (fun d => d != c) ∧ w'.standby = w.standby.filter (fun d => d != c) ++ [c] := by
  unfold standby at h
  obtain ⟨w1, h1, h2⟩ := andThen_ok h
  have s := (start_preamble hg (by simp) h1).1
  have hl : Lists (fun _ _ => False) w w1 := by
    have := (sr_preamble (L := fun _ _ => False) (.refl w) c).world.lists
    rwa [h1] at this
  have hk : ∀ d, (w1.comps d).skipStandby = false := by
    intro d
    cases hb : (w1.comps d).skipStandby with
    | false => rfl
    | true =>
      rcases hl.skip d hb with h3 | h3
      · rw [hs] at h3; cases h3
      · exact h3.elim
  obtain ⟨a, t, e1, e2, e3⟩ := hl.standby
  have ht : t = [] := List.eq_nil_iff_forall_not_mem.2 e3
  rw [ht, List.append_nil] at e1
  have := line_filter hg.sb s.good.sb hk (fun d => d != c) (fun d hd => ?_) hl.pending (e1 ▸ e2)
  · cases h2
    exact ⟨this.1, congrArg (· ++ [c]) this.2⟩
  · have hst := (hg.sb.mem d hd).2
    simp only [bne_iff_ne, Set.mem_insert_iff, Set.mem_empty_iff_false, or_false]
    constructor
    · intro hdc
      refine ⟨hdc, ?_⟩
      simp only [World.status, s.other d hdc]; exact hst
    · exact fun h => h.1

theorem Turns.line {w : World} {l : Line} (h : Turns w l) :
    w.pending = l.first ∧ w.standby = l.later ∧ ∀ d, (w.comps d).skipStandby = false := by
  induction h with
  | init h =>
    refine ⟨h.pending, h.standby, fun d => ?_⟩
    obtain ⟨b, hb⟩ := h.comps d
    rw [hb]
  | @op w l fuel o ht ho ih =>
    have hg := ht.reach.good
    have hg' := (Reach.op fuel o ht.reach ho.1).good
    obtain ⟨i1, i2, i3⟩ := ih
    obtain ⟨⟨⟨w', hw⟩, hrest⟩, hns⟩ := ho
    rw [hw] at hg' ⊢
    simp only [R.world] at hg' ⊢
    by_cases hst : o = .step
    · subst hst
      simp only [exec] at hw
      rcases step_lists hg i3 hw with ⟨h1, h2, h3, _⟩ | ⟨c, rest, h1, h2, h3, _⟩
      · rw [h1] at i1
        refine ⟨?_, ?_, step_skip hg hw i3⟩ <;> simp only [Line.next, ← i1]
        · rw [h2, i2]
        · exact h3
      · rw [h1] at i1
        refine ⟨?_, ?_, step_skip hg hw i3⟩ <;> simp only [Line.next, ← i1]
        · exact h2
        · rw [h3, i2]
    · have hl := exec_lists hst hw
      have hk : ∀ d, (w'.comps d).skipStandby = false := by
        intro d
        cases hb : (w'.comps d).skipStandby with
        | false => rfl
        | true =>
          rcases hl.skip d hb with h3 | h3
          · rw [i3] at h3; cases h3
          · cases o <;> simp only [Op.lists] at h3
            rename_i c a d' p u k s
            rw [h3.1] at hns
            exact absurd rfl (hns c a d' p u k)
      have gen : (∀ c, o ≠ .standby c) → w'.pending = w.pending.filter (fun c => w'.status c == .standby) ∧
          w'.standby = w.standby.filter (fun c => w'.status c == .standby) := by
        intro hno
        obtain ⟨a, t, e1, e2, e3⟩ := hl.standby
        have ht : t = [] := by
          refine List.eq_nil_iff_forall_not_mem.2 fun c hc => ?_
          have := e3 c hc
          cases o <;> simp only [Op.lists] at this
          exact hno _ rfl
        rw [ht, List.append_nil] at e1
        exact line_filter hg.sb hg'.sb hk _ (fun c _ => by simp) hl.pending (e1 ▸ e2)
      by_cases hsb : ∃ c, o = .standby c
      · obtain ⟨c, rfl⟩ := hsb
        simp only [exec] at hw
        have := standby_lists hg i3 hw
        exact ⟨by rw [this.1, i1]; rfl, by rw [this.2, i2]; rfl, hk⟩
      · have := gen fun c hc => hsb ⟨c, hc⟩
        refine ⟨?_, ?_, hk⟩
        · rw [this.1, i1]
          cases o <;> first | rfl | exact absurd rfl hst | exact absurd ⟨_, rfl⟩ hsb
        · rw [this.2, i2]
          cases o <;> first | rfl | exact absurd rfl hst | exact absurd ⟨_, rfl⟩ hsb

/-! ## the claim -/

/-- C08: nobody in standby is forgotten, and nobody is in line twice -/
theorem C08_nobody_forgotten {w : World} {l : Line} (h : Turns w l) :
    (∀ c, w.status c = .standby ↔ c ∈ l.first ++ l.later) ∧ (l.first ++ l.later).Nodup := by
  obtain ⟨h1, h2, h3⟩ := h.line
  have hg := h.reach.good.sb
  have hl : w.lined = l.first ++ l.later := by simp only [World.lined, h1, h2]
  rw [← hl]
  exact ⟨fun c => ⟨hg.all h3 c (by simp), fun hc => (hg.mem c hc).2⟩, hg.nd⟩

/-- C08: as long as somebody is in line, a step makes the first in line current, and no event is taken -/
theorem C08_turn {w w' : World} {l : Line} {fuel : Nat} {c : CId} {rest : List CId} (h : Turns w l) (hl : l.first = c :: rest)
    (hs : exec fuel .step w = .ok w') : w'.current = c ∧ w'.status c = .current ∧ w'.now = w.now ∧ w'.events = w.events ∧
      ∀ d, d ≠ c → w'.status d = w.status d := by
  obtain ⟨h1, h2, h3⟩ := h.line
  simp only [exec] at hs
  have o := step_out h.reach.good hs
  rcases step_lists h.reach.good h3 hs with ⟨e1, _⟩ | ⟨c', rest', e1, e2, e3, e4, e5, e6⟩
  · rw [h1, hl] at e1; cases e1
  · rw [h1, hl] at e1
    obtain ⟨rfl, rfl⟩ := List.cons.inj e1
    refine ⟨e4, by rw [← e4]; exact o.status, e5, e6, fun d hd => ?_⟩
    rw [← e4] at hd
    simp only [World.status, o.other d hd]

/-- C08: a step takes an event only if nobody is in line any more (or the main component gets control if there are no events) -/
theorem C08_event {w w' : World} {l : Line} {fuel : Nat} (h : Turns w l) (hl : l.first = []) (hs : exec fuel .step w = .ok w') :
    w'.status w'.current = .current ∧ ((∃ e, w.events.Perm (e :: w'.events) ∧ e.c = w'.current ∧ e.t = w'.now) ∨
      (w.events = [] ∧ w'.events = [] ∧ w'.now = w.now ∧ w'.current = w.main)) := by
  obtain ⟨h1, h2, h3⟩ := h.line
  simp only [exec] at hs
  have o := step_out h.reach.good hs
  refine ⟨o.status, ?_⟩
  rcases step_lists h.reach.good h3 hs with ⟨e1, _, _, e4⟩ | ⟨c', rest', e1, e2, e3, e4, e5, e6⟩
  · have hp : w.pending = [] := e1
    unfold stepEvent at e4
    rcases o.cases with ho | ho | ho
    · exfalso
      have hst := o.status
      have hse := ho.2.2
      have hin := h.reach.good.inv
      -- the component of an event isn't in standby
      obtain ⟨_, hno, _⟩ := ho
      simp only at e4
      have g1 := good_turns h.reach.good (fun _ => hp)
      have e1 : ∀ w1 : World, w1 = (if w.standby = [] then w else { w with pending := w.standby, standby := [] } : World) →
          w1.comps = w.comps ∧ w1.main = w.main ∧ w1.events = w.events := by
        intro w1 h1; rw [h1]; split <;> exact ⟨rfl, rfl, rfl⟩
      generalize (if w.standby = [] then w else { w with pending := w.standby, standby := [] } : World) = w1 at e4 e1 g1
      obtain ⟨c1, m1, v1⟩ := e1 w1 rfl
      have hno : w1.status w'.current = .standby := by simp only [World.status, c1]; exact hno
      split at e4
      · rename_i e es hpop
        have hcur : w'.current = e.c := by
          split at e4
          · cases e4; rfl
          · exact congrArg EV.current (checkFail_good e4 (popped_good g1 hpop).2).2.1.ev
        have hspec := Heapq.heappop_spec evLaw (show Heapq.IsHeap Ev.lt w1.events from g1.inv.heap)
        rw [hpop] at hspec
        have h2 : (w1.comps e.c).onList = true := (g1.inv.on e.c).2 ⟨e, hspec.1.mem_iff.2 (by simp), rfl⟩
        rw [hcur] at hno
        rw [(off_of_status g1.inv (.inr (.inr (.inr hno)))).2] at h2
        cases h2
      · cases e4
        exact g1.sb.main hno
    · obtain ⟨e, h1, h2, h3, _⟩ := ho
      exact .inl ⟨e, h1, h2, h3⟩
    · exact .inr ho
  · rw [h1, hl] at e1; cases e1

/-- who becomes current at the steps of a program -/
def currents (fuel : Nat) : List Op → World → List CId
  | [], _ => []
  | .step :: os, w => (exec fuel .step w).world.current :: currents fuel os (exec fuel .step w).world
  | o :: os, w => currents fuel os (exec fuel o w).world

/-- the number of steps -/
def steps : List Op → Nat
  | [] => 0
  | .step :: os => steps os + 1
  | _ :: os => steps os

/-- the calls satisfy `NoSkip`, and none of them touches a component of the list whose turn is still to come -/
def Undisturbed (fuel : Nat) : List Op → World → List CId → Prop
  | [], _, _ => True
  | .step :: os, w, l => NoSkip fuel w .step ∧ Undisturbed fuel os (exec fuel .step w).world l.tail
  | o :: os, w, l => NoSkip fuel w o ∧ (∀ c ∈ l, ¬ o.touches w c) ∧ Undisturbed fuel os (exec fuel o w).world l

/-- C08: whatever the processes do at their turns (as long as they do not touch those that are still in line), those in line become current
one after the other, in the order of the line, each of them once -/
theorem C08_in_order (fuel : Nat) (ops : List Op) {w : World} {l : Line} (h : Turns w l) (hu : Undisturbed fuel ops w l.first)
    (hn : steps ops ≤ l.first.length) : currents fuel ops w = l.first.take (steps ops) := by
  induction ops generalizing w l with
  | nil => rfl
  | cons o os ih =>
    by_cases hst : o = .step
    · subst hst
      simp only [Undisturbed] at hu
      simp only [steps] at hn ⊢
      simp only [currents]
      cases hl : l.first with
      | nil => rw [hl] at hn; simp at hn
      | cons c rest =>
        obtain ⟨w', hw⟩ := hu.1.1.1
        have ht := C08_turn h hl hw
        have hnext : (l.next .step (exec fuel .step w).world.status).first = rest := by simp only [Line.next, hl]
        have := ih (Turns.op fuel .step h hu.1) (by rw [hnext]; rw [hl] at hu; exact hu.2) (by rw [hnext]; rw [hl] at hn; simpa using hn)
        rw [this, hnext, hw]
        simp only [R.world, List.take_succ_cons]
        rw [ht.1]
    · have hu' : NoSkip fuel w o ∧ (∀ c ∈ l.first, ¬ o.touches w c) ∧ Undisturbed fuel os (exec fuel o w).world l.first := by
        cases o <;> first | exact hu | exact absurd rfl hst
      have hst' : steps (o :: os) = steps os := by cases o <;> first | rfl | exact absurd rfl hst
      have hcu : currents fuel (o :: os) w = currents fuel os (exec fuel o w).world := by cases o <;> first | rfl | exact absurd rfl hst
      rw [hst'] at hn ⊢
      rw [hcu]
      obtain ⟨w', hw⟩ := hu'.1.1.1
      have fz := (exec_frozen h.reach.good hu'.1.1 hst hw).2.2.1
      have hnext : (l.next o (exec fuel o w).world.status).first = l.first := by
        have hf : ∀ c ∈ l.first, w'.status c = .standby := by
          intro c hc
          have hs := (C08_nobody_forgotten h).1 c |>.2 (List.mem_append_left _ hc)
          obtain ⟨k, hk⟩ := fz c (hu'.2.1 c hc) (h.reach.good.idle c (by simp) (by rw [hs]; simp [Status.idle]))
          simp only [World.status, hk]; exact hs
        have gen : l.first.filter (fun c => (exec fuel o w).world.status c == .standby) = l.first := by
          rw [List.filter_eq_self]
          intro c hc
          rw [hw]; simp [R.world, hf c hc]
        cases o <;> first | exact gen | exact absurd rfl hst | skip
        · rename_i c
          show l.first.filter (fun d => d != c) = l.first
          rw [List.filter_eq_self]
          intro d hd
          have := hu'.2.1 d hd
          simpa [Op.touches] using this
      have := ih (Turns.op fuel o h hu'.1) (by rw [hnext]; exact hu'.2.2) (by rw [hnext]; exact hn)
      rw [this, hnext]

/-! ## examples -/

/-- a check of `NoSkip` by evaluation -/
def noSkipb (fuel : Nat) (w : World) (o : Op) : Bool := calmb fuel w o && match o with
  | .create _ _ _ _ _ _ s => !s
  | _ => true

theorem noSkipb_spec {fuel w o} (h : noSkipb fuel w o = true) : NoSkip fuel w o := by
  simp only [noSkipb, Bool.and_eq_true] at h
  refine ⟨calmb_calm h.1, ?_⟩
  rintro c a d p u k rfl
  simp at h

/-- the line after a program, according to the specification -/
def follow (fuel : Nat) : List Op → World → Line → Line
  | [], _, l => l
  | o :: os, w, l => follow fuel os (exec fuel o w).world (l.next o (exec fuel o w).world.status)

def noSkipAll (fuel : Nat) : List Op → World → Bool
  | [], _ => true
  | o :: os, w => noSkipb fuel w o && noSkipAll fuel os (exec fuel o w).world

theorem turns_of (fuel : Nat) (ops : List Op) {w : World} {l : Line} (h : Turns w l) (hc : noSkipAll fuel ops w = true) :
    Turns (execAll fuel ops w) (follow fuel ops w l) := by
  induction ops generalizing w l with
  | nil => exact h
  | cons o os ih =>
    simp only [noSkipAll, Bool.and_eq_true] at hc
    exact ih (.op fuel o h (noSkipb_spec hc.1)) hc.2

/-- components 1, 2 and 3 go into standby (3 before 2), component 4 holds -/
def lineOps : List Op :=
  [.create 1 none (0 : Rat) (0 : Rat) false false false, .create 3 none (0 : Rat) (0 : Rat) false false false,
   .create 2 none (0 : Rat) (0 : Rat) false false false, .create 4 none (1 : Rat) (0 : Rat) false false false,
   .runStart (some (10 : Rat)) none ⊤ false false, .step, .standby 1, .step, .standby 3, .step, .standby 1, .step, .standby 2,
   .step, .standby 3, .step, .standby 1, .step]

/-- what they do then: 2 holds, 3 and 1 go into standby again, and 4 is interrupted by 3 -/
def turnOps : List Op :=
  [.step, .hold 2 (some (3 : Rat)) none (0 : Rat) false false 0, .step, .standby 3, .step, .standby 1]

/-- the order of the turns is the order of going into standby, and 4 gets its event first -/
example : (execAll 20 lineOps World.init).current = 4 ∧ (execAll 20 lineOps World.init).now = 1 ∧
    (follow 20 lineOps World.init ⟨[], []⟩).first = [2, 3, 1] ∧ currents 20 turnOps (execAll 20 lineOps World.init) = [2, 3, 1] ∧
    steps turnOps = 3 :=
  ⟨by decide +kernel, by decide +kernel, by decide +kernel, by decide +kernel, rfl⟩

/-- the hypotheses of the C08 theorems -/
example : Turns (execAll 20 lineOps World.init) (follow 20 lineOps World.init ⟨[], []⟩) ∧
    Undisturbed 20 turnOps (execAll 20 lineOps World.init) (follow 20 lineOps World.init ⟨[], []⟩).first := by
  refine ⟨turns_of 20 lineOps (.init fresh_init) (by decide +kernel), ?_⟩
  have : (follow 20 lineOps World.init ⟨[], []⟩).first = [2, 3, 1] := by decide +kernel
  rw [this]
  exact ⟨noSkipb_spec (by decide +kernel), noSkipb_spec (by decide +kernel), by simp [Op.touches], noSkipb_spec (by decide +kernel),
    noSkipb_spec (by decide +kernel), by simp [Op.touches], noSkipb_spec (by decide +kernel), noSkipb_spec (by decide +kernel),
    by simp [Op.touches], trivial⟩

/-- component 3 has `skip_standby` and goes into standby itself -/
def skipOps : List Op :=
  [.create 1 none (0 : Rat) (0 : Rat) false false false, .create 2 none (1 : Rat) (0 : Rat) false false false,
   .create 3 none (2 : Rat) (0 : Rat) false false true, .create 4 none (4 : Rat) (0 : Rat) false false false,
   .runStart (some (10 : Rat)) none ⊤ false false, .step, .standby 1, .step, .passivate 2, .step, .standby 1, .step, .standby 3, .step]

/-- C08 with `skip_standby`: component 1 is in standby, and all further events are processed without giving it a turn
(salabim.py:11168-11171 overwrites the list of pending standby components) -/
theorem C08_skip_counterexample : ∃ w : World, Reach Calm w ∧ w.status 1 = .standby ∧
    (∀ c ∈ currents 20 [.step, .passivate 3, .step, .passivate 4, .step] w, c ≠ 1) ∧
    (execAll 20 [.step, .passivate 3, .step, .passivate 4, .step] w).status 1 = .standby ∧
    (execAll 20 [.step, .passivate 3, .step, .passivate 4, .step] w).events = [] :=
  ⟨execAll 20 skipOps World.init, reach_calm _ (.init fresh_init) _ (by decide +kernel), by decide +kernel, by decide +kernel, by decide +kernel,
    by decide +kernel⟩

end Verif
