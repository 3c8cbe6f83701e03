import Verif.Props.Queues

/-!
# Claims about the rates of a queue (C82) and about comparing and searching queues (C83)
-/

namespace Verif
namespace Chain
open Queue (QR)

/-! ## C82 -/

/-- the number of components that came into the queue between two states -/
def came (q : QId) (w w' : PW) : Nat := ((order q w'.s).filter (fun c => decide (c ∉ order q w.s))).length

/-- the number of components that went out of the queue between two states -/
def went (q : QId) (w w' : PW) : Nat := ((order q w.s).filter (fun c => decide (c ∉ order q w'.s))).length

/-- a history of calls of which `ok` holds, with the numbers of arrivals at and departures from `q`, as seen from the members before and after each call -/
inductive Counted (q : QId) (ok : POp → Prop) (w : PW) : PW → Nat → Nat → Prop
  | refl : Counted q ok w w 0 0
  | step {w1 w2 a d} (o e) : Counted q ok w w1 a d → ok o → PStep w1 o w2 e → Counted q ok w w2 (a + came q w1 w2) (d + went q w1 w2)

/-- anything but `arrival_rate(reset=True)` of `q` -/
def KeepsArrivals (q : QId) : POp → Prop
  | .resetRates q' a _ => q' = q → a = false
  | _ => True

/-- anything but `departure_rate(reset=True)` of `q` -/
def KeepsDepartures (q : QId) : POp → Prop
  | .resetRates q' _ d => q' = q → d = false
  | _ => True

theorem Counted.reach {q ok w w' a d} (h : PReach w) (h' : Counted q ok w w' a d) : PReach w' := by
  induction h' with
  | refl => exact h
  | step o e _ _ hs ih => exact .step o e ih hs

theorem step_live {w o w' e q} (hs : PStep w o w' e) (hq : q ∈ w.live) : q ∈ w'.live := by
  cases hs with
  | create => exact List.mem_cons_of_mem _ hq
  | createCopy => exact List.mem_cons_of_mem _ hq
  | tick => exact hq
  | op => exact hq
  | raise => exact hq

theorem Counted.live {q ok w w' a d} (h' : Counted q ok w w' a d) {p} (hq : p ∈ w.live) : p ∈ w'.live := by
  induction h' with
  | refl => exact hq
  | step o e _ _ hs ih => exact step_live hs ih

theorem filter_out {l l' : List CId} (h : ∀ c ∈ l, c ∈ l') : l.filter (fun c => decide (c ∉ l')) = [] := by
  rw [List.filter_eq_nil_iff]; intro c hc; simpa using h c hc

theorem filter_mid {l1 l2 l' : List CId} {x : CId} (h1 : ∀ c ∈ l1, c ∈ l') (h2 : ∀ c ∈ l2, c ∈ l') (hx : x ∉ l') :
    ((l1 ++ x :: l2).filter (fun c => decide (c ∉ l'))).length = 1 := by
  rw [List.filter_append, List.filter_cons, filter_out h1, filter_out h2]; simp [hx]

/-- one call on the queue: what is counted is what comes and goes -/
theorem lop_count {o : POp} {t : Rat} {x x' : Queue} (hn : (x.mem.map QMem.c).Nodup) (h : lop o t x = .ok x') (hr : ∀ q a d, o ≠ .resetRates q a d) :
    (x'.arrivals = x.arrivals + ((x'.mem.map QMem.c).filter (fun c => decide (c ∉ x.mem.map QMem.c))).length ∧ x'.arrivalsT0 = x.arrivalsT0) ∧
    (x'.departures = x.departures + ((x.mem.map QMem.c).filter (fun c => decide (c ∉ x'.mem.map QMem.c))).length ∧ x'.departuresT0 = x.departuresT0) := by
  have same : ∀ {y : Queue}, y.arrivals = x.arrivals → y.arrivalsT0 = x.arrivalsT0 → y.departures = x.departures → y.departuresT0 = x.departuresT0 →
      (∀ c, c ∈ y.mem.map QMem.c ↔ c ∈ x.mem.map QMem.c) →
      (y.arrivals = x.arrivals + ((y.mem.map QMem.c).filter (fun c => decide (c ∉ x.mem.map QMem.c))).length ∧ y.arrivalsT0 = x.arrivalsT0) ∧
      (y.departures = x.departures + ((x.mem.map QMem.c).filter (fun c => decide (c ∉ y.mem.map QMem.c))).length ∧ y.departuresT0 = x.departuresT0) := by
    intro y h1 h2 h3 h4 h5
    rw [filter_out fun c hc => (h5 c).1 hc, filter_out fun c hc => (h5 c).2 hc]
    exact ⟨⟨by simpa using h1, h2⟩, by simpa using h3, h4⟩
  have hent : ∀ {c l1 l2 y}, Queue.Entered t x c x' l1 l2 y →
      (x'.arrivals = x.arrivals + ((x'.mem.map QMem.c).filter (fun c => decide (c ∉ x.mem.map QMem.c))).length ∧ x'.arrivalsT0 = x.arrivalsT0) ∧
      (x'.departures = x.departures + ((x.mem.map QMem.c).filter (fun c => decide (c ∉ x'.mem.map QMem.c))).length ∧ x'.departuresT0 = x.departuresT0) := by
    intro c l1 l2 y he
    have hx : x'.mem.map QMem.c = l1.map QMem.c ++ y.c :: l2.map QMem.c := by rw [he.eq]; simp
    have hm : x.mem.map QMem.c = l1.map QMem.c ++ l2.map QMem.c := by rw [he.mem]; simp
    have hy : y.c ∉ x.mem.map QMem.c := by
      rw [he.xc]; intro hc; obtain ⟨m, h1, h2⟩ := List.mem_map.1 hc; exact he.new m h1 h2
    have e1 : ((x'.mem.map QMem.c).filter (fun c => decide (c ∉ x.mem.map QMem.c))).length = 1 := by
      rw [hx]; exact filter_mid (fun c hc => by rw [hm]; exact List.mem_append_left _ hc) (fun c hc => by rw [hm]; exact List.mem_append_right _ hc) hy
    have e2 : (x.mem.map QMem.c).filter (fun c => decide (c ∉ x'.mem.map QMem.c)) = [] := by
      refine filter_out fun c hc => ?_
      rw [hm] at hc; rw [hx]; rw [List.mem_append] at hc; rw [List.mem_append, List.mem_cons]; tauto
    rw [e1, e2, he.eq]
    exact ⟨⟨rfl, rfl⟩, by simp, rfl⟩
  cases o with
  | resetRates q a d => exact absurd rfl (hr q a d)
  | enter c => obtain ⟨l1, l2, y, he, _⟩ := Queue.enter_ok h; exact hent he
  | enterAtHead c => obtain ⟨l1, l2, y, he, _⟩ := Queue.enterAtHead_ok h; exact hent he
  | enterSorted c _ p => obtain ⟨l1, l2, y, he, _⟩ := Queue.enterSorted_ok h; exact hent he
  | enterInFrontOf c _ p => obtain ⟨l1, l2, y, m, he, _⟩ := Queue.enterInFrontOf_ok h; exact hent he
  | enterBehind c _ p => obtain ⟨l1, l2, y, m, he, _⟩ := Queue.enterBehind_ok h; exact hent he
  | insertAt c _ i => obtain ⟨_, _, y, he⟩ := Queue.insertAt_ok h; exact hent he
  | append c _ p => exact hent (Queue.append_ok h)
  | leave c =>
    obtain ⟨l1, l2, y, he⟩ := Queue.leave_ok h
    have hm : x.mem.map QMem.c = l1.map QMem.c ++ y.c :: l2.map QMem.c := by rw [he.mem]; simp
    have hx : x'.mem.map QMem.c = l1.map QMem.c ++ l2.map QMem.c := by rw [he.eq]; simp
    have hy : y.c ∉ x'.mem.map QMem.c := by
      rw [hm] at hn
      rw [hx]; exact (List.nodup_cons.1 (List.nodup_middle.1 hn)).1
    have e1 : ((x.mem.map QMem.c).filter (fun c => decide (c ∉ x'.mem.map QMem.c))).length = 1 := by
      rw [hm]; exact filter_mid (fun c hc => by rw [hx]; exact List.mem_append_left _ hc) (fun c hc => by rw [hx]; exact List.mem_append_right _ hc) hy
    have e2 : (x'.mem.map QMem.c).filter (fun c => decide (c ∉ x.mem.map QMem.c)) = [] := by
      refine filter_out fun c hc => ?_
      rw [hx] at hc; rw [hm]; rw [List.mem_append] at hc; rw [List.mem_append, List.mem_cons]; tauto
    rw [e1, e2, he.eq]
    exact ⟨⟨by simp, rfl⟩, rfl, rfl⟩
  | setPriority c _ p =>
    rcases Queue.setPriority_ok h with ⟨rfl, _⟩ | ⟨k1, k2, l1, l2, y, he⟩
    · exact same rfl rfl rfl rfl fun _ => Iff.rfl
    · have e : x'.mem.map QMem.c = l1.map QMem.c ++ y.c :: l2.map QMem.c := by rw [he.eq]; simp
      have e' : x.mem.map QMem.c = k1.map QMem.c ++ y.c :: k2.map QMem.c := by rw [he.mem]; simp
      have hs : ∀ c, c ∈ l1.map QMem.c ++ l2.map QMem.c ↔ c ∈ k1.map QMem.c ++ k2.map QMem.c := by
        intro c; rw [← List.map_append, ← List.map_append, he.split]
      refine same (by rw [he.eq]) (by rw [he.eq]) (by rw [he.eq]) (by rw [he.eq]) fun c => ?_
      have := hs c
      rw [List.mem_append, List.mem_append] at this
      rw [e, e', List.mem_append, List.mem_append, List.mem_cons, List.mem_cons]; tauto
  | setCapacity _ k => simp only [lop, QR.ok.injEq] at h; rw [← h]; exact same rfl rfl rfl rfl fun _ => Iff.rfl
  | _ => simp only [lop, QR.ok.injEq] at h; rw [← h]; exact same rfl rfl rfl rfl fun _ => Iff.rfl

theorem nodup_order {w q} (h : PReach w) (hq : q ∈ w.live) : (order q w.s).Nodup := by
  obtain ⟨ids, hr, _, _⟩ := h.rep
  exact hr.order_nodup hq

theorem count_arrivals {q w w' a d} (h : PReach w) (hq : q ∈ w.live) (hc : Counted q (KeepsArrivals q) w w' a d) :
    (view q w'.s).arrivals = (view q w.s).arrivals + a ∧ (view q w'.s).arrivalsT0 = (view q w.s).arrivalsT0 := by
  induction hc with
  | refl => simp
  | @step w1 w2 a d o e hc ho hs ih =>
    have h1 := hc.reach h
    have hq1 := hc.live hq
    have same : view q w2.s = view q w1.s → came q w1 w2 = 0 := by
      intro hv
      have : order q w2.s = order q w1.s := congrArg (fun x : Queue => x.mem.map QMem.c) hv
      unfold came; rw [this, filter_out fun _ h => h]; rfl
    rcases step_view h1 hs hq1 with hv | ⟨_, hoq, hl⟩
    · rw [same hv, hv]; simpa using ih
    · by_cases hr : ∀ p x y, o ≠ .resetRates p x y
      · obtain ⟨⟨e1, e2⟩, _⟩ := lop_count (x := view q w1.s) (nodup_order h1 hq1) hl hr
        rw [e1, e2, ih.1, ih.2]
        refine ⟨?_, rfl⟩
        have : ((((view q w2.s).mem.map QMem.c).filter (fun c => decide (c ∉ (view q w1.s).mem.map QMem.c))).length : Int) = (came q w1 w2 : Int) := rfl
        rw [this]; push_cast; ring
      · push Not at hr
        obtain ⟨p, x, y, rfl⟩ := hr
        have hp : p = q := by simpa [POp.queue] using hoq
        have hx : x = false := ho hp
        subst hx
        simp only [lop, QR.ok.injEq] at hl
        have e1 := congrArg Queue.arrivals hl
        have e2 := congrArg Queue.arrivalsT0 hl
        have e3 : order q w2.s = order q w1.s := congrArg (fun x : Queue => x.mem.map QMem.c) hl.symm
        have : came q w1 w2 = 0 := by unfold came; rw [e3, filter_out fun _ h => h]; rfl
        rw [this, ← e1, ← e2]; simpa [Queue.resetRates] using ih

theorem count_departures {q w w' a d} (h : PReach w) (hq : q ∈ w.live) (hc : Counted q (KeepsDepartures q) w w' a d) :
    (view q w'.s).departures = (view q w.s).departures + d ∧ (view q w'.s).departuresT0 = (view q w.s).departuresT0 := by
  induction hc with
  | refl => simp
  | @step w1 w2 a d o e hc ho hs ih =>
    have h1 := hc.reach h
    have hq1 := hc.live hq
    have same : view q w2.s = view q w1.s → went q w1 w2 = 0 := by
      intro hv
      have : order q w2.s = order q w1.s := congrArg (fun x : Queue => x.mem.map QMem.c) hv
      unfold went; rw [this, filter_out fun _ h => h]; rfl
    rcases step_view h1 hs hq1 with hv | ⟨_, hoq, hl⟩
    · rw [same hv, hv]; simpa using ih
    · by_cases hr : ∀ p x y, o ≠ .resetRates p x y
      · obtain ⟨_, e1, e2⟩ := lop_count (x := view q w1.s) (nodup_order h1 hq1) hl hr
        rw [e1, e2, ih.1, ih.2]
        refine ⟨?_, rfl⟩
        have : ((((view q w1.s).mem.map QMem.c).filter (fun c => decide (c ∉ (view q w2.s).mem.map QMem.c))).length : Int) = (went q w1 w2 : Int) := rfl
        rw [this]; push_cast; ring
      · push Not at hr
        obtain ⟨p, x, y, rfl⟩ := hr
        have hp : p = q := by simpa [POp.queue] using hoq
        have hy : y = false := ho hp
        subst hy
        simp only [lop, QR.ok.injEq] at hl
        have e1 := congrArg Queue.departures hl
        have e2 := congrArg Queue.departuresT0 hl
        have e3 : order q w2.s = order q w1.s := congrArg (fun x : Queue => x.mem.map QMem.c) hl.symm
        have : went q w1 w2 = 0 := by unfold went; rw [e3, filter_out fun _ h => h]; rfl
        rw [this, ← e1, ← e2]; simpa [Queue.resetRates] using ih

/-- the registration of the arrivals at `q` starts with this call: the queue is created, or `arrival_rate(reset=True)` is called -/
def StartsArrivals (q : QId) : POp → Prop
  | .newQueue p _ | .newCopy p _ => p = q
  | .resetRates p a _ => p = q ∧ a = true
  | _ => False

/-- the registration of the departures from `q` starts with this call -/
def StartsDepartures (q : QId) : POp → Prop
  | .newQueue p _ | .newCopy p _ => p = q
  | .resetRates p _ d => p = q ∧ d = true
  | _ => False

theorem starts_arrivals {q w o w1} (h : PReach w) (hs : PStep w o w1 none) (ho : StartsArrivals q o) :
    q ∈ w1.live ∧ (w1.s.queues q).arrivals = 0 ∧ (w1.s.queues q).arrivalsT0 = w1.s.now := by
  cases hs with
  | create p cap => cases ho; exact ⟨List.mem_cons_self .., by simp [newQueue, setQ_queues], by simp [newQueue, setQ_queues]⟩
  | createCopy p cap => cases ho; exact ⟨List.mem_cons_self .., by simp [newCopy, newQueue, setQ_queues], by simp [newCopy, newQueue, setQ_queues]⟩
  | tick => cases ho
  | op o p s' hoq hp hx =>
    cases o with
    | resetRates q' a d =>
      obtain ⟨rfl, rfl⟩ := ho
      simp only [POp.queue, Option.some.injEq] at hoq
      subst hoq
      simp only [prun1, PR.ok.injEq] at hx
      subst hx
      exact ⟨hp, by simp [resetRates, setQ_queues], by simp [resetRates, setQ_queues]⟩
    | newQueue => cases hoq
    | newCopy => cases hoq
    | _ => cases ho

theorem starts_departures {q w o w1} (h : PReach w) (hs : PStep w o w1 none) (ho : StartsDepartures q o) :
    q ∈ w1.live ∧ (w1.s.queues q).departures = 0 ∧ (w1.s.queues q).departuresT0 = w1.s.now := by
  cases hs with
  | create p cap => cases ho; exact ⟨List.mem_cons_self .., by simp [newQueue, setQ_queues], by simp [newQueue, setQ_queues]⟩
  | createCopy p cap => cases ho; exact ⟨List.mem_cons_self .., by simp [newCopy, newQueue, setQ_queues], by simp [newCopy, newQueue, setQ_queues]⟩
  | tick => cases ho
  | op o p s' hoq hp hx =>
    cases o with
    | resetRates q' a d =>
      obtain ⟨rfl, rfl⟩ := ho
      simp only [POp.queue, Option.some.injEq] at hoq
      subst hoq
      simp only [prun1, PR.ok.injEq] at hx
      subst hx
      exact ⟨hp, by simp [resetRates, setQ_queues], by simp [resetRates, setQ_queues]⟩
    | newQueue => cases hoq
    | newCopy => cases hoq
    | _ => cases ho

/-- C82: `arrival_rate()` is the number of components that have come into the queue since it was created or since the last `arrival_rate(reset=True)`, divided by
the time that has passed since then (nan if no time has passed) -/
theorem C82_arrival_rate {q w o w1 w2 a d} (h : PReach w) (hs : PStep w o w1 none) (ho : StartsArrivals q o) (hc : Counted q (KeepsArrivals q) w1 w2 a d) :
    (w2.s.now = w1.s.now → arrivalRate q w2.s = none) ∧ (w2.s.now ≠ w1.s.now → arrivalRate q w2.s = some (a / (w2.s.now - w1.s.now))) := by
  obtain ⟨hq, h1, h2⟩ := starts_arrivals h hs ho
  obtain ⟨h3, h4⟩ := count_arrivals (.step o none h hs) hq hc
  have h3 : (w2.s.queues q).arrivals = (w1.s.queues q).arrivals + a := h3
  have h4 : (w2.s.queues q).arrivalsT0 = (w1.s.queues q).arrivalsT0 := h4
  unfold arrivalRate
  simp only [h3, h4, h1, h2]
  refine ⟨fun e => by simp [e], fun e => ?_⟩
  rw [if_neg (sub_ne_zero.2 e)]; simp

/-- C82: the same for `departure_rate()` -/
theorem C82_departure_rate {q w o w1 w2 a d} (h : PReach w) (hs : PStep w o w1 none) (ho : StartsDepartures q o) (hc : Counted q (KeepsDepartures q) w1 w2 a d) :
    (w2.s.now = w1.s.now → departureRate q w2.s = none) ∧ (w2.s.now ≠ w1.s.now → departureRate q w2.s = some (d / (w2.s.now - w1.s.now))) := by
  obtain ⟨hq, h1, h2⟩ := starts_departures h hs ho
  obtain ⟨h3, h4⟩ := count_departures (.step o none h hs) hq hc
  have h3 : (w2.s.queues q).departures = (w1.s.queues q).departures + d := h3
  have h4 : (w2.s.queues q).departuresT0 = (w1.s.queues q).departuresT0 := h4
  unfold departureRate
  simp only [h3, h4, h1, h2]
  refine ⟨fun e => by simp [e], fun e => ?_⟩
  rw [if_neg (sub_ne_zero.2 e)]; simp

/-- C82: resetting the one leaves the other as it is -/
theorem C82_apart {q w w'} (h : PReach w) (b : Bool) :
    (PStep w (.resetRates q b false) w' none → departureRate q w'.s = departureRate q w.s) ∧
    (PStep w (.resetRates q false b) w' none → arrivalRate q w'.s = arrivalRate q w.s) := by
  constructor
  · intro hs
    cases hs with
    | op o p s' hoq hp hx =>
      simp only [prun1, PR.ok.injEq] at hx
      subst hx
      simp [departureRate, resetRates, setQ_queues]
  · intro hs
    cases hs with
    | op o p s' hoq hp hx =>
      simp only [prun1, PR.ok.injEq] at hx
      subst hx
      simp [arrivalRate, resetRates, setQ_queues]

theorem pexec_counted {q : QId} {ok : POp → Prop} : ∀ (os : List POp) {w w1 w2 : PW} {a d : Nat}, (∀ o ∈ os, ok o) → Counted q ok w w1 a d → pexec os w1 = some w2 →
    ∃ a d, Counted q ok w w2 a d
  | [], _, _, _, _, _, _, hc, h => by cases h; exact ⟨_, _, hc⟩
  | o :: os, _, _, _, _, _, hk, hc, h => by
    simp only [pexec, Option.bind_eq_some_iff] at h
    obtain ⟨w3, h1, h2⟩ := h
    obtain ⟨e, he⟩ := pexec1_step h1
    exact pexec_counted os (fun o ho => hk o (List.mem_cons_of_mem _ ho)) (.step o e hc (hk o (List.mem_cons_self ..)) he) h2

/-- a queue, and someone who enters at 1; it is 3 -/
def rateW0 : PW := (pexec [.newQueue 0 ⊤, .tick 1, .enter 10 0, .tick 2] .empty).getD .empty
/-- then `arrival_rate(reset=True)` -/
def rateW1 : PW := ⟨resetRates 0 true false rateW0.s, rateW0.live⟩
/-- then two others enter, an attempt to enter once more is refused, and at 7 someone leaves -/
def rateW2 : PW := (pexec [.enterSorted 11 0 3, .tick 4, .enter 12 0, .enter 11 0, .leave 10 0] rateW1).getD .empty

/-- non-vacuity of C82: a history with arrivals and departures before and after a reset of the arrivals only -/
example : PReach rateW0 ∧ PStep rateW0 (.resetRates 0 true false) rateW1 none ∧ StartsArrivals 0 (.resetRates 0 true false) ∧
    (∃ a d, Counted 0 (KeepsArrivals 0) rateW1 rateW2 a d) ∧ rateW2.s.now - rateW1.s.now = 4 ∧
    arrivalRate 0 rateW2.s = some (2 / 4) ∧ departureRate 0 rateW2.s = some (1 / 7) ∧ order 0 rateW2.s = [11, 12] := by
  refine ⟨?_, .op _ 0 _ rfl (by decide +kernel) rfl, ⟨rfl, rfl⟩, ?_, by decide +kernel, by decide +kernel, by decide +kernel, by decide +kernel⟩
  · have h : (pexec [.newQueue 0 ⊤, .tick 1, .enter 10 0, .tick 2] .empty).isSome = true := by decide +kernel
    obtain ⟨w, hw⟩ := Option.isSome_iff_exists.1 h
    have : rateW0 = w := by simp [rateW0, hw]
    rw [this]; exact pexec_reach .empty hw
  · have h : (pexec [.enterSorted 11 0 3, .tick 4, .enter 12 0, .enter 11 0, .leave 10 0] rateW1).isSome = true := by decide +kernel
    obtain ⟨w, hw⟩ := Option.isSome_iff_exists.1 h
    have : rateW2 = w := by simp [rateW2, hw]
    rw [this]
    exact pexec_counted _ (by simp [KeepsArrivals]) .refl hw

/-! ## C83 -/

/-- `op(set(self), set(other))` (salabim.py:5273-5276): both queues are iterated over; equality and inclusion of sets. `none`: an iteration doesn't come to an end -/
def compare (op : Finset CId → Finset CId → Bool) (q p : QId) (f : Nat) (s : PS) : Option Bool :=
  (collect f (iterNew q false s).1 (iterNew q false s).2).bind fun l => (collect f (iterNew p false s).1 (iterNew p false s).2).map fun m => op l.toFinset m.toFinset

/-- C83: two queues are equal if the same components are in them, whatever their order; `<=` means that all that are in the one are in the other, and `<` that there is
one more in the other -/
theorem C83_compare {w} (h : PReach w) {q p} (hq : q ∈ w.live) (hp : p ∈ w.live) {f : Nat} (hf : (order q w.s).length < f) (hg : (order p w.s).length < f) :
    (∃ b, compare (fun x y => decide (x = y)) q p f w.s = some b ∧ (b = true ↔ ∀ c, c ∈ order q w.s ↔ c ∈ order p w.s)) ∧
    (∃ b, compare (fun x y => decide (x ⊆ y)) q p f w.s = some b ∧ (b = true ↔ ∀ c ∈ order q w.s, c ∈ order p w.s)) ∧
    (∃ b, compare (fun x y => decide (x ⊂ y)) q p f w.s = some b ∧
      (b = true ↔ (∀ c ∈ order q w.s, c ∈ order p w.s) ∧ ∃ c ∈ order p w.s, c ∉ order q w.s)) := by
  have hl : ∀ op, compare op q p f w.s = some (op (order q w.s).toFinset (order p w.s).toFinset) := by
    intro op
    unfold compare
    rw [h.collect hq false f hf, h.collect hp false f hg]
    rfl
  refine ⟨⟨_, hl _, ?_⟩, ⟨_, hl _, ?_⟩, ⟨_, hl _, ?_⟩⟩
  · rw [decide_eq_true_eq, Finset.ext_iff]; simp
  · rw [decide_eq_true_eq]; constructor
    · intro hs c hc; simpa using hs (by simpa using hc : c ∈ (order q w.s).toFinset)
    · intro hs c hc; simpa using hs c (by simpa using hc)
  · rw [decide_eq_true_eq, Finset.ssubset_iff_subset_ne, Finset.subset_iff]
    simp only [List.mem_toFinset]
    constructor
    · rintro ⟨h1, h2⟩
      refine ⟨h1, ?_⟩
      by_contra hx
      push Not at hx
      exact h2 (Finset.ext fun c => by simpa using ⟨h1 (x := c), hx c⟩)
    · rintro ⟨h1, c, h2, h3⟩
      refine ⟨h1, fun e => h3 ?_⟩
      have : c ∈ (order q w.s).toFinset := by rw [e]; simpa using h2
      simpa using this

theorem nameLoop_spec {s live ids} (h : Rep s live ids) {q} (hq : live q) (name : CId → String) (txt : String) : ∀ (l2 l1 : List NId) (o : List CId) (m2 : NId) (B : List NId) (f : Nat),
    ids q = l1 ++ l2 → l2 ++ [(s.queues q).tail] = m2 :: B → l2.map (fun n => (s.nodes n).comp) = o.map some → l2.length < f →
    nameLoop name txt s (s.queues q).tail f m2 = some (o.find? (fun c => name c == txt)) := by
  intro l2
  induction l2 with
  | nil =>
    intro l1 o m2 B f hi h2 ho hf
    obtain ⟨f, rfl⟩ : ∃ g, f = g + 1 := ⟨f - 1, by simp at hf; omega⟩
    have : m2 = (s.queues q).tail := (List.cons.inj h2).1.symm
    have hn : o = [] := by simpa using ho.symm
    unfold nameLoop
    rw [if_pos this, hn]; rfl
  | cons a l2 ih =>
    intro l1 o m2 B f hi h2 ho hf
    obtain ⟨f, rfl⟩ : ∃ g, f = g + 1 := ⟨f - 1, by simp at hf; omega⟩
    have ha : a = m2 := (List.cons.inj h2).1
    subst ha
    have hne : a ≠ (s.queues q).tail := by
      have hn := h.nodup q hq
      unfold ring at hn
      rw [List.nodup_cons, List.nodup_append] at hn
      intro hh
      exact hn.2.2.2 a (by rw [hi]; simp) a (by simp [hh]) rfl
    cases o with
    | nil => simp at ho
    | cons c o =>
      simp only [List.map_cons, List.cons.injEq] at ho
      unfold nameLoop
      rw [if_neg hne, ho.1]
      simp only
      by_cases hc : name c = txt
      · rw [if_pos hc]; simp [hc]
      · rw [if_neg hc]
        have hi' : ids q = (l1 ++ [a]) ++ l2 := by simpa using hi
        obtain ⟨m', B', h2'⟩ := cons_of_snoc (s.queues q).tail l2
        have hl := (h.toWf.link hq (l1 := l1 ++ [a]) (A := (s.queues q).head :: l1) (m1 := a) hi' (by simp) h2').1
        rw [hl]
        simp only
        rw [ih (l1 ++ [a]) o m' B' f hi' h2' ho.2 (by simpa using hf), List.find?_cons_of_neg (by simpa using hc)]

/-- C83: `component_with_name` gives the first component in the queue that has the name, None if there is none -/
theorem C83_component_with_name {w} (h : PReach w) {q} (hq : q ∈ w.live) (name : CId → String) (txt : String) :
    (∀ l1 c l2, order q w.s = l1 ++ c :: l2 → name c = txt → (∀ x ∈ l1, name x ≠ txt) → componentWithName name txt q w.s = some (some c)) ∧
    ((∀ x ∈ order q w.s, name x ≠ txt) → componentWithName name txt q w.s = some none) := by
  obtain ⟨ids, hr, _, _⟩ := h.rep
  have key : componentWithName name txt q w.s = some ((order q w.s).find? (fun c => name c == txt)) := by
    obtain ⟨m, B, hm⟩ := cons_of_snoc (w.s.queues q).tail (ids q)
    unfold componentWithName
    rw [hr.toWf.head_succ hq hm, Option.bind_some]
    exact nameLoop_spec hr hq name txt (ids q) [] _ m B _ rfl hm (hr.order_comp hq) (by have := hr.toWf.fuel hq; omega)
  rw [key]
  constructor
  · intro l1 c l2 ho hc hx
    rw [ho, List.find?_append, List.find?_eq_none.2 (by simpa using hx), List.find?_cons_of_pos (by simpa using hc)]; rfl
  · intro hx
    rw [List.find?_eq_none.2 (by simpa using hx)]

/-- non-vacuity of C83: [13, 14, 11, 12] and [10, 11] are not equal, neither is part of the other -/
example : compare (fun x y => decide (x = y)) 0 1 9 demoQW.s = some false ∧ compare (fun x y => decide (x ⊆ y)) 1 0 9 demoQW.s = some false ∧
    componentWithName (fun c => if c = 11 ∨ c = 14 then "b" else "a") "b" 0 demoQW.s = some (some 14) := by decide +kernel

end Chain
end Verif
