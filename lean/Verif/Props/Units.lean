import Verif.Scale
import Verif.Props.Reset
import Verif.Program

/-!
# The unit of time doesn't matter (C91)

A model in minutes and the same model in seconds: all times that are given in calls are multiplied by 60. Everything happens in the same order and at the same
moments.
-/

namespace Verif
open World

/-- specification: `t'` is `k` times `t`; inf stays inf -/
def Times (k : Rat) (t t' : ETime) : Prop := (t = ⊤ ∧ t' = ⊤) ∨ ∃ a : Rat, t = (a : ETime) ∧ t' = ((k * a : Rat) : ETime)

/-- specification: the log `l'` has the same values as `l`, at `k` times the moments -/
def SameLog {α : Type} (k : Rat) (l l' : List (Rat × α)) : Prop := l'.map Prod.snd = l.map Prod.snd ∧ l'.map Prod.fst = l.map (fun p => k * p.1)

/-- `arrival_rate()` (salabim.py:4581-4585); none: nan -/
def arrivalRateOf (w : World) (q : QRef) : Option Rat :=
  if w.now - (w.queues q).arrivalsT0 = 0 then none else some ((w.queues q).arrivals / (w.now - (w.queues q).arrivalsT0))

/-- specification: `w'` is the same as `w`, with everything that has to do with time `k` times as much -/
structure InUnit (k : Rat) (w w' : World) : Prop where
  now : presentedNow w' = k * presentedNow w
  scheduled : ∀ c, Times k (scheduledTime w c) (scheduledTime w' c)
  remaining : ∀ c, Times k (remainingDuration w c) (remainingDuration w' c)
  entered : ∀ c q, enterTime w' c q = (enterTime w c q).map (k * ·)
  events : w'.events.map (fun e => (e.c, e.prio, e.seq, e.ret)) = w.events.map (fun e => (e.c, e.prio, e.seq, e.ret)) ∧
    w'.events.map (fun e => e.t - w'.now) = w.events.map (fun e => k * (e.t - w.now))
  stays : ∀ q, (w'.queues q).stays = (w.queues q).stays.map (k * ·)
  lengths : ∀ q, SameLog k (w.queues q).lens (w'.queues q).lens
  arrivals : ∀ q, (w'.queues q).arrivals = (w.queues q).arrivals ∧ (w'.queues q).departures = (w.queues q).departures
  members : ∀ q, (w'.queues q).mem.map (fun m => (m.c, m.prio)) = (w.queues q).mem.map (fun m => (m.c, m.prio))
  current : w'.current = w.current
  status : ∀ c, w'.status c = w.status c
  failed : ∀ c, (w'.comps c).failed = (w.comps c).failed
  claims : ∀ c, (w'.comps c).claims = (w.comps c).claims ∧ (w'.comps c).requests = (w.comps c).requests
  items : ∀ c, (w'.comps c).fromItem = (w.comps c).fromItem
  claimed : ∀ r, (w'.res r).claimed = (w.res r).claimed ∧ (w'.res r).cap = (w.res r).cap
  resourceLogs : ∀ r, SameLog k (w.res r).log.claimed (w'.res r).log.claimed ∧ SameLog k (w.res r).log.avail (w'.res r).log.avail ∧
    SameLog k (w.res r).log.occ (w'.res r).log.occ ∧ SameLog k (w.res r).log.cap (w'.res r).log.cap
  states : w'.states = w.states
  stateLogs : ∀ s, SameLog k (w.slog s) (w'.slog s)
  turns : w'.standby = w.standby ∧ w'.pending = w.pending
  over : w'.atInf = w.atInf

theorem times_esc (k : Rat) (t : ETime) : Times k t (esc k t) := by
  cases t with
  | none => exact .inl ⟨rfl, rfl⟩
  | some a => exact .inr ⟨a, rfl, rfl⟩

theorem sameLog_sc {α : Type} (k : Rat) (l : List (Rat × α)) : SameLog k l (logSc k l) := by
  unfold SameLog logSc
  rw [List.map_map, List.map_map]
  exact ⟨rfl, rfl⟩

theorem inUnit_sc (k : Rat) (w : World) : InUnit k w (w.sc k) where
  now := by simp only [presentedNow, su_now, su_offset]; ring
  scheduled c := by
    have : scheduledTime (w.sc k) c = esc k (scheduledTime w c) := by simp only [scheduledTime, su_comps, csc_schedTime, su_offset, esc_subQ]
    rw [this]; exact times_esc _ _
  remaining c := by
    have : remainingDuration (w.sc k) c = esc k (remainingDuration w c) := by
      unfold remainingDuration
      by_cases h1 : w.status c = .passive ∨ w.status c = .interrupted
      · rw [if_pos h1, if_pos (show (w.sc k).status c = .passive ∨ (w.sc k).status c = .interrupted from h1)]; rfl
      · rw [if_neg h1, if_neg (show ¬ ((w.sc k).status c = .passive ∨ (w.sc k).status c = .interrupted) from h1)]
        by_cases h2 : w.status c = .scheduled ∨ w.status c = .waiting ∨ w.status c = .requesting
        · rw [if_pos h2, if_pos (show (w.sc k).status c = .scheduled ∨ (w.sc k).status c = .waiting ∨ (w.sc k).status c = .requesting from h2)]
          rw [su_comps, csc_schedTime, su_now, esc_subQ]
        · rw [if_neg h2, if_neg (show ¬ ((w.sc k).status c = .scheduled ∨ (w.sc k).status c = .waiting ∨ (w.sc k).status c = .requesting) from h2), esc_zero]
    rw [this]; exact times_esc _ _
  entered c q := by
    simp only [enterTime, su_queues, su_offset, Queue.find_sc, Option.map_map]
    congr 1; funext m; simp only [Function.comp, QMem.sc]; ring
  events := by
    rw [su_events, su_now, List.map_map, List.map_map]
    refine ⟨rfl, ?_⟩
    congr 1; funext e; simp only [Function.comp, Ev.sc]; ring
  stays _ := rfl
  lengths _ := sameLog_sc _ _
  arrivals _ := ⟨rfl, rfl⟩
  members q := by rw [su_queues, Queue.mem_sc, List.map_map]; rfl
  current := rfl
  status _ := rfl
  failed _ := rfl
  claims _ := ⟨rfl, rfl⟩
  items _ := rfl
  claimed _ := ⟨rfl, rfl⟩
  resourceLogs _ := ⟨sameLog_sc _ _, sameLog_sc _ _, sameLog_sc _ _, sameLog_sc _ _⟩
  states := rfl
  stateLogs _ := sameLog_sc _ _
  turns := ⟨rfl, rfl⟩
  over := rfl

/-! ## what follows for the statistics of a queue -/

theorem area_unit (k : Rat) (n n' : Rat) : ∀ (l l' : List (Rat × Nat)) (t0 v : Rat), SameLog k l l' → n' = k * n →
    Queue.area (k * t0) v l' n' = k * Queue.area t0 v l n
  | [], [], t0, v, _, h => by simp only [Queue.area, h]; ring
  | [], _ :: _, _, _, h, _ => by simp [SameLog] at h
  | _ :: _, [], _, _, h, _ => by simp [SameLog] at h
  | (t, a) :: l, (t', a') :: l', t0, v, h, hn => by
    simp only [SameLog, List.map_cons, List.cons.injEq] at h
    obtain ⟨⟨rfl, h1⟩, rfl, h2⟩ := h
    simp only [Queue.area, area_unit k n n' l l' t a' ⟨h1, h2⟩ hn]
    ring

theorem statistics_sc {k : Rat} (hk : 0 < k) (w : World) (q : QRef) (t0 v : Rat) :
    Queue.area (k * t0) v ((w.sc k).queues q).lens (w.sc k).now / ((w.sc k).now - k * t0) = Queue.area t0 v (w.queues q).lens w.now / (w.now - t0) ∧
    ((w.sc k).queues q).stays.sum / ((w.sc k).queues q).stays.length = k * ((w.queues q).stays.sum / (w.queues q).stays.length) ∧
    arrivalRateOf (w.sc k) q = (arrivalRateOf w q).map (· / k) := by
  have h := inUnit_sc k w
  refine ⟨?_, ?_, ?_⟩
  · rw [su_now, area_unit k w.now (k * w.now) _ _ t0 v (h.lengths q) rfl, ← mul_sub, mul_div_mul_left _ _ hk.ne']
  · have hs : ∀ l : List Rat, (l.map (k * ·)).sum = k * l.sum := by
      intro l
      induction l with
      | nil => simp
      | cons a l ih => rw [List.map_cons, List.sum_cons, List.sum_cons, ih]; ring
    rw [h.stays q, List.length_map, hs, mul_div_assoc]
  · unfold arrivalRateOf
    have e : (w.sc k).now - ((w.sc k).queues q).arrivalsT0 = k * (w.now - (w.queues q).arrivalsT0) := by
      rw [mul_sub]; rfl
    rw [e, (h.arrivals q).1]
    by_cases hd : w.now - (w.queues q).arrivalsT0 = 0
    · rw [if_pos hd, if_pos (by rw [hd, mul_zero])]; rfl
    · rw [if_neg hd, if_neg (mul_ne_zero hk.ne' hd), Option.map_some, Option.some.injEq, div_div, mul_comm]

/-! ## C91 -/

/-- C91: two simulations that are the same but for the unit of time stay so, whatever calls are made (with the times in these calls in the right unit): the same
exceptions at every call, and after every call the same state but for the unit -/
theorem C91_unit {k : Rat} (hk : 0 < k) (fuel : Nat) (w : World) (os : List Op) (o : Op) :
    let v := execAll fuel os w
    let v' := execAll fuel (os.map (Op.scale k)) (w.sc k)
    InUnit k v v' ∧ (exec fuel (o.scale k) v').error? = (exec fuel o v).error? ∧ InUnit k (exec fuel o v).world (exec fuel (o.scale k) v').world := by
  simp only [execAll_sc hk, exec_sc hk, map_error, map_world]
  exact ⟨inUnit_sc _ _, trivial, inUnit_sc _ _⟩

/-- C91: for the statistics: the mean length of a queue over the time since `t0` (when it was `v`) is the same, the mean length of stay is `k` times as much, and
the arrival rate is `k` times as small -/
theorem C91_statistics {k : Rat} (hk : 0 < k) (fuel : Nat) (w0 : World) (os : List Op) (q : QRef) (t0 v : Rat) :
    let w := execAll fuel os w0
    let w' := execAll fuel (os.map (Op.scale k)) (w0.sc k)
    Queue.area (k * t0) v (w'.queues q).lens w'.now / (w'.now - k * t0) = Queue.area t0 v (w.queues q).lens w.now / (w.now - t0) ∧
    (w'.queues q).stays.sum / (w'.queues q).stays.length = k * ((w.queues q).stays.sum / (w.queues q).stays.length) ∧
    arrivalRateOf w' q = (arrivalRateOf w q).map (· / k) := by
  simp only [execAll_sc hk]
  exact statistics_sc hk _ q t0 v

/-- a new environment is the same in all units -/
theorem fresh_sc {w : World} (h : Fresh w) (h0 : w.now = 0) (ho : w.offset = 0) (k : Rat) : w.sc k = w := by
  obtain ⟨now, offset, seq, events, standby, pending, current, main, endOnEmpty, atInf, comps, res, states, slog, queues⟩ := w
  simp only at h0 ho
  subst h0 ho
  unfold World.sc
  simp only [World.mk.injEq, mul_zero, true_and]
  refine ⟨?_, ?_, ?_, ?_, ?_⟩
  · rw [show events = [] from h.events]; rfl
  · funext c
    obtain ⟨b, hb⟩ := h.comps c
    simp only at hb
    rw [hb]
    simp only [Comp.sc, esc_top, esc_zero]
  · funext r
    have hl := h.log r
    simp only at hl
    have : (res r).log.sc k = (res r).log := by rw [hl]; simp [RLog.sc, RLog.start, logSc]
    show ({ res r with log := (res r).log.sc k } : Res) = res r
    rw [this]
  · funext s
    rw [show slog s = [(0, states s)] from h.slog s]
    simp [logSc]
  · funext q
    obtain ⟨c, hc⟩ := h.queues q
    simp only at hc
    rw [hc]
    simp [Queue.sc, logSc]

/-- C91: so a model in another unit, from the beginning on, is the same but for the unit -/
theorem C91_from_the_start {k : Rat} (hk : 0 < k) {w : World} (h : Fresh w) (h0 : w.now = 0) (ho : w.offset = 0) (fuel : Nat) (os : List Op) :
    InUnit k (execAll fuel os w) (execAll fuel (os.map (Op.scale k)) w) := by
  have := (C91_unit hk fuel w os .step).1
  rw [fresh_sc h h0 ho] at this
  exact this

/-! ## complete models with processes -/

/-- specification: the process is the same but for the unit of time: the same calls with all times multiplied, the same decisions after a look at the state;
what it remembers is the same, but for the unit of time (`M`) -/
inductive SameProg {μ : Type} (k : Rat) (M : μ → μ → Prop) : Prog μ → Prog μ → Prop
  | call (o) {p p' : Prog μ} : SameProg k M p p' → SameProg k M (.call o p) (.call (o.scale k) p')
  | look {f f' : World → Prog μ} : (∀ w, SameProg k M (f w) (f' (w.sc k))) → SameProg k M (.look f) (.look f')
  | stop {m m' : μ} : M m m' → SameProg k M (.stop m) (.stop m')

theorem SameProg.run {μ : Type} {k : Rat} (hk : 0 < k) {M : μ → μ → Prop} {p p' : Prog μ} (h : SameProg k M p p') (fuel : Nat) (w : World) :
    (p.run fuel w = none ∧ p'.run fuel (w.sc k) = none) ∨
    ∃ v m m', p.run fuel w = some (v, m) ∧ p'.run fuel (w.sc k) = some (v.sc k, m') ∧ M m m' := by
  induction h generalizing w with
  | call o _ ih =>
    have e := exec_sc hk fuel o w
    simp only [Prog.run]
    cases hx : exec fuel o w with
    | err er v => rw [hx] at e; rw [e]; exact .inl ⟨rfl, rfl⟩
    | ok v => rw [hx] at e; rw [e]; exact ih v
  | look _ ih => exact ih w w
  | stop hm => exact .inr ⟨w, _, _, rfl, rfl, hm⟩

/-- specification: two simulations under way that are the same but for the unit of time -/
structure SameShow {μ : Type} (k : Rat) (M : μ → μ → Prop) (x x' : Show μ) : Prop where
  w : x'.w = x.w.sc k
  mem : ∀ c, M (x.mem c) (x'.mem c)
  log : SameLog k x.log x'.log

theorem SameShow.turn {μ : Type} {k : Rat} (hk : 0 < k) {M : μ → μ → Prop} {pr pr' : CId → μ → Prog μ}
    (hp : ∀ c m m', M m m' → SameProg k M (pr c m) (pr' c m')) {x x' : Show μ} (h : SameShow k M x x') (fuel : Nat) :
    (Show.turn fuel pr x = none ∧ Show.turn fuel pr' x' = none) ∨
    ∃ y y', Show.turn fuel pr x = some y ∧ Show.turn fuel pr' x' = some y' ∧ SameShow k M y y' := by
  have e := su_step hk x.w
  unfold Show.turn
  rw [h.w]
  cases hx : step x.w with
  | err er v => rw [hx] at e; rw [e]; exact .inl ⟨rfl, rfl⟩
  | ok v =>
    rw [hx] at e; rw [e]
    simp only [map_ok, su_current]
    rcases (hp v.current _ _ (h.mem v.current)).run hk fuel v with ⟨e1, e2⟩ | ⟨u, m, m', e1, e2, e3⟩
    · rw [e1, e2]; exact .inl ⟨rfl, rfl⟩
    · rw [e1, e2]
      refine .inr ⟨_, _, rfl, rfl, rfl, fun c => ?_, ?_⟩
      · show M (if c = v.current then m else x.mem c) (if c = v.current then m' else x'.mem c)
        split
        · exact e3
        · exact h.mem c
      · obtain ⟨h1, h2⟩ := h.log
        simp only [SameLog, List.map_append, h1, h2, List.map_cons, List.map_nil, su_now]
        exact ⟨trivial, trivial⟩

theorem SameShow.run {μ : Type} {k : Rat} (hk : 0 < k) {M : μ → μ → Prop} {pr pr' : CId → μ → Prog μ}
    (hp : ∀ c m m', M m m' → SameProg k M (pr c m) (pr' c m')) (fuel : Nat) : ∀ (n : Nat) {x x' : Show μ}, SameShow k M x x' →
    (Show.run fuel pr n x = none ∧ Show.run fuel pr' n x' = none) ∨
    ∃ y y', Show.run fuel pr n x = some y ∧ Show.run fuel pr' n x' = some y' ∧ SameShow k M y y'
  | 0, x, x', h => .inr ⟨x, x', rfl, rfl, h⟩
  | n + 1, x, x', h => by
    simp only [Show.run]
    rcases h.turn hk hp fuel with ⟨e1, e2⟩ | ⟨y, y', e1, e2, e3⟩
    · rw [e1, e2]; exact .inl ⟨rfl, rfl⟩
    · rw [e1, e2]; exact SameShow.run hk hp fuel n e3

/-- C91: two complete models, with processes that look at the state and remember things, that are the same but for the unit of time: either both end with an
exception, or the same components get control in the same order at `k` times the moments, and the states are the same but for the unit -/
theorem C91_models {μ : Type} {k : Rat} (hk : 0 < k) {M : μ → μ → Prop} {pr pr' : CId → μ → Prog μ}
    (hp : ∀ c m m', M m m' → SameProg k M (pr c m) (pr' c m')) {mem mem' : CId → μ} (hm : ∀ c, M (mem c) (mem' c)) (w : World) (fuel n : Nat) :
    (Show.run fuel pr n ⟨w, mem, []⟩ = none ∧ Show.run fuel pr' n ⟨w.sc k, mem', []⟩ = none) ∨
    ∃ y y', Show.run fuel pr n ⟨w, mem, []⟩ = some y ∧ Show.run fuel pr' n ⟨w.sc k, mem', []⟩ = some y' ∧
      y'.log.map Prod.snd = y.log.map Prod.snd ∧ (∀ c, y'.moments c = (y.moments c).map (k * ·)) ∧ InUnit k y.w y'.w ∧ ∀ c, M (y.mem c) (y'.mem c) := by
  rcases SameShow.run hk hp fuel n (x := ⟨w, mem, []⟩) (x' := ⟨w.sc k, mem', []⟩) ⟨rfl, hm, ⟨rfl, rfl⟩⟩ with h | ⟨y, y', e1, e2, e3⟩
  · exact .inl h
  · refine .inr ⟨y, y', e1, e2, e3.log.1, fun c => ?_, e3.w ▸ inUnit_sc k y.w, e3.mem⟩
    have key : ∀ (l l' : List (Rat × CId)), SameLog k l l' →
        (l'.filter (fun e => e.2 == c)).map Prod.fst = ((l.filter (fun e => e.2 == c)).map Prod.fst).map (k * ·) := by
      intro l
      induction l with
      | nil => intro l' h; cases l' with
        | nil => rfl
        | cons _ _ => simp [SameLog] at h
      | cons a l ih => intro l' h; cases l' with
        | nil => simp [SameLog] at h
        | cons a' l' =>
          simp only [SameLog, List.map_cons, List.cons.injEq] at h
          obtain ⟨⟨h1, h2⟩, h3, h4⟩ := h
          have := ih l' ⟨h2, h4⟩
          simp only [List.filter_cons, h1]
          split
          · simp only [List.map_cons, this, h3]
          · exact this
    exact key _ _ e3.log

/-! ## examples -/

/-- hold for 2 minutes and ask for a resource with a fail_delay of half a minute; and the same in seconds -/
example : (execAll 9 [.create 1 none (3 : Rat) (0 : Rat) false false false, .step, .hold 1 (some (2 : Rat)) none (0 : Rat) false false 0, .step,
      .request 1 [⟨7, 2, 0⟩] false false none (some ((1 / 2 : Rat) : ETime)) (0 : Rat) false false] World.init).events.map (fun e => (e.t, e.c)) = [(11 / 2, 1)] ∧
    (execAll 9 ([.create 1 none (3 : Rat) (0 : Rat) false false false, .step, .hold 1 (some (2 : Rat)) none (0 : Rat) false false 0, .step,
      .request 1 [⟨7, 2, 0⟩] false false none (some ((1 / 2 : Rat) : ETime)) (0 : Rat) false false].map (Op.scale 60)) World.init).events.map
        (fun e => (e.t, e.c)) = [(330, 1)] := by
  decide +kernel

/-- a model: component 1 holds for 2 (or as long as it remembers) again and again; the same in another unit -/
def ticker : CId → Rat → Prog Rat := fun c d => .look fun w => if presentedNow w < 0 then .stop d else
  .call (.hold c (some (d : ETime)) none (0 : Rat) false false 0) (.stop (d + d))

/-- the hypotheses of `C91_models` -/
example {k : Rat} (hk : 0 < k) : ∀ c m m', m' = k * m → SameProg k (fun m m' => m' = k * m) (ticker c m) (ticker c m') := by
  rintro c m _ rfl
  refine .look fun w => ?_
  have : presentedNow (w.sc k) < 0 ↔ presentedNow w < 0 := by
    rw [(inUnit_sc k w).now]
    exact ⟨fun h => by by_contra hh; exact absurd (mul_nonneg hk.le (not_lt.1 hh)) (not_le.2 h), fun h => mul_neg_of_pos_of_neg hk h⟩
  by_cases h : presentedNow w < 0
  · rw [if_pos h, if_pos (this.2 h)]; exact .stop rfl
  · rw [if_neg h, if_neg (fun x => h (this.1 x))]
    exact .call (.hold c (some (m : ETime)) none (0 : Rat) false false 0) (.stop (by ring))

end Verif
