import Mathlib.Order.CountableDenseLinearOrder
import Mathlib.Data.Rat.Encodable
import Mathlib.Algebra.Order.Field.Basic
import Verif.Rank
import Verif.Props.Renaming

/-!
# Only the order of priorities matters (C102)

Priorities (of events, of components in queues, of requests and waits, of items in stores) are only compared with each other and with 0. So a model in which all priorities get
other values, in the same order and at the same side of 0, does the same.
-/

namespace Verif
open World

/-- specification: everything that can be seen of `w'` is as in `w`, but priority `p` is `g p` -/
structure SameButPriorities (g : Rat → Rat) (w w' : World) : Prop where
  now : presentedNow w' = presentedNow w
  current : w'.current = w.current
  main : w'.main = w.main
  status : ∀ c, w'.status c = w.status c
  scheduled : ∀ c, scheduledTime w' c = scheduledTime w c
  remaining : ∀ c, remainingDuration w' c = remainingDuration w c
  failed : ∀ c, (w'.comps c).failed = (w.comps c).failed
  claims : ∀ c, (w'.comps c).claims = (w.comps c).claims ∧ (w'.comps c).requests = (w.comps c).requests
  item : ∀ c, (w'.comps c).fromItem = (w.comps c).fromItem
  members : ∀ q, (w'.queues q).mem.map (fun m => (m.c, m.prio, m.enter)) = (w.queues q).mem.map (fun m => (m.c, g m.prio, m.enter))
  entered : ∀ c q, enterTime w' c q = enterTime w c q
  statistics : ∀ q, (w'.queues q).lens = (w.queues q).lens ∧ (w'.queues q).stays = (w.queues q).stays ∧ (w'.queues q).arrivals = (w.queues q).arrivals ∧
    (w'.queues q).departures = (w.queues q).departures
  events : w'.events.map (fun e => (e.t, e.prio, e.seq, e.c, e.ret)) = w.events.map (fun e => (e.t, e.prio.map g, e.seq, e.c, e.ret))
  turns : w'.standby = w.standby ∧ w'.pending = w.pending
  resources : w'.res = w.res
  states : w'.states = w.states ∧ w'.slog = w.slog
  over : w'.atInf = w.atInf

theorem sameButPriorities_mp (φ : Ranks) (w : World) : SameButPriorities φ.f w (w.mp φ) where
  now := rfl
  current := rfl
  main := rfl
  status _ := rfl
  scheduled _ := rfl
  remaining _ := rfl
  failed _ := rfl
  claims _ := ⟨rfl, rfl⟩
  item _ := rfl
  members q := by rw [mp_queues, Queue.mem_mp, List.map_map]; rfl
  entered c q := by
    simp only [enterTime, mp_queues, mp_offset, Queue.find_mp, Option.map_map]
    rfl
  statistics _ := ⟨rfl, rfl, rfl, rfl⟩
  events := by rw [mp_events, List.map_map]; rfl
  turns := ⟨rfl, rfl⟩
  resources := rfl
  states := ⟨rfl, rfl⟩
  over := rfl

/-- C102: two simulations that are the same but for the values of the priorities (which are in the same order, and at the same side of 0) stay so, whatever calls are made
(with other priorities in these calls as well): the same exceptions at every call, and after every call the same state but for the priorities -/
theorem C102_order (φ : Ranks) (fuel : Nat) (w : World) (os : List Op) (o : Op) :
    let v := execAll fuel os w
    let v' := execAll fuel (os.map (Op.rank φ)) (w.mp φ)
    SameButPriorities φ.f v v' ∧ (exec fuel (o.rank φ) v').error? = (exec fuel o v).error? ∧
      SameButPriorities φ.f (exec fuel o v).world (exec fuel (o.rank φ) v').world := by
  simp only [execAll_mp, exec_mp, map_error, map_world]
  exact ⟨sameButPriorities_mp _ _, trivial, sameButPriorities_mp _ _⟩

/-! ## from the start, with finitely many priorities -/

/-- in a new environment there are no priorities yet -/
theorem fresh_mp {w : World} (h : Fresh w) (φ : Ranks) : w.mp φ = w := by
  have hc : ∀ c, (w.comps c).mp φ = w.comps c := by
    intro c
    obtain ⟨b, hb⟩ := h.comps c
    rw [hb]
    simp only [Comp.mp, φ.zero]
  have hq : ∀ q, (w.queues q).mp φ = w.queues q := by
    intro q
    obtain ⟨k, hk⟩ := h.queues q
    rw [hk]; rfl
  unfold World.mp
  simp only [h.events, hc, hq, List.map_nil]
  obtain ⟨now, offset, seq, events, standby, pending, current, main, endOnEmpty, atInf, comps, res, states, slog, queues⟩ := w
  have h1 := h.events
  simp only at h1
  subst h1
  rfl

/-- specification: the call with priority `g p` instead of `p` -/
def Op.reprio (g : Rat → Rat) : Op → Op
  | .hold c d t p u cp i => .hold c d t (p.map g) u cp i
  | .activate c a d p u cp pr kr kw => .activate c a d (p.map g) u cp pr kr kw
  | .create c a d p u cp s => .create c a d (p.map g) u cp s
  | .resume c a p u => .resume c a (p.map g) u
  | .setRemaining c v p u => .setRemaining c v (p.map g) u
  | .request c as o pu fa fd p u cp => .request c (as.map fun a => { a with prio := g a.prio }) o pu fa fd (p.map g) u cp
  | .wait c as a fa fd p u cp => .wait c (as.map fun a => { a with prio := a.prio.map g }) a fa fd (p.map g) u cp
  | .waitFor c f ss fa fd p u cp => .waitFor c f ss fa fd (g p) u cp
  | .fromStore c ss f kf rp fa fd p u cp => .fromStore c ss f kf (g rp) fa fd (p.map g) u cp
  | .toStore c ss i rp sp fa fd p u cp => .toStore c ss i (g rp) (g sp) fa fd (p.map g) u cp
  | .storeEnter c s p => .storeEnter c s (p.map g)
  | .enterSorted c n p => .enterSorted c n (g p)
  | .setPriority c n p => .setPriority c n (g p)
  | .runStart d t p u cp => .runStart d t (p.map g) u cp
  | o => o

/-- the (finite) priority of an event as a list -/
def finitePrio : ETime → List Rat
  | ⊤ => []
  | (p : Rat) => [p]

/-- specification: the finite priorities in a call -/
def Op.prios : Op → List Rat
  | .hold _ _ _ p _ _ _ | .activate _ _ _ p _ _ _ _ _ | .create _ _ _ p _ _ _ | .resume _ _ p _ | .setRemaining _ _ p _ | .runStart _ _ p _ _ => finitePrio p
  | .request _ as _ _ _ _ p _ _ => as.map (·.prio) ++ finitePrio p
  | .wait _ as _ _ _ p _ _ => as.flatMap (·.prio.toList) ++ finitePrio p
  | .waitFor _ _ _ _ _ p _ _ => [p]
  | .fromStore _ _ _ _ rp _ _ p _ _ => rp :: finitePrio p
  | .toStore _ _ _ rp sp _ _ p _ _ => rp :: sp :: finitePrio p
  | .storeEnter _ _ p => p.toList
  | .enterSorted _ _ p | .setPriority _ _ p => [p]
  | _ => []

theorem rank_reprio (φ : Ranks) (o : Op) : o.rank φ = o.reprio φ.f := by cases o <;> rfl

theorem map_finite {g h : Rat → Rat} {p : ETime} (e : ∀ x ∈ finitePrio p, g x = h x) : p.map g = p.map h := by
  cases p with
  | none => rfl
  | some p => exact congrArg (fun x : Rat => (x : ETime)) (e p (by simp [finitePrio]))

theorem reprio_congr {g h : Rat → Rat} (o : Op) (e : ∀ p ∈ o.prios, g p = h p) : o.reprio g = o.reprio h := by
  cases o with
  | hold | activate | create | resume | setRemaining | runStart => simp only [Op.reprio, map_finite e]
  | request _ as =>
    have e1 : ∀ a ∈ as, g a.prio = h a.prio := fun a ha => e _ (List.mem_append_left _ (List.mem_map_of_mem ha))
    have e2 := map_finite (fun x hx => e x (List.mem_append_right _ hx))
    simp only [Op.reprio, e2, Op.request.injEq, true_and, and_true]
    exact List.map_congr_left fun a ha => by rw [e1 a ha]
  | wait _ as =>
    have e1 : ∀ a ∈ as, a.prio.map g = a.prio.map h := by
      intro a ha
      cases hp : a.prio with
      | none => rfl
      | some p => exact congrArg some (e p (List.mem_append_left _ (List.mem_flatMap.2 ⟨a, ha, by rw [hp]; simp⟩)))
    have e2 := map_finite (fun x hx => e x (List.mem_append_right _ hx))
    simp only [Op.reprio, e2, Op.wait.injEq, true_and, and_true]
    exact List.map_congr_left fun a ha => by rw [e1 a ha]
  | waitFor | enterSorted | setPriority => simp only [Op.reprio, e _ (List.mem_singleton.2 rfl)]
  | fromStore =>
    simp only [Op.reprio, e _ List.mem_cons_self, map_finite (fun x hx => e x (List.mem_cons_of_mem _ hx))]
  | toStore =>
    simp only [Op.reprio, e _ List.mem_cons_self, e _ (List.mem_cons_of_mem _ List.mem_cons_self),
      map_finite (fun x hx => e x (List.mem_cons_of_mem _ (List.mem_cons_of_mem _ hx)))]
  | storeEnter _ _ p =>
    cases p with
    | none => rfl
    | some p => simp only [Op.reprio, Option.map_some, e p (by simp [Op.prios])]
  | _ => rfl

open Order in
/-- finitely many values in the same order can be extended to all values in the same order (back and forth) -/
theorem extend_order (s : Finset Rat) (g : Rat → Rat) (hg : StrictMonoOn g s) : ∃ f : Rat → Rat, StrictMono f ∧ ∀ p ∈ s, f p = g p := by
  let p0 : PartialIso Rat Rat := ⟨s.image fun p => (p, g p), by
    intro x hx y hy
    obtain ⟨a, ha, rfl⟩ := Finset.mem_image.1 hx
    obtain ⟨b, hb, rfl⟩ := Finset.mem_image.1 hy
    exact (hg.cmp_map_eq ha hb).symm⟩
  let co : Rat → Cofinal (PartialIso Rat Rat) := PartialIso.definedAtLeft Rat
  let I : Ideal (PartialIso Rat Rat) := idealOfCofinals p0 co
  let F a := PartialIso.funOfIdeal a I (cofinal_meets_idealOfCofinals _ co a)
  have hc : ∀ a b c d f f', f ∈ I → f' ∈ I → (a, b) ∈ f.val → (c, d) ∈ f'.val → cmp a c = cmp b d := by
    intro a b c d f f' hf hf' h1 h2
    obtain ⟨m, _, fm, gm⟩ := I.directed _ hf _ hf'
    exact m.prop _ (fm h1) _ (gm h2)
  refine ⟨fun a => (F a).val, fun a b hab => ?_, fun p hp => ?_⟩
  · obtain ⟨f, hf, ha⟩ := (F a).prop
    obtain ⟨f', hf', hb⟩ := (F b).prop
    have := hc _ _ _ _ _ _ hf hf' ha hb
    exact (cmp_eq_lt_iff _ _).1 (this.symm.trans ((cmp_eq_lt_iff _ _).2 hab))
  · obtain ⟨f, hf, ha⟩ := (F p).prop
    have := hc _ _ _ _ _ _ hf (mem_idealOfCofinals p0 co) ha (Finset.mem_image.2 ⟨p, hp, rfl⟩)
    exact (cmp_eq_eq_iff _ _).1 (this.symm.trans (cmp_self_eq_eq p))

/-- C102: from the beginning on: whatever calls are made, if the priorities that occur in these calls and 0 are replaced by other values in the same order, with 0 for 0, then
everything is the same but for the values of the priorities -/
theorem C102_from_the_start {w : World} (h : Fresh w) (fuel : Nat) (os : List Op) (g : Rat → Rat) (h0 : g 0 = 0)
    (hg : StrictMonoOn g {p | p = 0 ∨ ∃ o ∈ os, p ∈ o.prios}) :
    ∃ f : Rat → Rat, StrictMono f ∧ (∀ o ∈ os, ∀ p ∈ o.prios, f p = g p) ∧
      SameButPriorities f (execAll fuel os w) (execAll fuel (os.map (Op.reprio g)) w) := by
  have hs : ∀ p, p ∈ insert 0 (os.flatMap Op.prios).toFinset ↔ p = 0 ∨ ∃ o ∈ os, p ∈ o.prios := by
    intro p; simp
  obtain ⟨f, hf, hfg⟩ := extend_order (insert 0 (os.flatMap Op.prios).toFinset) g (fun a ha b hb => hg ((hs a).1 ha) ((hs b).1 hb))
  have hfo : ∀ o ∈ os, ∀ p ∈ o.prios, f p = g p := fun o ho p hp => hfg p ((hs p).2 (.inr ⟨o, ho, hp⟩))
  let φ : Ranks := ⟨f, hf, (hfg 0 ((hs 0).2 (.inl rfl))).trans h0⟩
  have hos : os.map (Op.reprio g) = os.map (Op.rank φ) :=
    List.map_congr_left fun o ho => by rw [rank_reprio]; exact reprio_congr o fun p hp => (hfo o ho p hp).symm
  refine ⟨f, hf, hfo, ?_⟩
  have := (C102_order φ fuel w os .step).1
  rw [fresh_mp h] at this
  rw [hos]
  exact this

/-! ## complete models with processes -/

/-- specification: the process does the same with other priorities: the same calls, the same decisions after a look at the state; what it remembers is the same, with other
priorities (`M`) -/
inductive SameOrder {μ : Type} (φ : Ranks) (M : μ → μ → Prop) : Prog μ → Prog μ → Prop
  | call (o) {p p' : Prog μ} : SameOrder φ M p p' → SameOrder φ M (.call o p) (.call (o.rank φ) p')
  | look {f f' : World → Prog μ} : (∀ w, SameOrder φ M (f w) (f' (w.mp φ))) → SameOrder φ M (.look f) (.look f')
  | stop {m m' : μ} : M m m' → SameOrder φ M (.stop m) (.stop m')

theorem SameOrder.run {μ : Type} {φ : Ranks} {M : μ → μ → Prop} {p p' : Prog μ} (h : SameOrder φ M p p') (fuel : Nat) (w : World) :
    (p.run fuel w = none ∧ p'.run fuel (w.mp φ) = none) ∨
    ∃ v m m', p.run fuel w = some (v, m) ∧ p'.run fuel (w.mp φ) = some (v.mp φ, m') ∧ M m m' := by
  induction h generalizing w with
  | call o _ ih =>
    have e := exec_mp (φ := φ) fuel o w
    simp only [Prog.run]
    cases hx : exec fuel o w with
    | err er v => rw [hx] at e; rw [e]; exact .inl ⟨rfl, rfl⟩
    | ok v => rw [hx] at e; rw [e]; exact ih v
  | look _ ih => exact ih w w
  | stop hm => exact .inr ⟨w, _, _, rfl, rfl, hm⟩

/-- specification: two simulations under way that are the same but for the values of the priorities -/
structure OrderShow {μ : Type} (φ : Ranks) (M : μ → μ → Prop) (x x' : Show μ) : Prop where
  w : x'.w = x.w.mp φ
  mem : ∀ c, M (x.mem c) (x'.mem c)
  log : x'.log = x.log

theorem OrderShow.turn {μ : Type} {φ : Ranks} {M : μ → μ → Prop} {pr pr' : CId → μ → Prog μ}
    (hp : ∀ c m m', M m m' → SameOrder φ M (pr c m) (pr' c m')) {x x' : Show μ} (h : OrderShow φ M x x') (fuel : Nat) :
    (Show.turn fuel pr x = none ∧ Show.turn fuel pr' x' = none) ∨
    ∃ y y', Show.turn fuel pr x = some y ∧ Show.turn fuel pr' x' = some y' ∧ OrderShow φ M y y' := by
  have e := mp_step (φ := φ) x.w
  unfold Show.turn
  rw [h.w]
  cases hx : step x.w with
  | err er v => rw [hx] at e; rw [e]; exact .inl ⟨rfl, rfl⟩
  | ok v =>
    rw [hx] at e; rw [e]
    simp only [map_ok, mp_current]
    rcases (hp v.current _ _ (h.mem v.current)).run fuel v with ⟨e1, e2⟩ | ⟨u, m, m', e1, e2, e3⟩
    · rw [e1, e2]; exact .inl ⟨rfl, rfl⟩
    · rw [e1, e2]
      refine .inr ⟨_, _, rfl, rfl, rfl, fun c => ?_, ?_⟩
      · show M (if c = v.current then m else x.mem c) (if c = v.current then m' else x'.mem c)
        split
        · exact e3
        · exact h.mem c
      · simp only [h.log, mp_now]

theorem OrderShow.run {μ : Type} {φ : Ranks} {M : μ → μ → Prop} {pr pr' : CId → μ → Prog μ}
    (hp : ∀ c m m', M m m' → SameOrder φ M (pr c m) (pr' c m')) (fuel : Nat) : ∀ (n : Nat) {x x' : Show μ}, OrderShow φ M x x' →
    (Show.run fuel pr n x = none ∧ Show.run fuel pr' n x' = none) ∨
    ∃ y y', Show.run fuel pr n x = some y ∧ Show.run fuel pr' n x' = some y' ∧ OrderShow φ M y y'
  | 0, x, x', h => .inr ⟨x, x', rfl, rfl, h⟩
  | n + 1, x, x', h => by
    simp only [Show.run]
    rcases h.turn hp fuel with ⟨e1, e2⟩ | ⟨y, y', e1, e2, e3⟩
    · rw [e1, e2]; exact .inl ⟨rfl, rfl⟩
    · rw [e1, e2]; exact OrderShow.run hp fuel n e3

/-- C102: two complete models, with processes that look at the state and remember things, that only differ in the values of the priorities (not in their
order): either both end with an exception, or the components get control in the same order and at the same moments, and the states are the same but for the priorities -/
theorem C102_models {μ : Type} {φ : Ranks} {M : μ → μ → Prop} {pr pr' : CId → μ → Prog μ}
    (hp : ∀ c m m', M m m' → SameOrder φ M (pr c m) (pr' c m')) {mem mem' : CId → μ} (hm : ∀ c, M (mem c) (mem' c)) (w : World) (fuel n : Nat) :
    (Show.run fuel pr n ⟨w, mem, []⟩ = none ∧ Show.run fuel pr' n ⟨w.mp φ, mem', []⟩ = none) ∨
    ∃ y y', Show.run fuel pr n ⟨w, mem, []⟩ = some y ∧ Show.run fuel pr' n ⟨w.mp φ, mem', []⟩ = some y' ∧
      y'.log = y.log ∧ (∀ c, y'.moments c = y.moments c) ∧ SameButPriorities φ.f y.w y'.w ∧ ∀ c, M (y.mem c) (y'.mem c) := by
  rcases OrderShow.run hp fuel n (x := ⟨w, mem, []⟩) (x' := ⟨w.mp φ, mem', []⟩) ⟨rfl, hm, rfl⟩ with h | ⟨y, y', e1, e2, e3⟩
  · exact .inl h
  · refine .inr ⟨y, y', e1, e2, e3.log, fun c => ?_, e3.w ▸ sameButPriorities_mp φ y.w, e3.mem⟩
    unfold Show.moments
    rw [e3.log]

/-! ## 0 has to stay 0 -/

/-- 1 and 2 are created, 1 gets control and claims a free resource -/
def claimTurnOps : List Op := [.create 1 none (0 : Rat) (0 : Rat) false false false, .create 2 none (0 : Rat) (0 : Rat) false false false,
  .step, .request 1 [⟨7, 1, 0⟩] false false none none (0 : Rat) false false, .step]

/-- C102, limits: adding the same number to all priorities in the calls keeps their order, but not the order of control, as salabim itself schedules components that get what they
ask for with priority 0: after the claim of 1 it is the turn of 2, but again of 1 if all calls have priority 1 instead of 0 -/
theorem C102_shift_counterexample : StrictMono (fun p : Rat => p + 1) ∧
    (execAll 9 claimTurnOps World.init).current = 2 ∧ (execAll 9 (claimTurnOps.map (Op.reprio (fun p => p + 1))) World.init).current = 1 :=
  ⟨fun _ _ h => add_lt_add_left h 1, by decide +kernel, by decide +kernel⟩

/-! ## examples -/

/-- three components enter queue 3, with priorities 5, 1 and 0 -/
def rankOps : List Op := [.enterSorted 1 3 5, .enterSorted 2 3 1, .enterSorted 4 3 0, .setPriority 4 3 5]
/-- 5 becomes 2, which is still after 1 -/
def rankMap : Rat → Rat := fun p => if p = 5 then 2 else p

/-- the hypotheses of `C102_from_the_start`, for a mapping that doesn't keep the order of all values but of those in the calls -/
example : Fresh World.init ∧ rankMap 0 = 0 ∧ StrictMonoOn rankMap {p | p = 0 ∨ ∃ o ∈ rankOps, p ∈ o.prios} ∧ ¬ StrictMono rankMap := by
  refine ⟨fresh_init, by decide +kernel, ?_, fun h => absurd (h (show (3 : Rat) < 5 by decide +kernel)) (by decide +kernel)⟩
  have hs : ∀ p : Rat, (p = 0 ∨ ∃ o ∈ rankOps, p ∈ o.prios) → p = 0 ∨ p = 1 ∨ p = 5 := by
    intro p; simp [rankOps, Op.prios]; tauto
  intro a ha b hb hab
  rcases hs a ha with rfl | rfl | rfl <;> rcases hs b hb with rfl | rfl | rfl <;> first | (revert hab; decide +kernel)

example : (execAll 9 rankOps World.init).inQ (.user 3) = [2, 1, 4] ∧ (execAll 9 (rankOps.map (Op.reprio rankMap)) World.init).inQ (.user 3) = [2, 1, 4] ∧
    ((execAll 9 (rankOps.map (Op.reprio rankMap)) World.init).queues (.user 3)).mem.map (·.prio) = [1, 2, 2] := by
  decide +kernel

/-- doubling all priorities -/
def doubled : Ranks := ⟨fun p => 2 * p, fun _ _ h => mul_lt_mul_of_pos_left h (by decide +kernel), by decide +kernel⟩

/-- a model: every component holds for 1 with the priority that it remembers -/
def holder : CId → Rat → Prog Rat := fun c p => .look fun w => if w.status c = .current then
  .call (.hold c (some (1 : Rat)) none (p : Rat) false false 0) (.stop p) else .stop p

/-- the hypotheses of `C102_models` -/
example {φ : Ranks} : ∀ c m m', m' = φ.f m → SameOrder φ (fun m m' => m' = φ.f m) (holder c m) (holder c m') := by
  rintro c m _ rfl
  refine .look fun w => ?_
  rw [mp_status]
  split
  · exact .call (.hold c (some (1 : Rat)) none (m : Rat) false false 0) (.stop rfl)
  · exact .stop rfl

end Verif
