import Verif.Rename
import Verif.Props.Units

/-!
# Who is who doesn't matter (C97)

Components are compared by identity only, and the order in which things happen is never decided by which object a component is (its name, its number, its address). So a
model in which the components have exchanged their roles does the same, with the roles exchanged.
-/

namespace Verif
open World

/-- specification: everything that can be seen of `w'` is as in `w`, with `π c` in the role of `c` -/
structure InRole (π : Equiv.Perm CId) (w w' : World) : Prop where
  now : presentedNow w' = presentedNow w
  current : w'.current = π w.current
  main : w'.main = π w.main
  status : ∀ c, w'.status (π c) = w.status c
  scheduled : ∀ c, scheduledTime w' (π c) = scheduledTime w c
  remaining : ∀ c, remainingDuration w' (π c) = remainingDuration w c
  failed : ∀ c, (w'.comps (π c)).failed = (w.comps c).failed
  claims : ∀ c, (w'.comps (π c)).claims = (w.comps c).claims ∧ (w'.comps (π c)).requests = (w.comps c).requests
  item : ∀ c, (w'.comps (π c)).fromItem = (w.comps c).fromItem.map π
  members : ∀ q, (w'.queues q).mem.map (fun m => (m.c, m.prio, m.enter)) = (w.queues q).mem.map (fun m => (π m.c, m.prio, m.enter))
  entered : ∀ c q, enterTime w' (π c) q = enterTime w c q
  statistics : ∀ q, (w'.queues q).lens = (w.queues q).lens ∧ (w'.queues q).stays = (w.queues q).stays ∧ (w'.queues q).arrivals = (w.queues q).arrivals ∧
    (w'.queues q).departures = (w.queues q).departures
  events : w'.events.map (fun e => (e.t, e.prio, e.seq, e.c, e.ret)) = w.events.map (fun e => (e.t, e.prio, e.seq, π e.c, e.ret.map π))
  turns : w'.standby = w.standby.map π ∧ w'.pending = w.pending.map π
  resources : w'.res = w.res
  states : w'.states = w.states ∧ w'.slog = w.slog
  over : w'.atInf = w.atInf

theorem inRole_rn (π : Equiv.Perm CId) (w : World) : InRole π w (w.rn π) where
  now := rfl
  current := rfl
  main := rfl
  status c := rn_status w c
  scheduled c := by simp only [scheduledTime, rn_comps, crn_schedTime, rn_offset]
  remaining c := by simp only [remainingDuration, rn_comps, rn_status, crn_schedTime, crn_remaining, rn_now]
  failed c := by rw [rn_comps]; rfl
  claims c := by rw [rn_comps]; exact ⟨rfl, rfl⟩
  item c := by rw [rn_comps]; rfl
  members q := by rw [rn_queues, Queue.mem_rn, List.map_map]; rfl
  entered c q := by
    simp only [enterTime, rn_queues, rn_offset, Queue.find_rn, Option.map_map]
    rfl
  statistics _ := ⟨rfl, rfl, rfl, rfl⟩
  events := by rw [rn_events, List.map_map]; rfl
  turns := ⟨rfl, rfl⟩
  resources := rfl
  states := ⟨rfl, rfl⟩
  over := rfl

/-- C97: two simulations that are the same but for who is who stay so, whatever calls are made (with the components in these calls exchanged as well): the same exceptions
at every call, and after every call the same state but for who is who -/
theorem C97_roles (π : Equiv.Perm CId) (fuel : Nat) (w : World) (os : List Op) (o : Op) :
    let v := execAll fuel os w
    let v' := execAll fuel (os.map (Op.rename π)) (w.rn π)
    InRole π v v' ∧ (exec fuel (o.rename π) v').error? = (exec fuel o v).error? ∧ InRole π (exec fuel o v).world (exec fuel (o.rename π) v').world := by
  simp only [execAll_rn, exec_rn, map_error, map_world]
  exact ⟨inRole_rn _ _, trivial, inRole_rn _ _⟩

/-- in a new environment nobody has a role yet, but main -/
theorem fresh_rn {w : World} (h : Fresh w) {π : Equiv.Perm CId} (hm : π w.main = w.main) (hp : ∀ c, (w.comps (π c)).hasProcess = (w.comps c).hasProcess) : w.rn π = w := by
  have hs : π.symm w.main = w.main := (Equiv.symm_apply_eq π).2 hm.symm
  have hp' : ∀ c, (w.comps (π.symm c)).hasProcess = (w.comps c).hasProcess := by
    intro c
    have := hp (π.symm c)
    rw [Equiv.apply_symm_apply] at this
    exact this.symm
  have hc : ∀ c, (w.comps (π.symm c)).rn π = w.comps c := by
    intro c
    obtain ⟨b, hb⟩ := h.comps c
    obtain ⟨b', hb'⟩ := h.comps (π.symm c)
    have e : b' = b := by have := hp' c; rw [hb, hb'] at this; exact this
    have e2 : (π.symm c = w.main) = (c = w.main) := by
      rw [Equiv.symm_apply_eq, hm]
    rw [hb, hb', e]
    simp only [Comp.rn, e2, Option.map_none]
  have hq : ∀ q, (w.queues q).rn π = w.queues q := by
    intro q
    obtain ⟨k, hk⟩ := h.queues q
    rw [hk]; rfl
  have hcur := h.main
  unfold World.rn
  simp only [h.events, h.standby, h.pending, hm, hcur, hc, hq, List.map_nil]
  obtain ⟨now, offset, seq, events, standby, pending, current, main, endOnEmpty, atInf, comps, res, states, slog, queues⟩ := w
  have h1 := h.events; have h2 := h.standby; have h3 := h.pending
  simp only at h1 h2 h3 hcur
  subst h1 h2 h3 hcur
  rfl

/-- C97: so, from the beginning on, it doesn't matter which component gets which role -/
theorem C97_from_the_start {w : World} (h : Fresh w) {π : Equiv.Perm CId} (hm : π w.main = w.main)
    (hp : ∀ c, (w.comps (π c)).hasProcess = (w.comps c).hasProcess) (fuel : Nat) (os : List Op) :
    InRole π (execAll fuel os w) (execAll fuel (os.map (Op.rename π)) w) := by
  have := (C97_roles π fuel w os .step).1
  rw [fresh_rn h hm hp] at this
  exact this

/-! ## complete models with processes -/

/-- specification: the process does the same with the components exchanged: the same calls, the same decisions after a look at the state; what it remembers is the same, with the
components exchanged (`M`) -/
inductive SameRole {μ : Type} (π : Equiv.Perm CId) (M : μ → μ → Prop) : Prog μ → Prog μ → Prop
  | call (o) {p p' : Prog μ} : SameRole π M p p' → SameRole π M (.call o p) (.call (o.rename π) p')
  | look {f f' : World → Prog μ} : (∀ w, SameRole π M (f w) (f' (w.rn π))) → SameRole π M (.look f) (.look f')
  | stop {m m' : μ} : M m m' → SameRole π M (.stop m) (.stop m')

theorem SameRole.run {μ : Type} {π : Equiv.Perm CId} {M : μ → μ → Prop} {p p' : Prog μ} (h : SameRole π M p p') (fuel : Nat) (w : World) :
    (p.run fuel w = none ∧ p'.run fuel (w.rn π) = none) ∨
    ∃ v m m', p.run fuel w = some (v, m) ∧ p'.run fuel (w.rn π) = some (v.rn π, m') ∧ M m m' := by
  induction h generalizing w with
  | call o _ ih =>
    have e := exec_rn (π := π) fuel o w
    simp only [Prog.run]
    cases hx : exec fuel o w with
    | err er v => rw [hx] at e; rw [e]; exact .inl ⟨rfl, rfl⟩
    | ok v => rw [hx] at e; rw [e]; exact ih v
  | look _ ih => exact ih w w
  | stop hm => exact .inr ⟨w, _, _, rfl, rfl, hm⟩

/-- specification: two simulations under way that are the same but for who is who -/
structure RoleShow {μ : Type} (π : Equiv.Perm CId) (M : μ → μ → Prop) (x x' : Show μ) : Prop where
  w : x'.w = x.w.rn π
  mem : ∀ c, M (x.mem c) (x'.mem (π c))
  log : x'.log = x.log.map (fun e => (e.1, π e.2))

theorem RoleShow.turn {μ : Type} {π : Equiv.Perm CId} {M : μ → μ → Prop} {pr pr' : CId → μ → Prog μ}
    (hp : ∀ c m m', M m m' → SameRole π M (pr c m) (pr' (π c) m')) {x x' : Show μ} (h : RoleShow π M x x') (fuel : Nat) :
    (Show.turn fuel pr x = none ∧ Show.turn fuel pr' x' = none) ∨
    ∃ y y', Show.turn fuel pr x = some y ∧ Show.turn fuel pr' x' = some y' ∧ RoleShow π M y y' := by
  have e := rn_step (π := π) x.w
  unfold Show.turn
  rw [h.w]
  cases hx : step x.w with
  | err er v => rw [hx] at e; rw [e]; exact .inl ⟨rfl, rfl⟩
  | ok v =>
    rw [hx] at e; rw [e]
    simp only [map_ok, rn_current]
    rcases (hp v.current _ _ (h.mem v.current)).run fuel v with ⟨e1, e2⟩ | ⟨u, m, m', e1, e2, e3⟩
    · rw [e1, e2]; exact .inl ⟨rfl, rfl⟩
    · rw [e1, e2]
      refine .inr ⟨_, _, rfl, rfl, rfl, fun c => ?_, ?_⟩
      · show M (if c = v.current then m else x.mem c) (if π c = π v.current then m' else x'.mem (π c))
        simp only [EmbeddingLike.apply_eq_iff_eq]
        split
        · exact e3
        · exact h.mem c
      · simp only [h.log, List.map_append, List.map_cons, List.map_nil, rn_now]

theorem RoleShow.run {μ : Type} {π : Equiv.Perm CId} {M : μ → μ → Prop} {pr pr' : CId → μ → Prog μ}
    (hp : ∀ c m m', M m m' → SameRole π M (pr c m) (pr' (π c) m')) (fuel : Nat) : ∀ (n : Nat) {x x' : Show μ}, RoleShow π M x x' →
    (Show.run fuel pr n x = none ∧ Show.run fuel pr' n x' = none) ∨
    ∃ y y', Show.run fuel pr n x = some y ∧ Show.run fuel pr' n x' = some y' ∧ RoleShow π M y y'
  | 0, x, x', h => .inr ⟨x, x', rfl, rfl, h⟩
  | n + 1, x, x', h => by
    simp only [Show.run]
    rcases h.turn hp fuel with ⟨e1, e2⟩ | ⟨y, y', e1, e2, e3⟩
    · rw [e1, e2]; exact .inl ⟨rfl, rfl⟩
    · rw [e1, e2]; exact RoleShow.run hp fuel n e3

/-- C97: two complete models, with processes that look at the state and remember things, in which the process of `π c` in the one does what the process of `c` does in the other
one: either both end with an exception, or `π c` gets control in the one exactly when `c` gets control in the other one, in the same order and at the same moments, and the
states are the same but for who is who -/
theorem C97_models {μ : Type} {π : Equiv.Perm CId} {M : μ → μ → Prop} {pr pr' : CId → μ → Prog μ}
    (hp : ∀ c m m', M m m' → SameRole π M (pr c m) (pr' (π c) m')) {mem mem' : CId → μ} (hm : ∀ c, M (mem c) (mem' (π c))) (w : World) (fuel n : Nat) :
    (Show.run fuel pr n ⟨w, mem, []⟩ = none ∧ Show.run fuel pr' n ⟨w.rn π, mem', []⟩ = none) ∨
    ∃ y y', Show.run fuel pr n ⟨w, mem, []⟩ = some y ∧ Show.run fuel pr' n ⟨w.rn π, mem', []⟩ = some y' ∧
      y'.log = y.log.map (fun e => (e.1, π e.2)) ∧ (∀ c, y'.moments (π c) = y.moments c) ∧ InRole π y.w y'.w ∧ ∀ c, M (y.mem c) (y'.mem (π c)) := by
  rcases RoleShow.run hp fuel n (x := ⟨w, mem, []⟩) (x' := ⟨w.rn π, mem', []⟩) ⟨rfl, hm, rfl⟩ with h | ⟨y, y', e1, e2, e3⟩
  · exact .inl h
  · refine .inr ⟨y, y', e1, e2, e3.log, fun c => ?_, e3.w ▸ inRole_rn π y.w, e3.mem⟩
    unfold Show.moments
    rw [e3.log, List.filter_map, List.map_map]
    have : (fun e : Rat × CId => e.2 == π c) ∘ (fun e : Rat × CId => (e.1, π e.2)) = fun e => e.2 == c := by
      funext e; exact beq_perm _ _
    rw [this]; rfl

/-! ## examples -/

/-- component 1 claims resource 7, 2 and 3 ask for it in vain and are served in the order in which they asked; with 1, 2 and 3 in each other's role -/
example : (execAll 9 [.create 1 none (0 : Rat) (0 : Rat) false false false, .create 2 none (0 : Rat) (0 : Rat) false false false,
      .create 3 none (0 : Rat) (0 : Rat) false false false, .step, .request 1 [⟨7, 1, 0⟩] false false none none (0 : Rat) false false,
      .step, .request 2 [⟨7, 1, 0⟩] false false none none (0 : Rat) false false, .step,
      .request 3 [⟨7, 1, 0⟩] false false none none (0 : Rat) false false, .release 1 [(7, none)]] World.init).events.map (fun e => e.c) = [1, 2] ∧
    (execAll 9 ([.create 1 none (0 : Rat) (0 : Rat) false false false, .create 2 none (0 : Rat) (0 : Rat) false false false,
      .create 3 none (0 : Rat) (0 : Rat) false false false, .step, .request 1 [⟨7, 1, 0⟩] false false none none (0 : Rat) false false,
      .step, .request 2 [⟨7, 1, 0⟩] false false none none (0 : Rat) false false, .step,
      .request 3 [⟨7, 1, 0⟩] false false none none (0 : Rat) false false, .release 1 [(7, none)]].map (Op.rename (Equiv.swap 1 3))) World.init).events.map (fun e => e.c) = [3, 2] := by
  decide +kernel

/-- the hypotheses of `C97_from_the_start` -/
example : Fresh World.init ∧ Equiv.swap (1 : CId) 3 World.init.main = World.init.main ∧
    ∀ c, (World.init.comps (Equiv.swap (1 : CId) 3 c)).hasProcess = (World.init.comps c).hasProcess := by
  refine ⟨fresh_init, by decide, fun c => ?_⟩
  have : ∀ d, (World.init.comps d).hasProcess = ({} : Comp).hasProcess := by
    intro d; unfold World.init; dsimp only; split <;> rfl
  rw [this, this]

/-- a model: every component activates the one that it remembers; the same with others -/
def caller : CId → CId → Prog CId := fun c d => .look fun w => if w.status d = .passive then
  .call (.activate d none (0 : Rat) (0 : Rat) false false false false false) (.stop c) else .stop d

/-- the hypotheses of `C97_models` -/
example {π : Equiv.Perm CId} : ∀ c m m', m' = π m → SameRole π (fun m m' => m' = π m) (caller c m) (caller (π c) m') := by
  rintro c m _ rfl
  refine .look fun w => ?_
  rw [rn_status]
  split
  · exact .call (.activate m none (0 : Rat) (0 : Rat) false false false false false) (.stop rfl)
  · exact .stop rfl

end Verif
