import Verif.Served
import Verif.Props.Preempt

/-!
# No request is forgotten (C29)
-/

namespace Verif
open World RView

/-! ## what is meant -/

/-- a request of `q` from `r` can be granted on its own: there is enough of it left; for a negative quantity: there is enough room for it (both within 1e-8) -/
def Fits (w : World) (r : RId) (q : Rat) : Prop :=
  (0 < q → (((w.res r).claimed + q : Rat) : ETime) ≤ (w.res r).cap + (eps : ETime)) ∧ (q ≤ 0 → 0 ≤ (w.res r).claimed + q + eps)

/-- `d` waits for resources, and what it waits for is there -/
def Could (w : World) (d : CId) : Prop :=
  (w.comps d).requests ≠ [] ∧ if (w.comps d).oneof then ∃ p ∈ (w.comps d).requests, Fits w p.1 p.2 else ∀ p ∈ (w.comps d).requests, Fits w p.1 p.2

/-- the resources `d` waits for have no special rule for honouring requests -/
def Plain (w : World) (d : CId) : Prop :=
  ∀ p ∈ (w.comps d).requests, (w.res p.1).honorFirst = false ∧ (w.res p.1).honorHighest = false ∧ (w.res p.1).preemptive = false

theorem fits_iff (w : World) (p : RId × Rat) : w.rv.fits p ↔ Fits w p.1 p.2 := by
  unfold RView.fits Fits
  by_cases h : 0 < p.2
  · rw [if_pos h]
    exact ⟨fun hh => ⟨fun _ => hh, fun hn => absurd h (not_lt.2 hn)⟩, fun hh => hh.1 h⟩
  · rw [if_neg h]
    exact ⟨fun hh => ⟨fun hp => absurd hp h, fun _ => hh⟩, fun hh => hh.2 (not_lt.1 h)⟩

theorem could_iff (w : World) (d : CId) : Could w d ↔ ∃ o ∈ (w.rv.comps d).offers, ∀ p ∈ o, w.rv.fits p := by
  unfold Could RC.offers
  show _ ↔ ∃ o ∈ (if (w.comps d).oneof = true then (w.comps d).requests.map (fun p => [p]) else if (w.comps d).requests = [] then [] else [(w.comps d).requests]), _
  by_cases ho : (w.comps d).oneof = true
  · rw [if_pos ho, if_pos ho]
    constructor
    · rintro ⟨_, p, hp, hf⟩
      refine ⟨[p], List.mem_map.2 ⟨p, hp, rfl⟩, fun p' hp' => ?_⟩
      rw [List.mem_singleton] at hp'; subst hp'; exact (fits_iff _ _).2 hf
    · rintro ⟨o, hoo, hf⟩
      obtain ⟨p, hp, rfl⟩ := List.mem_map.1 hoo
      exact ⟨List.ne_nil_of_mem hp, p, hp, (fits_iff _ _).1 (hf p (List.mem_singleton_self p))⟩
  · rw [if_neg ho, if_neg ho]
    by_cases hn : (w.comps d).requests = []
    · simp [hn]
    · rw [if_neg hn]
      constructor
      · rintro ⟨_, h⟩
        exact ⟨_, List.mem_singleton_self _, fun p hp => (fits_iff _ _).2 (h p hp)⟩
      · rintro ⟨o, hoo, hf⟩
        rw [List.mem_singleton] at hoo; subst hoo
        exact ⟨hn, fun p hp => (fits_iff _ _).1 (hf p hp)⟩

/-! ## C29 -/

/-- C29, for resources without a special rule for honouring requests. In every state that can be reached by calls that return, in which `d` itself is not interrupted while it
waits and doesn't make requests while it is interrupted: `d` doesn't wait for what it could get. In particular after a release, or after the capacity is set. Not true with
`honor_only_first`, `honor_only_highest_priority`, preemptive resources, and interrupted components: see below -/
theorem C29_served_partial {w : World} {d : CId} (h : Reach (CalmU d) w) (hp : Plain w d) : ¬ Could w d := by
  intro hc
  obtain ⟨o, ho, hf⟩ := (could_iff w d).1 hc
  obtain ⟨p, _, h1, _⟩ := h.sv.1.att.opn d (by simp) (fun r hr => by
    obtain ⟨q, hq⟩ := mem_keys.1 hr
    exact hp (r, q) hq) o ho hf
  exact h1

/-- the same, said for the moment after a call (a release, a change of a capacity, the end of a component that claims, ...) -/
theorem C29_after_partial {w w' : World} {d : CId} {fuel o} (h : Reach (CalmU d) w) (ho : CalmU d fuel w o) (he : exec fuel o w = .ok w') (hp : Plain w' d) :
    ¬ Could w' d := by
  have := h.op fuel o ho
  rw [he] at this
  exact C29_served_partial this hp

/-- a single ordinary request that waits: there is not enough for it -/
theorem C29_short {w : World} {d : CId} {r q} (h : Reach (CalmU d) w) (hp : Plain w d) (hq : (w.comps d).requests = [(r, q)]) (hpos : 0 < q) :
    (w.res r).cap + (eps : ETime) < (((w.res r).claimed + q : Rat) : ETime) := by
  by_contra hh
  refine C29_served_partial h hp ⟨by rw [hq]; simp, ?_⟩
  rw [hq]
  have hf : Fits w r q := ⟨fun _ => not_lt.1 hh, fun hn => absurd hpos (not_lt.2 hn)⟩
  split
  · exact ⟨_, List.mem_singleton_self _, hf⟩
  · intro p hp
    rw [List.mem_singleton] at hp; subst hp; exact hf

/-! ### the first in line

Whatever the rule: the first in line gets what it wants when it is there. -/

theorem RView.Grants.mono {v v' : RView} (hcoh : v.Coh) (g : Grants v v') (r : RId) : (v'.res r).anonymous = (v.res r).anonymous ∧ (v'.res r).cap = (v.res r).cap ∧
    ((v.res r).anonymous = false → (v.res r).claimed ≤ (v'.res r).claimed) ∧ ∀ d, (v'.comps d).requests = (v.comps d).requests ∨ (v'.comps d).requests = [] := by
  induction g with
  | refl => exact ⟨rfl, rfl, fun _ => le_refl _, fun _ => .inl rfl⟩
  | @tail b c g s ih =>
    obtain ⟨d, hon, s⟩ := s
    have hb := Grants.coh hcoh g
    obtain ⟨h1, h2, h3, h4⟩ := ih
    refine ⟨by rw [s.res]; exact h1, by rw [s.res]; exact h2, fun ha => (h3 ha).trans ?_, fun x => ?_⟩
    · rw [s.res]
      simp only
      split
      · cases hw : b.wants d r with
        | none => simp
        | some q =>
          have : ¬ q < 0 := fun hlt => by have := hb.pos d r q hw hlt; rw [h1, ha] at this; cases this
          simp only [Option.getD_some]; linarith [not_lt.1 this]
      · simp
    · by_cases hx : x = d
      · subst hx; exact .inr s.requests
      · rw [s.other x hx]; exact h4 x

theorem not_fits_mono {w w' : World} {r} {q : Rat} (h : w.rv.Coh) (g : Grants w.rv w'.rv) (ha : (w.res r).anonymous = false) (hpos : 0 < q) (hf : Fits w' r q) : Fits w r q := by
  obtain ⟨_, h2, h3, _⟩ := g.mono h r
  have h2 : (w'.res r).cap = (w.res r).cap := h2
  have h3 : (w.res r).claimed ≤ (w'.res r).claimed := h3 ha
  refine ⟨fun _ => ?_, fun hn => absurd hpos (not_lt.2 hn)⟩
  have := hf.1 hpos
  rw [h2] at this
  exact le_trans (WithTop.coe_le_coe.2 (by linarith)) this

theorem first_tried {w w' : World} {fuel r m l} {q : Rat} (hcoh : w.rv.Coh) (hm : (w.queues (.requesters r)).mem = m :: l) (ha : (w.res r).anonymous = false)
    (hmin : (w.res r).minq ≤ (q : ETime)) (hq : (w.comps m.c).requests = [(r, q)]) (hpos : 0 < q) (hi : w.status m.c ≠ .interrupted)
    (h : tryReqR fuel r w = .ok w') : (w'.comps m.c).requests = [] ∨ ¬ Fits w' r q := by
  have g := tryReqR_grants hcoh fuel r
  rw [h] at g
  have g : Grants w.rv w'.rv := g
  by_cases hf : Fits w r q
  · refine .inl ?_
    have hav : (q : ETime) ≤ (w.res r).avail + (eps : ETime) := by
      have := hf.1 hpos
      unfold Res.avail
      cases hc : (w.res r).cap with
      | none => exact le_top
      | some k =>
        rw [hc] at this
        have h3 : (w.res r).claimed + q ≤ k + eps := WithTop.coe_le_coe.1 this
        exact WithTop.coe_le_coe.2 (by linarith : q ≤ k - (w.res r).claimed + eps)
    have hcan : canHonor w m.c r q = true := by
      unfold canHonor headQ Queue.find
      simp only [hm, List.head?_cons, List.find?_cons, beq_self_eq_true, Option.map_some]
      simp [hpos, hav]
    have hhon : honored w m.c = [r] := by
      unfold honored honorAny honorAll
      rw [hq]
      simp [hcan, keys]
    cases fuel with
    | zero => rw [tryReqR] at h; cases h
    | succ n =>
    rw [tryReqR, ha] at h
    simp only [Bool.false_eq_true, if_false] at h
    cases n with
    | zero => rw [loopR] at h; cases h
    | succ n =>
    rw [loopR.eq_def] at h
    have hc0 : cursor0 w r = some m := by unfold cursor0 headQ; rw [hm]; rfl
    simp only [hc0] at h
    simp only [Option.map_some, bne_self_eq_false, Bool.and_false, Bool.false_eq_true, if_false, ha, Bool.not_false, Bool.true_and] at h
    rw [if_neg (by simp only [decide_eq_true_eq, gt_iff_lt, not_lt]; exact le_trans hmin hav)] at h
    have hhas : (w.queues (.requesters r)).has m.c = true := by unfold Queue.has; rw [hm]; simp
    rw [hhas] at h
    simp only [Bool.not_true, Bool.false_eq_true, if_false, Bool.false_and] at h
    obtain ⟨w1, h1, h2⟩ := andThen_ok h
    cases n with
    | zero => rw [tryReqC] at h1; cases h1
    | succ n =>
    rw [tryReqC] at h1
    have hhn : honorNow m.c w = some (forR (w.comps m.c).requests (claimOne m.c (honored w m.c)) w ⊳ fun w =>
        wake m.c none (w.modC m.c (fun x => { x with requests := [] }))) := by
      unfold honorNow
      rw [if_neg (by rw [hhon]; simp [hi])]
    rw [hhn] at h1
    obtain ⟨w0, h0, h1⟩ := andThen_ok h1
    obtain ⟨w00, k1, k2⟩ := andThen_ok h0
    obtain ⟨wx, hx1, hx2⟩ := honor_step hcoh m.c (by rw [hhon]; simp)
    rw [k1] at hx1
    cases hx1
    have hrv : w0.rv = (w00.modC m.c (fun x => { x with requests := [] })).rv := by
      have := rv_wake (w00.modC m.c (fun x => { x with requests := [] })) m.c none
      rw [k2] at this; exact this
    rw [← hrv] at hx2
    have hnil : (w0.rv.comps m.c).requests = [] := hx2.requests
    have hc0' := hcoh.honor hx2
    -- what comes later are grants
    have g1 : GrantsFrom w0.rv w1 := by
      have := (rs0_try (grants_stable w0.rv) n).2.1 ((keys (w.comps m.c).requests).filter (fun r => (w.res r).anonymous)) w0 ⟨hc0', .refl⟩
      rw [h1] at this; exact this
    have g2 : GrantsFrom w0.rv w' := by
      have := (rs0_try (grants_stable w0.rv) (n + 1)).2.2.2 r ((w.queues (.requesters r)).succ m.c) (some m) w1 g1
      rw [h2] at this; exact this
    have := g2.2.not_mine hnil
    exact (congrArg RC.requests this).trans hnil
  · exact .inr fun hf' => hf (not_fits_mono hcoh g ha hpos hf')

/-- whatever the rule for honouring requests: when (part of) a claim is released, or the capacity is changed, the first in line gets what it wants if it is there -/
theorem C29_first_in_line {w w' : World} {d : CId} {fuel o r} {q : Rat} (h : Reach (CalmU d) w) (hd : (w.inQ (.requesters r)).head? = some d)
    (hq : (w.comps d).requests = [(r, q)]) (hpos : 0 < q) (ha : (w.res r).anonymous = false)
    (ho : (∃ c x, o = .release c [(r, x)]) ∨ ∃ k, o = .resSetCapacity r k) (he : exec fuel o w = .ok w') :
    (w'.comps d).requests = [] ∨ ¬ Fits w' r q := by
  have hs := h.sv.1
  obtain ⟨m, l, hm, rfl⟩ : ∃ m l, (w.queues (.requesters r)).mem = m :: l ∧ m.c = d := by
    unfold World.inQ at hd
    cases hl : (w.queues (.requesters r)).mem with
    | nil => rw [hl] at hd; cases hd
    | cons m l => rw [hl] at hd; exact ⟨m, l, rfl, by simpa using hd⟩
  have hmin : (w.res r).minq ≤ (q : ETime) := hs.att.minq m.c r q (by simp) (by
    show lookup (w.comps m.c).requests r = some q
    rw [hq]; simp [lookup])
  have hi : w.status m.c ≠ .interrupted := hs.att.nint m.c (by simp) (by rw [hq]; simp)
  rcases ho with ⟨c, x, rfl⟩ | ⟨k, rfl⟩
  · simp only [exec, releaseArgs, forR] at he
    obtain ⟨w2, h2, h3⟩ := andThen_ok he
    cases h3
    rw [ha] at h2
    simp only [Bool.false_eq_true, if_false] at h2
    obtain ⟨w1, h1, h2⟩ := andThen_ok h2
    rcases release_step hs.att.coh c r x with hh | ⟨cl, _, hh⟩
    · rw [hh] at h1; cases h1
    · have hsm := sm_releaseCore w c r x
      rw [h1] at hh hsm
      replace hh : Release c r cl (RView.amount x cl) w.rv w1.rv := hh
      replace hsm : Sm w w1 := hsm
      have hm1 : (w1.queues (.requesters r)).mem = m :: l := (congrArg (fun f => (f r).1) hh.reqs).trans hm
      have hq1 : (w1.comps m.c).requests = [(r, q)] := by
        rw [← hq]
        by_cases hmc : m.c = c
        · rw [hmc]; exact hh.requests
        · exact congrArg RC.requests (hh.other m.c hmc)
      refine first_tried (hs.att.coh.release hh) hm1 ((hsm.anon r).trans ha) ?_ hq1 hpos (fun hii => hi (hsm.intr _ hii)) h2
      rcases hsm.minq r with e1 | e1
      · rw [e1]; exact hmin
      · rw [hm1] at e1; cases e1
  · have hA := hs.att.change r (f := fun x => { x with cap := k, log := x.log.caps w.now k x.claimed }) (by intro _; exact ⟨rfl, rfl, rfl, rfl, rfl, rfl⟩) (fun _ => le_refl _)
    refine first_tried (w := w.modR r (fun x => { x with cap := k, log := x.log.caps w.now k x.claimed })) hA.coh hm (by simpa [World.modR] using ha) (by simpa [World.modR] using hmin) hq hpos hi he

/-! ### examples and counterexamples: resource 1 has capacity 2 -/

def desk (first highest : Bool) : World :=
  { World.init with res := fun r => if r = 1 then { cap := (2 : Rat), honorFirst := first, honorHighest := highest } else {} }

theorem fresh_desk (f h) : Fresh (desk f h) := by
  refine ⟨rfl, rfl, rfl, rfl, fresh_init.comps, fun _ => ⟨⊤, rfl⟩, fun _ _ => rfl, fun r => ?_, fun r => ?_, fun _ => rfl⟩
  rotate_left
  · simp only [desk]
    repeat' split
    all_goals rfl
  by_cases h1 : r = 1
  · subst h1; exact ⟨rfl, rfl, le_refl _, WithTop.coe_le_coe.2 (show (0 : Rat) ≤ 2 by decide +kernel), fun _ => rfl⟩
  · simp only [desk, h1, if_false]
    exact ⟨trivial, trivial, le_refl _, WithTop.coe_le_coe.2 (by decide +kernel), fun _ => trivial⟩

instance (d : CId) (w : World) (o : Op) : Decidable (Unbothered d w o) := by unfold Unbothered; split <;> infer_instance

/-- are all calls of this program calm, and don't they disturb `d` -/
def calmuAll (d : CId) (fuel : Nat) : List Op → World → Bool
  | [], _ => true
  | o :: os, w => calmb fuel w o && decide (Unbothered d w o) && calmuAll d fuel os (exec fuel o w).world

theorem reach_calmU {d : CId} (fuel : Nat) {w : World} (h : Reach (CalmU d) w) (ops : List Op) (hc : calmuAll d fuel ops w = true) :
    Reach (CalmU d) (execAll fuel ops w) := by
  induction ops generalizing w with
  | nil => exact h
  | cons o os ih =>
    simp only [calmuAll, Bool.and_eq_true] at hc
    exact ih (.op fuel o h ⟨calmb_calm hc.1.1, of_decide_eq_true hc.1.2⟩) hc.2

instance (w : World) (r : RId) (q : Rat) : Decidable (Fits w r q) := by unfold Fits; infer_instance
instance (w : World) (d : CId) : Decidable (Could w d) := by unfold Could; infer_instance
instance (w : World) (d : CId) : Decidable (Plain w d) := by unfold Plain; infer_instance

/-- component 1 claims 2, component 2 waits for 1, component 3 waits for 1; then component 1 gives back 2 -/
def queueUp (p2 p3 : Rat) : List Op := born 1 ++ [urge 1 2 0] ++ born 2 ++ [urge 2 1 p2] ++ born 3 ++ [urge 3 1 p3] ++ [.release 1 [(1, none)]]

/-- after the release components 2 and 3 have got what they wanted -/
example : ¬ Could (execAll 20 (queueUp 0 0) (desk false false)) 3 ∧ lookup ((execAll 20 (queueUp 0 0) (desk false false)).comps 3).claims 1 = some 1 ∧
    lookup ((execAll 20 (queueUp 0 0) (desk false false)).comps 2).claims 1 = some 1 := by
  decide +kernel

/-- a history with a component (2) that goes on waiting after a release, as it wants 2 and only 1 is left -/
example : ∃ w, Reach (CalmU 2) w ∧ Plain w 2 ∧ (w.comps 2).requests = [(1, 2)] ∧ (w.res 1).claimed = 1 := by
  refine ⟨_, reach_calmU 20 (.init (fresh_desk false false))
    (born 1 ++ [urge 1 2 0] ++ born 2 ++ [urge 2 2 0, .release 1 [(1, some 1)]]) (by decide +kernel), by decide +kernel, by decide +kernel, by decide +kernel⟩

/-- with `honor_only_first`: after the release component 2 gets 1, component 3 is now the first and could have the other 1, but it is not looked at -/
theorem C29_first_counterexample : ∃ w, Reach (CalmU 3) w ∧ (w.res 1).honorFirst = true ∧ (w.inQ (.requesters 1)).head? = some 3 ∧
    (w.comps 3).requests = [(1, 1)] ∧ (w.res 1).claimed = 1 ∧ (w.res 1).cap = ((2 : Rat) : ETime) ∧ Could w 3 := by
  exact ⟨_, reach_calmU 20 (.init (fresh_desk true false)) (queueUp 0 0) (by decide +kernel), by decide +kernel, by decide +kernel, by decide +kernel,
    by decide +kernel, by decide +kernel, by decide +kernel⟩

/-- before that release component 2 is the first in line; it gets what it wants -/
example : ∃ w w', Reach (CalmU 2) w ∧ (w.inQ (.requesters 1)).head? = some 2 ∧ (w.comps 2).requests = [(1, 1)] ∧ (w.res 1).anonymous = false ∧
    exec 20 (.release 1 [(1, none)]) w = .ok w' ∧ (w'.comps 2).requests = [] := by
  refine ⟨_, (exec 20 (.release 1 [(1, none)]) (execAll 20 ((queueUp 0 0).dropLast) (desk true false))).world,
    reach_calmU 20 (.init (fresh_desk true false)) ((queueUp 0 0).dropLast) (by decide +kernel), by decide +kernel, by decide +kernel, by decide +kernel,
    ok_world (by decide +kernel), by decide +kernel⟩

/-- with `honor_only_highest_priority`: after the release component 2 (with a higher priority) gets 1, now nobody with a higher priority than component 3 is waiting, it could have
the other 1, but it is not looked at -/
theorem C29_highest_counterexample : ∃ w, Reach (CalmU 3) w ∧ (w.res 1).honorHighest = true ∧ w.inQ (.requesters 1) = [3] ∧
    (w.comps 3).requests = [(1, 1)] ∧ (w.res 1).claimed = 1 ∧ (w.res 1).cap = ((2 : Rat) : ETime) ∧ Could w 3 := by
  exact ⟨_, reach_calmU 20 (.init (fresh_desk false true)) (queueUp 0 1) (by decide +kernel), by decide +kernel, by decide +kernel, by decide +kernel,
    by decide +kernel, by decide +kernel, by decide +kernel⟩

/-- a component that has been interrupted requests what is there, but doesn't get it -/
theorem C29_interrupted_counterexample : ∃ w, Reach Calm w ∧ Plain w 1 ∧ w.status 1 = .requesting ∧ (w.comps 1).requests = [(1, 1)] ∧ (w.res 1).claimed = 0 ∧
    (w.res 1).cap = ((2 : Rat) : ETime) ∧ Could w 1 := by
  exact ⟨_, reach_calm 20 (.init (fresh_desk false false))
    (born 1 ++ [.hold 1 (some (2 : Rat)) none (0 : Rat) false false 0] ++ born 2 ++ [.interrupt 1, urge 1 1 0]) (by decide +kernel), by decide +kernel, by decide +kernel, by decide +kernel,
    by decide +kernel, by decide +kernel, by decide +kernel⟩

/-- component 2 waits and is activated with `keep_request`, then interrupted; meanwhile component 1 gives back what component 2 is waiting for; when component 2 is resumed
it doesn't get it -/
theorem C29_resumed_counterexample : ∃ w, Reach Calm w ∧ Plain w 2 ∧ w.status 2 = .scheduled ∧ (w.comps 2).requests = [(1, 1)] ∧ (w.res 1).claimed = 0 ∧
    (w.res 1).cap = ((2 : Rat) : ETime) ∧ Could w 2 := by
  exact ⟨_, reach_calm 20 (.init (fresh_desk false false))
    (born 1 ++ [urge 1 2 0] ++ born 2 ++ [urge 2 1 0] ++ born 3 ++ [.activate 2 none (5 : Rat) (0 : Rat) false false false true false, .interrupt 2,
      .release 1 [(1, none)], .resume 2 false (0 : Rat) false]) (by decide +kernel), by decide +kernel, by decide +kernel, by decide +kernel,
    by decide +kernel, by decide +kernel, by decide +kernel⟩

/-- what is taken from a claimer of a preemptive resource, but isn't needed, is not given to others that wait: component 1 claims 2, component 2 (same priority) waits for 1;
component 3, with a higher priority, gets 1 -/
theorem C29_preemptive_counterexample : ∃ w, Reach (CalmU 2) w ∧ (w.res 1).preemptive = true ∧ w.inQ (.requesters 1) = [2] ∧ (w.comps 2).requests = [(1, 1)] ∧
    (w.res 1).claimed = 1 ∧ (w.res 1).cap = ((2 : Rat) : ETime) ∧ lookup (w.comps 3).claims 1 = some 1 ∧ Could w 2 := by
  exact ⟨_, reach_calmU 20 (.init fresh_ward) (born 1 ++ [urge 1 2 5] ++ born 2 ++ [urge 2 1 5] ++ born 3 ++ [urge 3 1 0]) (by decide +kernel), by decide +kernel,
    by decide +kernel, by decide +kernel, by decide +kernel, by decide +kernel, by decide +kernel, by decide +kernel⟩

end Verif
