import Verif.Props.Resources
import Verif.CalmTry

/-!
# The monitors of a resource

C70: `claimed_quantity`, `available_quantity` and `capacity` of a resource always show what has been claimed, what is left and what the
capacity is, and so does `occupancy` from the first change on; and looking back, they show what was the case at that moment.
-/

namespace Verif
open World

/-- what a level monitor shows now: the value of the last tally (`m()`) -/
def lastTally {α : Type} (l : List (Rat × α)) : Option α := l.head?.map Prod.snd
/-- what a level monitor shows for moment `t`: the value of the last tally that is not later than `t` (`m(t)`) -/
def tallyAt {α : Type} (l : List (Rat × α)) (t : Rat) : Option α := (l.find? (fun e => decide (e.1 ≤ t))).map Prod.snd

/-- the part of the capacity that is claimed -/
def OccupiedPart (claimed : Rat) (cap : ETime) (v : Rat) : Prop :=
  (cap = ⊤ → v = 0) ∧ ∀ k : Rat, cap = k → (k ≤ 0 → v = 0) ∧ (0 < k → v * k = claimed)

/-! ## the invariant -/

/-- `l'` is `l` with tallies at moment `n` added -/
def Added {α : Type} (n : Rat) (l l' : List (Rat × α)) : Prop := ∃ a, l' = a ++ l ∧ ∀ e ∈ a, e.1 = n

theorem Added.refl {α : Type} (n : Rat) (l : List (Rat × α)) : Added n l l := ⟨[], rfl, by simp⟩
theorem Added.cons {α : Type} {n : Rat} {l l' : List (Rat × α)} (h : Added n l l') (v : α) : Added n l ((n, v) :: l') := by
  obtain ⟨a, rfl, ha⟩ := h
  refine ⟨(n, v) :: a, rfl, fun e he => ?_⟩
  rcases List.mem_cons.1 he with rfl | he
  · rfl
  · exact ha e he

/-- the logs of this resource are in step, and have grown from `l` by tallies at moment `n` -/
structure Rec (n : Rat) (l : RLog) (x : Res) : Prop where
  claimed : lastTally x.log.claimed = some x.claimed
  avail : lastTally x.log.avail = some (x.cap.subQ x.claimed)
  cap : lastTally x.log.cap = some x.cap
  occ : lastTally x.log.occ = some (occupancy x.claimed x.cap) ∨
    (x.log.occ.length = 1 ∧ (x.anonymous = false → x.claimed = 0) ∧ lastTally x.log.occ = some 0)
  gclaimed : Added n l.claimed x.log.claimed
  gavail : Added n l.avail x.log.avail
  gcap : Added n l.cap x.log.cap
  gocc : Added n l.occ x.log.occ

/-- as far as the monitors are concerned -/
structure Res.Alike (x y : Res) : Prop where
  claimed : y.claimed = x.claimed
  cap : y.cap = x.cap
  anon : y.anonymous = x.anonymous
  log : y.log = x.log

theorem Res.Alike.refl (x : Res) : x.Alike x := ⟨rfl, rfl, rfl, rfl⟩
theorem Res.Alike.trans {x y z : Res} (h : x.Alike y) (h' : y.Alike z) : x.Alike z :=
  ⟨h'.claimed.trans h.claimed, h'.cap.trans h.cap, h'.anon.trans h.anon, h'.log.trans h.log⟩

theorem Rec.alike {n l} {x y : Res} (h : Rec n l x) (e : x.Alike y) : Rec n l y := by
  obtain ⟨h1, h2, h3, h4, h5, h6, h7, h8⟩ := h
  obtain ⟨e1, e2, e3, e4⟩ := e
  exact ⟨by rw [e1, e4]; exact h1, by rw [e1, e2, e4]; exact h2, by rw [e2, e4]; exact h3, by rw [e1, e2, e3, e4]; exact h4, by rw [e4]; exact h5,
    by rw [e4]; exact h6, by rw [e4]; exact h7, by rw [e4]; exact h8⟩
theorem Rec.claims {n l} {x y : Res} (h : Rec n l x) (k : Rat) (e : ({ x with claimed := k, log := x.log.claims n x.cap k } : Res).Alike y) : Rec n l y := by
  refine Rec.alike ?_ e
  exact ⟨rfl, rfl, h.cap, .inl rfl, h.gclaimed.cons _, h.gavail.cons _, h.gcap, h.gocc.cons _⟩
theorem Rec.caps {n l} {x : Res} (h : Rec n l x) (k : ETime) : Rec n l { x with cap := k, log := x.log.caps n k x.claimed } :=
  ⟨h.claimed, rfl, rfl, .inl rfl, h.gclaimed, h.gavail.cons _, h.gcap.cons _, h.gocc.cons _⟩

/-- so for all resources -/
structure Ls (n : Rat) (l : RId → RLog) (w : World) : Prop where
  now : w.now = n
  res : ∀ r, Rec n (l r) (w.res r)

theorem Ls.frame {n l} {w w' : World} (h : Ls n l w) (hn : w'.now = w.now := by rfl) (hr : ∀ r, (w.res r).Alike (w'.res r) := by exact fun _ => .refl _) :
    Ls n l w' := ⟨hn.trans h.now, fun r => (h.res r).alike (hr r)⟩
theorem Ls.modR {n l} {w : World} (h : Ls n l w) (r : RId) {f : Res → Res} (hf : Rec n (l r) (f (w.res r))) : Ls n l (w.modR r f) := by
  refine ⟨h.now, fun s => ?_⟩
  simp only [World.modR]
  split
  · rename_i e; subst e; exact hf
  · exact h.res s
theorem ls_onQueue {n l} {w : World} (h : Ls n l w) (q f) : Pr (Ls n l) (onQueue q f w) := by
  unfold onQueue
  split
  · exact h.frame
  · exact h
theorem ls_leaveRequesters {n l} {w : World} (h : Ls n l w) (c r) : Pr (Ls n l) (leaveRequesters c r w) := by
  unfold leaveRequesters
  refine (ls_onQueue h _ _).andThen fun w h => Pr.ok ?_
  split
  · exact h.modR r ((h.res r).alike ⟨rfl, rfl, rfl, rfl⟩)
  · exact h
theorem ls_checkFailReq {n l} {w : World} (h : Ls n l w) (c) : Pr (Ls n l) (checkFailReq c w) := by
  unfold checkFailReq
  split
  · exact h
  · exact (Pr.forR (fun r w h => ls_leaveRequesters h c r) _ _ h).andThen fun w h => Pr.ok h.frame
theorem ls_claimOne {n l} {w : World} (h : Ls n l w) (c hon p) : Pr (Ls n l) (claimOne c hon p w) := by
  unfold claimOne
  refine Pr.andThen ?_ fun w h => ls_leaveRequesters h _ _
  split
  · have h1 : Ls n l (w.modR p.1 (fun x => { x with claimed := x.claimed + p.2, log := x.log.claims w.now x.cap (x.claimed + p.2) })) :=
      h.modR p.1 ((h.res p.1).claims ((w.res p.1).claimed + p.2) (by rw [h.now]; exact .refl _))
    simp only
    split
    · exact h1
    · split
      · exact h1
      · unfold enterClaimers
        split
        · exact Pr.ok h1.frame
        · exact ls_onQueue h1.frame _ _
  · exact h

/-- `releaseCore` when `a` of the claim `cl` is given back -/
def relBy (c : CId) (r : RId) (cl a : Rat) (w : World) : R :=
  let w := w.modR r (fun x => { x with claimed := x.claimed - a })
  if cl - a < eps then
    let w := w.modC c (fun x => { x with claims := addTo x.claims r (-a) })
    leaveQ c (.claimers r) w ⊳ fun w =>
      let w := if (w.queues (.claimers r)).len = 0 then w.modR r (fun x => { x with claimed := 0 }) else w
      .ok ((w.modC c (fun x => { x with claims := delKey x.claims r })).tallyR r)
  else .ok ((w.modC c (fun x => { x with claims := addTo x.claims r (-a) })).tallyR r)

theorem ls_releaseCore {n l} {w w' : World} (h : Ls n l w) {c r q} (he : releaseCore c r q w = .ok w') : Ls n l w' := by
  have hq : ∃ cl a, relBy c r cl a w = .ok w' := by
    unfold releaseCore at he
    split at he
    · cases he
    · rename_i cl hcl
      exact ⟨cl, _, he⟩
  obtain ⟨cl, a, he⟩ := hq
  · unfold relBy at he
    simp only at he
    split at he
    · obtain ⟨w1, h1, h2⟩ := andThen_ok he
      cases h2
      have hw : w1.res = (w.modR r (fun x => { x with claimed := x.claimed - a })).res ∧ w1.now = w.now := by
        unfold leaveQ onQueue at h1
        split at h1
        · cases h1; exact ⟨rfl, rfl⟩
        · cases h1
      obtain ⟨hr, hn⟩ := hw
      have hr' : ∀ s, w1.res s = if s = r then { w.res r with claimed := (w.res r).claimed - a } else w.res s := fun s => by
        rw [hr]; simp only [World.modR]
        split
        · rename_i e; rw [e]
        · rfl
      refine ⟨?_, fun s => ?_⟩
      · split <;> exact hn.trans h.now
      by_cases hs : s = r
      · subst hs
        by_cases hlen : (w1.queues (.claimers s)).len = 0
        · refine (h.res s).claims 0 ?_
          simp [World.tallyR, World.modR, World.modC, hlen, hr', hn, h.now]
          exact ⟨rfl, rfl, rfl, rfl⟩
        · refine (h.res s).claims ((w.res s).claimed - a) ?_
          simp [World.tallyR, World.modR, World.modC, hlen, hr', hn, h.now]
          exact ⟨rfl, rfl, rfl, rfl⟩
      · refine (h.res s).alike ?_
        split <;> simp [World.tallyR, World.modR, World.modC, hs, hr'] <;> exact .refl _
    · cases he
      refine ⟨h.now, fun s => ?_⟩
      by_cases hs : s = r
      · subst hs
        refine (h.res s).claims ((w.res s).claimed - a) ?_
        simp [World.tallyR, World.modR, World.modC, h.now]
        exact ⟨rfl, rfl, rfl, rfl⟩
      · refine (h.res s).alike ?_
        simp [World.tallyR, World.modR, World.modC, hs]
        exact .refl _

theorem alike_rv {w w' : World} (hv : w'.rv = w.rv) (hl : ∀ r, (w'.res r).log = (w.res r).log) (r : RId) : (w.res r).Alike (w'.res r) :=
  ⟨congrArg (fun v : RView => (v.res r).claimed) hv, congrArg (fun v : RView => (v.res r).cap) hv, congrArg (fun v : RView => (v.res r).anonymous) hv, hl r⟩

theorem ls_stable (v0 : RView) (n l) : Stable anyLic (fun w => Refines anyLic v0 w ∧ Ls n l w) where
  frame0 h hv hl hn := ⟨(refines_stable _ _).frame0 h.1 hv hl hn, h.2.frame hn (alike_rv hv hl)⟩
  oneof c b h hw := ⟨(refines_stable _ _).oneof c b h.1 hw, h.2.frame⟩
  fail c h := ⟨(refines_stable _ _).fail c h.1, ls_checkFailReq h.2 c⟩
  honor c h hs hh := ⟨(refines_stable _ _).honor c h.1 hs hh, (Pr.forR (fun p w h => ls_claimOne h c _ p) _ _ h.2).andThen fun w h => Pr.ok h.frame⟩
  rel {w} c r q h hq := by
    refine ⟨(refines_stable _ _).rel c r q h.1 hq, ?_⟩
    rcases release_step h.1.1 c r q with h1 | ⟨cl, h1, _⟩
    · rw [h1]; exact h.2
    · cases hr : releaseCore c r q w with
      | ok w' => exact ls_releaseCore h.2 hr
      | err e w' => rw [hr] at h1; cases h1
  ask c r q prio h hw hq hn := ⟨(refines_stable _ _).ask c r q prio h.1 hw hq hn, ls_onQueue h.2.frame _ _⟩
  anon {w} r q h ha hq := ⟨(refines_stable _ _).anon r q h.1 ha hq, h.2.modR r ((h.2.res r).claims _ (by rw [h.2.now]; exact .refl _))⟩
  cap {w} r k h hk := ⟨(refines_stable _ _).cap r k h.1 hk, h.2.modR r (by rw [h.2.now]; exact (h.2.res r).caps k)⟩

theorem alike_modR (w : World) (r : RId) {f : Res → Res} (hf : ∀ x, Res.Alike x (f x)) (s : RId) : (w.res s).Alike ((w.modR r f).res s) := by
  simp only [World.modR]
  split
  · exact hf _
  · exact .refl _

theorem alike_stable (w0 : World) : StableF (fun w => ∀ r, (w0.res r).Alike (w.res r)) where
  frame0 h _ hr _ _ := by rw [hr]; exact h
  fail {w} c h := by
    show Pr (fun w => ∀ r, (w0.res r).Alike (w.res r)) _
    unfold checkFailReq
    split
    · exact h
    · refine (Pr.forR (P := fun w => ∀ r, (w0.res r).Alike (w.res r)) (fun r w h => ?_) _ _ h).andThen fun w h => h
      unfold leaveRequesters
      refine Pr.andThen (P := fun w => ∀ r, (w0.res r).Alike (w.res r)) ?_ fun w h => Pr.ok ?_
      · unfold leaveQ onQueue; split <;> exact h
      · split
        · exact fun s => (h s).trans (alike_modR w r (by intro _; exact ⟨rfl, rfl, rfl, rfl⟩) s)
        · exact h

/-- the logs of this world -/
def World.logs (w : World) (r : RId) : RLog := (w.res r).log

theorem ls_exec {w : World} {n l} (hc : w.rv.Coh) (h : Ls n l w) (fuel o) :
    Ls (exec fuel o w).world.now w.logs (exec fuel o w).world := by
  have hb : ∀ r m, Rec m (w.logs r) (w.res r) := fun r m => by
    have := h.res r
    exact ⟨this.claimed, this.avail, this.cap, this.occ, .refl _ _, .refl _ _, .refl _ _, .refl _ _⟩
  by_cases hs : o = .step
  · subst hs
    have := rf_step (alike_stable w) (fun _ h => h) (w := w) fun _ => .refl _
    exact ⟨rfl, fun r => (hb r _).alike (this r)⟩
  · have := exec_stable' (ls_stable w.rv w.now w.logs) (w := w) ⟨⟨hc, .refl⟩, rfl, fun r => hb r _⟩ fuel o (anyLic_ok _ _) (fun e => absurd e hs)
    rw [this.2.now]; exact this.2

theorem Reach.ls {w : World} (h : Reach Any w) : ∃ n l, Ls n l w := by
  induction h with
  | @init w hf =>
    refine ⟨w.now, w.logs, rfl, fun r => ?_⟩
    have e := hf.log r
    refine ⟨by rw [e]; rfl, by rw [e]; rfl, by rw [e]; rfl, .inr ⟨by rw [e]; rfl, (hf.res r).2.2.2.2, by rw [e]; rfl⟩, .refl _ _, .refl _ _, .refl _ _, .refl _ _⟩
  | op fuel o h _ ih =>
    obtain ⟨n, l, hl⟩ := ih
    exact ⟨_, _, ls_exec h.coh hl fuel o⟩

/-! ## C70 -/

theorem occupancy_part (c : Rat) (k : ETime) : OccupiedPart c k (occupancy c k) := by
  refine ⟨fun e => by subst e; rfl, fun q e => ?_⟩
  subst e
  refine ⟨fun h => ?_, fun h => ?_⟩
  · show (if q ≤ 0 then 0 else c / q) = 0
    rw [if_pos h]
  · show (if q ≤ 0 then 0 else c / q) * q = c
    rw [if_neg (not_le.2 h), div_mul_cancel₀ _ (ne_of_gt h)]

/-- C70: after any calls (also if they raised), `claimed_quantity`, `available_quantity` and `capacity` of a resource show how much is claimed, how much of the
capacity is left, and the capacity -/
theorem C70_now {w : World} (h : Reach Any w) (r : RId) : lastTally (w.res r).log.claimed = some (w.res r).claimed ∧
    lastTally (w.res r).log.avail = some ((w.res r).cap.subQ (w.res r).claimed) ∧ lastTally (w.res r).log.cap = some (w.res r).cap := by
  obtain ⟨n, l, hl⟩ := h.ls
  exact ⟨(hl.res r).claimed, (hl.res r).avail, (hl.res r).cap⟩

/-- C70: `occupancy` shows which part of the capacity is claimed (0 if the capacity is inf or not positive), for an anonymous resource from the first change on -/
theorem C70_occupancy {w : World} (h : Reach Any w) (r : RId) (ha : (w.res r).anonymous = false ∨ 1 < (w.res r).log.occ.length) :
    ∃ v, lastTally (w.res r).log.occ = some v ∧ OccupiedPart (w.res r).claimed (w.res r).cap v := by
  obtain ⟨n, l, hl⟩ := h.ls
  rcases (hl.res r).occ with h1 | ⟨h1, h2, h3⟩
  · exact ⟨_, h1, occupancy_part _ _⟩
  · rcases ha with ha | ha
    · refine ⟨0, h3, ?_⟩
      rw [h2 ha]
      exact ⟨fun _ => rfl, fun k _ => ⟨fun _ => rfl, fun _ => zero_mul _⟩⟩
    · omega

theorem Added.le {α : Type} {n : Rat} {l l' : List (Rat × α)} (h : Added n l l') (hl : ∀ e ∈ l, e.1 ≤ n) : ∀ e ∈ l', e.1 ≤ n := by
  obtain ⟨a, rfl, ha⟩ := h
  intro e he
  rcases List.mem_append.1 he with he | he
  · exact le_of_eq (ha e he)
  · exact hl e he

/-- all tallies are of this moment or earlier -/
def Past (t : Rat) (l : RLog) : Prop := (∀ e ∈ l.claimed, e.1 ≤ t) ∧ (∀ e ∈ l.avail, e.1 ≤ t) ∧ (∀ e ∈ l.occ, e.1 ≤ t) ∧ ∀ e ∈ l.cap, e.1 ≤ t

theorem Past.mono {t u : Rat} {l : RLog} (h : Past t l) (hu : t ≤ u) : Past u l :=
  ⟨fun e he => (h.1 e he).trans hu, fun e he => (h.2.1 e he).trans hu, fun e he => (h.2.2.1 e he).trans hu, fun e he => (h.2.2.2 e he).trans hu⟩

theorem Reach.past {w : World} (h : Reach Any w) (r : RId) : Past w.now (w.res r).log := by
  induction h with
  | @init w hf =>
    rw [hf.log r]
    refine ⟨?_, ?_, ?_, ?_⟩ <;> simp [RLog.start]
  | @op w fuel o h _ ih =>
    obtain ⟨n, l, hl⟩ := h.ls
    have g := (ls_exec h.coh hl fuel o).res r
    have p := ih.mono (exec_now h.inv0 fuel o)
    exact ⟨g.gclaimed.le p.1, g.gavail.le p.2.1, g.gocc.le p.2.2.1, g.gcap.le p.2.2.2⟩

/-- `l'` is `l` with tallies later than `t` -/
def Later {α : Type} (t : Rat) (l l' : List (Rat × α)) : Prop := ∃ a, l' = a ++ l ∧ ∀ e ∈ a, t < e.1

theorem Later.grown {α : Type} {t n : Rat} {l l' l2 : List (Rat × α)} (h : Later t l l') (hn : t < n) (g : Added n l' l2) : Later t l l2 := by
  obtain ⟨a, rfl, ha⟩ := h
  obtain ⟨b, rfl, hb⟩ := g
  refine ⟨b ++ a, by rw [List.append_assoc], fun e he => ?_⟩
  rcases List.mem_append.1 he with he | he
  · rw [hb e he]; exact hn
  · exact ha e he

theorem Later.at {α : Type} {t : Rat} {l l' : List (Rat × α)} (h : Later t l l') (hl : ∀ e ∈ l, e.1 ≤ t) : tallyAt l' t = lastTally l := by
  obtain ⟨a, rfl, ha⟩ := h
  have h1 : a.find? (fun e => decide (e.1 ≤ t)) = none := by
    rw [List.find?_eq_none]
    intro e he
    simpa using ha e he
  unfold tallyAt lastTally
  rw [List.find?_append, h1, Option.none_or]
  cases l with
  | nil => rfl
  | cons e l =>
    rw [List.find?_cons_of_pos (by simpa using hl e List.mem_cons_self)]
    rfl

/-- C70: once the clock has moved on, the monitors show for the moments in between what was the case then, whatever happens later -/
theorem C70_history {w w' : World} (h : Reach Any w) {fuel : Nat} {t : Rat} (ht : w.now ≤ t) (ht' : t < (exec fuel .step w).world.now)
    (h' : After Any (exec fuel .step w).world w') (r : RId) :
    tallyAt (w'.res r).log.claimed t = some (w.res r).claimed ∧ tallyAt (w'.res r).log.avail t = some ((w.res r).cap.subQ (w.res r).claimed) ∧
    tallyAt (w'.res r).log.cap t = some (w.res r).cap ∧ tallyAt (w'.res r).log.occ t = lastTally (w.res r).log.occ := by
  have h1 : Reach Any (exec fuel .step w).world := .op fuel .step h trivial
  have key : ∀ {w' : World}, After Any (exec fuel .step w).world w' → Later t (w.res r).log.claimed (w'.res r).log.claimed ∧
      Later t (w.res r).log.avail (w'.res r).log.avail ∧ Later t (w.res r).log.cap (w'.res r).log.cap ∧ Later t (w.res r).log.occ (w'.res r).log.occ := by
    intro w' h'
    induction h' with
    | refl =>
      obtain ⟨n, l, hl⟩ := h.ls
      have g := (ls_exec h.coh hl fuel .step).res r
      refine ⟨Later.grown ⟨[], rfl, by simp⟩ ht' g.gclaimed, Later.grown ⟨[], rfl, by simp⟩ ht' g.gavail, Later.grown ⟨[], rfl, by simp⟩ ht' g.gcap,
        Later.grown ⟨[], rfl, by simp⟩ ht' g.gocc⟩
    | @op w2 fuel2 o h2 _ ih =>
      have hr := h1.after h2
      obtain ⟨n, l, hl⟩ := hr.ls
      have g := (ls_exec hr.coh hl fuel2 o).res r
      have hn : t < (exec fuel2 o w2).world.now := lt_of_lt_of_le ht' (C01_clock_monotone h1 (.op fuel2 o h2 trivial))
      exact ⟨ih.1.grown hn g.gclaimed, ih.2.1.grown hn g.gavail, ih.2.2.1.grown hn g.gcap, ih.2.2.2.grown hn g.gocc⟩
  obtain ⟨k1, k2, k3, k4⟩ := key h'
  have p := (h.past r).mono ht
  obtain ⟨n1, n2, n3⟩ := C70_now h r
  exact ⟨(k1.at p.1).trans n1, (k2.at p.2.1).trans n2, (k3.at p.2.2.2).trans n3, k4.at p.2.2.1⟩

/-! ## examples -/

/-- resource 1 has capacity 5: component 1 claims 2 at 0, holds 3, claims 1 more, holds 1 and releases 1 -/
def monOps : List Op := born 1 ++ [ask 1 1 2, .step, .hold 1 (some (3 : Rat)) none (0 : Rat) false false 0, .step, ask 1 1 1, .step,
  .hold 1 (some (1 : Rat)) none (0 : Rat) false false 0, .step, .release 1 [(1, some 1)]]

example : (execAll 20 monOps shop).now = 4 ∧ ((execAll 20 monOps shop).res 1).log.claimed = [(4, 2), (3, 3), (0, 2), (0, 0)] ∧
    ((execAll 20 monOps shop).res 1).log.occ = [(4, 2 / 5), (3, 3 / 5), (0, 2 / 5), (0, 0)] ∧
    tallyAt ((execAll 20 monOps shop).res 1).log.claimed (7 / 2) = some 3 ∧ tallyAt ((execAll 20 monOps shop).res 1).log.claimed 2 = some 2 := by
  decide +kernel

/-- the hypotheses of `C70_history`: between 0 and 3, component 1 claims 2 -/
example : Reach Any (execAll 20 (monOps.take 5) shop) ∧ (execAll 20 (monOps.take 5) shop).now = 0 ∧ ((execAll 20 (monOps.take 5) shop).res 1).claimed = 2 ∧
    (exec 20 .step (execAll 20 (monOps.take 5) shop)).world.now = 3 :=
  ⟨reach_execAll _ (.init fresh_shop) _, by decide +kernel, by decide +kernel, by decide +kernel⟩

/-- C70: `occupancy` of an anonymous resource made with an `initial_claimed_quantity` shows 0 until something changes: here 4 of 10 is claimed -/
theorem C70_occupancy_counterexample : ∃ w : World, Reach Any w ∧ (w.res 2).claimed = 4 ∧ (w.res 2).cap = (10 : Rat) ∧
    lastTally (w.res 2).log.occ = some 0 :=
  ⟨shop, .init fresh_shop, by decide +kernel, by decide +kernel, by decide +kernel⟩

/-- after the first change it is right -/
example : ((exec 20 (.resRelease 2 (some 1)) shop).world.res 2).claimed = 3 ∧
    lastTally ((exec 20 (.resRelease 2 (some 1)) shop).world.res 2).log.occ = some (3 / 10) := by decide +kernel

end Verif
