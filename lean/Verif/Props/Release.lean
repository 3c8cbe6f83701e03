import Verif.Props.Ending
import Verif.Props.Interrupt
import Verif.Props.Granting

/-!
# C67: release gives back exactly what is said
-/

namespace Verif
open World RView

theorem sum_shift {l : List CId} (hn : l.Nodup) {f g : CId → Rat} {d : CId} {a : Rat} (ho : ∀ x, x ≠ d → f x = g x) (hd : f d = g d + a) :
    (l.map f).sum = (l.map g).sum + if d ∈ l then a else 0 := by
  induction l with
  | nil => simp
  | cons x t ih =>
    rw [List.nodup_cons] at hn
    rw [List.map_cons, List.map_cons, List.sum_cons, List.sum_cons, ih hn.2]
    by_cases hx : x = d
    · subst hx
      rw [if_neg hn.1, if_pos List.mem_cons_self, hd]; ring
    · rw [ho x hx]
      by_cases ht : d ∈ t
      · rw [if_pos ht, if_pos (List.mem_cons_of_mem _ ht)]; ring
      · rw [if_neg ht, if_neg (by simp [ht, Ne.symm hx])]; ring

namespace RView

/-- requests are granted: `got d` are the resources that `d` gets; nothing happens to `d` if there are none -/
structure Deal (got : CId → List RId) (v v' : RView) : Prop where
  kept : ∀ d, got d = [] → v'.comps d = v.comps d
  sub : ∀ d, ∀ r ∈ got d, r ∈ keys (v.comps d).requests
  one : ∀ d, got d ≠ [] → (v.comps d).oneof = true → ∃ r, got d = [r]
  all : ∀ d, got d ≠ [] → (v.comps d).oneof = false → ∀ r ∈ keys (v.comps d).requests, r ∈ got d
  done : ∀ d, got d ≠ [] → (v'.comps d).requests = []
  claim : ∀ d r, v'.claim d r = v.claim d r + if r ∈ got d ∧ (v.res r).anonymous = false then (v.wants d r).getD 0 else 0
  line : ∀ r, v'.reqs r = ((v.reqs r).1.filter (fun m => got m.c = []), (v.reqs r).2)
  res : ∀ r, v'.res r = { v.res r with claimed := (v.res r).claimed + ((v.reqQ r).map (fun d => if r ∈ got d then (v.wants d r).getD 0 else 0)).sum }

theorem Deal.refl (v : RView) : Deal (fun _ => []) v v := by
  refine ⟨fun _ _ => rfl, by simp, by simp, by simp, by simp, by simp, by simp, fun r => ?_⟩
  have : ((v.reqQ r).map (fun d => if r ∈ ([] : List RId) then (v.wants d r).getD 0 else 0)).sum = 0 := by simp
  rw [this, add_zero]

theorem Deal.honor {got v v1 v2 d hon} (hv : v.Coh) (h : Deal got v v1) (s : Honor d hon v1 v2) :
    Deal (fun x => if x = d then hon else got x) v v2 := by
  obtain ⟨r0, hr0⟩ := List.exists_mem_of_ne_nil _ s.ne
  have hd : got d = [] := by
    by_contra hne
    have := s.sub r0 hr0
    rw [h.done d hne] at this; cases this
  have ed := h.kept d hd
  have ean : ∀ r, (v1.res r).anonymous = (v.res r).anonymous := fun r => by rw [h.res r]
  have ew : ∀ r, v1.wants d r = v.wants d r := fun r => by unfold RView.wants; rw [ed]
  refine ⟨fun x hx => ?_, fun x r hr => ?_, fun x hx ho => ?_, fun x hx ho r hr => ?_, fun x hx => ?_, fun x r => ?_, fun r => ?_, fun r => ?_⟩
  · by_cases e : x = d
    · subst e; rw [if_pos rfl] at hx; exact absurd hx s.ne
    · rw [if_neg e] at hx; rw [s.other x e, h.kept x hx]
  · by_cases e : x = d
    · subst e; rw [if_pos rfl] at hr; rw [← ed]; exact s.sub r hr
    · rw [if_neg e] at hr; exact h.sub x r hr
  · by_cases e : x = d
    · subst e; simp only [if_true]; exact s.one (by rw [ed]; exact ho)
    · simp only [if_neg e] at hx ⊢; exact h.one x hx ho
  · by_cases e : x = d
    · subst e; simp only [if_true]; exact s.all (by rw [ed]; exact ho) r (by rw [ed]; exact hr)
    · simp only [if_neg e] at hx ⊢; exact h.all x hx ho r hr
  · by_cases e : x = d
    · subst e; exact s.requests
    · simp only [if_neg e] at hx; rw [s.other x e]; exact h.done x hx
  · by_cases e : x = d
    · subst e
      rw [s.claim r, h.claim x r, hd, ean, ew]
      simp
    · have : v2.claim x r = v1.claim x r := by unfold RView.claim; rw [s.other x e]
      rw [this, h.claim x r]; simp only [if_neg e]
  · rw [s.reqs r, h.line r]
    refine Prod.ext ?_ rfl
    simp only [List.filter_filter]
    refine List.filter_congr fun m _ => ?_
    by_cases e : m.c = d
    · simp [e, s.ne]
    · simp [e]
  · rw [s.res r, h.res r, ew r]
    simp only [add_assoc]
    congr 2
    symm
    refine (sum_shift (hv.rnd r) (g := fun d => if r ∈ got d then (v.wants d r).getD 0 else 0) (d := d) (a := if r ∈ hon then (v.wants d r).getD 0 else 0)
      (fun x hx => by simp [hx]) (by simp [hd])).trans ?_
    congr 1
    by_cases hr : r ∈ hon
    · rw [if_pos hr, if_pos]
      exact (hv.rq d r).2 (by rw [← ed]; exact s.sub r hr)
    · simp [hr]

/-- what a sequence of grants amounts to: everybody is served at most once -/
theorem Grants.deal {v v' : RView} (hv : v.Coh) (g : Grants v v') : ∃ got, Deal got v v' := by
  induction g with
  | refl => exact ⟨_, .refl v⟩
  | tail _ s ih =>
    obtain ⟨got, ih⟩ := ih
    obtain ⟨d, hon, s⟩ := s
    exact ⟨_, ih.honor hv s⟩

end RView

/-- What is seen by the components other than `c`, and what becomes of the claimed quantities, when requests are granted: `got d` are the resources that `d`
gets. A component that gets something was waiting for it; it gets all it was waiting for (one with `oneof`), its claims rise by that, and it waits no longer. The
claims and requests of the others are what they were, and the lines are the same apart from those who are served. What is claimed rises from `base` by what
is granted. -/
structure Dealt (c : Option CId) (base : RId → Rat) (got : CId → List RId) (w w' : World) : Prop where
  kept : ∀ d, some d ≠ c → got d = [] → (w'.comps d).claims = (w.comps d).claims ∧ (w'.comps d).requests = (w.comps d).requests
  sub : ∀ d, ∀ r ∈ got d, r ∈ keys (w.comps d).requests
  one : ∀ d, got d ≠ [] → (w.comps d).oneof = true → ∃ r, got d = [r]
  all : ∀ d, got d ≠ [] → (w.comps d).oneof = false → ∀ r ∈ keys (w.comps d).requests, r ∈ got d
  done : ∀ d, got d ≠ [] → (w'.comps d).requests = []
  claim : ∀ d r, some d ≠ c → claimOf w' d r = claimOf w d r + if r ∈ got d ∧ (w.res r).anonymous = false then (lookup (w.comps d).requests r).getD 0 else 0
  line : ∀ r, w'.inQ (.requesters r) = (w.inQ (.requesters r)).filter (fun d => got d = [])
  claimed : ∀ r, (w'.res r).claimed = base r + ((w.inQ (.requesters r)).map (fun d => if r ∈ got d then (lookup (w.comps d).requests r).getD 0 else 0)).sum

theorem RView.Deal.dealt {c : Option CId} {base got} {w w' : World} {v : RView} (h : Deal got v w'.rv) (ho : ∀ d, some d ≠ c → v.comps d = w.rv.comps d)
    (hq : ∀ d, (v.comps d).requests = (w.comps d).requests) (hone : ∀ d, (v.comps d).oneof = (w.comps d).oneof) (hr : v.reqs = w.rv.reqs)
    (hb : ∀ r, (v.res r).claimed = base r) (ha : ∀ r, (v.res r).anonymous = (w.res r).anonymous) :
    Dealt c base got w w' := by
  have ew : ∀ d r, v.wants d r = lookup (w.comps d).requests r := fun d r => by unfold RView.wants; rw [hq]
  have eq : ∀ r, v.reqQ r = w.inQ (.requesters r) := fun r => by unfold RView.reqQ; rw [hr]; rfl
  refine ⟨fun d hd hg => ?_, fun d r hr => ?_, fun d hd h1 => ?_, fun d hd h1 r hr => ?_, h.done, fun d r hd => ?_, fun r => ?_, fun r => ?_⟩
  · have := h.kept d hg
    rw [ho d hd] at this
    exact ⟨congrArg RC.claims this, congrArg RC.requests this⟩
  · have := h.sub d r hr; rwa [hq] at this
  · exact h.one d hd (by rw [hone]; exact h1)
  · exact h.all d hd (by rw [hone]; exact h1) r (by rw [hq]; exact hr)
  · have := h.claim d r
    rw [ha, ew] at this
    have e : v.claim d r = claimOf w d r := by unfold RView.claim; rw [ho d hd]; rfl
    rw [e] at this; exact this
  · have := congrArg (fun x => x.1.map QMem.c) (h.line r)
    simp only [] at this
    rw [hr] at this
    refine Eq.trans this ?_
    show List.map QMem.c (List.filter _ (w.queues (.requesters r)).mem) = List.filter _ (List.map QMem.c _)
    rw [List.filter_map]; rfl
  · have := congrArg Res.claimed (h.res r)
    simp only [] at this
    rw [hb, eq] at this
    simp only [ew] at this
    exact this

theorem RView.Deal.cap {got v v'} (h : Deal got v v') (r : RId) : (v'.res r).cap = (v.res r).cap := by rw [h.res r]

/-- what is given back of a claim `cl`: everything if no quantity is given, otherwise that quantity, but not more than is claimed -/
def givenBack : Option Rat → Rat → Rat
  | none, cl => cl
  | some x, cl => if x < cl then x else cl

theorem amount_eq (a : Option Rat) (cl : Rat) : RView.amount a cl = givenBack a cl := by
  cases a with
  | none => rfl
  | some x =>
    show min x cl = if x < cl then x else cl
    split
    · rename_i hx; exact min_eq_left (le_of_lt hx)
    · rename_i hx; exact min_eq_right (not_lt.1 hx)

/-- what remains claimed of an anonymous resource of which `cl` is claimed: nothing if no quantity is given, or if (almost) everything is given back -/
def remains : Option Rat → Rat → Rat
  | none, _ => 0
  | some q, cl => if cl - q < eps then 0 else cl - q

/-! ## claims -/

/-- C67: `c.release((r, q))`, or `c.release(r)` (`q` is none), of a component that isn't waiting for a resource. It gives back `q`, or all it claims if that is less or
no quantity is given; its claim is over if less than 1e-8 remains. Its other claims are as before. The claimed quantity is lowered by what is given back (to 0 if the
last claim is over), and then requests are granted. -/
theorem C67_release {w w' : World} {fuel c r a} (h : Reach Any w) (hq : (w.comps c).requests = []) (hx : exec fuel (.release c [(r, a)]) w = .ok w') :
    ∃ cl, lookup (w.comps c).claims r = some cl ∧
      let back := givenBack a cl
      let over := cl - back < eps
      (∀ s, lookup (w'.comps c).claims s = if s = r then (if over then none else some (cl - back)) else lookup (w.comps c).claims s) ∧
      (w'.comps c).requests = [] ∧
      ∃ got, Dealt (some c) (fun s => if s = r then (if over ∧ ∀ d ∈ w.inQ (.claimers r), d = c then 0 else (w.res r).claimed - back) else (w.res s).claimed) got w w' := by
  simp only [exec, releaseArgs, forR] at hx
  obtain ⟨w2, h1, h2⟩ := andThen_ok hx
  cases h2
  by_cases hano : (w.res r).anonymous
  · rw [if_pos hano] at h1; cases h1
  rw [if_neg hano] at h1
  obtain ⟨w1, h0, h1⟩ := andThen_ok h1
  rcases release_step h.coh c r a with hs | ⟨cl, _, hs⟩
  · rw [hs] at h0; cases h0
  rw [h0] at hs
  have hc1 := h.coh.release hs
  have g := tryReqR_grants (w := w1) hc1 fuel r
  rw [h1] at g
  simp only [R.world] at hs g hc1
  obtain ⟨got, gd⟩ := g.deal hc1
  have hamt := amount_eq a cl
  refine ⟨cl, hs.has, ?_⟩
  simp only [← hamt]
  have hq1 : (w1.rv.comps c).requests = [] := by rw [hs.requests]; exact hq
  have hnm := g.not_mine hq1
  refine ⟨fun s => ?_, (congrArg RC.requests hnm).trans hq1, got, ?_⟩
  · have := congrArg RC.claims hnm
    have e := hs.claims s
    rw [← this] at e; exact e
  · refine gd.dealt (fun d hd => hs.other d (fun e => hd (by rw [e]))) (fun d => ?_) (fun d => ?_) hs.reqs (fun s => ?_) (fun s => ?_)
    · by_cases e : d = c
      · subst e; exact hs.requests
      · rw [hs.other d e]; rfl
    · by_cases e : d = c
      · subst e; exact hs.oneof
      · rw [hs.other d e]; rfl
    · by_cases e : s = r
      · subst e
        rw [if_pos rfl, hs.res]
        simp only []
        have : ∀ (ho : cl - RView.amount a cl < eps), (w1.rv.clms s).1 = [] ↔ ∀ d ∈ w.inQ (.claimers s), d = c := by
          intro ho
          rw [hs.clms, if_pos ho, List.filter_eq_nil_iff]
          simp only [bne_iff_ne, ne_eq, not_not]
          constructor
          · intro hh d hd
            obtain ⟨m, hm, rfl⟩ := List.mem_map.1 hd
            exact hh m hm
          · intro hh m hm
            exact hh m.c (List.mem_map_of_mem hm)
        by_cases ho : cl - RView.amount a cl < eps
        · simp only [ho, true_and, this ho]; rfl
        · simp only [ho, false_and, if_false]; rfl
      · rw [if_neg e, hs.ores s e]; rfl
    · by_cases e : s = r
      · subst e; rw [hs.res]; rfl
      · rw [hs.ores s e]; rfl

theorem resRelease_anonymous {w : World} {fuel r} (a : Option Rat) (ha : (w.res r).anonymous = true) :
    resRelease fuel r a w = tryReqR fuel r (w.modR r (fun x => { x with claimed := remains a (w.res r).claimed, log := x.log.claims w.now x.cap (remains a (w.res r).claimed) })) := by
  unfold resRelease
  rw [if_pos ha]
  cases a with
  | none =>
    have e : (if (w.res r).claimed - (w.res r).claimed < eps then (0 : Rat) else (w.res r).claimed - (w.res r).claimed) = remains none (w.res r).claimed := by
      simp [remains]
    rw [← e]
  | some q => rfl

theorem coh_claimed {w : World} (h : w.rv.Coh) (r : RId) (q : Rat) : (w.modR r (fun x => { x with claimed := q, log := x.log.claims w.now x.cap q })).rv.Coh := by
  have ha : ∀ s, ((w.modR r (fun x => { x with claimed := q, log := x.log.claims w.now x.cap q })).rv.res s).anonymous = (w.rv.res s).anonymous := by
    intro s; simp only [World.rv, World.modR]; split <;> rfl
  exact ⟨h.capq, h.rnd, h.cnd, h.rq, h.cq, h.rk, h.ck, fun d x q hw hq => (ha x).trans (h.pos d x q hw hq), h.nneg, fun x hx => h.anon x ((ha x).symm.trans hx)⟩

/-- C67: `r.release(q)` of an anonymous resource lowers what is claimed by `q`, or to 0 if `q` isn't given or less than 1e-8 remains, and then requests are granted -/
theorem C67_anonymous {w w' : World} {fuel r a} (h : Reach Any w) (ha : (w.res r).anonymous = true) (hx : exec fuel (.resRelease r a) w = .ok w') :
    ∃ got, Dealt none (fun s => if s = r then remains a (w.res r).claimed else (w.res s).claimed) got w w' := by
  simp only [exec] at hx
  rw [resRelease_anonymous a ha] at hx
  have hc1 := coh_claimed h.coh r (remains a (w.res r).claimed)
  have g := tryReqR_grants hc1 fuel r
  rw [hx] at g
  obtain ⟨got, gd⟩ := g.deal hc1
  refine ⟨got, gd.dealt (fun d _ => rfl) (fun d => rfl) (fun d => rfl) rfl (fun s => ?_) (fun s => ?_)⟩
  · simp only [World.rv, World.modR, Res.rv]; split <;> rfl
  · simp only [World.rv, World.modR, Res.rv]; split <;> rfl

/-- C67: `r.set_capacity(k)` doesn't change what is claimed, apart from the requests that are granted -/
theorem C67_set_capacity {w w' : World} {fuel r k} (h : Reach Any w) (hx : exec fuel (.resSetCapacity r k) w = .ok w') :
    (∀ s, (w'.res s).cap = if s = r then k else (w.res s).cap) ∧ ∃ got, Dealt none (fun s => (w.res s).claimed) got w w' := by
  simp only [exec, resSetCapacity] at hx
  have hc1 : (w.modR r (fun x => { x with cap := k, log := x.log.caps w.now k x.claimed })).rv.Coh := by
    have ha : ∀ s, ((w.modR r (fun x => { x with cap := k, log := x.log.caps w.now k x.claimed })).rv.res s).anonymous = (w.rv.res s).anonymous := by
      intro s; simp only [World.rv, World.modR]; split <;> rfl
    have h := h.coh
    exact ⟨h.capq, h.rnd, h.cnd, h.rq, h.cq, h.rk, h.ck, fun d x q hw hq => (ha x).trans (h.pos d x q hw hq), h.nneg, fun x hx => h.anon x ((ha x).symm.trans hx)⟩
  have g := tryReqR_grants hc1 fuel r
  rw [hx] at g
  obtain ⟨got, gd⟩ := g.deal hc1
  refine ⟨fun s => (gd.cap s).trans ?_, got, gd.dealt (fun d _ => rfl) (fun d => rfl) (fun d => rfl) rfl (fun s => ?_) (fun s => ?_)⟩
  · simp only [World.rv, World.modR, Res.rv]; split <;> rfl
  · simp only [World.rv, World.modR, Res.rv]; split <;> rfl
  · simp only [World.rv, World.modR, Res.rv]; split <;> rfl

/-! ## several resources -/

/-- `d` keeps its claims and what it waits for; or it was waiting and has got what it was waiting for (all, or one with `oneof`), once -/
def RView.Fair (d : CId) (v v' : RView) : Prop :=
  v'.comps d = v.comps d ∨ ∃ hon, hon ≠ [] ∧ (∀ r ∈ hon, r ∈ keys (v.comps d).requests) ∧ ((v.comps d).oneof = true → ∃ r, hon = [r]) ∧
    ((v.comps d).oneof = false → ∀ r ∈ keys (v.comps d).requests, r ∈ hon) ∧ (v'.comps d).requests = [] ∧
    ∀ r, v'.claim d r = v.claim d r + if r ∈ hon ∧ (v.res r).anonymous = false then (v.wants d r).getD 0 else 0

theorem RView.Deal.fair {got v v'} (h : Deal got v v') (d : CId) : Fair d v v' := by
  by_cases hd : got d = []
  · exact .inl (h.kept d hd)
  · exact .inr ⟨_, hd, h.sub d, h.one d hd, h.all d hd, h.done d hd, h.claim d⟩

theorem RView.Fair.trans {d : CId} {v v1 v2 : RView} (ha : ∀ r, (v1.res r).anonymous = (v.res r).anonymous) (h1 : Fair d v v1) (h2 : Fair d v1 v2) : Fair d v v2 := by
  rcases h1 with h1 | h1
  · unfold RView.Fair at h2 ⊢
    have e : ∀ r, v1.wants d r = v.wants d r := fun r => by unfold RView.wants; rw [h1]
    have e2 : ∀ r, v1.claim d r = v.claim d r := fun r => by unfold RView.claim; rw [h1]
    rw [h1] at h2
    simp only [ha, e, e2] at h2
    exact h2
  · obtain ⟨hon, a1, a2, a3, a4, a5, a6⟩ := h1
    rcases h2 with h2 | ⟨hon2, b1, b2, _⟩
    · refine .inr ⟨hon, a1, a2, a3, a4, by rw [h2]; exact a5, fun r => ?_⟩
      have e2 : v2.claim d r = v1.claim d r := by unfold RView.claim; rw [h2]
      rw [e2, a6 r]
    · obtain ⟨r, hr⟩ := List.exists_mem_of_ne_nil _ b1
      have := b2 r hr
      rw [a5] at this; cases this

/-- what is left of a claim when `a` is given back -/
def leftOf (a : Option Rat) (cl : Rat) : Option Rat := if cl - givenBack a cl < eps then none else some (cl - givenBack a cl)

theorem release1_run {w w' : World} {fuel c r a} (hcoh : w.rv.Coh) (hq : (w.comps c).requests = []) (hx : release1 fuel c r a w = .ok w') :
    w'.rv.Coh ∧ (w'.comps c).requests = [] ∧ (∀ s, (w'.rv.res s).anonymous = (w.rv.res s).anonymous) ∧ (∀ d, d ≠ c → Fair d w.rv w'.rv) ∧
    ∃ cl, lookup (w.comps c).claims r = some cl ∧ ∀ s, lookup (w'.comps c).claims s = if s = r then leftOf a cl else lookup (w.comps c).claims s := by
  obtain ⟨w1, h0, h1⟩ := andThen_ok hx
  rcases release_step hcoh c r a with hs | ⟨cl, _, hs⟩
  · rw [hs] at h0; cases h0
  rw [h0] at hs
  have hc1 := hcoh.release hs
  have g := tryReqR_grants (w := w1) hc1 fuel r
  rw [h1] at g
  simp only [R.world] at hs g hc1
  obtain ⟨got, gd⟩ := g.deal hc1
  have hq1 : (w1.rv.comps c).requests = [] := by rw [hs.requests]; exact hq
  have hnm := g.not_mine hq1
  have ha1 : ∀ s, (w1.rv.res s).anonymous = (w.rv.res s).anonymous := fun s => by
    by_cases e : s = r
    · subst e; rw [hs.res]
    · rw [hs.ores s e]
  refine ⟨g.coh hc1, (congrArg RC.requests hnm).trans hq1, fun s => (by rw [gd.res s] : _ = _).trans (ha1 s), fun d hd => ?_, cl, hs.has, fun s => ?_⟩
  · exact Fair.trans ha1 (.inl (hs.other d hd)) (gd.fair d)
  · have := congrArg RC.claims hnm
    have e := hs.claims s
    rw [← this] at e
    rw [amount_eq] at e
    exact e

theorem releaseArgs_run {fuel c} {f : RId × Option Rat → World → R} (hf : ∀ a w w', f a w = .ok w' → release1 fuel c a.1 a.2 w = .ok w') (args : List (RId × Option Rat)) : ∀ {w w' : World}, w.rv.Coh → (w.comps c).requests = [] →
    forR args f w = .ok w' →
    (args.map Prod.fst).Nodup →
    w'.rv.Coh ∧ (w'.comps c).requests = [] ∧ (∀ s, (w'.rv.res s).anonymous = (w.rv.res s).anonymous) ∧ (∀ d, d ≠ c → Fair d w.rv w'.rv) ∧
    (∀ s a, (s, a) ∈ args → ∃ cl, lookup (w.comps c).claims s = some cl ∧ lookup (w'.comps c).claims s = leftOf a cl) ∧
    ∀ s, s ∉ args.map Prod.fst → lookup (w'.comps c).claims s = lookup (w.comps c).claims s := by
  induction args with
  | nil => intro w w' hcoh hq hx _; cases hx; exact ⟨hcoh, hq, fun _ => rfl, fun _ _ => .inl rfl, by simp, fun _ _ => rfl⟩
  | cons p t ih =>
    intro w w' hcoh hq hx hn
    obtain ⟨w1, h1, h2⟩ := andThen_ok hx
    rw [List.map_cons, List.nodup_cons] at hn
    obtain ⟨a1, a2, a3, a4, cl, a5, a6⟩ := release1_run hcoh hq (hf _ _ _ h1)
    obtain ⟨b1, b2, b3, b4, b5, b6⟩ := ih a1 a2 h2 hn.2
    refine ⟨b1, b2, fun s => (b3 s).trans (a3 s), fun d hd => (a4 d hd).trans a3 (b4 d hd), fun s a hs => ?_, fun s hs => ?_⟩
    · rcases List.mem_cons.1 hs with rfl | hs
      · exact ⟨cl, a5, by rw [b6 _ hn.1, a6, if_pos rfl]⟩
      · obtain ⟨cl', c1, c2⟩ := b5 s a hs
        have hne : s ≠ p.1 := by rintro rfl; exact hn.1 (List.mem_map.2 ⟨_, hs, rfl⟩)
        rw [a6, if_neg hne] at c1
        exact ⟨cl', c1, c2⟩
    · rw [List.map_cons, List.mem_cons, not_or] at hs
      rw [b6 s hs.2, a6, if_neg hs.1]

/-- `d` keeps its claims and what it waits for; or it was waiting and has got what it was waiting for (all, or one with `oneof`): its claims have risen by that and
it waits no longer -/
def FairTo (d : CId) (w w' : World) : Prop :=
  ((w'.comps d).claims = (w.comps d).claims ∧ (w'.comps d).requests = (w.comps d).requests) ∨
  ∃ hon, hon ≠ [] ∧ (∀ r ∈ hon, r ∈ keys (w.comps d).requests) ∧ ((w.comps d).oneof = true → ∃ r, hon = [r]) ∧
    ((w.comps d).oneof = false → ∀ r ∈ keys (w.comps d).requests, r ∈ hon) ∧ (w'.comps d).requests = [] ∧
    ∀ r, claimOf w' d r = claimOf w d r + if r ∈ hon ∧ (w.res r).anonymous = false then (lookup (w.comps d).requests r).getD 0 else 0

theorem RView.Fair.to {d : CId} {w w' : World} (h : Fair d w.rv w'.rv) : FairTo d w w' :=
  h.imp (fun h => ⟨congrArg RC.claims h, congrArg RC.requests h⟩) id

/-- C67: `c.release((r1, q1), (r2, q2), ...)` with different resources, of a component that isn't waiting for resources: of each of the resources it gives back the
quantity given (everything if it is not given or not less than the claim); the claim is over if less than 1e-8 remains. Its claims of other resources are as before.
Nothing happens to anybody else, but that requests are granted. -/
theorem C67_several {w w' : World} {fuel c args} (h : Reach Any w) (hq : (w.comps c).requests = []) (hn : (args.map Prod.fst).Nodup)
    (hx : exec fuel (.release c args) w = .ok w') :
    (∀ s a, (s, a) ∈ args → ∃ cl, lookup (w.comps c).claims s = some cl ∧
      lookup (w'.comps c).claims s = if cl - givenBack a cl < eps then none else some (cl - givenBack a cl)) ∧
    (∀ s, s ∉ args.map Prod.fst → lookup (w'.comps c).claims s = lookup (w.comps c).claims s) ∧
    (w'.comps c).requests = [] ∧ ∀ d, d ≠ c → FairTo d w w' := by
  obtain ⟨_, b2, _, b4, b5, b6⟩ := releaseArgs_run (fuel := fuel) (c := c)
    (f := fun a w => if (w.res a.1).anonymous then .err .value w else release1 fuel c a.1 a.2 w) (fun a w w' hx => by
      split at hx
      · cases hx
      · exact hx) args h.coh hq hx hn
  exact ⟨b5, b6, b2, fun d hd => (b4 d hd).to⟩

/-- C67: `c.release()` of a component that isn't waiting for resources gives back all it claims; nothing happens to anybody else, but that requests are granted -/
theorem C67_all {w w' : World} {fuel c} (h : Reach Any w) (hq : (w.comps c).requests = []) (hx : exec fuel (.releaseAll c) w = .ok w') :
    (w'.comps c).claims = [] ∧ (w'.comps c).requests = [] ∧ ∀ d, d ≠ c → FairTo d w w' := by
  have hx' : forR ((keys (w.comps c).claims).map (fun r => ((r, none) : RId × Option Rat))) (fun a w => release1 fuel c a.1 a.2 w) w = .ok w' := by
    rw [← hx]
    simp only [exec, releaseAll]
    generalize keys (w.comps c).claims = l
    clear hx hq h
    induction l generalizing w with
    | nil => rfl
    | cons r t ih =>
      simp only [List.map_cons, forR]
      cases h1 : release1 fuel c r none w with
      | ok w1 => exact ih
      | err e w1 => rfl
  have hk : (List.map Prod.fst ((keys (w.comps c).claims).map (fun r => ((r, none) : RId × Option Rat)))) = keys (w.comps c).claims := by
    rw [List.map_map]; exact List.map_id _
  obtain ⟨b1, b2, _, b4, b5, b6⟩ := releaseArgs_run (fuel := fuel) (c := c) (fun _ _ _ h => h) _ h.coh hq hx' (by rw [hk]; exact h.coh.ck c)
  refine ⟨?_, b2, fun d hd => (b4 d hd).to⟩
  have hnone : ∀ s, lookup (w'.comps c).claims s = none := by
    intro s
    by_cases hs : s ∈ keys (w.comps c).claims
    · obtain ⟨cl, _, h2⟩ := b5 s none (List.mem_map_of_mem hs)
      rw [h2, leftOf, if_pos]
      simp [givenBack, eps]
    · rw [b6 s (by rw [hk]; exact hs)]
      exact lookup_none.2 hs
  cases hcl : (w'.comps c).claims with
  | nil => rfl
  | cons p t =>
    have := hnone p.1
    rw [hcl, lookup_cons, if_pos rfl] at this
    cases this

/-! ## releasing a resource -/

/-- who is served joins the claimers, the others keep their places -/
theorem grants_tail {v v' : RView} (g : Grants v v') (r : RId) {l1 l2 : List QMem} {m : QMem} (h : (v.clms r).1 = l1 ++ m :: l2) :
    ∃ l1' l2', (v'.clms r).1 = l1' ++ m :: l2' ∧ (∀ x ∈ l2, x ∈ l2') ∧ ∀ x ∈ l2', x ∈ l2 ∨ (v.comps x.c).requests ≠ [] := by
  induction g with
  | refl => exact ⟨l1, l2, h, fun _ h => h, fun _ h => .inl h⟩
  | @tail b v' gs s ih =>
    obtain ⟨d, hon, s⟩ := s
    obtain ⟨k1, k2, e, hle, hnew⟩ := ih
    have hd : (v.comps d).requests ≠ [] := by
      intro h0
      obtain ⟨r0, hr0⟩ := List.exists_mem_of_ne_nil _ s.ne
      have := s.sub r0 hr0
      rw [Grants.not_mine gs h0, h0] at this; cases this
    have hc := s.clms r
    split at hc
    · obtain ⟨x, y, hxd, hy, hyd, _, a1, a2, ha, hb, _⟩ := hc
      rw [e] at ha
      rcases List.append_eq_append_iff.1 ha with ⟨c1, h1, h2⟩ | ⟨c1, h1, h2⟩
      · cases c1 with
        | nil =>
          refine ⟨k1 ++ [x], k2, ?_, hle, hnew⟩
          rw [hb, h1, ← (show m :: k2 = a2 from h2)]; simp
        | cons z c1 =>
          simp only [List.cons_append, List.cons.injEq] at h2
          obtain ⟨rfl, h2⟩ := h2
          refine ⟨k1, c1 ++ x :: a2, by rw [hb, h1]; simp, fun z hz => ?_, fun z hz => ?_⟩
          · have := hle z hz
            rw [h2] at this
            simp only [List.mem_append, List.mem_cons] at this ⊢
            tauto
          · simp only [List.mem_append, List.mem_cons] at hz
            rcases hz with hz | rfl | hz
            · exact hnew z (by rw [h2]; simp [hz])
            · exact .inr (by rw [hxd]; exact hd)
            · exact hnew z (by rw [h2]; simp [hz])
      · refine ⟨a1 ++ x :: c1, k2, by rw [hb, h2]; simp, hle, hnew⟩
    · exact ⟨k1, k2, by rw [hc]; exact e, hle, hnew⟩

theorem resReleaseLoop_run {r : RId} : ∀ (fuel : Nat) (l1 l2 : List QMem) (w w' : World), w.rv.Coh →
    (w.queues (.claimers r)).mem = l1 ++ l2 → resReleaseLoop fuel r l2.head? w = .ok w' →
    ∀ d, (w.comps d).requests = [] → (w'.comps d).requests = [] ∧
      ∀ s, lookup (w'.comps d).claims s = if s = r ∧ d ∈ l2.map QMem.c then none else lookup (w.comps d).claims s
  | 0, l1, l2, w, w', _, _, hx => by rw [resReleaseLoop] at hx; cases hx
  | fuel + 1, l1, [], w, w', _, _, hx => by
    rw [List.head?_nil, resReleaseLoop] at hx
    cases hx
    exact fun d hd => ⟨hd, fun s => by simp⟩
  | fuel + 1, l1, m :: l2, w, w', hcoh, hq, hx => by
    have hnd : ((w.queues (.claimers r)).mem.map QMem.c).Nodup := hcoh.cnd r
    have hin : m.c ∈ w.inQ (.claimers r) := by unfold World.inQ; rw [hq]; simp
    have hhas : (w.queues (.claimers r)).has m.c = true := (has_inQ _ _ _).2 hin
    have hsucc := succ_mid hq hnd
    rw [List.head?_cons, resReleaseLoop] at hx
    simp only [hhas, hsucc, Bool.not_true, Bool.false_eq_true, if_false] at hx
    obtain ⟨w2, h2, hx⟩ := andThen_ok hx
    obtain ⟨w1, h1, h2⟩ := andThen_ok h2
    have hrel : ∃ cl, Release m.c r cl cl w.rv w1.rv := by
      rcases release_step hcoh m.c r none with hs | ⟨cl, hok, hs⟩
      · rw [hs] at h1; cases h1
      · rw [h1] at hs; exact ⟨cl, hs⟩
    obtain ⟨cl, hrel⟩ := hrel
    have he : cl - cl < eps := by rw [sub_self]; decide +kernel
    have hc1 := hcoh.release hrel
    have hq1 : (w1.queues (.claimers r)).mem = l1 ++ l2 := by
      have h6 : (w1.queues (.claimers r)).mem = if cl - cl < eps then (w.queues (.claimers r)).mem.filter (fun x => x.c != m.c) else (w.queues (.claimers r)).mem :=
        congrArg Prod.fst hrel.clms
      rw [if_pos he] at h6
      rw [h6, hq, List.filter_append, List.filter_cons_of_neg (by simp)]
      rw [hq] at hnd
      simp only [List.map_append, List.map_cons, List.nodup_append, List.mem_map, List.mem_cons, List.nodup_cons] at hnd
      rw [List.filter_eq_self.2, List.filter_eq_self.2]
      · intro x hx
        have : m.c ≠ x.c := fun e => hnd.2.1.1 ⟨x, hx, e.symm⟩
        simpa using this.symm
      · intro x hx
        have := hnd.2.2 x.c ⟨x, hx, rfl⟩ m.c (.inl rfl)
        simpa using this
    have hgr : Grants w1.rv w2.rv := by
      have := tryReqR_grants hc1 fuel r
      rw [h2] at this
      exact this
    have hc2 := hgr.coh hc1
    have hmid : ∀ d, (w.comps d).requests = [] → (w2.comps d).requests = [] ∧
        ∀ s, lookup (w2.comps d).claims s = if s = r ∧ d = m.c then none else lookup (w.comps d).claims s := by
      intro d hd
      by_cases e : d = m.c
      · subst e
        have hq1 : (w1.rv.comps m.c).requests = [] := by rw [hrel.requests]; exact hd
        have hnm := hgr.not_mine hq1
        refine ⟨(congrArg RC.requests hnm).trans hq1, fun s => ?_⟩
        have e := hrel.claims s
        rw [← congrArg RC.claims hnm, if_pos he] at e
        simp only [and_true]
        exact e
      · have hd1 : w1.rv.comps d = w.rv.comps d := hrel.other d e
        have hnm := hgr.not_mine (c := d) (by rw [hd1]; exact hd)
        rw [hd1] at hnm
        refine ⟨(congrArg RC.requests hnm).trans hd, fun s => ?_⟩
        rw [if_neg (fun h => e h.2)]
        exact congrArg (fun x => lookup x.claims s) hnm
    intro d hd
    obtain ⟨m1, m2⟩ := hmid d hd
    cases l2 with
    | nil =>
      obtain ⟨i1, i2⟩ := resReleaseLoop_run fuel (w2.queues (.claimers r)).mem [] w2 w' hc2 (by simp) hx d m1
      exact ⟨i1, fun s => by rw [i2, m2]; simp⟩
    | cons n l3 =>
      obtain ⟨a1, a2, ha, hkeep, hnew⟩ := grants_tail hgr r (l1 := l1) (m := n) (l2 := l3) hq1
      obtain ⟨i1, i2⟩ := resReleaseLoop_run fuel a1 (n :: a2) w2 w' hc2 ha hx d m1
      refine ⟨i1, fun s => ?_⟩
      rw [i2, m2]
      by_cases hs : s = r
      · subst hs
        by_cases e : d = m.c
        · simp [e]
        · have hiff : d ∈ (n :: a2).map QMem.c ↔ d ∈ (n :: l3).map QMem.c := by
            simp only [List.map_cons, List.mem_cons, List.mem_map]
            constructor
            · rintro (h | ⟨x, hx, rfl⟩)
              · exact .inl h
              · rcases hnew x hx with h | h
                · exact .inr ⟨x, h, rfl⟩
                · exfalso
                  apply h
                  rw [show w1.rv.comps x.c = w.rv.comps x.c from hrel.other _ e]
                  exact hd
            · rintro (h | ⟨x, hx, rfl⟩)
              · exact .inl h
              · exact .inr ⟨x, hkeep x hx, rfl⟩
          have hm : d ∈ (m :: n :: l3).map QMem.c ↔ d ∈ (n :: l3).map QMem.c := by rw [List.map_cons, List.mem_cons]; simp only [e, false_or]
          simp only [true_and, hiff, hm, e, if_false]
      · simp [hs]

/-- C67: after `r.release()` of a resource that isn't anonymous, everybody who isn't waiting for resources claims nothing of `r` any more; the other claims are as
before -/
theorem C67_resource {w w' : World} {fuel r} (h : Reach Any w) (ha : (w.res r).anonymous = false) (hx : exec fuel (.resRelease r none) w = .ok w')
    {d : CId} (hd : (w.comps d).requests = []) : (w'.comps d).requests = [] ∧
      ∀ s, lookup (w'.comps d).claims s = if s = r then none else lookup (w.comps d).claims s := by
  simp only [exec, resRelease, ha] at hx
  obtain ⟨h1, h2⟩ := resReleaseLoop_run fuel [] (w.queues (.claimers r)).mem w w' h.coh rfl hx d hd
  refine ⟨h1, fun s => ?_⟩
  rw [h2]
  by_cases hs : s = r
  · subst hs
    by_cases hin : d ∈ (w.queues (.claimers s)).mem.map QMem.c
    · simp [hin]
    · rw [if_neg (fun h => hin h.2), if_pos rfl]
      exact lookup_none.2 fun hk => hin ((h.coh.cq d s).2 hk)
  · simp [hs]

/-- nobody waits for `r`: there is nothing to grant -/
theorem tryReqR_nobody {fuel r} {w w' : World} (ha : (w.res r).anonymous = false) (hq : (w.queues (.requesters r)).mem = []) (hx : tryReqR fuel r w = .ok w') : w' = w := by
  cases fuel with
  | zero => rw [tryReqR] at hx; cases hx
  | succ n =>
    rw [tryReqR] at hx
    simp only [ha, Bool.false_eq_true, if_false] at hx
    have hc : cursor0 w r = none := by unfold cursor0 headQ; rw [hq]; rfl
    rw [hc] at hx
    cases n with
    | zero => rw [loopR] at hx; cases hx
    | succ n => rw [loopR] at hx; cases hx; rfl

theorem resReleaseLoop_nobody {r : RId} : ∀ (fuel : Nat) (l : List QMem) (w w' : World), w.rv.Coh → (w.res r).anonymous = false →
    (w.queues (.requesters r)).mem = [] → (w.queues (.claimers r)).mem = l → resReleaseLoop fuel r l.head? w = .ok w' →
    (∀ d, (w'.comps d).requests = (w.comps d).requests ∧ ∀ s, lookup (w'.comps d).claims s = if s = r then none else lookup (w.comps d).claims s) ∧
    ∀ s, (w'.res s).claimed = if s = r ∧ l ≠ [] then 0 else (w.res s).claimed
  | 0, l, w, w', _, _, _, _, hx => by rw [resReleaseLoop] at hx; cases hx
  | fuel + 1, [], w, w', hcoh, _, _, hq, hx => by
    rw [List.head?_nil, resReleaseLoop] at hx
    cases hx
    refine ⟨fun d => ⟨rfl, fun s => ?_⟩, fun s => by simp⟩
    by_cases hs : s = r
    · subst hs
      rw [if_pos rfl]
      exact lookup_none.2 fun hk => by
        have := (hcoh.cq d s).2 hk
        unfold RView.clmQ at this
        rw [show (w.rv.clms s).1 = [] from hq] at this
        cases this
    · rw [if_neg hs]
  | fuel + 1, m :: l, w, w', hcoh, ha, hr, hq, hx => by
    have hnd : ((w.queues (.claimers r)).mem.map QMem.c).Nodup := hcoh.cnd r
    have hin : m.c ∈ w.inQ (.claimers r) := by unfold World.inQ; rw [hq]; simp
    have hhas : (w.queues (.claimers r)).has m.c = true := (has_inQ _ _ _).2 hin
    have hsucc := succ_mid (l1 := []) hq hnd
    rw [List.head?_cons, resReleaseLoop] at hx
    simp only [hhas, hsucc, Bool.not_true, Bool.false_eq_true, if_false] at hx
    obtain ⟨w2, h2, hx⟩ := andThen_ok hx
    obtain ⟨w1, h1, h2⟩ := andThen_ok h2
    have hrel : ∃ cl, Release m.c r cl cl w.rv w1.rv := by
      rcases release_step hcoh m.c r none with hs | ⟨cl, hok, hs⟩
      · rw [hs] at h1; cases h1
      · rw [h1] at hs; exact ⟨cl, hs⟩
    obtain ⟨cl, hrel⟩ := hrel
    have he : cl - cl < eps := by rw [sub_self]; decide +kernel
    have hc1 := hcoh.release hrel
    have hq1 : (w1.queues (.claimers r)).mem = l := by
      have h6 : (w1.queues (.claimers r)).mem = if cl - cl < eps then (w.queues (.claimers r)).mem.filter (fun x => x.c != m.c) else (w.queues (.claimers r)).mem :=
        congrArg Prod.fst hrel.clms
      rw [if_pos he] at h6
      rw [h6, hq, List.filter_cons_of_neg (by simp)]
      rw [hq] at hnd
      simp only [List.map_cons, List.mem_map, List.nodup_cons] at hnd
      rw [List.filter_eq_self.2]
      intro x hx
      have : m.c ≠ x.c := fun e => hnd.1 ⟨x, hx, e.symm⟩
      simpa using this.symm
    have ha1 : (w1.res r).anonymous = false := by
      have := congrArg Res.anonymous hrel.res
      exact this.trans ha
    have hr1 : (w1.queues (.requesters r)).mem = [] := (congrArg (fun f => (f r).1) hrel.reqs).trans hr
    have e2 := tryReqR_nobody ha1 hr1 h2
    subst e2
    obtain ⟨i1, i2⟩ := resReleaseLoop_nobody fuel l w2 w' hc1 ha1 hr1 hq1 hx
    refine ⟨fun d => ?_, fun s => ?_⟩
    · obtain ⟨j1, j2⟩ := i1 d
      by_cases e : d = m.c
      · subst e
        refine ⟨j1.trans hrel.requests, fun s => ?_⟩
        rw [j2]
        have := hrel.claims s
        by_cases hs : s = r
        · simp [hs]
        · rw [if_neg hs] at this ⊢
          rw [if_neg hs]; exact this
      · have hd1 : w2.rv.comps d = w.rv.comps d := hrel.other d e
        refine ⟨j1.trans (congrArg RC.requests hd1), fun s => ?_⟩
        rw [j2]
        rw [show (w2.comps d).claims = (w.comps d).claims from congrArg RC.claims hd1]
    · rw [i2]
      by_cases hs : s = r
      · subst hs
        simp only [true_and, ne_eq, reduceCtorEq, not_false_eq_true, if_true]
        by_cases hl : l = []
        · rw [if_neg (by simp [hl])]
          have := congrArg Res.claimed hrel.res
          simp only [] at this
          rw [if_pos ⟨he, by rw [← hl]; exact hq1⟩] at this
          exact this
        · rw [if_pos hl]
      · rw [if_neg (fun h => hs h.1), if_neg (fun h => hs h.1)]
        have := congrArg Res.claimed (hrel.ores s hs)
        exact this

/-- C67: `r.release()` of a resource that isn't anonymous and for which nobody waits: nobody claims anything of `r` any more, nothing of it is claimed, and no other claim,
request or claimed quantity changes. (If nothing was claimed by anybody, the claimed quantity stays as it is: see C27 for what can be claimed by nobody.) -/
theorem C67_resource_nobody_waits {w w' : World} {fuel r} (h : Reach Any w) (ha : (w.res r).anonymous = false) (hq : w.inQ (.requesters r) = [])
    (hx : exec fuel (.resRelease r none) w = .ok w') :
    (∀ d, (w'.comps d).requests = (w.comps d).requests ∧ ∀ s, lookup (w'.comps d).claims s = if s = r then none else lookup (w.comps d).claims s) ∧
    ∀ s, (w'.res s).claimed = if s = r ∧ w.inQ (.claimers r) ≠ [] then 0 else (w.res s).claimed := by
  simp only [exec, resRelease, ha] at hx
  have h1 := resReleaseLoop_nobody fuel _ w w' h.coh ha (List.map_eq_nil_iff.1 hq) rfl hx
  refine ⟨h1.1, fun s => ?_⟩
  rw [h1.2]
  simp only [World.inQ, ne_eq, List.map_eq_nil_iff]

/-! ## examples -/

/-- component 1 claims 3, component 2 claims 2 of 5; component 3 waits for 2 -/
def heldW : World := execAll 30 (born 1 ++ [ask 1 1 3, .step, .passivate 1] ++ born 2 ++ [ask 2 1 2, .step, .passivate 2] ++ born 3 ++ [ask 3 1 2]) shop

theorem reach_heldW : Reach Any heldW := (reach_calm _ (.init fresh_shop) _ (by decide +kernel) : Reach Calm heldW).any

/-- the hypotheses of `C67_release`: component 1 gives back 2 of its 3, and component 3 gets 2 -/
example : ∃ w', (heldW.comps 1).requests = [] ∧ exec 30 (.release 1 [(1, some 2)]) heldW = .ok w' ∧ lookup (heldW.comps 1).claims 1 = some 3 ∧
    lookup (w'.comps 1).claims 1 = some 1 ∧ lookup (w'.comps 3).claims 1 = some 2 ∧ (heldW.res 1).claimed = 5 ∧ (w'.res 1).claimed = 5 := by
  exact ⟨_, by decide +kernel, ok_world (by decide +kernel), by decide +kernel, by decide +kernel, by decide +kernel, by decide +kernel, by decide +kernel⟩

/-- the hypotheses of `C67_several` and `C67_all`: component 1 gives back all it claims -/
example : ∃ w', exec 30 (.release 1 [(1, none)]) heldW = .ok w' ∧ lookup (w'.comps 1).claims 1 = none ∧ FairTo 3 heldW w' := by
  have hx := ok_world (r := exec 30 (.release 1 [(1, none)]) heldW) (by decide +kernel)
  exact ⟨_, hx, by decide +kernel, (C67_several reach_heldW (by decide +kernel) (by decide) hx).2.2.2 3 (by decide)⟩
example : ∃ w', exec 30 (.releaseAll 1) heldW = .ok w' ∧ (w'.comps 1).claims = [] ∧ FairTo 3 heldW w' := by
  have hx := ok_world (r := exec 30 (.releaseAll 1) heldW) (by decide +kernel)
  have := C67_all reach_heldW (by decide +kernel) hx
  exact ⟨_, hx, this.1, this.2.2 3 (by decide)⟩

/-- the hypotheses of `C67_anonymous`: of resource 2, of which 4 of 10 are claimed, component 1 wants 8; it gets it when 3 is released, then 9 is claimed -/
example : ∃ w w', Reach Any w ∧ (w.res 2).anonymous = true ∧ exec 30 (.resRelease 2 (some 3)) w = .ok w' ∧ (w.res 2).claimed = 4 ∧ (w.comps 1).requests = [(2, 8)] ∧
    (w'.comps 1).requests = [] ∧ (w'.res 2).claimed = 9 := by
  have hr : Reach Any (execAll 30 (born 1 ++ [ask 1 2 8]) shop) := (reach_calm _ (.init fresh_shop) _ (by decide +kernel) : Reach Calm _).any
  exact ⟨_, _, hr, by decide +kernel, ok_world (by decide +kernel), by decide +kernel, by decide +kernel, by decide +kernel, by decide +kernel⟩

/-- the hypotheses of `C67_set_capacity`: component 3 gets its 2 if the capacity becomes 7 -/
example : ∃ w', exec 30 (.resSetCapacity 1 (7 : Rat)) heldW = .ok w' ∧ lookup (w'.comps 3).claims 1 = some 2 ∧ (w'.res 1).claimed = 7 := by
  exact ⟨_, ok_world (by decide +kernel), by decide +kernel, by decide +kernel⟩

/-- the hypotheses of `C67_resource` and `C67_resource_nobody_waits` -/
example : ∃ w', exec 30 (.resRelease 1 none) (execAll 30 (born 1 ++ [ask 1 1 3, .step, .passivate 1] ++ born 2 ++ [ask 2 1 2]) shop) = .ok w' ∧
    (w'.res 1).claimed = 0 ∧ lookup (w'.comps 1).claims 1 = none ∧ lookup (w'.comps 2).claims 1 = none := by
  exact ⟨_, ok_world (by decide +kernel), by decide +kernel, by decide +kernel, by decide +kernel⟩

/-- `r.release()` may also take what has just been given to a component that was waiting: component 3 gets what it asked for (it waits no longer, didn't fail, and continues), but it
claims nothing -/
theorem C67_resource_counterexample : ∃ w w', Reach Calm w ∧ exec 30 (.resRelease 1 none) w = .ok w' ∧ lookup (w.comps 3).requests 1 = some 2 ∧
    (w'.comps 3).requests = [] ∧ (w'.comps 3).failed = false ∧ w'.status 3 = .scheduled ∧ (w'.comps 3).claims = [] ∧ (w'.res 1).claimed = 0 := by
  exact ⟨heldW, _, reach_calm _ (.init fresh_shop) _ (by decide +kernel), ok_world (by decide +kernel), by decide +kernel, by decide +kernel, by decide +kernel, by decide +kernel,
    by decide +kernel, by decide +kernel⟩

end Verif
