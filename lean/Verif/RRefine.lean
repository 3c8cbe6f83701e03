import Verif.RSpec

/-!
# Resources: the calls refine the abstract machine
-/

namespace Verif
open World RView

/-- a queue without the component -/
theorem filter_split {l1 l2 : List QMem} {x : QMem} (hn : ((l1 ++ x :: l2).map QMem.c).Nodup) :
    (l1 ++ x :: l2).filter (fun m => m.c != x.c) = l1 ++ l2 := by
  simp only [List.map_append, List.map_cons, List.nodup_append, List.nodup_cons, List.mem_map, List.mem_cons] at hn
  obtain ⟨_, ⟨h2, _⟩, h3⟩ := hn
  rw [List.filter_append, List.filter_cons, if_neg (by simp)]
  congr 1
  · refine List.filter_eq_self.2 fun a ha => ?_
    have := h3 a.c ⟨a, ha, rfl⟩ x.c (.inl rfl)
    simpa using this
  · refine List.filter_eq_self.2 fun a ha => ?_
    have : a.c ≠ x.c := fun h => h2 ⟨a, ha, h⟩
    simpa using this

theorem leaveQ_run {c : CId} {q : QRef} {w : World} (hn : (w.inQ q).Nodup) (hc : c ∈ w.inQ q) :
    ∃ q', leaveQ c q w = .ok (w.modQ q (fun _ => q')) ∧ q'.mem = (w.queues q).mem.filter (fun m => m.c != c) ∧
      q'.cap = (w.queues q).cap := by
  unfold leaveQ onQueue
  cases h : (w.queues q).leave w.now c with
  | ok q' =>
    refine ⟨q', by simp only [h], ?_⟩
    obtain ⟨l1, l2, x, h1, h2, h3⟩ := Queue.leave_ok h
    unfold World.inQ at hn
    rw [h1] at hn ⊢
    rw [← h2, filter_split hn, h3]
    exact ⟨rfl, rfl⟩
  | notOk e =>
    exfalso
    unfold Queue.leave at h
    split at h
    · rename_i hf
      unfold Queue.find at hf
      rw [List.find?_eq_none] at hf
      unfold World.inQ at hc
      obtain ⟨m, hm, hmc⟩ := List.mem_map.1 hc
      exact hf m hm (by simp [hmc])
    · cases h

theorem enterSortedQ_run {c : CId} {q : QRef} {p : Rat} {w : World} (hk : (w.queues q).cap = ⊤) (hc : c ∉ w.inQ q) :
    ∃ q' x, enterSortedQ c q p w = .ok (w.modQ q (fun _ => q')) ∧ x.c = c ∧ x.prio = p ∧ Inserted (w.queues q).mem q'.mem x ∧
      q'.cap = (w.queues q).cap := by
  unfold enterSortedQ onQueue
  cases h : (w.queues q).enterSorted w.now c p with
  | ok q' =>
    obtain ⟨l1, l2, x, h1, h2, h3, h4⟩ := Queue.enterSorted_ok h
    refine ⟨q', x, by simp only [h], h1.xc, h3, ⟨l1, l2, h1.mem, by rw [h1.eq], fun hs => ⟨(h2 hs).1, h3 ▸ h4 hs⟩⟩, ?_⟩
    rw [h1.eq]
  | notOk e =>
    exfalso
    unfold Queue.enterSorted at h
    split at h
    · rename_i hf
      obtain ⟨m, hm, hmc⟩ := (Queue.has_iff _ _).1 hf
      exact hc (List.mem_map.2 ⟨m, hm, hmc⟩)
    · unfold Queue.insert at h
      rw [hk] at h
      rw [if_neg] at h
      · cases h
      · exact not_lt_of_ge le_top

theorem enterSortedQ_in {c : CId} {q : QRef} {p : Rat} {w : World} (hc : c ∈ w.inQ q) :
    (enterSortedQ c q p w).world = w := by
  have : (w.queues q).has c = true := by
    obtain ⟨m, hm, hmc⟩ := List.mem_map.1 hc
    exact (Queue.has_iff _ _).2 ⟨m, hm, hmc⟩
  simp [enterSortedQ, onQueue, Queue.enterSorted, this, R.world]

/-! ## failing -/

/-- `c` has left the requesters of the resources in `l` -/
structure LeftReqs (c : CId) (l : List RId) (v v' : RView) : Prop where
  comps : v'.comps = v.comps
  res : v'.res = v.res
  clms : v'.clms = v.clms
  reqs : ∀ r, v'.reqs r = (if r ∈ l then (v.reqs r).1.filter (fun m => m.c != c) else (v.reqs r).1, (v.reqs r).2)

theorem leaveRequesters_run {c : CId} {r : RId} {w : World} (hn : (w.rv.reqQ r).Nodup) (hc : c ∈ w.rv.reqQ r) :
    ∃ w', leaveRequesters c r w = .ok w' ∧ LeftReqs c [r] w.rv w'.rv ∧ w'.comps = w.comps := by
  obtain ⟨q', h1, h2, h3⟩ := leaveQ_run (q := .requesters r) hn hc
  unfold leaveRequesters
  rw [h1]
  simp only [R.andThen]
  refine ⟨_, rfl, ?_, ?_⟩
  · have key : LeftReqs c [r] w.rv (w.modQ (.requesters r) (fun _ => q')).rv := by
      refine ⟨rfl, rfl, ?_, ?_⟩
      · simp [World.rv, World.modQ]
      · intro s
        by_cases hs : s = r
        · subst hs; simp [World.rv, World.modQ, h2, h3]
        · simp [World.rv, World.modQ, hs]
    split
    · rw [rv_modR]
      · exact key
      · intro _; rfl
    · exact key
  · split <;> rfl

theorem leaveReqs_run {c : CId} (l : List RId) : ∀ {w : World}, l.Nodup → (∀ r, (w.rv.reqQ r).Nodup) → (∀ r ∈ l, c ∈ w.rv.reqQ r) →
    ∃ w', forR l (leaveRequesters c) w = .ok w' ∧ LeftReqs c l w.rv w'.rv ∧ w'.comps = w.comps := by
  induction l with
  | nil =>
    intro w _ _ _
    exact ⟨w, rfl, ⟨rfl, rfl, rfl, fun r => by simp⟩, rfl⟩
  | cons r t ih =>
    intro w hl hn hc
    obtain ⟨w1, h1, h2, h3⟩ := leaveRequesters_run (hn r) (hc r List.mem_cons_self)
    rw [List.nodup_cons] at hl
    have hq : ∀ s, w1.rv.reqQ s = if s = r then (w.rv.reqQ s).filter (fun d => d != c) else w.rv.reqQ s := by
      intro s
      unfold reqQ
      rw [h2.reqs s]
      by_cases hs : s = r
      · subst hs; simp [List.filter_map]; rfl
      · simp [hs]
    obtain ⟨w2, k1, k2, k3⟩ := ih (w := w1) hl.2
      (fun s => by rw [hq]; split; exact (hn s).filter _; exact hn s)
      (fun s hs => by
        rw [hq, if_neg]
        · exact hc s (List.mem_cons_of_mem _ hs)
        · rintro rfl; exact hl.1 hs)
    refine ⟨w2, by unfold forR; rw [h1]; exact k1, ⟨k2.comps.trans h2.comps, k2.res.trans h2.res, k2.clms.trans h2.clms, fun s => ?_⟩, k3.trans h3⟩
    rw [k2.reqs s, h2.reqs s]
    by_cases hs : s = r
    · subst hs; simp [hl.1]
    · simp [hs]

theorem filter_absent {l : List QMem} {c : CId} (h : c ∉ l.map QMem.c) : l.filter (fun m => m.c != c) = l := by
  refine List.filter_eq_self.2 fun a ha => ?_
  have : a.c ≠ c := fun hh => h (List.mem_map.2 ⟨a, ha, hh⟩)
  simpa using this

theorem fail_step {w : World} (h : w.rv.Coh) (c : CId) : Fail c w.rv (checkFailReq c w).world.rv := by
  have habs : ∀ r, r ∉ keys (w.comps c).requests → (w.rv.reqs r).1.filter (fun m => m.c != c) = (w.rv.reqs r).1 :=
    fun r hr => filter_absent (fun hh => hr ((h.rq c r).1 hh))
  unfold checkFailReq
  split
  · rename_i h0
    refine ⟨fun _ _ => rfl, ?_, rfl, rfl, fun r => ?_⟩
    · show (w.comps c).rc = { (w.comps c).rc with requests := [] }
      simp only [Comp.rc, h0]
    · show w.rv.reqs r = _
      rw [habs r (by rw [h0]; simp [keys])]
  · obtain ⟨w1, h1, h2, h3⟩ := leaveReqs_run (keys (w.comps c).requests) (h.rk c) h.rnd (fun r hr => (h.rq c r).2 hr)
    rw [h1]
    refine ⟨fun d hd => ?_, ?_, h2.res, h2.clms, fun r => ?_⟩
    · simp [R.andThen, R.world, World.rv, World.modC, hd, h3]
    · simp [R.andThen, R.world, World.rv, World.modC, Comp.rc, h3]
    · show w1.rv.reqs r = _
      rw [h2.reqs r]
      by_cases hr : r ∈ keys (w.comps c).requests
      · simp [hr]
      · simp [hr, habs r hr]

/-! ## honoring -/

/-- the requests in `l` have been dealt with -/
structure Claimed (c : CId) (hon : List RId) (l : List (RId × Rat)) (v v' : RView) : Prop where
  other : ∀ d, d ≠ c → v'.comps d = v.comps d
  requests : (v'.comps c).requests = (v.comps c).requests
  oneof : (v'.comps c).oneof = (v.comps c).oneof
  ck : (keys (v'.comps c).claims).Nodup
  keys : ∀ r, r ∈ Verif.keys (v'.comps c).claims ↔ r ∈ Verif.keys (v.comps c).claims ∨
    (r ∈ hon ∧ (v.res r).anonymous = false ∧ r ∈ Verif.keys l)
  claim : ∀ r, v'.claim c r = v.claim c r + (if r ∈ hon ∧ (v.res r).anonymous = false then (lookup l r).getD 0 else 0)
  res : ∀ r, v'.res r = { v.res r with claimed := (v.res r).claimed + (if r ∈ hon then (lookup l r).getD 0 else 0) }
  reqs : ∀ r, v'.reqs r = (if r ∈ Verif.keys l then (v.reqs r).1.filter (fun m => m.c != c) else (v.reqs r).1, (v.reqs r).2)
  ccap : ∀ r, (v'.clms r).2 = (v.clms r).2
  clms : ∀ r, if r ∈ hon ∧ (v.res r).anonymous = false ∧ r ∈ Verif.keys l ∧ c ∉ v.clmQ r then
      ∃ x m, x.c = c ∧ m ∈ (v.reqs r).1 ∧ m.c = c ∧ x.prio = m.prio ∧ Inserted (v.clms r).1 (v'.clms r).1 x
    else (v'.clms r).1 = (v.clms r).1

theorem nodup_keys_addTo {l : List (RId × Rat)} (h : (keys l).Nodup) (r : RId) (q : Rat) : (keys (addTo l r q)).Nodup := by
  rw [keys_addTo]
  split
  · exact h
  · rename_i hr
    exact List.nodup_append.2 ⟨h, by simp, fun a ha b hb hab => by simp at hb; subst hb; exact hr (hab ▸ ha)⟩


theorem claimOne_run {c : CId} {hon : List RId} {p : RId × Rat} {w : World} (hn : (w.rv.reqQ p.1).Nodup) (hc : c ∈ w.rv.reqQ p.1)
    (hk : (w.rv.clms p.1).2 = ⊤) (ck : (keys (w.comps c).claims).Nodup) :
    ∃ w', claimOne c hon p w = .ok w' ∧ Claimed c hon [p] w.rv w'.rv := by
  obtain ⟨r, q⟩ := p
  have hk1 : ∀ s, s ∈ keys [(r, q)] ↔ s = r := by intro s; simp [keys]
  have hl1 : ∀ s, lookup [(r, q)] s = if s = r then some q else none := by
    intro s; rw [lookup_cons]; simp only [lookup]; by_cases h : r = s
    · simp [h]
    · simp [h, Ne.symm h]
  unfold claimOne
  simp only at hn hc hk ⊢
  by_cases hr : r ∈ hon
  · rw [if_pos hr]
    have hfind : ∃ m, (w.queues (.requesters r)).find c = some m ∧ m ∈ (w.queues (.requesters r)).mem ∧ m.c = c := by
      cases hf : (w.queues (.requesters r)).find c with
      | none =>
        unfold Queue.find at hf
        rw [List.find?_eq_none] at hf
        obtain ⟨m, hm, hmc⟩ := List.mem_map.1 hc
        exact absurd hmc (by simpa using hf m hm)
      | some m =>
        unfold Queue.find at hf
        exact ⟨m, rfl, List.mem_of_find?_eq_some hf, by simpa using List.find?_some hf⟩
    obtain ⟨m, hf, hm, hmc⟩ := hfind
    have hf' : ((w.modR r (fun x => { x with claimed := x.claimed + q, log := x.log.claims w.now x.cap (x.claimed + q) })).queues (.requesters r)).find c = some m := hf
    simp only [hf']
    by_cases ha : (w.res r).anonymous = true
    · have ha' : ((w.modR r (fun x => { x with claimed := x.claimed + q, log := x.log.claims w.now x.cap (x.claimed + q) })).res r).anonymous = true := by simp [World.modR, ha]
      rw [if_pos ha']
      obtain ⟨w', h1, h2, h3⟩ := leaveRequesters_run (c := c) (r := r) (w := w.modR r (fun x => { x with claimed := x.claimed + q, log := x.log.claims w.now x.cap (x.claimed + q) })) hn hc
      have hcomps : w'.rv.comps = w.rv.comps := h2.comps
      have hclms : w'.rv.clms = w.rv.clms := h2.clms
      have hav : (w.rv.res r).anonymous = true := ha
      refine ⟨w', h1, ⟨fun d _ => by rw [hcomps], by rw [hcomps], by rw [hcomps], by rw [hcomps]; exact ck, fun s => ?_, fun s => ?_, fun s => ?_,
        fun s => ?_, fun s => by rw [hclms], fun s => ?_⟩⟩
      · rw [hcomps, hk1]
        by_cases hs : s = r
        · subst hs; simp [hav]
        · simp [hs]
      · unfold claim; rw [hcomps, hl1]
        by_cases hs : s = r
        · subst hs; simp [hav]
        · simp [hs]
      · rw [h2.res, hl1]
        by_cases hs : s = r
        · subst hs; simp [World.rv, World.modR, Res.rv, hr]
        · simp [World.rv, World.modR, hs]
      · rw [h2.reqs]
        by_cases hs : s = r
        · subst hs; simp [hk1]; exact ⟨rfl, rfl⟩
        · simp [hk1, hs]; rfl
      · rw [if_neg, hclms]
        rintro ⟨_, h4, h5, _⟩
        rw [hk1] at h5; subst h5; rw [hav] at h4; cases h4
    · have hav : (w.rv.res r).anonymous = false := by
        show (w.res r).anonymous = false
        simpa using ha
      have ha' : ¬ ((w.modR r (fun x => { x with claimed := x.claimed + q, log := x.log.claims w.now x.cap (x.claimed + q) })).res r).anonymous = true := by simp [World.modR, ha]
      rw [if_neg ha']
      unfold enterClaimers
      by_cases hcl : c ∈ w.rv.clmQ r
      · rw [if_pos]
        swap
        · obtain ⟨m, hm, hmc⟩ := List.mem_map.1 hcl
          exact (Queue.has_iff _ _).2 ⟨m, hm, hmc⟩
        obtain ⟨w', h1, h2, h3⟩ := leaveRequesters_run (c := c) (r := r) (w := (w.modR r (fun x => { x with claimed := x.claimed + q, log := x.log.claims w.now x.cap (x.claimed + q) })).modC c
          (fun x => { x with claims := addTo x.claims r q })) hn hc
        have hclms : w'.rv.clms = w.rv.clms := h2.clms
        have hcomp : w'.rv.comps c = { w.rv.comps c with claims := addTo (w.rv.comps c).claims r q } := by
          rw [h2.comps]; simp [World.rv, World.modC, World.modR, Comp.rc]
        refine ⟨w', h1, ⟨fun d hd => ?_, by rw [hcomp], by rw [hcomp], by rw [hcomp]; exact nodup_keys_addTo ck _ _, fun s => ?_, fun s => ?_, fun s => ?_,
          fun s => ?_, fun s => by rw [hclms], fun s => ?_⟩⟩
        · rw [h2.comps]; simp [World.rv, World.modC, World.modR, hd]
        · rw [hcomp, hk1]
          show s ∈ keys (addTo _ _ _) ↔ _
          rw [keys_addTo]
          by_cases hs : s = r
          · subst hs; simp only [hr, hav, true_and]; split <;> simp [*]
          · split <;> simp [hs]
        · unfold claim; rw [hcomp, hl1]
          simp only [lookup_addTo]
          by_cases hs : s = r
          · subst hs; simp [hr, hav]
          · simp [hs]
        · rw [h2.res, hl1]
          by_cases hs : s = r
          · subst hs; simp [World.rv, World.modR, World.modC, Res.rv, hr]
          · simp [World.rv, World.modR, World.modC, hs]
        · rw [h2.reqs]
          by_cases hs : s = r
          · subst hs; simp [hk1]; exact ⟨rfl, rfl⟩
          · simp [hk1, hs]; rfl
        · rw [if_neg, hclms]
          rintro ⟨_, _, h5, h6⟩
          rw [hk1] at h5; subst h5; exact h6 hcl
      · rw [if_neg]
        swap
        · intro hh
          obtain ⟨m, hm, hmc⟩ := (Queue.has_iff _ _).1 hh
          exact hcl (List.mem_map.2 ⟨m, hm, hmc⟩)
        obtain ⟨q', x, k1, k2, k3, k4, k5⟩ := enterSortedQ_run (c := c) (q := .claimers r) (p := m.prio)
          (w := (w.modR r (fun x => { x with claimed := x.claimed + q, log := x.log.claims w.now x.cap (x.claimed + q) })).modC c (fun x => { x with claims := addTo x.claims r q })) hk hcl
        rw [k1]
        simp only [R.andThen]
        obtain ⟨w', h1, h2, h3⟩ := leaveRequesters_run (c := c) (r := r) (w := ((w.modR r (fun x => { x with claimed := x.claimed + q, log := x.log.claims w.now x.cap (x.claimed + q) })).modC c
          (fun x => { x with claims := addTo x.claims r q })).modQ (.claimers r) (fun _ => q')) (by simpa [World.modQ, World.modR, World.modC, reqQ, World.rv] using hn)
          (by simpa [World.modQ, World.modR, World.modC, reqQ, World.rv] using hc)
        have hclms : ∀ s, w'.rv.clms s = if s = r then (q'.mem, q'.cap) else w.rv.clms s := by
          intro s
          rw [h2.clms]
          by_cases hs : s = r
          · subst hs; simp [World.rv, World.modQ]
          · simp [World.rv, World.modQ, hs]; exact ⟨rfl, rfl⟩
        have hcomp : w'.rv.comps c = { w.rv.comps c with claims := addTo (w.rv.comps c).claims r q } := by
          rw [h2.comps]; simp [World.rv, World.modC, World.modR, World.modQ, Comp.rc]
        refine ⟨w', h1, ⟨fun d hd => ?_, by rw [hcomp], by rw [hcomp], by rw [hcomp]; exact nodup_keys_addTo ck _ _, fun s => ?_, fun s => ?_, fun s => ?_,
          fun s => ?_, fun s => ?_, fun s => ?_⟩⟩
        · rw [h2.comps]; simp [World.rv, World.modC, World.modR, World.modQ, hd]
        · rw [hcomp, hk1]
          show s ∈ keys (addTo _ _ _) ↔ _
          rw [keys_addTo]
          by_cases hs : s = r
          · subst hs; simp only [hr, hav, true_and]; split <;> simp [*]
          · split <;> simp [hs]
        · unfold claim; rw [hcomp, hl1]
          simp only [lookup_addTo]
          by_cases hs : s = r
          · subst hs; simp [hr, hav]
          · simp [hs]
        · rw [h2.res, hl1]
          by_cases hs : s = r
          · subst hs; simp [World.rv, World.modR, World.modC, World.modQ, Res.rv, hr]
          · simp [World.rv, World.modR, World.modC, World.modQ, hs]
        · rw [h2.reqs]
          by_cases hs : s = r
          · subst hs; simp [hk1, World.rv, World.modQ]; exact ⟨rfl, rfl⟩
          · simp [hk1, hs, World.rv, World.modQ]; exact ⟨rfl, rfl⟩
        · rw [hclms]
          by_cases hs : s = r
          · subst hs; simp only [if_true]; exact k5
          · simp [hs]
        · by_cases hs : s = r
          · subst hs
            rw [if_pos ⟨hr, hav, by simp [hk1], hcl⟩, hclms, if_pos rfl]
            exact ⟨x, m, k2, hm, hmc, k3, k4⟩
          · rw [if_neg, hclms, if_neg hs]
            rintro ⟨_, _, h5, _⟩
            exact hs ((hk1 s).1 h5)
  · rw [if_neg hr]
    obtain ⟨w', h1, h2, h3⟩ := leaveRequesters_run (c := c) (r := r) (w := w) hn hc
    refine ⟨w', h1, ⟨fun d _ => by rw [h2.comps], by rw [h2.comps], by rw [h2.comps], by rw [h2.comps]; exact ck, fun s => ?_, fun s => ?_, fun s => ?_,
      fun s => ?_, fun s => by rw [h2.clms], fun s => ?_⟩⟩
    · rw [h2.comps, hk1]
      by_cases hs : s = r
      · subst hs; simp [hr]
      · simp [hs]
    · unfold claim; rw [h2.comps, hl1]
      by_cases hs : s = r
      · subst hs; simp [hr]
      · simp [hs]
    · rw [h2.res, hl1]
      by_cases hs : s = r
      · subst hs; simp [hr]
      · simp [hs]
    · rw [h2.reqs]
      by_cases hs : s = r
      · subst hs; simp [hk1]
      · simp [hk1, hs]
    · rw [if_neg, h2.clms]
      rintro ⟨h4, _, h5, _⟩
      rw [hk1] at h5; subst h5; exact hr h4


theorem Claimed.trans {c : CId} {hon : List RId} {p : RId × Rat} {l : List (RId × Rat)} {v v1 v2 : RView} (hp : p.1 ∉ Verif.keys l)
    (h1 : Claimed c hon [p] v v1) (h2 : Claimed c hon l v1 v2) : Claimed c hon (p :: l) v v2 := by
  obtain ⟨r, q⟩ := p
  simp only at hp
  have hk1 : ∀ s, s ∈ Verif.keys [(r, q)] ↔ s = r := by intro s; simp [Verif.keys]
  have hk2 : ∀ s, s ∈ Verif.keys ((r, q) :: l) ↔ s = r ∨ s ∈ Verif.keys l := by intro s; simp [Verif.keys]
  have hl1 : ∀ s, lookup [(r, q)] s = if s = r then some q else none := by
    intro s; rw [lookup_cons]; simp only [lookup]; by_cases h : r = s
    · simp [h]
    · simp [h, Ne.symm h]
  have hl2 : ∀ s, lookup ((r, q) :: l) s = if s = r then some q else lookup l s := by
    intro s; rw [lookup_cons]; by_cases h : r = s
    · simp [h]
    · simp [h, Ne.symm h]
  have hl0 : lookup l r = none := lookup_none.2 hp
  have ha : ∀ s, (v1.res s).anonymous = (v.res s).anonymous := fun s => by rw [h1.res]
  refine ⟨fun d hd => (h2.other d hd).trans (h1.other d hd), h2.requests.trans h1.requests, h2.oneof.trans h1.oneof, h2.ck, fun s => ?_, fun s => ?_,
    fun s => ?_, fun s => ?_, fun s => (h2.ccap s).trans (h1.ccap s), fun s => ?_⟩
  · rw [h2.keys, h1.keys, ha, hk1, hk2]; tauto
  · rw [h2.claim, h1.claim, ha, hl1, hl2]
    by_cases hs : s = r
    · subst hs; simp [hl0]
    · simp [hs]
  · rw [h2.res, h1.res, hl1, hl2]
    by_cases hs : s = r
    · subst hs; simp [hl0]
    · simp [hs]
  · rw [h2.reqs, h1.reqs]
    simp only [hk1, hk2]
    by_cases hs : s = r
    · subst hs; simp [hp]
    · simp [hs]
  · have e1 := h1.clms s
    have e2 := h2.clms s
    rw [ha, ] at e2
    by_cases hs : s = r
    · subst hs
      rw [if_neg (fun hh => hp hh.2.2.1)] at e2
      rw [e2]
      simpa [hk1, hk2] using e1
    · rw [if_neg (fun hh => hs ((hk1 s).1 hh.2.2.1))] at e1
      have e3 : (v1.reqs s).1 = (v.reqs s).1 := by rw [h1.reqs, if_neg (fun hh => hs ((hk1 s).1 hh))]
      unfold clmQ at e2
      rw [e1, e3] at e2
      have e4 : v.clmQ s = (v.clms s).1.map QMem.c := rfl
      simp only [hk2, hs, false_or, e4]; exact e2

theorem claimLoop_run {c : CId} {hon : List RId} (l : List (RId × Rat)) : ∀ {w : World}, (keys l).Nodup → (∀ r, (w.rv.reqQ r).Nodup) →
    (∀ r ∈ keys l, c ∈ w.rv.reqQ r) → (∀ r, (w.rv.clms r).2 = ⊤) → (keys (w.comps c).claims).Nodup →
    ∃ w', forR l (claimOne c hon) w = .ok w' ∧ Claimed c hon l w.rv w'.rv := by
  induction l with
  | nil =>
    intro w _ _ _ _ ck
    refine ⟨w, rfl, ⟨fun _ _ => rfl, rfl, rfl, ck, fun r => ?_, fun r => ?_, fun r => ?_, fun r => ?_, fun r => rfl, fun r => ?_⟩⟩
    · simp [keys]
    · simp [lookup]
    · simp [lookup]
    · simp [keys]
    · simp [keys]
  | cons p t ih =>
    intro w hl hn hc hk ck
    obtain ⟨w1, h1, h2⟩ := claimOne_run (hon := hon) (hn p.1) (hc p.1 (by simp [keys])) (hk p.1) ck
    have hl' : p.1 ∉ keys t ∧ (keys t).Nodup := by simpa [keys] using hl
    have hq : ∀ s, w1.rv.reqQ s = if s = p.1 then (w.rv.reqQ s).filter (fun d => d != c) else w.rv.reqQ s := by
      intro s
      unfold reqQ
      rw [h2.reqs s]
      by_cases hs : s = p.1
      · subst hs; simp [List.filter_map, keys]; rfl
      · simp [hs, keys]
    obtain ⟨w2, k1, k2⟩ := ih (w := w1) hl'.2
      (fun s => by rw [hq]; split; exact (hn s).filter _; exact hn s)
      (fun s hs => by
        rw [hq, if_neg]
        · exact hc s (by simp only [keys, List.map_cons]; exact List.mem_cons_of_mem _ hs)
        · rintro rfl; exact hl'.1 hs)
      (fun s => by rw [h2.ccap]; exact hk s) h2.ck
    exact ⟨w2, by unfold forR; rw [h1]; exact k1, Claimed.trans hl'.1 h2 k2⟩

theorem honored_facts {w : World} (h : w.rv.Coh) {c : CId} {r : RId} (hr : r ∈ honored w c) :
    ∃ q, w.rv.wants c r = some q ∧ canHonor w c r q = true := by
  unfold honored honorAny honorAll at hr
  split at hr
  · split at hr
    · rename_i p hp
      simp only [List.mem_singleton] at hr
      subst hr
      have h1 := List.mem_of_find?_eq_some hp
      have h2 := List.find?_some hp
      exact ⟨p.2, lookup_mem (h.rk c) h1, h2⟩
    · cases hr
  · simp only at hr
    split at hr
    · rename_i ha
      obtain ⟨q, hq⟩ := mem_keys.1 hr
      exact ⟨q, lookup_mem (h.rk c) hq, List.all_eq_true.1 ha _ hq⟩
    · cases hr

theorem subQ_le {a : ETime} {b q : Rat} (h : (q : ETime) ≤ ETime.subQ a b + (eps : ETime)) : ((b + q : Rat) : ETime) ≤ a + (eps : ETime) := by
  cases a with
  | none => exact le_top
  | some a =>
    have : q ≤ a - b + eps := WithTop.coe_le_coe.1 h
    have : b + q ≤ a + eps := by linarith
    exact WithTop.coe_le_coe.2 this

theorem le_subQ {a : ETime} {b q : Rat} (h : ((b + q : Rat) : ETime) ≤ a + (eps : ETime)) : (q : ETime) ≤ ETime.subQ a b + (eps : ETime) := by
  cases a with
  | none => exact le_top
  | some a =>
    have : b + q ≤ a + eps := WithTop.coe_le_coe.1 h
    have : q ≤ a - b + eps := by linarith
    exact WithTop.coe_le_coe.2 this

theorem canHonor_could {w : World} (h : w.rv.Coh) {c : CId} {r : RId} {q : Rat} (hc : Could c r q w.rv) : canHonor w c r q = true := by
  unfold canHonor
  simp only [Bool.and_eq_true]
  refine ⟨⟨?_, ?_⟩, ?_⟩
  · cases hf : (w.res r).honorFirst with
    | false => simp
    | true =>
      have h1 := hc.first hf
      unfold reqQ at h1
      rw [List.head?_map] at h1
      have h1 : (headQ w (.requesters r)).map QMem.c = some c := h1
      simp [h1]
  · cases hf : (w.res r).honorHighest with
    | false => simp
    | true =>
      obtain ⟨m, hm, hmc, y, hy, he⟩ := hc.highest hf
      have h2 : (w.queues (.requesters r)).find c = some m := by
        have hnd := h.rnd r
        unfold reqQ at hnd
        have hm' : m ∈ (w.queues (.requesters r)).mem := hm
        have hnd' : ((w.queues (.requesters r)).mem.map QMem.c).Nodup := hnd
        unfold Queue.find
        revert hm' hnd'
        generalize (w.queues (.requesters r)).mem = l
        intro hm' hnd'
        induction l with
        | nil => cases hm'
        | cons a t ih =>
          rw [List.map_cons, List.nodup_cons] at hnd'
          rcases List.mem_cons.1 hm' with rfl | hmt
          · simp [List.find?_cons, hmc]
          · have : a.c ≠ c := fun e => hnd'.1 (by rw [e, ← hmc]; exact List.mem_map_of_mem hmt)
            rw [List.find?_cons_of_neg (by simpa using this)]
            exact ih hmt hnd'.2
      have hy' : headQ w (.requesters r) = some y := hy
      rw [h2, hy']
      simp [he]
  · by_cases hq : 0 < q
    · rw [if_pos hq]
      exact decide_eq_true (le_subQ (hc.fits.1 hq))
    · rw [if_neg hq]
      have : 0 ≤ (w.res r).claimed + q + eps := hc.fits.2 (not_lt.1 hq)
      exact decide_eq_true (by linarith)

theorem honor_step {w : World} (h : w.rv.Coh) (c : CId) (hne : honored w c ≠ []) :
    ∃ w', (forR (w.comps c).requests (claimOne c (honored w c)) w ⊳ fun w => .ok (w.modC c (fun x => { x with requests := [] }))) = .ok w' ∧
      Honor c (honored w c) w.rv w'.rv := by
  obtain ⟨w1, h1, h2⟩ := claimLoop_run (hon := honored w c) (w.comps c).requests (h.rk c) h.rnd (fun r hr => (h.rq c r).2 hr)
    (fun r => (h.capq r).2) (h.ck c)
  have hsub : ∀ r ∈ honored w c, r ∈ keys (w.comps c).requests := fun r hr => by
    obtain ⟨q, hq, _⟩ := honored_facts h hr
    exact lookup_isSome.1 ⟨q, hq⟩
  have habs : ∀ r, r ∉ keys (w.comps c).requests → (w.rv.reqs r).1.filter (fun m => m.c != c) = (w.rv.reqs r).1 :=
    fun r hr => filter_absent (fun hh => hr ((h.rq c r).1 hh))
  rw [h1]
  refine ⟨_, rfl, ?_⟩
  have hc2 : ∀ d, d ≠ c → (w1.modC c (fun x => { x with requests := [] })).rv.comps d = w1.rv.comps d := fun d hd => by
    simp [World.rv, World.modC, hd]
  have hc1 : (w1.modC c (fun x => { x with requests := [] })).rv.comps c = { w1.rv.comps c with requests := [] } := by
    simp [World.rv, World.modC, Comp.rc]
  refine ⟨hne, hsub, fun ho r hr => ?_, fun ho => ?_, fun ho => ?_, fun r q hr hq => ?_, fun r hr hf => ?_, fun r hr hf => ?_, fun d hd => ?_, ?_, ?_, ?_, fun r => ?_,
    fun r => ?_, fun r => h2.res r, fun r => ?_, fun r => h2.ccap r, fun r => ?_⟩
  · have ho' : (w.comps c).oneof = false := ho
    unfold honored honorAll at hne ⊢
    simp only [ho', Bool.false_eq_true, if_false] at hne ⊢
    split
    · exact hr
    · rename_i hh; simp [hh] at hne
  · have ho' : (w.comps c).oneof = true := ho
    unfold honored honorAny at hne ⊢
    simp only [ho', if_true] at hne ⊢
    split
    · exact ⟨_, rfl⟩
    · rename_i hh; simp [hh] at hne
  · have ho' : (w.comps c).oneof = true := ho
    unfold honored honorAny at hne ⊢
    simp only [ho', if_true] at hne ⊢
    split
    · rename_i p hp
      obtain ⟨_, l1, l2, e, hl⟩ := List.find?_eq_some_iff_append.1 hp
      refine ⟨l1, p, l2, e, rfl, fun x hx hcd => ?_⟩
      have := hl x hx
      rw [canHonor_could h hcd] at this
      cases this
    · rename_i hh; simp [hh] at hne
  · obtain ⟨q', hq', hcan⟩ := honored_facts h hr
    rw [hq] at hq'; cases hq'
    unfold canHonor at hcan
    simp only [Bool.and_eq_true] at hcan
    have hcan := hcan.2
    refine ⟨fun hpos => ?_, fun hpos => ?_⟩
    · rw [if_pos hpos] at hcan
      have hcan := of_decide_eq_true hcan
      exact subQ_le hcan
    · rw [if_neg (not_lt.2 hpos)] at hcan
      have hcan := of_decide_eq_true hcan
      show 0 ≤ (w.res r).claimed + q + eps
      linarith
  · obtain ⟨q', hq', hcan⟩ := honored_facts h hr
    unfold canHonor at hcan
    simp only [Bool.and_eq_true] at hcan
    have hcan := hcan.1.1
    have hf' : (w.res r).honorFirst = true := hf
    simp [hf'] at hcan
    unfold reqQ
    rw [List.head?_map]
    exact Option.map_eq_some_iff.2 hcan
  · obtain ⟨q', hq', hcan⟩ := honored_facts h hr
    unfold canHonor at hcan
    simp only [Bool.and_eq_true] at hcan
    have hcan := hcan.1.2
    have hf' : (w.res r).honorHighest = true := hf
    simp only [hf', Bool.true_and, Bool.not_eq_true', bne_eq_false_iff_eq] at hcan
    have hin := (h.rq c r).2 (hsub r hr)
    obtain ⟨m, hm, hmc⟩ := List.mem_map.1 hin
    cases hfd : (w.queues (.requesters r)).find c with
    | none =>
      unfold Queue.find at hfd
      rw [List.find?_eq_none] at hfd
      exact absurd hmc (by simpa using hfd m hm)
    | some m =>
      rw [hfd] at hcan
      unfold Queue.find at hfd
      refine ⟨m, List.mem_of_find?_eq_some hfd, by simpa using List.find?_some hfd, ?_⟩
      obtain ⟨y, hy, hy2⟩ := Option.map_eq_some_iff.1 hcan.symm
      exact ⟨y, hy, hy2.symm⟩
  · exact (hc2 d hd).trans (h2.other d hd)
  · rw [hc1]
  · rw [hc1]; exact h2.oneof
  · rw [hc1]; exact h2.ck
  · rw [hc1]
    show r ∈ keys (w1.rv.comps c).claims ↔ _
    rw [h2.keys]
    constructor
    · rintro (h3 | ⟨h3, h4, _⟩)
      · exact .inl h3
      · exact .inr ⟨h3, h4⟩
    · rintro (h3 | ⟨h3, h4⟩)
      · exact .inl h3
      · exact .inr ⟨h3, h4, hsub r h3⟩
  · have := h2.claim r
    unfold claim at this ⊢
    rw [hc1]; exact this
  · show w1.rv.reqs r = _
    rw [h2.reqs r]
    by_cases hr : r ∈ keys (w.comps c).requests
    · simp [hr]
    · simp [hr, habs r hr]
  · have := h2.clms r
    by_cases hr : r ∈ honored w c ∧ (w.rv.res r).anonymous = false ∧ c ∉ w.rv.clmQ r
    · rw [if_pos ⟨hr.1, hr.2.1, hsub r hr.1, hr.2.2⟩] at this
      rw [if_pos hr]; exact this
    · rw [if_neg (fun hh => hr ⟨hh.1, hh.2.1, hh.2.2.2⟩)] at this
      rw [if_neg hr]; exact this

/-! ## releasing -/

theorem release_step' {w : World} (h : w.rv.Coh) (c : CId) (r : RId) (a : Option Rat) :
    (lookup (w.comps c).claims r = none ∧ releaseCore c r a w = .err .value w) ∨ ∃ cl, (releaseCore c r a w).isOk = true ∧
      Release c r cl (RView.amount a cl) w.rv (releaseCore c r a w).world.rv := by
  cases hl : lookup (w.comps c).claims r with
  | none => exact .inl ⟨rfl, by unfold releaseCore; simp only [hl]⟩
  | some cl =>
    right
    refine ⟨cl, ?_⟩
    obtain ⟨q, hq, hle, hform⟩ : ∃ q, (RView.amount a cl) = q ∧ q ≤ cl ∧ releaseCore c r a w =
        (if cl - q < eps then
          leaveQ c (.claimers r) ((w.modR r (fun x => { x with claimed := x.claimed - q })).modC c
            (fun x => { x with claims := addTo x.claims r (-q) })) ⊳ fun w =>
          .ok (((if (w.queues (.claimers r)).len = 0 then w.modR r (fun x => { x with claimed := 0 }) else w).modC c
            (fun x => { x with claims := delKey x.claims r })).tallyR r)
        else .ok (((w.modR r (fun x => { x with claimed := x.claimed - q })).modC c
            (fun x => { x with claims := addTo x.claims r (-q) })).tallyR r)) := by
      cases a with
      | none => exact ⟨cl, rfl, le_refl _, by unfold releaseCore; simp only [hl]⟩
      | some x =>
        refine ⟨min x cl, rfl, min_le_right _ _, ?_⟩
        have hx : (if x > cl then cl else x) = min x cl := by
          split
          · rename_i hx; exact (min_eq_right (le_of_lt hx)).symm
          · rename_i hx; exact (min_eq_left (not_lt.1 hx)).symm
        unfold releaseCore; simp only [hl, hx]
    rw [hq, hform]
    have hin : c ∈ w.rv.clmQ r := (h.cq c r).2 (lookup_isSome.1 ⟨cl, hl⟩)
    have hlk : ∀ s, lookup (addTo (w.comps c).claims r (-q)) s = if s = r then some (cl - q) else lookup (w.comps c).claims s := by
      intro s; rw [lookup_addTo, hl]; simp [sub_eq_add_neg]
    by_cases he : cl - q < eps
    · rw [if_pos he]
      obtain ⟨q', h1, h2, h3⟩ := leaveQ_run (c := c) (q := .claimers r) (w := (w.modR r (fun x => { x with claimed := x.claimed - q })).modC c
        (fun x => { x with claims := addTo x.claims r (-q) })) (h.cnd r) hin
      rw [h1]
      simp only [R.andThen, R.isOk, R.world]
      refine ⟨trivial, ?_⟩
      generalize hwa : (((w.modR r (fun x => { x with claimed := x.claimed - q })).modC c
        (fun x => { x with claims := addTo x.claims r (-q) })).modQ (.claimers r) (fun _ => q')) = wa
      have a1 : ∀ d, d ≠ c → wa.comps d = w.comps d := by intro d hd; rw [← hwa]; simp [World.modQ, World.modC, World.modR, hd]
      have a2 : wa.comps c = { w.comps c with claims := addTo (w.comps c).claims r (-q) } := by rw [← hwa]; simp [World.modQ, World.modC, World.modR]
      have a3 : wa.rv.reqs = w.rv.reqs := by rw [← hwa]; simp [World.rv, World.modQ, World.modC, World.modR]
      have a4 : ∀ s, s ≠ r → wa.res s = w.res s := by intro d hd; rw [← hwa]; simp [World.modQ, World.modC, World.modR, hd]
      have a5 : wa.res r = { w.res r with claimed := (w.res r).claimed - q } := by rw [← hwa]; simp [World.modQ, World.modC, World.modR]
      have a6 : ∀ s, s ≠ r → wa.rv.clms s = w.rv.clms s := by
        intro d hd; rw [← hwa]; simp [World.rv, World.modQ, World.modC, World.modR, hd]
      have a7 : wa.rv.clms r = ((w.rv.clms r).1.filter (fun m => m.c != c), (w.rv.clms r).2) := by
        rw [← hwa]; simp only [World.rv, World.modQ, if_true]; rw [h2, h3]; rfl
      have a8 : (wa.queues (.claimers r)).len = 0 ↔ (wa.rv.clms r).1 = [] := by
        unfold Queue.len; exact List.length_eq_zero_iff
      generalize hwb : (if (wa.queues (.claimers r)).len = 0 then wa.modR r (fun x => { x with claimed := 0 }) else wa) = wb
      have b1 : wb.comps = wa.comps := by rw [← hwb]; split <;> rfl
      have b3 : wb.rv.reqs = wa.rv.reqs := by rw [← hwb]; split <;> rfl
      have b4 : ∀ s, s ≠ r → wb.res s = wa.res s := by
        intro s hs; rw [← hwb]; split
        · simp [World.modR, hs]
        · rfl
      have b6 : wb.rv.clms = wa.rv.clms := by rw [← hwb]; split <;> rfl
      have b5 : wb.res r = { wa.res r with claimed := (if (wa.rv.clms r).1 = [] then 0 else (wa.res r).claimed) } := by
        rw [← hwb]
        by_cases h0 : (wa.queues (.claimers r)).len = 0
        · rw [if_pos h0, if_pos (a8.1 h0)]; simp [World.modR]
        · rw [if_neg h0, if_neg (fun hh => h0 (a8.2 hh))]
      have c1 : (wb.modC c (fun x => { x with claims := delKey x.claims r })).rv.comps c =
          { w.rv.comps c with claims := delKey (addTo (w.comps c).claims r (-q)) r } := by
        simp [World.rv, World.modC, b1, a2, Comp.rc]
      rw [rv_tallyR]
      refine ⟨hl, hle, fun d hd => ?_, by rw [c1], by rw [c1], ?_, fun s => ?_, ?_, fun s hs => ?_, ?_, fun s hs => ?_, ?_⟩
      · simp [World.rv, World.modC, hd, b1, a1 d hd]
      · rw [c1]
        show (keys (delKey _ _)).Nodup
        rw [keys_delKey]
        exact (nodup_keys_addTo (h.ck c) _ _).filter _
      · rw [c1]
        show lookup (delKey _ _) s = _
        rw [lookup_delKey, hlk, if_pos he]
        by_cases hs : s = r
        · simp [hs]
        · simp [hs]; rfl
      · exact b3.trans a3
      · show (wb.res s).rv = (w.res s).rv
        rw [b4 s hs, a4 s hs]
      · show (wb.res r).rv = _
        have e1 : ((wb.modC c (fun x => { x with claims := delKey x.claims r })).rv.clms r).1 = (wa.rv.clms r).1 := congrArg (fun f => (f r).1) b6
        rw [e1, b5, a5]
        simp only [he, true_and]
        rfl
      · show wb.rv.clms s = _
        rw [b6, a6 s hs]
      · show wb.rv.clms r = _
        rw [b6, a7, if_pos he]
    · rw [if_neg he]
      refine ⟨rfl, ?_⟩
      simp only [R.world]
      rw [rv_tallyR]
      refine ⟨hl, hle, fun d hd => ?_, ?_, ?_, ?_, fun s => ?_, ?_, fun s hs => ?_, ?_, fun s hs => ?_, ?_⟩
      · simp [R.world, World.rv, World.modC, World.modR, hd]
      · simp [R.world, World.rv, World.modC, World.modR, Comp.rc]
      · simp [R.world, World.rv, World.modC, World.modR, Comp.rc]
      · simp only [R.world, World.rv, World.modC, World.modR, Comp.rc, if_true]
        exact nodup_keys_addTo (h.ck c) _ _
      · simp only [R.world, World.rv, World.modC, World.modR, Comp.rc, if_true]
        rw [hlk, if_neg he]
      · rfl
      · simp [R.world, World.rv, World.modC, World.modR, hs]
      · simp [R.world, World.rv, World.modC, World.modR, he, Res.rv]
      · rfl
      · rw [if_neg he]; rfl

theorem release_step {w : World} (h : w.rv.Coh) (c : CId) (r : RId) (a : Option Rat) :
    releaseCore c r a w = .err .value w ∨ ∃ cl, (releaseCore c r a w).isOk = true ∧
      Release c r cl (RView.amount a cl) w.rv (releaseCore c r a w).world.rv :=
  (release_step' h c r a).imp And.right id

theorem ask_step {w : World} (h : w.rv.Coh) (c : CId) (r : RId) (q prio : Rat) (hq : q < 0 → (w.res r).anonymous = true) :
    Ask c r q prio w.rv (enterSortedQ c (.requesters r) prio (w.modC c (fun x => { x with requests := addTo x.requests r q }))).world.rv := by
  have e1 : ∀ d, d ≠ c → (w.modC c (fun x => { x with requests := addTo x.requests r q })).rv.comps d = w.rv.comps d := by
    intro d hd; simp [World.rv, World.modC, hd]
  have e2 : (w.modC c (fun x => { x with requests := addTo x.requests r q })).rv.comps c =
      { w.rv.comps c with requests := addTo (w.rv.comps c).requests r q } := by simp [World.rv, World.modC, Comp.rc]
  by_cases hr : r ∈ keys (w.comps c).requests
  · rw [enterSortedQ_in (w := w.modC c _) ((h.rq c r).2 hr)]
    refine ⟨e1, by rw [e2], by rw [e2], by rw [e2], hq, rfl, rfl, fun s _ => rfl, rfl, ?_⟩
    have hr' : r ∈ keys (w.rv.comps c).requests := hr
    rw [if_pos hr']; rfl
  · obtain ⟨q', x, k1, k2, k3, k4, k5⟩ := enterSortedQ_run (c := c) (q := .requesters r) (p := prio)
      (w := w.modC c (fun x => { x with requests := addTo x.requests r q })) (h.capq r).1 (fun hh => hr ((h.rq c r).1 hh))
    rw [k1]
    refine ⟨e1, (congrArg RC.claims e2 :), (congrArg RC.oneof e2 :), (congrArg RC.requests e2 :), hq, rfl, ?_, fun s hs => ?_, ?_, ?_⟩
    · simp [R.world, World.rv, World.modQ, World.modC]
    · simp [R.world, World.rv, World.modQ, World.modC, hs]
    · simp only [R.world, World.rv, World.modQ, if_true]; exact k5
    · have hr' : r ∉ keys (w.rv.comps c).requests := hr
      rw [if_neg hr']
      refine ⟨x, k2, k3, ?_⟩
      simp only [R.world, World.rv, World.modQ, if_true]; exact k4

/-! ## the steps keep the coherence -/

theorem RView.Inserted.perm {l l' : List QMem} {x : QMem} (h : Inserted l l' x) : l'.Perm (x :: l) := by
  obtain ⟨l1, l2, rfl, rfl, _⟩ := h
  exact List.perm_middle
theorem RView.Inserted.nodup {l l' : List QMem} {x : QMem} (h : Inserted l l' x) (hn : (l.map QMem.c).Nodup) (hx : x.c ∉ l.map QMem.c) :
    (l'.map QMem.c).Nodup := by
  refine ((h.perm.map _).nodup_iff).2 ?_
  rw [List.map_cons, List.nodup_cons]; exact ⟨hx, hn⟩
theorem RView.Inserted.mem {l l' : List QMem} {x : QMem} (h : Inserted l l' x) (d : CId) : d ∈ l'.map QMem.c ↔ d = x.c ∨ d ∈ l.map QMem.c := by
  rw [(h.perm.map QMem.c).mem_iff, List.map_cons, List.mem_cons]

theorem map_filter_c (l : List QMem) (c : CId) : (l.filter (fun m => m.c != c)).map QMem.c = (l.map QMem.c).filter (fun d => d != c) := by
  rw [List.filter_map]; rfl

theorem mem_map_filter {l : List QMem} {c d : CId} : d ∈ (l.filter (fun m => m.c != c)).map QMem.c ↔ d ≠ c ∧ d ∈ l.map QMem.c := by
  rw [map_filter_c, List.mem_filter]; simp [and_comm]

theorem RView.Coh.ask {v v' : RView} (h : v.Coh) {c r q prio} (s : Ask c r q prio v v') : v'.Coh := by
  have hk : ∀ x, x ∈ keys (v'.comps c).requests ↔ x = r ∨ x ∈ keys (v.comps c).requests := by
    intro x
    rw [s.requests, keys_addTo]
    split
    · rename_i hr; exact ⟨.inr, fun hh => hh.elim (fun e => e ▸ hr) id⟩
    · simp [or_comm]
  have hrq : r ∉ keys (v.comps c).requests → c ∉ v.reqQ r := fun hr hh => hr ((h.rq c r).1 hh)
  have hq : ∀ d x, d ∈ v'.reqQ x ↔ (d = c ∧ x = r) ∨ d ∈ v.reqQ x := by
    intro d x
    unfold reqQ
    by_cases hx : x = r
    · subst hx
      have := s.reqs.2
      by_cases hr : x ∈ keys (v.comps c).requests
      · rw [if_pos hr] at this
        rw [this]
        have := (h.rq c x).2 hr
        constructor
        · exact .inr
        · rintro (⟨rfl, _⟩ | hh)
          · exact this
          · exact hh
      · rw [if_neg hr] at this
        obtain ⟨m, h1, h2, h3⟩ := this
        rw [h3.mem, h1]; simp
    · rw [s.oreq x hx]; simp [hx]
  refine ⟨fun x => ?_, fun x => ?_, fun x => ?_, fun d x => ?_, fun d x => ?_, fun d => ?_, fun d => ?_, fun d x q0 hw hq0 => ?_, fun d x => ?_, fun x ha => ?_⟩
  · rw [s.clms]
    refine ⟨?_, (h.capq x).2⟩
    by_cases hx : x = r
    · subst hx; rw [s.reqs.1]; exact (h.capq x).1
    · rw [s.oreq x hx]; exact (h.capq x).1
  · by_cases hx : x = r
    · subst hx
      have := s.reqs.2
      unfold reqQ
      by_cases hr : x ∈ keys (v.comps c).requests
      · rw [if_pos hr] at this; rw [this]; exact h.rnd x
      · rw [if_neg hr] at this
        obtain ⟨m, h1, h2, h3⟩ := this
        exact h3.nodup (h.rnd x) (h1 ▸ hrq hr)
    · unfold reqQ; rw [s.oreq x hx]; exact h.rnd x
  · unfold clmQ; rw [s.clms]; exact h.cnd x
  · rw [hq]
    by_cases hd : d = c
    · subst hd; rw [hk, h.rq]; simp
    · rw [s.other d hd, h.rq]; simp [hd]
  · unfold clmQ; rw [s.clms]
    by_cases hd : d = c
    · subst hd; rw [s.claims]; exact h.cq d x
    · rw [s.other d hd]; exact h.cq d x
  · by_cases hd : d = c
    · subst hd; rw [s.requests]; exact nodup_keys_addTo (h.rk d) _ _
    · rw [s.other d hd]; exact h.rk d
  · by_cases hd : d = c
    · subst hd; rw [s.claims]; exact h.ck d
    · rw [s.other d hd]; exact h.ck d
  · rw [s.res]
    unfold wants at hw
    by_cases hd : d = c
    · subst hd
      rw [s.requests, lookup_addTo] at hw
      by_cases hx : x = r
      · subst hx
        rw [if_pos rfl] at hw
        by_cases hneg : q < 0
        · exact s.ok hneg
        · cases hl : lookup (v.comps d).requests x with
          | none => rw [hl] at hw; simp at hw; subst hw; exact absurd hq0 hneg
          | some y =>
            rw [hl] at hw; simp at hw
            refine h.pos d x y hl ?_
            push Not at hneg
            linarith
      · rw [if_neg hx] at hw; exact h.pos d x q0 hw hq0
    · rw [s.other d hd] at hw; exact h.pos d x q0 hw hq0
  · unfold claim
    by_cases hd : d = c
    · subst hd; rw [s.claims]; exact h.nneg d x
    · rw [s.other d hd]; exact h.nneg d x
  · rw [s.clms]; rw [s.res] at ha; exact h.anon x ha

theorem RView.Coh.fail {v v' : RView} (h : v.Coh) {c} (s : Fail c v v') : v'.Coh := by
  refine ⟨fun x => ?_, fun x => ?_, fun x => ?_, fun d x => ?_, fun d x => ?_, fun d => ?_, fun d => ?_, fun d x q0 hw hq0 => ?_, fun d x => ?_, fun x ha => ?_⟩
  · rw [s.clms, s.reqs]; exact h.capq x
  · unfold reqQ; rw [s.reqs, map_filter_c]; exact (h.rnd x).filter _
  · unfold clmQ; rw [s.clms]; exact h.cnd x
  · unfold reqQ; rw [s.reqs, mem_map_filter]
    by_cases hd : d = c
    · subst hd; rw [s.comp]; simp [keys]
    · rw [s.other d hd]; simp only [ne_eq, hd, not_false_eq_true, true_and]; exact h.rq d x
  · unfold clmQ; rw [s.clms]
    by_cases hd : d = c
    · subst hd; rw [s.comp]; exact h.cq d x
    · rw [s.other d hd]; exact h.cq d x
  · by_cases hd : d = c
    · subst hd; rw [s.comp]; simp [keys]
    · rw [s.other d hd]; exact h.rk d
  · by_cases hd : d = c
    · subst hd; rw [s.comp]; exact h.ck d
    · rw [s.other d hd]; exact h.ck d
  · rw [s.res]
    unfold wants at hw
    by_cases hd : d = c
    · subst hd; rw [s.comp] at hw; simp [lookup] at hw
    · rw [s.other d hd] at hw; exact h.pos d x q0 hw hq0
  · unfold claim
    by_cases hd : d = c
    · subst hd; rw [s.comp]; exact h.nneg d x
    · rw [s.other d hd]; exact h.nneg d x
  · rw [s.clms]; rw [s.res] at ha; exact h.anon x ha

theorem RView.Coh.honor {v v' : RView} (h : v.Coh) {c hon} (s : Honor c hon v v') : v'.Coh := by
  have hA : ∀ x, (v'.res x).anonymous = (v.res x).anonymous := fun x => by rw [s.res]
  have hcm : ∀ d x, d ∈ v'.clmQ x ↔ d ∈ v.clmQ x ∨ (d = c ∧ x ∈ hon ∧ (v.res x).anonymous = false) := by
    intro d x
    have := s.clms x
    split at this
    · rename_i hx
      obtain ⟨y, m, h1, _, _, _, h2⟩ := this
      unfold clmQ
      rw [h2.mem, h1]; simp [hx.1, hx.2.1, or_comm]
    · rename_i hx
      unfold clmQ at hx ⊢
      rw [this]
      constructor
      · exact .inl
      · rintro (hh | ⟨rfl, h1, h2⟩)
        · exact hh
        · by_contra hh; exact hx ⟨h1, h2, hh⟩
  refine ⟨fun x => ?_, fun x => ?_, fun x => ?_, fun d x => ?_, fun d x => ?_, fun d => ?_, fun d => ?_, fun d x q0 hw hq0 => ?_, fun d x => ?_, fun x ha => ?_⟩
  · rw [s.ccap, s.reqs]; exact h.capq x
  · unfold reqQ; rw [s.reqs, map_filter_c]; exact (h.rnd x).filter _
  · have := s.clms x
    unfold clmQ
    split at this
    · rename_i hx
      obtain ⟨y, m, h1, _, _, _, h2⟩ := this
      exact h2.nodup (h.cnd x) (h1 ▸ hx.2.2)
    · rw [this]; exact h.cnd x
  · unfold reqQ; rw [s.reqs, mem_map_filter]
    by_cases hd : d = c
    · subst hd; rw [s.requests]; simp [keys]
    · rw [s.other d hd]; simp only [ne_eq, hd, not_false_eq_true, true_and]; exact h.rq d x
  · rw [hcm]
    by_cases hd : d = c
    · subst hd; rw [s.keys, h.cq]; simp
    · rw [s.other d hd, h.cq]; simp [hd]
  · by_cases hd : d = c
    · subst hd; rw [s.requests]; simp [keys]
    · rw [s.other d hd]; exact h.rk d
  · by_cases hd : d = c
    · subst hd; exact s.ck
    · rw [s.other d hd]; exact h.ck d
  · rw [hA]
    unfold wants at hw
    by_cases hd : d = c
    · subst hd; rw [s.requests] at hw; simp [lookup] at hw
    · rw [s.other d hd] at hw; exact h.pos d x q0 hw hq0
  · by_cases hd : d = c
    · subst hd
      rw [s.claim]
      have h0 := h.nneg d x
      split
      · rename_i hx
        cases hw : v.wants d x with
        | none => simpa using h0
        | some q =>
          have : 0 ≤ q := by
            by_contra hq
            have := h.pos d x q hw (not_le.1 hq)
            rw [hx.2] at this; cases this
          simp; linarith
      · simpa using h0
    · unfold claim; rw [s.other d hd]; exact h.nneg d x
  · rw [hA] at ha
    have := s.clms x
    rw [if_neg (fun hh => by rw [ha] at hh; cases hh.2.1)] at this
    rw [this]; exact h.anon x ha

theorem RView.Coh.release {v v' : RView} (h : v.Coh) {c r cl q} (s : Release c r cl q v v') : v'.Coh := by
  have hA : ∀ x, (v'.res x).anonymous = (v.res x).anonymous := fun x => by
    by_cases hx : x = r
    · subst hx; rw [s.res]
    · rw [s.ores x hx]
  refine ⟨fun x => ?_, fun x => ?_, fun x => ?_, fun d x => ?_, fun d x => ?_, fun d => ?_, fun d => ?_, fun d x q0 hw hq0 => ?_, fun d x => ?_, fun x ha => ?_⟩
  · rw [s.reqs]
    refine ⟨(h.capq x).1, ?_⟩
    by_cases hx : x = r
    · subst hx; rw [s.clms]; exact (h.capq x).2
    · rw [s.oclms x hx]; exact (h.capq x).2
  · unfold reqQ; rw [s.reqs]; exact h.rnd x
  · unfold clmQ
    by_cases hx : x = r
    · subst hx; rw [s.clms]
      show (List.map QMem.c (ite _ _ _)).Nodup
      split
      · rw [map_filter_c]; exact (h.cnd x).filter _
      · exact h.cnd x
    · rw [s.oclms x hx]; exact h.cnd x
  · unfold reqQ; rw [s.reqs]
    by_cases hd : d = c
    · subst hd; rw [s.requests]; exact h.rq d x
    · rw [s.other d hd]; exact h.rq d x
  · by_cases hx : x = r
    · subst hx
      unfold clmQ
      rw [s.clms]
      show d ∈ List.map QMem.c (ite _ _ _) ↔ _
      by_cases he : cl - q < eps
      · rw [if_pos he, mem_map_filter]
        by_cases hd : d = c
        · subst hd
          have := s.claims x
          rw [if_pos rfl, if_pos he, lookup_none] at this
          simp [this]
        · rw [s.other d hd]
          simp only [ne_eq, hd, not_false_eq_true, true_and]; exact h.cq d x
      · rw [if_neg he]
        by_cases hd : d = c
        · subst hd
          have := s.claims x
          rw [if_pos rfl, if_neg he] at this
          have h1 := lookup_isSome.1 ⟨_, this⟩
          have h2 := (h.cq d x).2 (lookup_isSome.1 ⟨_, s.has⟩)
          exact ⟨fun _ => h1, fun _ => h2⟩
        · rw [s.other d hd]; exact h.cq d x
    · have e1 : v'.clmQ x = v.clmQ x := by unfold clmQ; rw [s.oclms x hx]
      rw [e1, h.cq]
      by_cases hd : d = c
      · subst hd
        rw [← lookup_isSome, ← lookup_isSome, s.claims, if_neg hx]
      · rw [s.other d hd]
  · by_cases hd : d = c
    · subst hd; rw [s.requests]; exact h.rk d
    · rw [s.other d hd]; exact h.rk d
  · by_cases hd : d = c
    · subst hd; exact s.ck
    · rw [s.other d hd]; exact h.ck d
  · rw [hA]
    unfold wants at hw
    by_cases hd : d = c
    · subst hd; rw [s.requests] at hw; exact h.pos d x q0 hw hq0
    · rw [s.other d hd] at hw; exact h.pos d x q0 hw hq0
  · unfold claim
    by_cases hd : d = c
    · subst hd
      rw [s.claims]
      by_cases hx : x = r
      · rw [if_pos hx]
        split
        · simp
        · have := s.le; simp; linarith
      · rw [if_neg hx]; exact h.nneg d x
    · rw [s.other d hd]; exact h.nneg d x
  · rw [hA] at ha
    have h0 := h.anon x ha
    by_cases hx : x = r
    · subst hx
      rw [s.clms, h0]; simp
    · rw [s.oclms x hx]; exact h0

theorem RView.Coh.step {L : Lic} {v v' : RView} (h : v.Coh) (s : Step L v v') : v'.Coh := by
  cases s with
  | oneof c b _ hv =>
    subst hv
    have e : ∀ d, ((fun d => if d = c then { v.comps d with oneof := b } else v.comps d : CId → RC) d).claims = (v.comps d).claims ∧
        ((fun d => if d = c then { v.comps d with oneof := b } else v.comps d : CId → RC) d).requests = (v.comps d).requests := by
      intro d; simp only; split <;> exact ⟨rfl, rfl⟩
    refine ⟨h.capq, h.rnd, h.cnd, fun d x => ?_, fun d x => ?_, fun d => ?_, fun d => ?_, fun d x q hw => ?_, fun d x => ?_, h.anon⟩
    · rw [(e d).2]; exact h.rq d x
    · rw [(e d).1]; exact h.cq d x
    · rw [(e d).2]; exact h.rk d
    · rw [(e d).1]; exact h.ck d
    · unfold wants at hw; rw [(e d).2] at hw; exact h.pos d x q hw
    · unfold claim; rw [(e d).1]; exact h.nneg d x
  | ask c r q prio _ _ s => exact h.ask s
  | fail c s => exact h.fail s
  | honor c hon s => exact h.honor s
  | release c r cl a _ s => exact h.release s
  | anon r a _ ha hv =>
    subst hv
    refine ⟨h.capq, h.rnd, h.cnd, h.rq, h.cq, h.rk, h.ck, fun d x q hw hq => ?_, h.nneg, fun x hx => ?_⟩
    · by_cases hr : x = r
      · subst hr; simp [ha]
      · simp only [hr, if_false]; exact h.pos d x q hw hq
    · by_cases hr : x = r
      · subst hr; exact h.anon x ha
      · simp only [hr, if_false] at hx; exact h.anon x hx
  | cap r k _ hv =>
    subst hv
    refine ⟨h.capq, h.rnd, h.cnd, h.rq, h.cq, h.rk, h.ck, fun d x q hw hq => ?_, h.nneg, fun x hx => ?_⟩
    · have := h.pos d x q hw hq
      by_cases hr : x = r
      · subst hr; simpa using this
      · simpa [hr] using this
    · by_cases hr : x = r
      · subst hr; simp at hx; exact h.anon x hx
      · simp [hr] at hx; exact h.anon x hx

/-! ## the calls are sequences of steps -/

/-- coherent, and reached from `v0` by steps -/
def Refines (L : Lic) (v0 : RView) (w : World) : Prop := w.rv.Coh ∧ Relation.ReflTransGen (Step L) v0 w.rv

theorem Refines.step {L : Lic} {v0 : RView} {w w' : World} (h : Refines L v0 w) (s : Step L w.rv w'.rv) : Refines L v0 w' :=
  ⟨h.1.step s, h.2.tail s⟩

theorem refines_stable (L : Lic) (v0 : RView) : Stable L (Refines L v0) where
  frame0 h hv _ _ := by unfold Refines at *; rw [hv]; exact h
  oneof {w} c b h hw := by
    refine h.step (.oneof c b hw ?_)
    simp only [World.rv, World.modC]
    congr 1
    funext d
    split <;> rfl
  fail {w} c h := h.step (.fail c (fail_step h.1 c))
  honor {w} c h _ hne := by
    obtain ⟨w', h1, h2⟩ := honor_step h.1 c hne
    rw [h1]
    exact h.step (.honor c _ h2)
  rel {w} c r q h hq := by
    rcases release_step h.1 c r q with h1 | ⟨cl, _, h1⟩
    · rw [h1]; exact h
    · exact h.step (.release c r cl q hq h1)
  ask {w} c r q prio h hw hq hn := h.step (.ask c r q prio hw hq (ask_step h.1 c r q prio hn))
  anon {w} r q h ha hq := by
    refine h.step (.anon r q hq ha ?_)
    cases q <;> simp only [World.rv, World.modR, Option.getD] <;> congr 1 <;> funext d <;> split <;> first | rfl | (rename_i hd; subst hd; rfl)
  cap {w} r k h hk := by
    refine h.step (.cap r k hk ?_)
    simp only [World.rv, World.modR]
    congr 1; funext d; split <;> rfl

theorem exec_refines {L : Lic} {w : World} (h : w.rv.Coh) (fuel : Nat) (o : Op) (ho : L.ok w o) :
    (exec fuel o w).world.rv.Coh ∧ Relation.ReflTransGen (Step L) w.rv (exec fuel o w).world.rv :=
  exec_stable (refines_stable L w.rv) (fun _ h => h) ⟨h, .refl⟩ fuel o ho

end Verif
