import Verif.RTry
import Verif.CalmOps
import Verif.Props.Resources

/-!
# No request is forgotten

The invariant: no request that could be honoured is waiting. While requests are being tried there are resources that still have to be looked at.
-/

namespace Verif
open World RView

/-- this quantity is available (or there is room for it, for a negative quantity), within the tolerance -/
def RView.fits (v : RView) (p : RId × Rat) : Prop :=
  if 0 < p.2 then (((v.res p.1).claimed + p.2 : Rat) : ETime) ≤ (v.res p.1).cap + (eps : ETime) else 0 ≤ (v.res p.1).claimed + p.2 + eps

/-- what would have to be granted: everything asked for, or (oneof) one of the requests -/
def RC.offers (x : RC) : List (List (RId × Rat)) :=
  if x.oneof then x.requests.map (fun p => [p]) else if x.requests = [] then [] else [x.requests]

theorem RC.mem_offers {x : RC} {o p} (ho : o ∈ x.offers) (hp : p ∈ o) : p ∈ x.requests := by
  unfold RC.offers at ho
  split at ho
  · obtain ⟨a, ha, rfl⟩ := List.mem_map.1 ho
    rw [List.mem_singleton] at hp; subst hp; exact ha
  · split at ho
    · cases ho
    · rw [List.mem_singleton] at ho; subst ho; exact hp

theorem RC.offers_nil {x : RC} (h : x.requests = []) : x.offers = [] := by
  unfold RC.offers
  split <;> simp [h]

theorem RC.offers_congr {x y : RC} (h : x.requests = y.requests) (h2 : x.oneof = y.oneof) : x.offers = y.offers := by
  unfold RC.offers; rw [h, h2]

/-- waits for resources that honour every request that fits, and are not preemptive, only -/
def RView.proper (v : RView) (d : CId) : Prop :=
  ∀ r ∈ keys (v.comps d).requests, (v.res r).honorFirst = false ∧ (v.res r).honorHighest = false ∧ (v.res r).preemptive = false

/-- a waiting request (but for those in `e`) that could be honoured is due to one of the resources that still have to be looked at -/
def RView.Open (e : CId → Prop) (D : CId → RId → Prop) (v : RView) : Prop :=
  ∀ d, ¬ e d → v.proper d → ∀ o ∈ (v.comps d).offers, (∀ p ∈ o, v.fits p) → ∃ p ∈ o, D d p.1 ∧ ((v.res p.1).anonymous = false → 0 < p.2)

theorem RView.Open.mono {e : CId → Prop} {D D' : CId → RId → Prop} {v : RView} (h : v.Open e D) (hD : ∀ d r, D d r → D' d r) : v.Open e D' := by
  intro d he hd o ho hf
  obtain ⟨p, hp, h1, h2⟩ := h d he hd o ho hf
  exact ⟨p, hp, hD _ _ h1, h2⟩

/-- the kind of the resources is the same -/
def SameKind (v v' : RView) : Prop := ∀ r, (v'.res r).anonymous = (v.res r).anonymous ∧ (v'.res r).honorFirst = (v.res r).honorFirst ∧
  (v'.res r).honorHighest = (v.res r).honorHighest ∧ (v'.res r).preemptive = (v.res r).preemptive

/-- only a change for the better of a resource makes requests honourable -/
theorem RView.Open.step {e : CId → Prop} {D : CId → RId → Prop} {v v' : RView} (X : RId → Prop) (hcoh : v.Coh)
    (hn : ∀ r, (v.res r).anonymous = false → 0 ≤ (v.res r).claimed) (hk : SameKind v v')
    (hc : ∀ d, ¬ e d → ((v'.comps d).requests = (v.comps d).requests ∧ (v'.comps d).oneof = (v.comps d).oneof) ∨ (v'.comps d).requests = [])
    (hr : ∀ r, X r ∨ ((v'.res r).claimed = (v.res r).claimed ∧ (v'.res r).cap = (v.res r).cap) ∨
      ((v.res r).anonymous = false ∧ (v'.res r).cap = (v.res r).cap ∧ (v.res r).claimed ≤ (v'.res r).claimed))
    (h : v.Open e D) : v'.Open e (fun d r => D d r ∨ X r) := by
  intro d he hd o ho hf
  rcases hc d he with ⟨h1, h2⟩ | h1
  · have ho' : o ∈ (v.comps d).offers := by rw [← RC.offers_congr h1 h2]; exact ho
    have hd' : v.proper d := by
      intro r hr
      rw [← h1] at hr
      have := hd r hr
      rw [(hk r).2.1, (hk r).2.2.1, (hk r).2.2.2] at this
      exact this
    by_cases hfv : ∀ p ∈ o, v.fits p
    · obtain ⟨p, hp, h3, h4⟩ := h d he hd' o ho' hfv
      exact ⟨p, hp, .inl h3, by rw [(hk p.1).1]; exact h4⟩
    · push Not at hfv
      obtain ⟨p, hp, hnf⟩ := hfv
      have hmem := RC.mem_offers ho' hp
      have hlk : v.wants d p.1 = some p.2 := lookup_mem (hcoh.rk d) hmem
      have hfp := hf p hp
      by_cases hpos : 0 < p.2
      · refine ⟨p, hp, .inr ?_, fun _ => hpos⟩
        rcases hr p.1 with hX | ⟨e1, e2⟩ | ⟨_, e1, e2⟩
        · exact hX
        · refine absurd ?_ hnf
          unfold RView.fits at hfp ⊢
          rw [e1, e2] at hfp; exact hfp
        · refine absurd ?_ hnf
          unfold RView.fits at hfp ⊢
          rw [if_pos hpos] at hfp ⊢
          rw [e1] at hfp
          refine le_trans (WithTop.coe_le_coe.2 ?_) hfp
          linarith
      · cases ha : (v.res p.1).anonymous with
        | false =>
          refine absurd ?_ hnf
          unfold RView.fits
          rw [if_neg hpos]
          have h5 : ¬ p.2 < 0 := fun hlt => by have := hcoh.pos d p.1 p.2 hlk hlt; rw [ha] at this; cases this
          have h6 : p.2 = 0 := le_antisymm (not_lt.1 hpos) (not_lt.1 h5)
          have h7 := hn p.1 ha
          have h8 : (0 : Rat) < eps := by decide +kernel
          rw [h6]; linarith
        | true =>
          refine ⟨p, hp, .inr ?_, fun hh => by rw [(hk p.1).1, ha] at hh; cases hh⟩
          rcases hr p.1 with hX | ⟨e1, e2⟩ | ⟨e0, _, _⟩
          · exact hX
          · refine absurd ?_ hnf
            unfold RView.fits at hfp ⊢
            rw [e1, e2] at hfp; exact hfp
          · rw [ha] at e0; cases e0
  · rw [RC.offers_nil h1] at ho; cases ho

/-! ## what is left of the queues of requesters -/

/-- `_minq` of a resource, and the mark that it is being looked at, are kept (unless nobody waits); components only leave the requesters; nobody is interrupted -/
structure Sm (w w' : World) : Prop where
  sub : ∀ r, (w'.queues (.requesters r)).mem.Sublist (w.queues (.requesters r)).mem
  minq : ∀ r, (w'.res r).minq = (w.res r).minq ∨ (w'.queues (.requesters r)).mem = []
  trying : ∀ r, (w'.res r).trying = (w.res r).trying
  anon : ∀ r, (w'.res r).anonymous = (w.res r).anonymous
  intr : ∀ d, w'.status d = .interrupted → w.status d = .interrupted

theorem Sm.refl (w : World) : Sm w w := ⟨fun _ => .refl _, fun _ => .inl rfl, fun _ => rfl, fun _ => rfl, fun _ h => h⟩
theorem Sm.trans {a b c : World} (h : Sm a b) (h2 : Sm b c) : Sm a c where
  sub r := (h2.sub r).trans (h.sub r)
  minq r := by
    rcases h2.minq r with e | e
    · rcases h.minq r with e' | e'
      · exact .inl (e.trans e')
      · exact .inr (List.sublist_nil.1 (e' ▸ h2.sub r))
    · exact .inr e
  trying r := (h2.trying r).trans (h.trying r)
  anon r := (h2.anon r).trans (h.anon r)
  intr d hd := h.intr d (h2.intr d hd)

theorem Sm.andThen {w0 : World} {r : R} {f : World → R} (h : Pr (Sm w0) r) (hf : ∀ w, Sm w (f w).world) : Pr (Sm w0) (r ⊳ f) :=
  Pr.andThen h fun w hw => hw.trans (hf w)

theorem sm_modR (w : World) (r : RId) {f : Res → Res} (hf : ∀ x, (f x).minq = x.minq ∧ (f x).trying = x.trying ∧ (f x).anonymous = x.anonymous) : Sm w (w.modR r f) := by
  refine ⟨fun _ => .refl _, fun s => .inl ?_, fun s => ?_, fun s => ?_, fun _ h => h⟩
  · simp only [World.modR]; split
    · exact (hf _).1
    · rfl
  · simp only [World.modR]; split
    · exact (hf _).2.1
    · rfl
  · simp only [World.modR]; split
    · exact (hf _).2.2
    · rfl

theorem sm_tallyR (w : World) (r : RId) : Sm w (w.tallyR r) := sm_modR _ _ (by intro _; exact ⟨rfl, rfl, rfl⟩)
theorem sm_modC (w : World) (c : CId) {f : Comp → Comp} (hf : ∀ x, (f x).status = .interrupted → x.status = .interrupted) : Sm w (w.modC c f) := by
  refine ⟨fun _ => .refl _, fun s => .inl rfl, fun s => rfl, fun s => rfl, fun d hd => ?_⟩
  simp only [World.status, World.modC] at hd ⊢
  split at hd
  · exact hf _ hd
  · exact hd

theorem sm_leaveQ (w : World) (c q) : Sm w (leaveQ c q w).world := by
  unfold leaveQ onQueue
  split
  · rename_i q' h
    refine ⟨fun r => ?_, fun _ => .inl rfl, fun _ => rfl, fun _ => rfl, fun _ h => h⟩
    simp only [R.world, World.modQ]
    split
    · rename_i hr
      obtain ⟨l1, l2, x, h1, h2, h3⟩ := Queue.leave_ok h
      rw [hr, h1, h3]
      simp
    · exact .refl _
  · exact .refl _

theorem sm_leaveRequesters (w : World) (c r) : Sm w (leaveRequesters c r w).world := by
  unfold leaveRequesters
  refine Sm.andThen (sm_leaveQ w c _) fun w1 => ?_
  simp only [R.world]
  split
  · rename_i h
    have h' : (w1.queues (.requesters r)).mem = [] := List.length_eq_zero_iff.1 h
    refine ⟨fun _ => .refl _, fun s => ?_, fun s => ?_, fun s => ?_, fun _ h => h⟩
    · by_cases hs : s = r
      · subst hs; exact .inr h'
      · exact .inl (by simp [World.modR, hs])
    · simp only [World.modR]; split <;> rfl
    · simp only [World.modR]; split <;> rfl
  · exact .refl _

theorem sm_claimOne (w : World) (c hon p) : Sm w (claimOne c hon p w).world := by
  unfold claimOne
  refine Sm.andThen ?_ fun w1 => sm_leaveRequesters w1 c _
  split
  · have h1 : Sm w (w.modR p.1 (fun x => { x with claimed := x.claimed + p.2, log := x.log.claims w.now x.cap (x.claimed + p.2) })) := sm_modR _ _ (by intro _; exact ⟨rfl, rfl, rfl⟩)
    simp only
    split
    · exact h1
    · split
      · exact h1
      · refine (h1.trans (sm_modC _ c (f := fun x => { x with claims := addTo x.claims p.1 p.2 }) (by intro _ h; exact h))).trans ?_
        unfold enterClaimers
        split
        · exact .refl _
        · unfold enterSortedQ onQueue
          split
          · refine ⟨fun r => ?_, fun _ => .inl rfl, fun _ => rfl, fun _ => rfl, fun _ h => h⟩
            simp [R.world, World.modQ]
          · exact .refl _
  · exact .refl _

theorem sm_forR {α : Type} {f : α → World → R} (hf : ∀ a w, Sm w (f a w).world) (l : List α) (w : World) : Sm w (forR l f w).world :=
  Pr.forR (P := Sm w) (fun a _ h => h.trans (hf a _)) l w (.refl _)

theorem sm_checkFailReq (w : World) (c) : Sm w (checkFailReq c w).world := by
  unfold checkFailReq
  split
  · exact .refl _
  · exact Sm.andThen (sm_forR (fun r w => sm_leaveRequesters w c r) _ w) fun w1 =>
      sm_modC w1 c (f := fun x => { x with requests := [], failed := true }) (by intro _ h; exact h)

theorem sm_stable (w0 : World) : StableF (Sm w0) where
  frame0 {w w'} h hv hr hn hs := by
    have hq : ∀ r, (w'.queues (.requesters r)).mem = (w.queues (.requesters r)).mem := fun r => congrArg (fun v => (RView.reqs v r).1) hv
    exact h.trans ⟨fun r => by rw [hq], fun r => by rw [hr]; exact .inl rfl, fun r => by rw [hr], fun r => by rw [hr], hs⟩
  fail {w} c h := h.trans (sm_checkFailReq w c)

theorem sm_honorNow {w : World} {c r} (he : honorNow c w = some r) : Sm w r.world := by
  unfold honorNow at he
  split at he
  · cases he
  · cases he
    refine Sm.andThen (sm_forR (fun p w => sm_claimOne w c _ p) _ w) fun w1 => ?_
    exact (sm_modC w1 c (f := fun x => { x with requests := [] }) (by intro _ h; exact h)).trans (rf_wake (sm_stable _) (.refl _) c none)

theorem sm_releaseCore (w : World) (c r q) : Sm w (releaseCore c r q w).world := by
  unfold releaseCore
  split
  · exact .refl _
  · rename_i cl _
    have key : ∀ q' : Rat, Sm w (if cl - q' < eps then
        leaveQ c (.claimers r) ((w.modR r (fun x => { x with claimed := x.claimed - q' })).modC c (fun x => { x with claims := addTo x.claims r (-q') })) ⊳ fun w =>
          .ok (((if (w.queues (.claimers r)).len = 0 then w.modR r (fun x => { x with claimed := 0 }) else w).modC c (fun x => { x with claims := delKey x.claims r })).tallyR r)
        else .ok (((w.modR r (fun x => { x with claimed := x.claimed - q' })).modC c (fun x => { x with claims := addTo x.claims r (-q') })).tallyR r)).world := by
      intro q'
      have h1 : Sm w (w.modR r (fun x => { x with claimed := x.claimed - q' })) := sm_modR _ _ (by intro _; exact ⟨rfl, rfl, rfl⟩)
      have h2 := h1.trans (sm_modC _ c (f := fun x => { x with claims := addTo x.claims r (-q') }) (by intro _ h; exact h))
      split
      · refine Sm.andThen (h2.trans (sm_leaveQ _ c _)) fun w1 => ?_
        have h3 : Sm w1 (if (w1.queues (.claimers r)).len = 0 then w1.modR r (fun x => { x with claimed := 0 }) else w1) := by
          split
          · exact sm_modR w1 r (f := fun x => { x with claimed := 0 }) (by intro _; exact ⟨rfl, rfl, rfl⟩)
          · exact .refl _
        exact (h3.trans (sm_modC _ c (f := fun x => { x with claims := delKey x.claims r }) (by intro _ h; exact h))).trans (sm_tallyR _ _)
      · exact h2.trans (sm_tallyR _ _)
    cases q with
    | none => exact key cl
    | some x => exact key (if x > cl then cl else x)

/-! ## the invariant -/

/-- what holds while requests are being tried, for the components not in `e`; `D` tells where still has to be looked -/
structure Att (e : CId → Prop) (D : CId → RId → Prop) (w : World) : Prop where
  coh : w.rv.Coh
  sum : ∀ r, (w.rv.res r).anonymous = false → w.rv.total r ≤ (w.rv.res r).claimed
  minq : ∀ d r q, ¬ e d → w.rv.wants d r = some q → (w.res r).minq ≤ (q : ETime)
  nint : ∀ d, ¬ e d → (w.comps d).requests ≠ [] → w.status d ≠ .interrupted
  opn : w.rv.Open e D

theorem Att.mono {e D D'} {w : World} (h : Att e D w) (hD : ∀ d r, r ∈ keys (w.comps d).requests → D d r → D' d r) : Att e D' w where
  coh := h.coh
  sum := h.sum
  minq := h.minq
  nint := h.nint
  opn d he hd o ho hf := by
    obtain ⟨p, hp, h1, h2⟩ := h.opn d he hd o ho hf
    exact ⟨p, hp, hD _ _ (mem_keys.2 ⟨p.2, RC.mem_offers ho hp⟩) h1, h2⟩

theorem Att.nonneg {e D} {w : World} (h : Att e D w) (r) (ha : (w.rv.res r).anonymous = false) : 0 ≤ (w.rv.res r).claimed :=
  (total_nonneg h.coh r).trans (h.sum r ha)

/-- the general step -/
theorem Att.step {e D} {w w' : World} (X : RId → Prop) (h : Att e D w) (hs : Sm w w') (hcoh : w'.rv.Coh)
    (hsum : ∀ r, (w'.rv.res r).anonymous = false → w'.rv.total r ≤ (w'.rv.res r).claimed) (hk : SameKind w.rv w'.rv)
    (hc : ∀ d, ¬ e d → ((w'.comps d).requests = (w.comps d).requests ∧ (w'.comps d).oneof = (w.comps d).oneof) ∨ (w'.comps d).requests = [])
    (hr : ∀ r, X r ∨ ((w'.rv.res r).claimed = (w.rv.res r).claimed ∧ (w'.rv.res r).cap = (w.rv.res r).cap) ∨
      ((w.rv.res r).anonymous = false ∧ (w'.rv.res r).cap = (w.rv.res r).cap ∧ (w.rv.res r).claimed ≤ (w'.rv.res r).claimed)) :
    Att e (fun d r => D d r ∨ X r) w' where
  coh := hcoh
  sum := hsum
  minq d r q he hq := by
    have hmem : d ∈ w'.rv.reqQ r := (hcoh.rq d r).2 (lookup_isSome.1 ⟨q, hq⟩)
    rcases hs.minq r with e1 | e1
    · rw [e1]
      rcases hc d he with ⟨h1, _⟩ | h1
      · refine h.minq d r q he ?_
        have hq' : lookup (w'.comps d).requests r = some q := hq
        rw [h1] at hq'; exact hq'
      · have hq' : lookup (w'.comps d).requests r = some q := hq
        rw [h1] at hq'; cases hq'
    · have : w'.rv.reqQ r = [] := by
        show (w'.queues (.requesters r)).mem.map QMem.c = []
        rw [e1]; rfl
      rw [this] at hmem; cases hmem
  nint d he hn hi := by
    rcases hc d he with ⟨h1, _⟩ | h1
    · rw [h1] at hn; exact h.nint d he hn (hs.intr d hi)
    · exact hn h1
  opn := h.opn.step X h.coh h.nonneg hk hc hr

/-- the same steps as above, for requests -/
theorem Att.honor {e D} {w w' : World} {c} (h : Att e D w) (he : honorNow c w = some (.ok w')) :
    Att e (fun d r => D d r ∨ ((w.res r).anonymous = true ∧ r ∈ keys (w.comps c).requests)) w' ∧ (w'.comps c).requests = [] ∧ Sm w w' ∧
      ∀ d, d ≠ c → (w'.comps d).requests = (w.comps d).requests := by
  have hsm := sm_honorNow he
  unfold honorNow at he
  split at he
  · cases he
  · rename_i hn
    obtain ⟨w1, h1, h2⟩ := honor_step h.coh c (fun hh => hn (.inr hh))
    obtain ⟨w0, h3, h4⟩ := andThen_ok (Option.some.inj he)
    rw [h3] at h1
    cases h1
    have hrv : w'.rv = (w0.modC c (fun x => { x with requests := [] })).rv := by
      have := rv_wake (w0.modC c (fun x => { x with requests := [] })) c none
      rw [h4] at this; exact this
    rw [← hrv] at h2
    have h2c : (w'.rv.comps c).requests = [] := h2.requests
    have h2o : ∀ d, d ≠ c → w'.rv.comps d = w.rv.comps d := h2.other
    refine ⟨h.step _ hsm (h.coh.honor h2) (fun r => sum_le_step (L := anyLic) h.coh (.honor c _ h2) r (h.sum r)) (fun r => ?_) (fun d _ => ?_) (fun r => ?_), h2c, hsm,
      fun d hd => congrArg RC.requests (h2o d hd)⟩
    · rw [h2.res]; exact ⟨rfl, rfl, rfl, rfl⟩
    · by_cases hd : d = c
      · subst hd; exact .inr h2c
      · exact .inl ⟨congrArg RC.requests (h2o d hd), congrArg RC.oneof (h2o d hd)⟩
    · by_cases hr : r ∈ honored w c
      · cases ha : (w.res r).anonymous with
        | true => exact .inl ⟨rfl, h2.sub r hr⟩
        | false =>
          refine .inr (.inr ⟨ha, by rw [h2.res], ?_⟩)
          obtain ⟨q, hq, _⟩ := honored_facts h.coh hr
          rw [h2.res]
          simp only [hr, if_true, hq, Option.getD_some]
          have : ¬ q < 0 := fun hlt => by have := h.coh.pos c r q hq hlt; rw [show (w.rv.res r).anonymous = false from ha] at this; cases this
          linarith [not_lt.1 this]
      · refine .inr (.inl ⟨?_, by rw [h2.res]⟩)
        rw [h2.res]; simp [hr]

theorem Att.fail {e D} {w : World} (h : Att e D w) (c) : Att e D (checkFailReq c w).world := by
  have h2 := fail_step h.coh c
  refine (h.step (fun _ => False) (sm_checkFailReq w c) (h.coh.fail h2) (fun r => sum_le_step (L := anyLic) h.coh (.fail c h2) r (h.sum r)) (fun r => ?_)
    (fun d _ => ?_) (fun r => .inr (.inl ?_))).mono fun d r _ hh => hh.elim id False.elim
  · rw [h2.res]; exact ⟨rfl, rfl, rfl, rfl⟩
  · by_cases hd : d = c
    · subst hd; exact .inr (congrArg RC.requests h2.comp)
    · exact .inl ⟨congrArg RC.requests (h2.other d hd), congrArg RC.oneof (h2.other d hd)⟩
  · rw [h2.res]; exact ⟨rfl, rfl⟩

theorem att_stable (e D) : StableF (Att e D) where
  frame0 {w w'} h hv hr hn hs := by
    refine ⟨hv ▸ h.coh, hv ▸ h.sum, fun d r q he hq => ?_, fun d he hn hi => ?_, hv ▸ h.opn⟩
    · rw [hr]; rw [hv] at hq; exact h.minq d r q he hq
    · have : (w'.comps d).requests = (w.comps d).requests := congrArg (fun v => (RView.comps v d).requests) hv
      rw [this] at hn
      exact h.nint d he hn (hs d hi)
  fail c h := h.fail c

theorem Att.release {e D} {w w' : World} (h : Att e D w) {c r q} (he : releaseCore c r q w = .ok w') : Att e (fun d s => D d s ∨ s = r) w' := by
  have hsm := sm_releaseCore w c r q
  rcases release_step h.coh c r q with hs | ⟨cl, _, hs⟩
  · rw [hs] at he; cases he
  · rw [he] at hs hsm
    replace hs : Release c r cl (RView.amount q cl) w.rv w'.rv := hs
    refine h.step (· = r) hsm (h.coh.release hs) (fun s => sum_le_step (L := anyLic) h.coh (.release c r cl q (fun _ _ => trivial) hs) s (h.sum s))
      (fun s => ?_) (fun d _ => .inl ?_) (fun s => ?_)
    · by_cases hx : s = r
      · subst hx; rw [hs.res]; exact ⟨rfl, rfl, rfl, rfl⟩
      · rw [hs.ores s hx]; exact ⟨rfl, rfl, rfl, rfl⟩
    · by_cases hd : d = c
      · subst hd; exact ⟨hs.requests, hs.oneof⟩
      · exact ⟨congrArg RC.requests (hs.other d hd), congrArg RC.oneof (hs.other d hd)⟩
    · by_cases hx : s = r
      · exact .inl hx
      · rw [hs.ores s hx]; exact .inr (.inl ⟨rfl, rfl⟩)

/-- a component whose offers can't be granted -/
def World.Un (w : World) (d : CId) : Prop := w.rv.proper d → ∀ o ∈ (w.rv.comps d).offers, ¬ ∀ p ∈ o, w.rv.fits p

theorem canHonor_iff {w : World} {d r q} (h1 : (w.res r).honorFirst = false) (h2 : (w.res r).honorHighest = false) :
    canHonor w d r q = true ↔ w.rv.fits (r, q) := by
  unfold canHonor RView.fits
  simp only [h1, h2, Bool.false_and, Bool.not_false, Bool.true_and, gt_iff_lt]
  show _ ↔ if 0 < q then (((w.res r).claimed + q : Rat) : ETime) ≤ (w.res r).cap + (eps : ETime) else 0 ≤ (w.res r).claimed + q + eps
  by_cases hq : 0 < q
  · rw [if_pos hq, if_pos hq, decide_eq_true_iff]
    refine ⟨fun h => subQ_le h, fun h => ?_⟩
    unfold Res.avail
    cases hc : (w.res r).cap with
    | none => exact le_top
    | some k =>
      rw [hc] at h
      have h3 : (w.res r).claimed + q ≤ k + eps := WithTop.coe_le_coe.1 h
      exact WithTop.coe_le_coe.2 (by linarith : q ≤ k - (w.res r).claimed + eps)
  · rw [if_neg hq, if_neg hq, decide_eq_true_iff]
    constructor <;> intro h <;> linarith

/-- not honoured: nothing fits -/
theorem un_of_nint {w : World} {c} (h : (w.comps c).requests ≠ [] → w.status c ≠ .interrupted) (hn : honorNow c w = none) : w.Un c := by
  intro hp o ho hf
  unfold honorNow at hn
  split at hn
  · rename_i hh
    have hne : (w.comps c).requests ≠ [] := fun hh => by
      rw [RC.offers_nil (x := w.rv.comps c) hh] at ho; cases ho
    rcases hh with hh | hh
    · exact h hne hh
    · have hcan : ∀ p ∈ (w.comps c).requests, canHonor w c p.1 p.2 = true ↔ w.rv.fits p := fun p hpm =>
        canHonor_iff (hp p.1 (mem_keys.2 ⟨p.2, hpm⟩)).1 (hp p.1 (mem_keys.2 ⟨p.2, hpm⟩)).2.1
      have ho' : o ∈ (w.rv.comps c).offers := ho
      unfold RC.offers at ho'
      unfold honored at hh
      split at ho'
      · rename_i hone
        rw [if_pos (show (w.comps c).oneof = true from hone)] at hh
        obtain ⟨p, hpm, rfl⟩ := List.mem_map.1 ho'
        unfold honorAny at hh
        split at hh
        · cases hh
        · rename_i hnone
          exact List.find?_eq_none.1 hnone p hpm ((hcan p hpm).2 (hf p (List.mem_singleton_self p)))
      · rename_i hone
        rw [if_neg (show ¬ (w.comps c).oneof = true from hone)] at hh
        split at ho'
        · cases ho'
        · rw [List.mem_singleton] at ho'
          unfold honorAll at hh
          simp only at hh
          split at hh
          · have : (w.comps c).requests = [] := List.map_eq_nil_iff.1 hh
            exact hne this
          · rename_i hall
            refine hall (List.all_eq_true.2 fun p hpm => (hcan p hpm).2 (hf p ?_))
            rw [ho']; exact hpm
  · cases hn

theorem un_of_none {e D} {w : World} {c} (h : Att e D w) (he : ¬ e c) (hn : honorNow c w = none) : w.Un c := un_of_nint (h.nint c he) hn

/-! ## trying requests -/

/-- from the cursor on, in the requesters of `r` -/
def World.from (w : World) (r : RId) (mx : Option QMem) (d : CId) : Prop :=
  ∃ m, mx = some m ∧ (m.c ∈ w.rv.reqQ r → d ∈ ((w.queues (.requesters r)).mem.dropWhile (fun x => x.c != m.c)).map QMem.c)

theorem from_cursor0 {w : World} {r d} (hd : d ∈ w.rv.reqQ r) : w.from r (cursor0 w r) d := by
  have hd : d ∈ (w.queues (.requesters r)).mem.map QMem.c := hd
  unfold World.from cursor0 headQ
  cases hm : (w.queues (.requesters r)).mem with
  | nil => rw [hm] at hd; cases hd
  | cons m l =>
    rw [hm] at hd
    refine ⟨m, rfl, fun _ => ?_⟩
    rw [List.dropWhile_cons_of_neg (by simp)]
    exact hd

theorem mem_split {l : List QMem} {c} (h : c ∈ l.map QMem.c) : ∃ a m b, l = a ++ m :: b ∧ m.c = c ∧ c ∉ a.map QMem.c ∧
    l.dropWhile (fun x => x.c != c) = m :: b := by
  induction l with
  | nil => cases h
  | cons x t ih =>
    by_cases hx : x.c = c
    · exact ⟨[], x, t, rfl, hx, by simp, by rw [List.dropWhile_cons_of_neg (by simp [hx])]⟩
    · rw [List.map_cons, List.mem_cons] at h
      obtain ⟨a, m, b, h1, h2, h3, h4⟩ := ih (h.resolve_left (Ne.symm hx))
      refine ⟨x :: a, m, b, by rw [h1]; rfl, h2, ?_, ?_⟩
      · rw [List.map_cons, List.mem_cons]; rintro (hh | hh)
        · exact hx hh.symm
        · exact h3 hh
      · rw [List.dropWhile_cons_of_pos (by simp [hx]), h4]

/-- who is at or behind the cursor: the one at the cursor, or at or behind the next -/
theorem from_next {w : World} {r m d} (hm : m.c ∈ w.rv.reqQ r) (hd : w.from r (some m) d) (hne : d ≠ m.c) :
    ∃ l1 n l2, (w.queues (.requesters r)).mem = l1 ++ n :: l2 ∧ (w.queues (.requesters r)).succ m.c = some n ∧ d ∈ (n :: l2).map QMem.c := by
  obtain ⟨m', h1, h2⟩ := hd
  cases h1
  obtain ⟨a, x, b, h3, h4, h5, h6⟩ := mem_split (l := (w.queues (.requesters r)).mem) hm
  have h7 := h2 hm
  rw [h6, List.map_cons, List.mem_cons] at h7
  have h8 : d ∈ b.map QMem.c := h7.resolve_left (by rw [h4]; exact hne)
  cases b with
  | nil => cases h8
  | cons n l2 =>
    refine ⟨a ++ [x], n, l2, by simp [h3], ?_, h8⟩
    unfold Queue.succ
    rw [h6]

/-- the order of those who stay is kept -/
theorem from_sublist {w w1 : World} {r d n l1 l2} (hq : (w.queues (.requesters r)).mem = l1 ++ n :: l2) (hnd : (w.rv.reqQ r).Nodup)
    (hs : (w1.queues (.requesters r)).mem.Sublist (w.queues (.requesters r)).mem) (hd : d ∈ (n :: l2).map QMem.c) (hd1 : d ∈ w1.rv.reqQ r) :
    w1.from r (some n) d := by
  refine ⟨n, rfl, fun hn => ?_⟩
  rw [hq] at hs
  have hnd : ((l1 ++ n :: l2).map QMem.c).Nodup := by rw [← hq]; exact hnd
  rw [List.map_append, List.nodup_append] at hnd
  obtain ⟨k1, k2, h1, h2, h3⟩ := List.sublist_append_iff.1 hs
  have hk : ∀ c, c ∈ (n :: l2).map QMem.c → c ∉ k1.map QMem.c := fun c hc hc1 =>
    hnd.2.2 c ((h2.map QMem.c).subset hc1) c hc rfl
  have hd1 : d ∈ (w1.queues (.requesters r)).mem.map QMem.c := hd1
  have hn : n.c ∈ (w1.queues (.requesters r)).mem.map QMem.c := hn
  obtain ⟨a, x, b, h4, h5, h6, h7⟩ := mem_split hn
  rw [h7]
  rw [h1, List.map_append, List.mem_append] at hd1 hn
  have hd2 := hd1.resolve_left (hk d hd)
  have hn2 := hn.resolve_left (hk n.c (by simp))
  have : (k1 ++ k2).dropWhile (fun x => x.c != n.c) = k2 := by
    rw [List.dropWhile_append]
    rw [List.dropWhile_eq_nil_iff.2 (fun y hy => by
      have : y.c ≠ n.c := fun hh => hk n.c (by simp) (hh ▸ List.mem_map_of_mem hy)
      simpa using this)]
    simp only [List.isEmpty_nil, if_true]
    cases h3 with
    | cons_cons _ h3 => rw [List.dropWhile_cons_of_neg (by simp)]
    | cons _ h3 =>
      exfalso
      have : n.c ∈ l2.map QMem.c := (h3.map QMem.c).subset hn2
      have h9 := hnd.2.1
      rw [List.map_cons, List.nodup_cons] at h9
      exact h9.1 this
  rw [← h7, h1, this]; exact hd2

/-- as `Att`; the resources that are being looked at will be -/
def Qat (e : CId → Prop) (D : CId → RId → Prop) (w : World) : Prop := Att e (fun d r => D d r ∨ (w.res r).trying = true) w

theorem Qat.mono {e D D'} {w : World} (h : Qat e D w) (hD : ∀ d r, r ∈ keys (w.comps d).requests → D d r → D' d r) : Qat e D' w :=
  Att.mono h fun d r hr hh => hh.imp (hD d r hr) id

theorem att_trying {e D} {w : World} (h : Att e D w) (r b) : Att e D (w.modR r (fun x => { x with trying := b })) := by
  have hv : (w.modR r (fun x => { x with trying := b })).rv = w.rv := rv_modR w r (by intro _; rfl)
  refine ⟨hv ▸ h.coh, hv ▸ h.sum, fun d s q he hq => ?_, h.nint, hv ▸ h.opn⟩
  rw [hv] at hq
  have := h.minq d s q he hq
  simp only [World.modR]
  split <;> exact this

/-- after looking at `r`, whose rule is honor only first or highest: nothing was expected -/
theorem Att.improper {e D} {w : World} {r : RId} (h : Att e (fun d s => D d s ∨ s = r) w)
    (hr : (w.res r).honorFirst = true ∨ (w.res r).honorHighest = true ∨ (w.res r).preemptive = true) : Att e D w where
  coh := h.coh
  sum := h.sum
  minq := h.minq
  nint := h.nint
  opn d he hd o ho hf := by
    obtain ⟨p, hp, h1, h2⟩ := h.opn d he hd o ho hf
    refine ⟨p, hp, h1.resolve_right fun hh => ?_, h2⟩
    have h3 := hd p.1 (mem_keys.2 ⟨p.2, RC.mem_offers ho hp⟩)
    rw [hh] at h3
    have h4 : (w.res r).honorFirst = false ∧ (w.res r).honorHighest = false ∧ (w.res r).preemptive = false := h3
    rcases hr with hr | hr | hr
    · rw [h4.1] at hr; cases hr
    · rw [h4.2.1] at hr; cases hr
    · rw [h4.2.2] at hr; cases hr

/-- after looking at `r`: nobody who waits for `r` could be honored -/
theorem Att.looked {e D} {w : World} {r : RId} (h : Att e (fun d s => D d s ∨ s = r) w)
    (hu : ∀ d, d ∈ w.rv.reqQ r → ¬ e d → D d r ∨ w.Un d) : Att e D w where
  coh := h.coh
  sum := h.sum
  minq := h.minq
  nint := h.nint
  opn d he hd o ho hf := by
    obtain ⟨p, hp, h1, h2⟩ := h.opn d he hd o ho hf
    refine ⟨p, hp, ?_, h2⟩
    rcases h1 with h1 | h1
    · exact h1
    · have hm : p.1 ∈ keys (w.rv.comps d).requests := mem_keys.2 ⟨p.2, RC.mem_offers ho hp⟩
      rcases hu d ((h.coh.rq d r).2 (h1 ▸ hm)) he with h3 | h3
      · rw [h1]; exact h3
      · exact absurd hf (h3 hd o ho)

theorem qat_try (e : CId → Prop) (fuel : Nat) :
    (∀ D c w w', tryReqC fuel c w = .ok w' → Qat e D w → Sm w w' ∧ ((honorNow c w = none ∧ w' = w) ∨
      (∀ r, c ∉ w'.rv.reqQ r) ∧ Qat e (fun d s => D d s ∧ d ≠ c) w')) ∧
    (∀ D rs w w', tryReqList fuel rs w = .ok w' → Qat e (fun d s => D d s ∨ s ∈ rs) w → Qat e D w' ∧ Sm w w') ∧
    (∀ D r w w', tryReqR fuel r w = .ok w' → Qat e (fun d s => D d s ∨ s = r) w → Qat e D w' ∧ Sm w w') ∧
    (∀ D r mx f w w', loopR fuel r mx f w = .ok w' → (w.res r).anonymous = false → Qat e (fun d s => D d s ∨ (s = r ∧ w.from r mx d)) w →
      Qat e D w' ∧ Sm w w') ∧
    (∀ D r mx f w w', loopR fuel r mx f w = .ok w' → (w.res r).anonymous = true → (w.res r).trying = true →
      (∀ d, d ∈ w.rv.reqQ r → ¬ e d → ¬ w.from r mx d → w.Un d) → Qat e D w →
      Att e (fun d s => D d s ∨ ((w'.res s).trying = true ∧ s ≠ r)) w' ∧ Sm w w') := by
  induction fuel with
  | zero =>
    refine ⟨fun D c w w' h => ?_, fun D rs w w' h => ?_, fun D r w w' h => ?_, fun D r mx f w w' h => ?_, fun D r mx f w w' h => ?_⟩
    · rw [tryReqC] at h; cases h
    · rw [tryReqList] at h; cases h
    · rw [tryReqR] at h; cases h
    · rw [loopR] at h; cases h
    · rw [loopR] at h; cases h
  | succ n ih =>
    obtain ⟨i1, i2, i3, i4, i5⟩ := ih
    refine ⟨fun D c w w' h hq => ?_, fun D rs w w' h hq => ?_, fun D r w w' h hq => ?_, fun D r mx f w w' h ha hq => ?_,
      fun D r mx f w w' h ha ht hu hq => ?_⟩
    · rw [tryReqC] at h
      split at h
      · rename_i hn; cases h; exact ⟨.refl _, .inl ⟨hn, rfl⟩⟩
      · rename_i res hres
        obtain ⟨w1, h1, h2⟩ := andThen_ok h
        subst h1
        obtain ⟨a1, a2, a3, _⟩ := Att.honor hq hres
        obtain ⟨b1, b2⟩ := i2 (fun d s => D d s ∧ d ≠ c) _ w1 w' h2 (a1.mono fun d r hk hh => by
          rcases hh with (hh | hh) | hh
          · refine .inl (.inl ⟨hh, ?_⟩)
            rintro rfl
            rw [a2] at hk; cases hk
          · exact .inr (by rw [a3.trying]; exact hh)
          · exact .inl (.inr (List.mem_filter.2 ⟨hh.2, hh.1⟩)))
        refine ⟨a3.trans b2, .inr ⟨fun r hr => ?_, b1⟩⟩
        have : c ∈ w1.rv.reqQ r := ((b2.sub r).map QMem.c).subset hr
        have := (a1.coh.rq c r).1 this
        rw [show (w1.rv.comps c).requests = [] from a2] at this; cases this
    · rw [tryReqList.eq_def] at h
      simp only at h
      split at h
      · cases h; exact ⟨hq.mono fun d r _ hh => hh.resolve_right (by simp), .refl _⟩
      · rename_i r rs
        obtain ⟨w1, h1, h2⟩ := andThen_ok h
        obtain ⟨a1, a2⟩ := i3 (fun d s => D d s ∨ s ∈ rs) r w w1 h1 (hq.mono fun d s _ hh => by
          rcases hh with hh | hh
          · exact .inl (.inl hh)
          · rcases List.mem_cons.1 hh with hh | hh
            · exact .inr hh
            · exact .inl (.inr hh))
        obtain ⟨b1, b2⟩ := i2 D rs w1 w' h2 a1
        exact ⟨b1, a2.trans b2⟩
    · rw [tryReqR] at h
      split at h
      · rename_i ha
        split at h
        · rename_i ht
          cases h
          refine ⟨Att.mono hq fun d s _ hh => ?_, .refl _⟩
          rcases hh with (hh | rfl) | hh
          · exact .inl hh
          · exact .inr ht
          · exact .inr hh
        · rename_i ht
          obtain ⟨w1, h1, h2⟩ := andThen_ok h
          cases h2
          have hT : ∀ s, ((w.modR r (fun x => { x with trying := true })).res s).trying = true ↔ s = r ∨ (w.res s).trying = true := by
            intro s
            simp only [World.modR]
            by_cases hs : s = r <;> simp [hs]
          obtain ⟨a1, a2⟩ := i5 D r _ _ _ w1 h1 (by simpa [World.modR] using ha) ((hT r).2 (.inl rfl))
            (fun d hd _ hh => absurd (from_cursor0 (w := w.modR r (fun x => { x with trying := true })) hd) hh)
            (Att.mono (att_trying hq r true) fun d s _ hh => by
              rcases hh with (hh | hh) | hh
              · exact .inl hh
              · exact .inr ((hT s).2 (.inl hh))
              · exact .inr ((hT s).2 (.inr hh)))
          have hT1 : ∀ s, ((w1.modR r (fun x => { x with trying := false })).res s).trying = true ↔ s ≠ r ∧ (w1.res s).trying = true := by
            intro s
            simp only [World.modR]
            by_cases hs : s = r <;> simp [hs]
          refine ⟨Att.mono (att_trying a1 r false) fun d s _ hh => hh.imp id fun hh => (hT1 s).2 ⟨hh.2, hh.1⟩, ?_⟩
          have hT2 : ∀ s, ((w1.modR r (fun x => { x with trying := false })).res s).trying = (w.res s).trying := by
            intro s
            have := a2.trying s
            simp only [World.modR] at this ⊢
            by_cases hs : s = r
            · subst hs; simp [ht]
            · simpa [hs] using this
          refine ⟨a2.sub, fun s => ?_, hT2, fun s => ?_, a2.intr⟩
          · rcases a2.minq s with e1 | e1
            · refine .inl ?_
              simp only [World.modR] at e1 ⊢
              split <;> simp_all
            · exact .inr e1
          · have := a2.anon s
            simp only [World.modR] at this ⊢
            split <;> simp_all
      · rename_i ha
        exact i4 D r _ _ w w' h (by simpa using ha) (hq.mono fun d s hk hh => by
          rcases hh with hh | rfl
          · exact .inl hh
          · exact .inr ⟨rfl, from_cursor0 ((hq.coh.rq d s).2 hk)⟩)
    · have hq' : Att e (fun d s => (D d s ∨ (w.res s).trying = true) ∨ s = r) w := Att.mono hq fun d s _ hh => by
        rcases hh with (hh | hh) | hh
        · exact .inl (.inl hh)
        · exact .inr hh.1
        · exact .inl (.inr hh)
      rw [loopR.eq_def] at h
      simp only at h
      split at h
      · cases h
        exact ⟨hq.mono fun d s _ hh => hh.resolve_right fun ⟨_, m, hm, _⟩ => (by cases hm), .refl _⟩
      · rename_i m
        split at h
        · rename_i hf
          cases h
          exact ⟨hq'.improper (.inl (Bool.and_eq_true_iff.1 hf).1), .refl _⟩
        · split at h
          · rename_i hf
            cases h
            exact ⟨hq'.improper (.inr (.inl (Bool.and_eq_true_iff.1 hf).1)), .refl _⟩
          · split at h
            · rename_i hmq
              cases h
              refine ⟨?_, .refl _⟩
              have hmq := of_decide_eq_true (Bool.and_eq_true_iff.1 hmq).2
              refine ⟨hq'.coh, hq'.sum, hq'.minq, hq'.nint, fun d he hd o ho hf => ?_⟩
              obtain ⟨p, hp, h1, h2⟩ := hq'.opn d he hd o ho hf
              refine ⟨p, hp, h1.resolve_right fun hh => ?_, h2⟩
              have hpos := h2 (by rw [hh]; exact ha)
              have hpm := RC.mem_offers ho hp
              have h3 := hq'.minq d p.1 p.2 he (lookup_mem (hq'.coh.rk d) hpm)
              have hfl := hd p.1 (mem_keys.2 ⟨p.2, hpm⟩)
              have h4 := (canHonor_iff (d := d) (show (w.res p.1).honorFirst = false from hfl.1) hfl.2.1).2 (hf p hp)
              unfold canHonor at h4
              simp only [Bool.and_eq_true] at h4
              have h4 := h4.2
              rw [if_pos hpos] at h4
              have h4 := of_decide_eq_true h4
              rw [hh] at h3 h4
              exact absurd (lt_of_lt_of_le hmq h3) (not_lt_of_ge h4)
            · split at h
              · cases h
              · rename_i hhas
                have hmem : m.c ∈ w.rv.reqQ r := by
                  have : (w.queues (.requesters r)).has m.c = true := by simpa using hhas
                  exact (has_inQ _ _ _).1 this
                rw [ha] at h
                obtain ⟨w1, h1, h2⟩ := andThen_ok h
                simp only [Bool.false_and, Bool.false_eq_true, if_false] at h2
                -- everybody strictly behind the cursor
                have hbehind : ∀ w1, Sm w w1 → Qat e (fun d s => D d s ∨ (s = r ∧ w.from r (some m) d ∧ d ≠ m.c)) w1 →
                    Qat e (fun d s => D d s ∨ (s = r ∧ w1.from r ((w.queues (.requesters r)).succ m.c) d)) w1 := fun w1 hsm hq1 =>
                  hq1.mono fun d s hk hh => hh.imp id fun ⟨hs, hfr, hne⟩ => by
                    obtain ⟨l1, nn, l2, k1, k2, k3⟩ := from_next hmem hfr hne
                    rw [k2]
                    refine ⟨hs, from_sublist k1 (hq.coh.rnd r) (hsm.sub r) k3 ((hq1.coh.rq d r).2 (hs ▸ hk))⟩
                obtain ⟨a1, ⟨a2, rfl⟩ | ⟨_, a3⟩⟩ := i1 _ _ _ _ h1 hq
                · refine i4 D r _ _ _ w' h2 ha (hbehind _ (.refl _) ?_)
                  have hq2 : Att e (fun d s => ((D d s ∨ (s = r ∧ World.from _ r (some m) d ∧ d ≠ m.c)) ∨ (World.res _ s).trying = true) ∨
                      (s = r ∧ d = m.c)) _ := Att.mono hq fun d s _ hh => by
                    rcases hh with (hh | hh) | hh
                    · exact .inl (.inl (.inl hh))
                    · by_cases hd : d = m.c
                      · exact .inr ⟨hh.1, hd⟩
                      · exact .inl (.inl (.inr ⟨hh.1, hh.2, hd⟩))
                    · exact .inl (.inr hh)
                  refine ⟨hq2.coh, hq2.sum, hq2.minq, hq2.nint, fun d he hd o ho hf => ?_⟩
                  obtain ⟨p, hp, k1, k2⟩ := hq2.opn d he hd o ho hf
                  refine ⟨p, hp, k1.resolve_right fun hh => ?_, k2⟩
                  have := hh.2; subst this
                  exact un_of_none hq he a2 hd o ho hf
                · obtain ⟨b1, b2⟩ := i4 D r _ _ w1 w' h2 ((a1.anon r).trans ha) (hbehind w1 a1 (a3.mono fun d s _ hh => by
                    rcases hh with ⟨hh | hh, hd⟩
                    · exact .inl hh
                    · exact .inr ⟨hh.1, hh.2, hd⟩))
                  exact ⟨b1, a1.trans b2⟩
    · have hq' : Att e (fun d s => (D d s ∨ ((w.res s).trying = true ∧ s ≠ r)) ∨ s = r) w := Att.mono hq fun d s _ hh => by
        rcases hh with hh | hh
        · exact .inl (.inl hh)
        · by_cases hs : s = r
          · exact .inr hs
          · exact .inl (.inr ⟨hh, hs⟩)
      rw [loopR.eq_def] at h
      simp only at h
      split at h
      · cases h
        exact ⟨hq'.looked fun d hd he => .inr (hu d hd he fun ⟨m, hm, _⟩ => by cases hm), .refl _⟩
      · rename_i m
        split at h
        · rename_i hf
          cases h
          exact ⟨hq'.improper (.inl (Bool.and_eq_true_iff.1 hf).1), .refl _⟩
        · split at h
          · rename_i hf
            cases h
            exact ⟨hq'.improper (.inr (.inl (Bool.and_eq_true_iff.1 hf).1)), .refl _⟩
          · rw [ha] at h
            split at h
            · rename_i hh; simp at hh
            · split at h
              · cases h
              · rename_i hhas
                have hhas : (w.queues (.requesters r)).has m.c = true := by simpa using hhas
                have hmem : m.c ∈ w.rv.reqQ r := (has_inQ _ _ _).1 hhas
                obtain ⟨w1, h1, h2⟩ := andThen_ok h
                simp only [Bool.true_and] at h2
                obtain ⟨a1, ⟨a2, rfl⟩ | ⟨a2, a3⟩⟩ := i1 _ _ _ _ h1 hq
                · rw [hhas] at h2
                  simp only [Bool.not_true, Bool.false_eq_true, if_false] at h2
                  refine i5 D r _ _ _ w' h2 ha ht (fun d hd he hnf => ?_) hq
                  by_cases hdm : d = m.c
                  · subst hdm; exact un_of_none hq he a2
                  · refine hu d hd he fun hfr => hnf ?_
                    obtain ⟨l1, nn, l2, k1, k2, k3⟩ := from_next hmem hfr hdm
                    rw [k2]
                    exact from_sublist k1 (hq.coh.rnd r) (.refl _) k3 hd
                · have : (w1.queues (.requesters r)).has m.c = false := by
                    cases hh : (w1.queues (.requesters r)).has m.c with
                    | false => rfl
                    | true => exact absurd ((has_inQ _ _ _).1 hh) (a2 r)
                  rw [this] at h2
                  simp only [Bool.not_false, if_true] at h2
                  obtain ⟨b1, b2⟩ := i5 D r _ _ w1 w' h2 ((a1.anon r).trans ha) ((a1.trying r).trans ht)
                    (fun d hd _ hnf => absurd (from_cursor0 hd) hnf) (a3.mono fun d s _ hh => hh.1)
                  exact ⟨b1, a1.trans b2⟩

/-! ## the calls -/

/-- no request (of the components not in `e`) that could be honored is waiting -/
structure Sv (e : CId → Prop) (w : World) : Prop where
  att : Att e (fun _ _ => False) w
  idle : ∀ r, (w.res r).trying = false

theorem sv_stable (e) : StableF (Sv e) where
  frame0 h hv hr hn hs := ⟨(att_stable _ _).frame0 h.att hv hr hn hs, fun r => by rw [hr]; exact h.idle r⟩
  fail {w} c h := ⟨h.att.fail c, fun r => by rw [(sm_checkFailReq w c).trying]; exact h.idle r⟩

theorem sv_tryReqR {e} {w w' : World} {fuel r} (h : tryReqR fuel r w = .ok w') (ha : Att e (fun _ s => s = r) w) (hi : ∀ r, (w.res r).trying = false) :
    Sv e w' := by
  obtain ⟨h1, h2⟩ := (qat_try e fuel).2.2.1 (fun _ _ => False) r w w' h (ha.mono fun d s _ hh => .inl (.inr hh))
  have hi' : ∀ r, (w'.res r).trying = false := fun r => by rw [h2.trying]; exact hi r
  exact ⟨Att.mono h1 fun d s _ hh => hh.resolve_right fun hh => (by rw [hi'] at hh; cases hh), hi'⟩

theorem sv_release1 {e} {w w' : World} {fuel c r q} (h : release1 fuel c r q w = .ok w') (hs : Sv e w) : Sv e w' := by
  obtain ⟨w1, h1, h2⟩ := andThen_ok h
  refine sv_tryReqR h2 ((hs.att.release h1).mono fun d s _ hh => hh.resolve_left id) fun s => ?_
  have := sm_releaseCore w c r q
  rw [h1] at this
  rw [show (w1.res s).trying = (w.res s).trying from this.trying s]; exact hs.idle s

theorem sv_forR {α : Type} {e} {f : α → World → R} (hf : ∀ a w w', f a w = .ok w' → Sv e w → Sv e w') :
    ∀ (l : List α) (w w' : World), forR l f w = .ok w' → Sv e w → Sv e w'
  | [], w, w', h, hs => by cases h; exact hs
  | a :: t, w, w', h, hs => by
    obtain ⟨w1, h1, h2⟩ := andThen_ok h
    exact sv_forR hf t w1 w' h2 (hf a w w1 h1 hs)

theorem sv_releaseAll {e} {w w' : World} {fuel c} (h : releaseAll fuel c w = .ok w') (hs : Sv e w) : Sv e w' :=
  sv_forR (fun _ _ _ h hs => sv_release1 h hs) _ _ _ h hs

theorem sv_releaseArgs {e} {w w' : World} {fuel c l} (h : releaseArgs fuel c l w = .ok w') (hs : Sv e w) : Sv e w' :=
  sv_forR (fun a w w' h hs => by
    split at h
    · cases h
    · exact sv_release1 h hs) _ _ _ h hs

theorem sv_resReleaseLoop {e} (fuel : Nat) : ∀ (r mx) (w w' : World), resReleaseLoop fuel r mx w = .ok w' → Sv e w → Sv e w' := by
  induction fuel with
  | zero => intro r mx w w' h; rw [resReleaseLoop] at h; cases h
  | succ n ih =>
    intro r mx w w' h hs
    rw [resReleaseLoop.eq_def] at h
    simp only at h
    split at h
    · cases h; exact hs
    · split at h
      · cases h
      · obtain ⟨w1, h1, h2⟩ := andThen_ok h
        exact ih _ _ _ _ h2 (sv_release1 h1 hs)

/-- a resource is changed: it has to be looked at -/
theorem Att.change {e D} {w : World} (h : Att e D w) (r : RId) {f : Res → Res}
    (hf : ∀ x, (f x).minq = x.minq ∧ (f x).trying = x.trying ∧ (f x).anonymous = x.anonymous ∧ (f x).honorFirst = x.honorFirst ∧
      (f x).honorHighest = x.honorHighest ∧ (f x).preemptive = x.preemptive)
    (hc : (w.res r).anonymous = false → (w.res r).claimed ≤ (f (w.res r)).claimed) : Att e (fun d s => D d s ∨ s = r) (w.modR r f) := by
  have hcl : (w.modR r f).rv.comps = w.rv.comps := rfl
  have hq1 : (w.modR r f).rv.reqs = w.rv.reqs := rfl
  have hq2 : (w.modR r f).rv.clms = w.rv.clms := rfl
  have hk : SameKind w.rv (w.modR r f).rv := by
    intro s
    simp only [World.rv, World.modR, Res.rv]
    split
    · exact ⟨(hf _).2.2.1, (hf _).2.2.2.1, (hf _).2.2.2.2.1, (hf _).2.2.2.2.2⟩
    · exact ⟨rfl, rfl, rfl, rfl⟩
  have hcoh : (w.modR r f).rv.Coh := by
    have := h.coh
    exact ⟨this.capq, this.rnd, this.cnd, this.rq, this.cq, this.rk, this.ck, fun c s q hw hq => (hk s).1.trans (this.pos c s q hw hq), this.nneg,
      fun s hs => this.anon s ((hk s).1.symm.trans hs)⟩
  refine h.step (· = r) (sm_modR w r fun x => ⟨(hf x).1, (hf x).2.1, (hf x).2.2.1⟩) hcoh (fun s hs => ?_) hk (fun d _ => .inl ⟨rfl, rfl⟩) (fun s => ?_)
  · rw [(hk s).1] at hs
    refine le_trans (h.sum s hs) ?_
    simp only [World.rv, World.modR, Res.rv]
    split
    · rename_i hsr; subst hsr; exact hc hs
    · exact le_refl _
  · by_cases hs : s = r
    · exact .inl hs
    · refine .inr (.inl ?_)
      simp [World.rv, World.modR, Res.rv, hs]

theorem sv_resRelease {e} {w w' : World} {fuel r q} (h : resRelease fuel r q w = .ok w') (hs : Sv e w) : Sv e w' := by
  unfold resRelease at h
  split at h
  · rename_i ha
    refine sv_tryReqR h ((hs.att.change r (f := _) (by intro _; exact ⟨rfl, rfl, rfl, rfl, rfl, rfl⟩) (fun hh => by rw [ha] at hh; cases hh)).mono
      fun d s _ hh => hh.resolve_left id) fun s => ?_
    simp only [World.modR]
    split <;> exact hs.idle _
  · split at h
    · cases h
    · exact sv_resReleaseLoop _ _ _ _ _ h hs

theorem sv_resSetCapacity {e} {w w' : World} {fuel r k} (h : resSetCapacity fuel r k w = .ok w') (hs : Sv e w) : Sv e w' := by
  refine sv_tryReqR h ((hs.att.change r (f := fun x => { x with cap := k, log := x.log.caps w.now k x.claimed }) (by intro _; exact ⟨rfl, rfl, rfl, rfl, rfl, rfl⟩) (fun _ => le_refl _)).mono
    fun d s _ hh => hh.resolve_left id) fun s => ?_
  simp only [World.modR]
  split <;> exact hs.idle _

theorem sv_cancel {e} {w w' : World} {fuel c} (h : cancel fuel c w = .ok w') (hs : Sv e w) : Sv e w' := by
  unfold cancel at h
  split at h
  · cases h; exact hs
  · obtain ⟨w2, h2, h3⟩ := andThen_ok h
    obtain ⟨w1, h1, h2⟩ := andThen_ok h2
    have hs1 : Sv e w1 := by
      split at h1
      · cases h1; exact hs
      · have := rf_removeFail (sv_stable e) hs c
        rw [h1] at this; exact this
    cases h3
    exact (sv_stable e).modC (sv_releaseAll h2 hs1) c

theorem sv_terminate {e} {w w' : World} {fuel c} (h : terminate fuel c w = .ok w') (hs : Sv e w) : Sv e w' := by
  obtain ⟨w1, h1, h2⟩ := andThen_ok h
  cases h2
  exact (sv_stable e).modC (sv_releaseAll h1 hs) c

/-- a component of which nothing is required is interrupted, or one that doesn't wait -/
theorem Sv.interrupt {e} {w : World} (h : Sv e w) (c) {f : Comp → Comp} (hf : ∀ x, (f x).rc = x.rc) (hc : ¬ e c → (w.comps c).requests = []) :
    Sv e (w.modC c f) := by
  have hv := rv_modC w c hf
  refine ⟨⟨hv ▸ h.att.coh, hv ▸ h.att.sum, fun d r q he hq => by rw [hv] at hq; exact h.att.minq d r q he hq, fun d he hn => ?_, hv ▸ h.att.opn⟩, h.idle⟩
  have hr : ((w.modC c f).comps d).requests = (w.comps d).requests := congrArg (fun v => (RView.comps v d).requests) hv
  rw [hr] at hn
  by_cases hd : d = c
  · subst hd; exact absurd (hc he) hn
  · have := h.att.nint d he hn
    simpa [World.status, World.modC, hd] using this

theorem sv_interrupt {e} {w w' : World} {c} (h : interrupt c w = .ok w') (hs : Sv e w) (hc : ¬ e c → (w.comps c).requests = []) : Sv e w' := by
  unfold Verif.interrupt at h
  split at h
  · cases h; exact (sv_stable e).modC hs c
  · split at h
    · obtain ⟨w1, h1, h2⟩ := andThen_ok h
      cases h2
      have hs1 : Sv e w1 := by have := rf_remove (sv_stable e) hs c; rw [h1] at this; exact this
      refine hs1.interrupt c (by intro _; rfl) fun he => ?_
      have := rv_remove w c
      rw [h1] at this
      have hr : (w1.comps c).requests = (w.comps c).requests := congrArg (fun v => (RView.comps v c).requests) this
      rw [hr]; exact hc he
    · cases h

theorem sv_hold {e} {w w' : World} {c d t p u k i} (hg : Good ∅ w) (h : hold c d t p u k i w = .ok w') (hs : Sv e w) : Sv e w' := by
  unfold hold at h
  obtain ⟨w1, h1, h2⟩ := andThen_ok h
  have s1 : Start ∅ c w w1 := by
    split at h1
    · rename_i hs
      cases h1
      exact start_idle hg (by simp) hs.symm
    · exact (start_notData hg h1).1
  have hs1 : Sv e w1 := by
    split at h1
    · cases h1; exact hs
    · have := rf_removeFail (sv_stable e) hs c
      rw [h1] at this; exact this
  simp only at h2
  split at h2
  · cases h2
  · split at h2
    · cases h2
    · split at h2
      · cases h2
        exact hs1.interrupt c (by intro _; rfl) fun _ => s1.nowait.req
      · have key := fun t' => rf_reschedule (sv_stable e) (rf_setStatus (sv_stable e) hs1 c .scheduled) c t' p u k none
        have h3 : Pr (Sv e) (.ok w') := h2 ▸ key _
        exact h3

/-! ### request -/

theorem Att.comp {e D} {w : World} (h : Att e D w) {w' : World} {c : CId} (hc : e c) (hcoh : w'.rv.Coh) (ho : ∀ d, d ≠ c → w'.comps d = w.comps d)
    (hr : w'.res = w.res) (hsum : ∀ r, (w'.rv.res r).anonymous = false → w'.rv.total r ≤ (w'.rv.res r).claimed) : Att e D w' := by
  have hne : ∀ d, ¬ e d → d ≠ c := fun d he hd => he (hd ▸ hc)
  have hrv : ∀ d, ¬ e d → w'.rv.comps d = w.rv.comps d := fun d he => congrArg Comp.rc (ho d (hne d he))
  have hres : w'.rv.res = w.rv.res := by simp only [World.rv, hr]
  refine ⟨hcoh, hsum, fun d r q he hq => ?_, fun d he hn => ?_, fun d he hd o hoo hf => ?_⟩
  · rw [hr]; refine h.minq d r q he ?_
    unfold RView.wants at hq ⊢
    rw [hrv d he] at hq; exact hq
  · rw [ho d (hne d he)] at hn
    unfold World.status; rw [ho d (hne d he)]
    exact h.nint d he hn
  · have hd' : w.rv.proper d := by
      unfold RView.proper at hd ⊢
      rw [hrv d he, hres] at hd; exact hd
    rw [hrv d he] at hoo
    obtain ⟨p, hp, h1, h2⟩ := h.opn d he hd' o hoo fun p hp => by
      have := hf p hp
      unfold RView.fits at this ⊢
      rw [hres] at this; exact this
    exact ⟨p, hp, h1, by rw [hres]; exact h2⟩

theorem Att.ask {e D} {w : World} (h : Att e D w) {c r q prio} (hc : e c) (hq : q < 0 → (w.res r).anonymous = true) :
    Att e D (enterSortedQ c (.requesters r) prio (w.modC c (fun x => { x with requests := addTo x.requests r q }))).world := by
  have h2 := ask_step h.coh c r q prio hq
  have hcr : ∀ w0 : World, (enterSortedQ c (.requesters r) prio w0).world.comps = w0.comps ∧ (enterSortedQ c (.requesters r) prio w0).world.res = w0.res := by
    intro w0
    unfold enterSortedQ onQueue
    split <;> exact ⟨rfl, rfl⟩
  refine h.comp hc (h.coh.ask h2) (fun d hd => ?_) (by rw [(hcr _).2]; rfl)
    (fun s => sum_le_step (L := anyLic) h.coh (.ask c r q prio trivial trivial h2) s (h.sum s))
  rw [(hcr _).1]
  simp [World.modC, hd]

/-- what holds while a request is being made by `c` -/
structure Asking (e : CId → Prop) (c : CId) (w : World) : Prop where
  sv : Sv (fun d => e d ∨ d = c) w
  stat : ¬ e c → w.status c ≠ .interrupted

theorem asking_stable (e c) : StableF (Asking e c) where
  frame0 h hv hr hn hs := ⟨(sv_stable _).frame0 h.sv hv hr hn hs, fun he hh => h.stat he (hs c hh)⟩
  fail {w} d h := ⟨(sv_stable _).fail d h.sv, fun he hh => h.stat he ((sm_checkFailReq w d).intr c hh)⟩

theorem Asking.bump {e c} {w w' : World} {d r} (h : Asking e c w) (hp : (w.res r).preemptive = true) (he : releaseCore d r none w = .ok w') :
    Asking e c w' ∧ (w'.res r).preemptive = true := by
  have hsm := sm_releaseCore w d r none
  rw [he] at hsm
  have hsm : Sm w w' := hsm
  have hp' : (w'.res r).preemptive = true := by
    rcases release_step h.sv.att.coh d r none with hs | ⟨cl, _, hs⟩
    · rw [hs] at he; cases he
    · rw [he] at hs
      replace hs : Release d r cl (RView.amount none cl) w.rv w'.rv := hs
      have : (w'.rv.res r).preemptive = (w.rv.res r).preemptive := by rw [hs.res]
      exact this.trans hp
  exact ⟨⟨⟨(h.sv.att.release he).improper (.inr (.inr hp')), fun s => by rw [hsm.trying]; exact h.sv.idle s⟩, fun hc hh => h.stat hc (hsm.intr c hh)⟩, hp'⟩

theorem bumping_stable (e c r) : StableF (fun w => Asking e c w ∧ (w.res r).preemptive = true) where
  frame0 h hv hr hn hs := ⟨(asking_stable _ _).frame0 h.1 hv hr hn hs, by rw [hr]; exact h.2⟩
  fail {w} d h := by
    refine ⟨(asking_stable _ _).fail d h.1, ?_⟩
    have : ((checkFailReq d w).world.rv.res r).preemptive = (w.rv.res r).preemptive := by rw [(fail_step h.1.sv.att.coh d).res]
    exact this.trans h.2

theorem Asking.bumps {e c r} : ∀ (l : List CId) (w w' : World), forR l (fun d w => releaseCore d r none w ⊳
      activate d none (0 : Rat) (0 : Rat) false false false false false) w = .ok w' → Asking e c w → (w.res r).preemptive = true → Asking e c w'
  | [], w, w', h, ha, _ => by cases h; exact ha
  | d :: l, w, w', h, ha, hp => by
    obtain ⟨w1, h1, h2⟩ := andThen_ok h
    obtain ⟨w0, h0, h1⟩ := andThen_ok h1
    have := rf_activate (bumping_stable e c r) (ha.bump hp h0) d none (0 : Rat) (0 : Rat) false false false false false
    rw [h1] at this
    exact Asking.bumps l w1 w' h2 this.1 this.2

theorem Asking.arg {e c n pu a} {w w' : World} (h : requestArg c n pu a w = .ok w') (ha : Asking e c w) : Asking e c w' := by
  unfold requestArg at h
  simp only at h
  generalize (if pu = true then -a.q else a.q) = q at h
  split at h
  · cases h
  · split at h
    · cases h
    · rename_i hn
      obtain ⟨w1, h1, h2⟩ := andThen_ok h
      have hw1 : w1.res = w.res ∧ w1.comps = (w.modC c (fun x => { x with requests := addTo x.requests a.r q })).comps := by
        unfold enterSortedQ onQueue at h1
        split at h1
        · cases h1; exact ⟨rfl, rfl⟩
        · cases h1
      have h3 : Asking e c w1 := by
        have := ha.sv.att.ask (c := c) (r := a.r) (q := q) (prio := a.prio) (.inr rfl) (fun hq => by
          cases hA : (w.res a.r).anonymous
          · exact absurd ⟨hq, hA⟩ hn
          · rfl)
        rw [h1] at this
        refine ⟨⟨this, fun s => by rw [hw1.1]; exact ha.sv.idle s⟩, fun he => ?_⟩
        unfold World.status
        rw [hw1.2]
        simpa [World.modC] using ha.stat he
      split at h2
      · rename_i hp
        unfold preempt at h2
        simp only at h2
        split at h2
        · exact Asking.bumps _ _ _ h2 h3 (by rw [hw1.1]; exact hp)
        · cases h2; exact h3
      · cases h2; exact h3

theorem Asking.args {e c n pu} : ∀ (l : List Arg) (w w' : World), forR l (requestArg c n pu) w = .ok w' → Asking e c w → Asking e c w'
  | [], w, w', h, ha => by cases h; exact ha
  | a :: l, w, w', h, ha => by
    obtain ⟨w1, h1, h2⟩ := andThen_ok h
    exact Asking.args l w1 w' h2 (ha.arg h1)

/-- `_minq` gets low enough -/
theorem lowerMinq_le (l : List (RId × Rat)) : ∀ (w : World) (r : RId), ((lowerMinq l w).res r).minq ≤ (w.res r).minq ∧
    ∀ q, (r, q) ∈ l → ((lowerMinq l w).res r).minq ≤ (q : ETime) := by
  unfold lowerMinq
  induction l with
  | nil => exact fun w r => ⟨le_refl _, fun q hq => by cases hq⟩
  | cons a l ih =>
    intro w r
    obtain ⟨h1, h2⟩ := ih (w.modR a.1 (fun x => { x with minq := if (a.2 : ETime) < x.minq then (a.2 : ETime) else x.minq })) r
    have h3 : ((w.modR a.1 (fun x => { x with minq := if (a.2 : ETime) < x.minq then (a.2 : ETime) else x.minq })).res r).minq ≤ (w.res r).minq := by
      simp only [World.modR]
      split
      · simp only
        split
        · rename_i hlt; exact le_of_lt hlt
        · exact le_refl _
      · exact le_refl _
    refine ⟨h1.trans h3, fun q hq => ?_⟩
    rcases List.mem_cons.1 hq with hq | hq
    · refine h1.trans ?_
      subst hq
      simp only [World.modR, if_true]
      split
      · exact le_refl _
      · rename_i hlt; exact not_lt.1 hlt
    · exact h2 q hq

theorem lowerMinq_keeps (l : List (RId × Rat)) : ∀ w : World, (lowerMinq l w).rv = w.rv ∧ (lowerMinq l w).comps = w.comps ∧
    ∀ r, ((lowerMinq l w).res r).trying = (w.res r).trying := by
  unfold lowerMinq
  induction l with
  | nil => exact fun w => ⟨rfl, rfl, fun _ => rfl⟩
  | cons a l ih =>
    intro w
    obtain ⟨h1, h2, h3⟩ := ih (w.modR a.1 (fun x => { x with minq := if (a.2 : ETime) < x.minq then (a.2 : ETime) else x.minq }))
    refine ⟨h1.trans (rv_modR _ _ (by intro _; rfl)), h2.trans rfl, fun r => (h3 r).trans ?_⟩
    simp only [World.modR]
    split <;> rfl

theorem Asking.lower {e c} {w : World} (h : Asking e c w) (l) : Asking e c (lowerMinq l w) := by
  obtain ⟨h1, h2, h3⟩ := lowerMinq_keeps l w
  refine ⟨⟨⟨h1 ▸ h.sv.att.coh, h1 ▸ h.sv.att.sum, fun d r q he hq => ?_, fun d he => ?_, h1 ▸ h.sv.att.opn⟩, fun r => (h3 r).trans (h.sv.idle r)⟩, fun he => ?_⟩
  · rw [h1] at hq; exact (lowerMinq_le l w r).1.trans (h.sv.att.minq d r q he hq)
  · unfold World.status; rw [h2]; exact h.sv.att.nint d he
  · unfold World.status; rw [h2]; exact h.stat he

/-- the request is made, and tried -/
theorem Asking.tried {e c fuel} {w w' : World} (h : Asking e c w) (hm : ∀ r q, w.rv.wants c r = some q → (w.res r).minq ≤ (q : ETime))
    (ht : tryReqC fuel c w = .ok w') : Sv e w' := by
  have a := h.sv.att
  cases fuel with
  | zero => rw [tryReqC] at ht; cases ht
  | succ n =>
    rw [tryReqC] at ht
    split at ht
    · rename_i hn
      cases ht
      refine ⟨⟨a.coh, a.sum, fun d r q he hq => ?_, fun d he hne => ?_, fun d he hd o ho hf => ?_⟩, h.sv.idle⟩
      · by_cases hd : d = c
        · subst hd; exact hm r q hq
        · exact a.minq d r q (fun hh => hh.elim he hd) hq
      · by_cases hd : d = c
        · subst hd; exact h.stat he
        · exact a.nint d (fun hh => hh.elim he hd) hne
      · by_cases hdc : d = c
        · subst hdc
          exact absurd hf (un_of_nint (fun _ => h.stat he) hn hd o ho)
        · exact a.opn d (fun hh => hh.elim he hdc) hd o ho hf
    · rename_i res hres
      obtain ⟨w1, h1, h2⟩ := andThen_ok ht
      subst h1
      obtain ⟨a1, a2, a3, _⟩ := a.honor hres
      have h3 : Att e (fun _ r => (w.res r).anonymous = true ∧ r ∈ keys (w.comps c).requests) w1 := by
        refine ⟨a1.coh, a1.sum, fun d r q he hq => ?_, fun d he hne => ?_, fun d he hd o ho hf => ?_⟩
        · by_cases hd : d = c
          · subst hd
            have hq' : lookup (w1.comps d).requests r = some q := hq
            rw [a2] at hq'; cases hq'
          · exact a1.minq d r q (fun hh => hh.elim he hd) hq
        · by_cases hd : d = c
          · subst hd; exact absurd a2 hne
          · exact a1.nint d (fun hh => hh.elim he hd) hne
        · by_cases hdc : d = c
          · subst hdc; rw [RC.offers_nil (x := w1.rv.comps d) a2] at ho; cases ho
          · obtain ⟨p, hp, k1, k2⟩ := a1.opn d (fun hh => hh.elim he hdc) hd o ho hf
            exact ⟨p, hp, k1.resolve_left id, k2⟩
      obtain ⟨b1, b2⟩ := (qat_try e n).2.1 (fun _ _ => False) _ w1 w' h2 (h3.mono fun d s _ hh => .inl (.inr (List.mem_filter.2 ⟨hh.2, hh.1⟩)))
      have hi' : ∀ r, (w'.res r).trying = false := fun r => by rw [b2.trying, a3.trying]; exact h.sv.idle r
      exact ⟨Att.mono b1 fun d s _ hh => hh.resolve_right fun hh => (by rw [hi'] at hh; cases hh), hi'⟩

theorem sv_request {e} {w w' : World} {fuel c args o pu fa fd p u k} (h : request fuel c args o pu fa fd p u k w = .ok w') (hs : Sv e w)
    (hc : ¬ e c → w.status c ≠ .interrupted) (hne : args ≠ []) : Sv e w' := by
  unfold request at h
  obtain ⟨w1, h1, h2⟩ := andThen_ok h
  have ha : Asking e c (w.modC c (fun x => { x with oneof := o })) := by
    have a := hs.att
    have a' : Att (fun d => e d ∨ d = c) (fun _ _ => False) w :=
      ⟨a.coh, a.sum, fun d r q he => a.minq d r q fun hh => he (.inl hh), fun d he => a.nint d fun hh => he (.inl hh),
        fun d he => a.opn d fun hh => he (.inl hh)⟩
    have st : Step anyLic w.rv (w.modC c (fun x => { x with oneof := o })).rv := .oneof c o trivial (by
      simp only [World.rv, World.modC]
      congr 1
      funext d
      by_cases hd : d = c
      · subst hd; simp [Comp.rc]
      · simp [hd])
    refine ⟨⟨a'.comp (c := c) (.inr rfl) (a.coh.step st) (fun d hd => by simp [World.modC, hd]) rfl (fun r => sum_le_step a.coh st r (a.sum r)), hs.idle⟩, fun he => ?_⟩
    have := hc he
    simpa [World.status, World.modC] using this
  have ha1 : Asking e c w1 := by
    have := rf_preamble (asking_stable e c) ha c
    rw [h1] at this; exact this
  simp only at h2
  split at h2
  · cases h2
  · rename_i t _
    have ha2 := (asking_stable e c).modC ha1 c (f := fun x => { x with failed := false })
    split at h2
    · rename_i hem; exact absurd (List.isEmpty_iff.1 hem) hne
    · obtain ⟨w3, h3, h4⟩ := andThen_ok h2
      obtain ⟨w5, h5, h6⟩ := andThen_ok h4
      have ha3 := ((Asking.args _ _ _ h3 ha2).lower (w3.comps c).requests)
      have ha4 := (asking_stable e c).modC ha3 c (f := fun x => { x with remaining := t.subQ (lowerMinq (w3.comps c).requests w3).now })
      have hs5 : Sv e w5 := ha4.tried (fun r q hq => ?_) h5
      · split at h6
        · cases h6; exact hs5
        · have := rf_reschedule (sv_stable e) (rf_setStatus (sv_stable e) hs5 c .requesting) c t p u k none
          rw [h6] at this; exact this
      · rw [rv_modC _ _ (by intro _; rfl), (lowerMinq_keeps _ _).1] at hq
        exact (lowerMinq_le _ _ r).2 q (lookup_some hq)

/-! ## all calls -/

/-- `d` is not interrupted while it waits for a resource, and makes no requests while it is interrupted -/
def Unbothered (d : CId) (w : World) : Op → Prop
  | .interrupt c => c = d → (w.comps d).requests = []
  | .request c .. => c = d → w.status d ≠ .interrupted
  | _ => True

theorem Sv.ofPr {e} {r : R} {w' : World} (h : r = .ok w') (hp : Pr (Sv e) r) : Sv e w' := by rw [h] at hp; exact hp

theorem sv_exec {d : CId} {w w' : World} {fuel o} (hg : Good ∅ w) (hs : Sv (· ≠ d) w) (hok : OpOK w o) (hu : Unbothered d w o)
    (h : exec fuel o w = .ok w') : Sv (· ≠ d) w' := by
  have S := sv_stable (· ≠ d)
  cases o <;> simp only [exec] at h <;> first
    | exact sv_hold hg h hs | exact sv_interrupt h hs (fun he => by have := not_not.1 he; subst this; exact hu rfl) | exact sv_cancel h hs
    | exact sv_request h hs (fun he => by have := not_not.1 he; subst this; exact hu rfl) hok.1
    | exact sv_releaseArgs h hs | exact sv_releaseAll h hs | exact sv_resRelease h hs | exact sv_resSetCapacity h hs | exact sv_terminate h hs
    | refine Sv.ofPr h ?_
  all_goals first
    | exact rf_passivate S hs _ | exact rf_activate S hs _ _ _ _ _ _ _ _ _
    | exact rf_create S hs _ _ _ _ _ _ _ | exact rf_resume S hs _ _ _ _ | exact rf_standby S hs _
    | exact rf_setRemaining S hs _ _ _ _
    | exact rf_wait S hs _ _ _ _ _ _ _ _ | exact rf_waitFor S hs _ _ _ _ _ _ _ _
    | exact rf_stateSet S hs _ _ | exact rf_stateTrigger S hs _ _ _ _ | exact rf_fromStore S hs _ _ _ _ _ _ _ _ _ _ _
    | exact rf_toStore S hs _ _ _ _ _ _ _ _ _ _ _ | exact rf_rescan S hs _ _ | exact rf_storeSetCapacity S hs _ _ _
    | exact (rf_store S _).1 _ _ _ _ hs | exact (rf_store S _).2 _ _ _ hs | exact rf_onQueue S hs rfl _
    | exact Pr.ok (S.frame hs (rv_modQ w rfl _)) | exact Pr.ok (S.frame hs (rv_modQ' w _ (fun _ => ⟨rfl, rfl⟩)))
    | exact rf_runStart S hs _ _ _ _ _ | exact rf_step S (fun _ h => ⟨⟨h.att.coh, h.att.sum, h.att.minq, h.att.nint, h.att.opn⟩, h.idle⟩) hs | exact Pr.ok (S.frame hs rfl)

theorem Fresh.sv {w : World} (h : Fresh w) (d : CId) : Sv (· ≠ d) w := by
  have hn : ∀ c, (w.comps c).requests = [] := fun c => by obtain ⟨b, hb⟩ := h.comps c; rw [hb]
  refine ⟨⟨(Reach.init (ok := Any) h).coh, fun r ha => ?_, fun c r q _ hq => ?_, fun c _ hne => absurd (hn c) hne, fun c _ _ o ho => ?_⟩, fun r => (h.res r).2.1⟩
  · rw [h.total]; exact (h.res r).2.2.1
  · have hq' : lookup (w.comps c).requests r = some q := hq
    rw [hn] at hq'; cases hq'
  · rw [RC.offers_nil (x := w.rv.comps c) (hn c)] at ho; cases ho

/-- calls that return, none of which disturbs `d` -/
def CalmU (d : CId) (fuel : Nat) (w : World) (o : Op) : Prop := Calm fuel w o ∧ Unbothered d w o

theorem Reach.sv {d : CId} {w : World} (h : Reach (CalmU d) w) : Sv (· ≠ d) w ∧ Good ∅ w := by
  induction h with
  | init hf => exact ⟨hf.sv d, hf.good⟩
  | op fuel o _ ho ih =>
    obtain ⟨w', h1⟩ := ho.1.1
    rw [h1]
    exact ⟨sv_exec ih.2 ih.1 ho.1.2.1 ho.2 h1, exec_good ih.2 ho.1 h1⟩

end Verif
