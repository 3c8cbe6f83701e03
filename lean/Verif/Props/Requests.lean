import Verif.Props.Resources
import Verif.Props.Scheduling

/-!
# Requests: claims C30 and C31
-/

namespace Verif
open World RView

/-! ## histories of steps -/

/-- a property that is lost in a history is lost in one of the steps -/
theorem crossing {α : Type} {S : α → α → Prop} {a b : α} (h : Relation.ReflTransGen S a b) (Q : α → Prop) (ha : Q a) (hb : ¬ Q b) :
    ∃ x y, Relation.ReflTransGen S a x ∧ Q x ∧ S x y ∧ ¬ Q y ∧ Relation.ReflTransGen S y b := by
  induction h with
  | refl => exact absurd ha hb
  | @tail x y hx s ih =>
    by_cases hq : Q x
    · exact ⟨x, y, hx, hq, s, hb, .refl⟩
    · obtain ⟨x', y', h1, h2, h3, h4, h5⟩ := ih hq
      exact ⟨x', y', h1, h2, h3, h4, h5.tail s⟩

theorem coh_path {L : Lic} {v v' : RView} (h : v.Coh) (s : Relation.ReflTransGen (Step L) v v') : v'.Coh := by
  induction s with
  | refl => exact h
  | tail _ s ih => exact ih.step s

theorem anonymous_path {L : Lic} {v v' : RView} (s : Relation.ReflTransGen (Step L) v v') (r : RId) :
    (v'.res r).anonymous = (v.res r).anonymous := by
  induction s with
  | refl => rfl
  | tail _ s ih => rw [step_anonymous s r]; exact ih

theorem oneof_path {L : Lic} {c : CId} (hL : ¬ L.who c) {v v' : RView} (s : Relation.ReflTransGen (Step L) v v') :
    (v'.comps c).oneof = (v.comps c).oneof := by
  induction s with
  | refl => rfl
  | @tail v1 v2 _ s ih =>
    rw [← ih]
    cases s with
    | oneof d b hd hv =>
      subst hv
      have : c ≠ d := by rintro rfl; exact hL hd
      simp only [this, if_false]
    | ask d r q prio hd _ s =>
      have : c ≠ d := by rintro rfl; exact hL hd
      rw [s.other c this]
    | fail d s =>
      by_cases hd : c = d
      · subst hd; rw [s.comp]
      · rw [s.other c hd]
    | honor d hon s =>
      by_cases hd : c = d
      · subst hd; exact s.oneof
      · rw [s.other c hd]
    | release d r cl a hm s =>
      by_cases hd : c = d
      · subst hd; exact s.oneof
      · rw [s.other c hd]
    | anon r a _ _ hv => subst hv; rfl
    | cap r k _ hv => subst hv; rfl

/-! ## C31 -/

/-- specification: component `c`, which asked for the quantities `W` (all of them, or `oneof` of them), is served: it claims all of
it, respectively exactly one of it (the first in the order asked for that could be granted), more than before, nothing else, and it doesn't wait for
anything any longer. (Quantities of
anonymous resources are added to what is claimed from the resource, but don't belong to a component.) -/
structure Served (c : CId) (oneof : Bool) (W : List (RId × Rat)) (v v' : RView) : Prop where
  /-- the resources that are granted -/
  granted : ∃ hon : List RId, hon ≠ [] ∧ (if oneof then ∃ l1 p l2, W = l1 ++ p :: l2 ∧ hon = [p.1] ∧ ∀ x ∈ l1, ¬ Could c x.1 x.2 v else ∀ r, r ∈ hon ↔ r ∈ keys W) ∧
    (∀ r q, r ∈ hon → lookup W r = some q → Could c r q v) ∧
    (∀ r, v'.claim c r = v.claim c r + if r ∈ hon ∧ (v.res r).anonymous = false then (lookup W r).getD 0 else 0) ∧
    ∀ r, (v'.res r).claimed = (v.res r).claimed + if r ∈ hon then (lookup W r).getD 0 else 0
  others : ∀ d, d ≠ c → v'.comps d = v.comps d
  done : (v'.comps c).requests = [] ∧ ∀ r, c ∉ v'.reqQ r

theorem RView.Honor.served {v v' : RView} {c : CId} {hon : List RId} (h : Honor c hon v v') :
    Served c (v.comps c).oneof (v.comps c).requests v v' := by
  refine ⟨⟨hon, h.ne, ?_, fun r q hr hq => ⟨h.first r hr, h.highest r hr, h.fits r q hr hq⟩, h.claim, fun r => by rw [h.res]; rfl⟩, h.other, h.requests, fun r => ?_⟩
  · cases ho : (v.comps c).oneof with
    | true =>
      rw [if_pos rfl]
      exact h.order ho
    | false =>
      rw [if_neg (by simp)]
      exact fun r => ⟨h.sub r, h.all ho r⟩
  · unfold reqQ
    rw [h.reqs]
    intro hh
    exact (mem_map_filter.1 hh).1 rfl

/-- specification: component `c` gives up waiting; nothing is claimed -/
structure GaveUp (c : CId) (v v' : RView) : Prop where
  claims : ∀ d, (v'.comps d).claims = (v.comps d).claims
  claimed : v'.res = v.res
  others : ∀ d, d ≠ c → v'.comps d = v.comps d
  done : (v'.comps c).requests = [] ∧ ∀ r, c ∉ v'.reqQ r

theorem RView.Fail.gaveUp {v v' : RView} {c : CId} (h : Fail c v v') : GaveUp c v v' := by
  refine ⟨h.claims', h.res, h.other, by rw [h.comp], fun r => ?_⟩
  unfold reqQ
  rw [h.reqs]
  intro hh
  exact (mem_map_filter.1 hh).1 rfl

/-- it is not a request by `c` itself -/
def NotRequestBy (c : CId) (o : Op) : Prop := match o with | .request d .. => d ≠ c | _ => True

/-- a call in which `c` doesn't request itself -/
def othersLic (c : CId) : Lic := ⟨fun d => d ≠ c, fun _ _ _ => True, fun _ _ => True, fun _ _ _ => True, fun _ _ _ => True⟩

theorem othersLic_ok {c : CId} {w : World} {o : Op} (h : NotRequestBy c o) : (othersLic c).ok w o := by
  cases o with
  | request d args oneof put fa fd p ur k => exact ⟨h, fun _ _ => trivial⟩
  | release c args => exact fun _ _ _ _ => trivial
  | _ => trivial

/-- C31: a component that waits for something (`W`) either goes on waiting for exactly the same, or there is one moment at which it
gets what it asked for (all of it, or exactly one with `oneof`), or one moment at which it gives up and claims nothing more -/
theorem C31_all_or_nothing {w : World} {c : CId} (h : Reach Any w) (fuel : Nat) (o : Op) (ho : NotRequestBy c o)
    (hw : (w.comps c).requests ≠ []) :
    ((exec fuel o w).world.comps c).requests = (w.comps c).requests ∨
    ∃ v v', Relation.ReflTransGen (Step (othersLic c)) w.rv v ∧ (v.comps c).requests = (w.comps c).requests ∧
      (Served c (w.comps c).oneof (w.comps c).requests v v' ∨ GaveUp c v v') ∧
      Relation.ReflTransGen (Step (othersLic c)) v' (exec fuel o w).world.rv := by
  by_cases hq : ((exec fuel o w).world.comps c).requests = (w.comps c).requests
  · exact .inl hq
  right
  have hs := (exec_refines (L := othersLic c) h.coh fuel o (othersLic_ok ho)).2
  obtain ⟨v, v', h1, h2, h3, h4, h5⟩ := crossing hs
    (fun v => (v.comps c).requests = (w.comps c).requests ∧ (v.comps c).oneof = (w.comps c).oneof) ⟨rfl, rfl⟩ (fun hh => hq hh.1)
  refine ⟨v, v', h1, h2.1, ?_, h5⟩
  cases h3 with
  | oneof d b hd hv =>
    subst hv
    refine absurd ?_ h4
    have : d ≠ c := hd
    simp only [Ne.symm this, if_false]; exact h2
  | ask d r q prio hd _ s =>
    have : c ≠ d := fun e => hd e.symm
    rw [s.other c this] at h4; exact absurd h2 h4
  | fail d s =>
    by_cases hd : c = d
    · subst hd; exact .inr s.gaveUp
    · rw [s.other c hd] at h4; exact absurd h2 h4
  | honor d hon s =>
    by_cases hd : c = d
    · subst hd
      have := s.served
      rw [h2.1, h2.2] at this
      exact .inl this
    · rw [s.other c hd] at h4; exact absurd h2 h4
  | release d r cl a hm s =>
    by_cases hd : c = d
    · subst hd; rw [s.requests, s.oneof] at h4; exact absurd h2 h4
    · rw [s.other c hd] at h4; exact absurd h2 h4
  | anon r a _ _ hv => subst hv; exact absurd h2 h4
  | cap r k _ hv => subst hv; exact absurd h2 h4

/-- no negative quantities are released -/
def NoNegative (o : Op) : Prop := match o with | .release _ args => ∀ a ∈ args, ∀ x, a.2 = some x → 0 ≤ x | _ => True

/-- the same for the steps -/
def posLic : Lic := ⟨fun _ => True, fun _ _ _ => True, fun _ q => 0 ≤ q, fun _ _ _ => True, fun _ _ _ => True⟩

theorem posLic_ok {w : World} {o : Op} (h : NoNegative o) : posLic.ok w o := by
  cases o with
  | request d args oneof put fa fd p ur k => exact ⟨trivial, fun _ _ => trivial⟩
  | release c args => exact h
  | _ => trivial

/-- the claims of `c` only rise in a step in which it is served -/
theorem claim_step {v v' : RView} (h : v.Coh) (s : Step posLic v v') (c : CId) (r : RId) :
    v'.claim c r ≤ v.claim c r ∨ ∃ hon, Honor c hon v v' ∧ r ∈ hon := by
  cases s with
  | oneof d b _ hv =>
    subst hv
    left
    unfold RView.claim
    simp only; split <;> exact le_refl _
  | ask d r' q prio _ _ s => left; unfold RView.claim; rw [s.claims']
  | fail d s => left; unfold RView.claim; rw [s.claims']
  | honor d hon s =>
    by_cases hd : c = d
    · subst hd
      by_cases hr : r ∈ hon
      · exact .inr ⟨hon, s, hr⟩
      · left; rw [s.claim, if_neg (fun hh => hr hh.1)]; simp
    · left; unfold RView.claim; rw [s.other c hd]
  | release d r' cl a hm s =>
    left
    by_cases hd : c = d
    · subst hd
      unfold RView.claim
      rw [s.claims]
      by_cases hr : r = r'
      · subst hr
        rw [if_pos rfl, s.has]
        have hcl : 0 ≤ cl := by
          have := h.nneg c r
          unfold RView.claim at this
          rw [s.has] at this; exact this
        have hq : 0 ≤ amount a cl := by
          cases a with
          | none => exact hcl
          | some x => exact le_min (hm x rfl) hcl
        split
        · exact hcl
        · show cl - _ ≤ cl; linarith
      · rw [if_neg hr]
    · unfold RView.claim; rw [s.other c hd]
  | anon r a _ _ hv => subst hv; exact .inl (le_refl _)
  | cap r k _ hv => subst hv; exact .inl (le_refl _)

/-- C31: what a component claims only becomes more at a moment at which a request of it is served as a whole -/
theorem C31_claims_rise {w : World} {c : CId} {r : RId} (h : Reach Any w) (fuel : Nat) (o : Op) (ho : NoNegative o)
    (hr : (lookup (w.comps c).claims r).getD 0 < (lookup ((exec fuel o w).world.comps c).claims r).getD 0) :
    ∃ v v', Relation.ReflTransGen (Step posLic) w.rv v ∧ r ∈ keys (v.comps c).requests ∧
      Served c (v.comps c).oneof (v.comps c).requests v v' ∧
      Relation.ReflTransGen (Step posLic) v' (exec fuel o w).world.rv := by
  have hs := (exec_refines (L := posLic) h.coh fuel o (posLic_ok ho)).2
  obtain ⟨v, v', h1, h2, h3, h4, h5⟩ := crossing hs (fun v => v.claim c r ≤ w.rv.claim c r) (le_refl _) (not_le_of_gt hr)
  rcases claim_step (coh_path h.coh h1) h3 c r with h6 | ⟨hon, h6, h7⟩
  · exact absurd (h6.trans h2) h4
  · exact ⟨v, v', h1, h6.sub r h7, h6.served, h5⟩

/-! ### requests by the component itself -/

/-- what `request` (`put`: when called as put) with these arguments asks for -/
def demand (put : Bool) (args : List Arg) : List (RId × Rat) := asked put [] args

theorem lookup_asked (put : Bool) (l : List Arg) (d : List (RId × Rat)) (r : RId) (hr : ∃ a ∈ l, a.r = r) :
    (lookup (asked put d l) r).getD 0 = (lookup d r).getD 0 + ((l.filter (fun a => a.r = r)).map (fun a => if put then -a.q else a.q)).sum := by
  have key : ∀ (l : List Arg) (d : List (RId × Rat)), (lookup (asked put d l) r).getD 0 =
      (lookup d r).getD 0 + ((l.filter (fun a => a.r = r)).map (fun a => if put then -a.q else a.q)).sum := by
    intro l
    induction l with
    | nil => intro d; simp [asked]
    | cons a t ih =>
      intro d
      show (lookup (asked put (addTo d a.r (if put then -a.q else a.q)) t) r).getD 0 = _
      rw [ih, lookup_addTo]
      by_cases ha : a.r = r
      · rw [if_pos ha.symm, List.filter_cons_of_pos (by simpa using ha), List.map_cons, List.sum_cons, ha]
        show _ + _ + _ = _
        ring
      · rw [if_neg (fun e => ha e.symm), List.filter_cons_of_neg (by simpa using ha)]
  exact key l d

/-- C31: the demand is the sum of the quantities given for a resource -/
theorem C31_demand (put : Bool) (args : List Arg) (r : RId) : (lookup (demand put args) r).getD 0 =
    ((args.filter (fun a => a.r = r)).map (fun a => if put then -a.q else a.q)).sum := by
  by_cases hr : ∃ a ∈ args, a.r = r
  · unfold demand; rw [lookup_asked put args [] r hr]; simp [lookup]
  · have h1 : args.filter (fun a => decide (a.r = r)) = [] := by
      rw [List.filter_eq_nil_iff]; intro a ha; simpa using fun e => hr ⟨a, ha, e⟩
    rw [h1]
    have key : ∀ (l : List Arg) (d : List (RId × Rat)), (∀ a ∈ l, a.r ≠ r) → lookup (asked put d l) r = lookup d r := by
      intro l
      induction l with
      | nil => intro d _; rfl
      | cons a t ih =>
        intro d hl
        show lookup (asked put (addTo d a.r (if put then -a.q else a.q)) t) r = _
        rw [ih _ (fun a ha => hl a (List.mem_cons_of_mem _ ha)), lookup_addTo, if_neg (fun e => hl a List.mem_cons_self e.symm)]
    unfold demand
    rw [key args [] (fun a ha e => hr ⟨a, ha, e⟩)]
    simp [lookup]

theorem lowerMinq_queues (l : List (RId × Rat)) (w : World) : (lowerMinq l w).queues = w.queues := by
  unfold lowerMinq
  induction l generalizing w with
  | nil => rfl
  | cons p t ih => exact ih (w.modR _ _)

theorem lowerMinq_res (l : List (RId × Rat)) (w : World) (r : RId) : ((lowerMinq l w).res r).rv = (w.res r).rv := by
  unfold lowerMinq
  induction l generalizing w with
  | nil => rfl
  | cons p t ih =>
    rw [List.foldl_cons, ih]
    unfold World.modR
    simp only
    split <;> rfl

/-- the part of request up to `_tryrequest` -/
theorem request_split {w w' : World} {fuel c args o pu fa fd p u k} (hg : Good ∅ w) (hr : ReqOK w c args) (hm : c ≠ w.main) (hcoh : w.rv.Coh)
    (h : request fuel c args o pu fa fd p u k w = .ok w') :
    ∃ t w4, Good {c} w4 ∧ Refines anyLic w.rv w4 ∧ (w4.comps c).requests = demand pu args ∧ (w4.comps c).claims = (w.comps c).claims ∧
      (w4.comps c).oneof = o ∧ (w4.comps c).waits = [] ∧ (w4.comps c).fromStores = [] ∧ (w4.comps c).toStores = [] ∧
      (w.status c = .current → ∃ w2 w3, w2.queues = w.queues ∧ w2.res = w.res ∧ forR args (requestArg c args.length pu) w2 = .ok w3 ∧ w4.queues = w3.queues ∧
        (∀ r, (w4.res r).rv = (w3.res r).rv) ∧ w4.status c = .current) ∧
      (tryReqC fuel c w4 ⊳ fun w => if (w.comps c).requests = [] then .ok w else reschedule c t p u k none (setStatus c .requesting w)) = .ok w' := by
  unfold request at h
  have g0 : Good ∅ (w.modC c (fun x => { x with oneof := o })) :=
    hg.modC' (fun _ => rfl) (fun _ => rfl) (fun _ => rfl) (fun _ => rfl) (fun _ => rfl)
  have S := refines_stable anyLic w.rv
  have p0 : Refines anyLic w.rv (w.modC c (fun x => { x with oneof := o })) := S.oneof c o ⟨hcoh, .refl⟩ trivial
  obtain ⟨w1, h1, h2⟩ := andThen_ok h
  have p1 : Refines anyLic w.rv w1 := by
    have := rf_preamble S.toF p0 c
    rw [h1] at this; exact this
  obtain ⟨s1, hd⟩ := start_preamble g0 (by simp) h1
  have sc1 : SameCl w w1 := by
    have := sc_preamble c (w.modC c (fun x => { x with oneof := o }))
    rw [h1] at this
    exact SameCl.trans (b := w.modC c (fun x => { x with oneof := o })) ⟨fun _ => rfl, fun _ => rfl⟩ this
  have m1 : w1.main = w.main := s1.main
  have cl1 : (w1.comps c).claims = (w.comps c).claims := by rw [s1.claims, modC_self]
  have on1 : (w1.comps c).oneof = o := by
    have : (w1.comps c).oneof = ((w.modC c (fun x => { x with oneof := o })).comps c).oneof := by
      have := rf_preamble (refines_stable (othersLic c) (w.modC c (fun x => { x with oneof := o })).rv).toF ⟨p0.1, .refl⟩ c
      rw [h1] at this
      exact oneof_path (L := othersLic c) (c := c) (fun hh => hh rfl) this.2
    rw [this, modC_self]
  simp only at h2
  split at h2
  · cases h2
  · rename_i t ht
    have hne : args.isEmpty = false := by
      cases args with
      | nil => exact absurd rfl hr.1
      | cons a t => rfl
    simp only [hne, Bool.false_eq_true, if_false] at h2
    obtain ⟨w3, h3, h4⟩ := andThen_ok h2
    have g2 : Good {c} (w1.modC c (fun x => { x with failed := false })) := by
      have := s1.good.modC' (c := c) (f := fun x => { x with failed := false }) (fun _ => rfl) (fun _ => rfl) (fun _ => rfl) (fun _ => rfl) (fun _ => rfl)
      simpa using this
    have p2 : Refines anyLic w.rv (w1.modC c (fun x => { x with failed := false })) := S.modC p1 _
    have o2 : ((w1.modC c (fun x => { x with failed := false })).comps c).onList = false := by rw [modC_self]; exact s1.off
    have m2 : (w1.modC c (fun x => { x with failed := false })).main = w.main := m1
    have c2 : (w1.modC c (fun x => { x with failed := false })).comps c = { w1.comps c with failed := false } := modC_self _ _ _
    have sc2 : SameCl w (w1.modC c (fun x => { x with failed := false })) := sc1.trans ⟨fun _ => rfl, fun _ => rfl⟩
    have q2 : w.status c = .current → (w1.modC c (fun x => { x with failed := false })).queues = w.queues ∧
        (w1.modC c (fun x => { x with failed := false })).res = w.res ∧ (w1.modC c (fun x => { x with failed := false })).status c = .current := fun hcur => by
      unfold preamble at h1
      rw [if_pos (show (w.modC c (fun x => { x with oneof := o })).status c = .current by rw [World.status, modC_self]; exact hcur)] at h1
      cases h1
      refine ⟨rfl, rfl, ?_⟩
      rw [World.status, modC_self, modC_self]; exact hcur
    generalize w1.modC c (fun x => { x with failed := false }) = w2 at h3 g2 o2 m2 sc2 c2 p2 q2
    have p3 : Refines anyLic w.rv w3 := by
      have := rs_requestArgs S c args.length pu trivial args w2 p2 (fun _ _ => trivial)
      rw [h3] at this; exact this
    have s3 : (Good {c} w3 ∧ (w3.comps c).onList = false) ∧ w3.comps c = { w2.comps c with requests := asked pu (w2.comps c).requests args } := by
      obtain ⟨_, hr⟩ := hr
      match args, hr, h3, hne with
      | [a], hr, h3, _ =>
        unfold forR at h3
        obtain ⟨w5, h5, h6⟩ := andThen_ok h3
        cases h6
        have hcl : (w2.res a.r).preemptive = true → c ∉ w2.inQ (.claimers a.r) := by
          intro hpre
          have h7 := hr a (by simp) (by rw [← sc2.1]; exact hpre)
          rw [← sc2.2] at h7
          rw [← has_inQ, h7]; simp
        have k1 := requestArg_good g2 (by rw [m2]; exact hm) o2 (.inr hcl) h5
        exact ⟨⟨k1.1, k1.2.2.1⟩, (requestArg_out g2 (by rw [m2]; exact hm) (.inr hcl) h5).2.2⟩
      | a :: b :: t, hr, h3, _ =>
        have hn : (a :: b :: t).length > 1 := by simp
        obtain ⟨k1, k2, k3⟩ := requestArgs_out (put := pu) hn _ w2 w3 g2 (by rw [m2]; exact hm) o2 h3
        refine ⟨?_, k3⟩
        generalize (a :: b :: t).length = n at h3 hn
        unfold forR at h3
        obtain ⟨w5, h5, h6⟩ := andThen_ok h3
        obtain ⟨g5, m5, o5, r5⟩ := requestArg_good g2 (by rw [m2]; exact hm) o2 (.inl hn) h5
        have k1 := requestArgs_good hn _ w5 w3 g5 (by rw [m5, m2]; exact hm) o5 r5 h6
        exact ⟨k1.1, k1.2.2.1⟩
    obtain ⟨⟨g3, o3⟩, sf3⟩ := s3
    obtain ⟨g4, c4, m4⟩ := lowerMinq_good g3 (w3.comps c).requests
    have p4 : Refines anyLic w.rv (lowerMinq (w3.comps c).requests w3) := rs_lowerMinq S _ _ p3
    have c5 : ((lowerMinq (w3.comps c).requests w3).modC c (fun x => { x with remaining := t.subQ (lowerMinq (w3.comps c).requests w3).now })).comps c =
        { w3.comps c with remaining := t.subQ (lowerMinq (w3.comps c).requests w3).now } := by rw [modC_self, c4]
    refine ⟨t, (lowerMinq (w3.comps c).requests w3).modC c (fun x => { x with remaining := t.subQ (lowerMinq (w3.comps c).requests w3).now }),
      ?_, S.modC p4 _, ?_, ?_, ?_, ?_, ?_, ?_, fun hcur => ⟨w2, w3, (q2 hcur).1, (q2 hcur).2.1, h3, lowerMinq_queues _ _, lowerMinq_res _ _, ?_⟩, h4⟩
    · refine g4.set (fun _ _ => Iff.rfl) (by rw [c4]; exact o3) ?_ ?_ ?_ ?_ ?_ ?_ ?_ <;> simp
    all_goals first | rw [c5] | rw [World.status, c5]
    · show (w3.comps c).requests = _
      rw [sf3, c2]
      show asked pu (w1.comps c).requests args = _
      rw [s1.nowait.req]; rfl
    · show (w3.comps c).claims = _
      rw [sf3, c2]; exact cl1
    · show (w3.comps c).oneof = _
      rw [sf3, c2]; exact on1
    · show (w3.comps c).waits = _
      rw [sf3, c2]; exact s1.nowait.wai
    · show (w3.comps c).fromStores = _
      rw [sf3, c2]; exact s1.nowait.frm
    · show (w3.comps c).toStores = _
      rw [sf3, c2]; exact s1.nowait.tos
    · show (w3.comps c).status = _
      rw [sf3]; exact (q2 hcur).2.2

theorem Woken.rv {c : CId} {w w' : World} (h : Woken c w w') : w'.rv = w.rv := by
  have hc : ∀ d, (w'.comps d).rc = (w.comps d).rc := fun d => by
    by_cases hd : d = c
    · subst hd; rw [h.self]; rfl
    · rw [h.other d hd]
  simp only [World.rv, h.queues, h.res, hc]

theorem honorNow_honor {e : Set CId} {c : CId} {w w' : World} {r : R} (hg : Good e w) (hcoh : w.rv.Coh)
    (h : honorNow c w = some r) (hr : r = .ok w') : Honor c (honored w c) w.rv w'.rv := by
  unfold honorNow at h
  split at h
  · cases h
  · rename_i hh
    simp only [Option.some.injEq] at h
    subst h
    obtain ⟨w0, h0, hon⟩ := honor_step hcoh c (fun e => hh (.inr e))
    obtain ⟨w1, h1, h2⟩ := andThen_ok hr
    rw [h1] at h0
    cases h0
    obtain ⟨g1, c1, n1⟩ := forR_claimOne _ _ _ hg h1
    have hinv : (w1.modC c (fun x => { x with requests := [] })).Inv := inv_of_ev (ev_modC (fun _ => rfl)) g1.inv
    obtain ⟨w2, h2', k⟩ := wake_woken hinv c none
    rw [h2'] at h2; cases h2
    rw [k.rv]; exact hon

theorem keys_asked_ne (put : Bool) {l : List Arg} (hl : l ≠ []) : demand put l ≠ [] := by
  cases l with
  | nil => exact absurd rfl hl
  | cons a t =>
    have key : ∀ (l : List Arg) (d : List (RId × Rat)) (r : RId), r ∈ keys d → r ∈ keys (asked put d l) := by
      intro l
      induction l with
      | nil => intro d r h; exact h
      | cons b t ih =>
        intro d r h
        refine ih _ r ?_
        rw [keys_addTo]
        split
        · exact h
        · simp [h]
    intro h
    have := key t (addTo [] a.r (if put then -a.q else a.q)) a.r (by simp [addTo, keys])
    unfold demand at h
    rw [show asked put [] (a :: t) = asked put (addTo [] a.r (if put then -a.q else a.q)) t from rfl] at h
    rw [h] at this
    simp [keys] at this

/-- C31: a request that returns: the component now waits for exactly what it has asked for, and has claimed nothing; or it has got what it
asked for: all of it, or (`oneof`) exactly one -/
theorem C31_request {w w' : World} {fuel c args oneof put fa fd p u k} (h : Reach Calm w)
    (hc : Calm fuel w (.request c args oneof put fa fd p u k)) (hx : exec fuel (.request c args oneof put fa fd p u k) w = .ok w') :
    ((w'.comps c).requests = demand put args ∧ (w'.comps c).claims = (w.comps c).claims ∧ w'.status c = .requesting ∧
      ∀ r, c ∈ w'.inQ (.requesters r) ↔ r ∈ keys (demand put args)) ∨
    ((w'.comps c).requests = [] ∧ w'.status c = .scheduled ∧ (∀ r, c ∉ w'.inQ (.requesters r)) ∧
      ∃ hon : List RId, hon ≠ [] ∧ (if oneof then ∃ r ∈ keys (demand put args), hon = [r] else ∀ r, r ∈ hon ↔ r ∈ keys (demand put args)) ∧
      ∀ r, (lookup (w'.comps c).claims r).getD 0 = (lookup (w.comps c).claims r).getD 0 +
        if r ∈ hon ∧ (w.res r).anonymous = false then (lookup (demand put args) r).getD 0 else 0) := by
  have hx0 := hx
  simp only [exec] at hx
  have hcoh' : w'.rv.Coh := by
    have := (exec_refines (L := anyLic) h.coh fuel _ (anyLic_ok w (.request c args oneof put fa fd p u k))).1
    rw [hx0] at this; exact this
  obtain ⟨t, w4, g4, p4, q4, cl4, on4, wa4, fr4, to4, _, h5⟩ := request_split h.good hc.2.1 hc.2.2 h.coh hx
  obtain ⟨_, _, T, _, hout⟩ := request_out h.good hc.2.1 hc.2.2 hx
  obtain ⟨w5, h5, h6⟩ := andThen_ok h5
  have hne : demand put args ≠ [] := keys_asked_ne put hc.2.1.1
  cases fuel with
  | zero => rw [tryReqC] at h5; cases h5
  | succ n =>
    rw [tryReqC] at h5
    split at h5
    · cases h5
      rw [if_neg (by rw [q4]; exact hne)] at h6
      have e := (reschedule_ok h6).1.self
      have e1 : (w'.comps c).requests = demand put args := by
        rw [e]; show ((setStatus c .requesting w4).comps c).requests = _
        simp only [setStatus, modC_self]; exact q4
      left
      refine ⟨e1, ?_, ?_, fun r => ?_⟩
      · rw [e]; show ((setStatus c .requesting w4).comps c).claims = _
        simp only [setStatus, modC_self]; exact cl4
      · unfold World.status
        rw [e]; show ((setStatus c .requesting w4).comps c).status = _
        simp only [setStatus, modC_self]
      · have := hcoh'.rq c r
        rw [← e1]; exact this
    · rename_i res hres
      obtain ⟨w6, h6', h7⟩ := andThen_ok h5
      right
      have hh := honorNow_honor g4 p4.1 hres h6'
      obtain ⟨g6, _, r6, st6, _, _, _, _⟩ := honorNow_good g4 (e' := ∅) not_single hres h6'
      obtain ⟨l, hl⟩ := honorNow_self g4 hres h6'
      have n6 : NoWait (w6.comps c) := by rw [hl]; exact ⟨rfl, wa4, fr4, to4⟩
      have f7 := ((trR_try ∅ n).2.1 _ w6 g6 w5 h7).frozen c n6
      rw [if_pos (by rw [f7]; exact r6)] at h6
      cases h6
      have hreq : (w'.comps c).requests = [] := by rw [f7]; exact r6
      refine ⟨hreq, ?_, fun r hr => ?_, honored w4 c, hh.ne, ?_, fun r => ?_⟩
      · unfold World.status; rw [f7]; exact st6
      · have := (hcoh'.rq c r).1 hr
        have e : (w'.rv.comps c).requests = [] := hreq
        rw [e] at this; simp [keys] at this
      · have hq : (w4.rv.comps c).requests = demand put args := q4
        cases oneof with
        | true =>
          obtain ⟨r, hr⟩ := hh.one on4
          rw [if_pos rfl]
          exact ⟨r, by rw [← hq]; exact hh.sub r (by rw [hr]; simp), hr⟩
        | false =>
          rw [if_neg (by simp)]
          exact fun r => ⟨fun h => by rw [← hq]; exact hh.sub r h, fun h => hh.all on4 r (by rw [hq]; exact h)⟩
      · have h8 := hh.claim r
        have e1 : w6.rv.claim c r = (lookup (w'.comps c).claims r).getD 0 := by rw [f7]; rfl
        have e2 : w4.rv.claim c r = (lookup (w.comps c).claims r).getD 0 := by rw [← cl4]; rfl
        have e3 : (w4.rv.res r).anonymous = (w.res r).anonymous := anonymous_path p4.2 r
        have e4 : w4.rv.wants c r = lookup (demand put args) r := by rw [← q4]; rfl
        rw [e1, e2, e3, e4] at h8
        exact h8

/-! ### time-out -/

theorem forR_rv {α : Type} {f : α → World → R} (hf : ∀ a w w', f a w = .ok w' → w'.rv = w.rv) :
    ∀ (l : List α) (w w' : World), forR l f w = .ok w' → w'.rv = w.rv
  | [], w, w', h => by cases h; rfl
  | a :: t, w, w', h => by
    unfold forR at h
    obtain ⟨w1, h1, h2⟩ := andThen_ok h
    exact (forR_rv hf t w1 w' h2).trans (hf a w w1 h1)

theorem leaveQ_rv {c : CId} {q : QRef} (hq : q.nr = true) {w w' : World} (h : leaveQ c q w = .ok w') : w'.rv = w.rv := by
  unfold leaveQ onQueue at h
  split at h
  · cases h; exact rv_modQ w hq (fun _ => _)
  · cases h

/-- `_check_fail` and what it does with requests and the flag -/
theorem checkFail_fail {c : CId} {w w' : World} (hcoh : w.rv.Coh) (hn : ∀ q, (w.inQ q).Nodup) (h : checkFail c w = .ok w') :
    Fail c w.rv w'.rv ∧ ((w.comps c).requests ≠ [] → (w'.comps c).failed = true) ∧ w'.current = w.current := by
  unfold checkFail at h
  obtain ⟨w3, h, h4⟩ := andThen_ok h
  obtain ⟨w2, h, h3⟩ := andThen_ok h
  obtain ⟨w1, h1, h2⟩ := andThen_ok h
  have hf := fail_step hcoh c
  rw [h1] at hf
  have k1 : (∀ q, (w1.inQ q).Nodup) ∧ ((w.comps c).requests ≠ [] → (w1.comps c).failed = true) ∧ w1.current = w.current := by
    unfold checkFailReq at h1
    split at h1
    · rename_i hr; cases h1; exact ⟨hn, fun hh => absurd hr hh, rfl⟩
    · obtain ⟨w0, h0, h1⟩ := andThen_ok h1
      have := (forR_lv (g := fun r => .requesters r) (fun a w w' => leaveRequesters_lv) _ _ _ h0 hn).1
      cases h1
      exact ⟨fun q => (this.sub q).nodup (hn q), fun _ => by rw [modC_self], congrArg EV.current this.ev⟩
  have k2 : (∀ q, (w2.inQ q).Nodup) ∧ ((w1.comps c).failed = true → (w2.comps c).failed = true) ∧ w2.rv = w1.rv ∧ w2.current = w1.current := by
    unfold checkFailWait at h2
    split at h2
    · cases h2; exact ⟨k1.1, id, rfl, rfl⟩
    · obtain ⟨w0, h0, h2⟩ := andThen_ok h2
      have := (forR_lv (g := fun (x : Wait) => .waiters x.s) (fun a w w' => leaveWaiters_lv) _ _ _ h0 k1.1).1
      have h5 := forR_rv (fun a w w' h => by
        unfold leaveWaiters at h
        split at h
        · exact leaveQ_rv rfl h
        · cases h; rfl) _ _ _ h0
      cases h2
      exact ⟨fun q => (this.sub q).nodup (k1.1 q), fun _ => by rw [modC_self], (rv_modC _ c (by intro _; rfl)).trans h5, congrArg EV.current this.ev⟩
  have k3 : (∀ q, (w3.inQ q).Nodup) ∧ ((w2.comps c).failed = true → (w3.comps c).failed = true) ∧ w3.rv = w2.rv ∧ w3.current = w2.current := by
    unfold checkFailFrom at h3
    split at h3
    · cases h3; exact ⟨k2.1, id, rfl, rfl⟩
    · obtain ⟨w0, h0, h2⟩ := andThen_ok h3
      have := (forR_lv (g := fun s => .fromReq s) (fun a w w' => leaveQ_lv) _ _ _ h0 k2.1).1
      have h5 := forR_rv (fun a w w' h => leaveQ_rv rfl h) _ _ _ h0
      cases h2
      exact ⟨fun q => (this.sub q).nodup (k2.1 q), fun _ => by rw [modC_self], (rv_modC _ c (by intro _; rfl)).trans h5, congrArg EV.current this.ev⟩
  have k4 : ((w3.comps c).failed = true → (w'.comps c).failed = true) ∧ w'.rv = w3.rv ∧ w'.current = w3.current := by
    unfold checkFailTo at h4
    split at h4
    · cases h4; exact ⟨id, rfl, rfl⟩
    · obtain ⟨w0, h0, h2⟩ := andThen_ok h4
      have := (forR_lv (g := fun s => .toReq s) (fun a w w' => leaveQ_lv) _ _ _ h0 k3.1).1
      have h5 := forR_rv (fun a w w' h => leaveQ_rv rfl h) _ _ _ h0
      cases h2
      exact ⟨fun _ => by rw [modC_self], (rv_modC _ c (by intro _; rfl)).trans h5, congrArg EV.current this.ev⟩
  refine ⟨?_, fun hr => k4.1 (k3.2.1 (k2.2.1 (k1.2.1 hr))), ?_⟩
  · rw [k4.2.1, k3.2.2.1, k2.2.2.1]
    exact hf
  · rw [k4.2.2, k3.2.2.2, k2.2.2.2, k1.2.2]

theorem stepEvent_fail {w w' : World} (hg : Good ∅ w) (hcoh : w.rv.Coh) (h : stepEvent w = .ok w')
    (hq : (w.comps w'.current).requests ≠ []) : Fail w'.current w.rv w'.rv ∧ (w'.comps w'.current).failed = true := by
  unfold stepEvent at h
  simp only at h
  have e1 : ∀ w1 : World, w1 = (if w.standby = [] then w else { w with pending := w.standby, standby := [] } : World) →
      w1.comps = w.comps ∧ w1.main = w.main ∧ w1.queues = w.queues ∧ w1.rv = w.rv := by
    intro w1 h1; rw [h1]; split <;> exact ⟨rfl, rfl, rfl, rfl⟩
  generalize (if w.standby = [] then w else { w with pending := w.standby, standby := [] } : World) = w1 at h e1
  obtain ⟨ec, em, eq, er⟩ := e1 _ rfl
  have hmain : (w.comps w.main).requests = [] := hg.main.req
  split at h
  · rename_i e es hp
    split at h
    · rename_i hm
      cases h
      refine absurd ?_ hq
      show (w.comps e.c).requests = []
      have : e.c = w.main := hm.trans em
      rw [this]; exact hmain
    · have hr : (({ w1 with events := es, now := e.t, current := e.c } : World).modC e.c
          (fun x => { x with onList := false, status := .current, schedTime := ⊤ })).rv = w.rv :=
        (rv_modC _ _ (by intro _; rfl)).trans er
      have := checkFail_fail (by rw [hr]; exact hcoh) (fun q => ?_) h
      · rw [hr] at this
        have hcur : w'.current = e.c := this.2.2
        rw [hcur] at hq ⊢
        refine ⟨this.1, this.2.1 ?_⟩
        rw [modC_self]
        show (w1.comps e.c).requests ≠ []
        rw [ec]; exact hq
      · show ((w1.queues q).mem.map QMem.c).Nodup
        rw [eq]; exact hg.nd q
  · cases h
    refine absurd ?_ hq
    show (w.comps w1.main).requests = []
    rw [em]; exact hmain

/-- C31: a component that becomes current while it is waiting for resources (the moment of failure has come) claims nothing, has left all
waiting lists and `failed()` is true; nobody else is affected -/
theorem C31_timeout {w w' : World} {fuel : Nat} {c : CId} (h : Reach Calm w) (hs : exec fuel .step w = .ok w') (hc : w'.current = c)
    (hq : (w.comps c).requests ≠ []) : GaveUp c w.rv w'.rv ∧ (w'.comps c).failed = true := by
  subst hc
  simp only [exec] at hs
  have hg := h.good
  have key : Fail w'.current w.rv w'.rv ∧ (w'.comps w'.current).failed = true := by
    unfold step at hs
    split at hs
    · exact stepEvent_fail hg h.coh hs hq
    · split at hs
      · exact stepEvent_fail hg h.coh hs hq
      · rename_i c rest hpend
        have hst : w.status c = .standby := (hg.sb.mem c (by simp [World.lined, hpend])).2
        simp only at hs
        rw [if_pos (show ({ w with pending := rest } : World).status c = .standby from hst)] at hs
        cases hs
        refine absurd ?_ hq
        exact (hg.idle c (by simp) (by rw [hst]; simp [Status.idle])).req
  exact ⟨key.1.gaveUp, key.2⟩

/-! examples for C31: resource 1 (capacity 5) and 3 (capacity 1) -/

/-- component 1 claims resource 3; component 2 asks for 2 of resource 1 and 1 of resource 3 -/
def bothOps (oneof : Bool) : List Op := born 1 ++ [ask 1 3 1] ++ born 2 ++
  [.request 2 [⟨1, 2, 0⟩, ⟨3, 1, 0⟩] oneof false none (some (10 : Rat)) (0 : Rat) false false]

/-- it waits and claims nothing; when component 1 releases, it claims both; with `oneof` it gets resource 1 at once; without release
it gives up -/
example : ((execAll 20 (bothOps false) shop).comps 2).requests = [(1, 2), (3, 1)] ∧ ((execAll 20 (bothOps false) shop).comps 2).claims = [] ∧
    ((execAll 20 (bothOps false ++ [.release 1 [(3, none)]]) shop).comps 2).claims = [(1, 2), (3, 1)] ∧
    ((execAll 20 (bothOps true) shop).comps 2).claims = [(1, 2)] ∧
    (execAll 20 (bothOps false ++ [.step]) shop).current = 2 ∧ (execAll 20 (bothOps false ++ [.step]) shop).now = 10 ∧
    ((execAll 20 (bothOps false ++ [.step]) shop).comps 2).failed = true :=
  ⟨by decide +kernel, by decide +kernel, by decide +kernel, by decide +kernel, by decide +kernel, by decide +kernel, by decide +kernel⟩

/-- the hypotheses of `C31_timeout` -/
example : Reach Calm (execAll 20 (bothOps false) shop) ∧ (exec 20 .step (execAll 20 (bothOps false) shop)).isOk = true ∧
    (exec 20 .step (execAll 20 (bothOps false) shop)).world.current = 2 ∧
    ((execAll 20 (bothOps false) shop).comps 2).requests ≠ [] :=
  ⟨reach_calm _ (.init fresh_shop) _ (by decide +kernel), by decide +kernel, by decide +kernel, by decide +kernel⟩

/-! ## C30 -/

theorem step_honorFirst {L : Lic} {v v' : RView} (s : Step L v v') (r : RId) : (v'.res r).honorFirst = (v.res r).honorFirst := by
  cases s with
  | oneof c b _ hv => subst hv; rfl
  | ask c r' q prio _ _ s => rw [s.res]
  | fail c s => rw [s.res]
  | honor c hon s => rw [s.res]
  | release c r' cl a _ s =>
    by_cases hx : r = r'
    · subst hx; rw [s.res]
    · rw [s.ores r hx]
  | anon r' a _ ha hv =>
    subst hv
    show (ite _ _ _ : Res).honorFirst = _
    split
    · rename_i hx; rw [hx]
    · rfl
  | cap r' k _ hv =>
    subst hv
    show (ite _ _ _ : Res).honorFirst = _
    split <;> rfl

theorem RView.Inserted.sorted {l l' : List QMem} {x : QMem} (h : Inserted l l' x) (hs : Queue.Sorted l) : Queue.Sorted l' := by
  obtain ⟨l1, l2, rfl, rfl, h3⟩ := h
  obtain ⟨h4, h5⟩ := h3 hs
  unfold Queue.Sorted at hs ⊢
  rw [List.pairwise_append] at hs ⊢
  refine ⟨hs.1, List.pairwise_cons.2 ⟨fun m hm => le_of_lt (h5 m hm), hs.2.1⟩, fun a ha b hb => ?_⟩
  rcases List.mem_cons.1 hb with rfl | hb
  · exact h4 a ha
  · exact hs.2.2 a ha b hb

/-- how the waiting list of a resource changes in a step: somebody is added, behind those with the same priority, or somebody leaves -/
theorem step_reqs {L : Lic} {v v' : RView} (s : Step L v v') (r : RId) :
    (v'.reqs r).1 = (v.reqs r).1 ∨ (∃ c, (v'.reqs r).1 = (v.reqs r).1.filter (fun m => m.c != c)) ∨
    ∃ x, L.who x.c ∧ Inserted (v.reqs r).1 (v'.reqs r).1 x := by
  cases s with
  | oneof c b _ hv => subst hv; exact .inl rfl
  | ask c r' q prio hc _ s =>
    by_cases hx : r = r'
    · subst hx
      have := s.reqs.2
      split at this
      · exact .inl this
      · obtain ⟨x, h1, _, h3⟩ := this
        exact .inr (.inr ⟨x, h1 ▸ hc, h3⟩)
    · rw [s.oreq r hx]; exact .inl rfl
  | fail c s => exact .inr (.inl ⟨c, by rw [s.reqs]⟩)
  | honor c hon s => exact .inr (.inl ⟨c, by rw [s.reqs]⟩)
  | release c r' cl a _ s => rw [s.reqs]; exact .inl rfl
  | anon r' a _ ha hv => subst hv; exact .inl rfl
  | cap r' k _ hv => subst hv; exact .inl rfl

theorem step_sorted {L : Lic} {v v' : RView} (s : Step L v v') {r : RId} (h : Queue.Sorted (v.reqs r).1) : Queue.Sorted (v'.reqs r).1 := by
  rcases step_reqs s r with e | ⟨c, e⟩ | ⟨x, _, e⟩
  · rw [e]; exact h
  · rw [e]; exact h.sublist List.filter_sublist
  · exact e.sorted h

/-- specification: if a request for `r` is served then it is the first one in the waiting list, all others have the same or a lower
priority (a higher priority value) -/
def InTurn (r : RId) (v v' : RView) : Prop := ∀ c hon, Honor c hon v v' → r ∈ hon →
  ∃ x rest, (v.reqs r).1 = x :: rest ∧ x.c = c ∧ ∀ m ∈ rest, x.prio ≤ m.prio

/-- requests are only made by the component that makes the call -/
def byLic (o : Op) : Lic := ⟨fun c => ¬ NotRequestBy c o, fun _ _ _ => True, fun _ _ => True, fun _ _ _ => True, fun _ _ _ => True⟩

theorem byLic_ok (w : World) (o : Op) : (byLic o).ok w o := by
  cases o <;> simp [Lic.ok, byLic, NotRequestBy]

/-- C30: with honor_only_first, everything that is served in a call is the first of the waiting list at that moment (and nobody joins a waiting list but the
component that makes the call) -/
theorem C30_in_turn {w : World} {r : RId} (h : Reach Any w) (hf : (w.res r).honorFirst = true) (fuel : Nat) (o : Op) :
    Relation.ReflTransGen (fun v v' => Step (byLic o) v v' ∧ InTurn r v v') w.rv (exec fuel o w).world.rv := by
  have hs := (exec_refines (L := byLic o) h.coh fuel o (byLic_ok _ _)).2
  have h0 : Queue.Sorted (w.rv.reqs r).1 := Reach.sorted (q := .requesters r) (fun _ _ o _ => by cases o <;> simp [NoInsert]) h
  have key : ∀ v, Relation.ReflTransGen (Step (byLic o)) w.rv v → (v.res r).honorFirst = true ∧ Queue.Sorted (v.reqs r).1 ∧
      Relation.ReflTransGen (fun v v' => Step (byLic o) v v' ∧ InTurn r v v') w.rv v := by
    intro v hv
    induction hv with
    | refl => exact ⟨hf, h0, .refl⟩
    | @tail v1 v2 _ s ih =>
      obtain ⟨i1, i2, i3⟩ := ih
      refine ⟨by rw [step_honorFirst s]; exact i1, step_sorted s i2, i3.tail ⟨s, fun c hon hh hr => ?_⟩⟩
      have hd := hh.first r hr i1
      unfold reqQ at hd
      cases hl : (v1.reqs r).1 with
      | nil => rw [hl] at hd; cases hd
      | cons x rest =>
        rw [hl] at hd i2
        simp only [List.map_cons, List.head?_cons, Option.some.injEq] at hd
        exact ⟨x, rest, rfl, hd, (List.pairwise_cons.1 i2).1⟩
  exact (key _ hs).2.2

/-- C30: a new request is put behind all waiting requests with the same or a higher priority, and before the ones with a lower priority -/
theorem C30_position {v v' : RView} {c : CId} {r : RId} {q prio : Rat} (h : Ask c r q prio v v') (hc : r ∉ keys (v.comps c).requests)
    (hs : Queue.Sorted (v.reqs r).1) : ∃ l1 x l2, (v.reqs r).1 = l1 ++ l2 ∧ (v'.reqs r).1 = l1 ++ x :: l2 ∧ x.c = c ∧ x.prio = prio ∧
      (∀ m ∈ l1, m.prio ≤ prio) ∧ ∀ m ∈ l2, prio < m.prio := by
  have := h.reqs.2
  rw [if_neg hc] at this
  obtain ⟨x, h1, h2, l1, l2, h3, h4, h5⟩ := this
  exact ⟨l1, x, l2, h3, h4, h1, h2, h2 ▸ (h5 hs).1, h2 ▸ (h5 hs).2⟩

/-- `c` is before `d` -/
def Ahead (l : List CId) (c d : CId) : Prop := [c, d].Sublist l

/-- it is not a request by `c` or `d`, and no negative quantities are released -/
def duoLic (c d : CId) : Lic := ⟨fun x => x ≠ c ∧ x ≠ d, fun _ _ _ => True, fun _ q => 0 ≤ q, fun _ _ _ => True, fun _ _ _ => True⟩

theorem duo_step {c d : CId} {r : RId} {v v' : RView} (s : Step (duoLic c d) v v') :
    (c ∉ v.reqQ r → c ∉ v'.reqQ r) ∧ (d ∉ v.reqQ r → d ∉ v'.reqQ r) ∧
    (Ahead (v.reqQ r) c d → c ∈ v'.reqQ r → d ∈ v'.reqQ r → Ahead (v'.reqQ r) c d) := by
  unfold reqQ
  rcases step_reqs s r with e | ⟨x, e⟩ | ⟨x, hx, e⟩
  · rw [e]; exact ⟨id, id, fun h _ _ => h⟩
  · rw [e]
    refine ⟨fun h hh => h (mem_map_filter.1 hh).2, fun h hh => h (mem_map_filter.1 hh).2, fun h hc hd => ?_⟩
    have hc' := (mem_map_filter.1 hc).1
    have hd' := (mem_map_filter.1 hd).1
    rw [map_filter_c]
    have := List.Sublist.filter (fun d => d != x) h
    rw [List.filter_cons_of_pos (by simpa using hc'), List.filter_cons_of_pos (by simpa using hd')] at this
    exact this
  · refine ⟨fun h hh => ?_, fun h hh => ?_, fun h _ _ => ?_⟩
    · exact ((e.mem c).1 hh).elim (fun e => hx.1 e.symm) h
    · exact ((e.mem d).1 hh).elim (fun e => hx.2 e.symm) h
    · obtain ⟨l1, l2, h1, h2, _⟩ := e
      unfold Ahead at h ⊢
      rw [h1, List.map_append] at h
      rw [h2, List.map_append, List.map_cons]
      exact h.trans (List.Sublist.append (List.Sublist.refl _) (List.sublist_cons_self _ _))

theorem claim_duo {c d : CId} {v v' : RView} (h : v.Coh) (s : Step (duoLic c d) v v') (x : CId) (r : RId) :
    v'.claim x r ≤ v.claim x r ∨ ∃ hon, Honor x hon v v' ∧ r ∈ hon := by
  refine claim_step h ?_ x r
  cases s with
  | oneof d b _ hv => exact .oneof d b trivial hv
  | ask d r' q prio _ _ s => exact .ask d r' q prio trivial trivial s
  | fail d s => exact .fail d s
  | honor d hon s => exact .honor d hon s
  | release d r' cl a hm s => exact .release d r' cl a hm s
  | anon r a _ ha hv => exact .anon r a trivial ha hv
  | cap r k _ hv => exact .cap r k trivial hv

/-- C30: with honor_only_first, as long as `c` waits for `r`, a component `d` behind `c` in the waiting list is not served -/
theorem C30_never_overtakes {w : World} {r : RId} {c d : CId} (h : Reach Any w) (hf : (w.res r).honorFirst = true)
    (hcd : Ahead (w.inQ (.requesters r)) c d) (fuel : Nat) (o : Op) (hc : NotRequestBy c o) (hd : NotRequestBy d o) (hn : NoNegative o)
    (hstill : c ∈ (exec fuel o w).world.inQ (.requesters r)) :
    (lookup ((exec fuel o w).world.comps d).claims r).getD 0 ≤ (lookup (w.comps d).claims r).getD 0 := by
  have hL : (duoLic c d).ok w o := by
    cases o with
    | request x args oneof put fa fd p ur k => exact ⟨⟨hc, hd⟩, fun _ _ => trivial⟩
    | release c args => exact hn
    | _ => trivial
  have hs := (exec_refines (L := duoLic c d) h.coh fuel o hL).2
  by_contra hh
  obtain ⟨v, v', h1, h2, h3, h4, h5⟩ := crossing hs (fun v => v.claim d r ≤ w.rv.claim d r) (le_refl _) hh
  have hv := coh_path h.coh h1
  rcases claim_duo hv h3 d r with h6 | ⟨hon, h6, h7⟩
  · exact h4 (h6.trans h2)
  -- the state of the waiting list at that moment
  have back : ∀ {a b : RView}, Relation.ReflTransGen (Step (duoLic c d)) a b → c ∈ b.reqQ r → c ∈ a.reqQ r := by
    intro a b hab
    induction hab with
    | refl => exact id
    | tail _ s ih => exact fun hh => ih (by_contra fun hn => (duo_step (r := r) s).1 hn hh)
  have hcv' : c ∈ v'.reqQ r := back h5 hstill
  have hcv : c ∈ v.reqQ r := by_contra fun hn => (duo_step (r := r) h3).1 hn hcv'
  have hdv : d ∈ v.reqQ r := (hv.rq d r).2 (h6.sub r h7)
  have fwd : ∀ {b : RView}, Relation.ReflTransGen (Step (duoLic c d)) w.rv b → (b.res r).honorFirst = true ∧
      (c ∈ b.reqQ r → d ∈ b.reqQ r → Ahead (b.reqQ r) c d) := by
    intro b hb
    induction hb with
    | refl => exact ⟨hf, fun _ _ => hcd⟩
    | tail _ s ih =>
      refine ⟨by rw [step_honorFirst s]; exact ih.1, fun k1 k2 => ?_⟩
      obtain ⟨d1, d2, d3⟩ := duo_step (r := r) s
      exact d3 (ih.2 (by_contra fun hn => d1 hn k1) (by_contra fun hn => d2 hn k2)) k1 k2
  obtain ⟨f1, f2⟩ := fwd h1
  have hah := f2 hcv hdv
  have hhd := h6.first r h7 f1
  have hnd := hv.rnd r
  unfold Ahead at hah
  cases hl : v.reqQ r with
  | nil => rw [hl] at hcv; cases hcv
  | cons x rest =>
    rw [hl] at hhd hah hnd
    simp only [List.head?_cons, Option.some.injEq] at hhd
    subst hhd
    have h8 := hah.nodup hnd
    have hne : c ≠ x := by
      intro e; subst e; simp at h8
    have h9 : [c, x].Sublist rest := by
      cases hah with
      | cons _ h => exact h
      | cons_cons _ h => exact absurd rfl hne
    have : x ∈ rest := h9.subset (by simp)
    exact (List.nodup_cons.1 hnd).1 this

/-- an example: resource 4 with honor_only_first and capacity 5, 4 of which claimed by component 1; component 2 waits for 3, component 3
for 1, and stays waiting although it would fit -/
def firstShop : World := { shop with res := fun r => if r = 4 then { cap := (5 : Rat), honorFirst := true } else shop.res r }

theorem fresh_firstShop : Fresh firstShop := by
  refine ⟨rfl, rfl, rfl, rfl, fresh_shop.comps, fun _ => ⟨⊤, rfl⟩, fun _ _ => rfl, fun r => ?_, fun r => ?_, fun _ => rfl⟩
  rotate_left
  · simp only [firstShop]
    split
    · rfl
    · exact fresh_shop.log r
  by_cases h1 : r = 4
  · subst h1; exact ⟨rfl, rfl, le_refl _, WithTop.coe_le_coe.2 (by decide +kernel), fun _ => rfl⟩
  · simp only [firstShop, h1, if_false]
    exact fresh_shop.res r

def firstOps : List Op := born 1 ++ [ask 1 4 4] ++ born 2 ++ [ask 2 4 3] ++ born 3 ++ [ask 3 4 1]

example : Reach Any (execAll 20 firstOps firstShop) ∧ Ahead ((execAll 20 firstOps firstShop).inQ (.requesters 4)) 2 3 ∧
    2 ∈ (exec 20 (.release 1 [(4, some 1)]) (execAll 20 firstOps firstShop)).world.inQ (.requesters 4) ∧
    ((exec 20 (.release 1 [(4, some 1)]) (execAll 20 firstOps firstShop)).world.res 4).claimed = 3 ∧
    ((exec 20 (.release 1 [(4, none)]) (execAll 20 firstOps firstShop)).world.res 4).claimed = 3 := by
  refine ⟨reach_execAll _ (.init fresh_firstShop) _, ?_, by decide +kernel, by decide +kernel, by decide +kernel⟩
  have : (execAll 20 firstOps firstShop).inQ (.requesters 4) = [2, 3] := by decide +kernel
  unfold Ahead
  rw [this]

end Verif
