import Verif.RTry
import Verif.Props.Requests
import Verif.Props.Status
import Mathlib.Algebra.BigOperators.Group.Finset.Basic

/-!
# The end of a component (C07)
-/

namespace Verif
open World RView

/-! ## the course of giving back -/

theorem lookup_all_none {l : List (RId × Rat)} (h : ∀ r, lookup l r = none) : l = [] := by
  cases l with
  | nil => rfl
  | cons p t =>
    have := h p.1
    rw [lookup_cons, if_pos rfl] at this; cases this

theorem RView.GivesBack.coh {c : CId} : ∀ {l : List RId} {v v' : RView}, v.Coh → GivesBack c l v v' → v'.Coh
  | [], _, _, h, g => by cases g; exact h
  | _ :: _, _, _, h, ⟨_, _, _, s, g, t⟩ => RView.GivesBack.coh (RView.Grants.coh (h.release s) g) t

theorem RView.GivesBack.mine {c : CId} : ∀ {l : List RId} {v v' : RView}, (v.comps c).requests = [] → GivesBack c l v v' →
    (v'.comps c).requests = [] ∧ ∀ s, lookup (v'.comps c).claims s = if s ∈ l then none else lookup (v.comps c).claims s
  | [], _, _, h, g => by cases g; simp [h]
  | r :: l, v, v', h, ⟨v1, v2, cl, s, g, t⟩ => by
    have h1 : (v1.comps c).requests = [] := by rw [s.requests, h]
    have h2 := RView.Grants.not_mine g h1
    obtain ⟨i1, i2⟩ := RView.GivesBack.mine (by rw [h2]; exact h1) t
    refine ⟨i1, fun x => ?_⟩
    rw [i2, h2, s.claims]
    by_cases hx : x = r
    · subst hx; simp [show (0 : Rat) < eps from eps_pos]
    · simp [hx]

/-- an honored request never lowers a claim -/
theorem RView.Honor.claim_le {v v' : RView} (h : v.Coh) {d hon} (s : Honor d hon v v') (x : CId) (r : RId) : v.claim x r ≤ v'.claim x r := by
  by_cases hx : x = d
  · subst hx
    rw [s.claim r]
    split
    · rename_i hr
      have : 0 ≤ (v.wants x r).getD 0 := by
        cases hw : v.wants x r with
        | none => simp
        | some q =>
          by_contra hq
          have := h.pos x r q hw (not_le.1 hq)
          rw [hr.2] at this; cases this
      linarith
    · linarith
  · unfold RView.claim; rw [s.other x hx]

theorem RView.Grants.claim_le {v v' : RView} (h : v.Coh) (g : Grants v v') (x : CId) (r : RId) : v.claim x r ≤ v'.claim x r := by
  induction g with
  | refl => exact le_refl _
  | tail g s ih => obtain ⟨d, hon, s⟩ := s; exact ih.trans (s.claim_le (RView.Grants.coh h g) x r)

theorem RView.GivesBack.claim_le {c : CId} : ∀ {l : List RId} {v v' : RView}, v.Coh → GivesBack c l v v' → ∀ x, x ≠ c → ∀ r, v.claim x r ≤ v'.claim x r
  | [], _, _, _, g, _, _, _ => by cases g; exact le_refl _
  | _ :: _, v, _, h, ⟨v1, _, _, s, g, t⟩, x, hx, r => by
    have h1 := h.release s
    have : v.claim x r = v1.claim x r := by unfold RView.claim; rw [s.other x hx]
    rw [this]
    exact (RView.Grants.claim_le h1 g x r).trans (RView.GivesBack.claim_le (RView.Grants.coh h1 g) t x hx r)

theorem RView.Grants.has {v v' : RView} (g : Grants v v') (x : CId) (r : RId) (h : r ∈ keys (v.comps x).claims) : r ∈ keys (v'.comps x).claims := by
  induction g with
  | refl => exact h
  | tail g s ih =>
    obtain ⟨d, hon, s⟩ := s
    by_cases hx : x = d
    · subst hx; exact (s.keys r).2 (.inl ih)
    · rw [s.other x hx]; exact ih

theorem RView.GivesBack.has {c : CId} : ∀ {l : List RId} {v v' : RView}, GivesBack c l v v' → ∀ x, x ≠ c → ∀ r, r ∈ keys (v.comps x).claims →
    r ∈ keys (v'.comps x).claims
  | [], _, _, g, _, _, _, h => by cases g; exact h
  | _ :: _, _, _, ⟨_, _, _, s, g, t⟩, x, hx, r, h =>
    RView.GivesBack.has t x hx r (RView.Grants.has g x r (by rw [s.other x hx]; exact h))

/-- the sum of the claims stays what it was, or becomes right, compared to what is registered -/
theorem RView.Honor.gap {v v' : RView} (h : v.Coh) {d hon} (s : Honor d hon v v') {r : RId} (ha : (v.res r).anonymous = false) :
    (v'.res r).anonymous = false ∧ (v'.res r).claimed - v'.total r = (v.res r).claimed - v.total r := by
  rw [s.res r]
  refine ⟨ha, ?_⟩
  rw [s.total h r ha]; simp only; ring

theorem RView.Grants.gap {v v' : RView} (h : v.Coh) (g : Grants v v') {r : RId} (ha : (v.res r).anonymous = false) :
    (v'.res r).anonymous = false ∧ (v'.res r).claimed - v'.total r = (v.res r).claimed - v.total r := by
  induction g with
  | refl => exact ⟨ha, rfl⟩
  | tail g s ih =>
    obtain ⟨d, hon, s⟩ := s
    obtain ⟨h1, h2⟩ := s.gap (RView.Grants.coh h g) ih.1
    exact ⟨h1, h2.trans ih.2⟩

theorem RView.Release.gap {v v' : RView} (h : v.Coh) {c r cl} (s : Release c r cl cl v v') {x : RId} (ha : (v.res x).anonymous = false)
    (h0 : (v.res x).claimed = v.total x) : (v'.res x).anonymous = false ∧ (v'.res x).claimed = v'.total x := by
  by_cases hx : x = r
  · subst hx
    rw [s.res]
    refine ⟨ha, ?_⟩
    have he : cl - cl < eps := by rw [sub_self]; exact eps_pos
    have ht := s.total h
    rw [if_pos he] at ht
    simp only
    split
    · rename_i hh
      unfold RView.total clmQ
      rw [hh.2]; rfl
    · rw [ht, h0]
  · rw [s.ores x hx, s.total_other hx]; exact ⟨ha, h0⟩

theorem RView.GivesBack.sum {c : CId} {r : RId} : ∀ {l : List RId} {v v' : RView}, v.Coh → GivesBack c l v v' → (v.res r).anonymous = false →
    (v.res r).claimed = v.total r → (v'.res r).claimed = v'.total r
  | [], _, _, _, g, _, h0 => by cases g; exact h0
  | _ :: _, _, _, h, ⟨v1, v2, _, s, g, t⟩, ha, h0 => by
    obtain ⟨a1, h1⟩ := RView.Release.gap h s ha h0
    have hc1 := h.release s
    obtain ⟨a2, h2⟩ := RView.Grants.gap hc1 g a1
    exact RView.GivesBack.sum (RView.Grants.coh hc1 g) t a2 (by linarith)

/-- nobody waits for `r` -/
theorem RView.Honor.unasked {v v' : RView} (h : v.Coh) {d hon} (s : Honor d hon v v') {r : RId} (hr : (v.reqs r).1 = []) :
    (v'.reqs r).1 = [] ∧ v'.res r = v.res r ∧ (∀ x, v'.claim x r = v.claim x r) ∧ v'.clms r = v.clms r := by
  have hn : r ∉ hon := by
    intro hh
    have := (h.rq d r).2 (s.sub r hh)
    unfold reqQ at this
    rw [hr] at this; cases this
  refine ⟨?_, ?_, fun x => ?_, ?_⟩
  · rw [s.reqs, hr]; rfl
  · rw [s.res, if_neg hn, add_zero]
  · by_cases hx : x = d
    · subst hx; rw [s.claim, if_neg (fun hh => hn hh.1), add_zero]
    · unfold RView.claim; rw [s.other x hx]
  · have := s.clms r
    rw [if_neg (fun hh => hn hh.1)] at this
    exact Prod.ext this (s.ccap r)

theorem RView.Grants.unasked {v v' : RView} (h : v.Coh) (g : Grants v v') {r : RId} (hr : (v.reqs r).1 = []) :
    (v'.reqs r).1 = [] ∧ v'.res r = v.res r ∧ (∀ x, v'.claim x r = v.claim x r) ∧ v'.clms r = v.clms r := by
  induction g with
  | refl => exact ⟨hr, rfl, fun _ => rfl, rfl⟩
  | tail g s ih =>
    obtain ⟨d, hon, s⟩ := s
    obtain ⟨i1, i2, i3, i4⟩ := ih
    obtain ⟨j1, j2, j3, j4⟩ := s.unasked (RView.Grants.coh h g) i1
    exact ⟨j1, j2.trans i2, fun x => (j3 x).trans (i3 x), j4.trans i4⟩

theorem RView.GivesBack.unasked {c : CId} {r : RId} : ∀ {l : List RId} {v v' : RView}, v.Coh → GivesBack c l v v' → l.Nodup →
    (v.comps c).requests = [] → (v.reqs r).1 = [] →
    (∀ x, x ≠ c → v'.claim x r = v.claim x r) ∧ (r ∉ l → v'.res r = v.res r ∧ v'.clms r = v.clms r) ∧
    (r ∈ l → (v'.res r).claimed = if (v.clmQ r).filter (fun d => d != c) = [] then 0 else (v.res r).claimed - v.claim c r)
  | [], _, _, _, g, _, _, hr => by cases g; simp
  | s0 :: l, v, v', h, ⟨v1, v2, cl, s, g, t⟩, hl, hq, hr => by
    have hc1 := h.release s
    have hr1 : (v1.reqs r).1 = [] := by rw [s.reqs]; exact hr
    obtain ⟨g1, g2, g3, g4⟩ := RView.Grants.unasked hc1 g hr1
    have hq1 : (v1.comps c).requests = [] := by rw [s.requests]; exact hq
    have hm := RView.Grants.not_mine g hq1
    obtain ⟨i1, i2, i3⟩ := RView.GivesBack.unasked (r := r) (RView.Grants.coh hc1 g) t (List.nodup_cons.1 hl).2 (by rw [hm]; exact hq1) g1
    have he : cl - cl < eps := by rw [sub_self]; exact eps_pos
    refine ⟨fun x hx => ?_, fun hn => ?_, fun hm => ?_⟩
    · rw [i1 x hx, g3]; unfold RView.claim; rw [s.other x hx]
    · simp only [List.mem_cons, not_or] at hn
      obtain ⟨j1, j2⟩ := i2 hn.2
      rw [j1, j2, g2, g4, s.ores r hn.1, s.oclms r hn.1]; exact ⟨rfl, rfl⟩
    · by_cases hrs : r = s0
      · subst hrs
        have hn : r ∉ l := (List.nodup_cons.1 hl).1
        rw [(i2 hn).1, g2, s.res, s.clms]
        simp only [he, if_true, true_and]
        have hcl : v.claim c r = cl := by unfold RView.claim; rw [s.has]; rfl
        rw [hcl]
        unfold clmQ
        rw [← map_filter_c]
        simp only [List.map_eq_nil_iff]
      · have hml : r ∈ l := (List.mem_cons.1 hm).resolve_left hrs
        have h5 : v2.clmQ r = v.clmQ r := by unfold clmQ; rw [g4, s.oclms r hrs]
        rw [i3 hml, h5, g2, s.ores r hrs, g3]
        have : v1.claim c r = v.claim c r := by unfold RView.claim; rw [s.claims, if_neg hrs]
        rw [this]

/-- sums over a list may be extended with members that have value 0 -/
theorem sum_superset {l m : List CId} (hl : l.Nodup) (hm : m.Nodup) (h : ∀ d ∈ l, d ∈ m) (f : CId → Rat) (h0 : ∀ d ∈ m, d ∉ l → f d = 0) :
    (m.map f).sum = (l.map f).sum := by
  rw [← List.sum_toFinset f hm, ← List.sum_toFinset f hl]
  symm
  refine Finset.sum_subset (fun d hd => ?_) fun d hd hn => ?_
  · simpa using h d (by simpa using hd)
  · exact h0 d (by simpa using hd) (by simpa using hn)

/-! ## what the calls do -/

/-- the process of `c` ends, or `c` is cancelled -/
def Op.ends (w : World) (c : CId) : Op → Prop
  | .cancel d => d = c
  | .terminate => w.current = c
  | _ => False

theorem ends_givesBack {w w' : World} {fuel o c} (hr : Reach Calm w) (hc : Calm fuel w o) (ho : o.ends w c) (hd : w.status c ≠ .data)
    (h : exec fuel o w = .ok w') : ∃ v, Fail c w.rv v ∧ GivesBack c (keys (w.comps c).claims) v w'.rv := by
  have hg := hr.good
  have hcoh := hr.coh
  have none : ∀ {w1 : World}, NoWait (w1.comps c) → w1.rv.Coh → Fail c w1.rv w1.rv := fun {w1} hn hcoh => by
    have := fail_step hcoh c
    unfold checkFailReq at this
    rw [if_pos hn.req] at this; exact this
  have all : ∀ {w1 w2 w' : World}, w1.rv.Coh → releaseAll fuel c w1 = .ok w2 → w'.rv = w2.rv →
      GivesBack c (keys (w1.comps c).claims) w1.rv w'.rv := fun hc h1 h2 => by
    rw [h2]; exact releaseAll_givesBack _ hc h1
  cases o <;> simp only [Op.ends] at ho
  case cancel d =>
    subst ho
    simp only [exec, cancel] at h
    rw [if_neg hd] at h
    obtain ⟨w2, hA, h3⟩ := andThen_ok h
    obtain ⟨w1, h1, h2⟩ := andThen_ok hA
    have hrv : w'.rv = w2.rv := by cases h3; exact rv_modC w2 d (by intro _; rfl)
    split at h1
    · rename_i hs
      cases h1
      exact ⟨w.rv, none (hg.idle d (by simp) (by simp [Status.idle, hs])) hcoh, all hcoh h2 hrv⟩
    · obtain ⟨w4, hB, h5⟩ := andThen_ok h1
      obtain ⟨w3, h3', h4⟩ := andThen_ok hB
      have e3 : w3 = w := by
        unfold checkNotData at h3'
        split at h3'
        · cases h3'
        · cases h3'; rfl
      subst e3
      have hrv4 : w4.rv = w3.rv := by have := rv_remove w3 d; rw [h4] at this; exact this
      have hn4 : ∀ q, (w4.inQ q).Nodup := by
        intro q
        have : w4.queues q = w3.queues q := by
          unfold remove at h4
          split at h4
          · split at h4
            · cases h4; rfl
            · cases h4
          · split at h4 <;> cases h4 <;> rfl
        unfold World.inQ; rw [this]; exact hg.nd q
      obtain ⟨f, _, _⟩ := checkFail_fail (by rw [hrv4]; exact hcoh) hn4 h5
      rw [hrv4] at f
      have hk : keys (w1.comps d).claims = keys (w3.comps d).claims := congrArg keys (f.claims' d)
      exact ⟨w1.rv, f, hk ▸ all (hcoh.fail f) h2 hrv⟩
  case terminate =>
    subst ho
    have hs : w.status w.current = .current := hc.2.2
    simp only [exec, terminate] at h
    obtain ⟨w1, h1, h2⟩ := andThen_ok h
    have hrv : w'.rv = w1.rv := by cases h2; exact rv_modC w1 _ (by intro _; rfl)
    exact ⟨w.rv, none (hg.idle w.current (by simp) (by simp [Status.idle, hs])) hcoh, all hcoh h1 hrv⟩

/-- what `c` claims of `r`: `c.claimed_quantity(r)` (salabim.py:8933-8950) -/
def claimOf (w : World) (c : CId) (r : RId) : Rat := (lookup (w.comps c).claims r).getD 0

/-- nobody gets anything in its absence -/
theorem empty_path {c : CId} {v v' : RView} (s : Relation.ReflTransGen (Step (othersLic c)) v v')
    (h : (v.comps c).requests = [] ∧ (v.comps c).claims = []) : (v'.comps c).requests = [] ∧ (v'.comps c).claims = [] := by
  induction s with
  | refl => exact h
  | tail _ s ih =>
    cases s with
    | oneof d b hw he => rw [he]; have : c ≠ d := fun e => hw e.symm; simp only [this, if_false]; exact ih
    | ask d r q prio hw _ s => rw [s.other c (fun e => hw e.symm)]; exact ih
    | fail d s =>
      by_cases hd : c = d
      · subst hd; rw [s.comp]; exact ⟨rfl, ih.2⟩
      · rw [s.other c hd]; exact ih
    | honor d hon s => rw [s.not_mine ih.1]; exact ih
    | release d r cl a _ s =>
      by_cases hd : c = d
      · subst hd
        have := s.has
        rw [ih.2] at this; cases this
      · rw [s.other c hd]; exact ih
    | anon r a _ _ he => rw [he]; exact ih
    | cap r k _ he => rw [he]; exact ih

/-- a data component claims nothing -/
theorem Reach.data_claims {w : World} (h : Reach Calm w) : ∀ c, w.status c = .data → (w.comps c).claims = [] := by
  induction h with
  | @init w hf =>
    intro c _
    obtain ⟨b, hb⟩ := hf.comps c
    rw [hb]
  | @op w fuel o hr ho ih =>
    intro c hs
    obtain ⟨w', hw'⟩ := ho.1
    rw [hw'] at hs ⊢
    simp only [R.world] at hs ⊢
    have hg := hr.good
    have gone : o.ends w c → (w'.comps c).claims = [] := fun he => by
      by_cases hd : w.status c = .data
      · cases o <;> simp only [Op.ends] at he
        · subst he
          have : w' = w := by simp only [exec, cancel, if_pos hd] at hw'; cases hw'; rfl
          rw [this]; exact ih _ hd
        · rw [← he] at hd
          rw [ho.2.2] at hd; cases hd
      · obtain ⟨v, f, g⟩ := ends_givesBack hr ho he hd hw'
        obtain ⟨_, h2⟩ := RView.GivesBack.mine (by rw [f.comp]) g
        refine lookup_all_none fun s => ?_
        have := h2 s
        rw [f.claims' c] at this
        split at this
        · exact this
        · rename_i hk
          exact this.trans (lookup_none.2 hk)
    have stays : w.status c = .data → NotRequestBy c o → (w'.comps c).claims = [] := fun hd hn => by
      have := (exec_refines hr.coh fuel o (othersLic_ok hn)).2
      rw [hw'] at this
      exact (empty_path this ⟨(hg.idle c (by simp) (by simp [Status.idle, hd])).req, ih c hd⟩).2
    by_cases hst : o = .step
    · subst hst
      have h9 := C09_step hr hw'
      have hne : c ≠ w'.current := by rintro rfl; rw [h9.1] at hs; cases hs
      exact stays ((h9.2.1 c hne).symm.trans hs) trivial
    · by_cases hsub : o.subject w = some c
      · have hm := C09_moves hr ho hsub hw'
        rw [hs] at hm
        cases o <;> simp only [Op.subject, Option.some.injEq, reduceCtorEq] at hsub <;> simp only [statusTable] at hm
        case cancel => exact gone hsub
        case terminate => exact gone hsub
        case setRemaining =>
          exfalso
          split at hm
          · simp at hm
          · simp only [List.mem_singleton] at hm
            exact ho.2.2 (by rw [hsub]; exact hm.symm)
        all_goals (exfalso; revert hm; (try split) <;> (try split) <;> simp)
      · have := C09_others w fuel o c hst hsub
        rw [hw'] at this
        simp only [R.world] at this
        rw [hs] at this
        refine stays (this.elim Eq.symm (fun h => by cases h)) ?_
        cases o <;> simp only [NotRequestBy]
        rintro rfl
        exact hsub rfl

/-! ## C07 -/

/-- specification: the component is out of everything -/
structure Out (w : World) (c : CId) : Prop where
  data : w.status c = .data
  event : ∀ e ∈ w.events, e.c ≠ c
  claims : ∀ r, claimOf w c r = 0
  claimers : ∀ r, c ∉ w.inQ (.claimers r)
  requesters : ∀ r, c ∉ w.inQ (.requesters r)
  waiters : ∀ s, c ∉ w.inQ (.waiters s)
  fromStore : ∀ s, c ∉ w.inQ (.fromReq s)
  toStore : ∀ s, c ∉ w.inQ (.toReq s)
  standby : c ∉ w.standby ∧ c ∉ w.pending

theorem Reach.out {w : World} (h : Reach Calm w) {c : CId} (hd : w.status c = .data) : Out w c := by
  have hg := h.good
  have hn := hg.idle c (by simp) (by simp [Status.idle, hd])
  have hq : ∀ q : QRef, q.wq = true → c ∉ w.inQ q := fun q hq hm => hn.awaits hq (hg.coh q c hm)
  have hcl := h.data_claims c hd
  have hl : c ∉ w.lined := hg.sb.notin (.inr (by rw [hd]; simp))
  refine ⟨hd, fun e he hec => ?_, fun r => ?_, fun r hm => ?_, fun r => hq _ rfl, fun r => hq _ rfl, fun r => hq _ rfl, fun r => hq _ rfl,
    fun hm => hl ?_, fun hm => hl ?_⟩
  · have : (w.comps c).onList = true := (hg.inv.on c).2 ⟨e, he, hec⟩
    rw [hg.dat c (by simp) hd] at this; cases this
  · unfold claimOf; rw [hcl]; rfl
  · have := (h.coh.cq c r).1 hm
    have h2 : (w.rv.comps c).claims = [] := hcl
    rw [h2] at this; cases this
  · simp [World.lined, hm]
  · simp [World.lined, hm]

/-- C07: after `cancel` and after the end of its process, the component is a data component, with nothing pending -/
theorem C07_out {w w' : World} {fuel o c} (hr : Reach Calm w) (hc : Calm fuel w o) (ho : o.ends w c) (h : exec fuel o w = .ok w') : Out w' c := by
  have hs : o.subject w = some c := by cases o <;> simp only [Op.ends] at ho <;> simp [Op.subject, ho]
  have hm := C09_moves hr hc hs h
  have hd : w'.status c = .data := by
    cases o <;> simp only [Op.ends] at ho <;> simpa [statusTable] using hm
  have := Reach.op fuel o hr hc
  rw [h] at this
  exact this.out hd

/-- C07: and so is every data component, all the time -/
theorem C07_data {w : World} (hr : Reach Calm w) {c} (hd : w.status c = .data) : Out w c := hr.out hd

/-- C07: nobody else loses a claim by it -/
theorem C07_others_keep {w w' : World} {fuel o c} (hr : Reach Calm w) (hc : Calm fuel w o) (ho : o.ends w c) (h : exec fuel o w = .ok w')
    (d : CId) (hd : d ≠ c) (r : RId) : claimOf w d r ≤ claimOf w' d r := by
  by_cases hs : w.status c = .data
  · cases o <;> simp only [Op.ends] at ho
    · subst ho
      simp only [exec, cancel, if_pos hs] at h
      cases h; exact le_refl _
    · rw [← ho] at hs; rw [hc.2.2] at hs; cases hs
  · obtain ⟨v, f, g⟩ := ends_givesBack hr hc ho hs h
    have h1 := RView.GivesBack.claim_le (hr.coh.fail f) g d hd r
    have h2 : v.claim d r = w.rv.claim d r := by unfold RView.claim; rw [f.claims' d]
    rw [h2] at h1; exact h1

/-- C07: the claimed quantity of each resource is lowered by exactly what the component claimed, and raised by exactly what others get
in return (granted to those waiting). This is for resources of which the claimed quantity is the sum of the claims, see C27. -/
theorem C07_lowered {w w' : World} {fuel o c} (hr : Reach Calm w) (hc : Calm fuel w o) (ho : o.ends w c) (h : exec fuel o w = .ok w')
    (r : RId) (ha : (w.res r).anonymous = false) (hsum : (w.res r).claimed = claimSum w r) :
    (w'.res r).claimed = (w.res r).claimed - claimOf w c r +
      ((w'.inQ (.claimers r)).map (fun d => claimOf w' d r - claimOf w d r)).sum := by
  have hr' : Reach Calm w' := by have := Reach.op fuel o hr hc; rw [h] at this; exact this
  have hout := C07_out hr hc ho h
  have hkeep := C07_others_keep hr hc ho h
  have hsum' : (w'.res r).claimed = claimSum w' r := by
    by_cases hs : w.status c = .data
    · cases o <;> simp only [Op.ends] at ho
      · subst ho
        simp only [exec, cancel, if_pos hs] at h
        cases h; exact hsum
      · rw [← ho] at hs; rw [hc.2.2] at hs; cases hs
    · obtain ⟨v, f, g⟩ := ends_givesBack hr hc ho hs h
      refine RView.GivesBack.sum (r := r) (hr.coh.fail f) g ?_ ?_
      · rw [f.res]; exact ha
      · rw [f.res, total_congr f.claims' f.clms]; exact hsum
  have hno : ∀ {w : World}, Reach Calm w → ∀ d, d ∉ w.inQ (.claimers r) → claimOf w d r = 0 := fun {w} hw d hd => by
    unfold claimOf
    have : lookup (w.comps d).claims r = none := lookup_none.2 (fun hk => hd ((hw.coh.cq d r).2 hk))
    rw [this]; rfl
  have hbig : claimSum w r = ((c :: w'.inQ (.claimers r)).map (fun d => claimOf w d r)).sum := by
    refine (sum_superset (hr.coh.cnd r) (List.nodup_cons.2 ⟨hout.claimers r, hr'.coh.cnd r⟩) (fun d hd => ?_) _ fun d _ hn => hno hr d hn).symm
    by_cases hdc : d = c
    · simp [hdc]
    · refine List.mem_cons_of_mem _ ?_
      refine (hr'.coh.cq d r).2 ?_
      have hk := (hr.coh.cq d r).1 hd
      by_cases hs : w.status c = .data
      · cases o <;> simp only [Op.ends] at ho
        · subst ho
          simp only [exec, cancel, if_pos hs] at h
          cases h; exact hk
        · rw [← ho] at hs; rw [hc.2.2] at hs; cases hs
      · obtain ⟨v, f, g⟩ := ends_givesBack hr hc ho hs h
        refine RView.GivesBack.has g d hdc r ?_
        rw [f.claims' d]; exact hk
  rw [hsum', hsum, hbig]
  simp only [List.map_cons, List.sum_cons]
  have : claimSum w' r = ((w'.inQ (.claimers r)).map (fun d => claimOf w' d r)).sum := rfl
  rw [this]
  generalize w'.inQ (.claimers r) = l
  induction l with
  | nil => simp
  | cons a t ih => simp only [List.map_cons, List.sum_cons]; linarith

/-- C07: if nobody else waits for a resource, the others claim what they claimed, and the claimed quantity is what it was minus the
claim of the component; it becomes exactly 0 if nobody else claims. This is for all quantities, see C27 for what can be claimed by nobody. -/
theorem C07_nobody_waits {w w' : World} {fuel o c} (hr : Reach Calm w) (hc : Calm fuel w o) (ho : o.ends w c) (h : exec fuel o w = .ok w')
    (r : RId) (hq : ∀ d ∈ w.inQ (.requesters r), d = c) :
    (∀ d, d ≠ c → claimOf w' d r = claimOf w d r) ∧
    (w'.res r).claimed = if c ∈ w.inQ (.claimers r) ∧ ∀ d ∈ w.inQ (.claimers r), d = c then 0 else (w.res r).claimed - claimOf w c r := by
  by_cases hs : w.status c = .data
  · have hcl : claimOf w c r = 0 ∧ c ∉ w.inQ (.claimers r) := ⟨(hr.out hs).claims r, (hr.out hs).claimers r⟩
    have : w' = w := by
      cases o <;> simp only [Op.ends] at ho
      · subst ho
        simp only [exec, cancel, if_pos hs] at h
        cases h; rfl
      · rw [← ho] at hs; rw [hc.2.2] at hs; cases hs
    subst this
    rw [if_neg (fun hh => hcl.2 hh.1), hcl.1, sub_zero]
    exact ⟨fun _ _ => rfl, rfl⟩
  · obtain ⟨v, f, g⟩ := ends_givesBack hr hc ho hs h
    have hreq : (v.reqs r).1 = [] := by
      rw [f.reqs]
      refine List.filter_eq_nil_iff.2 fun m hm => ?_
      simpa using hq m.c (List.mem_map.2 ⟨m, hm, rfl⟩)
    obtain ⟨h1, h2, h3⟩ := RView.GivesBack.unasked (r := r) (hr.coh.fail f) g (hr.coh.ck c) (by rw [f.comp]) hreq
    have hcl : ∀ d, v.claim d r = claimOf w d r := fun d => by unfold RView.claim; rw [f.claims' d]; rfl
    refine ⟨fun d hd => (h1 d hd).trans (hcl d), ?_⟩
    by_cases hk : c ∈ w.inQ (.claimers r)
    · have hk' : r ∈ keys (w.comps c).claims := (hr.coh.cq c r).1 hk
      have e : v.clmQ r = w.inQ (.claimers r) := by unfold clmQ; rw [f.clms]; rfl
      rw [show (w'.res r).claimed = _ from h3 hk', e, hcl, f.res]
      have : (List.filter (fun d => d != c) (w.inQ (.claimers r)) = []) ↔ (c ∈ w.inQ (.claimers r) ∧ ∀ d ∈ w.inQ (.claimers r), d = c) := by
        simp [List.filter_eq_nil_iff, hk]
      simp only [this]
      rfl
    · have hk' : r ∉ keys (w.comps c).claims := fun hh => hk ((hr.coh.cq c r).2 hh)
      have h0 : claimOf w c r = 0 := by
        unfold claimOf
        have : lookup (w.comps c).claims r = none := lookup_none.2 hk'
        rw [this]; rfl
      rw [if_neg (fun hh => hk hh.1), h0, sub_zero]
      have := (h2 hk').1
      rw [f.res] at this
      exact (congrArg Res.claimed this : (w'.rv.res r).claimed = (w.rv.res r).claimed)

/-- component 1 claims 3 of 5, component 2 claims 2, component 3 waits for 2 and 1 holds; then component 1 is cancelled, and component 3
gets its 2 -/
def endOps : List Op := born 1 ++ [ask 1 1 3] ++ born 2 ++ [ask 2 1 2] ++ born 3 ++ [ask 3 1 2]

example : ∃ w', Reach Calm (execAll 20 endOps shop) ∧ Calm 20 (execAll 20 endOps shop) (.cancel 1) ∧
    exec 20 (.cancel 1) (execAll 20 endOps shop) = .ok w' ∧ Out w' 1 ∧
    ((execAll 20 endOps shop).res 1).claimed = claimSum (execAll 20 endOps shop) 1 ∧
    (List.range 4).map (fun c => claimOf (execAll 20 endOps shop) c 1) = [0, 3, 2, 0] ∧ (List.range 4).map (fun c => claimOf w' c 1) = [0, 0, 2, 2] := by
  have hr : Reach Calm (execAll 20 endOps shop) := reach_calm _ (.init fresh_shop) _ (by decide +kernel)
  have hc : Calm 20 (execAll 20 endOps shop) (.cancel 1) := calmb_calm (by decide +kernel)
  have hw := ok_world (r := exec 20 (.cancel 1) (execAll 20 endOps shop)) (by decide +kernel)
  exact ⟨_, hr, hc, hw, C07_out hr hc rfl hw, by decide +kernel, by decide +kernel, by decide +kernel⟩

/-- C07 for a process that calls `hold` but doesn't yield, and ends: the component is a data component with an event pending -/
theorem C07_unyielded_counterexample : ∃ w o w', Reach Calm w ∧ o.ends w 1 ∧ OpOK w o ∧ exec 20 o w = .ok w' ∧ w'.status 1 = .data ∧
    ∃ e ∈ w'.events, e.c = 1 := by
  refine ⟨execAll 20 (born 1 ++ [.hold 1 (some (5 : Rat)) none (0 : Rat) false false 0]) World.init, .terminate, _,
    reach_calm _ (.init fresh_init) _ (by decide +kernel), by simp only [Op.ends]; decide +kernel, trivial, ok_world (by decide +kernel), by decide +kernel, ?_⟩
  decide +kernel

end Verif
