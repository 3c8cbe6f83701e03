import Verif.RRefine
import Verif.Props.Events

/-!
# Claims C27, C28, C31: resources
-/

namespace Verif
open World RView

/-! ## the claims add up -/

theorem sum_update {α : Type} [DecidableEq α] {l : List α} (hn : l.Nodup) {c : α} (hc : c ∈ l) {f g : α → Rat} (h : ∀ d, d ≠ c → g d = f d) :
    (l.map g).sum = (l.map f).sum + (g c - f c) := by
  induction l with
  | nil => cases hc
  | cons a t ih =>
    rw [List.nodup_cons] at hn
    simp only [List.map_cons, List.sum_cons]
    by_cases ha : a = c
    · subst ha
      have : t.map g = t.map f := List.map_congr_left fun d hd => h d (fun e => hn.1 (e ▸ hd))
      rw [this]; ring
    · rw [ih hn.2 ((List.mem_cons.1 hc).resolve_left (fun e => ha e.symm)), h a ha]; ring

theorem sum_same {α : Type} {l : List α} {c : α} (hc : c ∉ l) {f g : α → Rat} (h : ∀ d, d ≠ c → g d = f d) : (l.map g).sum = (l.map f).sum := by
  congr 1
  exact List.map_congr_left fun d hd => h d (fun e => hc (e ▸ hd))

theorem sum_filter {l : List CId} (hn : l.Nodup) {c : CId} (hc : c ∈ l) (f : CId → Rat) :
    ((l.filter (fun d => d != c)).map f).sum = (l.map f).sum - f c := by
  induction l with
  | nil => cases hc
  | cons a t ih =>
    rw [List.nodup_cons] at hn
    by_cases ha : a = c
    · subst ha
      rw [List.filter_cons, if_neg (by simp), List.filter_eq_self.2]
      · simp
      · intro d hd; simp only [bne_iff_ne, ne_eq]; rintro rfl; exact hn.1 hd
    · rw [List.filter_cons, if_pos (by simp [ha])]
      simp only [List.map_cons, List.sum_cons]
      rw [ih hn.2 ((List.mem_cons.1 hc).resolve_left (fun e => ha e.symm))]; ring

theorem RView.Honor.total {v v' : RView} (h : v.Coh) {c hon} (s : Honor c hon v v') (r : RId) (ha : (v.res r).anonymous = false) :
    v'.total r = v.total r + (if r ∈ hon then (v.wants c r).getD 0 else 0) := by
  have ho : ∀ d, d ≠ c → v'.claim d r = v.claim d r := fun d hd => by unfold RView.claim; rw [s.other d hd]
  have hcl := s.claim r
  have e := s.clms r
  unfold RView.total
  by_cases hr : r ∈ hon
  · simp only [hr, ha, and_self, if_true] at hcl
    rw [if_pos hr]
    by_cases hc : c ∈ v.clmQ r
    · rw [if_neg (fun hh => hh.2.2 hc)] at e
      have e' : v'.clmQ r = v.clmQ r := by unfold clmQ; rw [e]
      rw [e', sum_update (h.cnd r) hc ho, hcl]; ring
    · rw [if_pos ⟨hr, ha, hc⟩] at e
      obtain ⟨x, m, h1, _, _, _, h2⟩ := e
      have hp : (v'.clmQ r).Perm (c :: v.clmQ r) := by
        have := h2.perm.map QMem.c
        rw [List.map_cons, h1] at this; exact this
      rw [(hp.map _).sum_eq, List.map_cons, List.sum_cons, sum_same hc ho, hcl]
      have : v.claim c r = 0 := by
        unfold RView.claim
        rw [lookup_none.2 (fun hh => hc ((h.cq c r).2 hh))]; rfl
      rw [this]; ring
  · simp only [hr, false_and, if_false, add_zero] at hcl
    rw [if_neg (fun hh => hr hh.1)] at e
    have e' : v'.clmQ r = v.clmQ r := by unfold clmQ; rw [e]
    rw [if_neg hr, e', add_zero]
    congr 1
    refine List.map_congr_left fun d _ => ?_
    by_cases hd : d = c
    · subst hd; exact hcl
    · exact ho d hd

theorem RView.Release.total {v v' : RView} (h : v.Coh) {c r cl q} (s : Release c r cl q v v') :
    v'.total r = v.total r - (if cl - q < eps then cl else q) := by
  have ho : ∀ d, d ≠ c → v'.claim d r = v.claim d r := fun d hd => by unfold RView.claim; rw [s.other d hd]
  have hc : c ∈ v.clmQ r := (h.cq c r).2 (lookup_isSome.1 ⟨_, s.has⟩)
  have h0 : v.claim c r = cl := by unfold RView.claim; rw [s.has]; rfl
  have h1 : v'.claim c r = if cl - q < eps then 0 else cl - q := by
    unfold RView.claim; rw [s.claims, if_pos rfl]; split <;> rfl
  unfold RView.total
  by_cases he : cl - q < eps
  · have e : v'.clmQ r = (v.clmQ r).filter (fun d => d != c) := by
      unfold clmQ; rw [s.clms]; simp only [he, if_true]; exact map_filter_c _ _
    rw [if_pos he, e]
    have : c ∉ (v.clmQ r).filter (fun d => d != c) := by simp
    rw [sum_same this ho, sum_filter (h.cnd r) hc, h0]
  · have e : v'.clmQ r = v.clmQ r := by unfold clmQ; rw [s.clms]; simp only [he, if_false]
    rw [if_neg he, e, sum_update (h.cnd r) hc ho, h0, h1, if_neg he]; ring

theorem RView.Release.total_other {v v' : RView} {c r cl q} (s : Release c r cl q v v') {x : RId} (hx : x ≠ r) : v'.total x = v.total x := by
  unfold RView.total clmQ
  rw [s.oclms x hx]
  congr 1
  refine List.map_congr_left fun d _ => ?_
  unfold RView.claim
  by_cases hd : d = c
  · subst hd; rw [s.claims, if_neg hx]
  · rw [s.other d hd]

theorem total_congr {v v' : RView} (h1 : ∀ d, (v'.comps d).claims = (v.comps d).claims) (h2 : v'.clms = v.clms) (r : RId) : v'.total r = v.total r := by
  unfold RView.total clmQ claim
  rw [h2]; simp only [h1]

theorem total_oneof {v : RView} (c : CId) (b : Bool) {r : RId} :
    RView.total { v with comps := fun d => if d = c then { v.comps d with oneof := b } else v.comps d } r = v.total r := by
  refine total_congr ?_ ?_ r
  · intro d; simp only; split <;> rfl
  · rfl

theorem RView.Ask.claims' {v v' : RView} {c r q prio} (s : Ask c r q prio v v') (d : CId) : (v'.comps d).claims = (v.comps d).claims := by
  by_cases hd : d = c
  · subst hd; exact s.claims
  · rw [s.other d hd]
theorem RView.Fail.claims' {v v' : RView} {c} (s : Fail c v v') (d : CId) : (v'.comps d).claims = (v.comps d).claims := by
  by_cases hd : d = c
  · subst hd; rw [s.comp]
  · rw [s.other d hd]

theorem list_sum_nonneg {l : List Rat} (h : ∀ x ∈ l, 0 ≤ x) : 0 ≤ l.sum := by
  induction l with
  | nil => simp
  | cons a t ih =>
    rw [List.sum_cons]
    exact add_nonneg (h a List.mem_cons_self) (ih fun x hx => h x (List.mem_cons_of_mem _ hx))

theorem total_nonneg {v : RView} (h : v.Coh) (r : RId) : 0 ≤ v.total r := by
  unfold RView.total
  refine list_sum_nonneg fun x hx => ?_
  obtain ⟨d, _, rfl⟩ := List.mem_map.1 hx
  exact h.nneg d r

/-! ## histories -/

/-- calls without restrictions -/
def anyLic : Lic := ⟨fun _ => True, fun _ _ _ => True, fun _ _ => True, fun _ _ _ => True, fun _ _ _ => True⟩

theorem anyLic_ok (w : World) (o : Op) : anyLic.ok w o := by
  cases o <;> simp [Lic.ok, anyLic]

theorem Fresh.coh {w : World} (h : Fresh w) : w.rv.Coh := by
  have hc : ∀ c, (w.rv.comps c).claims = [] ∧ (w.rv.comps c).requests = [] := by
    intro c
    obtain ⟨b, hb⟩ := h.comps c
    show (w.comps c).claims = [] ∧ (w.comps c).requests = []
    rw [hb]; exact ⟨rfl, rfl⟩
  have hq : ∀ q, (w.queues q).mem = [] := by
    intro q
    obtain ⟨k, hk⟩ := h.queues q
    rw [hk]
  have h1 : ∀ r, w.rv.reqQ r = [] := fun r => by
    show (w.queues (.requesters r)).mem.map QMem.c = []
    rw [hq]; rfl
  have h2 : ∀ r, w.rv.clmQ r = [] := fun r => by
    show (w.queues (.claimers r)).mem.map QMem.c = []
    rw [hq]; rfl
  refine ⟨fun r => ⟨h.inner (.requesters r) rfl, h.inner (.claimers r) rfl⟩, fun r => ?_, fun r => ?_, fun c r => ?_, fun c r => ?_, fun c => ?_, fun c => ?_,
    fun c r q hw => ?_, fun c r => ?_, fun r _ => hq _⟩
  · rw [h1]; simp
  · rw [h2]; simp
  · rw [h1, (hc c).2]; simp [keys]
  · rw [h2, (hc c).1]; simp [keys]
  · rw [(hc c).2]; simp [keys]
  · rw [(hc c).1]; simp [keys]
  · unfold wants at hw; rw [(hc c).2] at hw; simp [lookup] at hw
  · unfold RView.claim; rw [(hc c).1]; simp [lookup]

theorem Fresh.total {w : World} (h : Fresh w) (r : RId) : w.rv.total r = 0 := by
  unfold RView.total clmQ
  have : (w.rv.clms r).1 = [] := by
    obtain ⟨k, hk⟩ := h.queues (.claimers r)
    show (w.queues (.claimers r)).mem = []
    rw [hk]
  rw [this]; rfl

theorem Reach.coh {ok} {w : World} (h : Reach ok w) : w.rv.Coh := by
  induction h with
  | init hf => exact hf.coh
  | op fuel o _ _ ih => exact (exec_refines ih fuel o (anyLic_ok _ _)).1

/-- a property of coherent views that is kept by the steps holds in all histories -/
theorem Reach.induct {ok : Nat → World → Op → Prop} {L : Lic} {I : RView → Prop} (hok : ∀ fuel w o, ok fuel w o → L.ok w o)
    (h0 : ∀ w, Fresh w → I w.rv) (hs : ∀ v v', v.Coh → I v → Step L v v' → I v') {w : World} (h : Reach ok w) : I w.rv := by
  induction h with
  | init hf => exact h0 _ hf
  | @op w1 fuel o hr ho ih =>
    have := (exec_refines (L := L) hr.coh fuel o (hok _ _ _ ho)).2
    have key : ∀ v', Relation.ReflTransGen (Step L) w1.rv v' → v'.Coh ∧ I v' := by
      intro v' hv
      induction hv with
      | refl => exact ⟨hr.coh, ih⟩
      | tail _ s ih => exact ⟨ih.1.step s, hs _ _ ih.1 ih.2 s⟩
    exact (key _ this).2

/-! ## C27 -/

/-- what is claimed of a resource, according to its claimers -/
def claimSum (w : World) (r : RId) : Rat :=
  ((w.inQ (.claimers r)).map (fun c => (lookup (w.comps c).claims r).getD 0)).sum

theorem claimSum_eq (w : World) (r : RId) : claimSum w r = w.rv.total r := rfl

theorem sum_le_step {L : Lic} {v v' : RView} (h : v.Coh) (s : Step L v v') (r : RId)
    (hr : (v.res r).anonymous = false → v.total r ≤ (v.res r).claimed) :
    (v'.res r).anonymous = false → v'.total r ≤ (v'.res r).claimed := by
  cases s with
  | oneof c b _ hv =>
    subst hv
    intro ha
    have := hr ha
    rw [← total_oneof c b] at this; exact this
  | ask c r' q prio _ _ s => rw [s.res, total_congr s.claims' s.clms]; exact hr
  | fail c s => rw [s.res, total_congr s.claims' s.clms]; exact hr
  | honor c hon s =>
    intro ha
    have ha' : (v.res r).anonymous = false := by rw [s.res] at ha; exact ha
    rw [s.total h r ha', s.res]
    have := hr ha'
    show _ ≤ (v.res r).claimed + _
    linarith
  | release c r' cl a _ s =>
    by_cases hx : r = r'
    · subst hx
      intro ha
      have ha' : (v.res r).anonymous = false := by rw [s.res] at ha; exact ha
      have h1 := hr ha'
      have h2 := s.total h
      have h3 := s.le
      have hA : 0 ≤ v'.total r := total_nonneg (h.release s) r
      rw [s.res]
      generalize (RView.amount a cl) = q at *
      show _ ≤ ite _ _ _
      by_cases he : cl - q < eps
      · rw [if_pos he] at h2
        by_cases h0 : (v'.clms r).1 = []
        · rw [if_pos ⟨he, h0⟩]
          unfold RView.total clmQ; rw [h0]; simp
        · rw [if_neg (fun hh => h0 hh.2), h2]; linarith
      · rw [if_neg he] at h2
        rw [if_neg (fun hh => he hh.1), h2]; linarith
    · rw [s.total_other hx, s.ores r hx]; exact hr
  | anon r' a _ ha hv =>
    subst hv
    show (ite _ _ _ : Res).anonymous = false → v.total r ≤ (ite _ _ _ : Res).claimed
    by_cases hx : r = r'
    · subst hx; simp [ha]
    · simp only [hx, if_false]; exact hr
  | cap r' k _ hv =>
    subst hv
    show (ite _ _ _ : Res).anonymous = false → v.total r ≤ (ite _ _ _ : Res).claimed
    by_cases hx : r = r'
    · subst hx; simpa using hr
    · simp only [hx, if_false]; exact hr

/-- C27: whatever happens (also after exceptions) the claimed quantity of a resource is never less than the sum of the claims, and
not negative; and what a claimer claims is not negative either -/
theorem C27_at_least {w : World} (h : Reach Any w) (r : RId) (ha : (w.res r).anonymous = false) :
    claimSum w r ≤ (w.res r).claimed ∧ 0 ≤ (w.res r).claimed ∧ ∀ c q, lookup (w.comps c).claims r = some q → 0 ≤ q := by
  have h1 : (w.rv.res r).anonymous = false → w.rv.total r ≤ (w.rv.res r).claimed := by
    refine Reach.induct (L := anyLic) (I := fun v => (v.res r).anonymous = false → v.total r ≤ (v.res r).claimed)
      (fun _ _ _ _ => anyLic_ok _ _) (fun w hf ha => ?_) (fun v v' hv hI s => sum_le_step hv s r hI) h
    rw [hf.total]; exact (hf.res r).2.2.1
  have h2 := h1 ha
  refine ⟨h2, (total_nonneg h.coh r).trans h2, fun c q hq => ?_⟩
  have := h.coh.nneg c r
  unfold RView.claim at this
  have e : lookup (w.rv.comps c).claims r = some q := hq
  rw [e] at this; exact this

/-- only components that claim the resource are in its claimers queue, once -/
theorem C27_claimers {w : World} (h : Reach Any w) (r : RId) : (w.inQ (.claimers r)).Nodup ∧
    ∀ c, c ∈ w.inQ (.claimers r) ↔ ∃ q, lookup (w.comps c).claims r = some q :=
  ⟨h.coh.cnd r, fun c => (h.coh.cq c r).trans lookup_isSome.symm⟩

/-- `q` is a multiple of `u` -/
def Mult (u q : Rat) : Prop := ∃ n : Int, q = n * u

theorem Mult.add {u a b : Rat} (ha : Mult u a) (hb : Mult u b) : Mult u (a + b) := by
  obtain ⟨m, rfl⟩ := ha; obtain ⟨n, rfl⟩ := hb
  exact ⟨m + n, by push_cast; ring⟩
theorem Mult.sub {u a b : Rat} (ha : Mult u a) (hb : Mult u b) : Mult u (a - b) := by
  obtain ⟨m, rfl⟩ := ha; obtain ⟨n, rfl⟩ := hb
  exact ⟨m - n, by push_cast; ring⟩
theorem Mult.zero (u : Rat) : Mult u 0 := ⟨0, by simp⟩
theorem Mult.small {u a : Rat} (ha : Mult u a) (h0 : 0 ≤ a) (h : a < u) : a = 0 := by
  obtain ⟨n, rfl⟩ := ha
  have hu : 0 < u := lt_of_le_of_lt h0 h
  have h1 : (n : Rat) < 1 := by
    by_contra hh
    push Not at hh
    have := mul_le_mul_of_nonneg_right hh hu.le
    linarith
  have h2 : (0 : Rat) ≤ n := by
    by_contra hh
    push Not at hh
    have := mul_neg_of_neg_of_pos hh hu
    linarith
  have h3 : n < 1 := by exact_mod_cast h1
  have h4 : 0 ≤ n := by exact_mod_cast h2
  have : n = 0 := by omega
  simp [this]

/-- quantities of the resource `r` are multiples of `u`, not less than 1e-8 -/
def unitLic (r : RId) (u : Rat) : Lic :=
  ⟨fun _ => True, fun s q _ => s = r → Mult u q, fun s q => s = r → Mult u q, fun _ _ _ => True, fun _ _ _ => True⟩

structure Units (r : RId) (u : Rat) (v : RView) : Prop where
  wants : ∀ c q, v.wants c r = some q → Mult u q
  claim : ∀ c, Mult u (v.claim c r)
  sum : v.total r = (v.res r).claimed
  ord : (v.res r).anonymous = false

theorem units_step {r : RId} {u : Rat} (hu : eps ≤ u) {v v' : RView} (h : v.Coh) (s : Step (unitLic r u) v v') (hI : Units r u v) : Units r u v' := by
  cases s with
  | oneof c b _ hv =>
    subst hv
    have e : ∀ d, ((fun d => if d = c then { v.comps d with oneof := b } else v.comps d : CId → RC) d).claims = (v.comps d).claims ∧
        ((fun d => if d = c then { v.comps d with oneof := b } else v.comps d : CId → RC) d).requests = (v.comps d).requests := by
      intro d; simp only; split <;> exact ⟨rfl, rfl⟩
    refine ⟨fun d q hq => ?_, fun d => ?_, ?_, hI.ord⟩
    · unfold RView.wants at hq; rw [(e d).2] at hq; exact hI.wants d q hq
    · unfold RView.claim; rw [(e d).1]; exact hI.claim d
    · exact (total_oneof c b).trans hI.sum
  | ask c r' q prio _ hm s =>
    refine ⟨fun d q' hq => ?_, fun d => ?_, ?_, by rw [s.res]; exact hI.ord⟩
    · unfold RView.wants at hq
      by_cases hd : d = c
      · subst hd
        rw [s.requests, lookup_addTo] at hq
        by_cases hx : r = r'
        · subst hx
          rw [if_pos rfl] at hq
          simp only [Option.some.injEq] at hq
          subst hq
          refine Mult.add ?_ (hm rfl)
          cases hl : lookup (v.comps d).requests r with
          | none => exact Mult.zero u
          | some y => exact hI.wants d y hl
        · rw [if_neg hx] at hq; exact hI.wants d q' hq
      · rw [s.other d hd] at hq; exact hI.wants d q' hq
    · unfold RView.claim; rw [s.claims' d]; exact hI.claim d
    · rw [s.res, total_congr s.claims' s.clms]; exact hI.sum
  | fail c s =>
    refine ⟨fun d q' hq => ?_, fun d => ?_, ?_, by rw [s.res]; exact hI.ord⟩
    · unfold RView.wants at hq
      by_cases hd : d = c
      · subst hd; rw [s.comp] at hq; simp [lookup] at hq
      · rw [s.other d hd] at hq; exact hI.wants d q' hq
    · unfold RView.claim; rw [s.claims' d]; exact hI.claim d
    · rw [s.res, total_congr s.claims' s.clms]; exact hI.sum
  | honor c hon s =>
    refine ⟨fun d q' hq => ?_, fun d => ?_, ?_, by rw [s.res]; exact hI.ord⟩
    · unfold RView.wants at hq
      by_cases hd : d = c
      · subst hd; rw [s.requests] at hq; simp [lookup] at hq
      · rw [s.other d hd] at hq; exact hI.wants d q' hq
    · by_cases hd : d = c
      · subst hd
        rw [s.claim]
        refine (hI.claim d).add ?_
        split
        · cases hl : v.wants d r with
          | none => exact Mult.zero u
          | some y => exact hI.wants d y hl
        · exact Mult.zero u
      · unfold RView.claim; rw [s.other d hd]; exact hI.claim d
    · rw [s.total h r hI.ord, s.res, hI.sum]
  | release c r' cl a hm s =>
    by_cases hx : r = r'
    · subst hx
      have h0 : v.claim c r = cl := by unfold RView.claim; rw [s.has]; rfl
      have hcl : Mult u cl := h0 ▸ hI.claim c
      have hq : Mult u (RView.amount a cl) := by
        cases a with
        | none => exact hcl
        | some x =>
          rcases min_choice x cl with e | e
          · show Mult u (min x cl); rw [e]; exact hm x rfl rfl
          · show Mult u (min x cl); rw [e]; exact hcl
      generalize (RView.amount a cl) = q at *
      have hres : cl - q < eps → cl = q := fun he => by
        have := (hcl.sub hq).small (by have := s.le; linarith) (lt_of_lt_of_le he hu)
        linarith
      refine ⟨fun d q' hw => ?_, fun d => ?_, ?_, by rw [s.res]; exact hI.ord⟩
      · unfold RView.wants at hw
        by_cases hd : d = c
        · subst hd; rw [s.requests] at hw; exact hI.wants d q' hw
        · rw [s.other d hd] at hw; exact hI.wants d q' hw
      · unfold RView.claim
        by_cases hd : d = c
        · subst hd; rw [s.claims, if_pos rfl]
          split
          · exact Mult.zero u
          · exact hcl.sub hq
        · rw [s.other d hd]; exact hI.claim d
      · have h2 := s.total h
        rw [s.res]
        show _ = ite _ _ _
        by_cases he : cl - q < eps
        · rw [if_pos he, hI.sum] at h2
          by_cases h0 : (v'.clms r).1 = []
          · rw [if_pos ⟨he, h0⟩]
            unfold RView.total clmQ; rw [h0]; simp
          · rw [if_neg (fun hh => h0 hh.2), h2, hres he]
        · rw [if_neg he, hI.sum] at h2
          rw [if_neg (fun hh => he hh.1), h2]
    · refine ⟨fun d q' hw => ?_, fun d => ?_, ?_, by rw [s.ores r hx]; exact hI.ord⟩
      · unfold RView.wants at hw
        by_cases hd : d = c
        · subst hd; rw [s.requests] at hw; exact hI.wants d q' hw
        · rw [s.other d hd] at hw; exact hI.wants d q' hw
      · unfold RView.claim
        by_cases hd : d = c
        · subst hd; rw [s.claims, if_neg hx]; exact hI.claim d
        · rw [s.other d hd]; exact hI.claim d
      · rw [s.total_other hx, s.ores r hx]; exact hI.sum
  | anon r' a _ ha hv =>
    subst hv
    have hx : r ≠ r' := by rintro rfl; rw [hI.ord] at ha; cases ha
    refine ⟨hI.wants, hI.claim, ?_, ?_⟩
    · show v.total r = (ite _ _ _ : Res).claimed
      rw [if_neg hx]; exact hI.sum
    · show (ite _ _ _ : Res).anonymous = _
      rw [if_neg hx]; exact hI.ord
  | cap r' k _ hv =>
    subst hv
    refine ⟨hI.wants, hI.claim, ?_, ?_⟩
    · show v.total r = (ite _ _ _ : Res).claimed
      split <;> exact hI.sum
    · show (ite _ _ _ : Res).anonymous = _
      split <;> exact hI.ord

theorem step_anonymous {L : Lic} {v v' : RView} (s : Step L v v') (r : RId) : (v'.res r).anonymous = (v.res r).anonymous := by
  cases s with
  | oneof c b _ hv => subst hv; rfl
  | ask c r' q prio _ _ s => rw [s.res]
  | fail c s => rw [s.res]
  | honor c hon s => rw [s.res]
  | release c r' cl a _ s =>
    by_cases hx : r = r'
    · subst hx; rw [s.res]
    · rw [s.ores r hx]
  | anon r' a _ ha hv =>
    subst hv
    show (ite _ _ _ : Res).anonymous = _
    split
    · rename_i hx; rw [hx]
    · rfl
  | cap r' k _ hv =>
    subst hv
    show (ite _ _ _ : Res).anonymous = _
    split <;> rfl

/-- the quantities of `r` in requests and releases are multiples of `u` -/
def UnitOps (r : RId) (u : Rat) : Nat → World → Op → Prop := fun _ _ o =>
  match o with
  | .request _ args _ _ _ _ _ _ _ => ∀ a ∈ args, a.r = r → Mult u a.q
  | .release _ args => ∀ a ∈ args, a.1 = r → ∀ x, a.2 = some x → Mult u x
  | _ => True

theorem unitLic_ok {r : RId} {u : Rat} {fuel : Nat} {w : World} {o : Op} (h : UnitOps r u fuel w o) : (unitLic r u).ok w o := by
  cases o with
  | request c args oneof put fa fd p ur k =>
    refine ⟨trivial, fun a ha hr => ?_⟩
    have := h a ha hr
    split
    · obtain ⟨n, hn⟩ := this
      exact ⟨-n, by rw [hn]; push_cast; ring⟩
    · exact this
  | release c args => exact fun a ha x hx hr => h a ha hr x hx
  | _ => first | trivial

/-- C27: if the quantities are multiples of a unit that is not less than 1e-8 (integers for instance), the claimed quantity is
precisely the sum of the claims -/
theorem C27_sum {w : World} {r : RId} {u : Rat} (hu : eps ≤ u) (h : Reach (UnitOps r u) w) (ha : (w.res r).anonymous = false) :
    (w.res r).claimed = claimSum w r ∧ Mult u (w.res r).claimed ∧ ∀ c q, lookup (w.comps c).claims r = some q → Mult u q := by
  have h1 : (w.rv.res r).anonymous = false → Units r u w.rv := by
    refine Reach.induct (L := unitLic r u) (I := fun v => (v.res r).anonymous = false → Units r u v)
      (fun _ _ _ => unitLic_ok) (fun w hf ha => ?_) (fun v v' hv hI s ha => ?_) h
    · have hc : ∀ c, (w.rv.comps c).claims = [] ∧ (w.rv.comps c).requests = [] := by
        intro c
        obtain ⟨b, hb⟩ := hf.comps c
        show (w.comps c).claims = [] ∧ (w.comps c).requests = []
        rw [hb]; exact ⟨rfl, rfl⟩
      refine ⟨fun c q hq => ?_, fun c => ?_, ?_, ha⟩
      · unfold wants at hq; rw [(hc c).2] at hq; simp [lookup] at hq
      · unfold RView.claim; rw [(hc c).1]; exact Mult.zero u
      · rw [hf.total]; exact ((hf.res r).2.2.2.2 ha).symm
    · exact units_step hu hv s (hI (by rw [← step_anonymous s r]; exact ha))
  have h2 := h1 ha
  have hm : ∀ l : List CId, Mult u (l.map (fun c => w.rv.claim c r)).sum := by
    intro l
    induction l with
    | nil => exact Mult.zero u
    | cons a t ih => exact (h2.claim a).add ih
  refine ⟨h2.sum.symm, ?_, fun c q hq => ?_⟩
  · have : (w.res r).claimed = w.rv.total r := h2.sum.symm
    rw [this]; exact hm _
  · have := h2.claim c
    unfold RView.claim at this
    have e : lookup (w.rv.comps c).claims r = some q := hq
    rw [e] at this; exact this

/-- the capacity of `r` is never set to less than what is claimed, and no negative quantity of it is released -/
def FairOps (r : RId) : Nat → World → Op → Prop := fun _ w o =>
  match o with
  | .release _ args => ∀ a ∈ args, a.1 = r → ∀ x, a.2 = some x → 0 ≤ x
  | .resRelease s q => s = r → ∀ x, q = some x → 0 ≤ x
  | .resSetCapacity s k => s = r → ((w.res r).claimed : ETime) ≤ k
  | _ => True

/-- the same for the steps -/
def fairLic (r : RId) : Lic :=
  ⟨fun _ => True, fun _ _ _ => True, fun s q => s = r → 0 ≤ q, fun _ s q => s = r → ∀ x, q = some x → 0 ≤ x,
    fun v s k => s = r → ((v.res r).claimed : ETime) ≤ k⟩

theorem fairLic_ok {r : RId} {fuel : Nat} {w : World} {o : Op} (h : FairOps r fuel w o) : (fairLic r).ok w o := by
  cases o with
  | request c args oneof put fa fd p ur k => exact ⟨trivial, fun _ _ => trivial⟩
  | release c args => exact fun a ha x hx hr => h a ha hr x hx
  | resRelease s q => exact h
  | resSetCapacity s k => exact h
  | _ => trivial

theorem eps_pos : (0 : Rat) < eps := by unfold eps; norm_num

theorem le_cap_of_le {a b : Rat} {k : ETime} (h : (b : ETime) ≤ k) (hab : a ≤ b) : (a : ETime) ≤ k :=
  (WithTop.coe_le_coe.2 hab).trans h

theorem low_step {L : Lic} {v v' : RView} (h : v.Coh) (s : Step L v v') (r : RId)
    (hr : (v.res r).anonymous = false → v.total r ≤ (v.res r).claimed) (hI : -eps ≤ (v.res r).claimed) : -eps ≤ (v'.res r).claimed := by
  have he := eps_pos
  by_cases ha : (v'.res r).anonymous = false
  · have h1 := sum_le_step h s r hr ha
    have h2 := total_nonneg (h.step s) r
    linarith
  rw [step_anonymous s r] at ha
  cases s with
  | oneof c b _ hv => subst hv; exact hI
  | ask c r' q prio _ _ s => rw [s.res]; exact hI
  | fail c s => rw [s.res]; exact hI
  | honor c hon s =>
    rw [s.res]
    show _ ≤ _ + ite _ _ _
    split
    · rename_i hh
      obtain ⟨q, hq⟩ := lookup_isSome.2 (s.sub r hh)
      have hq' : v.wants c r = some q := hq
      have hf := s.fits r q hh hq'
      rw [hq']
      show _ ≤ _ + q
      by_cases h0 : 0 < q
      · linarith
      · have := hf.2 (not_lt.1 h0); linarith
    · linarith
  | release c r' cl a _ s =>
    by_cases hx : r = r'
    · subst hx
      have := (h.cq c r).2 (lookup_isSome.1 ⟨cl, s.has⟩)
      unfold clmQ at this
      rw [h.anon r (by simpa using ha)] at this
      cases this
    · rw [s.ores r hx]; exact hI
  | anon r' a _ ha' hv =>
    subst hv
    show _ ≤ (ite _ _ _ : Res).claimed
    by_cases hx : r = r'
    · subst hx
      rw [if_pos rfl]
      show _ ≤ ite _ _ _
      split
      · linarith
      · rename_i hh; push Not at hh; linarith
    · rw [if_neg hx]; exact hI
  | cap r' k _ hv =>
    subst hv
    show _ ≤ (ite _ _ _ : Res).claimed
    split <;> exact hI

/-- the claimed quantity is within the capacity -/
structure Within (r : RId) (v : RView) : Prop where
  sum : (v.res r).anonymous = false → v.total r ≤ (v.res r).claimed
  low : -eps ≤ (v.res r).claimed
  zero : ((0 : Rat) : ETime) ≤ (v.res r).cap + (eps : ETime)
  cap : ((v.res r).claimed : ETime) ≤ (v.res r).cap + (eps : ETime)

theorem add_eps_le {k k' : ETime} (h : k ≤ k') : k + (eps : ETime) ≤ k' + (eps : ETime) := add_le_add h (le_refl _)

/-- what a step does with the claimed quantity: it doesn't become more, or it fits -/
theorem claimed_step {L : Lic} {r : RId} (hrel : ∀ q, L.rel r q → 0 ≤ q) (hanon : ∀ v q, L.anon v r (some q) → 0 ≤ q)
    {v v' : RView} (h : v.Coh) (s : Step L v v')
    (hsum : (v.res r).anonymous = false → v.total r ≤ (v.res r).claimed) :
    ((v'.res r).claimed ≤ max (v.res r).claimed 0 ∨ ((v'.res r).claimed : ETime) ≤ (v.res r).cap + (eps : ETime)) ∧
    ((v'.res r).cap = (v.res r).cap ∨ ∃ k, L.cap v r k ∧ (v'.res r).cap = k ∧ (v'.res r).claimed = (v.res r).claimed) := by
  have h0 : (v.res r).claimed ≤ max (v.res r).claimed 0 := le_max_left _ _
  cases s with
  | oneof c b _ hv => subst hv; exact ⟨.inl h0, .inl rfl⟩
  | ask c r' q prio _ _ s => rw [s.res]; exact ⟨.inl h0, .inl rfl⟩
  | fail c s => rw [s.res]; exact ⟨.inl h0, .inl rfl⟩
  | honor c hon s =>
    refine ⟨?_, .inl (by rw [s.res])⟩
    rw [s.res]
    show _ + ite _ _ _ ≤ _ ∨ ((_ + ite _ _ _ : Rat) : ETime) ≤ _
    split
    · rename_i hh
      obtain ⟨q, hq⟩ := lookup_isSome.2 (s.sub r hh)
      have hq' : v.wants c r = some q := hq
      have hf := s.fits r q hh hq'
      rw [hq']
      show _ + q ≤ _ ∨ ((_ + q : Rat) : ETime) ≤ _
      by_cases h1 : 0 < q
      · exact .inr (hf.1 h1)
      · left; linarith
    · left; linarith
  | release c r' cl a hm s =>
    by_cases hx : r = r'
    · subst hx
      refine ⟨.inl ?_, .inl (by rw [s.res])⟩
      have ha : (v.res r).anonymous = false := by
        by_contra hh
        have := (h.cq c r).2 (lookup_isSome.1 ⟨cl, s.has⟩)
        unfold clmQ at this
        rw [h.anon r (by simpa using hh)] at this
        cases this
      have hq : 0 ≤ amount a cl := by
        have hcl : 0 ≤ cl := by
          have := h.nneg c r
          unfold RView.claim at this
          rw [s.has] at this; exact this
        cases a with
        | none => exact hcl
        | some x => exact le_min (hrel x (hm x rfl)) hcl
      rw [s.res]
      show ite _ _ _ ≤ _
      split
      · exact le_max_right _ _
      · linarith
    · rw [s.ores r hx]; exact ⟨.inl h0, .inl rfl⟩
  | anon r' a hm ha hv =>
    subst hv
    show ((ite _ _ _ : Res).claimed ≤ _ ∨ ((ite _ _ _ : Res).claimed : ETime) ≤ _) ∧ ((ite _ _ _ : Res).cap = _ ∨ _)
    by_cases hx : r = r'
    · subst hx
      simp only [if_true]
      refine ⟨.inl ?_, by left; trivial⟩
      split
      · exact le_max_right _ _
      · rename_i hh
        cases a with
        | none => exact absurd (by simpa using eps_pos) hh
        | some x =>
          have := hanon v x hm
          show _ - x ≤ _
          linarith
    · simp only [hx, if_false]; exact ⟨.inl h0, by left; trivial⟩
  | cap r' k hm hv =>
    subst hv
    show ((ite _ _ _ : Res).claimed ≤ _ ∨ _) ∧ ((ite _ _ _ : Res).cap = _ ∨ ∃ k', _ ∧ (ite _ _ _ : Res).cap = _ ∧ (ite _ _ _ : Res).claimed = _)
    by_cases hx : r = r'
    · subst hx
      simp only [if_true]
      exact ⟨.inl h0, .inr ⟨k, hm, rfl, trivial⟩⟩
    · simp only [hx, if_false]; exact ⟨.inl h0, by left; trivial⟩

theorem within_step {r : RId} {v v' : RView} (h : v.Coh) (s : Step (fairLic r) v v') (hI : Within r v) : Within r v' := by
  have h1 := claimed_step (L := fairLic r) (r := r) (fun q hq => hq rfl) (fun v q hq => hq rfl q rfl) h s hI.sum
  have hmax : ((max (v.res r).claimed 0 : Rat) : ETime) ≤ (v.res r).cap + (eps : ETime) := by
    rcases max_choice (v.res r).claimed 0 with e | e <;> rw [e]
    · exact hI.cap
    · exact hI.zero
  have h2 : ((v'.res r).claimed : ETime) ≤ (v.res r).cap + (eps : ETime) := h1.1.elim (fun h => le_cap_of_le hmax h) id
  refine ⟨sum_le_step h s r hI.sum, low_step h s r hI.sum hI.low, ?_, ?_⟩
  · rcases h1.2 with e | ⟨k, hk, e, _⟩
    · rw [e]; exact hI.zero
    · rw [e]
      have hk' : (((v.res r).claimed : Rat) : ETime) ≤ k := hk rfl
      refine le_trans ?_ (add_eps_le hk')
      rw [← WithTop.coe_add]
      exact WithTop.coe_le_coe.2 (by have := hI.low; linarith)
  · rcases h1.2 with e | ⟨k, hk, e, e2⟩
    · rw [e]; exact h2
    · rw [e, e2]
      have hk' : (((v.res r).claimed : Rat) : ETime) ≤ k := hk rfl
      refine le_trans ?_ (add_eps_le hk')
      rw [← WithTop.coe_add]
      exact WithTop.coe_le_coe.2 (by have := eps_pos; linarith)

theorem Fresh.within {w : World} (h : Fresh w) (r : RId) : Within r w.rv := by
  obtain ⟨_, _, h1, h2, h3⟩ := h.res r
  have he := eps_pos
  have h4 : ((w.rv.res r).claimed : ETime) ≤ (w.rv.res r).cap + (eps : ETime) :=
    le_trans (WithTop.coe_le_coe.2 (by linarith : (w.res r).claimed ≤ (w.res r).claimed + eps)) (add_eps_le h2)
  refine ⟨fun _ => ?_, ?_, le_cap_of_le h4 h1, h4⟩
  · rw [h.total]; exact h1
  · have : 0 ≤ (w.rv.res r).claimed := h1
    linarith

theorem Reach.within {w : World} {r : RId} (h : Reach (FairOps r) w) : Within r w.rv :=
  Reach.induct (L := fairLic r) (I := Within r) (fun _ _ _ => fairLic_ok) (fun _ hf => hf.within r) (fun _ _ hv hI s => within_step hv s hI) h

/-- C27: as long as the capacity isn't set to less than what is claimed, the claimed quantity doesn't exceed the capacity by more than 1e-8 -/
theorem C27_capacity {w : World} {r : RId} (h : Reach (FairOps r) w) : ((w.res r).claimed : ETime) ≤ (w.res r).cap + (eps : ETime) := h.within.cap

theorem Reach.mono {ok ok' : Nat → World → Op → Prop} (hok : ∀ fuel w o, ok fuel w o → ok' fuel w o) {w : World} (h : Reach ok w) : Reach ok' w := by
  induction h with
  | init hf => exact .init hf
  | op fuel o _ ho ih => exact .op fuel o ih (hok _ _ _ ho)

/-- the capacity as well is a multiple of `u` -/
def MultCap (u : Rat) (k : ETime) : Prop := k = ⊤ ∨ ∃ x, Mult u x ∧ k = (x : ETime)

/-- C27: and not at all if quantities and capacity are multiples of a unit that is more than 1e-8 -/
theorem C27_capacity_exact {w : World} {r : RId} {u : Rat} (hu : eps < u)
    (h : Reach (fun fuel w o => FairOps r fuel w o ∧ UnitOps r u fuel w o) w) (ha : (w.res r).anonymous = false)
    (hk : MultCap u (w.res r).cap) : ((w.res r).claimed : ETime) ≤ (w.res r).cap := by
  have h1 := C27_capacity (h.mono fun _ _ _ ho => ho.1)
  have h2 := (C27_sum hu.le (h.mono fun _ _ _ ho => ho.2) ha).2.1
  rcases hk with hk | ⟨x, hx, hk⟩
  · rw [hk]; exact le_top
  · rw [hk] at h1 ⊢
    rw [← WithTop.coe_add] at h1
    have h3 := WithTop.coe_le_coe.1 h1
    refine WithTop.coe_le_coe.2 ?_
    by_contra hh
    push Not at hh
    have := (h2.sub hx).small (by linarith) (by linarith)
    linarith

/-- no negative quantity is released, and it is not a call of `set_capacity` -/
def KeepOps (r : RId) (o : Op) : Prop :=
  match o with
  | .release _ args => ∀ a ∈ args, a.1 = r → ∀ x, a.2 = some x → 0 ≤ x
  | .resRelease s q => s = r → ∀ x, q = some x → 0 ≤ x
  | .resSetCapacity s _ => s ≠ r
  | _ => True

/-- C27: also when the capacity has been lowered below what is claimed, nothing more is claimed unless it fits -/
theorem C27_overload {w : World} {r : RId} (h : Reach Any w) (fuel : Nat) (o : Op) (ho : KeepOps r o) :
    ((exec fuel o w).world.res r).cap = (w.res r).cap ∧
    (((exec fuel o w).world.res r).claimed ≤ max (w.res r).claimed 0 ∨
      ((((exec fuel o w).world.res r).claimed : Rat) : ETime) ≤ (w.res r).cap + (eps : ETime)) := by
  let L : Lic := ⟨fun _ => True, fun _ _ _ => True, fun s q => s = r → 0 ≤ q, fun _ s q => s = r → ∀ x, q = some x → 0 ≤ x, fun _ s _ => s ≠ r⟩
  have hL : L.ok w o := by
    cases o with
    | request c args oneof put fa fd p ur k => exact ⟨trivial, fun _ _ => trivial⟩
    | release c args => exact fun a ha x hx hr => ho a ha hr x hx
    | resRelease s q => exact ho
    | resSetCapacity s k => exact ho
    | _ => trivial
  have hs := (exec_refines (L := L) h.coh fuel o hL).2
  have h0 : (w.rv.res r).anonymous = false → w.rv.total r ≤ (w.rv.res r).claimed := fun ha => (C27_at_least h r ha).1
  have key : ∀ v, Relation.ReflTransGen (Step L) w.rv v → v.Coh ∧ ((v.res r).anonymous = false → v.total r ≤ (v.res r).claimed) ∧
      (v.res r).cap = (w.rv.res r).cap ∧ ((v.res r).claimed ≤ max (w.rv.res r).claimed 0 ∨
        ((v.res r).claimed : ETime) ≤ (w.rv.res r).cap + (eps : ETime)) := by
    intro v hv
    induction hv with
    | refl => exact ⟨h.coh, h0, rfl, .inl (le_max_left _ _)⟩
    | tail _ s ih =>
      obtain ⟨i1, i2, i3, i4⟩ := ih
      have k := claimed_step (L := L) (r := r) (fun q hq => hq rfl) (fun v q hq => hq rfl q rfl) i1 s i2
      refine ⟨i1.step s, sum_le_step i1 s r i2, ?_, ?_⟩
      · rcases k.2 with e | ⟨_, hk, _⟩
        · rw [e, i3]
        · exact absurd rfl hk
      · rw [i3] at k
        rcases k.1 with e | e
        · rcases le_max_iff.1 e with e | e
          · rcases i4 with f | f
            · exact .inl (e.trans f)
            · exact .inr (le_cap_of_le f e)
          · exact .inl (e.trans (le_max_right _ _))
        · exact .inr e
  exact (key _ hs).2.2

/-! examples: resource 1 with capacity 5 (resource 2: anonymous, capacity 10), components 1, 2, 3 -/

/-- an environment with two resources -/
def shop : World := { World.init with
  res := fun r => if r = 1 then { cap := (5 : Rat) } else if r = 2 then { cap := (10 : Rat), anonymous := true, claimed := 4 } else {} }

theorem fresh_shop : Fresh shop := by
  refine ⟨rfl, rfl, rfl, rfl, fresh_init.comps, fun _ => ⟨⊤, rfl⟩, fun _ _ => rfl, fun r => ?_, fun r => ?_, fun _ => rfl⟩
  rotate_left
  · simp only [shop]
    repeat' split
    all_goals rfl
  by_cases h1 : r = 1
  · subst h1; exact ⟨rfl, rfl, le_refl _, WithTop.coe_le_coe.2 (by decide +kernel), fun _ => rfl⟩
  by_cases h2 : r = 2
  · subst h2; exact ⟨rfl, rfl, by decide +kernel, WithTop.coe_le_coe.2 (by decide +kernel), fun h => by cases h⟩
  · simp only [shop, h1, h2, if_false]
    exact ⟨trivial, trivial, le_refl _, WithTop.coe_le_coe.2 (by decide +kernel), fun _ => trivial⟩

/-- the calls of the process of component `c`: request `q` from `r` -/
def ask (c : CId) (r : RId) (q : Rat) : Op := .request c [⟨r, q, 0⟩] false false none none (0 : Rat) false false
/-- the calls of the process of component `c`: put `q` in `r` -/
def put (c : CId) (r : RId) (q : Rat) : Op := .request c [⟨r, q, 0⟩] false true none none (0 : Rat) false false
/-- component `c` is made and becomes current -/
def born (c : CId) : List Op := [.create c none (0 : Rat) (0 : Rat) false false false, .step]

/-- component 1 claims 3, component 2 claims 2, component 3 has to wait for 2 until component 1 releases 2 -/
def shopOps : List Op := born 1 ++ [ask 1 1 3] ++ born 2 ++ [ask 2 1 2] ++ born 3 ++ [ask 3 1 2, .release 1 [(1, some 2)]]

theorem reach_all {ok : Nat → World → Op → Prop} (fuel : Nat) (ops : List Op) (hops : ∀ o ∈ ops, ∀ w, ok fuel w o) {w : World} (h : Reach ok w) :
    Reach ok (execAll fuel ops w) := by
  induction ops generalizing w with
  | nil => exact h
  | cons o os ih => exact ih (fun o ho => hops o (List.mem_cons_of_mem _ ho)) (.op fuel o h (hops o List.mem_cons_self w))

theorem shopOps_ok : Reach (fun fuel w o => FairOps 1 fuel w o ∧ UnitOps 1 1 fuel w o) (execAll 20 shopOps shop) := by
  refine reach_all 20 _ (fun o ho w => ?_) (.init fresh_shop)
  have hm : ∀ n : Int, Mult 1 (n : Rat) := fun n => ⟨n, by simp⟩
  simp only [shopOps, born, ask, List.cons_append, List.nil_append, List.mem_cons, List.not_mem_nil, or_false] at ho
  rcases ho with rfl | rfl | rfl | rfl | rfl | rfl | rfl | rfl | rfl | rfl <;>
    simp only [FairOps, UnitOps, List.mem_singleton, forall_eq, true_and, and_true, implies_true, forall_const, Option.some.injEq, forall_eq']
  · exact hm 3
  · exact hm 2
  · exact hm 2
  · exact ⟨by norm_num, hm 2⟩

example : ((execAll 20 shopOps shop).res 1).claimed = 5 ∧ (execAll 20 shopOps shop).inQ (.claimers 1) = [1, 2, 3] ∧
    (execAll 20 shopOps shop).inQ (.requesters 1) = [] ∧ ((execAll 20 shopOps shop).res 1).cap = ((5 : Rat) : ETime) ∧
    ((execAll 20 shopOps shop).res 1).claimed = claimSum (execAll 20 shopOps shop) 1 :=
  ⟨by decide +kernel, by decide +kernel, by decide +kernel, by decide +kernel,
    (C27_sum (by decide +kernel) (shopOps_ok.mono fun _ _ _ h => h.2) (by decide +kernel)).1⟩

/-- without the restriction to multiples of a unit the claimed quantity may be more than the sum of the claims: a component that
releases all but 5e-9 doesn't claim any longer, but the 5e-9 stays claimed -/
theorem C27_sum_counterexample : ∃ w, Reach (FairOps 1) w ∧ (w.res 1).anonymous = false ∧ claimSum w 1 < (w.res 1).claimed := by
  refine ⟨execAll 20 (born 1 ++ [ask 1 1 1] ++ born 2 ++ [ask 2 1 1, .release 1 [(1, some (1 - 1 / 200000000))]]) shop,
    reach_all 20 _ (fun o ho w => ?_) (.init fresh_shop), by decide +kernel, by decide +kernel⟩
  simp only [born, ask, List.cons_append, List.nil_append, List.mem_cons, List.not_mem_nil, or_false] at ho
  rcases ho with rfl | rfl | rfl | rfl | rfl | rfl | rfl <;>
    simp only [FairOps, List.mem_singleton, forall_eq, Option.some.injEq, forall_eq', true_implies]
  norm_num

/-- a negative quantity to be released isn't refused: the capacity may be exceeded by far -/
theorem C27_capacity_counterexample : ∃ w o w', Reach (FairOps 1) w ∧ o = Op.release 1 [(1, some (-100))] ∧ exec 20 o w = .ok w' ∧
    (w'.res 1).cap = ((5 : Rat) : ETime) ∧ (w'.res 1).claimed = 101 := by
  refine ⟨execAll 20 (born 1 ++ [ask 1 1 1]) shop, _, (exec 20 (.release 1 [(1, some (-100))]) (execAll 20 (born 1 ++ [ask 1 1 1]) shop)).world,
    reach_all 20 _ (fun o ho w => ?_) (.init fresh_shop), rfl, ?_, by decide +kernel, by decide +kernel⟩
  · simp only [born, ask, List.cons_append, List.nil_append, List.mem_cons, List.not_mem_nil, or_false] at ho
    rcases ho with rfl | rfl | rfl <;> simp only [FairOps]
  · have : (exec 20 (.release 1 [(1, some (-100))]) (execAll 20 (born 1 ++ [ask 1 1 1]) shop)).isOk = true := by decide +kernel
    cases h : exec 20 (.release 1 [(1, some (-100))]) (execAll 20 (born 1 ++ [ask 1 1 1]) shop) with
    | ok w => rfl
    | err e w => rw [h] at this; cases this

/-- the hypotheses of `C27_overload`: the capacity has been lowered to 2 while 5 is claimed; then 1 is released, 4 is claimed, and the
waiting component still has to wait -/
example : ((execAll 20 (shopOps ++ [.resSetCapacity 1 (2 : Rat), ask 1 1 1]) shop).res 1).claimed = 5 ∧
    ((exec 20 (.release 2 [(1, some 1)]) (execAll 20 (shopOps ++ [.resSetCapacity 1 (2 : Rat), ask 1 1 1]) shop)).world.res 1).claimed = 4 ∧
    KeepOps 1 (.release 2 [(1, some 1)]) := by
  refine ⟨by decide +kernel, by decide +kernel, ?_⟩
  simp only [KeepOps, List.mem_singleton, forall_eq, Option.some.injEq, forall_eq', true_implies]
  norm_num

/-! ## C28 -/

/-- C28: the claimed quantity of an anonymous resource is between 0 and the capacity, up to 1e-8, whatever the history as long as the
capacity isn't set to less than what is claimed -/
theorem C28_bounds {w : World} {r : RId} (h : Reach (FairOps r) w) :
    -eps ≤ (w.res r).claimed ∧ ((w.res r).claimed : ETime) ≤ (w.res r).cap + (eps : ETime) := ⟨h.within.low, h.within.cap⟩

/-- and never below -1e-8, whatever the history -/
theorem C28_not_negative {w : World} (h : Reach Any w) (r : RId) : -eps ≤ (w.res r).claimed := by
  have : ((w.rv.res r).anonymous = false → w.rv.total r ≤ (w.rv.res r).claimed) ∧ -eps ≤ (w.rv.res r).claimed :=
    Reach.induct (L := anyLic) (I := fun v => ((v.res r).anonymous = false → v.total r ≤ (v.res r).claimed) ∧ -eps ≤ (v.res r).claimed)
      (fun _ _ _ _ => anyLic_ok _ _) (fun w hf => ⟨(hf.within r).sum, (hf.within r).low⟩)
      (fun v v' hv hI s => ⟨sum_le_step hv s r hI.1, low_step hv s r hI.1 hI.2⟩) h
  exact this.2

/-- what happens in a call, as far as resource `r` is concerned: `g` are the requests for `r` that are granted (component and
quantity, negative for put) in order -/
inductive Granted (r : RId) : RView → List (CId × Rat) → RView → Prop
  | start (v) : Granted r v [] v
  /-- a request for `r` is granted: now, the component wants `q` of it -/
  | grant {v g v1 v2} (c hon q) : Granted r v g v1 → Honor c hon v1 v2 → r ∈ hon → v1.wants c r = some q → Granted r v (g ++ [(c, q)]) v2
  /-- a request for other resources is granted -/
  | honor {v g v1 v2} (c hon) : Granted r v g v1 → Honor c hon v1 v2 → r ∉ hon → Granted r v g v2
  | ask {v g v1 v2} (c s q prio) : Granted r v g v1 → Ask c s q prio v1 v2 → Granted r v g v2
  | fail {v g v1 v2} (c) : Granted r v g v1 → Fail c v1 v2 → Granted r v g v2
  /-- another resource is released -/
  | release {v g v1 v2} (c s cl q) : Granted r v g v1 → s ≠ r → Release c s cl q v1 v2 → Granted r v g v2
  /-- something else that doesn't concern claims -/
  | other {v g v1 v2} : Granted r v g v1 → (∀ d, (v2.comps d).claims = (v1.comps d).claims ∧ (v2.comps d).requests = (v1.comps d).requests) →
      (v2.res r).claimed = (v1.res r).claimed → Granted r v g v2

/-- C28: in a call other than `r.release()`, the claimed quantity of the anonymous resource changes by exactly the quantities of the
requests that are granted -/
theorem C28_amounts {w : World} {r : RId} (h : Reach Any w) (ha : (w.res r).anonymous = true) (fuel : Nat) (o : Op)
    (ho : ∀ q, o ≠ .resRelease r q) :
    ∃ g, Granted r w.rv g (exec fuel o w).world.rv ∧
      ((exec fuel o w).world.res r).claimed = (w.res r).claimed + (g.map Prod.snd).sum := by
  let L : Lic := ⟨fun _ => True, fun _ _ _ => True, fun _ _ => True, fun _ s _ => s ≠ r, fun _ _ _ => True⟩
  have hL : L.ok w o := by
    cases o with
    | request c args oneof put fa fd p ur k => exact ⟨trivial, fun _ _ => trivial⟩
    | release c args => exact fun _ _ _ _ => trivial
    | resRelease s q => intro e; exact ho q (by rw [e])
    | _ => trivial
  have hs := (exec_refines (L := L) h.coh fuel o hL).2
  have key : ∀ v, Relation.ReflTransGen (Step L) w.rv v → v.Coh ∧ (v.res r).anonymous = true ∧
      ∃ g, Granted r w.rv g v ∧ (v.res r).claimed = (w.rv.res r).claimed + (g.map Prod.snd).sum := by
    intro v hv
    induction hv with
    | refl => exact ⟨h.coh, ha, [], .start _, by simp⟩
    | @tail v1 v2 _ s ih =>
      obtain ⟨i1, i2, g, i3, i4⟩ := ih
      refine ⟨i1.step s, by rw [step_anonymous s r]; exact i2, ?_⟩
      cases s with
      | oneof c b _ hv =>
        subst hv
        refine ⟨g, .other i3 (fun d => ?_) rfl, i4⟩
        simp only; split <;> exact ⟨rfl, rfl⟩
      | ask c r' q prio _ _ s => exact ⟨g, .ask _ _ _ _ i3 s, by rw [s.res]; exact i4⟩
      | fail c s => exact ⟨g, .fail _ i3 s, by rw [s.res]; exact i4⟩
      | honor c hon s =>
        by_cases hh : r ∈ hon
        · obtain ⟨q, hq⟩ := lookup_isSome.2 (s.sub r hh)
          have hq' : v1.wants c r = some q := hq
          refine ⟨g ++ [(c, q)], .grant _ _ _ i3 s hh hq', ?_⟩
          rw [s.res]
          show _ + ite _ _ _ = _
          rw [if_pos hh, hq', i4, List.map_append, List.sum_append]
          show _ + q = _ + (_ + (q + 0))
          ring
        · refine ⟨g, .honor _ _ i3 s hh, ?_⟩
          rw [s.res]
          show _ + ite _ _ _ = _
          rw [if_neg hh, i4]; ring
      | release c r' cl a hm s =>
        by_cases hx : r' = r
        · subst hx
          have := (i1.cq c r').2 (lookup_isSome.1 ⟨cl, s.has⟩)
          unfold clmQ at this
          rw [i1.anon r' i2] at this
          cases this
        · exact ⟨g, .release _ _ _ _ i3 hx s, by rw [s.ores r (Ne.symm hx)]; exact i4⟩
      | anon r' a hm ha' hv =>
        subst hv
        have e : ((fun s => if s = r' then { v1.res r' with claimed := (if (v1.res r').claimed - a.getD (v1.res r').claimed < eps then 0
            else (v1.res r').claimed - a.getD (v1.res r').claimed) } else v1.res s : RId → Res) r).claimed = (v1.res r).claimed := by
          have : r ≠ r' := fun e => hm e.symm
          simp only [this, if_false]
        exact ⟨g, .other i3 (fun d => ⟨rfl, rfl⟩) e, e.trans i4⟩
      | cap r' k hm hv =>
        subst hv
        have e : ((fun s => if s = r' then { v1.res s with cap := k } else v1.res s : RId → Res) r).claimed = (v1.res r).claimed := by
          simp only; split <;> rfl
        exact ⟨g, .other i3 (fun d => ⟨rfl, rfl⟩) e, e.trans i4⟩
  exact (key _ hs).2.2

/-- C28: a get or put is only granted when the claimed quantity afterwards is within the capacity and 0, respectively, up to 1e-8 -/
theorem C28_granted {v v' : RView} {c : CId} {r : RId} {hon : List RId} {q : Rat} (h : Honor c hon v v') (hr : r ∈ hon)
    (hq : v.wants c r = some q) :
    (v'.res r).claimed = (v.res r).claimed + q ∧ (0 < q → ((v'.res r).claimed : ETime) ≤ (v'.res r).cap + (eps : ETime)) ∧
    (q ≤ 0 → -eps ≤ (v'.res r).claimed) := by
  have e : (v'.res r).claimed = (v.res r).claimed + q := by
    rw [h.res]; show _ + ite _ _ _ = _; rw [if_pos hr, hq]; rfl
  have f := h.fits r q hr hq
  refine ⟨e, fun h0 => ?_, fun h0 => ?_⟩
  · rw [e, h.res]; exact f.1 h0
  · rw [e]; have := f.2 h0; linarith

/-- an example: component 1 gets 5 of the anonymous resource, 2 has to wait for 3, 3 can't put 10, 2 is served when 1 puts 6 back -/
example : ((execAll 20 (born 1 ++ [ask 1 2 5]) shop).res 2).claimed = 9 ∧
    ((execAll 20 (born 1 ++ [ask 1 2 5] ++ born 2 ++ [ask 2 2 3] ++ born 3 ++ [put 3 2 10]) shop).res 2).claimed = 9 ∧
    (execAll 20 (born 1 ++ [ask 1 2 5] ++ born 2 ++ [ask 2 2 3] ++ born 3 ++ [put 3 2 10]) shop).inQ (.requesters 2) = [2, 3] ∧
    ((execAll 20 (born 1 ++ [ask 1 2 5] ++ born 2 ++ [ask 2 2 3] ++ born 3 ++ [put 3 2 10, put 1 2 6]) shop).res 2).claimed = 6 ∧
    (execAll 20 (born 1 ++ [ask 1 2 5] ++ born 2 ++ [ask 2 2 3] ++ born 3 ++ [put 3 2 10, put 1 2 6]) shop).inQ (.requesters 2) = [3] :=
  ⟨by decide +kernel, by decide +kernel, by decide +kernel, by decide +kernel, by decide +kernel⟩

end Verif
