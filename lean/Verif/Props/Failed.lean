import Verif.Fate
import Verif.Props.GiveUp
import Verif.Props.Status
import Verif.Props.Requests

/-!
# C71: what failed() says

`failed()` becomes False by a request, a wait, a from_store or a to_store of the component, becomes True when the component gives up
what it waits for, and nothing else changes it: it tells how the last of these ended.
-/

namespace Verif
open World

/-! ## specification -/

/-- the call is a request, get, put, wait, wait_for, from_store or to_store of `d` -/
def Op.seeks : Op → CId → Prop
  | .request c .., d | .wait c .., d | .waitFor c .., d | .fromStore c .., d | .toStore c .., d => d = c
  | _, _ => False

/-- the call is a request of another component, of a preemptive resource that `d` claims -/
def Op.mayBump (w : World) : Op → CId → Prop
  | .request c args .., d => d ≠ c ∧ bumpable w args d
  | _, _ => False

/-! ## its own call -/

theorem asked_request {w w' : World} {fuel c args o pu fa fd p u k} (hr : ReqOK w c args) (h : request fuel c args o pu fa fd p u k w = .ok w') :
    (w'.comps c).failed = false := by
  unfold request at h
  have sc := sc_preamble c (w.modC c (fun x => { x with oneof := o }))
  obtain ⟨w1, h1, h2⟩ := andThen_ok h
  rw [h1] at sc
  split at h2
  · cases h2
  · rename_i t _
    have hf : Fate (fun r => ∃ a ∈ args, a.r = r) False c { w1.comps c with failed := false } (w1.modC c (fun x => { x with failed := false })) := by
      refine ⟨by rw [modC_self], fun k => k.elim, fun k => k.elim, fun k => k.elim, fun r hB hp hm => ?_⟩
      obtain ⟨a, ha, rfl⟩ := hB
      have h3 := hr.2 a ha ((sc.1 a.r).symm.trans hp)
      have h4 : c ∈ w.inQ (.claimers a.r) := by
        have h5 : c ∈ w1.inQ (.claimers a.r) := hm
        rw [World.inQ, show w1.queues (.claimers a.r) = w.queues (.claimers a.r) from sc.2 a.r] at h5
        exact h5
      rw [← has_inQ, h3] at h4
      cases h4
    have := ft_requestEnd (c := c) (d := c) (.inr not_false) args hf fuel pu t p u k
    rw [show _ = R.ok w' from h2] at this
    exact this.failed
theorem fate_start (w : World) (c : CId) (f : Comp → Comp) : Fate (fun _ => False) False c (f (w.comps c)) (w.modC c f) :=
  ⟨by rw [modC_self], fun k => k.elim, fun k => k.elim, fun k => k.elim, fun _ k => k.elim⟩
theorem asked_wait {w w' : World} {c args a fa fd p u k} (h : wait c args a fa fd p u k w = .ok w') : (w'.comps c).failed = false := by
  unfold wait at h
  obtain ⟨w1, h1, h2⟩ := andThen_ok h
  simp only at h2
  split at h2
  · cases h2
  · rename_i t _
    have := (Pr.forR (fun a w h => ft_waitArg h (c := c) (.inr not_false) a) args _ (fate_start w1 c (fun x => { x with waitAll := a, failed := false }))).andThen
      (f := waitEnd c t p u k) fun w h => ft_waitEnd h (.inr not_false) _ p u k
    rw [h2] at this
    exact this.failed
theorem asked_waitFor {w w' : World} {c f ss fa fd p u k} (h : waitFor c f ss fa fd p u k w = .ok w') : (w'.comps c).failed = false := by
  unfold waitFor at h
  obtain ⟨w1, h1, h2⟩ := andThen_ok h
  simp only at h2
  split at h2
  · cases h2
  · rename_i t _
    have := (ft_waitForLoop (Fate.modC (c := c) (f := fun x => { x with cond := some f }) (fate_start w1 c (fun x => { x with failed := false })) (.inr not_false)) (c := c) (.inr not_false) ss p).andThen
      (f := waitEnd c t p u k) fun w h => ft_waitEnd h (.inr not_false) _ p u k
    rw [h2] at this
    exact this.failed
theorem asked_fromStore {w w' : World} {fuel c ss f k rp fa fd p u cp} (h : fromStore fuel c ss f k rp fa fd p u cp w = .ok w') : (w'.comps c).failed = false := by
  unfold fromStore at h
  split at h
  · cases h
  · obtain ⟨w1, h1, h2⟩ := andThen_ok h
    split at h2
    · cases h2
    · rename_i t _
      have : Pr (Fate (fun _ => False) False c { w1.comps c with failed := false }) (R.ok w') := by
        rw [← h2]; exact ft_fromStoreEnd (c := c) (fate_start w1 c (fun x => { x with failed := false })) (.inr not_false) fuel ss f k rp p u cp t
      exact this.failed
theorem asked_toStore {w w' : World} {fuel c ss i rp sp fa fd p u cp} (h : toStore fuel c ss i rp sp fa fd p u cp w = .ok w') : (w'.comps c).failed = false := by
  unfold toStore at h
  split at h
  · cases h
  · obtain ⟨w1, h1, h2⟩ := andThen_ok h
    split at h2
    · cases h2
    · rename_i t _
      have : Pr (Fate (fun _ => False) False c { w1.comps c with failed := false }) (R.ok w') := by
        rw [← h2]; exact ft_toStoreEnd (c := c) (fate_start w1 c (fun x => { x with failed := false })) (.inr not_false) fuel ss i rp sp p u cp t
      exact this.failed

/-- C71: a request, get, put, wait, wait_for, from_store or to_store makes `failed()` of the component False, whether it is honoured at once
or the component has to wait. All states; the hypothesis about requests excludes the empty request and a component that bumps itself. -/
theorem C71_asked {w w' : World} {fuel : Nat} {o : Op} {c : CId} (ho : o.seeks c) (hk : OpOK w o) (h : exec fuel o w = .ok w') :
    (w'.comps c).failed = false := by
  cases o <;> simp only [Op.seeks] at ho <;> simp only [exec] at h
  case request => subst ho; exact asked_request hk h
  case wait => subst ho; exact asked_wait h
  case waitFor => subst ho; exact asked_waitFor h
  case fromStore => subst ho; exact asked_fromStore h
  case toStore => subst ho; exact asked_toStore h

/-! ## bumped -/

/-- `failed()` of `d` is as it was, or `d` was waiting and it is True now -/
def FailOr (d : CId) (x0 : Comp) (w : World) : Prop :=
  ((w.comps d).failed = x0.failed ∨ (¬ Nothing x0 ∧ (w.comps d).failed = true)) ∧ (Nothing x0 → Nothing (w.comps d))

theorem preempt_fail {c d : CId} {x0 : Comp} {w w' : World} {r q prio} (hg : Good {c} w) (hc : c ∉ w.inQ (.claimers r))
    (h : preempt r q prio w = .ok w') (hf : FailOr d x0 w) : FailOr d x0 w' := by
  unfold preempt at h
  simp only at h
  split at h
  · have key : ∀ (l : List CId) (w w' : World), (∀ x ∈ l, x ≠ c) → Good {c} w → FailOr d x0 w →
        forR l (fun d w => releaseCore d r none w ⊳ activate d none ((0:Rat):ETime) ((0:Rat):ETime) false false false false false) w = .ok w' → FailOr d x0 w' := by
      intro l
      induction l with
      | nil => intro w w' _ _ hf h; cases h; exact hf
      | cons x t ih =>
        intro w w' hl hg hf h
        unfold forR at h
        obtain ⟨w1, h1, h2⟩ := andThen_ok h
        obtain ⟨w0, h0, h1⟩ := andThen_ok h1
        obtain ⟨g0, k0⟩ := releaseCore_good hg h0
        obtain ⟨g1, m1, o1, _⟩ := activate_good g0 h1
        refine ih w1 w' (fun y hy => hl y (by simp [hy])) g1 ?_ h2
        have f0 : FailOr d x0 w0 := by
          by_cases e : d = x
          · subst e
            obtain ⟨l, hl⟩ := k0.self
            unfold FailOr
            rw [hl]
            exact ⟨hf.1, fun k => ⟨(hf.2 k).1, (hf.2 k).2, (hf.2 k).3, (hf.2 k).4⟩⟩
          · unfold FailOr
            rw [k0.other d e]; exact hf
        by_cases e : d = x
        · subst e
          have b := activate_begins g0 h1 (.inr (.inr ⟨rfl, rfl⟩)) (by simpa using hl d (by simp))
          refine ⟨?_, fun _ => b.nowait.nothing⟩
          by_cases hn : Nothing (w0.comps d)
          · rw [b.unchanged hn]; exact f0.1
          · exact .inr ⟨fun k => hn (f0.2 k), b.failed hn⟩
        · unfold FailOr
          rw [o1 d e]; exact f0
    exact key _ _ _ (fun x hx hxc => by
      obtain ⟨m, hm, hmc⟩ := bump_mem hx
      exact hc (hxc ▸ List.mem_map.2 ⟨m, by simpa using hm, hmc⟩)) hg hf h
  · cases h; exact hf

theorem request_fail {w w' : World} {d : CId} {fuel c args o pu fa fd p u k} (hg : Good ∅ w) (hr : ReqOK w c args) (hm : c ≠ w.main) (hd : d ≠ c)
    (h : request fuel c args o pu fa fd p u k w = .ok w') : (w'.comps d).failed = (w.comps d).failed ∨ (¬ Nothing (w.comps d) ∧ (w'.comps d).failed = true) := by
  unfold request at h
  have g0 : Good ∅ (w.modC c (fun x => { x with oneof := o })) :=
    hg.modC' (fun _ => rfl) (fun _ => rfl) (fun _ => rfl) (fun _ => rfl) (fun _ => rfl)
  have sc := sc_preamble c (w.modC c (fun x => { x with oneof := o }))
  obtain ⟨w1, h1, h2⟩ := andThen_ok h
  obtain ⟨s1, _⟩ := start_preamble g0 (by simp) h1
  rw [h1] at sc
  split at h2
  · cases h2
  · rename_i t _
    have hne : args.isEmpty = false := by
      cases args with
      | nil => exact absurd rfl hr.1
      | cons a t => rfl
    simp only [hne, Bool.false_eq_true, if_false] at h2
    obtain ⟨w3, h3, h4⟩ := andThen_ok h2
    have g2 : Good {c} (w1.modC c (fun x => { x with failed := false })) := by
      have := s1.good.modC' (c := c) (f := fun x => { x with failed := false }) (fun _ => rfl) (fun _ => rfl) (fun _ => rfl) (fun _ => rfl) (fun _ => rfl)
      simpa using this
    have o2 : ((w1.modC c (fun x => { x with failed := false })).comps c).onList = false := by rw [modC_self]; exact s1.off
    have m2 : (w1.modC c (fun x => { x with failed := false })).main = w.main := s1.main
    have e2 : (w1.modC c (fun x => { x with failed := false })).comps d = w.comps d := by
      rw [modC_other hd, s1.other d hd, modC_other hd]
    have sc2 : SameCl w (w1.modC c (fun x => { x with failed := false })) := SameCl.trans (b := w1) sc ⟨fun _ => rfl, fun _ => rfl⟩
    generalize w1.modC c (fun x => { x with failed := false }) = w2 at h3 g2 o2 m2 sc2 e2
    have f3 : FailOr d (w.comps d) w3 := by
      obtain ⟨_, hr⟩ := hr
      have f2 : FailOr d (w.comps d) w2 := by unfold FailOr; rw [e2]; exact ⟨.inl rfl, id⟩
      match args, hr, h3, hne with
      | [a], hr, h3, _ =>
        unfold forR at h3
        obtain ⟨w5, h5, h6⟩ := andThen_ok h3
        cases h6
        unfold requestArg at h5
        simp only at h5
        generalize (if pu = true then -a.q else a.q) = q at h5
        split at h5
        · cases h5
        · split at h5
          · cases h5
          · obtain ⟨w6, h6, h7⟩ := andThen_ok h5
            have g6 : Good {c} w6 := by
              have g0 : Good {c} (w2.modC c (fun x => { x with requests := addTo x.requests a.r q })) := by
                refine g2.grow rfl (by rw [m2]; exact hm) (fun _ => rfl) fun q => awaits_congr (fun r _ h => ?_) (fun _ _ h => h) (fun _ _ h => h) (fun _ _ h => h)
                exact mem_keys_addTo.2 (.inr h)
              obtain ⟨e1, e2, e3, e4⟩ := enterQ_inQ h6
              exact good_enter (q := .requesters a.r) g0 (by rw [modC_self]; exact mem_keys_addTo.2 (.inl rfl)) e1 e2 e3
            have c6 : w6.comps d = w2.comps d ∧ w6.inQ (.claimers a.r) = w2.inQ (.claimers a.r) := by
              obtain ⟨q', _, he⟩ := onQueue_ok h6
              rw [he]
              refine ⟨?_, by rw [inQ_modQ_any, if_neg (by simp)]; rfl⟩
              show (w2.modC c (fun x => { x with requests := addTo x.requests a.r q })).comps d = _
              exact modC_other hd _ _
            have f6 : FailOr d (w.comps d) w6 := by unfold FailOr; rw [c6.1]; exact f2
            split at h7
            · rename_i hp
              refine preempt_fail g6 ?_ h7 f6
              rw [c6.2]
              have h8 := hr a (by simp) (by rw [← sc2.1]; exact hp)
              rw [← sc2.2] at h8
              rw [← has_inQ, h8]; simp
            · cases h7; exact f6
      | a :: b :: t, hr, h3, _ =>
        obtain ⟨_, k2, _⟩ := requestArgs_out (put := pu) (by simp) _ w2 w3 g2 (by rw [m2]; exact hm) o2 h3
        unfold FailOr; rw [k2 d hd]; exact f2
    have hf : Fate (fun _ => False) False d (w3.comps d) w3 := ⟨rfl, fun k => k.elim, fun k => k.elim, fun k => k.elim, fun _ k => k.elim⟩
    have := ((ft_try fuel).1 c _ (Fate.modC (c := c) (f := fun x => { x with remaining := ETime.subQ t (lowerMinq (w3.comps c).requests w3).now }) (ft_lowerMinq (w3.comps c).requests _ hf) (.inr not_false))).andThen (f := fun w =>
      if (w.comps c).requests = [] then .ok w else reschedule c t p u k none (setStatus c .requesting w)) fun w h => by
      split
      · exact h
      · exact ft_reschedule (h.modC (.inr not_false)) (.inr not_false) _ _ _ _ _
    rw [show _ = R.ok w' from h4] at this
    rw [show (w'.comps d).failed = _ from this.failed]
    exact f3.1

/-! ## all calls -/

/-- what the calls that are not about a request, wait, … do to `failed()` of the component `c` they are about -/
structure Told (c : CId) (w w' : World) : Prop where
  lost : ¬ Nothing (w.comps c) → Nothing (w'.comps c) → (w'.comps c).failed = true
  same : Nothing (w.comps c) ∨ ¬ Nothing (w'.comps c) → (w'.comps c).failed = (w.comps c).failed

theorem Begins.told {c : CId} {w w' : World} (h : Begins c w w') : Told c w w' :=
  ⟨fun hn _ => h.failed hn, fun hn => h.unchanged (hn.resolve_right fun k => k h.nowait.nothing)⟩
theorem told_same {c : CId} {w w' : World} (h : (w'.comps c).sameWaits (w.comps c)) : Told c w w' := by
  obtain ⟨_, e2, e3, e4, e5, e6⟩ := h
  refine ⟨fun hn k => absurd ⟨e3 ▸ k.1, e4 ▸ k.2, e5 ▸ k.3, e6 ▸ k.4⟩ hn, fun _ => e2⟩
theorem Told.then {c : CId} {w w1 w' : World} (h : Told c w w1) (hc : (w'.comps c).sameWaits (w1.comps c)) : Told c w w' := by
  obtain ⟨_, e2, e3, e4, e5, e6⟩ := hc
  have hn : Nothing (w'.comps c) ↔ Nothing (w1.comps c) :=
    ⟨fun k => ⟨e3 ▸ k.1, e4 ▸ k.2, e5 ▸ k.3, e6 ▸ k.4⟩, fun k => ⟨e3 ▸ k.1, e4 ▸ k.2, e5 ▸ k.3, e6 ▸ k.4⟩⟩
  exact ⟨fun h1 h2 => e2.trans (h.lost h1 (hn.1 h2)), fun h1 => e2.trans (h.same (h1.imp id fun k => fun j => k (hn.2 j)))⟩
theorem told_resched {c : CId} {w w1 w' : World} {t p : ETime} {u k ret} (h : Told c w w1) (hr : reschedule c t p u k ret w1 = .ok w') : Told c w w' := by
  have := (reschedule_ok hr).1.self
  exact h.then (by rw [this]; exact ⟨rfl, rfl, rfl, rfl, rfl, rfl⟩)
theorem told_modC {c : CId} {w w1 : World} {f : Comp → Comp} (h : Told c w w1) (hf : ∀ x, (f x).sameWaits x) : Told c w (w1.modC c f) :=
  h.then (by rw [modC_self]; exact hf _)
theorem told_released {c : CId} {w w1 w' : World} {fuel} (hg : Good {c} w1) (hn : NoWait (w1.comps c)) (h : Told c w w1) (hr : releaseAll fuel c w1 = .ok w') :
    Told c w w' := by
  obtain ⟨l, hl⟩ := (trRC_releaseAll hg fuel c w' hr).frozen c hn
  have hn' : Nothing (w'.comps c) := (noWait_claims hl hn).nothing
  have ef : (w'.comps c).failed = (w1.comps c).failed := by rw [hl]
  exact ⟨fun h1 _ => ef.trans (h.lost h1 hn.nothing), fun h1 => ef.trans (h.same (.inl (h1.resolve_right fun k => k hn')))⟩

theorem activate_told {c : CId} {a d p u k pr kr kw} {w w' : World} (hg : Good ∅ w) (h : activate c a d p u k pr kr kw w = .ok w') : Told c w w' := by
  by_cases hk : pr = true ∨ w.status c = .data ∨ (kr = false ∧ kw = false)
  · exact (activate_begins hg h hk).told
  · unfold activate at h
    simp only at h
    split at h
    · cases h
    · obtain ⟨w1, h1, h2⟩ := andThen_ok h
      refine told_resched (told_modC (f := fun x => { x with status := .scheduled }) ?_ fun _ => ⟨rfl, rfl, rfl, rfl, rfl, rfl⟩) h2
      split at h1
      · cases h1; exact told_same ⟨rfl, rfl, rfl, rfl, rfl, rfl⟩
      · obtain ⟨w2, h3, h4⟩ := andThen_ok h1
        simp only [not_or, not_and_or, Bool.not_eq_true, Bool.not_eq_false] at hk
        have : (!(pr || decide (w.status c = .data)) && (kr || kw)) = true := by
          obtain ⟨k1, k2, k3⟩ := hk
          rw [k1]
          simp only [k2, decide_false, Bool.or_false, Bool.not_false, Bool.true_and]
          rcases k3 with k3 | k3 <;> simp [k3]
        rw [if_pos this] at h4
        cases h4
        obtain ⟨w3, h5, r⟩ := remove_removed hg.inv c
        rw [h5] at h3; cases h3
        exact told_same (by rw [r.self]; exact ⟨rfl, rfl, rfl, rfl, rfl, rfl⟩)
theorem create_told {c : CId} {a d p u k s} {w w' : World} (h : create c a d p u k s w = .ok w') : Told c w w' := by
  unfold create at h
  split at h
  · cases h
  · exact told_resched (told_modC (f := fun x => { x with status := .scheduled, skipStandby := s, hasProcess := true })
      (told_same (w' := w) ⟨rfl, rfl, rfl, rfl, rfl, rfl⟩) fun _ => ⟨rfl, rfl, rfl, rfl, rfl, rfl⟩) h
theorem setRemaining_told {c : CId} {v p u} {w w' : World} (hg : Good ∅ w) (h : setRemaining c v p u w = .ok w') : Told c w w' := by
  unfold setRemaining at h
  split at h
  · cases h
    exact told_modC (told_same (w' := w) ⟨rfl, rfl, rfl, rfl, rfl, rfl⟩) fun _ => ⟨rfl, rfl, rfl, rfl, rfl, rfl⟩
  · split at h
    · cases h
    · obtain ⟨w2, h3, h4⟩ := andThen_ok h
      obtain ⟨w3, h5, r⟩ := remove_removed hg.inv c
      rw [h5] at h3; cases h3
      exact told_resched (told_same (by rw [r.self]; exact ⟨rfl, rfl, rfl, rfl, rfl, rfl⟩)) h4
theorem cancel_told {c : CId} {fuel} {w w' : World} (hg : Good ∅ w) (h : cancel fuel c w = .ok w') : Told c w w' := by
  unfold cancel at h
  split at h
  · cases h; exact told_same ⟨rfl, rfl, rfl, rfl, rfl, rfl⟩
  · obtain ⟨w2, h2, h3⟩ := andThen_ok h
    obtain ⟨w1, h1, hr⟩ := andThen_ok h2
    clear h2
    cases h3
    refine told_modC ?_ fun _ => ⟨rfl, rfl, rfl, rfl, rfl, rfl⟩
    split at h1
    · rename_i hs
      cases h1
      have s1 := start_idle hg (c := c) (by simp) (.inl hs)
      exact told_released (by simpa using s1.good) s1.nowait (told_same ⟨rfl, rfl, rfl, rfl, rfl, rfl⟩) hr
    · have b := begins_notData hg h1
      obtain ⟨w3, h4, h5⟩ := andThen_ok h1
      obtain ⟨w4, h6, h7⟩ := andThen_ok h4
      obtain ⟨rfl, _⟩ := checkNotData_ok h6
      have s1 := start_removeFail (w' := w1) hg (by rw [h7]; exact h5)
      exact told_released (by simpa using s1.good) b.nowait b.told hr
theorem terminate_told {c : CId} {fuel} {w w' : World} (hg : Good ∅ w) (hs : w.status c = .current) (h : terminate fuel c w = .ok w') : Told c w w' := by
  unfold terminate at h
  obtain ⟨w1, h1, h2⟩ := andThen_ok h
  cases h2
  have s1 := start_idle hg (c := c) (by simp) (.inl hs)
  exact told_modC (told_released (by simpa using s1.good) s1.nowait (told_same ⟨rfl, rfl, rfl, rfl, rfl, rfl⟩) h1) fun _ => ⟨rfl, rfl, rfl, rfl, rfl, rfl⟩
theorem runStart_told {d t p u k} {w w' : World} (h : runStart d t p u k w = .ok w') : Told w.main w w' := by
  unfold runStart at h
  split at h
  · cases h
  · rename_i t e _
    exact told_resched (told_modC (f := fun x => { x with status := .scheduled }) (told_same (w' := { w with endOnEmpty := e }) ⟨rfl, rfl, rfl, rfl, rfl, rfl⟩)
      fun _ => ⟨rfl, rfl, rfl, rfl, rfl, rfl⟩) h
theorem interrupt_told {c : CId} {w w' : World} (hg : Good ∅ w) (h : interrupt c w = .ok w') : Told c w w' := by
  rcases (interrupt_out hg h).2 with ⟨_, e⟩ | ⟨_, e⟩ <;> exact told_same (by rw [e]; exact ⟨rfl, rfl, rfl, rfl, rfl, rfl⟩)
theorem resume_told {c : CId} {a p u} {w w' : World} (h : resume c a p u w = .ok w') : Told c w w' := by
  rcases (resume_out h).2.2 with ⟨_, _, e⟩ | ⟨_, _, _, e⟩ <;> exact told_same (by rw [e]; exact ⟨rfl, rfl, rfl, rfl, rfl, rfl⟩)

/-- C71: what one call (of any kind, by anybody) does to `failed()` of a component `d`, if it is not a request, wait, wait_for, from_store or to_store
of `d` and not a request by which `d` may be bumped. If the call is about `d` (or a step by which `d` becomes current), and `d` was waiting
and isn't any more, it becomes True; otherwise it stays as it is, even if `d` gets what it waited for. -/
theorem C71_failed {w w' : World} {fuel : Nat} {o : Op} {d : CId} (h : Reach Calm w) (hc : Calm fuel w o) (hx : exec fuel o w = .ok w')
    (ha : ¬ o.seeks d) (hb : ¬ o.mayBump w d) :
    (o.touches w d → ¬ Nothing (w.comps d) → Nothing (w'.comps d) → (w'.comps d).failed = true) ∧
    (¬ o.touches w d ∨ Nothing (w.comps d) ∨ ¬ Nothing (w'.comps d) → (w'.comps d).failed = (w.comps d).failed) := by
  have hg := h.good
  by_cases hs : o = .step
  · subst hs
    by_cases e : d = w'.current
    · have t := (step_begins hg hx).told
      rw [← e] at t
      exact ⟨fun _ => t.lost, fun k => t.same (k.resolve_left fun k => k trivial)⟩
    · have eo := (step_out hg hx).other d e
      exact ⟨fun _ h1 h2 => absurd (eo ▸ h2) h1, fun _ => by rw [eo]⟩
  by_cases ht : o.touches w d
  · have key : Told d w w' → _ := fun t => (⟨fun _ => t.lost, fun k => t.same (k.resolve_left fun k => k ht)⟩ :
      (o.touches w d → ¬ Nothing (w.comps d) → Nothing (w'.comps d) → (w'.comps d).failed = true) ∧
      (¬ o.touches w d ∨ Nothing (w.comps d) ∨ ¬ Nothing (w'.comps d) → (w'.comps d).failed = (w.comps d).failed))
    refine key ?_
    clear key
    obtain ⟨_, _, hc⟩ := hc
    cases o <;> simp only [Op.touches] at ht <;> simp only [exec] at hx <;> simp only [Op.seeks, Op.mayBump] at ha hb
    case hold => subst ht; exact (hold_begins hg hx).told
    case passivate => subst ht; exact (passivate_begins hg hx).told
    case activate => subst ht; exact activate_told hg hx
    case create => subst ht; exact create_told hx
    case interrupt => subst ht; exact interrupt_told hg hx
    case resume => subst ht; exact resume_told hx
    case standby => subst ht; exact (standby_begins hg hx).told
    case setRemaining => subst ht; exact setRemaining_told hg hx
    case cancel => subst ht; exact cancel_told hg hx
    case request => exact absurd ⟨ha, ht.resolve_left ha⟩ hb
    case runStart => subst ht; exact runStart_told hx
    case terminate => subst ht; exact terminate_told hg hc hx
    all_goals first
      | exact absurd ht ha
      | exact absurd rfl hs
  · have := fate_exec (fuel := fuel) hs ht False (fun k => k.elim)
    rw [hx] at this
    exact ⟨fun k => absurd k ht, fun _ => this.failed⟩

/-- C71: no call changes `failed()` of a component that it isn't about, not even if it raises. All states. -/
theorem C71_others {w : World} {fuel : Nat} {o : Op} {d : CId} (hs : o ≠ .step) (ht : ¬ o.touches w d) :
    ((exec fuel o w).world.comps d).failed = (w.comps d).failed :=
  (fate_exec (fuel := fuel) hs ht False (fun k => k.elim)).failed

/-- C71: a request changes `failed()` of another component only if that waits for something (and is bumped): it becomes True -/
theorem C71_bumped {w w' : World} {fuel : Nat} {d : CId} {c args o pu fa fd p u k} (h : Reach Calm w)
    (hc : Calm fuel w (.request c args o pu fa fd p u k)) (hd : d ≠ c) (hx : exec fuel (.request c args o pu fa fd p u k) w = .ok w') :
    (w'.comps d).failed = (w.comps d).failed ∨ (¬ Nothing (w.comps d) ∧ (w'.comps d).failed = true) :=
  request_fail h.good hc.2.1 hc.2.2 hd hx

/-- C72: an interrupted component that has kept its request or wait (and doesn't wait for a store) stays interrupted, and everything about it but its
claims stays as it is, until it is resumed or told to do something else: whatever happens to the resources and the states, and also in the
steps of the scheduler -/
theorem C72_interrupted {w w' : World} {fuel : Nat} {o : Op} {d : CId} (h : Reach Calm w) (hx : exec fuel o w = .ok w')
    (hi : w.status d = .interrupted) (hl : ∀ s, d ∉ w.inQ (.fromReq s) ∧ d ∉ w.inQ (.toReq s)) (ht : (o = .step ∧ d ≠ w.main) ∨ ¬ o.touches w d) :
    ∃ l, w'.comps d = { w.comps d with claims := l } := by
  by_cases hs : o = .step
  · subst hs
    have hm : d ≠ w.main := ht.elim (fun k => k.2) fun k => absurd trivial k
    have so := step_out h.good hx
    refine ⟨(w.comps d).claims, ?_⟩
    rw [so.other d fun e => ?_]
    rcases so.cases with ⟨_, k, _⟩ | ⟨ev, hp, hc, _⟩ | ⟨_, _, _, k⟩
    · rw [← e, hi] at k; cases k
    · have hno := h.good.inv.not_on (c := d) (.inr (.inr (.inl hi)))
      have := (h.good.inv.on d).2 ⟨ev, hp.mem_iff.2 List.mem_cons_self, hc.trans e.symm⟩
      exact absurd (this.symm.trans hno) (by simp)
    · exact hm (e.trans k)
  · have ht := ht.resolve_left fun k => hs k.1
    have := fate_exec (fuel := fuel) hs ht True (fun _ => ⟨hi, hl⟩)
    rw [hx] at this
    exact this.same trivial

/-! examples: component 2 waits for the resource that component 1 claims -/

example : (calmW.comps 2).requests = [(0, 1)] ∧ (calmW.comps 1).claims = [(0, 1)] ∧ (calmW.comps 2).failed = false := by
  refine ⟨?_, ?_, ?_⟩ <;> decide +kernel

/-- C71: told to hold it gives up, and it has failed; when it requests again it hasn't; when component 1 is cancelled it gets the resource and hasn't failed -/
def givesUp : List Op := [.hold 2 (some (1 : Rat)) none (0 : Rat) false false 0]
theorem givesUp_reach : Reach Calm (execAll 20 givesUp calmW) := reach_calm _ calmW_reach _ (by decide +kernel)
example : ((execAll 20 givesUp calmW).comps 2).failed = true ∧ calmb 20 (execAll 20 givesUp calmW) (ask 2 0 1) = true ∧
    ((execAll 20 (givesUp ++ [ask 2 0 1]) calmW).comps 2).failed = false ∧
    ((execAll 20 (givesUp ++ [ask 2 0 1]) calmW).comps 2).requests = [(0, 1)] ∧
    ((execAll 20 (givesUp ++ [ask 2 0 1, .cancel 1]) calmW).comps 2).claims = [(0, 1)] ∧
    ((execAll 20 (givesUp ++ [ask 2 0 1, .cancel 1]) calmW).comps 2).failed = false := by
  refine ⟨?_, ?_, ?_, ?_, ?_, ?_⟩ <;> decide +kernel

/-- C72: activated with keep_request and interrupted, it keeps waiting although the resource becomes free; resumed (and the resource tried again) it gets it -/
def onHold : List Op := [.activate 2 none (1 : Rat) (0 : Rat) false false false true false, .interrupt 2]
theorem onHold_reach : Reach Calm (execAll 20 onHold calmW) := reach_calm _ calmW_reach _ (by decide +kernel)
example : (execAll 20 onHold calmW).status 2 = .interrupted ∧ (execAll 20 (onHold ++ [.cancel 1]) calmW).status 2 = .interrupted ∧
    ((execAll 20 (onHold ++ [.cancel 1]) calmW).comps 2).requests = [(0, 1)] ∧ ((execAll 20 (onHold ++ [.cancel 1]) calmW).res 0).claimed = 0 ∧
    ((execAll 20 (onHold ++ [.cancel 1, .resume 2 false (0 : Rat) false, .resSetCapacity 0 (1 : Rat)]) calmW).comps 2).claims = [(0, 1)] := by
  refine ⟨?_, ?_, ?_, ?_, ?_⟩ <;> decide +kernel

end Verif
