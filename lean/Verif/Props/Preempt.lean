import Verif.Props.Requests
import Verif.RTry
import Verif.Props.Interrupt

/-!
# Claims about preemption (C32)

C32 in full: a request on a preemptive resource takes the claims of the lowest priority claimers, only those of strictly lower priority, and only as many as
needed to honour the request; if it cannot be honoured nobody is bumped. Proved is: only claimers of strictly lower priority lose their claim, and none at all if
the request fits. What is missing is not true: all claimers of lower priority are bumped, whether needed or not (`C32_more_counterexample`), and even if the request
is not honoured after all (`C32_in_vain_counterexample`), because `request` asks each claimer for its claimed quantity from the queue of claimers instead of from
the resource, which is 0.
-/

namespace Verif
open World RView

/-- the available quantities are the same -/
def SameAv (w w' : World) : Prop := ∀ r, (w'.res r).avail = (w.res r).avail
theorem SameAv.refl (w : World) : SameAv w w := fun _ => rfl
theorem SameAv.trans {a b c : World} (h : SameAv a b) (h2 : SameAv b c) : SameAv a c := fun r => (h2 r).trans (h r)
theorem SameAv.andThen {r : R} {w : World} {f : World → R} (h : SameAv w r.world) (hf : ∀ w', SameAv w' (f w').world) :
    SameAv w (r ⊳ f).world := by
  cases r with
  | ok w' => exact h.trans (hf w')
  | err e w' => exact h
theorem SameAv.forR {α : Type} {f : α → World → R} (hf : ∀ a w', SameAv w' (f a w').world) :
    ∀ (l : List α) (w : World), SameAv w (Verif.forR l f w).world
  | [], w => .refl w
  | a :: t, w => SameAv.andThen (hf a w) (fun w' => SameAv.forR hf t w')
theorem av_onQueue (q f) (w : World) : SameAv w (onQueue q f w).world := by
  unfold onQueue; split
  · exact fun _ => rfl
  · exact .refl _
theorem av_leaveRequesters (c r) (w : World) : SameAv w (leaveRequesters c r w).world := by
  refine SameAv.andThen (av_onQueue _ _ _) fun w' => ?_
  show SameAv w' (if _ then _ else _)
  split
  · intro r'
    simp only [World.modR, Res.avail]; split <;> rfl
  · exact .refl _
theorem av_checkFail (c) (w : World) : SameAv w (checkFail c w).world := by
  unfold checkFail
  refine SameAv.andThen (SameAv.andThen (SameAv.andThen ?_ fun w => ?_) fun w => ?_) fun w => ?_
  · unfold checkFailReq; split
    · exact .refl _
    · exact SameAv.andThen (SameAv.forR (fun r w => av_leaveRequesters c r w) _ _) fun w => fun _ => rfl
  · unfold checkFailWait; split
    · exact .refl _
    · refine SameAv.andThen (SameAv.forR (fun r w => ?_) _ _) fun w => fun _ => rfl
      unfold leaveWaiters
      split
      · exact av_onQueue _ _ _
      · exact .refl _
  · unfold checkFailFrom; split
    · exact .refl _
    · exact SameAv.andThen (SameAv.forR (fun r w => av_onQueue _ _ _) _ _) fun w => fun _ => rfl
  · unfold checkFailTo; split
    · exact .refl _
    · exact SameAv.andThen (SameAv.forR (fun r w => av_onQueue _ _ _) _ _) fun w => fun _ => rfl
theorem av_remove (c) (w : World) : SameAv w (remove c w).world := by
  unfold remove
  split
  · split <;> exact fun _ => rfl
  · split <;> exact fun _ => rfl
theorem av_preamble (c) (w : World) : SameAv w (preamble c w).world := by
  unfold preamble
  split
  · exact .refl _
  · refine SameAv.andThen (SameAv.andThen (SameAv.andThen ?_ fun w => ?_) fun w => av_remove _ _) fun w => av_checkFail _ _
    · unfold checkNotData; split <;> exact .refl _
    · unfold checkNotMain; split <;> exact .refl _

theorem activate_claims {e : Set CId} {w w' : World} {c a d p u k pr kr kw} (hg : Good e w)
    (h : activate c a d p u k pr kr kw w = .ok w') : (w'.comps c).claims = (w.comps c).claims := by
  unfold activate at h
  simp only at h
  split at h
  · cases h
  · obtain ⟨w1, h1, h2⟩ := andThen_ok h
    have s1 : (w1.comps c).claims = (w.comps c).claims := by
      split at h1
      · cases h1; rfl
      · obtain ⟨w2, h2, h3⟩ := andThen_ok h1
        split at h3
        · cases h3
          have := congrArg (fun v : RView => (v.comps c).claims) (rv_remove w c)
          rw [h2] at this; exact this
        · exact (start_removeFail (w' := w1) hg (by rw [h2]; exact h3)).claims
    rw [(reschedule_ok h2).1.self]
    show ((setStatus c .scheduled w1).comps c).claims = _
    simp only [setStatus, modC_self]; exact s1

/-- what has become of a bumped component: it doesn't claim from `r` any longer, and continues now -/
structure Bumped (r : RId) (d : CId) (w w' : World) : Prop where
  gone : lookup (w'.comps d).claims r = none
  kept : ∀ s, s ≠ r → lookup (w'.comps d).claims s = lookup (w.comps d).claims s
  status : w'.status d = .scheduled
  time : (w'.comps d).schedTime = (w.now : ETime)

theorem bump_loop {c : CId} {r : RId} : ∀ (l : List CId) (w w' : World), (∀ d ∈ l, d ≠ c) → l.Nodup → Good {c} w → w.rv.Coh →
    forR l (fun d w => releaseCore d r none w ⊳ activate d none ((0:Rat):ETime) ((0:Rat):ETime) false false false false false) w = .ok w' →
    w'.now = w.now ∧ (∀ d, d ∉ l → w'.comps d = w.comps d) ∧ ∀ d ∈ l, Bumped r d w w'
  | [], w, w', _, _, _, _, h => by cases h; exact ⟨rfl, fun _ _ => rfl, fun _ h => by cases h⟩
  | d :: t, w, w', hl, hn, hg, hcoh, h => by
    unfold forR at h
    obtain ⟨w1, h1, h2⟩ := andThen_ok h
    obtain ⟨w0, h0, h1⟩ := andThen_ok h1
    obtain ⟨g0, k0⟩ := releaseCore_good hg h0
    obtain ⟨g1, m1, o1, _⟩ := activate_good g0 h1
    obtain ⟨e1, e2, e3, _, _⟩ := activate_out g0 (by simpa using hl d (by simp)) h1
    have e4 := activate_claims g0 h1
    obtain ⟨hdt, hnt⟩ := List.nodup_cons.1 hn
    have r0 : ∃ cl, Release d r cl cl w.rv w0.rv := by
      rcases release_step hcoh d r none with hs | ⟨cl, _, hs⟩
      · rw [hs] at h0; cases h0
      · rw [h0] at hs; exact ⟨cl, hs⟩
    obtain ⟨cl, r0⟩ := r0
    have c0 := hcoh.release r0
    have c1 : w1.rv.Coh := by
      have := rf_activate (refines_stable anyLic w0.rv).toF ⟨c0, .refl⟩ d none ((0:Rat):ETime) ((0:Rat):ETime) false false false false false
      rw [h1] at this; exact this.1
    obtain ⟨n2, f2, b2⟩ := bump_loop t w1 w' (fun x hx => hl x (by simp [hx])) hnt g1 c1 h2
    refine ⟨n2.trans (e1.now.trans k0.now), fun x hx => ?_, fun x hx => ?_⟩
    · rw [List.mem_cons, not_or] at hx
      rw [f2 x hx.2, o1 x hx.1, k0.other x hx.1]
    · rcases List.mem_cons.1 hx with rfl | hx
      · have h5 := f2 x hdt
        have h6 : ∀ s, lookup (w'.comps x).claims s = if s = r then none else lookup (w.comps x).claims s := by
          intro s
          rw [h5, e4]
          have := r0.claims s
          rw [if_pos (show cl - cl < eps by rw [sub_self]; decide +kernel)] at this
          exact this
        refine ⟨by rw [h6, if_pos rfl], fun s hs => by rw [h6, if_neg hs], ?_, ?_⟩
        · show (w'.comps x).status = _
          rw [h5]; exact e2
        · rw [h5, e3]
          have : atTime w0 none ((0:Rat):ETime) = (w0.now : ETime) := by
            unfold atTime
            simp
          rw [this, max_self, k0.now]
      · have := b2 x hx
        have hxd : x ≠ d := fun e => hdt (e ▸ hx)
        have h5 : w1.comps x = w.comps x := by rw [o1 x hxd, k0.other x hxd]
        refine ⟨this.gone, fun s hs => (this.kept s hs).trans (by rw [h5]), this.status, ?_⟩
        rw [this.time, e1.now, k0.now]

/-- who is bumped, when the claimers are in order of priority -/
theorem bump_iff {av : ETime} {q prio : Rat} {l : List QMem} (hs : l.Pairwise (fun a b => b.prio ≤ a.prio)) (hn : (l.map QMem.c).Nodup) (d : CId) :
    d ∈ bumpCandidates av q prio l ↔ av < (q : ETime) ∧ ∃ m ∈ l, m.c = d ∧ prio < m.prio := by
  have e0 : av + ((0 : Rat) : ETime) = av := by simp
  induction l with
  | nil => simp [bumpCandidates]
  | cons m t ih =>
    unfold bumpCandidates
    rw [e0]
    have hs' := List.pairwise_cons.1 hs
    have ih2 := ih hs'.2 (List.nodup_cons.1 hn).2
    by_cases h1 : av ≥ (q : ETime)
    · rw [if_pos h1]; simp [not_lt.2 h1]
    · rw [if_neg h1]
      by_cases h2 : prio ≥ m.prio
      · rw [if_pos h2]
        constructor
        · intro h; cases h
        · rintro ⟨_, x, hx, _, h3⟩
          rcases List.mem_cons.1 hx with rfl | hx
          · exact absurd h3 (not_lt.2 h2)
          · exact absurd h3 (not_lt.2 (le_trans (hs'.1 x hx) h2))
      · rw [if_neg h2, List.mem_cons]; refine (or_congr Iff.rfl ih2).trans ?_
        constructor
        · rintro (rfl | ⟨h3, x, hx, h4⟩)
          · exact ⟨not_le.1 h1, m, List.mem_cons_self, rfl, not_le.1 h2⟩
          · exact ⟨h3, x, List.mem_cons_of_mem _ hx, h4⟩
        · rintro ⟨h3, x, hx, h4⟩
          rcases List.mem_cons.1 hx with rfl | hx
          · exact .inl h4.1.symm
          · exact .inr ⟨h3, x, hx, h4⟩

theorem bump_nodup {av : ETime} {q prio : Rat} {l : List QMem} (hn : (l.map QMem.c).Nodup) : (bumpCandidates av q prio l).Nodup := by
  have : ∀ (av : ETime), (bumpCandidates av q prio l).Sublist (l.map QMem.c) := by
    induction l with
    | nil => intro av; exact .slnil
    | cons m t ih =>
      intro av
      unfold bumpCandidates
      split
      · exact List.nil_sublist _
      · split
        · exact List.nil_sublist _
        · exact (ih (List.nodup_cons.1 hn).2 _).cons_cons _
  exact (this av).nodup hn

/-- `d` claims from `r` with a priority strictly lower than that of a request (a higher number is a lower priority) -/
def LowerClaimer (w : World) (r : RId) (prio : Rat) (d : CId) : Prop := ∃ m ∈ (w.queues (.claimers r)).mem, m.c = d ∧ prio < m.prio

theorem preempt_exact {c : CId} {w w' : World} {r q prio} (hg : Good {c} w) (hcoh : w.rv.Coh) (hs : Queue.Sorted (w.queues (.claimers r)).mem)
    (hc : c ∉ w.inQ (.claimers r)) (h : preempt r q prio w = .ok w') (d : CId) :
    ((w.res r).avail < (q : ETime) ∧ ((0 : Rat) : ETime) ≤ (w.res r).avail ∧ LowerClaimer w r prio d → Bumped r d w w') ∧
    (¬ ((w.res r).avail < (q : ETime) ∧ ((0 : Rat) : ETime) ≤ (w.res r).avail ∧ LowerClaimer w r prio d) → w'.comps d = w.comps d) ∧ w'.now = w.now := by
  have hnd : ((w.queues (.claimers r)).mem.reverse.map QMem.c).Nodup := by
    rw [List.map_reverse, List.nodup_reverse]; exact hcoh.cnd r
  have hiff : d ∈ bumpCandidates (w.res r).avail q prio (w.queues (.claimers r)).mem.reverse ↔
      (w.res r).avail < (q : ETime) ∧ LowerClaimer w r prio d := by
    rw [bump_iff (List.pairwise_reverse.2 hs) hnd]
    unfold LowerClaimer
    simp only [List.mem_reverse]
  unfold preempt at h
  simp only at h
  split at h
  · rename_i h0
    obtain ⟨n, k1, k2⟩ := bump_loop _ _ _ (fun d hd hdc => by
      subst hdc
      obtain ⟨m, hm, hmc⟩ := bump_mem hd
      exact hc (List.mem_map.2 ⟨m, by simpa using hm, hmc⟩)) (bump_nodup hnd) hg hcoh h
    refine ⟨fun hh => k2 d (hiff.2 ⟨hh.1, hh.2.2⟩), fun hh => k1 d fun hm => hh ?_, n⟩
    have := hiff.1 hm
    exact ⟨this.1, h0, this.2⟩
  · rename_i h0
    cases h
    exact ⟨fun hh => absurd hh.2.1 h0, fun _ => rfl, rfl⟩

/-- who loses the claims on `r` when a request for `q` with this priority is done: a claimer of a strictly lower priority, if the available quantity is not
enough -/
def Loses (w : World) (r : RId) (q prio : Rat) (d : CId) : Prop :=
  (w.res r).avail < (q : ETime) ∧ ((0 : Rat) : ETime) ≤ (w.res r).avail ∧ LowerClaimer w r prio d

theorem requestArg_exact {c : CId} {n : Nat} {a : Arg} {w w' : World} (hg : Good {c} w) (hm : c ≠ w.main) (hcoh : w.rv.Coh)
    (hs : Queue.Sorted (w.queues (.claimers a.r)).mem) (hpre : (w.res a.r).preemptive = true) (hc : c ∉ w.inQ (.claimers a.r))
    (h : requestArg c n false a w = .ok w') (d : CId) (hd : d ≠ c) :
    (Loses w a.r a.q a.prio d → Bumped a.r d w w') ∧ (¬ Loses w a.r a.q a.prio d → w'.comps d = w.comps d) := by
  have hcoh1 : ∀ w1, enterSortedQ c (.requesters a.r) a.prio (w.modC c (fun x => { x with requests := addTo x.requests a.r a.q })) = .ok w1 →
      (a.q < 0 → (w.res a.r).anonymous = true) → w1.rv.Coh := by
    intro w1 h1 hq
    have h2 := ask_step hcoh c a.r a.q a.prio hq
    rw [h1] at h2
    exact hcoh.ask h2
  unfold requestArg at h
  simp only at h
  by_cases hp : (w.res a.r).preemptive = true ∧ n > 1
  · rw [if_pos hp] at h; cases h
  · rw [if_neg hp] at h
    simp only [Bool.false_eq_true, if_false] at h
    by_cases hq : a.q < 0 ∧ (w.res a.r).anonymous = false
    · rw [if_pos hq] at h; cases h
    · rw [if_neg hq] at h
      obtain ⟨w1, h1, h2⟩ := andThen_ok h
      have k1 := hcoh1 w1 h1 (fun hlt => by simpa [hlt] using hq)
      rw [if_pos hpre] at h2
      have g0 : Good {c} (w.modC c (fun x => { x with requests := addTo x.requests a.r a.q })) := by
        refine hg.grow rfl hm (fun _ => rfl) fun q => awaits_congr (fun r _ h => ?_) (fun _ _ h => h) (fun _ _ h => h) (fun _ _ h => h)
        exact mem_keys_addTo.2 (.inr h)
      have n0 : a.r ∈ keys ((w.modC c (fun x => { x with requests := addTo x.requests a.r a.q })).comps c).requests := by
        rw [modC_self]; exact mem_keys_addTo.2 (.inl rfl)
      obtain ⟨e1, e2, e3, e4⟩ := enterQ_inQ h1
      have g1 : Good {c} w1 := good_enter (q := .requesters a.r) g0 n0 e1 e2 e3
      have cl1 : w1.queues (.claimers a.r) = w.queues (.claimers a.r) := by rw [e1]; simp [World.modQ, World.modC]
      have r1 : w1.res = w.res := by rw [e1]; rfl
      have c1 : w1.comps d = w.comps d := by
        rw [e1]
        show (w.modC c (fun x => { x with requests := addTo x.requests a.r a.q })).comps d = _
        exact modC_other hd _ w
      have t1 : w1.now = w.now := by rw [e1]; rfl
      obtain ⟨b1, b2, _⟩ := preempt_exact g1 k1 (by rw [cl1]; exact hs) (by rw [World.inQ, cl1]; exact hc) h2 d
      unfold LowerClaimer at b1 b2
      rw [cl1, r1] at b1 b2
      refine ⟨fun hl => ?_, fun hl => (b2 hl).trans c1⟩
      have := b1 hl
      exact ⟨this.gone, fun s hs => (this.kept s hs).trans (by rw [c1]), this.status, by rw [this.time, t1]⟩

theorem tryReqC_other {fuel : Nat} {c : CId} {w w' : World} (hg : Good {c} w) (ha : ∀ r ∈ keys (w.comps c).requests, (w.res r).anonymous = false)
    (h : tryReqC fuel c w = .ok w') (d : CId) (hd : d ≠ c) : w'.comps d = w.comps d := by
  cases fuel with
  | zero => rw [tryReqC] at h; cases h
  | succ n =>
    rw [tryReqC] at h
    split at h
    · cases h; rfl
    · rename_i res hres
      obtain ⟨w6, h6, h7⟩ := andThen_ok h
      obtain ⟨_, _, _, _, o6, _⟩ := honorNow_good hg (e' := ∅) not_single hres h6
      have : (keys (w.comps c).requests).filter (fun r => (w.res r).anonymous) = [] := by
        rw [List.filter_eq_nil_iff]; intro r hr; simp [ha r hr]
      rw [this] at h7
      cases n with
      | zero => rw [tryReqList] at h7; cases h7
      | succ n =>
        rw [tryReqList] at h7
        cases h7
        exact o6 d hd

/-- C32: exactly who is affected when `c` requests `q` of a preemptive resource `r`. The claimers with a strictly lower priority lose their claim on `r`, keep
their other claims and continue at once, if the available quantity is not enough. Nothing at all changes for any other component. -/
theorem C32_bumped_partial {w w' : World} {fuel c r q prio oneof fa fd p u k} (h : Reach Calm w)
    (hc : Calm fuel w (.request c [⟨r, q, prio⟩] oneof false fa fd p u k)) (hx : exec fuel (.request c [⟨r, q, prio⟩] oneof false fa fd p u k) w = .ok w')
    (hpre : (w.res r).preemptive = true) (ha : (w.res r).anonymous = false) {d : CId} (hd : d ≠ c) :
    (Loses w r q prio d → Bumped r d w w') ∧ (¬ Loses w r q prio d → w'.comps d = w.comps d) := by
  have hs : Queue.Sorted (w.queues (.claimers r)).mem := Reach.sorted (q := .claimers r) (fun _ _ o _ => by cases o <;> simp [NoInsert]) h
  have hcoh := h.coh
  have hg := h.good
  obtain ⟨_, hr, hm⟩ := hc
  simp only [exec] at hx
  unfold request at hx
  have g0 : Good ∅ (w.modC c (fun x => { x with oneof := oneof })) :=
    hg.modC' (fun _ => rfl) (fun _ => rfl) (fun _ => rfl) (fun _ => rfl) (fun _ => rfl)
  have S := refines_stable anyLic w.rv
  have p0 : Refines anyLic w.rv (w.modC c (fun x => { x with oneof := oneof })) := S.oneof c oneof ⟨hcoh, .refl⟩ trivial
  obtain ⟨w1, h1, h2⟩ := andThen_ok hx
  have p1 : Refines anyLic w.rv w1 := by
    have := rf_preamble S.toF p0 c
    rw [h1] at this; exact this
  obtain ⟨s1, _⟩ := start_preamble g0 (by simp) h1
  have sc1 : SameCl w w1 := by
    have := sc_preamble c (w.modC c (fun x => { x with oneof := oneof }))
    rw [h1] at this
    exact SameCl.trans (b := w.modC c (fun x => { x with oneof := oneof })) ⟨fun _ => rfl, fun _ => rfl⟩ this
  have av1 : SameAv w w1 := by
    have := av_preamble c (w.modC c (fun x => { x with oneof := oneof }))
    rw [h1] at this
    exact SameAv.trans (b := w.modC c (fun x => { x with oneof := oneof })) (fun _ => rfl) this
  have m1 : w1.main = w.main := s1.main
  have t1 : w1.now = w.now := s1.now
  have d1 : w1.comps d = w.comps d := by rw [s1.other d hd, modC_other hd]
  simp only at h2
  split at h2
  · cases h2
  · rename_i t ht
    simp only [List.isEmpty_cons, Bool.false_eq_true, if_false] at h2
    obtain ⟨w3, h3, h4⟩ := andThen_ok h2
    have g2 : Good {c} (w1.modC c (fun x => { x with failed := false })) := by
      have := s1.good.modC' (c := c) (f := fun x => { x with failed := false }) (fun _ => rfl) (fun _ => rfl) (fun _ => rfl) (fun _ => rfl) (fun _ => rfl)
      simpa using this
    have p2 : Refines anyLic w.rv (w1.modC c (fun x => { x with failed := false })) := S.modC p1 _
    have o2 : ((w1.modC c (fun x => { x with failed := false })).comps c).onList = false := by rw [modC_self]; exact s1.off
    have m2 : (w1.modC c (fun x => { x with failed := false })).main = w.main := m1
    have n2 : NoWait ((w1.modC c (fun x => { x with failed := false })).comps c) := by rw [modC_self]; exact ⟨s1.nowait.req, s1.nowait.wai, s1.nowait.frm, s1.nowait.tos⟩
    have d2 : (w1.modC c (fun x => { x with failed := false })).comps d = w.comps d := by rw [modC_other hd, d1]
    have sc2 : SameCl w (w1.modC c (fun x => { x with failed := false })) := sc1.trans ⟨fun _ => rfl, fun _ => rfl⟩
    have av2 : SameAv w (w1.modC c (fun x => { x with failed := false })) := av1.trans (fun _ => rfl)
    have t2 : (w1.modC c (fun x => { x with failed := false })).now = w.now := t1
    generalize w1.modC c (fun x => { x with failed := false }) = w2 at h3 g2 o2 m2 n2 d2 sc2 av2 t2 p2
    unfold forR at h3
    obtain ⟨w5, h5, h6⟩ := andThen_ok h3
    cases h6
    have hcl : c ∉ w2.inQ (.claimers r) := by
      have h7 := hr.2 ⟨r, q, prio⟩ (by simp) hpre
      rw [← sc2.2] at h7
      rw [← has_inQ, h7]; simp
    have hpre2 : (w2.res r).preemptive = true := by rw [sc2.1]; exact hpre
    have key := requestArg_exact (a := ⟨r, q, prio⟩) g2 (by rw [m2]; exact hm) p2.1 (by rw [sc2.2]; exact hs) hpre2 hcl h5 d hd
    have g3 := (requestArg_good g2 (by rw [m2]; exact hm) o2 (.inr fun _ => hcl) h5)
    have q3 := (requestArg_out g2 (by rw [m2]; exact hm) (.inr fun _ => hcl) h5).2.2
    have p3 : Refines anyLic w.rv w3 := by
      have := rs_requestArgs S c [(⟨r, q, prio⟩ : Arg)].length false trivial [⟨r, q, prio⟩] w2 p2 (fun _ _ => trivial)
      unfold forR at this
      rw [h3] at this; exact this
    have hl : Loses w2 r q prio d ↔ Loses w r q prio d := by
      unfold Loses LowerClaimer
      rw [av2, sc2.2]
    rw [hl] at key
    obtain ⟨g4, c4, m4⟩ := lowerMinq_good g3.1 (w3.comps c).requests
    have a3 : ∀ x, ((lowerMinq (w3.comps c).requests w3).res x).anonymous = (w.res x).anonymous := by
      intro x
      exact anonymous_path (rs_lowerMinq S _ _ p3).2 x
    have fin : w'.comps d = w3.comps d := by
      obtain ⟨w6, h6, h7⟩ := andThen_ok h4
      have c5 : ((lowerMinq (w3.comps c).requests w3).modC c (fun x => { x with remaining := t.subQ (lowerMinq (w3.comps c).requests w3).now })).comps d =
        w3.comps d := by rw [modC_other hd, c4]
      have k6 : w6.comps d = w3.comps d := by
        rw [← c5]
        refine tryReqC_other ?_ ?_ h6 d hd
        · refine g4.set (fun _ _ => Iff.rfl) (by rw [c4]; exact g3.2.2.1) ?_ ?_ ?_ ?_ ?_ ?_ ?_ <;> simp
        · intro x hx
          rw [modC_self, c4] at hx
          have hx : x ∈ keys (w3.comps c).requests := hx
          rw [q3] at hx
          have hx : x ∈ keys (asked false (w2.comps c).requests [⟨r, q, prio⟩]) := hx
          rw [n2.req] at hx
          have : x = r := by simpa [asked, addTo, keys] using hx
          subst this
          show ((lowerMinq (w3.comps c).requests w3).res x).anonymous = false
          rw [a3]; exact ha
      split at h7
      · cases h7; exact k6
      · rw [(reschedule_ok h7).1.other d hd]
        show ((setStatus c .requesting w6).comps d) = _
        unfold setStatus
        rw [modC_other hd]; exact k6
    refine ⟨fun hh => ?_, fun hh => fin.trans ((key.2 hh).trans d2)⟩
    have := key.1 hh
    exact ⟨by rw [fin]; exact this.gone, fun s hs => by rw [fin, this.kept s hs, d2], by rw [World.status, fin]; exact this.status, by rw [fin, this.time, t2]⟩

/-- C32: only claims of components with a strictly lower priority are taken -/
theorem C32_only_lower_partial {w w' : World} {fuel c r q prio oneof fa fd p u k} (h : Reach Calm w)
    (hc : Calm fuel w (.request c [⟨r, q, prio⟩] oneof false fa fd p u k)) (hx : exec fuel (.request c [⟨r, q, prio⟩] oneof false fa fd p u k) w = .ok w')
    (hpre : (w.res r).preemptive = true) (ha : (w.res r).anonymous = false) {d : CId} (hd : d ≠ c) {s : RId}
    (hch : lookup (w'.comps d).claims s ≠ lookup (w.comps d).claims s) :
    s = r ∧ ∃ m ∈ (w.queues (.claimers r)).mem, m.c = d ∧ prio < m.prio := by
  obtain ⟨k1, k2⟩ := C32_bumped_partial h hc hx hpre ha hd
  by_cases hl : Loses w r q prio d
  · refine ⟨?_, hl.2.2⟩
    by_contra hs
    exact hch ((k1 hl).kept s hs)
  · rw [k2 hl] at hch; exact absurd rfl hch

/-- C32: nobody is bumped by a request that fits in the available quantity -/
theorem C32_fits {w w' : World} {fuel c r q prio oneof fa fd p u k} (h : Reach Calm w)
    (hc : Calm fuel w (.request c [⟨r, q, prio⟩] oneof false fa fd p u k)) (hx : exec fuel (.request c [⟨r, q, prio⟩] oneof false fa fd p u k) w = .ok w')
    (hpre : (w.res r).preemptive = true) (ha : (w.res r).anonymous = false) (hq : (q : ETime) ≤ (w.res r).avail) {d : CId} (hd : d ≠ c) :
    w'.comps d = w.comps d :=
  (C32_bumped_partial h hc hx hpre ha hd).2 fun hl => absurd hl.1 (not_lt.2 hq)

/-- C32: the claimers that lose their claim have a lower priority than the ones that keep it -/
theorem C32_lowest {w w' : World} {fuel c r q prio oneof fa fd p u k} (h : Reach Calm w)
    (hc : Calm fuel w (.request c [⟨r, q, prio⟩] oneof false fa fd p u k)) (hx : exec fuel (.request c [⟨r, q, prio⟩] oneof false fa fd p u k) w = .ok w')
    (hpre : (w.res r).preemptive = true) (ha : (w.res r).anonymous = false) {m n : QMem} (hm : m ∈ (w.queues (.claimers r)).mem)
    (hn : n ∈ (w.queues (.claimers r)).mem) (hmc : m.c ≠ c) (hnc : n.c ≠ c) (hm' : lookup (w'.comps m.c).claims r = none)
    (hn' : lookup (w'.comps n.c).claims r ≠ none) : n.prio < m.prio := by
  obtain ⟨_, b⟩ := C32_bumped_partial h hc hx hpre ha hmc
  obtain ⟨c1, _⟩ := C32_bumped_partial h hc hx hpre ha hnc
  have hnd : ((w.queues (.claimers r)).mem.map QMem.c).Nodup := h.coh.cnd r
  have h1 : Loses w r q prio m.c := by
    by_contra hl
    rw [b hl] at hm'
    have : m.c ∈ w.rv.clmQ r := List.mem_map.2 ⟨m, hm, rfl⟩
    obtain ⟨x, hx⟩ := lookup_isSome.2 ((h.coh.cq m.c r).1 this)
    have hx : lookup (w.comps m.c).claims r = some x := hx
    rw [hx] at hm'; cases hm'
  have h2 : ¬ Loses w r q prio n.c := fun hl => hn' (c1 hl).gone
  obtain ⟨x, hx, hxc, hxp⟩ := h1.2.2
  have e : x = m := List.inj_on_of_nodup_map hnd hx hm hxc
  rw [e] at hxp
  refine lt_of_le_of_lt (not_lt.1 fun hlt => h2 ⟨h1.1, h1.2.1, n, hn, rfl, hlt⟩) hxp

/-! ### examples and counterexamples: resource 1 is preemptive, with capacity 2 -/

def ward : World := { World.init with res := fun r => if r = 1 then { cap := (2 : Rat), preemptive := true } else {} }

theorem fresh_ward : Fresh ward := by
  refine ⟨rfl, rfl, rfl, rfl, fresh_init.comps, fun _ => ⟨⊤, rfl⟩, fun _ _ => rfl, fun r => ?_, fun r => ?_, fun _ => rfl⟩
  rotate_left
  · simp only [ward]
    repeat' split
    all_goals rfl
  by_cases h1 : r = 1
  · subst h1; exact ⟨rfl, rfl, le_refl _, WithTop.coe_le_coe.2 (by decide +kernel), fun _ => rfl⟩
  · simp only [ward, h1, if_false]
    exact ⟨trivial, trivial, le_refl _, WithTop.coe_le_coe.2 (by decide +kernel), fun _ => trivial⟩

/-- component `c` requests `q` of resource 1 with this priority -/
def urge (c : CId) (q prio : Rat) : Op := .request c [⟨1, q, prio⟩] false false none none (0 : Rat) false false
/-- component 1 claims 1 with priority 1, component 2 claims 1 with priority 3; component 3 is current -/
def wardOps : List Op := born 1 ++ [urge 1 1 1] ++ born 2 ++ [urge 2 1 3] ++ born 3

/-- the claim of component 2 goes to component 3, component 1 keeps its claim -/
example : ∃ w', Reach Calm (execAll 20 wardOps ward) ∧ Calm 20 (execAll 20 wardOps ward) (urge 3 1 2) ∧
    exec 20 (urge 3 1 2) (execAll 20 wardOps ward) = .ok w' ∧ ((execAll 20 wardOps ward).res 1).preemptive = true ∧
    ((execAll 20 wardOps ward).res 1).anonymous = false ∧ Loses (execAll 20 wardOps ward) 1 1 2 2 ∧
    ¬ Loses (execAll 20 wardOps ward) 1 1 2 1 ∧ lookup (w'.comps 1).claims 1 = some 1 ∧ lookup (w'.comps 3).claims 1 = some 1 ∧
    lookup (w'.comps 2).claims 1 = none ∧ w'.status 2 = .scheduled := by
  have hr : Reach Calm (execAll 20 wardOps ward) := reach_calm _ (.init fresh_ward) _ (by decide +kernel)
  refine ⟨(exec 20 (urge 3 1 2) (execAll 20 wardOps ward)).world, hr, calmb_calm (by decide +kernel), ok_world (by decide +kernel), by decide +kernel, by decide +kernel, ⟨by decide +kernel, by decide +kernel, ?_⟩, ?_, by decide +kernel,
    by decide +kernel, by decide +kernel, by decide +kernel⟩
  · show ∃ m ∈ _, _
    decide +kernel
  · rintro ⟨_, _, m, hm, h1, h2⟩
    have : ∀ m ∈ ((execAll 20 wardOps ward).queues (.claimers 1)).mem, m.c = 1 → ¬ (2 : Rat) < m.prio := by decide +kernel
    exact this m hm h1 h2

/-- C32 is not true: more is taken than needed. Components 1 and 2 claim 1 each; component 3 requests 1 with a higher priority, and both lose their claim, although one
claim would have been enough -/
theorem C32_more_counterexample : ∃ w w', Reach Calm w ∧ Calm 20 w (urge 3 1 0) ∧ exec 20 (urge 3 1 0) w = .ok w' ∧ (w.res 1).preemptive = true ∧
    (w.res 1).cap = ((2 : Rat) : ETime) ∧ lookup (w.comps 1).claims 1 = some 1 ∧ lookup (w.comps 2).claims 1 = some 1 ∧
    lookup (w'.comps 1).claims 1 = none ∧ lookup (w'.comps 2).claims 1 = none ∧ lookup (w'.comps 3).claims 1 = some 1 ∧ (w'.res 1).claimed = 1 := by
  have hr : Reach Calm (execAll 20 wardOps ward) := reach_calm _ (.init fresh_ward) _ (by decide +kernel)
  exact ⟨_, (exec 20 (urge 3 1 0) (execAll 20 wardOps ward)).world, hr, calmb_calm (by decide +kernel), ok_world (by decide +kernel), by decide +kernel, by decide +kernel, by decide +kernel, by decide +kernel,
    by decide +kernel, by decide +kernel, by decide +kernel, by decide +kernel⟩

/-- C32 is not true: claims are taken although the request cannot be honoured. Component 3 requests 2 with a priority between those of component 1 and component 2:
component 2 loses its claim, but as component 1 keeps its claim, component 3 has to wait -/
theorem C32_in_vain_counterexample : ∃ w w', Reach Calm w ∧ Calm 20 w (urge 3 2 2) ∧ exec 20 (urge 3 2 2) w = .ok w' ∧ (w.res 1).preemptive = true ∧
    (w.res 1).cap = ((2 : Rat) : ETime) ∧ lookup (w.comps 1).claims 1 = some 1 ∧ lookup (w.comps 2).claims 1 = some 1 ∧
    lookup (w'.comps 1).claims 1 = some 1 ∧ lookup (w'.comps 2).claims 1 = none ∧ w'.status 3 = .requesting ∧ (w'.res 1).claimed = 1 := by
  have hr : Reach Calm (execAll 20 wardOps ward) := reach_calm _ (.init fresh_ward) _ (by decide +kernel)
  exact ⟨_, (exec 20 (urge 3 2 2) (execAll 20 wardOps ward)).world, hr, calmb_calm (by decide +kernel), ok_world (by decide +kernel), by decide +kernel, by decide +kernel, by decide +kernel, by decide +kernel,
    by decide +kernel, by decide +kernel, by decide +kernel, by decide +kernel⟩

/-- without `Calm`: a component that requests more of a preemptive resource with a higher priority bumps itself -/
theorem C32_self_counterexample : ∃ w w', Reach Any w ∧ exec 20 (urge 2 2 0) w = .ok w' ∧ lookup (w.comps 2).claims 1 = some 1 ∧
    lookup (w.comps 1).claims 1 = some 1 ∧ lookup (w'.comps 2).claims 1 = some 2 ∧ lookup (w'.comps 1).claims 1 = none := by
  refine ⟨execAll 20 wardOps ward, (exec 20 (urge 2 2 0) (execAll 20 wardOps ward)).world, reach_all 20 _ (fun _ _ _ => trivial) (.init fresh_ward), ok_world (by decide +kernel), by decide +kernel, by decide +kernel,
    by decide +kernel, by decide +kernel⟩

end Verif
