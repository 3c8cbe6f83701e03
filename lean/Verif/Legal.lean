import Verif.Enrolled
import Verif.CalmStep
import Verif.Props.Scheduling

/-!
# When nothing is raised
-/

namespace Verif
open World

/-- the call returns -/
def Fine (r : R) : Prop := ∃ w', r = .ok w'

theorem Fine.ok (w : World) : Fine (.ok w) := ⟨w, rfl⟩
theorem Fine.andThen {r : R} {f : World → R} (h : ∃ w1, r = .ok w1 ∧ Fine (f w1)) : Fine (r ⊳ f) := by
  obtain ⟨w1, rfl, h⟩ := h; exact h
theorem Fine.all {r : R} {f : World → R} (h : Fine r) (h2 : ∀ w1, r = .ok w1 → Fine (f w1)) : Fine (r ⊳ f) := by
  obtain ⟨w1, h⟩ := h; exact Fine.andThen ⟨w1, h, h2 w1 h⟩
theorem Fine.forR {α} {f : α → World → R} {I : List α → World → Prop} (hf : ∀ a t w, I (a :: t) w → ∃ w1, f a w = .ok w1 ∧ I t w1) :
    ∀ (l : List α) {w : World}, I l w → ∃ w', forR l f w = .ok w' ∧ I [] w'
  | [], w, h => ⟨w, rfl, h⟩
  | a :: t, w, h => by
    obtain ⟨w1, h1, h2⟩ := hf a t w h
    obtain ⟨w2, h3, h4⟩ := Fine.forR hf t h2
    exact ⟨w2, by unfold Verif.forR; rw [h1]; exact h3, h4⟩

/-! ## giving up -/

theorem leaveQ_fine {c : CId} {q : QRef} {w : World} (hc : c ∈ w.inQ q) : ∃ w', leaveQ c q w = .ok w' ∧ ∀ p, p ≠ q → w'.inQ p = w.inQ p := by
  unfold leaveQ onQueue
  have hm : ∃ m, (w.queues q).find c = some m := by
    obtain ⟨m, hm, hmc⟩ := List.mem_map.1 hc
    refine Option.isSome_iff_exists.1 ?_
    unfold Queue.find
    rw [List.find?_isSome]
    exact ⟨m, hm, by simpa using hmc⟩
  obtain ⟨m, hm⟩ := hm
  cases h : (w.queues q).leave w.now c with
  | ok q' => exact ⟨w.modQ q (fun _ => q'), by simp only [h], fun p hp => by rw [inQ_modQ', if_neg hp]⟩
  | notOk e => unfold Queue.leave at h; rw [hm] at h; cases h

theorem leaves_fine {c : CId} {K : StId → QRef} (hK : Function.Injective K) {l : List StId} {w : World} (hl : l.Nodup) (hc : ∀ s ∈ l, c ∈ w.inQ (K s)) :
    Fine (forR l (fun s => leaveQ c (K s)) w) := by
  have key : ∀ s t w, (s :: t).Nodup ∧ (∀ x ∈ s :: t, c ∈ World.inQ w (K x)) → ∃ w1, leaveQ c (K s) w = .ok w1 ∧ t.Nodup ∧ ∀ x ∈ t, c ∈ w1.inQ (K x) := by
    intro s t w h
    obtain ⟨w1, h1, h2⟩ := leaveQ_fine (h.2 s List.mem_cons_self)
    have hn := List.nodup_cons.1 h.1
    refine ⟨w1, h1, hn.2, fun x hx => ?_⟩
    rw [h2 _ fun he => hn.1 (hK he ▸ hx)]
    exact h.2 x (List.mem_cons_of_mem _ hx)
  obtain ⟨w', h, _⟩ := Fine.forR (f := fun s => leaveQ c (K s)) (I := fun l w => l.Nodup ∧ ∀ s ∈ l, c ∈ w.inQ (K s)) key l ⟨hl, hc⟩
  exact ⟨w', h⟩

theorem leaveWaiters_fine (c : CId) (x : Wait) (w : World) : Fine (leaveWaiters c x w) := by
  unfold leaveWaiters
  split
  · rename_i h
    obtain ⟨m, hm, hc⟩ := (Queue.has_iff _ _).1 h
    obtain ⟨w', h, _⟩ := leaveQ_fine (List.mem_map.2 ⟨m, hm, hc⟩)
    exact ⟨w', h⟩
  · exact .ok _

theorem leavesWaiters_fine (c : CId) (l : List Wait) (w : World) : Fine (forR l (leaveWaiters c) w) := by
  obtain ⟨w', h, _⟩ := Fine.forR (f := leaveWaiters c) (I := fun _ _ => True) (fun x t w _ => by
    obtain ⟨w1, h1⟩ := leaveWaiters_fine c x w
    exact ⟨w1, h1, trivial⟩) l (w := w) trivial
  exact ⟨w', h⟩

theorem checkFail_fine {F T : Set CId} {w : World} {c : CId} (hc : w.rv.Coh) (he : Enr F T w) (hF : c ∉ F) (hT : c ∉ T) : Fine (checkFail c w) := by
  have S := enr_base F T
  unfold checkFail
  have h1 : Fine (checkFailReq c w) := by
    unfold checkFailReq
    split
    · exact .ok _
    · obtain ⟨w1, h1, _⟩ := leaveReqs_run (c := c) (keys (w.comps c).requests) (hc.rk c) hc.rnd (fun r hr => (hc.rq c r).2 hr)
      exact Fine.andThen ⟨w1, h1, .ok _⟩
  obtain ⟨w1, h1⟩ := h1
  have e1 : Enr F T w1 := (bs_failReq S he c).to h1
  have h2 : Fine (checkFailWait c w1) := by
    unfold checkFailWait
    split
    · exact .ok _
    · exact (leavesWaiters_fine _ _ _).all fun _ _ => .ok _
  obtain ⟨w2, h2⟩ := h2
  have e2 : Enr F T w2 := S.failWait c e1 h2
  have h3 : Fine (checkFailFrom c w2) := by
    unfold checkFailFrom
    split
    · exact .ok _
    · exact (leaves_fine (K := fun s => .fromReq s) (fun _ _ h => by cases h; rfl) (e2.fnd c hF) (e2.frm c hF)).all fun _ _ => .ok _
  obtain ⟨w3, h3⟩ := h3
  have e3 : Enr F T w3 := S.failFrom c e2 h3
  have h4 : Fine (checkFailTo c w3) := by
    unfold checkFailTo
    split
    · exact .ok _
    · exact (leaves_fine (K := fun s => .toReq s) (fun _ _ h => by cases h; rfl) (e3.tnd c hT) (e3.tos c hT)).all fun _ _ => .ok _
  exact Fine.andThen ⟨w3, by rw [h1]; simp only [R.andThen, h2, h3], h4⟩

/-- what is known about a state -/
structure Ready (w : World) : Prop where
  good : Good ∅ w
  coh : w.rv.Coh
  enr : Enr ∅ ∅ w
  wide : Wide w

theorem Reach.ready {w : World} (h : Reach Calm w) : Ready w := ⟨h.good, h.coh, h.enr, h.wide⟩

theorem remove_fine {w : World} (h : w.Inv) (c) : Fine (remove c w) := by
  obtain ⟨w', h, _⟩ := remove_removed h c; exact ⟨w', h⟩

theorem removeFail_fine {w : World} (h : Ready w) (c) : Fine (remove c w ⊳ checkFail c) := by
  obtain ⟨w1, h1, r⟩ := remove_removed h.good.inv c
  refine Fine.andThen ⟨w1, h1, ?_⟩
  refine checkFail_fine (F := ∅) (T := ∅) ?_ ((bs_remove (enr_base _ _) h.enr c).to h1) (by simp) (by simp)
  have : w1.rv = w.rv := by
    have hc : ∀ d, (w1.comps d).rc = (w.comps d).rc := by
      intro d
      by_cases hd : d = c
      · subst hd; rw [r.self]; rfl
      · rw [r.other d hd]
    unfold World.rv
    simp only [hc, r.queues, r.res]
  rw [this]; exact h.coh

theorem notData_fine {w : World} (h : Ready w) {c} (hc : w.status c ≠ .data) : Fine (checkNotData c w ⊳ remove c ⊳ checkFail c) := by
  have := removeFail_fine h c
  unfold checkNotData
  rw [if_neg hc]
  exact this

theorem preamble_fine {w : World} (h : Ready w) {c} (hc : w.status c = .current ∨ (w.status c ≠ .data ∧ c ≠ w.main)) : Fine (preamble c w) := by
  unfold preamble
  split
  · exact .ok _
  · rename_i hs
    have hc := hc.resolve_left hs
    have := removeFail_fine h c
    unfold checkNotData
    rw [if_neg hc.1]
    unfold checkNotMain
    simp only [R.andThen]
    rw [if_neg hc.2]
    exact this

theorem preamble_of {w w' : World} {c} (h : preamble c w = .ok w') : w.status c = .current ∨ (w.status c ≠ .data ∧ c ≠ w.main) := by
  unfold preamble at h
  split at h
  · exact .inl ‹_›
  · obtain ⟨_, h, _⟩ := andThen_ok h
    obtain ⟨_, h, _⟩ := andThen_ok h
    obtain ⟨_, h1, h2⟩ := andThen_ok h
    obtain ⟨rfl, hd⟩ := checkNotData_ok h1
    unfold checkNotMain at h2
    split at h2
    · cases h2
    · exact .inr ⟨hd, ‹_›⟩

theorem reschedule_fine {c : CId} {t p : ETime} {u k ret} {w : World} : Fine (reschedule c t p u k ret w) ↔ ((w.now : ETime) ≤ t ∨ k = true) := by
  unfold reschedule
  constructor
  · rintro ⟨w', h⟩
    split at h
    · split at h
      · right; assumption
      · cases h
    · left; exact not_lt.1 ‹_›
  · intro h
    split
    · rename_i ht
      rw [if_pos (h.resolve_left (not_le.2 ht))]
      exact .ok _
    · exact .ok _

theorem wake_fine {w : World} (h : w.Inv) (c ret) : Fine (wake c ret w) := by
  obtain ⟨w', h, _⟩ := wake_woken h c ret; exact ⟨w', h⟩

/-! ## states -/

theorem leavesWaiters_inv {w w' : World} {c : CId} {l : List Wait} (hi : w.Inv) (h : forR l (leaveWaiters c) w = .ok w') : w'.Inv := by
  have := Fr.forR (fun x w => fr_leaveWaiters c x w) l w
  unfold Fr at this
  rw [h] at this
  exact inv_of_ev this hi

theorem tryWait_fine {w : World} (h : w.Inv) (c) : Fine (tryWait c w).1 := by
  unfold tryWait
  split
  · exact .ok _
  · split
    · refine (leavesWaiters_fine _ _ _).all fun w1 h1 => wake_fine ?_ _ _
      exact inv_of_ev (ev_modC fun _ => rfl) (leavesWaiters_inv h h1)
    · exact .ok _

theorem stateTryWait_fine : ∀ (l : List CId) (mx) {w : World}, w.Inv → Fine (stateTryWait l mx w)
  | [], mx, w, h => .ok _
  | c :: t, mx, w, h => by
    unfold stateTryWait
    simp only
    refine (tryWait_fine h c).all fun w1 h1 => ?_
    have i1 : w1.Inv := by have := (wk_tryWait c w).inv h; rw [h1] at this; exact this
    split
    · split
      · exact .ok _
      · exact stateTryWait_fine t _ i1
    · exact stateTryWait_fine t _ i1

/-- while the arguments of a wait are handled -/
structure Waity (c : CId) (n : Rat) (w : World) : Prop where
  rel : ∀ s, c ∈ w.inQ (.waiters s) → s ∈ (w.comps c).waits.map Wait.s
  wide : Wide w
  inv : w.Inv
  now : w.now = n
  off : (w.comps c).onList = false

theorem Wk.now {w w' : World} (h : Wk w w') (hi : w.Inv) : w'.now = w.now := by
  induction h with
  | refl => rfl
  | frame _ he ih => exact (congrArg EV.now he).trans ih
  | @wake a d ret hk ih =>
    obtain ⟨w1, h1, h2⟩ := wake_woken (hk.inv hi) d ret
    rw [h1]; exact h2.now.trans ih

theorem Waity.grow {c : CId} {n : Rat} {w : World} (h : Waity c n w) (x : Wait) : Waity c n (w.modC c (fun y => { y with waits := y.waits ++ [x] })) := by
  refine ⟨fun s hs => ?_, h.wide, inv_of_ev (ev_modC fun _ => rfl) h.inv, h.now, by rw [modC_self]; exact h.off⟩
  rw [modC_self]
  simp only [List.map_append, List.mem_append]
  exact .inl (h.rel s hs)

theorem enter_fine {c : CId} {q : Queue} {n p : Rat} (hc : c ∉ q.mem.map QMem.c) (hk : q.cap = ⊤) :
    (∃ q', q.enterSorted n c p = .ok q') ∧ ∃ q', q.enter n c = .ok q' := by
  have h1 : ¬ q.has c = true := fun h => by
    obtain ⟨m, hm, hmc⟩ := (Queue.has_iff _ _).1 h
    exact hc (List.mem_map.2 ⟨m, hm, hmc⟩)
  unfold Queue.enterSorted Queue.enter Queue.insert
  rw [if_neg h1, if_neg h1, hk]
  have h2 : ¬ ETime.subQ (⊤ : ETime) ((q.len + 1 : Nat) : Rat) < ((0 : Rat) : ETime) := not_lt_of_ge le_top
  rw [if_neg h2, if_neg h2]
  exact ⟨⟨_, rfl⟩, ⟨_, rfl⟩⟩

/-- one more argument -/
theorem Waity.arg {c : CId} {n : Rat} {w : World} (h : Waity c n w) (a : WArg) :
    ∃ w1, waitArg c a w = .ok w1 ∧ Waity c n w1 ∧ (w1.comps c).waits ≠ [] := by
  unfold waitArg
  have last : ∀ w1 : World, ((w1.modC c (fun x => { x with waits := x.waits ++ [⟨a.s, a.ok⟩] })).comps c).waits ≠ [] := by
    intro w1; rw [modC_self]; simp
  split
  · exact ⟨_, rfl, h.grow _, last _⟩
  · rename_i hn
    have hc : c ∉ w.inQ (.waiters a.s) := by
      intro hc
      obtain ⟨x, hx, hxs⟩ := List.mem_map.1 (h.rel _ hc)
      exact hn (List.any_eq_true.2 ⟨x, hx, by simpa using hxs⟩)
    have key : ∀ f q', f (w.queues (.waiters a.s)) = Queue.QR.ok q' → (∃ l1 l2 x, Queue.Entered w.now (w.queues (.waiters a.s)) c q' l1 l2 x) →
        ∃ w1, (onQueue (.waiters a.s) f w ⊳ fun w => .ok (w.modC c (fun x => { x with waits := x.waits ++ [⟨a.s, a.ok⟩] }))) = .ok w1 ∧ Waity c n w1 ∧
          (w1.comps c).waits ≠ [] := by
      intro f q' hf he
      obtain ⟨l1, l2, x, he⟩ := he
      unfold onQueue
      simp only [hf, R.andThen]
      refine ⟨_, rfl, ?_, last _⟩
      refine ⟨fun s hs => ?_, ?_, inv_of_ev (ev_modC fun _ => rfl) (inv_of_ev rfl h.inv), h.now, by rw [modC_self]; exact h.off⟩
      · rw [modC_self]
        simp only [List.map_append, List.mem_append]
        by_cases hsa : s = a.s
        · right; simp [hsa]
        · left
          have : c ∈ (w.modQ (.waiters a.s) (fun _ => q')).inQ (.waiters s) := hs
          rw [inQ_modQ', if_neg (by simpa using hsa)] at this
          exact h.rel s this
      · exact Wide.modQ (f := fun _ => q') h.wide (fun _ => by rw [he.eq])
    obtain ⟨⟨q1, h1⟩, q2, h2⟩ := enter_fine (n := w.now) (p := a.prio.getD 0) hc (h.wide (.waiters a.s) rfl)
    split
    · refine key _ q2 h2 ?_
      obtain ⟨l1, l2, x, hx, _⟩ := Queue.enter_ok h2
      exact ⟨l1, l2, x, hx⟩
    · rename_i p hp
      rw [hp] at h1
      refine key _ q1 h1 ?_
      obtain ⟨l1, l2, x, hx, _⟩ := Queue.enterSorted_ok h1
      exact ⟨l1, l2, x, hx⟩

theorem Waity.args {c : CId} {n : Rat} : ∀ (l : List WArg) {w : World}, Waity c n w → ∃ w1, forR l (waitArg c) w = .ok w1 ∧ Waity c n w1 ∧
    (l ≠ [] → (w1.comps c).waits ≠ [])
  | [], w, h => ⟨w, rfl, h, fun h => absurd rfl h⟩
  | a :: t, w, h => by
    obtain ⟨w1, h1, h2, h3⟩ := h.arg a
    obtain ⟨w2, h4, h5, h6⟩ := Waity.args t h2
    refine ⟨w2, by unfold forR; rw [h1]; exact h4, h5, fun _ => ?_⟩
    cases t with
    | nil => cases h4; exact h3
    | cons b t => exact h6 (by simp)

theorem Waity.done {c : CId} {n : Rat} {w : World} (h : Waity c n w) (hw : (w.comps c).waits ≠ []) {t p : ETime} {u k}
    (ht : (n : ETime) ≤ t ∨ k = true) : Fine (waitEnd c t p u k w) := by
  unfold waitEnd
  rw [if_neg (by simpa using hw)]
  simp only
  have i1 : (w.modC c (fun x => { x with remaining := t.subQ w.now })).Inv := modC_inv_off h.inv h.off (fun _ => by rfl)
  refine (tryWait_fine i1 c).all fun w1 h1 => ?_
  split
  · exact .ok _
  · refine reschedule_fine.2 ?_
    have : w1.now = w.now := by
      have := (wk_tryWait c (w.modC c (fun x => { x with remaining := t.subQ w.now }))).now i1
      rw [h1] at this; exact this
    show (w1.now : ETime) ≤ t ∨ _
    rw [this, h.now]; exact ht

theorem Start.waity {c : CId} {w w' : World} (h : Start ∅ c w w') (hw : Wide w') : Waity c w.now w' :=
  ⟨fun s hs => absurd (h.good.coh _ _ hs) (h.nowait.awaits (q := .waiters s) rfl), hw, h.good.inv, h.now, h.off⟩

/-- one state of wait_for -/
theorem Waity.state {c : CId} {n : Rat} {p : Rat} : ∀ (l : List SId) {w : World}, l.Nodup → (∀ s ∈ l, c ∉ w.inQ (.waiters s)) → Waity c n w →
    ∃ w1, forR l (fun s w => enterSortedQ c (.waiters s) p (w.modC c (fun x => { x with waits := x.waits ++ [⟨s, fun _ => false⟩] }))) w = .ok w1 ∧
      Waity c n w1 ∧ (w1.comps c).waits.length = (w.comps c).waits.length + l.length
  | [], w, _, _, h => ⟨w, rfl, h, by simp⟩
  | s :: t, w, hn, hc, h => by
    rw [List.nodup_cons] at hn
    have hw := h.grow ⟨s, fun _ => false⟩
    have hl : ((w.modC c (fun x => { x with waits := x.waits ++ [⟨s, fun _ => false⟩] })).comps c).waits.length = (w.comps c).waits.length + 1 := by
      rw [modC_self]; simp
    have hs : s ∈ ((w.modC c (fun x => { x with waits := x.waits ++ [⟨s, fun _ => false⟩] })).comps c).waits.map Wait.s := by
      rw [modC_self]; simp
    have hc1 : ∀ s' ∈ s :: t, c ∉ (w.modC c (fun x => { x with waits := x.waits ++ [⟨s, fun _ => false⟩] })).inQ (.waiters s') := hc
    unfold forR
    show ∃ w1, (enterSortedQ c (.waiters s) p (w.modC c (fun x => { x with waits := x.waits ++ [⟨s, fun _ => false⟩] })) ⊳ _) = .ok w1 ∧ _
    generalize w.modC c (fun x => { x with waits := x.waits ++ [⟨s, fun _ => false⟩] }) = w0 at hw hl hc1 hs
    obtain ⟨⟨q', h1⟩, _⟩ := enter_fine (n := w0.now) (p := p) (hc1 s List.mem_cons_self) (hw.wide (.waiters s) rfl)
    obtain ⟨l1, l2, x, hx, _⟩ := Queue.enterSorted_ok h1
    have h2 : enterSortedQ c (.waiters s) p w0 = .ok (w0.modQ (.waiters s) (fun _ => q')) := by
      unfold enterSortedQ onQueue; simp only [h1]
    have hin : ∀ s', s' ≠ s → (w0.modQ (.waiters s) (fun _ => q')).inQ (.waiters s') = w0.inQ (.waiters s') := fun s' hs' => by
      rw [inQ_modQ', if_neg (by simpa using hs')]
    obtain ⟨w2, h3, h4, h5⟩ := Waity.state t (w := w0.modQ (.waiters s) (fun _ => q')) (n := n) (p := p) hn.2
      (fun s' hs' => by rw [hin s' (by rintro rfl; exact hn.1 hs')]; exact hc1 s' (List.mem_cons_of_mem _ hs'))
      ⟨fun s' hs' => by
        by_cases hss : s' = s
        · subst hss; exact hs
        · rw [hin s' hss] at hs'; exact hw.rel s' hs', hw.wide.modQ (fun _ => by rw [hx.eq]), inv_of_ev rfl hw.inv, hw.now, hw.off⟩
    refine ⟨w2, by rw [h2]; exact h3, h4, ?_⟩
    rw [h5]
    show (w0.comps c).waits.length + _ = _
    rw [hl, List.length_cons]; omega

end Verif
