import Verif.EvCore

/-!
# The invariant of the event list is kept by all operations
-/

namespace Verif
open World Heapq

/-! ## empty requests stay empty -/

/-- a component without requests doesn't get requests by this call -/
def Rq (w w' : World) : Prop := ∀ c, (w.comps c).requests = [] → (w'.comps c).requests = []

theorem Rq.refl (w : World) : Rq w w := fun _ h => h
theorem Rq.trans {a b c : World} (h : Rq a b) (h2 : Rq b c) : Rq a c := fun d hd => h2 d (h d hd)
theorem Rq.andThen {r : R} {w : World} {f : World → R} (h : Rq w r.world) (hf : ∀ w', Rq w' (f w').world) : Rq w (r ⊳ f).world := by
  cases r with
  | ok w' => exact h.trans (hf w')
  | err e w' => exact h
theorem Rq.forR {α : Type} {f : α → World → R} (hf : ∀ a w', Rq w' (f a w').world) :
    ∀ (l : List α) (w : World), Rq w (Verif.forR l f w).world
  | [], w => .refl w
  | a :: t, w => Rq.andThen (hf a w) (fun w' => Rq.forR hf t w')
theorem rq_modC {w : World} {c : CId} {f : Comp → Comp} (h : ∀ x, x.requests = [] → (f x).requests = []) : Rq w (w.modC c f) := by
  intro d hd
  simp only [World.modC]
  split
  · exact h _ hd
  · exact hd
theorem rq_comps {w w' : World} (h : w'.comps = w.comps) : Rq w w' := by intro d hd; rw [h]; exact hd
theorem rq_onQueue (q f) (w : World) : Rq w (onQueue q f w).world := by
  unfold onQueue; split <;> exact fun _ h => h
theorem rq_leaveRequesters (c r) (w : World) : Rq w (leaveRequesters c r w).world := by
  refine Rq.andThen (rq_onQueue _ _ _) fun w' => ?_
  show Rq _ (if _ then _ else _)
  split <;> exact fun _ h => h
theorem rq_pre {w w1 w2 : World} (h : ∀ d, (w1.comps d).requests = (w.comps d).requests) (h2 : Rq w1 w2) : Rq w w2 := by
  intro d hd; exact h2 d ((h d).trans hd)
theorem rq_claimOne (c hon p) (w : World) : Rq w (claimOne c hon p w).world := by
  unfold claimOne
  refine Rq.andThen ?_ fun w => rq_leaveRequesters _ _ _
  split
  · simp only
    split
    · exact fun _ h => h
    · split
      · exact fun _ h => h
      · unfold enterClaimers
        refine rq_pre ?_ (w1 := (w.modR p.1 (fun x => { x with claimed := x.claimed + p.2, log := x.log.claims w.now x.cap (x.claimed + p.2) })).modC c
          (fun x => { x with claims := addTo x.claims p.1 p.2 })) ?_
        · intro d; simp only [World.modC, World.modR]; split <;> rfl
        · split
          · exact Rq.refl _
          · exact rq_onQueue _ _ _
  · exact Rq.refl _
theorem rq_push (c t p u ret) (w : World) : Rq w (push c t p u ret w) := by
  unfold push
  split
  · exact Rq.refl _
  · refine Rq.trans (rq_modC (c := c) (f := fun x => { x with onList := true }) fun _ h => h) ?_
    exact rq_comps rfl
theorem rq_remove (c) (w : World) : Rq w (remove c w).world := by
  unfold remove
  split
  · split
    · refine Rq.trans (rq_modC (c := c) (f := fun x => { x with onList := false }) fun _ h => h) ?_
      exact rq_comps rfl
    · exact Rq.refl _
  · split <;> exact fun _ h => h
theorem rq_reschedule (c t p u k ret) (w : World) : Rq w (reschedule c t p u k ret w).world := by
  have hm : ∀ t : ETime, ∀ d, ((w.modC c (fun x => { x with schedTime := t })).comps d).requests = (w.comps d).requests := by
    intro t d; simp only [World.modC]; split <;> rfl
  unfold reschedule
  split
  · split
    · simp only [R.world]; exact rq_pre (hm _) (rq_push _ _ _ _ _ _)
    · exact Rq.refl _
  · simp only [R.world]; exact rq_pre (hm _) (rq_push _ _ _ _ _ _)
theorem rq_wake (c ret) (w : World) : Rq w (wake c ret w).world := by
  refine Rq.andThen (rq_remove _ _) fun w' => ?_
  refine Rq.trans (rq_modC ?_) (rq_reschedule _ _ _ _ _ _ _)
  exact fun _ h => h

theorem rq_honorNow {c : CId} {w : World} {r : R} (h : honorNow c w = some r) : Rq w r.world := by
  unfold honorNow at h
  split at h
  · cases h
  · cases h
    refine Rq.andThen (Rq.forR (fun p w => rq_claimOne c _ p w) _ _) fun w' => ?_
    refine Rq.trans (rq_modC ?_) (rq_wake _ _ _)
    exact fun _ _ => rfl

theorem rq_try (fuel : Nat) : (∀ c w, Rq w (tryReqC fuel c w).world) ∧ (∀ rs w, Rq w (tryReqList fuel rs w).world) ∧
    (∀ r w, Rq w (tryReqR fuel r w).world) ∧ (∀ r mx f w, Rq w (loopR fuel r mx f w).world) := by
  induction fuel with
  | zero =>
    refine ⟨fun c w => ?_, fun rs w => ?_, fun r w => ?_, fun r mx f w => ?_⟩
    · rw [tryReqC]; exact .refl _
    · rw [tryReqList]; exact .refl _
    · rw [tryReqR]; exact .refl _
    · rw [loopR]; exact .refl _
  | succ n ih =>
    obtain ⟨i1, i2, i3, i4⟩ := ih
    refine ⟨fun c w => ?_, fun rs w => ?_, fun r w => ?_, fun r mx f w => ?_⟩
    · rw [tryReqC]
      split
      · exact .refl _
      · rename_i res hres
        exact Rq.andThen (rq_honorNow hres) (i2 _)
    · rw [tryReqList.eq_def]
      simp only
      split
      · exact .refl _
      · exact Rq.andThen (i3 _ _) (i2 _)
    · rw [tryReqR]
      split
      · split
        · exact .refl _
        · exact Rq.andThen (rq_pre (w1 := w.modR r (fun x => { x with trying := true })) (fun _ => rfl) (i4 _ _ _ _)) fun w' => rq_comps rfl
      · exact i4 _ _ _ _
    · rw [loopR.eq_def]
      simp only
      split
      · exact .refl _
      · split
        · exact .refl _
        · split
          · exact .refl _
          · split
            · exact .refl _
            · split
              · exact .refl _
              · refine Rq.andThen (i1 _ _) fun w' => ?_
                split
                · exact i4 _ _ _ _
                · exact i4 _ _ _ _

/-- after `Component._tryrequest` either nothing has happened, or the requests of the component are gone -/
theorem tryReqC_requests {fuel c} {w w' : World} (h : tryReqC fuel c w = .ok w') : w' = w ∨ (w'.comps c).requests = [] := by
  cases fuel with
  | zero => rw [tryReqC] at h; cases h
  | succ n =>
    rw [tryReqC] at h
    split at h
    · cases h; exact .inl rfl
    · rename_i res hres
      right
      cases res with
      | err e w1 => simp [R.andThen] at h
      | ok w1 =>
        have h1 : (w1.comps c).requests = [] := by
          unfold honorNow at hres
          split at hres
          · cases hres
          · simp only [Option.some.injEq] at hres
            generalize forR (w.comps c).requests (claimOne c (honored w c)) w = r at hres
            cases r with
            | err e w2 => simp [R.andThen] at hres
            | ok w2 =>
              simp only [R.andThen] at hres
              have := rq_wake c none (w2.modC c (fun x => { x with requests := [] })) c (by simp [World.modC])
              rw [hres] at this
              exact this
        have h2 : (tryReqList n ((keys (w.comps c).requests).filter (fun r => (w.res r).anonymous)) w1) = .ok w' := h
        have := (rq_try n).2.1 ((keys (w.comps c).requests).filter (fun r => (w.res r).anonymous)) w1 c h1
        rw [h2] at this
        exact this

/-! ## operations on one component leave the others' events alone -/

theorem push_other {c d : CId} (h : d ≠ c) (t p u ret) (w : World) : (push c t p u ret w).comps d = w.comps d := by
  unfold push
  split
  · rfl
  · simp [World.modC, h]
theorem remove_other {c d : CId} (h : d ≠ c) (w : World) : (remove c w).world.comps d = w.comps d := by
  unfold remove
  split
  · split
    · simp [World.modC, R.world, h]
    · rfl
  · split <;> rfl
theorem modC_other {c d : CId} (h : d ≠ c) (f) (w : World) : (w.modC c f).comps d = w.comps d := by
  simp [World.modC, h]
theorem reschedule_other {c d : CId} (h : d ≠ c) (t p u k ret) (w : World) :
    (reschedule c t p u k ret w).world.comps d = w.comps d := by
  unfold reschedule
  split
  · split
    · simp only [R.world]; exact Eq.trans (push_other h _ _ _ _ _) (by simp [World.modC, h])
    · rfl
  · simp only [R.world]; exact Eq.trans (push_other h _ _ _ _ _) (by simp [World.modC, h])

theorem andThen_other {c : CId} {w : World} {β : Type} (g : Comp → β) {r : R} {f : World → R}
    (h : g (r.world.comps c) = g (w.comps c))
    (hf : ∀ w', g ((f w').world.comps c) = g (w'.comps c)) : g ((r ⊳ f).world.comps c) = g (w.comps c) := by
  cases r with
  | ok w' => exact (hf w').trans h
  | err e w' => exact h

theorem fr_cv {r : R} {w : World} (h : Fr r w) (c : CId) : (r.world.comps c).cv = (w.comps c).cv := congrFun (congrArg EV.comps h) c

theorem activate_other {c d : CId} (h : c ≠ d) (a dl p u k pr kr kw) (w : World) :
    ((activate d a dl p u k pr kr kw w).world.comps c).cv = (w.comps c).cv := by
  unfold activate
  simp only
  split
  · rfl
  · refine andThen_other Comp.cv ?_ fun w' => ?_
    · split
      · rfl
      · refine andThen_other Comp.cv (congrArg Comp.cv (remove_other h w)) fun w' => ?_
        split
        · rfl
        · exact fr_cv (fr_checkFail _ _) _
    · exact congrArg Comp.cv ((reschedule_other h _ _ _ _ _ _).trans (modC_other h _ _))

/-! ## the invariant -/

theorem inv_andThen {r : R} {f : World → R} (h : r.world.Inv) (hf : ∀ w', r = .ok w' → w'.Inv → (f w').world.Inv) :
    (r ⊳ f).world.Inv := by
  cases r with
  | ok w' => exact hf w' rfl h
  | err e w' => exact h

/-- `P` holds afterwards if the call returns -/
def Ok (P : World → Prop) (r : R) : Prop := ∀ w', r = .ok w' → P w'

theorem Ok.andThen {P Q : World → Prop} {r : R} {f : World → R} (h : Ok P r) (hf : ∀ w', P w' → Ok Q (f w')) : Ok Q (r ⊳ f) := by
  cases r with
  | ok w' => exact hf w' (h w' rfl)
  | err e w' => intro w'' he; cases he
theorem Ok.mono {P Q : World → Prop} {r : R} (h : Ok P r) (hf : ∀ w', P w' → Q w') : Ok Q r := fun w' he => hf w' (h w' he)

theorem ok_fr {r : R} {w : World} (h : Fr r w) : Ok (fun w' => w'.ev = w.ev) r := by
  intro w' he; subst he; exact h

/-- the invariant, and `c` has no pending event -/
def Off (c : CId) (w : World) : Prop := w.Inv ∧ (w.comps c).onList = false

theorem Off.of_ev {c : CId} {w w' : World} (h : Off c w) (he : w'.ev = w.ev) : Off c w' := by
  refine ⟨inv_of_ev he h.1, ?_⟩
  have : (w'.ev.comps c).onList = (w.ev.comps c).onList := by rw [he]
  exact this.trans h.2

/-- outcome of a prologue: the invariant always, and if it returns, no pending event for `c` -/
def Pro (c : CId) (r : R) : Prop := r.world.Inv ∧ Ok (Off c) r

theorem Pro.ok {c : CId} {w : World} (h : Off c w) : Pro c (.ok w) := ⟨h.1, fun w' he => by cases he; exact h⟩
theorem Pro.err {c : CId} {w : World} {e} (h : w.Inv) : Pro c (.err e w) := ⟨h, fun w' he => by cases he⟩
theorem Pro.andThen {c : CId} {r : R} {f : World → R} (h : Pro c r) (hf : ∀ w', Off c w' → Pro c (f w')) : Pro c (r ⊳ f) := by
  cases r with
  | ok w' => exact hf w' (h.2 w' rfl)
  | err e w' => exact .err h.1
theorem Pro.inv {c : CId} {r : R} {f : World → R} (h : Pro c r) (hf : ∀ w', Off c w' → (f w').world.Inv) : (r ⊳ f).world.Inv := by
  cases r with
  | ok w' => exact hf w' (h.2 w' rfl)
  | err e w' => exact h.1
theorem Pro.fr {c : CId} {r : R} {w : World} (h : Fr r w) (hw : Off c w) : Pro c r :=
  ⟨h.inv hw.1, fun _ he => hw.of_ev (by subst he; exact h)⟩

theorem pro_remove {w : World} (h : w.Inv) (c : CId) : Pro c (remove c w) := by
  obtain ⟨w', he, hi, ho, _⟩ := remove_ok h c
  rw [he]
  exact .ok ⟨hi, ho⟩

theorem pro_removeFail {w : World} (h : w.Inv) (c : CId) : Pro c (checkNotData c w ⊳ remove c ⊳ checkFail c) := by
  unfold checkNotData
  split
  · exact .err h
  · exact (pro_remove h c).andThen fun w' hw => .fr (fr_checkFail _ _) hw

theorem off_of_status {w : World} (h : w.Inv) {c : CId} (hs : w.status c = .current ∨ w.status c = .passive ∨
    w.status c = .interrupted ∨ w.status c = .standby) : Off c w := ⟨h, h.not_on hs⟩

theorem pro_preamble {w : World} (h : w.Inv) (c : CId) : Pro c (preamble c w) := by
  unfold preamble
  split
  · rename_i hs
    exact .ok (off_of_status h (.inl hs))
  · unfold checkNotData checkNotMain
    split
    · exact .err h
    · by_cases hm : c = w.main
      · simp only [hm, if_true, R.andThen]
        exact .err h
      · simp only [hm, if_false, R.andThen]
        exact (pro_remove h c).andThen fun w' hw => .fr (fr_checkFail _ _) hw

theorem modC_inv_off' {w : World} (h : w.Inv) {c : CId} {f : Comp → Comp} (ho : (w.comps c).onList = false)
    (hf : ∀ x, (f x).onList = x.onList) : (R.ok (w.modC c f)).world.Inv := modC_inv_off h ho hf

theorem hold_inv {w : World} (h : w.Inv) (c d t p u k i) : (hold c d t p u k i w).world.Inv := by
  unfold hold
  refine Pro.inv (c := c) ?_ fun w hw => ?_
  · split
    · rename_i hs
      exact .ok (off_of_status h (by rcases hs with h | h <;> simp [h]))
    · exact pro_removeFail h c
  · split
    · exact hw.1
    · split
      · exact hw.1
      · simp only
        split
        · exact modC_inv_off' hw.1 hw.2 (fun _ => by rfl)
        · exact resched_set_inv hw.1 (.inl rfl) _ _ _ _ _ hw.2

theorem passivate_inv {w : World} (h : w.Inv) (c) : (passivate c w).world.Inv := by
  unfold passivate
  refine Pro.inv (c := c) ?_ fun w hw => ?_
  · split
    · rename_i hs
      have := off_of_status h (.inl hs)
      exact .ok ⟨modC_inv_off this.1 this.2 (fun _ => by rfl), by simpa [World.modC] using this.2⟩
    · exact (pro_removeFail h c).andThen fun w' hw =>
        .ok ⟨modC_inv_off hw.1 hw.2 (fun _ => by rfl), by simpa [World.modC] using hw.2⟩
  · exact modC_inv_off' hw.1 hw.2 (fun _ => by rfl)

theorem activate_inv {w : World} (h : w.Inv) (c a d p u k pr kr kw) : (activate c a d p u k pr kr kw w).world.Inv := by
  unfold activate
  simp only
  split
  · exact h
  · refine Pro.inv (c := c) ?_ fun w hw => ?_
    · split
      · rename_i hs
        exact .ok (off_of_status h (.inl hs))
      · refine (pro_remove h c).andThen fun w' hw => ?_
        split
        · exact .ok hw
        · exact .fr (fr_checkFail _ _) hw
    · exact resched_set_inv hw.1 (.inl rfl) _ _ _ _ _ hw.2

theorem create_inv {w : World} (h : w.Inv) (c a d p u k s) : (create c a d p u k s w).world.Inv := by
  unfold create
  split
  · exact h
  · rename_i hs
    push Not at hs
    have hoff : (w.comps c).onList = false := by simpa using hs.2
    simp only
    refine reschedule_inv (modC_inv_off h hoff (fun _ => by rfl)) _ _ _ _ _ ?_ ?_
    · simpa [World.modC] using hoff
    · simp [World.modC, Status.sch]

theorem interrupt_inv {w : World} (h : w.Inv) (c) : (interrupt c w).world.Inv := by
  unfold interrupt
  split
  · rename_i hs
    have := off_of_status h (c := c) (by simp [hs])
    exact modC_inv_off' this.1 this.2 (fun _ => by rfl)
  · split
    · exact (pro_remove h c).inv fun w' hw => modC_inv_off' hw.1 hw.2 (fun _ => by rfl)
    · exact h

theorem resume_inv {w : World} (h : w.Inv) (c a p u) : (resume c a p u w).world.Inv := by
  unfold resume
  split
  · rename_i hs
    have h0 := off_of_status h (c := c) (by simp [hs])
    have h1 : Off c (w.modC c (fun x => { x with intrLevel := x.intrLevel - 1 })) :=
      ⟨modC_inv_off h0.1 h0.2 (fun _ => by rfl), by simpa [World.modC] using h0.2⟩
    simp only
    generalize w.modC c (fun x => { x with intrLevel := x.intrLevel - 1 }) = w1 at h1 ⊢
    split
    · exact h1.1
    · have h2 : Off c (setStatus c (w1.comps c).intrStatus w1) :=
        ⟨modC_inv_off h1.1 h1.2 (fun _ => by rfl), by simpa [setStatus, World.modC] using h1.2⟩
      generalize setStatus c (w1.comps c).intrStatus w1 = w2 at h2 ⊢
      split
      · rename_i hs2
        exact reschedule_inv h2.1 _ _ _ _ _ h2.2 (.inl hs2)
      · exact h2.1
  · exact h

theorem standby_inv {w : World} (h : w.Inv) (c) : (standby c w).world.Inv := by
  unfold standby
  refine (pro_preamble h c).inv fun w' hw => ?_
  have := modC_inv_off (f := fun x => { x with schedTime := (w'.now : ETime), status := .standby }) hw.1 hw.2 (fun _ => by rfl)
  exact ⟨this.heap, this.ge, this.nodup, this.on, this.sched, this.st, this.seqle, this.seqnd⟩

theorem setRemaining_inv {w : World} (h : w.Inv) (c v p u) : (setRemaining c v p u w).world.Inv := by
  unfold setRemaining
  split
  · rename_i hs
    have := off_of_status h (c := c) (by rcases hs with h | h <;> simp [h])
    exact modC_inv_off' this.1 this.2 (fun _ => by rfl)
  · rename_i h1
    split
    · exact h
    · rename_i h2
      have hst : (w.comps c).status.sch := by
        push Not at h1 h2
        unfold Status.sch
        simp only [World.status] at h1 h2
        generalize (w.comps c).status = s at h1 h2
        cases s <;> simp_all
      obtain ⟨w', he, hi, ho, hs, hn, _⟩ := remove_ok h c
      rw [he]
      exact reschedule_inv hi _ _ _ _ _ ho (by rw [hs]; exact hst)

theorem cancel_inv {w : World} (h : w.Inv) (fuel c) : (cancel fuel c w).world.Inv := by
  unfold cancel
  split
  · exact h
  · refine inv_andThen (inv_andThen (r := (if _ then _ else _)) ?_ fun w' _ hw => (wk_releaseAll fuel c w').inv hw) fun w' _ hw => ?_
    · split
      · exact h
      · exact (pro_removeFail h c).1
    · by_cases ho : (w'.comps c).onList = false
      · exact modC_inv_off' hw ho (fun _ => by rfl)
      · simp only [Bool.not_eq_false] at ho
        refine EvInv.mk hw.heap hw.ge hw.nodup ?_ ?_ ?_ hw.seqle hw.seqnd
        · intro d
          rw [show (((R.ok (w'.modC c (fun x => { x with schedTime := ⊤, status := .data }))).world.ev).comps d).onList
            = (w'.ev.comps d).onList by
              simp only [R.world, World.ev, World.modC]; split <;> rfl]
          exact hw.on d
        · intro x hx
          simp only [R.world, World.ev, World.modC, Comp.cv]
          split
          · simp
          · exact hw.sched x hx
        · intro d
          simp only [R.world, World.ev, World.modC, Comp.cv]
          split
          · intro _; simp [Status.sch]
          · exact hw.st d

theorem data_inv {w : World} (h : w.Inv) (c : CId) (f : Comp → Comp) (h1 : ∀ x, (f x).onList = x.onList)
    (h2 : ∀ x, (f x).status = .data) : (w.modC c f).Inv := by
  refine EvInv.mk h.heap h.ge h.nodup ?_ ?_ ?_ h.seqle h.seqnd
  · intro d
    rw [show ((w.modC c f).ev.comps d).onList = (w.ev.comps d).onList by
        simp only [World.ev, World.modC, Comp.cv]; split <;> simp [h1]]
    exact h.on d
  · intro x hx
    simp only [World.ev, World.modC, Comp.cv]
    split
    · simp [h2]
    · exact h.sched x hx
  · intro d
    simp only [World.ev, World.modC, Comp.cv]
    split
    · intro _; simp [Status.sch, h2]
    · exact h.st d

theorem terminate_inv {w : World} (h : w.Inv) (fuel c) : (terminate fuel c w).world.Inv := by
  unfold terminate
  refine inv_andThen ((wk_releaseAll fuel c w).inv h) fun w' _ hw => ?_
  simp only [R.world]
  exact data_inv hw c _ (fun _ => rfl) (fun _ => rfl)

/-! ### requests -/

theorem bump_mem {q prio : Rat} : ∀ {l : List QMem} {av : ETime} {d : CId}, d ∈ bumpCandidates av q prio l → ∃ m ∈ l, m.c = d
  | [], av, d, h => by simp [bumpCandidates] at h
  | m :: ms, av, d, h => by
    unfold bumpCandidates at h
    split at h
    · cases h
    · split at h
      · cases h
      · rcases List.mem_cons.1 h with rfl | h
        · exact ⟨m, by simp, rfl⟩
        · obtain ⟨m', hm, hd⟩ := bump_mem h
          exact ⟨m', by simp [hm], hd⟩

theorem pro_forR {α : Type} {c : CId} {f : α → World → R} {l : List α} (hf : ∀ a ∈ l, ∀ w', Off c w' → Pro c (f a w')) :
    ∀ {w : World}, Off c w → Pro c (forR l f w) := by
  induction l with
  | nil => intro w h; exact .ok h
  | cons a t ih =>
    intro w h
    exact (hf a (by simp) w h).andThen fun w' hw => ih (fun b hb => hf b (by simp [hb])) hw

theorem pro_preempt {c : CId} {w : World} (h : Off c w) (r q prio) (hc : (w.queues (.claimers r)).has c = false) :
    Pro c (preempt r q prio w) := by
  unfold preempt
  simp only
  split
  · refine pro_forR (fun d hd w' hw => ?_) h
    have hdc : c ≠ d := by
      rintro rfl
      obtain ⟨m, hm, hmc⟩ := bump_mem hd
      have : (w.queues (.claimers r)).has c = true := by
        simp only [Queue.has, List.any_eq_true]
        exact ⟨m, by simpa using hm, by simp [hmc]⟩
      rw [hc] at this; cases this
    refine Pro.andThen (.fr (fr_releaseCore _ _ _ _) hw) fun w1 h1 => ?_
    refine ⟨activate_inv h1.1 _ _ _ _ _ _ _ _ _, fun w2 he => ⟨?_, ?_⟩⟩
    · have := activate_inv h1.1 d none ((0:Rat):ETime) ((0:Rat):ETime) false false false false false
      rw [he] at this; exact this
    · have := activate_other hdc none ((0:Rat):ETime) ((0:Rat):ETime) false false false false false w1
      rw [he] at this
      have : (w2.comps c).onList = (w1.comps c).onList := congrArg CV.onList this
      rw [this]; exact h1.2
  · exact .ok h

/-- arguments of `request` for which the model of the code keeps the event list consistent: at least one, and a component doesn't
request a preemptive resource that it claims already (in that case it bumps and activates itself) -/
def ReqOK (w : World) (c : CId) (args : List Arg) : Prop :=
  args ≠ [] ∧ ∀ a ∈ args, (w.res a.r).preemptive = true → (w.queues (.claimers a.r)).has c = false

/-- resources and claimers queues are untouched -/
def SameCl (w w' : World) : Prop := (∀ r, (w'.res r).preemptive = (w.res r).preemptive) ∧
  ∀ r, w'.queues (.claimers r) = w.queues (.claimers r)
theorem SameCl.refl (w : World) : SameCl w w := ⟨fun _ => rfl, fun _ => rfl⟩
theorem SameCl.trans {a b c : World} (h : SameCl a b) (h2 : SameCl b c) : SameCl a c :=
  ⟨fun r => (h2.1 r).trans (h.1 r), fun r => (h2.2 r).trans (h.2 r)⟩
theorem SameCl.andThen {r : R} {w : World} {f : World → R} (h : SameCl w r.world) (hf : ∀ w', SameCl w' (f w').world) :
    SameCl w (r ⊳ f).world := by
  cases r with
  | ok w' => exact h.trans (hf w')
  | err e w' => exact h
theorem SameCl.forR {α : Type} {f : α → World → R} (hf : ∀ a w', SameCl w' (f a w').world) :
    ∀ (l : List α) (w : World), SameCl w (Verif.forR l f w).world
  | [], w => .refl w
  | a :: t, w => SameCl.andThen (hf a w) (fun w' => SameCl.forR hf t w')
theorem sc_onQueue {q f} (hq : ∀ r, q ≠ .claimers r) (w : World) : SameCl w (onQueue q f w).world := by
  unfold onQueue; split
  · refine ⟨fun _ => rfl, fun r => ?_⟩
    simp [R.world, World.modQ, (hq r).symm]
  · exact .refl _
theorem sc_leaveRequesters (c r) (w : World) : SameCl w (leaveRequesters c r w).world := by
  refine SameCl.andThen (sc_onQueue (by simp) _) fun w' => ?_
  show SameCl w' (if _ then _ else _)
  split
  · refine ⟨fun r' => ?_, fun _ => rfl⟩
    simp only [World.modR]; split <;> rfl
  · exact .refl _
theorem sc_checkFail (c) (w : World) : SameCl w (checkFail c w).world := by
  unfold checkFail
  refine SameCl.andThen (SameCl.andThen (SameCl.andThen ?_ fun w => ?_) fun w => ?_) fun w => ?_
  · unfold checkFailReq; split
    · exact .refl _
    · exact SameCl.andThen (SameCl.forR (fun r w => sc_leaveRequesters c r w) _ _) fun w => ⟨fun _ => rfl, fun _ => rfl⟩
  · unfold checkFailWait; split
    · exact .refl _
    · refine SameCl.andThen (SameCl.forR (fun r w => ?_) _ _) fun w => ⟨fun _ => rfl, fun _ => rfl⟩
      unfold leaveWaiters
      split
      · exact sc_onQueue (by simp) _
      · exact .refl _
  · unfold checkFailFrom; split
    · exact .refl _
    · exact SameCl.andThen (SameCl.forR (fun r w => sc_onQueue (by simp) _) _ _) fun w => ⟨fun _ => rfl, fun _ => rfl⟩
  · unfold checkFailTo; split
    · exact .refl _
    · exact SameCl.andThen (SameCl.forR (fun r w => sc_onQueue (by simp) _) _ _) fun w => ⟨fun _ => rfl, fun _ => rfl⟩
theorem sc_remove (c) (w : World) : SameCl w (remove c w).world := by
  unfold remove
  split
  · split <;> exact ⟨fun _ => rfl, fun _ => rfl⟩
  · split <;> exact ⟨fun _ => rfl, fun _ => rfl⟩
theorem sc_preamble (c) (w : World) : SameCl w (preamble c w).world := by
  unfold preamble
  split
  · exact .refl _
  · refine SameCl.andThen (SameCl.andThen (SameCl.andThen ?_ fun w => ?_) fun w => sc_remove _ _) fun w => sc_checkFail _ _
    · unfold checkNotData; split <;> exact .refl _
    · unfold checkNotMain; split <;> exact .refl _

theorem request_inv {w : World} (h : w.Inv) (fuel c args o pu fa fd p u k) (hr : ReqOK w c args) :
    (request fuel c args o pu fa fd p u k w).world.Inv := by
  have h0 : (w.modC c (fun x => { x with oneof := o })).Inv := inv_of_ev (by exact ev_modC fun _ => rfl) h
  have hs0 : SameCl w (preamble c (w.modC c (fun x => { x with oneof := o }))).world :=
    SameCl.trans (b := (w.modC c (fun x => { x with oneof := o }))) ⟨fun _ => rfl, fun _ => rfl⟩ (sc_preamble _ _)
  unfold request
  have hp := pro_preamble h0 c
  generalize preamble c (w.modC c (fun x => { x with oneof := o })) = r at hp hs0 ⊢
  cases r with
  | err e w1 => exact hp.1
  | ok w1 =>
    have hw1 := hp.2 w1 rfl
    simp only [R.andThen]
    split
    · exact hw1.1
    · rename_i t _
      have hne : args.isEmpty = false := by
        cases args with
        | nil => exact absurd rfl hr.1
        | cons a t => rfl
      simp only [hne, Bool.false_eq_true, if_false]
      have hw2 : Off c (w1.modC c (fun x => { x with failed := false })) := hw1.of_ev (by exact ev_modC fun _ => rfl)
      have hs2 : SameCl w (w1.modC c (fun x => { x with failed := false })) := hs0.trans ⟨fun _ => rfl, fun _ => rfl⟩
      generalize w1.modC c (fun x => { x with failed := false }) = w2 at hw2 hs2
      have hargs : Pro c (forR args (requestArg c args.length pu) w2) := by
        obtain ⟨_, hr⟩ := hr
        match args, hr with
        | [], _ => exact .ok hw2
        | [a], hr =>
          have ha := hr a (by simp)
          refine Pro.andThen ?_ fun w' hw => .ok hw
          unfold requestArg
          simp only
          generalize (if pu = true then -a.q else a.q) = q
          split
          · exact .err hw2.1
          · split
            · exact .err hw2.1
            · have hoff : Off c (w2.modC c (fun x => { x with requests := addTo x.requests a.r q })) :=
                hw2.of_ev (by exact ev_modC fun _ => rfl)
              have hsc : SameCl w (enterSortedQ c (.requesters a.r) a.prio
                  (w2.modC c (fun x => { x with requests := addTo x.requests a.r q }))).world :=
                hs2.trans (SameCl.trans (b := (w2.modC c (fun x => { x with
                  requests := addTo x.requests a.r q }))) ⟨fun _ => rfl, fun _ => rfl⟩
                  (sc_onQueue (by simp) _))
              have hpro : Pro c (enterSortedQ c (.requesters a.r) a.prio
                  (w2.modC c (fun x => { x with requests := addTo x.requests a.r q }))) :=
                .fr (fr_enterSortedQ _ _ _ _) hoff
              generalize enterSortedQ c (.requesters a.r) a.prio
                (w2.modC c (fun x => { x with requests := addTo x.requests a.r q })) = r3 at hsc hpro
              cases r3 with
              | err e w3 => exact .err hpro.1
              | ok w3 =>
                have hw3 := hpro.2 w3 rfl
                simp only [R.andThen]
                split
                · rename_i hpre
                  refine pro_preempt hw3 _ _ _ ?_
                  have : (w3.queues (.claimers a.r)) = w.queues (.claimers a.r) := hsc.2 a.r
                  rw [this]
                  apply ha
                  rw [← hs2.1 a.r]; exact hpre
                · exact .ok hw3
        | a :: b :: t, hr =>
          refine pro_forR (fun x hx w' hw => ?_) hw2
          unfold requestArg
          simp only
          generalize (if pu = true then -x.q else x.q) = q
          split
          · exact .err hw.1
          · rename_i hpre
            simp only [List.length_cons, gt_iff_lt, not_and, not_lt] at hpre
            have hpre' : (w'.res x.r).preemptive = false := by
              by_contra hcon
              have := hpre (by simpa using hcon)
              omega
            split
            · exact .err hw.1
            · have hoff : Off c (w'.modC c (fun y => { y with requests := addTo y.requests x.r q })) :=
                hw.of_ev (by exact ev_modC fun _ => rfl)
              refine (Pro.fr (fr_enterSortedQ _ _ _ _) hoff).andThen fun w3 h3 => ?_
              simp only [hpre', Bool.false_eq_true, if_false]
              exact .ok h3
      refine hargs.inv fun w3 h3 => ?_
      have h4 : Off c ((lowerMinq (w3.comps c).requests w3).modC c
          (fun x => { x with remaining := t.subQ (lowerMinq (w3.comps c).requests w3).now })) := by
        have h5 := h3.of_ev (fr_lowerMinq (w3.comps c).requests w3)
        exact ⟨modC_inv_off h5.1 h5.2 (fun _ => by rfl), by simpa [World.modC] using h5.2⟩
      generalize ((lowerMinq (w3.comps c).requests w3).modC c
          (fun x => { x with remaining := t.subQ (lowerMinq (w3.comps c).requests w3).now })) = w4 at h4 ⊢
      refine inv_andThen (((wk_try fuel).1 c w4).inv h4.1) fun w5 he h5 => ?_
      split
      · exact h5
      · rename_i hreq
        rcases tryReqC_requests he with rfl | hreq'
        · exact resched_set_inv h5 (.inr (.inl rfl)) _ _ _ _ _ h4.2
        · exact absurd hreq' hreq

/-! ### wait -/

theorem wq_tryWait {c : CId} {w w' : World} (h : (tryWait c w).1 = .ok w') : w' = w ∨ (w'.comps c).waits = [] := by
  unfold tryWait at h
  split at h
  · cases h; exact .inl rfl
  · split at h
    · right
      generalize forR (w.comps c).waits (leaveWaiters c) w = r at h
      cases r with
      | err e w2 => simp [R.andThen] at h
      | ok w2 =>
        simp only [R.andThen] at h
        have hw : ((w2.modC c (fun x => { x with waits := [] })).comps c).waits = [] := by simp [World.modC]
        generalize w2.modC c (fun x => { x with waits := [] }) = w3 at h hw
        unfold wake at h
        cases hr : remove c w3 with
        | err e w4 => rw [hr] at h; simp [R.andThen] at h
        | ok w4 =>
          rw [hr] at h
          simp only [R.andThen] at h
          have h4 : (w4.comps c).waits = [] := by
            have : w4.comps c = (remove c w3).world.comps c := by rw [hr]; rfl
            rw [this]
            unfold remove
            split
            · split
              · simpa [World.modC, R.world] using hw
              · exact hw
            · split <;> exact hw
          have h5 : ((setStatus c .scheduled w4).comps c).waits = [] := by simpa [setStatus, World.modC] using h4
          generalize setStatus c .scheduled w4 = w5 at h h5
          have hpush : ∀ (w : World) t ret, (w.comps c).waits = [] → ((push c t ((0:Rat):ETime) false ret w).comps c).waits = [] := by
            intro w t ret hw
            unfold push
            split
            · exact hw
            · simpa [World.modC] using hw
          unfold reschedule at h
          split at h
          · simp at h
          · simp only [R.ok.injEq] at h
            rw [← h]
            exact hpush _ _ _ (by simpa [World.modC] using h5)
    · cases h; exact .inl rfl

theorem waitEnd_inv {w : World} {c : CId} (h : Off c w) (t p u k) : (waitEnd c t p u k w).world.Inv := by
  unfold waitEnd
  split
  · exact h.1
  · simp only
    have h4 : Off c (w.modC c (fun x => { x with remaining := t.subQ w.now })) :=
      ⟨modC_inv_off h.1 h.2 (fun _ => by rfl), by simpa [World.modC] using h.2⟩
    generalize w.modC c (fun x => { x with remaining := t.subQ w.now }) = w4 at h4 ⊢
    refine inv_andThen ((wk_tryWait c w4).inv h4.1) fun w5 he h5 => ?_
    split
    · exact h5
    · rename_i hreq
      rcases wq_tryWait he with rfl | hreq'
      · exact resched_set_inv h5 (.inr (.inr (.inl rfl))) _ _ _ _ _ h4.2
      · exact absurd (by simp [hreq']) hreq

theorem wait_inv {w : World} (h : w.Inv) (c args a fa fd p u k) : (wait c args a fa fd p u k w).world.Inv := by
  unfold wait
  have h0 : (w.modC c (fun x => { x with cond := none })).Inv := inv_of_ev (by exact ev_modC fun _ => rfl) h
  refine (pro_preamble h0 c).inv fun w1 h1 => ?_
  have h2 : Off c (w1.modC c (fun x => { x with waitAll := a, failed := false })) := h1.of_ev (by exact ev_modC fun _ => rfl)
  simp only
  generalize w1.modC c (fun x => { x with waitAll := a, failed := false }) = w2 at h2 ⊢
  split
  · exact h2.1
  · exact (Pro.fr (Fr.forR (fun a w => fr_waitArg c a w) _ _) h2).inv fun w3 h3 => waitEnd_inv h3 _ _ _ _

theorem waitFor_inv {w : World} (h : w.Inv) (c f ss fa fd p u k) : (waitFor c f ss fa fd p u k w).world.Inv := by
  unfold waitFor
  refine (pro_preamble h c).inv fun w1 h1 => ?_
  have h2 : Off c (w1.modC c (fun x => { x with failed := false })) := h1.of_ev (by exact ev_modC fun _ => rfl)
  simp only
  generalize w1.modC c (fun x => { x with failed := false }) = w2 at h2 ⊢
  split
  · exact h2.1
  · have h3 : Off c (w2.modC c (fun x => { x with cond := some f })) := h2.of_ev (by exact ev_modC fun _ => rfl)
    refine (Pro.fr (Fr.forR (fun a w => ?_) _ _) h3).inv fun w3 h3 => waitEnd_inv h3 _ _ _ _
    exact (fr_enterSortedQ _ _ _ _).trans' (by exact ev_modC fun _ => rfl)

/-! ### stores -/

theorem fromStore_inv {w : World} (h : w.Inv) (fuel c ss f k rp fa fd p u cp) :
    (fromStore fuel c ss f k rp fa fd p u cp w).world.Inv := by
  unfold fromStore
  split
  · exact h
  · refine (pro_preamble h c).inv fun w1 h1 => ?_
    split
    · exact h1.1
    · have h2 : Off c (w1.modC c (fun x => { x with failed := false })) := h1.of_ev (by exact ev_modC fun _ => rfl)
      simp only
      generalize w1.modC c (fun x => { x with failed := false }) = w2 at h2 ⊢
      split
      · refine Wk.inv (Wk.andThen ((wk_store fuel).2 _ _ _) fun w3 => ?_) h2.1
        exact wk_wake_of (ev_modC fun _ => rfl)
      · have h3 : Off c (w2.modC c (fun x => { x with fromStores := ss })) := h2.of_ev (by exact ev_modC fun _ => rfl)
        refine (Pro.fr (Fr.forR (fun a w => fr_enterSortedQ _ _ _ _) _ _) h3).inv fun w4 h4 => ?_
        refine reschedule_inv (modC_inv_off h4.1 h4.2 (fun _ => by rfl)) _ _ _ _ _ (by simpa [World.modC] using h4.2) ?_
        simp [World.modC, Status.sch]

theorem toStore_inv {w : World} (h : w.Inv) (fuel c ss i rp sp fa fd p u cp) :
    (toStore fuel c ss i rp sp fa fd p u cp w).world.Inv := by
  unfold toStore
  split
  · exact h
  · refine (pro_preamble h c).inv fun w1 h1 => ?_
    split
    · exact h1.1
    · have h2 : Off c (w1.modC c (fun x => { x with failed := false })) := h1.of_ev (by exact ev_modC fun _ => rfl)
      simp only
      generalize w1.modC c (fun x => { x with failed := false }) = w2 at h2 ⊢
      split
      · refine Wk.inv (Wk.andThen ((wk_store fuel).1 _ _ _ _) fun w3 => ?_) h2.1
        exact wk_wake_of (ev_modC fun _ => rfl)
      · refine (Pro.fr (Fr.forR (fun a w => fr_enterSortedQ _ _ _ _) _ _) h2).inv fun w4 h4 => ?_
        refine reschedule_inv (modC_inv_off h4.1 h4.2 (fun _ => by rfl)) _ _ _ _ _ (by simpa [World.modC] using h4.2) ?_
        simp [World.modC, Status.sch]

/-! ### the scheduler -/

theorem Ev.lt_false {a b : Ev} (h : Ev.lt a b = false) : b.t ≤ a.t := by
  simp only [Ev.lt, Bool.or_eq_false_iff, decide_eq_false_iff_not] at h
  exact not_lt.1 h.1

/-- taking the first event -/
theorem pop_inv {w : World} (h : w.Inv) {e : Ev} {es : List Ev} (hp : heappop Ev.lt w.events = some (e, es)) :
    (({ w with events := es, now := e.t, current := e.c } : World).modC e.c
      (fun x => { x with onList := false, status := .current, schedTime := ⊤ })).Inv := by
  have hspec := heappop_spec evLaw h.heap
  rw [show heappop Ev.lt w.ev.events = some (e, es) from hp] at hspec
  obtain ⟨hperm, hheap, hmin⟩ := hspec
  have hmem : ∀ x, x ∈ w.events ↔ x = e ∨ x ∈ es := by intro x; exact (hperm.mem_iff (a := x)).trans (by simp)
  have hnd := (hperm.map Ev.c).nodup_iff.1 h.nodup
  simp only [List.map_cons, List.nodup_cons] at hnd
  have hsd := (hperm.map (fun x => x.seq.natAbs)).nodup_iff.1 h.seqnd
  simp only [List.map_cons, List.nodup_cons] at hsd
  have hne : ∀ x ∈ es, x.c ≠ e.c := fun x hx hxc => hnd.1 (hxc ▸ List.mem_map_of_mem hx)
  refine ⟨hheap, ?_, hnd.2, ?_, ?_, ?_, ?_, hsd.2⟩
  · intro x hx
    exact Ev.lt_false (hmin x ((hmem x).2 (.inr hx)))
  · intro d
    simp only [World.ev, World.modC, Comp.cv]
    by_cases hd : d = e.c
    · simp only [hd, if_true]
      constructor
      · intro hf; cases hf
      · rintro ⟨x, hx, hxc⟩; exact absurd hxc (hne x hx)
    · simp only [hd, if_false]
      rw [show (w.comps d).onList = true ↔ _ from h.on d]
      constructor
      · rintro ⟨x, hx, hxc⟩
        rcases (hmem x).1 hx with rfl | hx
        · exact absurd hxc.symm hd
        · exact ⟨x, hx, hxc⟩
      · rintro ⟨x, hx, hxc⟩; exact ⟨x, (hmem x).2 (.inr hx), hxc⟩
  · intro x hx
    simp only [World.ev, World.modC, Comp.cv, hne x hx, if_false]
    exact h.sched x ((hmem x).2 (.inr hx))
  · intro d
    simp only [World.ev, World.modC, Comp.cv]
    split
    · simp
    · exact h.st d
  · intro x hx
    exact h.seqle x ((hmem x).2 (.inr hx))

/-- fields that the invariant does not depend on -/
theorem inv_congr {w w' : World} (h : w.Inv) (h1 : w'.now = w.now) (h2 : w'.seq = w.seq) (h3 : w'.events = w.events)
    (h4 : w'.comps = w.comps) : w'.Inv := by
  refine ⟨?_, ?_, ?_, ?_, ?_, ?_, ?_, ?_⟩
  · show IsHeap Ev.lt w'.events; rw [h3]; exact h.heap
  · show ∀ x ∈ w'.events, w'.now ≤ x.t; rw [h3, h1]; exact h.ge
  · show (w'.events.map Ev.c).Nodup; rw [h3]; exact h.nodup
  · show ∀ c, (w'.comps c).cv.onList = true ↔ ∃ x ∈ w'.events, x.c = c; rw [h3, h4]; exact h.on
  · show ∀ x ∈ w'.events, (w'.comps x.c).cv.status ≠ .data → (w'.comps x.c).cv.sched = x.t; rw [h3, h4]; exact h.sched
  · show ∀ c, (w'.comps c).cv.onList = true → (w'.comps c).cv.status.sch; rw [h4]; exact h.st
  · show ∀ x ∈ w'.events, _ ≤ w'.seq; rw [h3, h2]; exact h.seqle
  · show (w'.events.map _).Nodup; rw [h3]; exact h.seqnd

theorem stepEvent_inv {w : World} (h : w.Inv) : (stepEvent w).world.Inv := by
  unfold stepEvent
  have h1 : (if w.standby = [] then w else { w with pending := w.standby, standby := [] } : World).Inv := by
    split
    · exact h
    · exact inv_congr h rfl rfl rfl rfl
  simp only
  generalize (if w.standby = [] then w else { w with pending := w.standby, standby := [] } : World) = w1 at h1 ⊢
  split
  · rename_i e es hp
    have := pop_inv h1 hp
    split
    · exact this
    · exact (fr_checkFail _ _).inv this
  · rename_i hp
    have hspec := heappop_spec evLaw h1.heap
    rw [show heappop Ev.lt w1.ev.events = none from hp] at hspec
    have hev : w1.events = [] := hspec
    have h2 : ({ w1 with current := w1.main, atInf := if w1.endOnEmpty then w1.atInf else true } : World).Inv :=
      inv_congr h1 rfl rfl rfl rfl
    have hoff : (w1.comps w1.main).onList = false := by
      by_contra hc
      obtain ⟨x, hx, _⟩ := (h1.on w1.main).1 (by simpa [World.ev, Comp.cv] using hc)
      rw [show w1.ev.events = [] from hev] at hx
      cases hx
    refine EvInv.mk h2.heap h2.ge h2.nodup ?_ ?_ ?_ h2.seqle h2.seqnd
    · intro d
      simp only [R.world, World.ev, World.modC, Comp.cv, hev]
      split
      · simp
      · have := h1.on d
        simp only [World.ev, Comp.cv, hev] at this
        exact this
    · intro x hx
      simp only [R.world, World.ev, World.modC, hev] at hx
      cases hx
    · intro d
      simp only [R.world, World.ev, World.modC, Comp.cv]
      split
      · simp
      · exact h1.st d

theorem step_inv {w : World} (h : w.Inv) : (step w).world.Inv := by
  unfold step
  split
  · exact stepEvent_inv h
  · split
    · exact stepEvent_inv h
    · rename_i c rest _
      have h1 : ({ w with pending := rest } : World).Inv := inv_congr h rfl rfl rfl rfl
      simp only
      split
      · rename_i hs
        have hoff := off_of_status h1 (c := c) (by simp only [hs]; simp)
        exact inv_congr (modC_inv_off (f := fun x => { x with status := .current, schedTime := ⊤ }) hoff.1 hoff.2 (fun _ => by rfl))
          rfl rfl rfl rfl
      · exact stepEvent_inv h1

theorem runStart_inv {w : World} (h : w.Inv) (d t p u k) (hm : w.status w.main = .current) :
    (runStart d t p u k w).world.Inv := by
  have key : ∀ b : Bool, ∀ t : ETime, (reschedule w.main t p u k none (setStatus w.main .scheduled { w with endOnEmpty := b })).world.Inv := by
    intro b t
    have h1 : ({ w with endOnEmpty := b } : World).Inv := inv_congr h rfl rfl rfl rfl
    exact resched_set_inv h1 (.inl rfl) _ _ _ _ _ (h.not_on (.inl hm))
  unfold runStart
  split
  · exact inv_congr h rfl rfl rfl rfl
  · exact key _ _

/-- Conditions on the calls of a program under which the code keeps the event list consistent; see `ReqOK`, and `run` is to be
called from the main level only (salabim.py:13370). -/
def OpOK (w : World) : Op → Prop
  | .request c args _ _ _ _ _ _ _ => ReqOK w c args
  | .runStart .. => w.status w.main = .current
  | _ => True

theorem exec_inv {w : World} (h : w.Inv) (fuel : Nat) (o : Op) (ho : OpOK w o) : (exec fuel o w).world.Inv := by
  cases o with
  | hold => exact hold_inv h _ _ _ _ _ _ _
  | passivate => exact passivate_inv h _
  | activate => exact activate_inv h _ _ _ _ _ _ _ _ _
  | create => exact create_inv h _ _ _ _ _ _ _
  | interrupt => exact interrupt_inv h _
  | resume => exact resume_inv h _ _ _ _
  | standby => exact standby_inv h _
  | setRemaining => exact setRemaining_inv h _ _ _ _
  | cancel => exact cancel_inv h _ _
  | request => exact request_inv h _ _ _ _ _ _ _ _ _ _ ho
  | release => exact (wk_releaseArgs _ _ _ _).inv h
  | releaseAll => exact (wk_releaseAll _ _ _).inv h
  | resRelease => exact (wk_resRelease _ _ _ _).inv h
  | resSetCapacity => exact (wk_resSetCapacity _ _ _ _).inv h
  | wait => exact wait_inv h _ _ _ _ _ _ _ _
  | waitFor => exact waitFor_inv h _ _ _ _ _ _ _ _
  | stateSet => exact (wk_stateSet _ _ _).inv h
  | stateTrigger => exact (wk_stateTrigger _ _ _ _ _).inv h
  | fromStore => exact fromStore_inv h _ _ _ _ _ _ _ _ _ _ _
  | toStore => exact toStore_inv h _ _ _ _ _ _ _ _ _ _ _
  | rescan => exact (wk_rescan _ _ _).inv h
  | storeSetCapacity => exact (wk_storeSetCapacity _ _ _ _).inv h
  | storeEnter => exact ((wk_store fuel).1 _ _ _ _).inv h
  | storeLeave => exact ((wk_store fuel).2 _ _ _).inv h
  | enter => simp only [exec]; exact (fr_onQueue _ _ _).inv h
  | enterSorted => simp only [exec]; exact (fr_onQueue _ _ _).inv h
  | enterAtHead => simp only [exec]; exact (fr_onQueue _ _ _).inv h
  | enterInFrontOf => simp only [exec]; exact (fr_onQueue _ _ _).inv h
  | enterBehind => simp only [exec]; exact (fr_onQueue _ _ _).inv h
  | leave => simp only [exec]; exact (fr_onQueue _ _ _).inv h
  | setPriority => simp only [exec]; exact (fr_onQueue _ _ _).inv h
  | insertAt => simp only [exec]; exact (fr_onQueue _ _ _).inv h
  | queueSetCapacity => exact inv_of_ev (w := w) (by simp only [exec, R.world]; exact ev_modQ _ _ _) h
  | queueReset => exact inv_of_ev (w := w) (by simp only [exec, R.world]; exact ev_modQ _ _ _) h
  | runStart => exact runStart_inv h _ _ _ _ _ ho
  | resetNow => exact inv_congr h rfl rfl rfl rfl
  | step => exact step_inv h
  | terminate => exact terminate_inv h _ _

end Verif
