import Verif.Reach

/-!
# What the calls do with waits and stores

A property of worlds about waiting for states and about stores is preserved by every call that has nothing to do with them, if it
doesn't depend on anything else and is preserved when a component gives up what it is waiting for.
-/

namespace Verif
open World

/-- what a component has to do with states and stores -/
structure WC where
  waits : List Wait
  waitAll : Bool
  cond : Option ((SId → Val) → Bool)
  fromStores : List StId
  fromFilter : CId → Bool
  fromItem : Option CId
  toStores : List StId
  toItem : Option CId
  toPrio : Rat

def Comp.wc (x : Comp) : WC := ⟨x.waits, x.waitAll, x.cond, x.fromStores, x.fromFilter, x.fromItem, x.toStores, x.toItem, x.toPrio⟩

/-- not a queue of a state or a store -/
def QRef.nw : QRef → Bool
  | .requesters _ | .claimers _ | .user _ => true
  | _ => false

structure Base (P : World → Prop) : Prop where
  frame : ∀ {w w' : World}, P w → w'.comps = w.comps → w'.queues = w.queues → w'.states = w.states → P w'
  comp : ∀ {w : World} (c) {f : Comp → Comp}, P w → (∀ x, (f x).wc = x.wc) → (∀ x, (f x).status = x.status ∨ (f x).status ≠ .waiting) →
    P (w.modC c f)
  queue : ∀ {w : World} {q : QRef} (f), P w → q.nw = true → P (w.modQ q f)
  reset : ∀ {w : World} (q : QRef) (a d : Bool), P w → P (w.modQ q (fun q => q.resetRates w.now a d))
  failWait : ∀ {w w' : World} (c), P w → checkFailWait c w = .ok w' → P w'
  failFrom : ∀ {w w' : World} (c), P w → checkFailFrom c w = .ok w' → P w'
  failTo : ∀ {w w' : World} (c), P w → checkFailTo c w = .ok w' → P w'

/-- after the call, if it doesn't raise -/
def Po (P : World → Prop) : R → Prop
  | .ok w => P w
  | .err _ _ => True

theorem Po.of {P : World → Prop} {r : R} (h : ∀ w', r = .ok w' → P w') : Po P r := by
  cases r with
  | ok w => exact h w rfl
  | err e w => trivial
theorem Po.to {P : World → Prop} {r : R} (h : Po P r) {w' : World} (he : r = .ok w') : P w' := by subst he; exact h
theorem Po.ok {P : World → Prop} {w : World} (h : P w) : Po P (.ok w) := h
theorem Po.err {P : World → Prop} {w : World} {e} : Po P (.err e w) := trivial
theorem Po.andThen {P : World → Prop} {r : R} {f : World → R} (h : Po P r) (hf : ∀ w', P w' → Po P (f w')) : Po P (r ⊳ f) := by
  cases r with
  | ok w' => exact hf w' h
  | err e w' => exact Po.err
theorem Po.forR {α : Type} {P : World → Prop} {f : α → World → R} (hf : ∀ a w', P w' → Po P (f a w')) :
    ∀ (l : List α) (w : World), P w → Po P (Verif.forR l f w)
  | [], _, h => h
  | a :: t, w, h => Po.andThen (hf a w h) (fun w' h' => Po.forR hf t w' h')

/-- the property holds, or the call has raised -/
macro "ph" h:term : tactic => `(tactic| first | exact $h | exact trivial)

variable {P : World → Prop}

theorem Base.modC (S : Base P) {w : World} (h : P w) (c : CId) {f : Comp → Comp} (hf : ∀ x, (f x).wc = x.wc := by intro _; rfl)
    (hs : ∀ x, (f x).status = x.status ∨ (f x).status ≠ .waiting := by
      intro _; first | exact .inl rfl | exact .inr (by simp)) : P (w.modC c f) := S.comp c h hf hs
theorem Base.modR (S : Base P) {w : World} (h : P w) (r : RId) (f : Res → Res) : P (w.modR r f) := S.frame h rfl rfl rfl
theorem bs_onQueue (S : Base P) {w : World} (h : P w) {q : QRef} (hq : q.nw = true) (f) : Po P (onQueue q f w) := by
  unfold onQueue
  split
  · exact .ok (S.queue _ h hq)
  · exact .err
theorem bs_leaveQ (S : Base P) {w : World} (h : P w) (c) {q : QRef} (hq : q.nw = true) : Po P (leaveQ c q w) := bs_onQueue S h hq _
theorem bs_enterSortedQ (S : Base P) {w : World} (h : P w) (c) {q : QRef} (hq : q.nw = true) (p) : Po P (enterSortedQ c q p w) := bs_onQueue S h hq _

theorem bs_push (S : Base P) {w : World} (h : P w) (c) (t : ETime) (p u ret) : P (push c t p u ret w) := by
  unfold Verif.push
  split
  · ph h
  · exact S.frame (S.modC h c (f := fun x => { x with onList := true }) (fun _ => rfl)) rfl rfl rfl
theorem bs_remove (S : Base P) {w : World} (h : P w) (c) : Po P (remove c w) := by
  unfold Verif.remove
  split
  · split
    · exact S.frame (S.modC h c (f := fun x => { x with onList := false }) (fun _ => rfl)) rfl rfl rfl
    · ph h
  · split
    · exact S.frame h rfl rfl rfl
    · ph h
theorem bs_reschedule (S : Base P) {w : World} (h : P w) (c t p u k ret) : Po P (reschedule c t p u k ret w) := by
  unfold reschedule
  split
  · split
    · exact Po.ok (bs_push S (S.modC h c) _ _ _ _ _)
    · ph h
  · exact Po.ok (bs_push S (S.modC h c) _ _ _ _ _)

theorem bs_setStatus (S : Base P) {w : World} (h : P w) (c s) (hs : s ≠ .waiting := by simp) : P (setStatus c s w) :=
  S.comp c h (fun _ => rfl) (fun _ => .inr hs)
theorem bs_wake (S : Base P) {w : World} (h : P w) (c ret) : Po P (wake c ret w) :=
  (bs_remove S h c).andThen fun _ h' => bs_reschedule S (bs_setStatus S h' _ _) _ _ _ _ _ _

theorem bs_leaveRequesters (S : Base P) {w : World} (h : P w) (c r) : Po P (leaveRequesters c r w) := by
  unfold leaveRequesters
  refine (bs_leaveQ S h c rfl).andThen fun w h => Po.ok ?_
  split
  · exact S.modR h _ _
  · exact h
theorem bs_failReq (S : Base P) {w : World} (h : P w) (c) : Po P (checkFailReq c w) := by
  unfold checkFailReq
  split
  · exact h
  · exact (Po.forR (fun r w h => bs_leaveRequesters S h c r) _ _ h).andThen fun w h => Po.ok (S.modC h _)

theorem bs_checkFail (S : Base P) {w : World} (h : P w) (c) : Po P (checkFail c w) := by
  unfold checkFail
  exact (((bs_failReq S h c).andThen fun w h => .of fun w' h' => S.failWait c h h').andThen fun w h =>
    .of fun w' h' => S.failFrom c h h').andThen fun w h => .of fun w' h' => S.failTo c h h'

theorem bs_removeFail (S : Base P) {w : World} (h : P w) (c) : Po P (checkNotData c w ⊳ remove c ⊳ checkFail c) := by
  refine (Po.andThen ?_ fun w h => bs_remove S h _).andThen fun w h => bs_checkFail S h _
  unfold checkNotData; split <;> ph h

theorem bs_preamble (S : Base P) {w : World} (h : P w) (c) : Po P (preamble c w) := by
  unfold preamble
  split
  · ph h
  · refine ((Po.andThen ?_ fun w h => ?_).andThen fun w h => bs_remove S h _).andThen fun w h => bs_checkFail S h _
    · unfold checkNotData; split <;> ph h
    · unfold checkNotMain; split <;> ph h

theorem bs_hold (S : Base P) {w : World} (h : P w) (c d t p u k i) : Po P (hold c d t p u k i w) := by
  unfold hold
  refine Po.andThen ?_ fun w h => ?_
  · split
    · ph h
    · exact bs_removeFail S h c
  · split
    · ph h
    · split
      · ph h
      · simp only
        split
        · exact Po.ok (S.modC h _)
        · exact bs_reschedule S (bs_setStatus S h _ _) _ _ _ _ _ _

theorem bs_passivate (S : Base P) {w : World} (h : P w) (c) : Po P (passivate c w) := by
  unfold passivate
  refine Po.andThen ?_ fun w h => Po.ok (S.modC h _)
  split
  · exact Po.ok (S.modC h _)
  · exact (bs_removeFail S h c).andThen fun w h => Po.ok (S.modC h _)

theorem bs_activate (S : Base P) {w : World} (h : P w) (c a d p u k pr kr kw) : Po P (activate c a d p u k pr kr kw w) := by
  unfold activate
  simp only
  split
  · ph h
  · refine Po.andThen ?_ fun w h => bs_reschedule S (bs_setStatus S h _ _) _ _ _ _ _ _
    split
    · ph h
    · refine (bs_remove S h _).andThen fun w h => ?_
      split
      · ph h
      · exact bs_checkFail S h _

theorem bs_create (S : Base P) {w : World} (h : P w) (c a d p u k s) : Po P (create c a d p u k s w) := by
  unfold create
  split
  · ph h
  · exact bs_reschedule S (S.modC h _) _ _ _ _ _ _

theorem bs_interrupt (S : Base P) {w : World} (h : P w) (c) : Po P (interrupt c w) := by
  unfold interrupt
  split
  · exact Po.ok (S.modC h _)
  · split
    · exact (bs_remove S h _).andThen fun w h => Po.ok (S.modC h _)
    · ph h

theorem bs_resume (S : Base P) {w : World} (h : P w) (c a p u) : Po P (resume c a p u w) := by
  unfold resume
  split
  · simp only
    split
    · exact Po.ok (S.modC h _)
    · split
      · rename_i h1
        refine bs_reschedule S (bs_setStatus S (S.modC h _) _ _ ?_) _ _ _ _ _ _
        have : (w.comps c).intrStatus = .scheduled := by simpa [World.status, setStatus, World.modC] using h1
        simp [World.modC, this]
      · exact trivial
  · ph h

theorem bs_standby (S : Base P) {w : World} (h : P w) (c) : Po P (standby c w) := by
  unfold standby
  exact (bs_preamble S h _).andThen fun w h => S.frame (S.modC h _ (f := fun x => { x with status := .standby, schedTime := w.now })) rfl rfl rfl

theorem bs_setRemaining (S : Base P) {w : World} (h : P w) (c v p u) : Po P (setRemaining c v p u w) := by
  unfold setRemaining
  split
  · exact Po.ok (S.modC h _)
  · split
    · ph h
    · exact (bs_remove S h _).andThen fun w h => bs_reschedule S h _ _ _ _ _ _

theorem bs_claimOne (S : Base P) {w : World} (h : P w) (c hs p) : Po P (claimOne c hs p w) := by
  unfold claimOne
  refine Po.andThen ?_ fun w h => bs_leaveRequesters S h _ _
  split
  · simp only
    split
    · exact trivial
    · split
      · exact S.modR h _ _
      · unfold enterClaimers
        split
        · exact S.modC (S.modR h _ _) _
        · exact bs_enterSortedQ S (S.modC (S.modR h _ _) _) _ rfl _
  · exact h

theorem bs_honorNow (S : Base P) {w : World} (h : P w) {c r} (he : honorNow c w = some r) : Po P r := by
  unfold honorNow at he
  split at he
  · cases he
  · cases he
    exact (Po.forR (fun p w h => bs_claimOne S h _ _ _) _ _ h).andThen fun w h => bs_wake S (S.modC h _) _ _

theorem bs_try (S : Base P) (fuel : Nat) : (∀ c w, P w → Po P (tryReqC fuel c w)) ∧ (∀ rs w, P w → Po P (tryReqList fuel rs w)) ∧
    (∀ r w, P w → Po P (tryReqR fuel r w)) ∧ (∀ r mx f w, P w → Po P (loopR fuel r mx f w)) := by
  induction fuel with
  | zero =>
    refine ⟨fun c w h => ?_, fun rs w h => ?_, fun r w h => ?_, fun r mx f w h => ?_⟩
    · rw [tryReqC]; ph h
    · rw [tryReqList]; ph h
    · rw [tryReqR]; ph h
    · rw [loopR]; ph h
  | succ n ih =>
    obtain ⟨i1, i2, i3, i4⟩ := ih
    refine ⟨fun c w h => ?_, fun rs w h => ?_, fun r w h => ?_, fun r mx f w h => ?_⟩
    · rw [tryReqC]
      split
      · ph h
      · rename_i res hres
        exact Po.andThen (bs_honorNow S h hres) (i2 _)
    · rw [tryReqList.eq_def]
      simp only
      split
      · ph h
      · exact Po.andThen (i3 _ _ h) (i2 _)
    · rw [tryReqR]
      split
      · split
        · ph h
        · exact Po.andThen (i4 _ _ _ _ (S.modR h _ _)) fun w' h' => Po.ok (S.modR h' _ _)
      · exact i4 _ _ _ _ h
    · rw [loopR.eq_def]
      simp only
      repeat' split
      all_goals first
        | ph h
        | (refine Po.andThen (i1 _ _ h) fun w' h' => ?_
           split <;> exact i4 _ _ _ _ h')


theorem bs_releaseCore (S : Base P) {w : World} (h : P w) (c r q) : Po P (releaseCore c r q w) := by
  unfold releaseCore
  split
  · exact trivial
  · rename_i cl _
    have key : ∀ a : Rat, Po P (if cl - a < eps then
        leaveQ c (.claimers r) ((w.modR r (fun x => { x with claimed := x.claimed - a })).modC c (fun x => { x with claims := addTo x.claims r (-a) })) ⊳ fun w =>
          .ok (((if (w.queues (.claimers r)).len = 0 then w.modR r (fun x => { x with claimed := 0 }) else w).modC c
            (fun x => { x with claims := delKey x.claims r })).tallyR r)
        else .ok (((w.modR r (fun x => { x with claimed := x.claimed - a })).modC c (fun x => { x with claims := addTo x.claims r (-a) })).tallyR r)) := by
      intro a
      split
      · refine (bs_leaveQ S (S.modC (S.modR h _ _) _) _ rfl).andThen fun w h => Po.ok (S.modR (S.modC ?_ _) _ _)
        split
        · exact S.modR h _ _
        · exact h
      · exact S.modR (S.modC (w := w.modR r (fun x => { x with claimed := x.claimed - a })) (S.modR h _ _) _) _ _
    exact key _

theorem bs_release1 (S : Base P) {w : World} (h : P w) (fuel c r q) : Po P (release1 fuel c r q w) :=
  Po.andThen (bs_releaseCore S h c r q) ((bs_try S fuel).2.2.1 _)
theorem bs_releaseAll (S : Base P) {w : World} (h : P w) (fuel c) : Po P (releaseAll fuel c w) :=
  Po.forR (fun _ _ h => bs_release1 S h _ _ _ _) _ _ h
theorem bs_releaseArgs (S : Base P) {w : World} (h : P w) (fuel c l) : Po P (releaseArgs fuel c l w) := by
  refine Po.forR (fun a w h => ?_) _ _ h
  split
  · exact trivial
  · exact bs_release1 S h _ _ _ _

theorem bs_preempt (S : Base P) {w : World} (h : P w) (r q p) : Po P (preempt r q p w) := by
  unfold preempt
  simp only
  split
  · refine Po.forR (fun d w h => Po.andThen (bs_releaseCore S h d r none) fun w h => ?_) _ _ h
    exact bs_activate S h _ _ _ _ _ _ _ _ _
  · exact h

theorem bs_requestArg (S : Base P) {w : World} (h : P w) (c n pu a) : Po P (requestArg c n pu a w) := by
  unfold requestArg
  simp only
  generalize (if pu = true then -a.q else a.q) = q
  split
  · exact trivial
  · split
    · exact trivial
    · refine Po.andThen (bs_enterSortedQ S (S.modC h _) _ rfl _) fun w h => ?_
      split
      · exact bs_preempt S h _ _ _
      · exact h

theorem bs_lowerMinq (S : Base P) (l) : ∀ w, P w → P (lowerMinq l w) := by
  unfold lowerMinq
  induction l with
  | nil => intro w h; ph h
  | cons a t ih => intro w h; exact ih _ (S.modR h _ _)

theorem bs_request (S : Base P) {w : World} (h : P w) (fuel c args o pu fa fd p u k) : Po P (request fuel c args o pu fa fd p u k w) := by
  unfold request
  refine (bs_preamble S (S.modC h _) _).andThen fun w h => ?_
  split
  · exact trivial
  · simp only
    split
    · exact bs_reschedule S (S.modC h _) _ _ _ _ _ _
    · refine (Po.forR (fun a w h => bs_requestArg S h _ _ _ _) _ _ (S.modC h _)).andThen fun w h => ?_
      refine ((bs_try S fuel).1 _ _ (S.modC (bs_lowerMinq S _ _ h) _)).andThen fun w h => ?_
      split
      · exact h
      · exact bs_reschedule S (bs_setStatus S h _ _) _ _ _ _ _ _

theorem bs_resReleaseLoop (S : Base P) (fuel : Nat) : ∀ r mx w, P w → Po P (resReleaseLoop fuel r mx w) := by
  induction fuel with
  | zero => intro r mx w h; rw [resReleaseLoop]; ph h
  | succ n ih =>
    intro r mx w h
    rw [resReleaseLoop.eq_def]
    simp only
    split
    · ph h
    · split
      · ph h
      · exact (bs_release1 S h _ _ _ _).andThen fun w h => ih _ _ _ h

theorem bs_resRelease (S : Base P) {w : World} (h : P w) (fuel r q) : Po P (resRelease fuel r q w) := by
  unfold resRelease
  split
  · exact (bs_try S fuel).2.2.1 _ _ (S.modR h _ _)
  · split
    · exact trivial
    · exact bs_resReleaseLoop S _ _ _ _ h

theorem bs_resSetCapacity (S : Base P) {w : World} (h : P w) (fuel r k) : Po P (resSetCapacity fuel r k w) :=
  (bs_try S fuel).2.2.1 _ _ (S.modR h _ _)

theorem bs_cancel (S : Base P) {w : World} (h : P w) (fuel c) : Po P (cancel fuel c w) := by
  unfold cancel
  split
  · ph h
  · refine (Po.andThen ?_ fun w h => bs_releaseAll S h _ _).andThen fun w h => Po.ok (S.modC h _)
    split
    · ph h
    · exact bs_removeFail S h _

theorem bs_runStart (S : Base P) {w : World} (h : P w) (d t p u k) : Po P (runStart d t p u k w) := by
  have h1 : ∀ b, P { w with endOnEmpty := b } := fun b => S.frame (w' := { w with endOnEmpty := b }) h rfl rfl rfl
  unfold runStart
  split
  · exact trivial
  · exact bs_reschedule S (bs_setStatus S (h1 _) _ _) _ _ _ _ _ _



theorem bs_stepEvent (S : Base P) {w : World} (h : P w) : Po P (stepEvent w) := by
  unfold stepEvent
  have h3 : P (if w.standby = [] then w else { w with pending := w.standby, standby := [] } : World) := by
    split
    · ph h
    · exact S.frame h rfl rfl rfl
  simp only
  generalize (if w.standby = [] then w else { w with pending := w.standby, standby := [] } : World) = w2 at h3 ⊢
  split
  · rename_i e es hp
    have h6 : P (({ w2 with events := es, now := e.t, current := e.c } : World).modC e.c
        (fun x => { x with onList := false, status := .current, schedTime := ⊤ })) :=
      S.modC (S.frame (w' := { w2 with events := es, now := e.t, current := e.c }) h3 rfl rfl rfl) _
    split
    · ph h6
    · exact bs_checkFail S h6 _
  · refine Po.ok ?_
    exact S.modC (w := { w2 with atInf := _, current := w2.main }) (S.frame h3 rfl rfl rfl) _

theorem bs_step (S : Base P) {w : World} (h : P w) : Po P (step w) := by
  unfold step
  split
  · exact bs_stepEvent S h
  · split
    · exact bs_stepEvent S h
    · simp only
      split
      · rename_i c rest _ _
        refine Po.ok (S.frame (w := ({ w with pending := rest } : World).modC c (fun x => { x with status := .current, schedTime := ⊤ })) ?_ rfl rfl rfl)
        exact S.modC (w := { w with pending := rest }) (S.frame h rfl rfl rfl) _
      · exact bs_stepEvent S (S.frame h rfl rfl rfl)


/-- the calls that have something to do with states and stores, and the end of a process -/
def Op.special : Op → Bool
  | .wait .. | .waitFor .. | .stateSet .. | .stateTrigger .. | .fromStore .. | .toStore .. | .rescan .. | .storeSetCapacity ..
  | .storeEnter .. | .storeLeave .. | .terminate => true
  | _ => false

theorem exec_base (S : Base P) {w : World} (h : P w) (fuel : Nat) (o : Op) (ho : o.special = false) : Po P (exec fuel o w) := by
  cases o <;> simp only [exec] <;> first
    | (exfalso; cases ho; done)
    | exact bs_hold S h _ _ _ _ _ _ _ | exact bs_passivate S h _ | exact bs_activate S h _ _ _ _ _ _ _ _ _
    | exact bs_create S h _ _ _ _ _ _ _ | exact bs_interrupt S h _ | exact bs_resume S h _ _ _ _ | exact bs_standby S h _
    | exact bs_setRemaining S h _ _ _ _ | exact bs_cancel S h _ _ | exact bs_request S h _ _ _ _ _ _ _ _ _ _
    | exact bs_releaseArgs S h _ _ _ | exact bs_releaseAll S h _ _ | exact bs_resRelease S h _ _ _
    | exact bs_resSetCapacity S h _ _ _ | exact bs_onQueue S h rfl _
    | exact Po.ok (S.queue _ h rfl) | exact Po.ok (S.reset _ _ _ h)
    | exact bs_runStart S h _ _ _ _ _ | exact bs_step S h | exact Po.ok (S.frame h rfl rfl rfl)

end Verif
