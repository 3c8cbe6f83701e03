import Verif.Kernel
import Mathlib.Tactic.Ring

/-!
# The offset of the presented time

Two states of the simulation that only differ in the offset behave in the same way, provided that all absolute times that are given in
calls are adapted. This is for all calls of the model (also if they raise), in all states.
-/

namespace Verif
open World

/-- the presented time is `δ` more: `reset_now` (salabim.py:13160-13162) changes nothing but the offset -/
def World.sh (δ : Rat) (w : World) : World := { w with offset := w.offset - δ }

def R.map (g : World → World) : R → R
  | .ok w => .ok (g w)
  | .err e w => .err e (g w)

variable {δ : Rat}

@[simp] theorem sh_now (w : World) : (w.sh δ).now = w.now := rfl
@[simp] theorem sh_offset (w : World) : (w.sh δ).offset = w.offset - δ := rfl
@[simp] theorem sh_seq (w : World) : (w.sh δ).seq = w.seq := rfl
@[simp] theorem sh_events (w : World) : (w.sh δ).events = w.events := rfl
@[simp] theorem sh_standby (w : World) : (w.sh δ).standby = w.standby := rfl
@[simp] theorem sh_pending (w : World) : (w.sh δ).pending = w.pending := rfl
@[simp] theorem sh_current (w : World) : (w.sh δ).current = w.current := rfl
@[simp] theorem sh_main (w : World) : (w.sh δ).main = w.main := rfl
@[simp] theorem sh_endOnEmpty (w : World) : (w.sh δ).endOnEmpty = w.endOnEmpty := rfl
@[simp] theorem sh_atInf (w : World) : (w.sh δ).atInf = w.atInf := rfl
@[simp] theorem sh_comps (w : World) : (w.sh δ).comps = w.comps := rfl
@[simp] theorem sh_res (w : World) : (w.sh δ).res = w.res := rfl
@[simp] theorem sh_states (w : World) : (w.sh δ).states = w.states := rfl
@[simp] theorem sh_queues (w : World) : (w.sh δ).queues = w.queues := rfl
@[simp] theorem sh_status (w : World) (c) : (w.sh δ).status c = w.status c := rfl
@[simp] theorem sh_inQ (w : World) (q) : (w.sh δ).inQ q = w.inQ q := rfl
@[simp] theorem sh_modC (w : World) (c f) : (w.sh δ).modC c f = (w.modC c f).sh δ := rfl
@[simp] theorem sh_modR (w : World) (c f) : (w.sh δ).modR c f = (w.modR c f).sh δ := rfl
@[simp] theorem sh_modQ (w : World) (c f) : (w.sh δ).modQ c f = (w.modQ c f).sh δ := rfl
@[simp] theorem sh_setState (w : World) (s v) : (w.sh δ).setState s v = (w.setState s v).sh δ := rfl
@[simp] theorem sh_setStatus (w : World) (c s) : setStatus c s (w.sh δ) = (setStatus c s w).sh δ := rfl
@[simp] theorem map_ok (g : World → World) (w) : (R.ok w).map g = .ok (g w) := rfl
@[simp] theorem map_err (g : World → World) (e w) : (R.err e w).map g = .err e (g w) := rfl
@[simp] theorem map_world (g : World → World) (r : R) : (r.map g).world = g r.world := by cases r <;> rfl
@[simp] theorem map_error (g : World → World) (r : R) : (r.map g).error? = r.error? := by cases r <;> rfl

theorem map_andThen {g : World → World} {r r' : R} {f f' : World → R} (h : r' = r.map g) (hf : ∀ w, f' (g w) = (f w).map g) :
    (r' ⊳ f') = (r ⊳ f).map g := by
  subst h
  cases r with
  | ok w => exact hf w
  | err e w => rfl

theorem map_forR {α : Type} {g : World → World} {f f' : α → World → R} (hf : ∀ a w, f' a (g w) = (f a w).map g) :
    ∀ (l : List α) (w : World), forR l f' (g w) = (forR l f w).map g
  | [], _ => rfl
  | a :: t, w => map_andThen (hf a w) (map_forR hf t)

theorem map_ite {g : World → World} {p : Prop} [Decidable p] {a b a' b' : R} (h1 : p → a' = a.map g) (h2 : ¬ p → b' = b.map g) :
    (if p then a' else b') = (if p then a else b).map g := by
  split
  · exact h1 ‹_›
  · exact h2 ‹_›

theorem map_ok_ite {g : World → World} {p : Prop} [Decidable p] {a b a' b' : World} (h1 : p → a' = g a) (h2 : ¬ p → b' = g b) :
    R.ok (if p then a' else b') = (R.ok (if p then a else b)).map g := by
  split
  · rw [h1 ‹_›]; rfl
  · rw [h2 ‹_›]; rfl

/-- split both sides of `f (g w) = (f w).map g` in the same way -/
macro "sp" : tactic => `(tactic| first | refine map_ite (fun _ => ?_) (fun _ => ?_) | refine map_ok_ite (fun _ => ?_) (fun _ => ?_) | split)

theorem sh_push (c t p u ret) (w : World) : push c t p u ret (w.sh δ) = (push c t p u ret w).sh δ := by
  unfold push; split <;> rfl

theorem sh_remove (c) (w : World) : remove c (w.sh δ) = (remove c w).map (·.sh δ) := by
  unfold remove
  simp only [sh_comps, sh_events, sh_status]
  sp
  · sp <;> rfl
  · sp <;> rfl

theorem sh_reschedule (c t p u k ret) (w : World) : reschedule c t p u k ret (w.sh δ) = (reschedule c t p u k ret w).map (·.sh δ) := by
  unfold reschedule
  simp only [sh_now, sh_modC, sh_push]
  sp
  · sp <;> rfl
  · rfl

theorem sh_wake (c ret) (w : World) : wake c ret (w.sh δ) = (wake c ret w).map (·.sh δ) :=
  map_andThen (sh_remove c w) fun w => sh_reschedule _ _ _ _ _ _ (setStatus c .scheduled w)

theorem sh_wakeC (c ret d f) (w : World) : wake c ret ((w.sh δ).modC d f) = (wake c ret (w.modC d f)).map (·.sh δ) := sh_wake c ret (w.modC d f)
theorem sh_rescheduleC (c t p u k ret d f) (w : World) :
    reschedule c t p u k ret ((w.sh δ).modC d f) = (reschedule c t p u k ret (w.modC d f)).map (·.sh δ) := sh_reschedule _ _ _ _ _ _ (w.modC d f)

theorem sh_onQueue (q f) (w : World) : onQueue q f (w.sh δ) = (onQueue q f w).map (·.sh δ) := by
  unfold onQueue
  simp only [sh_queues]
  sp <;> rfl

theorem sh_leaveQ (c q) (w : World) : leaveQ c q (w.sh δ) = (leaveQ c q w).map (·.sh δ) := sh_onQueue _ _ _
theorem sh_enterSortedQ (c q p) (w : World) : enterSortedQ c q p (w.sh δ) = (enterSortedQ c q p w).map (·.sh δ) := sh_onQueue _ _ _

theorem sh_enterSortedQC (c q p d f) (w : World) : enterSortedQ c q p ((w.sh δ).modC d f) = (enterSortedQ c q p (w.modC d f)).map (·.sh δ) :=
  sh_onQueue _ _ (w.modC d f)

theorem sh_leaveRequesters (c r) (w : World) : leaveRequesters c r (w.sh δ) = (leaveRequesters c r w).map (·.sh δ) :=
  map_andThen (sh_leaveQ _ _ _) fun w => by
    simp only [sh_queues, map_ok]; sp <;> rfl

theorem sh_leaveWaiters (c x) (w : World) : leaveWaiters c x (w.sh δ) = (leaveWaiters c x w).map (·.sh δ) := by
  unfold leaveWaiters; simp only [sh_queues]
  sp
  · exact sh_leaveQ _ _ _
  · rfl

theorem sh_checkFailReq (c) (w : World) : checkFailReq c (w.sh δ) = (checkFailReq c w).map (·.sh δ) := by
  unfold checkFailReq; simp only [sh_comps]
  sp
  · rfl
  · exact map_andThen (map_forR (sh_leaveRequesters c) _ _) fun _ => rfl

theorem sh_checkFailWait (c) (w : World) : checkFailWait c (w.sh δ) = (checkFailWait c w).map (·.sh δ) := by
  unfold checkFailWait; simp only [sh_comps]
  sp
  · rfl
  · exact map_andThen (map_forR (sh_leaveWaiters c) _ _) fun _ => rfl

theorem sh_checkFailFrom (c) (w : World) : checkFailFrom c (w.sh δ) = (checkFailFrom c w).map (·.sh δ) := by
  unfold checkFailFrom; simp only [sh_comps]
  sp
  · rfl
  · exact map_andThen (map_forR (fun s => sh_leaveQ c (.fromReq s)) _ _) fun _ => rfl

theorem sh_checkFailTo (c) (w : World) : checkFailTo c (w.sh δ) = (checkFailTo c w).map (·.sh δ) := by
  unfold checkFailTo; simp only [sh_comps]
  sp
  · rfl
  · exact map_andThen (map_forR (fun s => sh_leaveQ c (.toReq s)) _ _) fun _ => rfl

theorem sh_checkFail (c) (w : World) : checkFail c (w.sh δ) = (checkFail c w).map (·.sh δ) :=
  map_andThen (map_andThen (map_andThen (sh_checkFailReq c w) (sh_checkFailWait c)) (sh_checkFailFrom c)) (sh_checkFailTo c)

theorem sh_checkNotData (c) (w : World) : checkNotData c (w.sh δ) = (checkNotData c w).map (·.sh δ) := by
  unfold checkNotData; simp only [sh_status]; sp <;> rfl
theorem sh_checkNotMain (c) (w : World) : checkNotMain c (w.sh δ) = (checkNotMain c w).map (·.sh δ) := by
  unfold checkNotMain; simp only [sh_main]; sp <;> rfl

theorem sh_clear (c) (w : World) : (checkNotData c (w.sh δ) ⊳ remove c ⊳ checkFail c) =
    (checkNotData c w ⊳ remove c ⊳ checkFail c).map (·.sh δ) :=
  map_andThen (map_andThen (sh_checkNotData c w) (sh_remove c)) (sh_checkFail c)

theorem sh_preamble (c) (w : World) : preamble c (w.sh δ) = (preamble c w).map (·.sh δ) := by
  unfold preamble; simp only [sh_status]
  sp
  · rfl
  · exact map_andThen (map_andThen (map_andThen (sh_checkNotData c w) (sh_checkNotMain c)) (sh_remove c)) (sh_checkFail c)

theorem sh_preambleC (c d f) (w : World) : preamble c ((w.sh δ).modC d f) = (preamble c (w.modC d f)).map (·.sh δ) := sh_preamble c (w.modC d f)

/-- an absolute time in a call, adapted to the new presented time -/
def later (δ : Rat) (t : Option ETime) : Option ETime := t.map (· + (δ : ETime))

theorem add_shift (a : ETime) (o δ : Rat) : a + (δ : ETime) + ((o - δ : Rat) : ETime) = a + (o : ETime) := by
  cases a with
  | none => rfl
  | some a =>
    show (((a + δ) + (o - δ) : Rat) : ETime) = ((a + o : Rat) : ETime)
    congr 1; ring

theorem sh_failTime (fa fd) (w : World) : failTime (w.sh δ) (later δ fa) fd = failTime w fa fd := by
  cases fa <;> cases fd <;> simp only [failTime, later, Option.map_none, Option.map_some, sh_now, sh_offset, add_shift]

theorem sh_hold (c d t p u k i) (w : World) : hold c d (later δ t) p u k i (w.sh δ) = (hold c d t p u k i w).map (·.sh δ) := by
  unfold hold
  refine map_andThen ?_ fun w => ?_
  · simp only [sh_status]
    sp
    · rfl
    · exact sh_clear c w
  · cases t <;> cases d <;> simp only [later, Option.map_none, Option.map_some, sh_now, sh_offset, add_shift, sh_modC, sh_setStatus, sh_reschedule]
    all_goals first
      | rfl
      | (sp
         · rfl
         · sp <;> rfl)

theorem sh_passivate (c) (w : World) : passivate c (w.sh δ) = (passivate c w).map (·.sh δ) := by
  unfold passivate
  refine map_andThen ?_ fun w => rfl
  simp only [sh_status]
  sp
  · rfl
  · exact map_andThen (sh_clear c w) fun w => rfl

theorem sh_activate (c a d p u k pr kr kw) (w : World) :
    activate c (later δ a) d p u k pr kr kw (w.sh δ) = (activate c a d p u k pr kr kw w).map (·.sh δ) := by
  unfold activate
  simp only [sh_status, sh_comps]
  sp
  · rfl
  · refine map_andThen ?_ fun w => ?_
    · sp
      · rfl
      · refine map_andThen (sh_remove c w) fun w => ?_
        sp
        · rfl
        · exact sh_checkFail c w
    · cases a <;> simp only [later, Option.map_none, Option.map_some, sh_now, sh_offset, add_shift, sh_setStatus, sh_reschedule]

theorem sh_create (c a d p u k s) (w : World) : create c (later δ a) d p u k s (w.sh δ) = (create c a d p u k s w).map (·.sh δ) := by
  unfold create
  simp only [sh_status, sh_comps]
  sp
  · rfl
  · cases a <;> simp only [later, Option.map_none, Option.map_some, sh_now, sh_offset, add_shift, sh_modC, sh_reschedule]

theorem sh_interrupt (c) (w : World) : interrupt c (w.sh δ) = (interrupt c w).map (·.sh δ) := by
  unfold interrupt
  simp only [sh_status]
  sp
  · rfl
  · sp
    · exact map_andThen (sh_remove c w) fun w => rfl
    · rfl

theorem sh_resume (c a p u) (w : World) : resume c a p u (w.sh δ) = (resume c a p u w).map (·.sh δ) := by
  unfold resume
  simp only [sh_status, sh_modC, sh_comps, sh_setStatus, sh_now, sh_reschedule]
  sp
  · sp
    · rfl
    · sp <;> rfl
  · rfl

theorem sh_standbyCall (c) (w : World) : standby c (w.sh δ) = (standby c w).map (·.sh δ) :=
  map_andThen (sh_preamble c w) fun w => rfl

theorem sh_setRemaining (c v p u) (w : World) : setRemaining c v p u (w.sh δ) = (setRemaining c v p u w).map (·.sh δ) := by
  unfold setRemaining
  simp only [sh_status]
  sp
  · rfl
  · sp
    · rfl
    · exact map_andThen (sh_remove c w) fun w => by rw [sh_now, sh_reschedule]

/-! ## resources -/

theorem sh_enterClaimers (c r p) (w : World) : enterClaimers c r p (w.sh δ) = (enterClaimers c r p w).map (·.sh δ) := by
  unfold enterClaimers; simp only [sh_queues]
  sp
  · rfl
  · exact sh_enterSortedQ _ _ _ _

theorem sh_claimOne (c l p) (w : World) : claimOne c l p (w.sh δ) = (claimOne c l p w).map (·.sh δ) := by
  unfold claimOne
  refine map_andThen ?_ (sh_leaveRequesters c p.1)
  simp only [sh_now, sh_modR, sh_queues, sh_res, sh_modC, sh_enterClaimers]
  sp
  · sp
    · rfl
    · sp <;> rfl
  · rfl

theorem sh_honored (w : World) (c) : honored (w.sh δ) c = honored w c := rfl

theorem sh_honorNow (c) (w : World) : honorNow c (w.sh δ) = (honorNow c w).map (R.map (·.sh δ)) := by
  unfold honorNow
  by_cases h : w.status c = .interrupted ∨ honored w c = []
  · rw [if_pos h, if_pos (by exact h)]; rfl
  · rw [if_neg h, if_neg (by exact h)]
    simp only [Option.map_some, Option.some.injEq]
    exact map_andThen (map_forR (sh_claimOne c _) _ _) fun w => sh_wakeC _ _ _ _ _

theorem sh_try : ∀ fuel : Nat,
    (∀ c (w : World), tryReqC fuel c (w.sh δ) = (tryReqC fuel c w).map (·.sh δ)) ∧
    (∀ rs (w : World), tryReqList fuel rs (w.sh δ) = (tryReqList fuel rs w).map (·.sh δ)) ∧
    (∀ r (w : World), tryReqR fuel r (w.sh δ) = (tryReqR fuel r w).map (·.sh δ)) ∧
    (∀ r mx first (w : World), loopR fuel r mx first (w.sh δ) = (loopR fuel r mx first w).map (·.sh δ)) := by
  intro fuel
  induction fuel with
  | zero => exact ⟨fun c w => by simp [tryReqC], fun rs w => by simp [tryReqList], fun r w => by simp [tryReqR], fun r mx f w => by simp [loopR]⟩
  | succ fuel ih =>
    obtain ⟨i1, i2, i3, i4⟩ := ih
    refine ⟨fun c w => ?_, fun rs w => ?_, fun r w => ?_, fun r mx first w => ?_⟩
    · simp only [tryReqC, sh_honorNow]
      cases honorNow c w with
      | none => rfl
      | some r => exact map_andThen rfl (i2 _)
    · cases rs with
      | nil => simp only [tryReqList]; rfl
      | cons r rs => simp only [tryReqList]; exact map_andThen (i3 r w) (i2 rs)
    · simp only [tryReqR, sh_res, sh_modR]
      sp
      · sp
        · rfl
        · exact map_andThen (i4 _ _ _ _) fun w => rfl
      · exact i4 _ _ _ _
    · cases mx with
      | none => simp only [loopR]; rfl
      | some m =>
        simp only [loopR, sh_res, sh_queues]
        sp
        · rfl
        · sp
          · rfl
          · sp
            · rfl
            · sp
              · rfl
              · refine map_andThen (i1 _ _) fun w => ?_
                simp only [sh_queues]
                sp
                · exact i4 _ _ _ _
                · exact i4 _ _ _ _

theorem sh_tryReqC (fuel c) (w : World) : tryReqC fuel c (w.sh δ) = (tryReqC fuel c w).map (·.sh δ) := (sh_try fuel).1 c w
theorem sh_tryReqR (fuel r) (w : World) : tryReqR fuel r (w.sh δ) = (tryReqR fuel r w).map (·.sh δ) := (sh_try fuel).2.2.1 r w

theorem sh_releaseCore (c r q) (w : World) : releaseCore c r q (w.sh δ) = (releaseCore c r q w).map (·.sh δ) := by
  unfold releaseCore
  simp only [sh_comps, sh_modR, sh_modC]
  cases lookup (w.comps c).claims r with
  | none => rfl
  | some cl =>
    simp only
    sp
    · refine map_andThen (sh_leaveQ _ _ _) fun w => ?_
      by_cases h : (w.queues (.claimers r)).len = 0
      · rw [if_pos h, if_pos (show ((w.sh δ).queues (.claimers r)).len = 0 from h)]; rfl
      · rw [if_neg h, if_neg (show ¬ ((w.sh δ).queues (.claimers r)).len = 0 from h)]; rfl
    · rfl

theorem sh_release1 (fuel c r q) (w : World) : release1 fuel c r q (w.sh δ) = (release1 fuel c r q w).map (·.sh δ) :=
  map_andThen (sh_releaseCore c r q w) (sh_tryReqR fuel r)

theorem sh_releaseArgs (fuel c l) (w : World) : releaseArgs fuel c l (w.sh δ) = (releaseArgs fuel c l w).map (·.sh δ) :=
  map_forR (fun a w => by
    simp only [sh_res]
    sp
    · rfl
    · exact sh_release1 _ _ _ _ _) _ _

theorem sh_releaseAll (fuel c) (w : World) : releaseAll fuel c (w.sh δ) = (releaseAll fuel c w).map (·.sh δ) :=
  map_forR (fun r => sh_release1 fuel c r none) _ _

theorem sh_preempt (r q p) (w : World) : preempt r q p (w.sh δ) = (preempt r q p w).map (·.sh δ) := by
  unfold preempt
  simp only [sh_res, sh_queues]
  sp
  · exact map_forR (fun d w => map_andThen (sh_releaseCore d r none w) (sh_activate d none _ _ _ _ _ _ _)) _ _
  · rfl

theorem sh_requestArg (c n put a) (w : World) : requestArg c n put a (w.sh δ) = (requestArg c n put a w).map (·.sh δ) := by
  unfold requestArg
  simp only [sh_res, sh_modC]
  sp
  · rfl
  · sp
    · rfl
    · refine map_andThen (sh_enterSortedQ _ _ _ _) fun w => ?_
      sp
      · exact sh_preempt _ _ _ _
      · rfl

theorem sh_lowerMinq (l) (w : World) : lowerMinq l (w.sh δ) = (lowerMinq l w).sh δ := by
  unfold lowerMinq
  induction l generalizing w with
  | nil => rfl
  | cons p t ih => simp only [List.foldl_cons, sh_modR, ih]

theorem sh_request (fuel c as o pu fa fd p u k) (w : World) :
    request fuel c as o pu (later δ fa) fd p u k (w.sh δ) = (request fuel c as o pu fa fd p u k w).map (·.sh δ) := by
  unfold request
  refine map_andThen (sh_preambleC _ _ _ _) fun w => ?_
  rw [sh_failTime]
  cases failTime w fa fd with
  | none => rfl
  | some t =>
    simp only [sh_modC, sh_now]
    sp
    · exact sh_reschedule _ _ _ _ _ _ _
    · refine map_andThen (map_forR (sh_requestArg c _ _) _ _) fun w => ?_
      simp only [sh_comps, sh_lowerMinq, sh_modC, sh_now]
      refine map_andThen (sh_tryReqC _ _ _) fun w => ?_
      simp only [sh_comps, sh_setStatus, sh_reschedule]
      sp <;> rfl

theorem sh_resReleaseLoop : ∀ (fuel : Nat) (r mx) (w : World), resReleaseLoop fuel r mx (w.sh δ) = (resReleaseLoop fuel r mx w).map (·.sh δ)
  | 0, _, _, _ => rfl
  | fuel + 1, r, none, w => rfl
  | fuel + 1, r, some m, w => by
    simp only [resReleaseLoop, sh_queues]
    sp
    · rfl
    · exact map_andThen (sh_release1 _ _ _ _ _) (sh_resReleaseLoop fuel r _)

theorem sh_resRelease (fuel r q) (w : World) : resRelease fuel r q (w.sh δ) = (resRelease fuel r q w).map (·.sh δ) := by
  unfold resRelease
  simp only [sh_res, sh_modR]
  sp
  · exact sh_tryReqR _ _ _
  · sp
    · rfl
    · exact sh_resReleaseLoop _ _ _ _

theorem sh_resSetCapacity (fuel r k) (w : World) : resSetCapacity fuel r k (w.sh δ) = (resSetCapacity fuel r k w).map (·.sh δ) :=
  sh_tryReqR fuel r (w.modR r (fun x => { x with cap := k, log := x.log.caps w.now k x.claimed }))

/-! ## states -/

theorem sh_tryWait (c) (w : World) : tryWait c (w.sh δ) = ((tryWait c w).1.map (·.sh δ), (tryWait c w).2) := by
  unfold tryWait
  have : waitOver (w.sh δ) c = waitOver w c := rfl
  simp only [sh_status, sh_comps, this]
  sp
  · rfl
  · sp
    · congr 1
      exact map_andThen (map_forR (sh_leaveWaiters c) _ _) fun w => sh_wakeC _ _ _ _ _
    · rfl

theorem sh_waitArg (c a) (w : World) : waitArg c a (w.sh δ) = (waitArg c a w).map (·.sh δ) := by
  unfold waitArg
  refine map_andThen ?_ fun w => rfl
  simp only [sh_comps]
  sp
  · rfl
  · sp
    · exact sh_onQueue _ _ _
    · exact sh_enterSortedQ _ _ _ _

theorem sh_waitEnd (c t p u k) (w : World) : waitEnd c t p u k (w.sh δ) = (waitEnd c t p u k w).map (·.sh δ) := by
  unfold waitEnd
  simp only [sh_comps, sh_modC, sh_now]
  sp
  · rfl
  · rw [sh_tryWait]
    refine map_andThen rfl fun w => ?_
    simp only [sh_comps, sh_setStatus, sh_reschedule]
    sp <;> rfl

theorem sh_wait (c as a fa fd p u k) (w : World) :
    wait c as a (later δ fa) fd p u k (w.sh δ) = (wait c as a fa fd p u k w).map (·.sh δ) := by
  unfold wait
  refine map_andThen (sh_preambleC _ _ _ _) fun w => ?_
  simp only [sh_modC, sh_failTime]
  sp
  · rfl
  · exact map_andThen (map_forR (sh_waitArg c) _ _) (sh_waitEnd _ _ _ _ _)

theorem sh_waitFor (c f ss fa fd p u k) (w : World) :
    waitFor c f ss (later δ fa) fd p u k (w.sh δ) = (waitFor c f ss fa fd p u k w).map (·.sh δ) := by
  unfold waitFor
  refine map_andThen (sh_preamble _ _) fun w => ?_
  simp only [sh_modC, sh_failTime]
  sp
  · rfl
  · exact map_andThen (map_forR (fun s w => sh_enterSortedQC _ _ _ _ _ _) _ _) (sh_waitEnd _ _ _ _ _)

theorem sh_stateTryWait : ∀ (l m) (w : World), stateTryWait l m (w.sh δ) = (stateTryWait l m w).map (·.sh δ)
  | [], _, _ => rfl
  | c :: t, m, w => by
    simp only [stateTryWait, sh_tryWait]
    refine map_andThen rfl fun w => ?_
    sp
    · sp
      · rfl
      · exact sh_stateTryWait t _ w
    · exact sh_stateTryWait t _ w

theorem sh_stateSet (s v) (w : World) : stateSet s v (w.sh δ) = (stateSet s v w).map (·.sh δ) := by
  unfold stateSet
  simp only [sh_states, sh_setState, sh_inQ, sh_stateTryWait]
  sp <;> rfl

theorem sh_stateTrigger (s v a m) (w : World) : stateTrigger s v a m (w.sh δ) = (stateTrigger s v a m w).map (·.sh δ) := by
  unfold stateTrigger
  simp only [sh_states, sh_setState, sh_inQ]
  exact map_andThen (sh_stateTryWait _ _ _) fun w => by rw [sh_setState, sh_inQ, sh_stateTryWait]

/-! ## stores -/

theorem sh_store : ∀ fuel : Nat,
    (∀ i s p (w : World), storeEnter fuel i s p (w.sh δ) = (storeEnter fuel i s p w).map (·.sh δ)) ∧
    (∀ i s (w : World), storeLeave fuel i s (w.sh δ) = (storeLeave fuel i s w).map (·.sh δ)) := by
  intro fuel
  induction fuel with
  | zero => exact ⟨fun i s p w => by simp [storeEnter], fun i s w => by simp [storeLeave]⟩
  | succ fuel ih =>
    obtain ⟨i1, i2⟩ := ih
    refine ⟨fun i s p w => ?_, fun i s w => ?_⟩
    · simp only [storeEnter]
      refine map_andThen ?_ fun w => ?_
      · cases p with
        | none => exact sh_onQueue _ _ _
        | some p => exact sh_onQueue _ _ _
      · simp only [sh_queues, sh_comps]
        sp
        · rfl
        · refine map_andThen (i2 _ _ _) fun w => ?_
          refine map_andThen (map_forR (fun s0 => sh_leaveQ _ _) _ _) fun w => ?_
          exact sh_wakeC _ _ _ _ _
    · simp only [storeLeave]
      refine map_andThen (sh_leaveQ _ _ _) fun w => ?_
      have hh : headQ (w.sh δ) (.toReq s) = headQ w (.toReq s) := rfl
      simp only [sh_queues, sh_comps, hh]
      sp
      · sp
        · rfl
        · sp
          · rfl
          · refine map_andThen (i1 _ _ _ _) fun w => ?_
            refine map_andThen (map_forR (fun s0 => sh_leaveQ _ _) _ _) fun w => ?_
            exact map_andThen (sh_wakeC _ _ _ _ _) fun w => rfl
      · rfl

theorem sh_storeEnter (fuel i s p) (w : World) : storeEnter fuel i s p (w.sh δ) = (storeEnter fuel i s p w).map (·.sh δ) := (sh_store fuel).1 i s p w
theorem sh_storeLeave (fuel i s) (w : World) : storeLeave fuel i s (w.sh δ) = (storeLeave fuel i s w).map (·.sh δ) := (sh_store fuel).2 i s w

theorem sh_searchStores (f k) (w : World) : ∀ ss b l, searchStores (w.sh δ) f k ss b l = searchStores w f k ss b l
  | [], _, _ => rfl
  | s :: t, b, l => by
    simp only [searchStores, sh_inQ, sh_searchStores f k w t]

theorem sh_fromStore (fuel c ss f k rp fa fd p u cp) (w : World) :
    fromStore fuel c ss f k rp (later δ fa) fd p u cp (w.sh δ) = (fromStore fuel c ss f k rp fa fd p u cp w).map (·.sh δ) := by
  unfold fromStore
  sp
  · rfl
  · refine map_andThen (sh_preamble _ _) fun w => ?_
    rw [sh_failTime]
    cases failTime w fa fd with
    | none => rfl
    | some t =>
      simp only [sh_modC, sh_searchStores]
      sp
      · exact map_andThen (sh_storeLeave _ _ _ _) fun w => sh_wakeC _ _ _ _ _
      · exact map_andThen (map_forR (fun s => sh_enterSortedQ _ _ _) _ _) fun w => sh_rescheduleC _ _ _ _ _ _ _ _ _

theorem sh_toStore (fuel c ss i rp sp fa fd p u cp) (w : World) :
    toStore fuel c ss i rp sp (later δ fa) fd p u cp (w.sh δ) = (toStore fuel c ss i rp sp fa fd p u cp w).map (·.sh δ) := by
  unfold toStore
  sp
  · rfl
  · refine map_andThen (sh_preamble _ _) fun w => ?_
    rw [sh_failTime]
    cases failTime w fa fd with
    | none => rfl
    | some t =>
      have hr : ∀ w : World, (fun s => roomIn (w.sh δ) s) = fun s => roomIn w s := fun _ => rfl
      simp only [sh_modC, hr]
      sp
      · exact map_andThen (sh_storeEnter _ _ _ _ _) fun w => sh_wakeC _ _ _ _ _
      · exact map_andThen (map_forR (fun s => sh_enterSortedQ _ _ _) _ _) fun w => sh_rescheduleC _ _ _ _ _ _ _ _ _

theorem sh_rescan (fuel s) (w : World) : rescan fuel s (w.sh δ) = (rescan fuel s w).map (·.sh δ) := by
  refine map_forR (fun c w => ?_) _ _
  simp only [sh_queues]
  sp
  · refine map_forR (fun i w => ?_) _ _
    unfold rescanItems
    simp only [sh_comps]
    sp
    · refine map_andThen (map_forR (fun s0 => sh_leaveQ _ _) _ _) fun w => ?_
      exact map_andThen (sh_storeLeave _ _ _ _) fun w => sh_wakeC _ _ _ _ _
    · rfl
  · rfl

theorem sh_rescanTo (fuel s) : ∀ l (w : World), rescanTo fuel s l (w.sh δ) = (rescanTo fuel s l w).map (·.sh δ)
  | [], _ => rfl
  | c :: t, w => by
    have hr : roomIn (w.sh δ) s = roomIn w s := rfl
    simp only [rescanTo, sh_queues, sh_comps, hr]
    sp
    · sp
      · refine map_andThen (map_forR (fun s0 => sh_leaveQ _ _) _ _) fun w => ?_
        simp only [sh_comps]
        sp
        · rfl
        · refine map_andThen (sh_storeEnter _ _ _ _ _) fun w => ?_
          exact map_andThen (sh_wakeC _ _ _ _ _) fun w => by rw [sh_modC, sh_rescanTo fuel s t]
      · rfl
    · exact sh_rescanTo fuel s t w

theorem sh_storeSetCapacity (fuel s k) (w : World) : storeSetCapacity fuel s k (w.sh δ) = (storeSetCapacity fuel s k w).map (·.sh δ) := by
  unfold storeSetCapacity
  simp only [sh_queues, sh_modQ, sh_inQ, sh_rescanTo]
  sp <;> rfl

/-! ## cancel, end of process, step, run -/

theorem sh_cancel (fuel c) (w : World) : cancel fuel c (w.sh δ) = (cancel fuel c w).map (·.sh δ) := by
  unfold cancel
  simp only [sh_status]
  sp
  · rfl
  · refine map_andThen (map_andThen ?_ (sh_releaseAll fuel c)) fun w => rfl
    sp
    · rfl
    · exact sh_clear c w

theorem sh_terminate (fuel c) (w : World) : terminate fuel c (w.sh δ) = (terminate fuel c w).map (·.sh δ) :=
  map_andThen (sh_releaseAll fuel c w) fun w => rfl

/-- first part of `stepEvent` -/
def newTurns (w : World) : World := if w.standby = [] then w else { w with pending := w.standby, standby := [] }
/-- second part of `stepEvent` -/
def takeEvent (w : World) : R :=
  match Heapq.heappop Ev.lt w.events with
  | some (e, es) =>
    let w := { w with events := es, now := e.t, current := e.c }
    let w := w.modC e.c (fun x => { x with onList := false, status := .current, schedTime := ⊤ })
    if e.c = w.main then .ok w else checkFail e.c w
  | none =>
    let w := { w with current := w.main, atInf := if w.endOnEmpty then w.atInf else true }
    .ok (w.modC w.main (fun x => { x with onList := false, status := .current, schedTime := ⊤ }))

theorem sh_newTurns (w : World) : newTurns (w.sh δ) = (newTurns w).sh δ := by
  unfold newTurns
  by_cases h : w.standby = []
  · rw [if_pos h, if_pos (show (w.sh δ).standby = [] from h)]
  · rw [if_neg h, if_neg (show ¬ (w.sh δ).standby = [] from h)]; rfl

theorem sh_takeEvent (w : World) : takeEvent (w.sh δ) = (takeEvent w).map (·.sh δ) := by
  unfold takeEvent
  rw [sh_events]
  cases hp : Heapq.heappop Ev.lt w.events with
  | none => rfl
  | some p =>
    refine map_ite (fun _ => rfl) (fun _ => ?_)
    exact sh_checkFail p.1.c (World.modC { w with events := p.2, now := p.1.t, current := p.1.c } p.1.c
      (fun x => { x with onList := false, status := .current, schedTime := ⊤ }))

theorem sh_stepEvent (w : World) : stepEvent (w.sh δ) = (stepEvent w).map (·.sh δ) := by
  show takeEvent (newTurns (w.sh δ)) = (takeEvent (newTurns w)).map (·.sh δ)
  rw [sh_newTurns, sh_takeEvent]

theorem sh_step (w : World) : step (w.sh δ) = (step w).map (·.sh δ) := by
  unfold step
  refine map_ite (fun _ => sh_stepEvent w) (fun _ => ?_)
  rw [sh_pending]
  cases w.pending with
  | nil => exact sh_stepEvent w
  | cons c rest => exact map_ite (fun _ => rfl) (fun _ => sh_stepEvent { w with pending := rest })

theorem sh_runStart (d t p u k) (w : World) : runStart d (later δ t) p u k (w.sh δ) = (runStart d t p u k w).map (·.sh δ) := by
  unfold runStart
  cases t <;> cases d <;> simp only [later, Option.map_none, Option.map_some, sh_now, sh_offset, add_shift]
  case some.some => rfl
  all_goals first
    | exact sh_reschedule _ _ _ _ _ _ (setStatus w.main .scheduled { w with endOnEmpty := true })
    | exact sh_reschedule _ _ _ _ _ _ (setStatus w.main .scheduled { w with endOnEmpty := false })

/-- a call with all absolute times adapted to a presented time that is `δ` more -/
def Op.later (δ : Rat) : Op → Op
  | .hold c d t p u k i => .hold c d (Verif.later δ t) p u k i
  | .activate c a d p u k pr kr kw => .activate c (Verif.later δ a) d p u k pr kr kw
  | .create c a d p u k s => .create c (Verif.later δ a) d p u k s
  | .request c as o pu fa fd p u k => .request c as o pu (Verif.later δ fa) fd p u k
  | .wait c as a fa fd p u k => .wait c as a (Verif.later δ fa) fd p u k
  | .waitFor c f ss fa fd p u k => .waitFor c f ss (Verif.later δ fa) fd p u k
  | .fromStore c ss f k rp fa fd p u cp => .fromStore c ss f k rp (Verif.later δ fa) fd p u cp
  | .toStore c ss i rp sp fa fd p u cp => .toStore c ss i rp sp (Verif.later δ fa) fd p u cp
  | .runStart d t p u k => .runStart d (Verif.later δ t) p u k
  | .resetNow t => .resetNow (t + δ)
  | o => o

/-- the same call in the same state, but for the presented time: the same outcome, but for the presented time -/
theorem exec_sh (fuel : Nat) (o : Op) (w : World) : exec fuel (o.later δ) (w.sh δ) = (exec fuel o w).map (·.sh δ) := by
  cases o <;> simp only [Op.later, exec]
  case hold => exact sh_hold _ _ _ _ _ _ _ _
  case passivate => exact sh_passivate _ _
  case activate => exact sh_activate _ _ _ _ _ _ _ _ _ _
  case create => exact sh_create _ _ _ _ _ _ _ _
  case interrupt => exact sh_interrupt _ _
  case resume => exact sh_resume _ _ _ _ _
  case standby => exact sh_standbyCall _ _
  case setRemaining => exact sh_setRemaining _ _ _ _ _
  case cancel => exact sh_cancel _ _ _
  case request => exact sh_request _ _ _ _ _ _ _ _ _ _ _
  case release => exact sh_releaseArgs _ _ _ _
  case releaseAll => exact sh_releaseAll _ _ _
  case resRelease => exact sh_resRelease _ _ _ _
  case resSetCapacity => exact sh_resSetCapacity _ _ _ _
  case wait => exact sh_wait _ _ _ _ _ _ _ _ _
  case waitFor => exact sh_waitFor _ _ _ _ _ _ _ _ _
  case stateSet => exact sh_stateSet _ _ _
  case stateTrigger => exact sh_stateTrigger _ _ _ _ _
  case fromStore => exact sh_fromStore _ _ _ _ _ _ _ _ _ _ _ _
  case toStore => exact sh_toStore _ _ _ _ _ _ _ _ _ _ _ _
  case rescan => exact sh_rescan _ _ _
  case storeSetCapacity => exact sh_storeSetCapacity _ _ _ _
  case storeEnter => exact sh_storeEnter _ _ _ _ _
  case storeLeave => exact sh_storeLeave _ _ _ _
  case runStart => exact sh_runStart _ _ _ _ _ _
  case resetNow t =>
    simp only [resetNow, map_ok, R.ok.injEq]
    show ({ w with offset := w.now - (t + δ) } : World) = { w with offset := w.now - t - δ }
    congr 1; ring
  case step => exact sh_step _
  case terminate => exact sh_terminate _ _ _
  case queueSetCapacity => rfl
  case queueReset => rfl
  all_goals exact sh_onQueue _ _ _

theorem execAll_sh (fuel : Nat) : ∀ (os : List Op) (w : World), execAll fuel (os.map (Op.later δ)) (w.sh δ) = (execAll fuel os w).sh δ
  | [], _ => rfl
  | o :: os, w => by
    simp only [List.map_cons, execAll, exec_sh, map_world, execAll_sh fuel os]

end Verif
