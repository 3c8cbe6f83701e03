import Verif.Kernel
import Mathlib.Data.List.Nodup
import Mathlib.Data.List.Perm.Basic

/-!
# Invariant of the event list over all histories
-/

namespace Verif
open World Heapq

/-! ## the part of the state that is about scheduling -/

structure CV where
  status : Status
  sched : ETime
  onList : Bool
  remaining : ETime
  intrLevel : Int
  intrStatus : Status
  skip : Bool
  hasProc : Bool

structure EV where
  now : Rat
  offset : Rat
  seq : Nat
  events : List Ev
  standby : List CId
  pending : List CId
  current : CId
  main : CId
  endOnEmpty : Bool
  atInf : Bool
  comps : CId → CV

def Comp.cv (x : Comp) : CV :=
  ⟨x.status, x.schedTime, x.onList, x.remaining, x.intrLevel, x.intrStatus, x.skipStandby, x.hasProcess⟩

def World.ev (w : World) : EV :=
  ⟨w.now, w.offset, w.seq, w.events, w.standby, w.pending, w.current, w.main, w.endOnEmpty, w.atInf, fun c => (w.comps c).cv⟩

theorem ev_modC {w : World} {c : CId} {f : Comp → Comp} (h : ∀ x, (f x).cv = x.cv) : (w.modC c f).ev = w.ev := by
  simp only [World.ev, World.modC, EV.mk.injEq, true_and]
  funext d
  split <;> simp [h]

@[simp] theorem ev_modR (w : World) (r f) : (w.modR r f).ev = w.ev := rfl
@[simp] theorem ev_modQ (w : World) (r f) : (w.modQ r f).ev = w.ev := rfl
@[simp] theorem ev_setState (w : World) (r f) : (w.setState r f).ev = w.ev := rfl

/-! ## functions that do not touch scheduling -/

/-- the call leaves scheduling alone, also when it raises -/
def Fr (r : R) (w : World) : Prop := r.world.ev = w.ev

theorem Fr.ok {w w' : World} (h : w'.ev = w.ev) : Fr (.ok w') w := h
theorem Fr.err {w w' : World} {e} (h : w'.ev = w.ev) : Fr (.err e w') w := h
theorem Fr.andThen {r : R} {w : World} {f : World → R} (h : Fr r w) (hf : ∀ w', Fr (f w') w') : Fr (r ⊳ f) w := by
  cases r with
  | ok w' => exact (hf w').trans h
  | err e w' => exact h
theorem Fr.trans' {r : R} {w w' : World} (h : Fr r w') (h2 : w'.ev = w.ev) : Fr r w := Eq.trans h h2
theorem Fr.forR {α : Type} {f : α → World → R} (hf : ∀ a w', Fr (f a w') w') : ∀ (l : List α) (w : World), Fr (forR l f w) w
  | [], _ => rfl
  | a :: t, w => Fr.andThen (hf a w) (fun w' => Fr.forR hf t w')

theorem fr_onQueue (q f) (w : World) : Fr (onQueue q f w) w := by
  unfold onQueue; split <;> rfl
theorem fr_leaveQ (c q) (w : World) : Fr (leaveQ c q w) w := fr_onQueue _ _ _
theorem fr_enterSortedQ (c q p) (w : World) : Fr (enterSortedQ c q p w) w := fr_onQueue _ _ _
theorem fr_leaveRequesters (c r) (w : World) : Fr (leaveRequesters c r w) w := by
  refine (fr_leaveQ _ _ _).andThen fun w' => ?_
  apply Fr.ok; split <;> rfl
theorem fr_leaveWaiters (c x) (w : World) : Fr (leaveWaiters c x w) w := by
  unfold leaveWaiters; split
  · exact fr_leaveQ _ _ _
  · rfl
theorem fr_checkFail (c) (w : World) : Fr (checkFail c w) w := by
  unfold checkFail
  refine Fr.andThen (Fr.andThen (Fr.andThen ?_ fun w => ?_) fun w => ?_) fun w => ?_
  · unfold checkFailReq; split
    · rfl
    · exact (Fr.forR (fun r w => fr_leaveRequesters c r w) _ _).andThen fun w => Fr.ok (ev_modC fun _ => rfl)
  · unfold checkFailWait; split
    · rfl
    · exact (Fr.forR (fun r w => fr_leaveWaiters c r w) _ _).andThen fun w => Fr.ok (ev_modC fun _ => rfl)
  · unfold checkFailFrom; split
    · rfl
    · exact (Fr.forR (fun r w => fr_leaveQ c _ w) _ _).andThen fun w => Fr.ok (ev_modC fun _ => rfl)
  · unfold checkFailTo; split
    · rfl
    · exact (Fr.forR (fun r w => fr_leaveQ c _ w) _ _).andThen fun w => Fr.ok (ev_modC fun _ => rfl)

theorem fr_enterClaimers (c r p) (w : World) : Fr (enterClaimers c r p w) w := by
  unfold enterClaimers; split
  · rfl
  · exact fr_enterSortedQ _ _ _ _

theorem fr_claimOne (c hon p) (w : World) : Fr (claimOne c hon p w) w := by
  unfold claimOne
  refine Fr.andThen ?_ fun w => fr_leaveRequesters _ _ _
  split
  · simp only
    split
    · exact Fr.err rfl
    · split
      · rfl
      · exact (fr_enterClaimers _ _ _ _).trans' (ev_modC fun _ => rfl)
  · rfl

theorem fr_releaseCore (c r q) (w : World) : Fr (releaseCore c r q w) w := by
  unfold releaseCore
  split
  · rfl
  · rename_i cl _
    extract_lets q' w1
    split
    · refine Fr.andThen ((fr_leaveQ _ _ _).trans' (ev_modC fun _ => rfl)) fun w => ?_
      refine Fr.ok ((ev_modR _ _ _).trans (Eq.trans (ev_modC ?_) ?_))
      · exact fun _ => rfl
      · split <;> rfl
    · exact Fr.ok ((ev_modR _ _ _).trans (Eq.trans (by exact ev_modC fun _ => rfl) rfl))

theorem fr_lowerMinq (rq) (w : World) : (lowerMinq rq w).ev = w.ev := by
  unfold lowerMinq
  induction rq generalizing w with
  | nil => rfl
  | cons a t ih => exact (ih _).trans rfl

theorem fr_waitArg (c a) (w : World) : Fr (waitArg c a w) w := by
  unfold waitArg
  refine Fr.andThen ?_ fun w => Fr.ok (ev_modC fun _ => rfl)
  split
  · rfl
  · split
    · exact fr_onQueue _ _ _
    · exact fr_enterSortedQ _ _ _ _

/-! ## the functions that only let waiting components continue -/

/-- `b` is reached from `a` by changes that do not touch scheduling, and by `wake`s -/
inductive Wk (w : World) : World → Prop
  | refl : Wk w w
  | frame {a b : World} : Wk w a → b.ev = a.ev → Wk w b
  | wake {a : World} (d : CId) (ret : Option CId) : Wk w a → Wk w (wake d ret a).world

theorem Wk.trans {a b c : World} (h1 : Wk a b) (h2 : Wk b c) : Wk a c := by
  induction h2 with
  | refl => exact h1
  | frame _ h ih => exact ih.frame h
  | wake d ret _ ih => exact ih.wake d ret

theorem Wk.of_fr {r : R} {w : World} (h : Fr r w) : Wk w r.world := Wk.refl.frame h
theorem Wk.of_ev {w w' : World} (h : w'.ev = w.ev) : Wk w w' := Wk.refl.frame h
theorem Wk.okk {w w' : World} (h : w'.ev = w.ev) : Wk w (R.ok w').world := Wk.refl.frame h
theorem Wk.andThen {r : R} {w : World} {f : World → R} (h : Wk w r.world) (hf : ∀ w', Wk w' (f w').world) :
    Wk w (r ⊳ f).world := by
  cases r with
  | ok w' => exact h.trans (hf w')
  | err e w' => exact h
theorem Wk.forR {α : Type} {f : α → World → R} (hf : ∀ a w', Wk w' (f a w').world) :
    ∀ (l : List α) (w : World), Wk w (Verif.forR l f w).world
  | [], _ => .refl
  | a :: t, w => Wk.andThen (hf a w) (fun w' => Wk.forR hf t w')
theorem Wk.pre {a b w : World} (h : Wk a b) (h2 : a.ev = w.ev) : Wk w b := (Wk.of_ev h2).trans h
theorem wk_wake_of {a w : World} {d ret} (h : a.ev = w.ev) : Wk w (Verif.wake d ret a).world := (Wk.refl.frame h).wake d ret
theorem Wk.wk (d ret) (w : World) : Wk w (Verif.wake d ret w).world := Wk.refl.wake d ret

theorem wk_honorNow {c : CId} {w : World} {r : R} (h : honorNow c w = some r) : Wk w r.world := by
  unfold honorNow at h
  split at h
  · cases h
  · cases h
    refine Wk.andThen (Wk.of_fr (Fr.forR (fun p w => fr_claimOne c _ p w) _ _)) fun w' => ?_
    exact wk_wake_of (ev_modC fun _ => rfl)

theorem wk_try (fuel : Nat) : (∀ c w, Wk w (tryReqC fuel c w).world) ∧ (∀ rs w, Wk w (tryReqList fuel rs w).world) ∧
    (∀ r w, Wk w (tryReqR fuel r w).world) ∧ (∀ r mx f w, Wk w (loopR fuel r mx f w).world) := by
  induction fuel with
  | zero =>
    refine ⟨fun c w => ?_, fun rs w => ?_, fun r w => ?_, fun r mx f w => ?_⟩
    · rw [tryReqC]; exact .refl
    · rw [tryReqList]; exact .refl
    · rw [tryReqR]; exact .refl
    · rw [loopR]; exact .refl
  | succ n ih =>
    obtain ⟨i1, i2, i3, i4⟩ := ih
    refine ⟨fun c w => ?_, fun rs w => ?_, fun r w => ?_, fun r mx f w => ?_⟩
    · rw [tryReqC]
      split
      · exact .refl
      · rename_i res hres
        exact Wk.andThen (wk_honorNow hres) (i2 _)
    · rw [tryReqList.eq_def]
      simp only
      split
      · exact .refl
      · exact Wk.andThen (i3 _ _) (i2 _)
    · rw [tryReqR]
      split
      · split
        · exact .refl
        · exact Wk.andThen (Wk.pre (i4 _ _ _ _) (ev_modR _ _ _)) fun _ => Wk.okk (ev_modR _ _ _)
      · exact i4 _ _ _ _
    · rw [loopR.eq_def]
      simp only
      split
      · exact .refl
      · split
        · exact .refl
        · split
          · exact .refl
          · split
            · exact .refl
            · split
              · exact .refl
              · refine Wk.andThen (i1 _ _) fun w' => ?_
                split
                · exact i4 _ _ _ _
                · exact i4 _ _ _ _

theorem wk_release1 (fuel c r q) (w : World) : Wk w (release1 fuel c r q w).world :=
  Wk.andThen (Wk.of_fr (fr_releaseCore _ _ _ _)) fun _ => (wk_try fuel).2.2.1 _ _
theorem wk_releaseAll (fuel c) (w : World) : Wk w (releaseAll fuel c w).world :=
  Wk.forR (fun _ _ => wk_release1 _ _ _ _ _) _ _
theorem wk_releaseArgs (fuel c args) (w : World) : Wk w (releaseArgs fuel c args w).world := by
  refine Wk.forR (fun a w => ?_) _ _
  split
  · exact .refl
  · exact wk_release1 _ _ _ _ _
theorem wk_resReleaseLoop (fuel : Nat) (r) : ∀ (mx) (w : World), Wk w (resReleaseLoop fuel r mx w).world := by
  induction fuel with
  | zero => intro mx w; exact .refl
  | succ n ih =>
    intro mx w
    rw [resReleaseLoop.eq_def]
    simp only
    split
    · exact .refl
    · split
      · exact .refl
      · exact Wk.andThen (wk_release1 _ _ _ _ _) (ih _)
theorem wk_resRelease (fuel r q) (w : World) : Wk w (resRelease fuel r q w).world := by
  unfold resRelease
  split
  · exact Wk.pre ((wk_try fuel).2.2.1 _ _) (ev_modR _ _ _)
  · split
    · exact .refl
    · exact wk_resReleaseLoop _ _ _ _
theorem wk_resSetCapacity (fuel r k) (w : World) : Wk w (resSetCapacity fuel r k w).world :=
  Wk.pre ((wk_try fuel).2.2.1 _ _) (ev_modR _ _ _)

theorem wk_tryWait (c) (w : World) : Wk w (tryWait c w).1.world := by
  unfold tryWait
  split
  · exact .refl
  · split
    · refine Wk.andThen (Wk.of_fr (Fr.forR (fun p w => fr_leaveWaiters c p w) _ _)) fun w' => ?_
      exact wk_wake_of (ev_modC fun _ => rfl)
    · exact .refl

theorem wk_stateTryWait (l) : ∀ (mx) (w : World), Wk w (stateTryWait l mx w).world := by
  induction l with
  | nil => intro mx w; exact .refl
  | cons c t ih =>
    intro mx w
    unfold stateTryWait
    have h1 := wk_tryWait c w
    generalize tryWait c w = p at h1 ⊢
    obtain ⟨r, b⟩ := p
    refine Wk.andThen h1 fun w' => ?_
    simp only
    split
    · split
      · exact .refl
      · exact ih _ _
    · exact ih _ _
theorem wk_stateSet (s v) (w : World) : Wk w (stateSet s v w).world := by
  unfold stateSet
  split
  · exact .refl
  · exact Wk.pre (wk_stateTryWait _ _ _) (ev_setState _ _ _)
theorem wk_stateTrigger (s v a m) (w : World) : Wk w (stateTrigger s v a m w).world := by
  unfold stateTrigger
  simp only
  refine Wk.andThen (Wk.pre (wk_stateTryWait _ _ _) (ev_setState _ _ _)) fun w' => ?_
  exact Wk.pre (wk_stateTryWait _ _ _) (ev_setState _ _ _)

theorem wk_store (fuel : Nat) : (∀ i s p w, Wk w (storeEnter fuel i s p w).world) ∧ (∀ i s w, Wk w (storeLeave fuel i s w).world) := by
  induction fuel with
  | zero =>
    refine ⟨fun i s p w => ?_, fun i s w => ?_⟩
    · rw [storeEnter]; exact .refl
    · rw [storeLeave]; exact .refl
  | succ n ih =>
    obtain ⟨i1, i2⟩ := ih
    refine ⟨fun i s p w => ?_, fun i s w => ?_⟩
    · rw [storeEnter.eq_def]
      refine Wk.andThen ?_ fun w' => ?_
      · split <;> exact Wk.of_fr (fr_onQueue _ _ _)
      · split
        · exact .refl
        · refine Wk.andThen (i2 _ _ _) fun w' => ?_
          refine Wk.andThen (Wk.of_fr (Fr.forR (fun p w => fr_leaveQ _ _ w) _ _)) fun w' => ?_
          exact wk_wake_of (ev_modC fun _ => rfl)
    · rw [storeLeave.eq_def]
      refine Wk.andThen (Wk.of_fr (fr_leaveQ _ _ _)) fun w' => ?_
      simp only
      split
      · split
        · exact .refl
        · split
          · exact .refl
          · refine Wk.andThen (i1 _ _ _ _) fun w' => ?_
            refine Wk.andThen (Wk.of_fr (Fr.forR (fun p w => fr_leaveQ _ _ w) _ _)) fun w' => ?_
            refine Wk.andThen (wk_wake_of (ev_modC fun _ => rfl)) fun w' => ?_
            exact Wk.okk (ev_modC fun _ => rfl)
      · exact .refl

theorem wk_rescan (fuel s) (w : World) : Wk w (rescan fuel s w).world := by
  refine Wk.forR (fun c w => ?_) _ _
  split
  · refine Wk.forR (fun i w => ?_) _ _
    unfold rescanItems
    split
    · refine Wk.andThen (Wk.of_fr (Fr.forR (fun p w => fr_leaveQ _ _ w) _ _)) fun w' => ?_
      refine Wk.andThen ((wk_store fuel).2 _ _ _) fun w' => ?_
      exact wk_wake_of (ev_modC fun _ => rfl)
    · exact .refl
  · exact .refl

theorem wk_rescanTo (fuel s l) : ∀ (w : World), Wk w (rescanTo fuel s l w).world := by
  induction l with
  | nil => intro w; exact .refl
  | cons c t ih =>
    intro w
    unfold rescanTo
    split
    · split
      · refine Wk.andThen (Wk.of_fr (Fr.forR (fun p w => fr_leaveQ _ _ w) _ _)) fun w' => ?_
        split
        · exact .refl
        · refine Wk.andThen ((wk_store fuel).1 _ _ _ _) fun w' => ?_
          refine Wk.andThen (wk_wake_of (ev_modC fun _ => rfl)) fun w' => ?_
          exact Wk.pre (ih _) (ev_modC fun _ => rfl)
      · exact .refl
    · exact ih _

theorem wk_storeSetCapacity (fuel s k) (w : World) : Wk w (storeSetCapacity fuel s k w).world := by
  unfold storeSetCapacity
  simp only
  split
  · exact Wk.pre (wk_rescanTo _ _ _ _) (ev_modQ _ _ _)
  · exact Wk.okk (ev_modQ _ _ _)

end Verif
