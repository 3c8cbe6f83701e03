import Verif.Reach

/-!
# What the calls do with resources

A property of worlds is preserved by every call if it is preserved by the primitive steps of the resource bookkeeping (a request is
made, honored, or fails; a claim is released; a capacity is set) and doesn't depend on anything else.
-/

namespace Verif
open World

/-- what a component has to do with resources -/
structure RC where
  claims : List (RId × Rat)
  requests : List (RId × Rat)
  oneof : Bool

/-- the part of the world that has to do with resources -/
structure RView where
  comps : CId → RC
  res : RId → Res
  reqs : RId → List QMem × ETime
  clms : RId → List QMem × ETime

def Comp.rc (x : Comp) : RC := ⟨x.claims, x.requests, x.oneof⟩
def Res.rv (x : Res) : Res := { x with minq := ⊤, trying := false, log := .start 0 ⊤ 0 }
def World.rv (w : World) : RView :=
  ⟨fun c => (w.comps c).rc, fun r => (w.res r).rv, fun r => ((w.queues (.requesters r)).mem, (w.queues (.requesters r)).cap),
    fun r => ((w.queues (.claimers r)).mem, (w.queues (.claimers r)).cap)⟩

/-- restrictions on the calls: components that make requests, quantities in requests (of the resource), in releases of claims, in releases from anonymous resources,
and capacities -/
structure Lic where
  who : CId → Prop
  /-- resource, quantity, priority -/
  ask : RId → Rat → Rat → Prop
  rel : RId → Rat → Prop
  anon : RView → RId → Option Rat → Prop
  cap : RView → RId → ETime → Prop

/-- `P` is preserved by the primitive steps -/
structure Stable (L : Lic) (P : World → Prop) : Prop where
  frame0 : ∀ {w w' : World}, P w → w'.rv = w.rv → (∀ r, (w'.res r).log = (w.res r).log) → w'.now = w.now → P w'
  oneof : ∀ {w : World} (c b), P w → L.who c → P (w.modC c (fun x => { x with oneof := b }))
  fail : ∀ {w : World} (c), P w → P (checkFailReq c w).world
  honor : ∀ {w : World} (c), P w → w.status c ≠ .interrupted → honored w c ≠ [] →
    P (forR (w.comps c).requests (claimOne c (honored w c)) w ⊳ fun w => .ok (w.modC c (fun x => { x with requests := [] }))).world
  rel : ∀ {w : World} (c r q), P w → (∀ x, q = some x → L.rel r x) → P (releaseCore c r q w).world
  ask : ∀ {w : World} (c r q prio), P w → L.who c → L.ask r q prio → (q < 0 → (w.res r).anonymous = true) →
    P (enterSortedQ c (.requesters r) prio (w.modC c (fun x => { x with requests := addTo x.requests r q }))).world
  anon : ∀ {w : World} (r q), P w → (w.res r).anonymous = true → L.anon w.rv r q →
    P (w.modR r (fun x => { x with
      claimed := if (w.res r).claimed - (match q with | none => (w.res r).claimed | some q => q) < eps then 0
        else (w.res r).claimed - (match q with | none => (w.res r).claimed | some q => q)
      log := x.log.claims w.now x.cap (if (w.res r).claimed - (match q with | none => (w.res r).claimed | some q => q) < eps then 0
        else (w.res r).claimed - (match q with | none => (w.res r).claimed | some q => q)) }))
  cap : ∀ {w : World} (r k), P w → L.cap w.rv r k → P (w.modR r (fun x => { x with cap := k, log := x.log.caps w.now k x.claimed }))

/-- `P` only depends on the resources, the requests and claims, and on who is interrupted, and is preserved when a component gives up its requests -/
structure StableF (P : World → Prop) : Prop where
  frame0 : ∀ {w w' : World}, P w → w'.rv = w.rv → w'.res = w.res → w'.now = w.now →
    (∀ d, w'.status d = .interrupted → w.status d = .interrupted) → P w'
  fail : ∀ {w : World} (c), P w → P (checkFailReq c w).world

/-- after the call, raised or not -/
def Pr (P : World → Prop) (r : R) : Prop := P r.world

theorem Pr.ok {P : World → Prop} {w : World} (h : P w) : Pr P (.ok w) := h
theorem Pr.err {P : World → Prop} {w : World} {e} (h : P w) : Pr P (.err e w) := h
theorem Pr.andThen {P : World → Prop} {r : R} {f : World → R} (h : Pr P r) (hf : ∀ w', P w' → Pr P (f w')) : Pr P (r ⊳ f) := by
  cases r with
  | ok w' => exact hf w' h
  | err e w' => exact h
theorem Pr.forR {α : Type} {P : World → Prop} {f : α → World → R} (hf : ∀ a w', P w' → Pr P (f a w')) :
    ∀ (l : List α) (w : World), P w → Pr P (Verif.forR l f w)
  | [], _, h => h
  | a :: t, w, h => Pr.andThen (hf a w h) (fun w' h' => Pr.forR hf t w' h')

theorem rv_modC (w : World) (c : CId) {f : Comp → Comp} (hf : ∀ x, (f x).rc = x.rc) : (w.modC c f).rv = w.rv := by
  simp only [World.rv, World.modC]
  congr 1
  funext d
  split
  · exact hf _
  · rfl
theorem rv_modR (w : World) (r : RId) {f : Res → Res} (hf : ∀ x, (f x).rv = x.rv) : (w.modR r f).rv = w.rv := by
  simp only [World.rv, World.modR]
  congr 1
  funext d
  split
  · exact hf _
  · rfl
theorem rv_modR2 (w : World) (r : RId) {f g : Res → Res} (hf : ∀ x, (f x).rv = (g x).rv) : (w.modR r f).rv = (w.modR r g).rv := by
  simp only [World.rv, World.modR]
  congr 1
  funext d
  split
  · exact hf _
  · rfl
@[simp] theorem rv_tallyR (w : World) (r : RId) : (w.tallyR r).rv = w.rv := rv_modR _ _ (by intro _; rfl)
/-- not the requesters or claimers of a resource -/
def QRef.nr : QRef → Bool
  | .requesters _ | .claimers _ => false
  | _ => true
theorem rv_modQ (w : World) {q : QRef} (hq : q.nr = true) (f : Queue → Queue) : (w.modQ q f).rv = w.rv := by
  have h1 : ∀ r, QRef.requesters r ≠ q := by intro r h; rw [← h] at hq; cases hq
  have h2 : ∀ r, QRef.claimers r ≠ q := by intro r h; rw [← h] at hq; cases hq
  simp [World.rv, World.modQ, h1, h2]
theorem rv_modQ' (w : World) (q : QRef) {f : Queue → Queue} (hf : ∀ x, (f x).mem = x.mem ∧ (f x).cap = x.cap) : (w.modQ q f).rv = w.rv := by
  simp only [World.rv, World.modQ]
  congr 1 <;> funext r <;> split
  · rename_i h; rw [h, (hf _).1, (hf _).2]
  · rfl
  · rename_i h; rw [h, (hf _).1, (hf _).2]
  · rfl

variable {L : Lic} {P : World → Prop}

theorem Stable.frame (S : Stable L P) {w w' : World} (h : P w) (hv : w'.rv = w.rv) (hl : ∀ r, (w'.res r).log = (w.res r).log := by intro _; rfl)
    (hn : w'.now = w.now := by rfl) : P w' := S.frame0 h hv hl hn
theorem log_modR (w : World) (r : RId) {f : Res → Res} (hf : ∀ x, (f x).log = x.log) (s : RId) : ((w.modR r f).res s).log = (w.res s).log := by
  simp only [World.modR]
  split
  · exact hf _
  · rfl
theorem Stable.modC (S : Stable L P) {w : World} (h : P w) (c : CId) {f : Comp → Comp} (hf : ∀ x, (f x).rc = x.rc := by intro _; rfl) : P (w.modC c f) :=
  S.frame h (rv_modC w c hf)
theorem Stable.modR (S : Stable L P) {w : World} (h : P w) (r : RId) {f : Res → Res} (hf : ∀ x, (f x).rv = x.rv := by intro _; rfl)
    (hl : ∀ x, (f x).log = x.log := by intro _; rfl) : P (w.modR r f) :=
  S.frame h (rv_modR w r hf) (log_modR w r hl)
theorem Stable.toF (S : Stable L P) : StableF P := ⟨fun h hv hr hn _ => S.frame h hv (fun r => by rw [hr]) hn, fun c h => S.fail c h⟩
theorem StableF.frame (S : StableF P) {w w' : World} (h : P w) (hv : w'.rv = w.rv) (hr : w'.res = w.res := by rfl)
    (hs : ∀ d, w'.status d = .interrupted → w.status d = .interrupted := by exact fun _ h => h) (hn : w'.now = w.now := by rfl) : P w' :=
  S.frame0 h hv hr hn hs
theorem StableF.modC (S : StableF P) {w : World} (h : P w) (c : CId) {f : Comp → Comp} (hf : ∀ x, (f x).rc = x.rc := by intro _; rfl)
    (hs : ∀ x, (f x).status = .interrupted → x.status = .interrupted := by
      intro _; first | exact fun h => h | (intro h; cases h)) : P (w.modC c f) :=
  S.frame h (rv_modC w c hf) rfl fun d hd => by
    simp only [World.status, World.modC] at hd ⊢
    split at hd
    · exact hs _ hd
    · exact hd
theorem rf_onQueue (S : StableF P) {w : World} (h : P w) {q : QRef} (hq : q.nr = true) (f) : Pr P (onQueue q f w) := by
  unfold onQueue
  split
  · exact S.frame h (rv_modQ w hq (fun _ => _))
  · exact h
theorem rf_leaveQ (S : StableF P) {w : World} (h : P w) (c) {q : QRef} (hq : q.nr = true) : Pr P (leaveQ c q w) := rf_onQueue S h hq _
theorem rf_enterSortedQ (S : StableF P) {w : World} (h : P w) (c) {q : QRef} (hq : q.nr = true) (p) : Pr P (enterSortedQ c q p w) := rf_onQueue S h hq _

theorem rf_push (S : StableF P) {w : World} (h : P w) (c) (t : ETime) (p u ret) : P (push c t p u ret w) := by
  unfold Verif.push
  split
  · exact h
  · exact S.frame (S.modC h c (f := fun x => { x with onList := true }) (fun _ => rfl)) rfl
theorem rf_remove (S : StableF P) {w : World} (h : P w) (c) : Pr P (remove c w) := by
  unfold Verif.remove
  split
  · split
    · exact S.frame (S.modC h c (f := fun x => { x with onList := false }) (fun _ => rfl)) rfl
    · exact h
  · split
    · exact S.frame h rfl
    · exact h
theorem rf_reschedule (S : StableF P) {w : World} (h : P w) (c t p u k ret) : Pr P (reschedule c t p u k ret w) := by
  unfold reschedule
  split
  · split
    · exact Pr.ok (rf_push S (S.modC h c) _ _ _ _ _)
    · exact h
  · exact Pr.ok (rf_push S (S.modC h c) _ _ _ _ _)

theorem rf_setStatus (S : StableF P) {w : World} (h : P w) (c s) (hs : s ≠ .interrupted := by simp) : P (setStatus c s w) :=
  S.modC h _ (fun _ => rfl) (fun _ h => absurd h hs)
theorem rf_wake (S : StableF P) {w : World} (h : P w) (c ret) : Pr P (wake c ret w) :=
  (rf_remove S h c).andThen fun _ h' => rf_reschedule S (rf_setStatus S h' _ _) _ _ _ _ _ _

theorem rf_leaveWaiters (S : StableF P) {w : World} (h : P w) (c x) : Pr P (leaveWaiters c x w) := by
  unfold leaveWaiters
  split
  · exact rf_leaveQ S h _ rfl
  · exact h

theorem rf_checkFail (S : StableF P) {w : World} (h : P w) (c) : Pr P (checkFail c w) := by
  unfold checkFail
  refine ((Pr.andThen ?_ fun w h => ?_).andThen fun w h => ?_).andThen fun w h => ?_
  · exact S.fail c h
  · unfold checkFailWait; split
    · exact h
    · exact (Pr.forR (fun r w h => rf_leaveWaiters S h c r) _ _ h).andThen fun w h => Pr.ok (S.modC h _)
  · unfold checkFailFrom; split
    · exact h
    · exact (Pr.forR (fun r w h => rf_leaveQ S h c rfl) _ _ h).andThen fun w h => Pr.ok (S.modC h _)
  · unfold checkFailTo; split
    · exact h
    · exact (Pr.forR (fun r w h => rf_leaveQ S h c rfl) _ _ h).andThen fun w h => Pr.ok (S.modC h _)

theorem rf_removeFail (S : StableF P) {w : World} (h : P w) (c) : Pr P (checkNotData c w ⊳ remove c ⊳ checkFail c) := by
  refine (Pr.andThen ?_ fun w h => rf_remove S h _).andThen fun w h => rf_checkFail S h _
  unfold checkNotData; split <;> exact h

theorem rf_preamble (S : StableF P) {w : World} (h : P w) (c) : Pr P (preamble c w) := by
  unfold preamble
  split
  · exact h
  · refine ((Pr.andThen ?_ fun w h => ?_).andThen fun w h => rf_remove S h _).andThen fun w h => rf_checkFail S h _
    · unfold checkNotData; split <;> exact h
    · unfold checkNotMain; split <;> exact h

theorem rs_hold (S : Stable L P) {w : World} (h : P w) (c d t p u k i) : Pr P (hold c d t p u k i w) := by
  unfold hold
  refine Pr.andThen ?_ fun w h => ?_
  · split
    · exact h
    · exact rf_removeFail S.toF h c
  · split
    · exact h
    · split
      · exact h
      · simp only
        split
        · exact Pr.ok (S.modC h _)
        · exact rf_reschedule S.toF (rf_setStatus S.toF h _ _) _ _ _ _ _ _

theorem rf_passivate (S : StableF P) {w : World} (h : P w) (c) : Pr P (passivate c w) := by
  unfold passivate
  refine Pr.andThen ?_ fun w h => Pr.ok (S.modC h _)
  split
  · exact Pr.ok (S.modC h _)
  · exact (rf_removeFail S h c).andThen fun w h => Pr.ok (S.modC h _)

theorem rf_activate (S : StableF P) {w : World} (h : P w) (c a d p u k pr kr kw) : Pr P (activate c a d p u k pr kr kw w) := by
  unfold activate
  simp only
  split
  · exact h
  · refine Pr.andThen ?_ fun w h => rf_reschedule S (rf_setStatus S h _ _) _ _ _ _ _ _
    split
    · exact h
    · refine (rf_remove S h _).andThen fun w h => ?_
      split
      · exact h
      · exact rf_checkFail S h _

theorem rf_create (S : StableF P) {w : World} (h : P w) (c a d p u k s) : Pr P (create c a d p u k s w) := by
  unfold create
  split
  · exact h
  · exact rf_reschedule S (S.modC h _) _ _ _ _ _ _

theorem rs_interrupt (S : Stable L P) {w : World} (h : P w) (c) : Pr P (interrupt c w) := by
  unfold interrupt
  split
  · exact Pr.ok (S.modC h _)
  · split
    · exact (rf_remove S.toF h _).andThen fun w h => Pr.ok (S.modC h _)
    · exact h

theorem rf_resume (S : StableF P) {w : World} (h : P w) (c a p u) : Pr P (resume c a p u w) := by
  unfold resume
  split
  · rename_i hi
    simp only
    split
    · exact Pr.ok (S.modC h _)
    · have h1 : P (setStatus c ((w.modC c (fun x => { x with intrLevel := x.intrLevel - 1 })).comps c).intrStatus
          (w.modC c (fun x => { x with intrLevel := x.intrLevel - 1 }))) := by
        refine S.frame h ((rv_modC _ _ (by intro _; rfl)).trans (rv_modC _ _ (by intro _; rfl))) rfl fun d hd => ?_
        by_cases hdc : d = c
        · subst hdc; exact hi
        · simpa [setStatus, World.modC, World.status, hdc] using hd
      split
      · exact rf_reschedule S h1 _ _ _ _ _ _
      · exact h1
  · exact h

theorem rf_standby (S : StableF P) {w : World} (h : P w) (c) : Pr P (standby c w) := by
  unfold standby
  exact (rf_preamble S h _).andThen fun w h => S.frame (S.modC h _ (f := fun x => { x with status := .standby, schedTime := w.now })) rfl

theorem rf_setRemaining (S : StableF P) {w : World} (h : P w) (c v p u) : Pr P (setRemaining c v p u w) := by
  unfold setRemaining
  split
  · exact Pr.ok (S.modC h _)
  · split
    · exact h
    · exact (rf_remove S h _).andThen fun w h => rf_reschedule S h _ _ _ _ _ _

theorem rs_honorNow (S : Stable L P) {w : World} (h : P w) {c r} (he : honorNow c w = some r) : Pr P r := by
  unfold honorNow at he
  split at he
  · cases he
  · rename_i hn
    cases he
    have h1 := S.honor c h (fun hh => hn (.inl hh)) (fun hh => hn (.inr hh))
    generalize forR (w.comps c).requests (claimOne c (honored w c)) w = r at h1 ⊢
    cases r with
    | ok w1 => exact rf_wake S.toF h1 _ _
    | err e w1 => exact h1

theorem rs_try (S : Stable L P) (fuel : Nat) : (∀ c w, P w → Pr P (tryReqC fuel c w)) ∧ (∀ rs w, P w → Pr P (tryReqList fuel rs w)) ∧
    (∀ r w, P w → Pr P (tryReqR fuel r w)) ∧ (∀ r mx f w, P w → Pr P (loopR fuel r mx f w)) := by
  induction fuel with
  | zero =>
    refine ⟨fun c w h => ?_, fun rs w h => ?_, fun r w h => ?_, fun r mx f w h => ?_⟩
    · rw [tryReqC]; exact h
    · rw [tryReqList]; exact h
    · rw [tryReqR]; exact h
    · rw [loopR]; exact h
  | succ n ih =>
    obtain ⟨i1, i2, i3, i4⟩ := ih
    refine ⟨fun c w h => ?_, fun rs w h => ?_, fun r w h => ?_, fun r mx f w h => ?_⟩
    · rw [tryReqC]
      split
      · exact h
      · rename_i res hres
        exact Pr.andThen (rs_honorNow S h hres) (i2 _)
    · rw [tryReqList.eq_def]
      simp only
      split
      · exact h
      · exact Pr.andThen (i3 _ _ h) (i2 _)
    · rw [tryReqR]
      split
      · split
        · exact h
        · exact Pr.andThen (i4 _ _ _ _ (S.modR h _)) fun w' h' => Pr.ok (S.modR h' _)
      · exact i4 _ _ _ _ h
    · rw [loopR.eq_def]
      simp only
      repeat' split
      all_goals first
        | exact h
        | (refine Pr.andThen (i1 _ _ h) fun w' h' => ?_
           split <;> exact i4 _ _ _ _ h')


theorem rs_release1 (S : Stable L P) {w : World} (h : P w) (fuel c r q) (hq : ∀ x, q = some x → L.rel r x) : Pr P (release1 fuel c r q w) :=
  Pr.andThen (S.rel c r q h hq) ((rs_try S fuel).2.2.1 _)
theorem rs_releaseAll (S : Stable L P) {w : World} (h : P w) (fuel c) : Pr P (releaseAll fuel c w) :=
  Pr.forR (fun _ _ h => rs_release1 S h _ _ _ _ (fun _ h => by cases h)) _ _ h
theorem rs_releaseArgs (S : Stable L P) (fuel c) : ∀ (l : List (RId × Option Rat)) (w : World), P w → (∀ a ∈ l, ∀ x, a.2 = some x → L.rel a.1 x) →
    Pr P (releaseArgs fuel c l w)
  | [], w, h, _ => h
  | a :: t, w, h, hl => by
    unfold releaseArgs forR
    refine Pr.andThen ?_ fun w h => rs_releaseArgs S fuel c t w h fun b hb => hl b (List.mem_cons_of_mem _ hb)
    split
    · exact h
    · exact rs_release1 S h _ _ _ _ (hl a List.mem_cons_self)

theorem rs_preempt (S : Stable L P) {w : World} (h : P w) (r q p) : Pr P (preempt r q p w) := by
  unfold preempt
  simp only
  split
  · refine Pr.forR (fun d w h => Pr.andThen (S.rel d r none h (fun _ h => by cases h)) fun w h => ?_) _ _ h
    exact rf_activate S.toF h _ _ _ _ _ _ _ _ _
  · exact h

theorem rs_requestArg (S : Stable L P) {w : World} (h : P w) (c n pu a) (hw : L.who c) (hq : L.ask a.r (if pu then -a.q else a.q) a.prio) :
    Pr P (requestArg c n pu a w) := by
  unfold requestArg
  simp only
  generalize (if pu = true then -a.q else a.q) = q at hq ⊢
  split
  · exact h
  · split
    · exact h
    · rename_i hn
      have h1 := S.ask c a.r q a.prio h hw hq (fun hq => by
        cases hA : (w.res a.r).anonymous
        · exact absurd ⟨hq, hA⟩ hn
        · rfl)
      refine Pr.andThen h1 fun w h => ?_
      split
      · exact rs_preempt S h _ _ _
      · exact h

theorem rs_requestArgs (S : Stable L P) (c n pu) (hw : L.who c) : ∀ (l : List Arg) (w : World), P w → (∀ a ∈ l, L.ask a.r (if pu then -a.q else a.q) a.prio) →
    Pr P (forR l (requestArg c n pu) w)
  | [], w, h, _ => h
  | a :: t, w, h, hl => by
    unfold forR
    exact Pr.andThen (rs_requestArg S h c n pu a hw (hl a List.mem_cons_self)) fun w h =>
      rs_requestArgs S c n pu hw t w h fun b hb => hl b (List.mem_cons_of_mem _ hb)

theorem rs_lowerMinq (S : Stable L P) (l) : ∀ w, P w → P (lowerMinq l w) := by
  unfold lowerMinq
  induction l with
  | nil => intro w h; exact h
  | cons a t ih => intro w h; exact ih _ (S.modR h _)

theorem rs_request (S : Stable L P) {w : World} (h : P w) (fuel c args o pu fa fd p u k)
    (hw : L.who c) (hl : ∀ a ∈ args, L.ask a.r (if pu then -a.q else a.q) a.prio) : Pr P (request fuel c args o pu fa fd p u k w) := by
  unfold request
  refine (rf_preamble S.toF (S.oneof _ _ h hw) _).andThen fun w h => ?_
  split
  · exact h
  · simp only
    split
    · exact rf_reschedule S.toF (S.modC h _) _ _ _ _ _ _
    · refine (rs_requestArgs S _ _ _ hw _ _ (S.modC h _) hl).andThen fun w h => ?_
      refine ((rs_try S fuel).1 _ _ (S.modC (rs_lowerMinq S _ _ h) _)).andThen fun w h => ?_
      split
      · exact h
      · exact rf_reschedule S.toF (rf_setStatus S.toF h _ _) _ _ _ _ _ _

theorem rs_resReleaseLoop (S : Stable L P) (fuel : Nat) : ∀ r mx w, P w → Pr P (resReleaseLoop fuel r mx w) := by
  induction fuel with
  | zero => intro r mx w h; rw [resReleaseLoop]; exact h
  | succ n ih =>
    intro r mx w h
    rw [resReleaseLoop.eq_def]
    simp only
    split
    · exact h
    · split
      · exact h
      · exact (rs_release1 S h _ _ _ _ (fun _ h => by cases h)).andThen fun w h => ih _ _ _ h

theorem rs_resRelease (S : Stable L P) {w : World} (h : P w) (fuel r q) (hq : L.anon w.rv r q) : Pr P (resRelease fuel r q w) := by
  unfold resRelease
  split
  · rename_i hA
    exact (rs_try S fuel).2.2.1 _ _ (S.anon r q h hA hq)
  · split
    · exact h
    · exact rs_resReleaseLoop S _ _ _ _ h

theorem rs_resSetCapacity (S : Stable L P) {w : World} (h : P w) (fuel r k) (hk : L.cap w.rv r k) : Pr P (resSetCapacity fuel r k w) :=
  (rs_try S fuel).2.2.1 _ _ (S.cap r k h hk)

theorem rf_tryWait (S : StableF P) {w : World} (h : P w) (c) : Pr P (tryWait c w).1 := by
  unfold tryWait
  split
  · exact h
  · split
    · exact (Pr.forR (fun p w h => rf_leaveWaiters S h _ _) _ _ h).andThen fun w h => rf_wake S (S.modC h _) _ _
    · exact h

theorem rf_waitArg (S : StableF P) {w : World} (h : P w) (c a) : Pr P (waitArg c a w) := by
  unfold waitArg
  refine Pr.andThen ?_ fun w h => Pr.ok (S.modC h _)
  split
  · exact h
  · split
    · exact rf_onQueue S h rfl _
    · exact rf_enterSortedQ S h _ rfl _

theorem rf_waitEnd (S : StableF P) {w : World} (h : P w) (c t p u k) : Pr P (waitEnd c t p u k w) := by
  unfold waitEnd
  split
  · exact h
  · refine (rf_tryWait S (S.modC h _) _).andThen fun w h => ?_
    split
    · exact h
    · exact rf_reschedule S (rf_setStatus S h _ _) _ _ _ _ _ _

theorem rf_wait (S : StableF P) {w : World} (h : P w) (c args a fa fd p u k) : Pr P (wait c args a fa fd p u k w) := by
  unfold wait
  refine (rf_preamble S (S.modC h _) _).andThen fun w h => ?_
  simp only
  split
  · exact Pr.ok (S.modC h _)
  · exact (Pr.forR (fun a w h => rf_waitArg S h _ _) _ _ (S.modC h _)).andThen fun w h => rf_waitEnd S h _ _ _ _ _

theorem rf_waitFor (S : StableF P) {w : World} (h : P w) (c f ss fa fd p u k) : Pr P (waitFor c f ss fa fd p u k w) := by
  unfold waitFor
  refine (rf_preamble S h _).andThen fun w h => ?_
  simp only
  split
  · exact Pr.ok (S.modC h _)
  · exact (Pr.forR (fun a w h => rf_enterSortedQ S (S.modC h _) _ rfl _) _ _ (S.modC (S.modC h _) _)).andThen
      fun w h => rf_waitEnd S h _ _ _ _ _

theorem rf_stateTryWait (S : StableF P) (l) : ∀ mx w, P w → Pr P (stateTryWait l mx w) := by
  induction l with
  | nil => intro mx w h; exact h
  | cons c t ih =>
    intro mx w h
    unfold stateTryWait
    have := rf_tryWait S h c
    generalize tryWait c w = p at this ⊢
    obtain ⟨r, b⟩ := p
    refine Pr.andThen this fun w h => ?_
    simp only
    split
    · split
      · exact h
      · exact ih _ _ h
    · exact ih _ _ h

theorem rf_stateSet (S : StableF P) {w : World} (h : P w) (s v) : Pr P (stateSet s v w) := by
  unfold stateSet
  split
  · exact h
  · exact rf_stateTryWait S _ _ _ (S.frame h rfl)

theorem rf_stateTrigger (S : StableF P) {w : World} (h : P w) (s v a m) : Pr P (stateTrigger s v a m w) := by
  unfold stateTrigger
  simp only
  refine Pr.andThen (rf_stateTryWait S _ _ _ ?_) fun w h => rf_stateTryWait S _ _ _ ?_
  · exact S.frame h rfl
  · exact S.frame h rfl

theorem rf_store (S : StableF P) (fuel : Nat) : (∀ i s p w, P w → Pr P (storeEnter fuel i s p w)) ∧
    (∀ i s w, P w → Pr P (storeLeave fuel i s w)) := by
  induction fuel with
  | zero =>
    refine ⟨fun i s p w h => ?_, fun i s w h => ?_⟩
    · rw [storeEnter]; exact h
    · rw [storeLeave]; exact h
  | succ n ih =>
    obtain ⟨i1, i2⟩ := ih
    refine ⟨fun i s p w h => ?_, fun i s w h => ?_⟩
    · rw [storeEnter.eq_def]
      refine Pr.andThen ?_ fun w h => ?_
      · split
        · exact rf_onQueue S h rfl _
        · exact rf_onQueue S h rfl _
      · split
        · exact h
        · refine (i2 _ _ _ h).andThen fun w h => ?_
          exact (Pr.forR (fun s0 w h => rf_leaveQ S h _ rfl) _ _ h).andThen fun w h => rf_wake S (S.modC h _) _ _
    · rw [storeLeave.eq_def]
      refine (rf_leaveQ S h _ rfl).andThen fun w h => ?_
      simp only
      split
      · split
        · exact h
        · split
          · exact h
          · refine (i1 _ _ _ _ h).andThen fun w h => ?_
            refine (Pr.forR (fun s0 w h => rf_leaveQ S h _ rfl) _ _ h).andThen fun w h => ?_
            exact (rf_wake S (S.modC h _) _ _).andThen fun w h => Pr.ok (S.modC h _)
      · exact h

theorem rf_fromStore (S : StableF P) {w : World} (h : P w) (fuel c ss f k rp fa fd p u cp) :
    Pr P (fromStore fuel c ss f k rp fa fd p u cp w) := by
  unfold fromStore
  split
  · exact h
  · refine (rf_preamble S h _).andThen fun w h => ?_
    split
    · exact h
    · simp only
      split
      · exact ((rf_store S fuel).2 _ _ _ (S.modC h _)).andThen fun w h => rf_wake S (S.modC h _) _ _
      · exact (Pr.forR (fun s0 w h => rf_enterSortedQ S h _ rfl _) _ _ (S.modC (S.modC h _) _)).andThen
          fun w h => rf_reschedule S (S.modC h _) _ _ _ _ _ _

theorem rf_toStore (S : StableF P) {w : World} (h : P w) (fuel c ss i rp sp fa fd p u cp) :
    Pr P (toStore fuel c ss i rp sp fa fd p u cp w) := by
  unfold toStore
  split
  · exact h
  · refine (rf_preamble S h _).andThen fun w h => ?_
    split
    · exact h
    · simp only
      split
      · exact ((rf_store S fuel).1 _ _ _ _ (S.modC h _)).andThen fun w h => rf_wake S (S.modC h _) _ _
      · exact (Pr.forR (fun s0 w h => rf_enterSortedQ S h _ rfl _) _ _ (S.modC h _)).andThen
          fun w h => rf_reschedule S (S.modC h _) _ _ _ _ _ _

theorem rf_rescanItems (S : StableF P) {w : World} (h : P w) (fuel c s i) : Pr P (rescanItems fuel c s i w) := by
  unfold rescanItems
  split
  · refine (Pr.forR (fun s0 w h => rf_leaveQ S h _ rfl) _ _ h).andThen fun w h => ?_
    exact ((rf_store S fuel).2 _ _ _ h).andThen fun w h => rf_wake S (S.modC h _) _ _
  · exact h

theorem rf_rescan (S : StableF P) {w : World} (h : P w) (fuel s) : Pr P (rescan fuel s w) := by
  refine Pr.forR (fun c w h => ?_) _ _ h
  split
  · exact Pr.forR (fun i w h => rf_rescanItems S h _ _ _ _) _ _ h
  · exact h

theorem rf_rescanTo (S : StableF P) (fuel s l) : ∀ w, P w → Pr P (rescanTo fuel s l w) := by
  induction l with
  | nil => intro w h; exact h
  | cons c t ih =>
    intro w h
    unfold rescanTo
    split
    · split
      · refine (Pr.forR (fun s0 w h => rf_leaveQ S h _ rfl) _ _ h).andThen fun w h => ?_
        split
        · exact h
        · refine ((rf_store S fuel).1 _ _ _ _ h).andThen fun w h => ?_
          exact (rf_wake S (S.modC h _) _ _).andThen fun w h => ih _ (S.modC h _)
      · exact h
    · exact ih _ h

theorem rf_storeSetCapacity (S : StableF P) {w : World} (h : P w) (fuel s k) : Pr P (storeSetCapacity fuel s k w) := by
  unfold storeSetCapacity
  simp only
  split
  · exact rf_rescanTo S _ _ _ _ (S.frame h (rv_modQ w rfl _))
  · exact Pr.ok (S.frame h (rv_modQ w rfl _))

theorem rs_cancel (S : Stable L P) {w : World} (h : P w) (fuel c) : Pr P (cancel fuel c w) := by
  unfold cancel
  split
  · exact h
  · refine (Pr.andThen ?_ fun w h => rs_releaseAll S h _ _).andThen fun w h => Pr.ok (S.modC h _)
    split
    · exact h
    · exact rf_removeFail S.toF h _

theorem rs_terminate (S : Stable L P) {w : World} (h : P w) (fuel c) : Pr P (terminate fuel c w) :=
  (rs_releaseAll S h _ _).andThen fun w h => Pr.ok (S.modC h _)

theorem rf_runStart (S : StableF P) {w : World} (h : P w) (d t p u k) : Pr P (runStart d t p u k w) := by
  have h1 : ∀ b, P { w with endOnEmpty := b } := fun b => S.frame h rfl
  unfold runStart
  split
  · exact h1 _
  · exact rf_reschedule S (rf_setStatus S (h1 _) _ _) _ _ _ _ _ _



theorem rf_stepEvent (S : StableF P) (hc : ∀ {w : World} (t : Rat), P w → P { w with now := t }) {w : World} (h : P w) : Pr P (stepEvent w) := by
  unfold stepEvent
  have h3 : P (if w.standby = [] then w else { w with pending := w.standby, standby := [] } : World) := by
    split
    · exact h
    · exact S.frame h rfl
  simp only
  generalize (if w.standby = [] then w else { w with pending := w.standby, standby := [] } : World) = w2 at h3 ⊢
  split
  · rename_i e es hp
    have h6 : P (({ w2 with events := es, now := e.t, current := e.c } : World).modC e.c
        (fun x => { x with onList := false, status := .current, schedTime := ⊤ })) :=
      S.modC (S.frame (w := { w2 with now := e.t }) (w' := { w2 with events := es, now := e.t, current := e.c }) (hc e.t h3) rfl) _
    split
    · exact h6
    · exact rf_checkFail S h6 _
  · refine Pr.ok ?_
    exact S.modC (w := { w2 with atInf := _, current := w2.main }) (S.frame h3 rfl) _

theorem rf_step (S : StableF P) (hc : ∀ {w : World} (t : Rat), P w → P { w with now := t }) {w : World} (h : P w) : Pr P (step w) := by
  unfold step
  split
  · exact rf_stepEvent S hc h
  · split
    · exact rf_stepEvent S hc h
    · simp only
      split
      · rename_i c rest _ _
        refine Pr.ok (S.frame (w := ({ w with pending := rest } : World).modC c (fun x => { x with status := .current, schedTime := ⊤ })) ?_ rfl)
        exact S.modC (w := { w with pending := rest }) (S.frame h rfl) _
      · exact rf_stepEvent S hc (S.frame h rfl)

/-- the restrictions on a call -/
def Lic.ok (L : Lic) (w : World) : Op → Prop
  | .request c args _ put _ _ _ _ _ => L.who c ∧ ∀ a ∈ args, L.ask a.r (if put then -a.q else a.q) a.prio
  | .release _ args => ∀ a ∈ args, ∀ x, a.2 = some x → L.rel a.1 x
  | .resRelease r q => L.anon w.rv r q
  | .resSetCapacity r k => L.cap w.rv r k
  | _ => True

theorem exec_stable' (S : Stable L P) {w : World} (h : P w) (fuel : Nat) (o : Op) (hl : L.ok w o) (hs : o = .step → Pr P (step w)) : P (exec fuel o w).world := by
  show Pr P (exec fuel o w)
  cases o <;> simp only [exec] <;> first
    | exact rs_hold S h _ _ _ _ _ _ _ | exact rf_passivate S.toF h _ | exact rf_activate S.toF h _ _ _ _ _ _ _ _ _
    | exact rf_create S.toF h _ _ _ _ _ _ _ | exact rs_interrupt S h _ | exact rf_resume S.toF h _ _ _ _ | exact rf_standby S.toF h _
    | exact rf_setRemaining S.toF h _ _ _ _ | exact rs_cancel S h _ _ | exact rs_request S h _ _ _ _ _ _ _ _ _ _ hl.1 hl.2
    | exact rs_releaseArgs S _ _ _ _ h hl | exact rs_releaseAll S h _ _ | exact rs_resRelease S h _ _ _ hl
    | exact rs_resSetCapacity S h _ _ _ hl | exact rf_wait S.toF h _ _ _ _ _ _ _ _ | exact rf_waitFor S.toF h _ _ _ _ _ _ _ _
    | exact rf_stateSet S.toF h _ _ | exact rf_stateTrigger S.toF h _ _ _ _ | exact rf_fromStore S.toF h _ _ _ _ _ _ _ _ _ _ _
    | exact rf_toStore S.toF h _ _ _ _ _ _ _ _ _ _ _ | exact rf_rescan S.toF h _ _ | exact rf_storeSetCapacity S.toF h _ _ _
    | exact (rf_store S.toF _).1 _ _ _ _ h | exact (rf_store S.toF _).2 _ _ _ h | exact rf_onQueue S.toF h rfl _
    | exact Pr.ok (S.frame h (rv_modQ w rfl _)) | exact Pr.ok (S.frame h (rv_modQ' w _ (fun _ => ⟨rfl, rfl⟩)))
    | exact rf_runStart S.toF h _ _ _ _ _ | exact hs rfl | exact rs_terminate S h _ _ | exact Pr.ok (S.frame h rfl)

theorem exec_stable (S : Stable L P) (hc : ∀ {w : World} (t : Rat), P w → P { w with now := t }) {w : World} (h : P w) (fuel : Nat) (o : Op)
    (hl : L.ok w o) : P (exec fuel o w).world := exec_stable' S h fuel o hl fun _ => rf_step S.toF hc h

end Verif
