import Verif.RWalk
import Verif.CalmStep

/-!
# What the calls do to a component they are not about

No call changes `failed()` of a component it isn't about; and a component that is interrupted, and not in a line of a store, stays as it is
(but for its claims).
-/

namespace Verif
open World

/-- `failed()` of `d` is as in `x0`, `d` doesn't claim the preemptive resources of `B`; and if `hard`: `d` is interrupted, not in line for stores, and unchanged -/
structure Fate (B : RId → Prop) (hard : Prop) (d : CId) (x0 : Comp) (w : World) : Prop where
  failed : (w.comps d).failed = x0.failed
  same : hard → ∃ l, w.comps d = { x0 with claims := l }
  intr : hard → x0.status = .interrupted
  line : hard → ∀ s, d ∉ w.inQ (.fromReq s) ∧ d ∉ w.inQ (.toReq s)
  free : ∀ r, B r → (w.res r).preemptive = true → d ∉ w.inQ (.claimers r)

theorem Pr.bind {P Q : World → Prop} {r : R} {f : World → R} (h : Pr P r) (hw : ∀ w', P w' → Q w') (hf : ∀ w', P w' → Pr Q (f w')) : Pr Q (r ⊳ f) := by
  cases r with
  | ok w' => exact hf w' h
  | err e w' => exact hw w' h

variable {B : RId → Prop} {hard : Prop} {d : CId} {x0 : Comp}

theorem Fate.frame {w w' : World} (h : Fate B hard d x0 w) (hc : w'.comps d = w.comps d := by rfl) (hq : w'.queues = w.queues := by rfl)
    (hp : ∀ r, (w'.res r).preemptive = (w.res r).preemptive := by intro _; first | rfl | (simp only [World.modR]; split <;> rfl)) : Fate B hard d x0 w' := by
  have hi : ∀ q, w'.inQ q = w.inQ q := fun q => by simp only [World.inQ, hq]
  exact ⟨by rw [hc]; exact h.failed, fun k => by rw [hc]; exact h.same k, h.intr, fun k s => by rw [hi, hi]; exact h.line k s,
    fun r k => by rw [hi, hp]; exact h.free r k⟩
theorem Fate.other {w : World} (h : Fate B hard d x0 w) {c : CId} (hc : c ≠ d) (f) : Fate B hard d x0 (w.modC c f) :=
  h.frame (by simp only [World.modC, if_neg (Ne.symm hc)])
theorem Fate.res {w : World} (h : Fate B hard d x0 w) {r : RId} {f : Res → Res} (hf : ∀ x, (f x).preemptive = x.preemptive := by intro _; rfl) :
    Fate B hard d x0 (w.modR r f) :=
  h.frame rfl rfl (fun k => by simp only [World.modR]; split <;> simp only [hf])
theorem Fate.modC {w : World} (h : Fate B hard d x0 w) {c : CId} {f : Comp → Comp} (hc : c ≠ d ∨ ¬ hard) (hf : ∀ x, (f x).failed = x.failed := by intro _; rfl) :
    Fate B hard d x0 (w.modC c f) := by
  by_cases e : c = d
  · have hh := hc.resolve_left (fun k => k e)
    subst e
    refine ⟨?_, fun k => absurd k hh, h.intr, fun k => absurd k hh, h.free⟩
    rw [modC_self, hf]; exact h.failed
  · exact h.other e f
theorem Fate.claim {w : World} (h : Fate B hard d x0 w) (c : CId) (g : Comp → List (RId × Rat)) :
    Fate B hard d x0 (w.modC c (fun x => { x with claims := g x })) := by
  by_cases e : c = d
  · subst e
    refine ⟨?_, fun k => ?_, h.intr, h.line, h.free⟩
    · rw [modC_self]; exact h.failed
    · obtain ⟨l, hl⟩ := h.same k
      rw [modC_self, hl]; exact ⟨_, rfl⟩
  · exact h.other e _
theorem Fate.status {w : World} (h : Fate B hard d x0 w) {c : CId} (hc : w.status c ≠ .interrupted) : c ≠ d ∨ ¬ hard := by
  by_cases e : c = d
  · right
    intro k
    obtain ⟨l, hl⟩ := h.same k
    subst e
    exact hc (by rw [World.status, hl]; exact h.intr k)
  · exact .inl e
theorem Fate.inFrom {w : World} (h : Fate B hard d x0 w) {c : CId} {s : StId} (hc : c ∈ w.inQ (.fromReq s)) : c ≠ d ∨ ¬ hard := by
  by_cases e : c = d
  · exact .inr fun k => (h.line k s).1 (e ▸ hc)
  · exact .inl e
theorem Fate.inTo {w : World} (h : Fate B hard d x0 w) {c : CId} {s : StId} (hc : c ∈ w.inQ (.toReq s)) : c ≠ d ∨ ¬ hard := by
  by_cases e : c = d
  · exact .inr fun k => (h.line k s).2 (e ▸ hc)
  · exact .inl e
theorem Fate.weaken {w : World} (h : Fate B hard d x0 w) : Fate (fun _ => False) hard d x0 w := ⟨h.failed, h.same, h.intr, h.line, fun _ k => k.elim⟩

/-- not a line of a store, nor the claimers of a resource -/
def QRef.away : QRef → Bool
  | .fromReq _ | .toReq _ | .claimers _ => false
  | _ => true

theorem inQ_modQ_any (w : World) (q p : QRef) (f : Queue → Queue) : (w.modQ q f).inQ p = if p = q then (f (w.queues p)).mem.map QMem.c else w.inQ p := by
  simp only [World.inQ, World.modQ]
  split <;> rfl
theorem Fate.queue {w : World} (h : Fate B hard d x0 w) {q : QRef} {f : Queue → Queue}
    (hq : q.away = true ∨ (d ∈ (f (w.queues q)).mem.map QMem.c → d ∈ w.inQ q ∨ (¬ hard ∧ ∀ r, q ≠ .claimers r))) : Fate B hard d x0 (w.modQ q f) := by
  refine ⟨h.failed, h.same, h.intr, fun k s => ⟨?_, ?_⟩, fun r k hp => ?_⟩
  · rw [inQ_modQ_any]
    split
    · rename_i e
      subst e
      intro hd
      rcases hq with hq | hq
      · cases hq
      · exact ((hq hd).resolve_right (fun x => x.1 k)) |> (h.line k s).1
    · exact (h.line k s).1
  · rw [inQ_modQ_any]
    split
    · rename_i e
      subst e
      intro hd
      rcases hq with hq | hq
      · cases hq
      · exact ((hq hd).resolve_right (fun x => x.1 k)) |> (h.line k s).2
    · exact (h.line k s).2
  · rw [inQ_modQ_any]
    split
    · rename_i e
      subst e
      intro hd
      rcases hq with hq | hq
      · cases hq
      · exact ((hq hd).resolve_right (fun x => x.2 r rfl)) |> h.free r k hp
    · exact h.free r k hp
theorem ft_onQueue {w : World} (h : Fate B hard d x0 w) {q : QRef} (hq : q.away = true) (f) : Pr (Fate B hard d x0) (onQueue q f w) := by
  unfold onQueue
  split
  · exact Pr.ok (h.queue (.inl hq))
  · exact h
theorem ft_leaveQ {w : World} (h : Fate B hard d x0 w) (c : CId) (q : QRef) : Pr (Fate B hard d x0) (leaveQ c q w) := by
  unfold leaveQ onQueue
  split
  · rename_i q' hq
    refine Pr.ok (h.queue (.inr fun hd => .inl ?_))
    obtain ⟨l1, l2, x, h1, h2, h3⟩ := Queue.leave_ok hq
    simp only [h3] at hd
    simp only [World.inQ, h1, List.map_append, List.map_cons, List.mem_append, List.mem_cons] at hd ⊢
    rcases hd with hd | hd
    · exact .inl hd
    · exact .inr (.inr hd)
  · exact h
theorem ft_enterSortedQ {w : World} (h : Fate B hard d x0 w) {c : CId} (hc : c ≠ d ∨ ¬ hard) {q : QRef} (hq : ∀ r, q ≠ .claimers r) (p) :
    Pr (Fate B hard d x0) (enterSortedQ c q p w) := by
  unfold enterSortedQ onQueue
  split
  · rename_i q' hq'
    refine Pr.ok (h.queue (.inr fun hd => ?_))
    obtain ⟨l1, l2, x, hx, _⟩ := Queue.enterSorted_ok hq'
    have e := hx.eq
    by_cases ed : c = d
    · exact .inr ⟨hc.resolve_left (fun k => k ed), hq⟩
    · left
      rw [hx.eq] at hd
      simp only [List.map_append, List.map_cons, List.mem_append, List.mem_cons, hx.xc] at hd
      simp only [World.inQ, hx.mem, List.map_append, List.mem_append]
      rcases hd with hd | hd | hd
      · exact .inl hd
      · exact absurd hd.symm ed
      · exact .inr hd
  · exact h

theorem ft_push {w : World} (h : Fate B hard d x0 w) {c : CId} (hc : c ≠ d ∨ ¬ hard) (t : ETime) (p u ret) : Fate B hard d x0 (push c t p u ret w) := by
  unfold Verif.push
  split
  · exact h
  · exact (h.modC (c := c) (f := fun x => { x with onList := true }) hc).frame
theorem ft_remove {w : World} (h : Fate B hard d x0 w) {c : CId} (hc : c ≠ d ∨ ¬ hard) : Pr (Fate B hard d x0) (remove c w) := by
  unfold Verif.remove
  split
  · split
    · exact (h.modC (c := c) (f := fun x => { x with onList := false }) hc).frame
    · exact h
  · split
    · exact h.frame
    · exact h
theorem ft_reschedule {w : World} (h : Fate B hard d x0 w) {c : CId} (hc : c ≠ d ∨ ¬ hard) (t p u k ret) : Pr (Fate B hard d x0) (reschedule c t p u k ret w) := by
  unfold reschedule
  split
  · split
    · exact Pr.ok (ft_push (h.modC hc) hc _ _ _ _)
    · exact h
  · exact Pr.ok (ft_push (h.modC hc) hc _ _ _ _)
theorem ft_wake {w : World} (h : Fate B hard d x0 w) {c : CId} (hc : c ≠ d ∨ ¬ hard) (ret) : Pr (Fate B hard d x0) (wake c ret w) :=
  (ft_remove h hc).andThen fun _ h' => ft_reschedule (h'.modC hc) hc _ _ _ _ _
theorem ft_leaveWaiters {w : World} (h : Fate B hard d x0 w) (c x) : Pr (Fate B hard d x0) (leaveWaiters c x w) := by
  unfold leaveWaiters
  split
  · exact ft_leaveQ h _ _
  · exact h
theorem ft_leaveRequesters {w : World} (h : Fate B hard d x0 w) (c r) : Pr (Fate B hard d x0) (leaveRequesters c r w) := by
  unfold leaveRequesters
  refine (ft_leaveQ h c _).andThen fun w h => Pr.ok ?_
  split
  · exact h.frame
  · exact h

/-! ## calls about another component -/

theorem ft_checkFail {w : World} (h : Fate B hard d x0 w) {c : CId} (hc : c ≠ d) : Pr (Fate B hard d x0) (checkFail c w) := by
  unfold checkFail
  refine ((Pr.andThen ?_ fun w h => ?_).andThen fun w h => ?_).andThen fun w h => ?_
  · unfold checkFailReq; split
    · exact h
    · exact (Pr.forR (fun r w h => ft_leaveRequesters h c r) _ _ h).andThen fun w h => Pr.ok (h.other hc _)
  · unfold checkFailWait; split
    · exact h
    · exact (Pr.forR (fun r w h => ft_leaveWaiters h c r) _ _ h).andThen fun w h => Pr.ok (h.other hc _)
  · unfold checkFailFrom; split
    · exact h
    · exact (Pr.forR (fun r w h => ft_leaveQ h c _) _ _ h).andThen fun w h => Pr.ok (h.other hc _)
  · unfold checkFailTo; split
    · exact h
    · exact (Pr.forR (fun r w h => ft_leaveQ h c _) _ _ h).andThen fun w h => Pr.ok (h.other hc _)
theorem ft_removeFail {w : World} (h : Fate B hard d x0 w) {c : CId} (hc : c ≠ d) :
    Pr (Fate B hard d x0) (checkNotData c w ⊳ remove c ⊳ checkFail c) := by
  refine (Pr.andThen ?_ fun w h => ft_remove h (.inl hc)).andThen fun w h => ft_checkFail h hc
  unfold checkNotData; split <;> exact h
theorem ft_preamble {w : World} (h : Fate B hard d x0 w) {c : CId} (hc : c ≠ d) : Pr (Fate B hard d x0) (preamble c w) := by
  unfold preamble
  split
  · exact h
  · refine ((Pr.andThen ?_ fun w h => ?_).andThen fun w h => ft_remove h (.inl hc)).andThen fun w h => ft_checkFail h hc
    · unfold checkNotData; split <;> exact h
    · unfold checkNotMain; split <;> exact h
theorem ft_hold {w : World} (h : Fate B hard d x0 w) {c : CId} (hc : c ≠ d) (a t p u k i) : Pr (Fate B hard d x0) (hold c a t p u k i w) := by
  unfold hold
  refine Pr.andThen ?_ fun w h => ?_
  · split
    · exact h
    · exact ft_removeFail h hc
  · split
    · exact h
    · split
      · exact h
      · simp only
        split
        · exact Pr.ok (h.other hc _)
        · exact ft_reschedule (h.other hc _) (.inl hc) _ _ _ _ _
theorem ft_passivate {w : World} (h : Fate B hard d x0 w) {c : CId} (hc : c ≠ d) : Pr (Fate B hard d x0) (passivate c w) := by
  unfold passivate
  refine Pr.andThen ?_ fun w h => Pr.ok (h.other hc _)
  split
  · exact Pr.ok (h.other hc _)
  · exact (ft_removeFail h hc).andThen fun w h => Pr.ok (h.other hc _)
theorem ft_activate {w : World} (h : Fate B hard d x0 w) {c : CId} (hc : c ≠ d) (a t p u k pr kr kw) :
    Pr (Fate B hard d x0) (activate c a t p u k pr kr kw w) := by
  unfold activate
  simp only
  split
  · exact h
  · refine Pr.andThen ?_ fun w h => ft_reschedule (h.other hc _) (.inl hc) _ _ _ _ _
    split
    · exact h
    · refine (ft_remove h (.inl hc)).andThen fun w h => ?_
      split
      · exact h
      · exact ft_checkFail h hc
theorem ft_create {w : World} (h : Fate B hard d x0 w) {c : CId} (hc : c ≠ d) (a t p u k s) : Pr (Fate B hard d x0) (create c a t p u k s w) := by
  unfold create
  split
  · exact h
  · exact ft_reschedule (h.other hc _) (.inl hc) _ _ _ _ _
theorem ft_interrupt {w : World} (h : Fate B hard d x0 w) {c : CId} (hc : c ≠ d) : Pr (Fate B hard d x0) (interrupt c w) := by
  unfold interrupt
  split
  · exact Pr.ok (h.other hc _)
  · split
    · exact (ft_remove h (.inl hc)).andThen fun w h => Pr.ok (h.other hc _)
    · exact h
theorem ft_resume {w : World} (h : Fate B hard d x0 w) {c : CId} (hc : c ≠ d) (a p u) : Pr (Fate B hard d x0) (resume c a p u w) := by
  unfold resume
  split
  · simp only
    split
    · exact Pr.ok (h.other hc _)
    · split
      · exact ft_reschedule ((h.other hc _).other hc _) (.inl hc) _ _ _ _ _
      · exact Pr.err ((h.other hc _).other hc _)
  · exact h
theorem ft_standby {w : World} (h : Fate B hard d x0 w) {c : CId} (hc : c ≠ d) : Pr (Fate B hard d x0) (standby c w) := by
  unfold standby
  exact (ft_preamble h hc).andThen fun w h => (h.other hc (fun x => { x with schedTime := (w.now : ETime), status := .standby })).frame
theorem ft_setRemaining {w : World} (h : Fate B hard d x0 w) {c : CId} (hc : c ≠ d) (v p u) : Pr (Fate B hard d x0) (setRemaining c v p u w) := by
  unfold setRemaining
  split
  · exact Pr.ok (h.other hc _)
  · split
    · exact h
    · exact (ft_remove h (.inl hc)).andThen fun w h => ft_reschedule h (.inl hc) _ _ _ _ _

/-! ## resources -/

theorem ft_claimOne {w : World} (h : Fate (fun _ => False) hard d x0 w) (c hon p) : Pr (Fate (fun _ => False) hard d x0) (claimOne c hon p w) := by
  unfold claimOne
  refine Pr.andThen ?_ fun w h => ft_leaveRequesters h _ _
  split
  · simp only
    split
    · exact Pr.ok h.res
    · split
      · exact Pr.ok h.res
      · have h1 := (h.res (r := p.1) (f := fun x => { x with claimed := x.claimed + p.2, log := x.log.claims w.now x.cap (x.claimed + p.2) })).claim
          c (fun x => addTo x.claims p.1 p.2)
        unfold enterClaimers
        split
        · exact h1
        · unfold enterSortedQ onQueue
          split
          · exact Pr.ok ⟨h1.failed, h1.same, h1.intr, fun k s => by rw [inQ_modQ_any, inQ_modQ_any, if_neg (by simp), if_neg (by simp)]; exact h1.line k s, fun _ k => k.elim⟩
          · exact h1
  · exact h
theorem ft_honorNow {w : World} (h : Fate (fun _ => False) hard d x0 w) {c r} (he : honorNow c w = some r) : Pr (Fate (fun _ => False) hard d x0) r := by
  unfold honorNow at he
  split at he
  · cases he
  · rename_i hn
    cases he
    have hc := h.status (fun hh => hn (.inl hh))
    exact (Pr.forR (fun p w h => ft_claimOne h c _ p) _ _ h).andThen fun w h => ft_wake (h.modC hc) hc _

theorem ft_try (fuel : Nat) : (∀ c w, Fate (fun _ => False) hard d x0 w → Pr (Fate (fun _ => False) hard d x0) (tryReqC fuel c w)) ∧
    (∀ rs w, Fate (fun _ => False) hard d x0 w → Pr (Fate (fun _ => False) hard d x0) (tryReqList fuel rs w)) ∧
    (∀ r w, Fate (fun _ => False) hard d x0 w → Pr (Fate (fun _ => False) hard d x0) (tryReqR fuel r w)) ∧
    (∀ r mx f w, Fate (fun _ => False) hard d x0 w → Pr (Fate (fun _ => False) hard d x0) (loopR fuel r mx f w)) := by
  induction fuel with
  | zero =>
    refine ⟨fun c w h => ?_, fun rs w h => ?_, fun r w h => ?_, fun r mx f w h => ?_⟩
    · rw [tryReqC]; exact h
    · rw [tryReqList]; exact h
    · rw [tryReqR]; exact h
    · rw [loopR]; exact h
  | succ n ih =>
    obtain ⟨i1, i2, i3, i4⟩ := ih
    refine ⟨fun c w h => ?_, fun rs w h => ?_, fun r w h => ?_, fun r mx f w h => ?_⟩
    · rw [tryReqC]
      split
      · exact h
      · rename_i res hres
        exact Pr.andThen (ft_honorNow h hres) (i2 _)
    · rw [tryReqList.eq_def]
      simp only
      split
      · exact h
      · exact Pr.andThen (i3 _ _ h) (i2 _)
    · rw [tryReqR]
      split
      · split
        · exact h
        · exact Pr.andThen (i4 _ _ _ _ h.frame) fun w' h' => Pr.ok h'.frame
      · exact i4 _ _ _ _ h
    · rw [loopR.eq_def]
      simp only
      repeat' split
      all_goals first
        | exact h
        | (refine Pr.andThen (i1 _ _ h) fun w' h' => ?_
           split <;> exact i4 _ _ _ _ h')

theorem ft_releaseCore {w : World} (h : Fate B hard d x0 w) (c r q) : Pr (Fate B hard d x0) (releaseCore c r q w) := by
  unfold releaseCore
  split
  · exact h
  · rename_i cl hcl
    have key : ∀ a, Pr (Fate B hard d x0) (
        if cl - a < eps then
          leaveQ c (.claimers r) ((w.modR r (fun x => { x with claimed := x.claimed - a })).modC c (fun x => { x with claims := addTo x.claims r (-a) })) ⊳ fun w =>
            .ok (((if (w.queues (.claimers r)).len = 0 then w.modR r (fun x => { x with claimed := 0 }) else w).modC c (fun x => { x with claims := delKey x.claims r })).tallyR r)
        else .ok (((w.modR r (fun x => { x with claimed := x.claimed - a })).modC c (fun x => { x with claims := addTo x.claims r (-a) })).tallyR r)) := by
      intro a
      split
      · refine (ft_leaveQ (h.res.claim c _) c _).andThen fun w h => Pr.ok (Fate.res (Fate.claim ?_ c _))
        split
        · exact h.res
        · exact h
      · exact Pr.ok (Fate.res (h.res.claim c _))
    exact key _
theorem ft_release1 {w : World} (h : Fate (fun _ => False) hard d x0 w) (fuel c r q) : Pr (Fate (fun _ => False) hard d x0) (release1 fuel c r q w) :=
  Pr.andThen (ft_releaseCore h c r q) ((ft_try fuel).2.2.1 _)
theorem ft_releaseAll {w : World} (h : Fate (fun _ => False) hard d x0 w) (fuel c) : Pr (Fate (fun _ => False) hard d x0) (releaseAll fuel c w) :=
  Pr.forR (fun _ _ h => ft_release1 h _ _ _ _) _ _ h
theorem ft_releaseArgs {w : World} (h : Fate (fun _ => False) hard d x0 w) (fuel c l) : Pr (Fate (fun _ => False) hard d x0) (releaseArgs fuel c l w) := by
  refine Pr.forR (fun a w h => ?_) _ _ h
  split
  · exact h
  · exact ft_release1 h _ _ _ _
theorem ft_preempt {w : World} (h : Fate B hard d x0 w) {r : RId} (hr : B r) (hp : (w.res r).preemptive = true) (q p) : Pr (Fate B hard d x0) (preempt r q p w) := by
  have hsub : ∀ c ∈ bumpCandidates (w.res r).avail q p (w.queues (.claimers r)).mem.reverse, c ≠ d := by
    intro c hc e
    obtain ⟨m, hm, hmc⟩ := bump_mem hc
    exact h.free r hr hp (List.mem_map.2 ⟨m, List.mem_reverse.1 hm, hmc.trans e⟩)
  unfold preempt
  simp only
  split
  · rename_i hav
    clear hav
    revert hsub
    generalize bumpCandidates (w.res r).avail q p (w.queues (.claimers r)).mem.reverse = l
    clear hr hp
    induction l generalizing w with
    | nil => intro _; exact h
    | cons c l ih =>
      intro hsub
      unfold forR
      refine Pr.andThen ((ft_releaseCore h c r none).andThen fun w h => ft_activate h (hsub c List.mem_cons_self) _ _ _ _ _ _ _ _) fun w h => ?_
      exact ih h fun c hc => hsub c (List.mem_cons_of_mem _ hc)
  · exact h
theorem ft_requestArg {w : World} (h : Fate B hard d x0 w) {c : CId} (hc : c ≠ d ∨ ¬ hard) (n pu) (a : Arg) (hB : B a.r) :
    Pr (Fate B hard d x0) (requestArg c n pu a w) := by
  unfold requestArg
  simp only
  generalize (if pu = true then -a.q else a.q) = q
  split
  · exact h
  · split
    · exact h
    · have h1 := ft_enterSortedQ (h.modC (f := fun x => { x with requests := addTo x.requests a.r q }) hc) hc (q := .requesters a.r) (by simp) a.prio
      have h2 : Pr (fun w' => w'.res = w.res) (enterSortedQ c (.requesters a.r) a.prio (w.modC c (fun x => { x with requests := addTo x.requests a.r q }))) := by
        unfold enterSortedQ onQueue; split <;> rfl
      refine Pr.bind (P := fun w' => Fate B hard d x0 w' ∧ w'.res = w.res) (Q := Fate B hard d x0) ⟨h1, h2⟩ ?_ ?_
      · intro w' h; exact h.1
      · intro w' h
        split
        · exact ft_preempt h.1 hB (by rw [h.2]; assumption) _ _
        · exact h.1
theorem ft_lowerMinq (l) : ∀ w, Fate B hard d x0 w → Fate B hard d x0 (lowerMinq l w) := by
  unfold lowerMinq
  induction l with
  | nil => intro w h; exact h
  | cons p l ih => intro w h; exact ih _ h.res
/-- the part of `request` after `failed` has been set -/
theorem ft_requestEnd {w : World} {c : CId} (hc : c ≠ d ∨ ¬ hard) (args : List Arg) (h : Fate (fun r => ∃ a ∈ args, a.r = r) hard d x0 w)
    (fuel pu t p u k) : Pr (Fate (fun _ => False) hard d x0) (
      if args.isEmpty then reschedule c w.now (0 : Rat) false false none w
      else
        forR args (requestArg c args.length pu) w ⊳ fun w =>
        let w := lowerMinq (w.comps c).requests w
        let w := w.modC c (fun x => { x with remaining := ETime.subQ t w.now })
        tryReqC fuel c w ⊳ fun w =>
        if (w.comps c).requests = [] then .ok w
        else reschedule c t p u k none (setStatus c .requesting w)) := by
  split
  · exact ft_reschedule h.weaken hc _ _ _ _ _
  · have key : ∀ (l : List Arg) (w : World), (∀ a ∈ l, a ∈ args) → Fate (fun r => ∃ a ∈ args, a.r = r) hard d x0 w →
        Pr (Fate (fun r => ∃ a ∈ args, a.r = r) hard d x0) (forR l (requestArg c args.length pu) w) := by
      intro l
      induction l with
      | nil => intro w _ h; exact h
      | cons a l ih =>
        intro w hl h
        unfold forR
        exact (ft_requestArg h hc _ _ a ⟨a, hl a List.mem_cons_self, rfl⟩).andThen fun w h => ih w (fun b hb => hl b (List.mem_cons_of_mem _ hb)) h
    refine Pr.bind (P := Fate (fun r => ∃ a ∈ args, a.r = r) hard d x0) (key args w (fun _ h => h) h) (fun _ h => h.weaken) fun w h => ?_
    refine ((ft_try fuel).1 c _ ((ft_lowerMinq _ _ h.weaken).modC hc)).andThen fun w h => ?_
    split
    · exact h
    · exact ft_reschedule (h.modC hc) hc _ _ _ _ _

theorem ft_request {w : World} {c : CId} (hc : c ≠ d) (args : List Arg) (h : Fate (fun r => ∃ a ∈ args, a.r = r) hard d x0 w)
    (fuel o pu fa fd p u k) : Pr (Fate (fun _ => False) hard d x0) (request fuel c args o pu fa fd p u k w) := by
  unfold request
  refine Pr.bind (ft_preamble (h.other hc _) hc) (fun _ h => h.weaken) fun w h => ?_
  split
  · exact h.weaken
  · exact ft_requestEnd (.inl hc) args (h.other hc _) _ _ _ _ _ _
theorem ft_resReleaseLoop (fuel : Nat) : ∀ r mx w, Fate (fun _ => False) hard d x0 w → Pr (Fate (fun _ => False) hard d x0) (resReleaseLoop fuel r mx w) := by
  induction fuel with
  | zero => intro r mx w h; unfold resReleaseLoop; exact h
  | succ n ih =>
    intro r mx w h
    unfold resReleaseLoop
    split
    · exact h
    · split
      · exact h
      · exact (ft_release1 h _ _ _ _).andThen fun w h => ih _ _ _ h
theorem ft_resRelease {w : World} (h : Fate (fun _ => False) hard d x0 w) (fuel r q) : Pr (Fate (fun _ => False) hard d x0) (resRelease fuel r q w) := by
  unfold resRelease
  split
  · exact (ft_try fuel).2.2.1 _ _ h.res
  · split
    · exact h
    · exact ft_resReleaseLoop _ _ _ _ h
theorem ft_resSetCapacity {w : World} (h : Fate (fun _ => False) hard d x0 w) (fuel r k) : Pr (Fate (fun _ => False) hard d x0) (resSetCapacity fuel r k w) :=
  (ft_try fuel).2.2.1 _ _ h.res

/-! ## states -/

theorem ft_tryWait {w : World} (h : Fate B hard d x0 w) (c) : Pr (Fate B hard d x0) (tryWait c w).1 := by
  unfold tryWait
  split
  · exact h
  · rename_i hs
    have hc := h.status hs
    split
    · exact (Pr.forR (fun x w h => ft_leaveWaiters h c x) _ _ h).andThen fun w h => ft_wake (h.modC hc) hc _
    · exact h
theorem ft_waitArg {w : World} (h : Fate B hard d x0 w) {c : CId} (hc : c ≠ d ∨ ¬ hard) (a) : Pr (Fate B hard d x0) (waitArg c a w) := by
  unfold waitArg
  refine Pr.andThen ?_ fun w h => Pr.ok (h.modC hc)
  split
  · exact h
  · split
    · exact ft_onQueue h rfl _
    · exact ft_enterSortedQ h hc (by simp) _
theorem ft_waitEnd {w : World} (h : Fate B hard d x0 w) {c : CId} (hc : c ≠ d ∨ ¬ hard) (t p u k) : Pr (Fate B hard d x0) (waitEnd c t p u k w) := by
  unfold waitEnd
  split
  · exact h
  · refine (ft_tryWait (h.modC hc) c).andThen fun w h => ?_
    split
    · exact h
    · exact ft_reschedule (h.modC hc) hc _ _ _ _ _
theorem ft_wait {w : World} (h : Fate B hard d x0 w) {c : CId} (hc : c ≠ d) (args a fa fd p u k) : Pr (Fate B hard d x0) (wait c args a fa fd p u k w) := by
  unfold wait
  refine (ft_preamble (h.other hc _) hc).andThen fun w h => ?_
  simp only
  split
  · exact Pr.err (h.other hc _)
  · exact (Pr.forR (fun a w h => ft_waitArg h (.inl hc) a) _ _ (h.other hc _)).andThen fun w h => ft_waitEnd h (.inl hc) _ _ _ _
theorem ft_waitForLoop {w : World} (h : Fate B hard d x0 w) {c : CId} (hc : c ≠ d ∨ ¬ hard) (ss : List SId) (p : Rat) : Pr (Fate B hard d x0)
    (forR ss (fun s w => enterSortedQ c (.waiters s) p (w.modC c (fun x => { x with waits := x.waits ++ [⟨s, fun _ => false⟩] }))) w) :=
  Pr.forR (fun _ _ h => ft_enterSortedQ (h.modC hc) hc (by simp) _) _ _ h
theorem ft_waitFor {w : World} (h : Fate B hard d x0 w) {c : CId} (hc : c ≠ d) (f ss fa fd p u k) : Pr (Fate B hard d x0) (waitFor c f ss fa fd p u k w) := by
  unfold waitFor
  refine (ft_preamble h hc).andThen fun w h => ?_
  simp only
  split
  · exact Pr.err (h.other hc _)
  · exact (ft_waitForLoop ((h.other hc _).other hc _) (.inl hc) _ _).andThen fun w h => ft_waitEnd h (.inl hc) _ _ _ _
theorem ft_stateTryWait (l) : ∀ mx w, Fate B hard d x0 w → Pr (Fate B hard d x0) (stateTryWait l mx w) := by
  induction l with
  | nil => intro mx w h; exact h
  | cons c l ih =>
    intro mx w h
    unfold stateTryWait
    have h0 := ft_tryWait h c
    generalize tryWait c w = r at h0 ⊢
    obtain ⟨r, b⟩ := r
    refine Pr.andThen h0 fun w h => ?_
    split
    · simp only
      split
      · exact h
      · exact ih _ _ h
    · exact ih _ _ h
theorem ft_stateSet {w : World} (h : Fate B hard d x0 w) (s v) : Pr (Fate B hard d x0) (stateSet s v w) := by
  unfold stateSet
  split
  · exact h
  · exact ft_stateTryWait _ _ _ h.frame
theorem ft_stateTrigger {w : World} (h : Fate B hard d x0 w) (s v a m) : Pr (Fate B hard d x0) (stateTrigger s v a m w) := by
  unfold stateTrigger
  exact (ft_stateTryWait _ _ _ h.frame).andThen fun w h => ft_stateTryWait _ _ _ h.frame

/-! ## stores -/

theorem ft_store (fuel : Nat) : (∀ i s p w, Fate B hard d x0 w → Pr (Fate B hard d x0) (storeEnter fuel i s p w)) ∧
    (∀ i s w, Fate B hard d x0 w → Pr (Fate B hard d x0) (storeLeave fuel i s w)) := by
  induction fuel with
  | zero =>
    refine ⟨fun i s p w h => ?_, fun i s w h => ?_⟩
    · rw [storeEnter]; exact h
    · rw [storeLeave]; exact h
  | succ n ih =>
    refine ⟨fun i s p w h => ?_, fun i s w h => ?_⟩
    · rw [storeEnter.eq_def]
      simp only
      refine Pr.andThen ?_ fun w h => ?_
      · split
        · exact ft_onQueue h rfl _
        · exact ft_onQueue h rfl _
      · split
        · exact h
        · rename_i m hm
          have hc := h.inFrom (s := s) (c := m.c) (List.mem_map.2 ⟨m, List.mem_of_find?_eq_some hm, rfl⟩)
          refine (ih.2 _ _ _ h).andThen fun w h => ?_
          exact (Pr.forR (fun s w h => ft_leaveQ h m.c _) _ _ h).andThen fun w h => ft_wake (h.modC hc) hc _
    · rw [storeLeave]
      refine (ft_leaveQ h i _).andThen fun w h => ?_
      simp only
      split
      · split
        · exact h
        · rename_i m hm
          have hc := h.inTo (s := s) (c := m.c) (by
            refine List.mem_map.2 ⟨m, ?_, rfl⟩
            simp only [headQ] at hm
            exact List.mem_of_mem_head? hm)
          split
          · exact h
          · refine (ih.1 _ _ _ _ h).andThen fun w h => ?_
            refine (Pr.forR (fun s w h => ft_leaveQ h m.c _) _ _ h).andThen fun w h => ?_
            exact (ft_wake (h.modC hc) hc _).andThen fun w h => Pr.ok (h.modC hc)
      · exact h
/-- the part of `from_store` after `failed` has been set -/
theorem ft_fromStoreEnd {w : World} (h : Fate B hard d x0 w) {c : CId} (hc : c ≠ d ∨ ¬ hard) (fuel ss f k rp p u cp) (t : ETime) : Pr (Fate B hard d x0) (
    match searchStores w f k ss none (ss.headD 0) with
    | (some item, s) =>
      storeLeave fuel item s w ⊳ fun w =>
      wake c (some item) (w.modC c (fun x => { x with fromItem := some item }))
    | (none, _) =>
      let w := w.modC c (fun x => { x with fromStores := ss })
      forR ss (fun s => enterSortedQ c (.fromReq s) rp) w ⊳ fun w =>
      let w := w.modC c (fun x => { x with status := .requesting, fromItem := none, fromFilter := f })
      reschedule c t p u cp none w) := by
  split
  · exact ((ft_store fuel).2 _ _ _ h).andThen fun w h => ft_wake (h.modC hc) hc _
  · exact (Pr.forR (fun s w h => ft_enterSortedQ h hc (by simp) _) _ _ (h.modC hc)).andThen fun w h => ft_reschedule (h.modC hc) hc _ _ _ _ _
theorem ft_fromStore {w : World} (h : Fate B hard d x0 w) {c : CId} (hc : c ≠ d) (fuel ss f k rp fa fd p u cp) :
    Pr (Fate B hard d x0) (fromStore fuel c ss f k rp fa fd p u cp w) := by
  unfold fromStore
  split
  · exact h
  · refine (ft_preamble h hc).andThen fun w h => ?_
    split
    · exact h
    · exact ft_fromStoreEnd (h.other hc _) (.inl hc) _ _ _ _ _ _ _ _ _
/-- the part of `to_store` after `failed` has been set -/
theorem ft_toStoreEnd {w : World} (h : Fate B hard d x0 w) {c : CId} (hc : c ≠ d ∨ ¬ hard) (fuel ss item rp sp p u cp) (t : ETime) : Pr (Fate B hard d x0) (
    match ss.find? (fun s => roomIn w s) with
    | some s =>
      storeEnter fuel item s (some sp) w ⊳ fun w =>
      wake c none (w.modC c (fun x => { x with toItem := none, toStores := [] }))
    | none =>
      forR ss (fun s => enterSortedQ c (.toReq s) rp) w ⊳ fun w =>
      let w := w.modC c (fun x => { x with status := .requesting, toItem := some item, toPrio := sp, toStores := ss })
      reschedule c t p u cp none w) := by
  split
  · exact ((ft_store fuel).1 _ _ _ _ h).andThen fun w h => ft_wake (h.modC hc) hc _
  · exact (Pr.forR (fun s w h => ft_enterSortedQ h hc (by simp) _) _ _ h).andThen fun w h => ft_reschedule (h.modC hc) hc _ _ _ _ _
theorem ft_toStore {w : World} (h : Fate B hard d x0 w) {c : CId} (hc : c ≠ d) (fuel ss i rp sp fa fd p u cp) :
    Pr (Fate B hard d x0) (toStore fuel c ss i rp sp fa fd p u cp w) := by
  unfold toStore
  split
  · exact h
  · refine (ft_preamble h hc).andThen fun w h => ?_
    split
    · exact h
    · exact ft_toStoreEnd (h.other hc _) (.inl hc) _ _ _ _ _ _ _ _ _
theorem ft_rescanItems {w : World} (h : Fate B hard d x0 w) {c : CId} (hc : c ≠ d ∨ ¬ hard) (fuel s i) : Pr (Fate B hard d x0) (rescanItems fuel c s i w) := by
  unfold rescanItems
  split
  · refine (Pr.forR (fun s w h => ft_leaveQ h c _) _ _ h).andThen fun w h => ?_
    exact ((ft_store fuel).2 _ _ _ h).andThen fun w h => ft_wake (h.modC hc) hc _
  · exact h
theorem has_memQ {w : World} {c : CId} {q : QRef} (h : (w.queues q).has c = true) : c ∈ w.inQ q := by
  simp only [Queue.has, List.any_eq_true] at h
  obtain ⟨m, hm, e⟩ := h
  exact List.mem_map.2 ⟨m, hm, by simpa using e⟩
theorem ft_rescan {w : World} (h : Fate B hard d x0 w) (fuel s) : Pr (Fate B hard d x0) (rescan fuel s w) := by
  unfold rescan
  refine Pr.forR (fun c w h => ?_) _ _ h
  split
  · rename_i hh
    exact Pr.forR (fun i w h' => ft_rescanItems h' (h.inFrom (has_memQ hh)) _ _ _) _ _ h
  · exact h
theorem ft_rescanTo (fuel s l) : ∀ w, Fate B hard d x0 w → Pr (Fate B hard d x0) (rescanTo fuel s l w) := by
  induction l with
  | nil => intro w h; unfold rescanTo; exact h
  | cons c l ih =>
    intro w h
    unfold rescanTo
    split
    · rename_i hh
      have hc := h.inTo (has_memQ hh)
      split
      · refine (Pr.forR (fun s w h => ft_leaveQ h c _) _ _ h).andThen fun w h => ?_
        split
        · exact h
        · refine ((ft_store fuel).1 _ _ _ _ h).andThen fun w h => ?_
          exact (ft_wake (h.modC hc) hc _).andThen fun w h => ih _ (h.modC hc)
      · exact h
    · exact ih _ h
theorem ft_storeSetCapacity {w : World} (h : Fate B hard d x0 w) (fuel s k) : Pr (Fate B hard d x0) (storeSetCapacity fuel s k w) := by
  unfold storeSetCapacity
  simp only
  split
  · exact ft_rescanTo _ _ _ _ (h.queue (.inl rfl))
  · exact Pr.ok (h.queue (.inl rfl))

/-! ## all calls -/

theorem ft_cancel {w : World} (h : Fate (fun _ => False) hard d x0 w) {c : CId} (hc : c ≠ d) (fuel) : Pr (Fate (fun _ => False) hard d x0) (cancel fuel c w) := by
  unfold cancel
  split
  · exact h
  · refine ((Pr.andThen ?_ fun _ h => ft_releaseAll h fuel c)).andThen fun w h => Pr.ok (h.other hc _)
    split
    · exact h
    · exact ft_removeFail h hc
theorem ft_terminate {w : World} (h : Fate (fun _ => False) hard d x0 w) {c : CId} (hc : c ≠ d) (fuel) : Pr (Fate (fun _ => False) hard d x0) (terminate fuel c w) :=
  (ft_releaseAll h fuel c).andThen fun w h => Pr.ok (h.other hc _)
theorem ft_runStart {w : World} (h : Fate B hard d x0 w) (hc : w.main ≠ d) (a t p u k) : Pr (Fate B hard d x0) (runStart a t p u k w) := by
  unfold runStart
  split
  · exact Pr.err h.frame
  · exact ft_reschedule (Fate.other (w := { w with endOnEmpty := _ }) h.frame hc _) (.inl hc) _ _ _ _ _

/-- the effect of a call on a component `d` that it doesn't touch -/
theorem fate_exec {w : World} {fuel o} (hs : o ≠ .step) (ht : ¬ o.touches w d) (hard : Prop)
    (hh : hard → (w.comps d).status = .interrupted ∧ ∀ s, d ∉ w.inQ (.fromReq s) ∧ d ∉ w.inQ (.toReq s)) :
    Pr (Fate (fun _ => False) hard d (w.comps d)) (exec fuel o w) := by
  have h : Fate (fun _ => False) hard d (w.comps d) w := ⟨rfl, fun _ => ⟨_, rfl⟩, fun k => (hh k).1, fun k => (hh k).2, fun _ k => k.elim⟩
  cases o <;> simp only [Op.touches] at ht <;> simp only [exec]
  case hold => exact ft_hold h (Ne.symm ht) _ _ _ _ _ _
  case passivate => exact ft_passivate h (Ne.symm ht)
  case activate => exact ft_activate h (Ne.symm ht) _ _ _ _ _ _ _ _
  case create => exact ft_create h (Ne.symm ht) _ _ _ _ _ _
  case interrupt => exact ft_interrupt h (Ne.symm ht)
  case resume => exact ft_resume h (Ne.symm ht) _ _ _
  case standby => exact ft_standby h (Ne.symm ht)
  case setRemaining => exact ft_setRemaining h (Ne.symm ht) _ _ _
  case cancel => exact ft_cancel h (Ne.symm ht) _
  case request c args _ _ _ _ _ _ _ =>
    obtain ⟨h1, h2⟩ := not_or.1 ht
    refine ft_request (Ne.symm h1) args ?_ _ _ _ _ _ _ _ _
    refine ⟨h.failed, h.same, h.intr, h.line, fun r hr hp hd => ?_⟩
    obtain ⟨a, ha, e⟩ := hr
    subst e
    exact h2 ⟨a, ha, hp, hd⟩
  case release => exact ft_releaseArgs h _ _ _
  case releaseAll => exact ft_releaseAll h _ _
  case resRelease => exact ft_resRelease h _ _ _
  case resSetCapacity => exact ft_resSetCapacity h _ _ _
  case wait => exact ft_wait h (Ne.symm ht) _ _ _ _ _ _ _
  case waitFor => exact ft_waitFor h (Ne.symm ht) _ _ _ _ _ _ _
  case stateSet => exact ft_stateSet h _ _
  case stateTrigger => exact ft_stateTrigger h _ _ _ _
  case fromStore => exact ft_fromStore h (Ne.symm ht) _ _ _ _ _ _ _ _ _ _
  case toStore => exact ft_toStore h (Ne.symm ht) _ _ _ _ _ _ _ _ _ _
  case rescan => exact ft_rescan h _ _
  case storeSetCapacity => exact ft_storeSetCapacity h _ _ _
  case storeEnter => exact (ft_store _).1 _ _ _ _ h
  case storeLeave => exact (ft_store _).2 _ _ _ h
  case queueSetCapacity => exact Pr.ok (h.queue (.inl rfl))
  case queueReset => exact Pr.ok (h.queue (.inr fun hd => .inl hd))
  case runStart => exact ft_runStart h (Ne.symm ht) _ _ _ _ _
  case resetNow => exact Pr.ok h.frame
  case step => exact absurd rfl hs
  case terminate => exact ft_terminate h (Ne.symm ht) _
  all_goals exact ft_onQueue h rfl _

end Verif
