import Verif.Waits

/-!
# No change of a state is missed

The invariant: a component that is waiting is in the queue of each state it waits for, and its condition doesn't hold.
-/

namespace Verif
open World

/-- the condition depends on the states the component waits for, only -/
def Local (x : Comp) : Prop := ∀ σ τ : SId → Val, (∀ a ∈ x.waits, σ a.s = τ a.s) → (Met x σ ↔ Met x τ)

theorem local_of_none {x : Comp} (h : x.cond = none) : Local x := by
  intro σ τ hs
  unfold Met
  rw [h]
  simp only
  split
  · exact forall₂_congr fun a ha => by rw [hs a ha]
  · constructor
    · rintro ⟨a, ha, hh⟩; exact ⟨a, ha, by rw [← hs a ha]; exact hh⟩
    · rintro ⟨a, ha, hh⟩; exact ⟨a, ha, by rw [hs a ha]; exact hh⟩

theorem local_of_some {x : Comp} {f} (h : x.cond = some f) (hf : ∀ σ τ : SId → Val, (∀ a ∈ x.waits, σ a.s = τ a.s) → f σ = f τ) : Local x := by
  intro σ τ hs
  unfold Met
  rw [h]
  simp only [hf σ τ hs]

/-- `d` and `m` are the components that are exempted -/
structure Heard (d m : Set CId) (w : World) : Prop where
  mem : ∀ c, ∀ a ∈ (w.comps c).waits, c ∈ w.inQ (.waiters a.s)
  dep : ∀ c, c ∉ d → w.status c = .waiting → (w.comps c).waits ≠ [] → Local (w.comps c)
  miss : ∀ c, c ∉ m → w.status c = .waiting → (w.comps c).waits ≠ [] → ¬ Met (w.comps c) w.states

theorem met_congr {x y : Comp} (h : x.wc = y.wc) (σ) : Met x σ ↔ Met y σ := by
  unfold Met
  rw [show x.cond = y.cond from congrArg WC.cond h, show x.waits = y.waits from congrArg WC.waits h,
    show x.waitAll = y.waitAll from congrArg WC.waitAll h]

theorem local_congr {x y : Comp} (h : x.wc = y.wc) : Local x ↔ Local y := by
  unfold Local
  rw [show x.waits = y.waits from congrArg WC.waits h]
  simp only [met_congr h]

/-- changing what doesn't matter -/
theorem Heard.of {d m : Set CId} {w w' : World} (h : Heard d m w) (h1 : ∀ c, (w'.comps c).waits = (w.comps c).waits ∨ (w'.comps c).waits = [])
    (h2 : ∀ c, (w'.comps c).waits ≠ [] → ∀ s, c ∈ w.inQ (.waiters s) → c ∈ w'.inQ (.waiters s))
    (h3 : w'.states = w.states)
    (h4 : ∀ c, w'.status c = .waiting → (w'.comps c).waits ≠ [] → w.status c = .waiting ∧ ((c ∈ d ∧ c ∈ m) ∨
      ((w'.comps c).waitAll = (w.comps c).waitAll ∧ (w'.comps c).cond = (w.comps c).cond))) : Heard d m w' := by
  have same : ∀ c, (w'.comps c).waits ≠ [] → (w'.comps c).waits = (w.comps c).waits := by
    intro c hc
    rcases h1 c with h1 | h1
    · exact h1
    · exact absurd h1 hc
  have met : ∀ c, (w'.comps c).waits ≠ [] → (w'.comps c).waitAll = (w.comps c).waitAll → (w'.comps c).cond = (w.comps c).cond →
      ∀ σ, Met (w'.comps c) σ ↔ Met (w.comps c) σ := by
    intro c hc e1 e2 σ
    unfold Met
    rw [e1, e2, same c hc]
  refine ⟨fun c a ha => ?_, fun c hc hs hw => ?_, fun c hc hs hw => ?_⟩
  · have hne : (w'.comps c).waits ≠ [] := List.ne_nil_of_mem ha
    rw [same c hne] at ha
    exact h2 c hne _ (h.mem c a ha)
  · obtain ⟨k1, k2⟩ := h4 c hs hw
    rcases k2 with k2 | ⟨k2, k3⟩
    · exact absurd k2.1 hc
    · have := h.dep c hc k1 (same c hw ▸ hw)
      intro σ τ hst
      rw [met c hw k2 k3, met c hw k2 k3]
      refine this σ τ fun a ha => hst a ?_
      rw [same c hw]; exact ha
  · obtain ⟨k1, k2⟩ := h4 c hs hw
    rcases k2 with k2 | ⟨k2, k3⟩
    · exact absurd k2.2 hc
    · rw [h3, met c hw k2 k3]
      exact h.miss c hc k1 (same c hw ▸ hw)

/-- `c` has left some queues of a kind -/
structure Gone (K : QRef → Prop) (c : CId) (w w' : World) : Prop where
  comps : w'.comps = w.comps
  states : w'.states = w.states
  other : ∀ p d, d ≠ c → (d ∈ w'.inQ p ↔ d ∈ w.inQ p)
  rest : ∀ p, ¬ K p → w'.inQ p = w.inQ p

theorem Gone.refl (K c w) : Gone K c w w := ⟨rfl, rfl, fun _ _ _ => Iff.rfl, fun _ _ => rfl⟩
theorem Gone.trans {K : QRef → Prop} {c : CId} {a b d : World} (h : Gone K c a b) (h2 : Gone K c b d) : Gone K c a d :=
  ⟨h2.comps.trans h.comps, h2.states.trans h.states, fun p x hx => (h2.other p x hx).trans (h.other p x hx),
    fun p hp => (h2.rest p hp).trans (h.rest p hp)⟩

theorem leaveQ_gone {K : QRef → Prop} {c : CId} {q : QRef} (hK : K q) {w w' : World} (h : leaveQ c q w = .ok w') : Gone K c w w' := by
  obtain ⟨q', h1, h2⟩ := onQueue_ok h
  obtain ⟨l1, l2, x, hx⟩ := Queue.leave_ok h1
  have hm : w.inQ q = l1.map QMem.c ++ c :: l2.map QMem.c := by simp [World.inQ, hx.mem, hx.xc]
  have hm' : w'.inQ q = l1.map QMem.c ++ l2.map QMem.c := by rw [h2, inQ_modQ, if_pos rfl, hx.eq]; simp
  refine ⟨by rw [h2]; rfl, by rw [h2]; rfl, fun p d hd => ?_, fun p hp => ?_⟩
  · by_cases hp : p = q
    · subst hp; rw [hm, hm']; simp [hd]
    · rw [h2, inQ_modQ, if_neg hp]
  · rw [h2, inQ_modQ, if_neg (by rintro rfl; exact hp hK)]

theorem forR_gone {α : Type} {K : QRef → Prop} {c : CId} {f : α → World → R} (hf : ∀ a w w', f a w = .ok w' → Gone K c w w') :
    ∀ (l : List α) {w w' : World}, forR l f w = .ok w' → Gone K c w w'
  | [], w, w', h => by cases h; exact .refl _ _ _
  | a :: t, w, w', h => by
    unfold forR at h
    obtain ⟨w1, h1, h2⟩ := andThen_ok h
    exact (hf a w w1 h1).trans (forR_gone hf t h2)

theorem leaveWaiters_gone {c : CId} {x : Wait} {w w' : World} (h : leaveWaiters c x w = .ok w') : Gone (fun q => q.nw = false) c w w' := by
  unfold leaveWaiters at h
  split at h
  · exact leaveQ_gone (by rfl) h
  · cases h; exact .refl _ _ _

def QRef.isFrom : QRef → Prop
  | .fromReq _ => True
  | _ => False
def QRef.isTo : QRef → Prop
  | .toReq _ => True
  | _ => False
def QRef.storeQ : QRef → Bool
  | .fromReq _ | .toReq _ | .store _ => true
  | _ => false

theorem inQ_modQ' (w : World) (q : QRef) (f : Queue → Queue) (p : QRef) :
    (w.modQ q f).inQ p = if p = q then (f (w.queues q)).mem.map QMem.c else w.inQ p := by
  simp only [World.inQ, World.modQ]
  split
  · rename_i h; rw [h]
  · rfl

theorem heard_base (d m : Set CId) : Base (Heard d m) := by
  refine ⟨?_, ?_, ?_, ?_, ?_, ?_, ?_⟩
  · intro w w' h h1 h2 h3
    refine h.of (fun c => .inl (by rw [h1])) (fun c _ s hc => ?_) h3 (fun c hs _ => ?_)
    · simpa only [World.inQ, h2] using hc
    · simp only [World.status, h1] at hs ⊢
      exact ⟨hs, .inr (by simp)⟩
  · intro w c f h h1 h2
    have hw : ∀ x, ((w.modC c f).comps x).wc = (w.comps x).wc := by
      intro x
      simp only [World.modC]
      split
      · rename_i hx; subst hx; exact h1 _
      · rfl
    refine h.of (fun x => .inl (congrArg WC.waits (hw x))) (fun x _ s hx => hx) rfl (fun x hs _ => ⟨?_, .inr ⟨congrArg WC.waitAll (hw x), congrArg WC.cond (hw x)⟩⟩)
    by_cases hx : x = c
    · subst hx
      simp only [World.status, modC_self] at hs
      rcases h2 (w.comps x) with h2 | h2
      · rw [World.status, ← h2]; exact hs
      · exact absurd hs h2
    · simpa only [World.status, modC_other hx] using hs
  · intro w q f h hq
    refine h.of (fun x => .inl rfl) (fun x _ s hx => ?_) rfl (fun x hs _ => ⟨hs, .inr ⟨rfl, rfl⟩⟩)
    rw [inQ_modQ', if_neg]
    · exact hx
    · rintro rfl; cases hq
  · intro w q _ _ h
    refine h.of (fun x => .inl rfl) (fun x _ s hx => ?_) rfl (fun x hs _ => ⟨hs, .inr ⟨rfl, rfl⟩⟩)
    rw [inQ_modQ']
    split
    · rename_i hs; subst hs; exact hx
    · exact hx
  · intro w w' c h hf
    unfold checkFailWait at hf
    split at hf
    · cases hf; exact h
    · obtain ⟨w1, h1, h2⟩ := andThen_ok hf
      have g := forR_gone (fun _ _ _ => leaveWaiters_gone) _ h1
      cases h2
      refine h.of (fun x => ?_) (fun x hx s hs => ?_) g.states (fun x hs hw => ?_)
      · by_cases hx : x = c
        · subst hx; right; rw [modC_self]
        · left; rw [modC_other hx, g.comps]
      · have hxc : x ≠ c := by rintro rfl; rw [modC_self] at hx; exact hx rfl
        exact (g.other _ _ hxc).2 hs
      · have hxc : x ≠ c := by rintro rfl; rw [modC_self] at hw; exact hw rfl
        simp only [World.status, modC_other hxc, g.comps] at hs ⊢
        exact ⟨hs, .inr (by simp)⟩
  · intro w w' c h hf
    unfold checkFailFrom at hf
    split at hf
    · cases hf; exact h
    · obtain ⟨w1, h1, h2⟩ := andThen_ok hf
      have g := forR_gone (K := QRef.isFrom) (fun s _ _ h => leaveQ_gone (by trivial) h) _ h1
      cases h2
      have hx : ∀ x, ((w1.modC c (fun x => { x with fromStores := [], failed := true })).comps x).waits = (w.comps x).waits ∧
          ((w1.modC c (fun x => { x with fromStores := [], failed := true })).comps x).status = (w.comps x).status ∧
          ((w1.modC c (fun x => { x with fromStores := [], failed := true })).comps x).waitAll = (w.comps x).waitAll ∧
          ((w1.modC c (fun x => { x with fromStores := [], failed := true })).comps x).cond = (w.comps x).cond := by
        intro x
        simp only [World.modC, g.comps]
        split <;> rename_i hx <;> simp [hx]
      refine h.of (fun x => .inl (hx x).1) (fun x _ s hs => ?_) g.states (fun x hs _ => ?_)
      · show x ∈ w1.inQ _
        rw [g.rest _ id]; exact hs
      · exact ⟨(hx x).2.1.symm.trans hs, .inr ⟨(hx x).2.2.1, (hx x).2.2.2⟩⟩
  · intro w w' c h hf
    unfold checkFailTo at hf
    split at hf
    · cases hf; exact h
    · obtain ⟨w1, h1, h2⟩ := andThen_ok hf
      have g := forR_gone (K := QRef.isTo) (fun s _ _ h => leaveQ_gone (by trivial) h) _ h1
      cases h2
      have hx : ∀ x, ((w1.modC c (fun x => { x with toStores := [], failed := true })).comps x).waits = (w.comps x).waits ∧
          ((w1.modC c (fun x => { x with toStores := [], failed := true })).comps x).status = (w.comps x).status ∧
          ((w1.modC c (fun x => { x with toStores := [], failed := true })).comps x).waitAll = (w.comps x).waitAll ∧
          ((w1.modC c (fun x => { x with toStores := [], failed := true })).comps x).cond = (w.comps x).cond := by
        intro x
        simp only [World.modC, g.comps]
        split <;> rename_i hx <;> simp [hx]
      refine h.of (fun x => .inl (hx x).1) (fun x _ s hs => ?_) g.states (fun x hs _ => ?_)
      · show x ∈ w1.inQ _
        rw [g.rest _ id]; exact hs
      · exact ⟨(hx x).2.1.symm.trans hs, .inr ⟨(hx x).2.2.1, (hx x).2.2.2⟩⟩

/-! ## the calls that have to do with stores -/

/-- changes of components as far as states are concerned -/
theorem heard_modC {d m : Set CId} {w : World} (h : Heard d m w) (c : CId) {f : Comp → Comp}
    (hf : ∀ x, (f x).waits = x.waits ∧ (f x).waitAll = x.waitAll ∧ (f x).cond = x.cond := by intro _; exact ⟨rfl, rfl, rfl⟩)
    (hs : ∀ x, (f x).status = x.status ∨ (f x).status ≠ .waiting := by intro _; first | exact .inl rfl | exact .inr (by simp)) :
    Heard d m (w.modC c f) := by
  refine h.of (fun x => ?_) (fun x _ s hx => hx) rfl (fun x hx _ => ?_)
  · left; simp only [World.modC]; split
    · rename_i hx; rw [hx]; exact (hf _).1
    · rfl
  · by_cases hxc : x = c
    · subst hxc
      simp only [World.status, modC_self] at hx ⊢
      refine ⟨?_, .inr (hf _).2⟩
      rcases hs (w.comps x) with hs | hs
      · rw [← hs]; exact hx
      · exact absurd hx hs
    · simp only [World.status, modC_other hxc] at hx ⊢
      exact ⟨hx, .inr (by simp)⟩

/-- properties that are kept by what the calls on stores do, as well -/
structure SBase (P : World → Prop) : Prop extends Base P where
  compS : ∀ {w : World} (c) {f : Comp → Comp}, P w → (∀ x, (f x).waits = x.waits ∧ (f x).waitAll = x.waitAll ∧ (f x).cond = x.cond) →
    (∀ x, (f x).status = x.status ∨ (f x).status ≠ .waiting) → P (w.modC c f)
  queueS : ∀ {w : World} {q : QRef} (f), P w → q.storeQ = true → P (w.modQ q f)

section SBase
variable {P : World → Prop} (S : SBase P)
include S

theorem SBase.mod {w : World} (h : P w) (c : CId) {f : Comp → Comp}
    (hf : ∀ x, (f x).waits = x.waits ∧ (f x).waitAll = x.waitAll ∧ (f x).cond = x.cond := by intro _; exact ⟨rfl, rfl, rfl⟩)
    (hs : ∀ x, (f x).status = x.status ∨ (f x).status ≠ .waiting := by intro _; first | exact .inl rfl | exact .inr (by simp)) :
    P (w.modC c f) := S.compS c h hf hs

theorem ss_onQueue {w : World} (h : P w) {q : QRef} (hq : q.storeQ = true) (f) : Po P (onQueue q f w) := by
  unfold onQueue
  split
  · exact S.queueS (fun _ => _) h hq
  · trivial

theorem ss_leave {w : World} (h : P w) (c) {q : QRef} (hq : q.storeQ = true) : Po P (leaveQ c q w) := ss_onQueue S h hq _
theorem ss_enter {w : World} (h : P w) (c) {q : QRef} (hq : q.storeQ = true) (p) : Po P (enterSortedQ c q p w) := ss_onQueue S h hq _

theorem ss_store (fuel : Nat) : (∀ i s p w, P w → Po P (storeEnter fuel i s p w)) ∧
    (∀ i s w, P w → Po P (storeLeave fuel i s w)) := by
  induction fuel with
  | zero =>
    refine ⟨fun i s p w h => ?_, fun i s w h => ?_⟩
    · rw [storeEnter]; trivial
    · rw [storeLeave]; trivial
  | succ n ih =>
    obtain ⟨i1, i2⟩ := ih
    refine ⟨fun i s p w h => ?_, fun i s w h => ?_⟩
    · rw [storeEnter.eq_def]
      refine Po.andThen ?_ fun w h => ?_
      · split
        · exact ss_onQueue S h rfl _
        · exact ss_onQueue S h rfl _
      · split
        · exact h
        · refine (i2 _ _ _ h).andThen fun w h => ?_
          exact (Po.forR (fun s0 w h => ss_leave S h _ rfl) _ _ h).andThen fun w h => bs_wake S.toBase (S.mod h _) _ _
    · rw [storeLeave.eq_def]
      refine (ss_leave S h _ rfl).andThen fun w h => ?_
      simp only
      split
      · split
        · exact h
        · split
          · trivial
          · refine (i1 _ _ _ _ h).andThen fun w h => ?_
            refine (Po.forR (fun s0 w h => ss_leave S h _ rfl) _ _ h).andThen fun w h => ?_
            exact (bs_wake S.toBase (S.mod h _) _ _).andThen fun w h => Po.ok (S.mod h _)
      · exact h

theorem ss_fromStore {w : World} (h : P w) (fuel c ss f k rp fa fd p u cp) :
    Po P (fromStore fuel c ss f k rp fa fd p u cp w) := by
  unfold fromStore
  split
  · trivial
  · refine (bs_preamble S.toBase h _).andThen fun w h => ?_
    split
    · trivial
    · simp only
      split
      · exact ((ss_store S fuel).2 _ _ _ (S.toBase.modC h _)).andThen fun w h => bs_wake S.toBase (S.mod h _) _ _
      · exact (Po.forR (fun s0 w h => ss_enter S h _ rfl _) _ _ (S.mod (S.toBase.modC h _) _)).andThen
          fun w h => bs_reschedule S.toBase (S.mod h _) _ _ _ _ _ _

theorem ss_toStore {w : World} (h : P w) (fuel c ss i rp sp fa fd p u cp) :
    Po P (toStore fuel c ss i rp sp fa fd p u cp w) := by
  unfold toStore
  split
  · trivial
  · refine (bs_preamble S.toBase h _).andThen fun w h => ?_
    split
    · trivial
    · simp only
      split
      · exact ((ss_store S fuel).1 _ _ _ _ (S.toBase.modC h _)).andThen fun w h => bs_wake S.toBase (S.mod h _) _ _
      · exact (Po.forR (fun s0 w h => ss_enter S h _ rfl _) _ _ (S.toBase.modC h _)).andThen
          fun w h => bs_reschedule S.toBase (S.mod h _) _ _ _ _ _ _

theorem ss_rescan {w : World} (h : P w) (fuel s) : Po P (rescan fuel s w) := by
  refine Po.forR (fun c w h => ?_) _ _ h
  split
  · refine Po.forR (fun i w h => ?_) _ _ h
    unfold rescanItems
    split
    · refine (Po.forR (fun s0 w h => ss_leave S h _ rfl) _ _ h).andThen fun w h => ?_
      exact ((ss_store S fuel).2 _ _ _ h).andThen fun w h => bs_wake S.toBase (S.mod h _) _ _
    · exact h
  · exact h

theorem ss_rescanTo (fuel s l) : ∀ w, P w → Po P (rescanTo fuel s l w) := by
  induction l with
  | nil => intro w h; exact h
  | cons c t ih =>
    intro w h
    unfold rescanTo
    split
    · split
      · refine (Po.forR (fun s0 w h => ss_leave S h _ rfl) _ _ h).andThen fun w h => ?_
        split
        · trivial
        · refine ((ss_store S fuel).1 _ _ _ _ h).andThen fun w h => ?_
          exact (bs_wake S.toBase (S.mod h _) _ _).andThen fun w h => ih _ (S.mod h _)
      · exact h
    · exact ih _ h

theorem ss_storeSetCapacity {w : World} (h : P w) (fuel s k) : Po P (storeSetCapacity fuel s k w) := by
  unfold storeSetCapacity
  simp only
  split
  · exact ss_rescanTo S _ _ _ _ (S.queueS _ h rfl)
  · exact Po.ok (S.queueS _ h rfl)


/-- every call, except those that wait for, or change, states -/
theorem exec_sbase {w : World} (h : P w) (fuel o)
    (ho : match o with | .wait .. | .waitFor .. | .stateSet .. | .stateTrigger .. => False | _ => True) : Po P (exec fuel o w) := by
  by_cases hs : o.special = false
  · exact exec_base S.toBase h fuel o hs
  · cases o <;> simp [Op.special] at hs <;> simp only [exec] <;> try exact ho.elim
    · exact ss_fromStore S h _ _ _ _ _ _ _ _ _ _ _
    · exact ss_toStore S h _ _ _ _ _ _ _ _ _ _ _
    · exact ss_rescan S h _ _
    · exact ss_storeSetCapacity S h _ _ _
    · exact (ss_store S fuel).1 _ _ _ _ h
    · exact (ss_store S fuel).2 _ _ _ h
    · exact (bs_releaseAll S.toBase h _ _).andThen fun w h => Po.ok (S.mod h _)

end SBase

theorem heard_sbase (d m : Set CId) : SBase (Heard d m) := by
  refine ⟨heard_base d m, fun c _ h hf hs => heard_modC h c hf hs, ?_⟩
  intro w q f h hq
  refine h.of (fun x => .inl rfl) (fun x _ s hx => ?_) rfl (fun x hs _ => ⟨hs, .inr ⟨rfl, rfl⟩⟩)
  rw [inQ_modQ', if_neg]
  · exact hx
  · rintro rfl; cases hq

variable {d m : Set CId}

/-! ## changes of states -/

/-- the components that wait for `s`, possibly among other states -/
def watching (w : World) (s : SId) : Set CId := { c | ∃ a ∈ (w.comps c).waits, a.s = s }

theorem Heard.setState {w : World} (h : Heard ∅ ∅ w) (s : SId) (v : Val) : Heard ∅ (watching w s) (w.setState s v) := by
  refine ⟨h.mem, h.dep, fun c hc hs hw => ?_⟩
  have hl := h.dep c (by simp) hs hw
  refine fun hm => h.miss c (by simp) hs hw ((hl (w.setState s v).states w.states fun a ha => ?_).1 hm)
  have : a.s ≠ s := fun he => hc ⟨a, ha, he⟩
  simp [World.setState, this]

theorem heard_freed {w w' : World} {s : SId} {sel : List CId} (h : Heard ∅ (watching w s) w) (hf : Freed sel w w') : Heard ∅ (watching w' s) w' := by
  have ns : ∀ c, w'.status c = .waiting → c ∉ sel := by
    intro c hc hm
    simp [World.status, hf.self c hm] at hc
  refine ⟨fun c a ha => ?_, fun c _ hs hw => ?_, fun c hc hs hw => ?_⟩
  · have hc : c ∉ sel := fun hm => by rw [hf.self c hm] at ha; cases ha
    rw [hf.other c hc] at ha
    rw [hf.waiters]
    exact List.mem_filter.2 ⟨h.mem c a ha, by simpa using hc⟩
  · simp only [World.status, hf.other c (ns c hs)] at hs hw ⊢
    exact h.dep c (by simp) hs hw
  · have ho := hf.other c (ns c hs)
    simp only [World.status, ho] at hs hw ⊢
    rw [hf.states]
    refine h.miss c (fun hm => hc ?_) hs hw
    obtain ⟨a, ha, he⟩ := hm
    exact ⟨a, by rw [ho]; exact ha, he⟩

theorem heard_pass {w w' : World} {s : SId} (h : Heard ∅ (watching w s) w) (hf : Freed (over w (w.inQ (.waiters s))) w w') : Heard ∅ ∅ w' := by
  have h' := heard_freed h hf
  refine ⟨h'.mem, h'.dep, fun c _ hs hw => ?_⟩
  by_cases hc : c ∈ watching w' s
  · have ns : c ∉ over w (w.inQ (.waiters s)) := by
      intro hm
      simp [World.status, hf.self c hm] at hs
    have ho := hf.other c ns
    simp only [World.status, ho] at hs hw
    rw [ho, hf.states]
    intro hm
    apply ns
    unfold over
    rw [List.mem_filter]
    obtain ⟨a, ha, he⟩ := hc
    rw [ho] at ha
    refine ⟨he ▸ h.mem c a ha, ?_⟩
    simp only [decide_eq_true_eq]
    exact ⟨by rw [World.status, hs]; simp, hm⟩
  · exact h'.miss c hc hs hw

theorem stateSet_exact {w w' : World} {s v} (hg : Good ∅ w) (h : stateSet s v w = .ok w') :
    (w.states s = v ∧ w' = w) ∨ (w.states s ≠ v ∧ Freed (over (w.setState s v) (w.inQ (.waiters s))) (w.setState s v) w') := by
  unfold stateSet at h
  split at h
  · rename_i hv; cases h; exact .inl ⟨hv, rfl⟩
  · rename_i hv
    exact .inr ⟨hv, (stateTryWait_exact _ none (hg.setState s v) (hg.nd _) h).1⟩

theorem stateTrigger_exact {w w' : World} {s v a mx} (hg : Good ∅ w) (h : stateTrigger s v a mx w = .ok w') :
    ∃ w1, Freed (pick mx (over (w.setState s v) (w.inQ (.waiters s)))) (w.setState s v) w1 ∧
      Freed (over (w1.setState s (a.getD (w.states s))) (w1.inQ (.waiters s))) (w1.setState s (a.getD (w.states s))) w' := by
  unfold stateTrigger at h
  obtain ⟨w1, h1, h2⟩ := andThen_ok h
  obtain ⟨f1, g1⟩ := stateTryWait_exact _ mx (hg.setState s v) (hg.nd _) h1
  exact ⟨w1, f1, (stateTryWait_exact _ none (g1.setState s _) (g1.nd _) h2).1⟩

theorem heard_stateSet {w w' : World} {s v} (hg : Good ∅ w) (hh : Heard ∅ ∅ w) (h : stateSet s v w = .ok w') : Heard ∅ ∅ w' := by
  rcases stateSet_exact hg h with ⟨_, rfl⟩ | ⟨_, hf⟩
  · exact hh
  · exact heard_pass (hh.setState s v) hf

theorem heard_stateTrigger {w w' : World} {s v a mx} (hg : Good ∅ w) (hh : Heard ∅ ∅ w) (h : stateTrigger s v a mx w = .ok w') : Heard ∅ ∅ w' := by
  obtain ⟨w1, f1, f2⟩ := stateTrigger_exact hg h
  have h1 : Heard ∅ (watching w1 s) w1 := heard_freed (hh.setState s v) f1
  have h2 : Heard ∅ (watching (w1.setState s (a.getD (w.states s))) s) (w1.setState s (a.getD (w.states s))) := by
    refine ⟨h1.mem, h1.dep, fun c hc hs hw => ?_⟩
    have hl := h1.dep c (by simp) hs hw
    refine fun hm => h1.miss c hc hs hw ((hl (w1.setState s (a.getD (w.states s))).states w1.states fun b hb => ?_).1 hm)
    have : b.s ≠ s := fun he => hc ⟨b, hb, he⟩
    simp [World.setState, this]
  exact heard_pass h2 f2

/-! ## wait -/

/-- `c` has entered the queues of more states -/
structure Grown (c : CId) (l : List Wait) (w w' : World) : Prop where
  self : w'.comps c = { w.comps c with waits := (w.comps c).waits ++ l }
  other : ∀ d, d ≠ c → w'.comps d = w.comps d
  states : w'.states = w.states
  now : w'.now = w.now
  sub : ∀ q d, d ∈ w.inQ q → d ∈ w'.inQ q
  mem : (∀ a ∈ (w.comps c).waits, c ∈ w.inQ (.waiters a.s)) → ∀ a ∈ l, c ∈ w'.inQ (.waiters a.s)

theorem Grown.refl (c w) : Grown c [] w w := ⟨by simp, fun _ _ => rfl, rfl, rfl, fun _ _ h => h, fun _ => by simp⟩
theorem Grown.trans {c : CId} {l1 l2 : List Wait} {a b d : World} (h : Grown c l1 a b) (h2 : Grown c l2 b d) : Grown c (l1 ++ l2) a d := by
  refine ⟨by rw [h2.self, h.self]; simp, fun x hx => (h2.other x hx).trans (h.other x hx), h2.states.trans h.states, h2.now.trans h.now,
    fun q x hx => h2.sub q x (h.sub q x hx), fun hm x hx => ?_⟩
  rcases List.mem_append.1 hx with hx | hx
  · exact h2.sub _ _ (h.mem hm x hx)
  · refine h2.mem (fun y hy => ?_) x hx
    rw [h.self] at hy
    rcases List.mem_append.1 hy with hy | hy
    · exact h.sub _ _ (hm y hy)
    · exact h.mem hm y hy

theorem waitArg_grown {c : CId} {a : WArg} {w w' : World} (h : waitArg c a w = .ok w') : Grown c [⟨a.s, a.ok⟩] w w' := by
  unfold waitArg at h
  obtain ⟨w1, h1, h2⟩ := andThen_ok h
  cases h2
  have ent : ∀ {f}, onQueue (.waiters a.s) f w = .ok w1 →
      (∀ q', f (w.queues (.waiters a.s)) = .ok q' → ∃ l1 l2 x, Queue.Entered w.now (w.queues (.waiters a.s)) c q' l1 l2 x) →
      w1.comps = w.comps ∧ w1.states = w.states ∧ w1.now = w.now ∧ (∀ q d, d ∈ w.inQ q → d ∈ w1.inQ q) ∧ c ∈ w1.inQ (.waiters a.s) := by
    intro f hf hk
    obtain ⟨q', h1, h2⟩ := onQueue_ok hf
    obtain ⟨l1, l2, x, hx⟩ := hk q' h1
    refine ⟨by rw [h2]; rfl, by rw [h2]; rfl, by rw [h2]; rfl, fun q d hd => ?_, ?_⟩
    · rw [h2, inQ_modQ]
      split
      · rename_i hq
        subst hq
        rw [hx.eq]
        simp only [World.inQ, hx.mem] at hd
        simp only [List.map_append, List.mem_append, List.map_cons, List.mem_cons] at hd ⊢
        rcases hd with hd | hd
        · exact .inl hd
        · exact .inr (.inr hd)
      · exact hd
    · rw [h2, inQ_modQ, if_pos rfl, hx.eq]
      simp [hx.xc]
  have key : w1.comps = w.comps ∧ w1.states = w.states ∧ w1.now = w.now ∧ (∀ q d, d ∈ w.inQ q → d ∈ w1.inQ q) ∧
      ((∀ x ∈ (w.comps c).waits, c ∈ w.inQ (.waiters x.s)) → c ∈ w1.inQ (.waiters a.s)) := by
    split at h1
    · rename_i hany
      cases h1
      refine ⟨rfl, rfl, rfl, fun _ _ h => h, fun hm => ?_⟩
      obtain ⟨x, hx, he⟩ := List.any_eq_true.1 hany
      have he : x.s = a.s := by simpa using he
      exact he ▸ hm x hx
    · split at h1
      · obtain ⟨k1, k2, k3, k4, k5⟩ := ent h1 fun q' hq' => by
          obtain ⟨l1, l2, x, hx, _⟩ := Queue.enter_ok hq'
          exact ⟨l1, l2, x, hx⟩
        exact ⟨k1, k2, k3, k4, fun _ => k5⟩
      · obtain ⟨k1, k2, k3, k4, k5⟩ := ent h1 fun q' hq' => by
          obtain ⟨l1, l2, x, hx, _⟩ := Queue.enterSorted_ok hq'
          exact ⟨l1, l2, x, hx⟩
        exact ⟨k1, k2, k3, k4, fun _ => k5⟩
  obtain ⟨k1, k2, k3, k4, k5⟩ := key
  refine ⟨by rw [modC_self, k1], fun d hd => by rw [modC_other hd, k1], k2, k3, k4, fun hm x hx => ?_⟩
  rw [List.mem_singleton] at hx
  subst hx
  exact k5 hm

theorem waitArgs_grown {c : CId} : ∀ (l : List WArg) {w w' : World}, Good {c} w → c ≠ w.main → (w.comps c).onList = false →
    forR l (waitArg c) w = .ok w' → Grown c (l.map fun a => ⟨a.s, a.ok⟩) w w' ∧ Good {c} w' ∧ (w'.comps c).onList = false
  | [], w, w', hg, hm, ho, h => by cases h; exact ⟨.refl _ _, hg, ho⟩
  | a :: t, w, w', hg, hm, ho, h => by
    unfold forR at h
    obtain ⟨w1, h1, h2⟩ := andThen_ok h
    obtain ⟨g1, m1, o1⟩ := waitArg_good hg hm ho h1
    obtain ⟨i1, i2, i3⟩ := waitArgs_grown t g1 (by rw [m1]; exact hm) o1 h2
    exact ⟨(waitArg_grown h1).trans i1, i2, i3⟩

theorem waitForArgs_grown {c : CId} {p : Rat} : ∀ (l : List SId) {w w' : World}, Good {c} w → c ≠ w.main → (w.comps c).onList = false →
    forR l (fun s w => enterSortedQ c (.waiters s) p (w.modC c (fun x => { x with waits := x.waits ++ [⟨s, fun _ => false⟩] }))) w = .ok w' →
    Grown c (l.map fun s => ⟨s, fun _ => false⟩) w w' ∧ Good {c} w' ∧ (w'.comps c).onList = false
  | [], w, w', hg, hm, ho, h => by cases h; exact ⟨.refl _ _, hg, ho⟩
  | s :: t, w, w', g, hm, ho, h => by
    unfold forR at h
    obtain ⟨w5, h5, h6⟩ := andThen_ok h
    have g0 : Good {c} (w.modC c (fun x => { x with waits := x.waits ++ [⟨s, fun _ => false⟩] })) := by
      refine g.grow rfl hm (fun _ => rfl) fun q => awaits_congr (fun _ _ h => h) (fun r _ h => ?_) (fun _ _ h => h) (fun _ _ h => h)
      simp only [List.map_append, List.mem_append]; exact .inl h
    obtain ⟨e1, e2, e3, e4⟩ := enterQ_inQ h5
    have g5 : Good {c} w5 := good_enter g0 (by rw [modC_self]; simp [awaits]) e1 e2 e3
    have c5 : w5.comps = (w.modC c (fun x => { x with waits := x.waits ++ [⟨s, fun _ => false⟩] })).comps := by rw [e1]; rfl
    obtain ⟨i1, i2, i3⟩ := waitForArgs_grown t g5 (by rw [e1]; exact hm) (by rw [c5, modC_self]; exact ho) h6
    refine ⟨Grown.trans (l1 := [⟨s, fun _ => false⟩]) ⟨?_, fun d hd => ?_, ?_, ?_, fun q d hd => ?_, fun _ x hx => ?_⟩ i1, i2, i3⟩
    · rw [c5, modC_self]
    · rw [c5, modC_other hd]
    · rw [e1]; rfl
    · rw [e1]; rfl
    · by_cases hq : q = .waiters s
      · subst hq
        exact e2.mem_iff.2 (List.mem_cons_of_mem _ hd)
      · rw [e4 q hq]; exact hd
    · rw [List.mem_singleton] at hx
      subst hx
      exact e2.mem_iff.2 List.mem_cons_self

/-- what is known when `wait` and `wait_for` start with the test of the condition -/
theorem waitEnd_exact {c : CId} {w w' : World} {t p u k} (hg : Good {c} w) (hoff : (w.comps c).onList = false) (hni : w.status c ≠ .interrupted)
    (h : waitEnd c t p u k w = .ok w') : (w.comps c).waits ≠ [] ∧ w'.states = w.states ∧ (∀ d, d ≠ c → w'.comps d = w.comps d) ∧
      ((Met (w.comps c) w.states ∧ w'.status c = .scheduled ∧ (w'.comps c).waits = [] ∧ (w'.comps c).schedTime = (w.now : ETime) ∧
          ∀ s, w'.inQ (.waiters s) = (w.inQ (.waiters s)).filter (fun d => decide (d ∉ [c]))) ∨
       (¬ Met (w.comps c) w.states ∧ w'.status c = .waiting ∧ (w'.comps c).wc = (w.comps c).wc ∧ (w'.comps c).schedTime = max t (w.now : ETime) ∧
          ∀ q, w'.queues q = w.queues q)) := by
  unfold waitEnd at h
  split at h
  · cases h
  · rename_i hne
    have hne' : (w.comps c).waits ≠ [] := by intro h0; rw [h0] at hne; exact hne rfl
    simp only at h
    obtain ⟨w1, h1, h2⟩ := andThen_ok h
    have g1 : Good {c} (w.modC c (fun x => { x with remaining := t.subQ w.now })) := by
      refine hg.set (fun _ _ => Iff.rfl) hoff ?_ ?_ ?_ ?_ ?_ ?_ ?_ <;> simp
    have hx := tryWait_exact g1 h1
    have hm : ∀ σ, Met ((w.modC c (fun x => { x with remaining := t.subQ w.now })).comps c) σ ↔ Met (w.comps c) σ :=
      met_congr (by rw [modC_self]; rfl)
    have hst : (w.modC c (fun x => { x with remaining := t.subQ w.now })).status c = w.status c := by simp [World.status, World.modC]
    refine ⟨hne', ?_⟩
    by_cases hmet : Met (w.comps c) w.states
    · rw [if_pos ⟨by rw [hst]; exact hni, (hm _).2 hmet⟩] at hx
      obtain ⟨_, hf⟩ := hx
      have hs := hf.self c (by simp)
      rw [if_pos (by rw [hs]; rfl)] at h2
      cases h2
      refine ⟨hf.states, fun d hd => ?_, .inl ⟨hmet, ?_, ?_, ?_, fun s => hf.waiters s⟩⟩
      · rw [hf.other d (by simpa using hd), modC_other hd]
      · simp [World.status, hs]
      · rw [hs]
      · rw [hs]; rfl
    · rw [if_neg (fun hh => hmet ((hm _).1 hh.2))] at hx
      obtain ⟨_, rfl⟩ := hx
      rw [if_neg (by rw [modC_self]; exact hne)] at h2
      have r := (reschedule_ok h2).1
      refine ⟨r.states, fun d hd => ?_, .inr ⟨hmet, ?_, ?_, ?_, fun q => ?_⟩⟩
      · rw [r.other d hd]; simp only [setStatus]; rw [modC_other hd, modC_other hd]
      · simp [World.status, r.self, setStatus, World.modC]
      · rw [r.self]; simp [setStatus, World.modC]; rfl
      · rw [r.self]; simp [setStatus, World.modC]
      · rw [r.queues]; rfl

theorem heard_waitEnd {c : CId} {w w' : World} {t p u k} (hg : Good {c} w) (hoff : (w.comps c).onList = false) (hni : w.status c ≠ .interrupted)
    (hh : Heard {c} {c} w) (hl : Local (w.comps c)) (h : waitEnd c t p u k w = .ok w') : Heard ∅ ∅ w' := by
  obtain ⟨_, hst, ho, hor⟩ := waitEnd_exact hg hoff hni h
  have hmem : ∀ d, ∀ a ∈ (w'.comps d).waits, d ∈ w'.inQ (.waiters a.s) := by
    intro d a ha
    rcases hor with ⟨_, _, hw, _, hq⟩ | ⟨_, _, hw, _, hq⟩
    · have hd : d ≠ c := by rintro rfl; rw [hw] at ha; cases ha
      rw [ho d hd] at ha
      rw [hq]
      exact List.mem_filter.2 ⟨hh.mem d a ha, by simpa using hd⟩
    · have ha' : a ∈ (w.comps d).waits := by
        by_cases hd : d = c
        · subst hd; rw [← show (w'.comps d).waits = (w.comps d).waits from congrArg WC.waits hw]; exact ha
        · rwa [ho d hd] at ha
      have := hh.mem d a ha'
      simpa only [World.inQ, hq] using this
  refine ⟨hmem, fun d _ hs hw => ?_, fun d _ hs hw => ?_⟩
  · by_cases hd : d = c
    · subst hd
      rcases hor with ⟨_, hsc, _⟩ | ⟨_, _, hwc, _⟩
      · rw [hsc] at hs; cases hs
      · rw [local_congr hwc]; exact hl
    · simp only [World.status, ho d hd] at hs hw ⊢
      exact hh.dep d (by simpa using hd) hs hw
  · by_cases hd : d = c
    · subst hd
      rcases hor with ⟨_, hsc, _⟩ | ⟨hn, _, hwc, _⟩
      · rw [hsc] at hs; cases hs
      · rw [met_congr hwc, hst]; exact hn
    · simp only [World.status, ho d hd] at hs hw ⊢
      rw [hst]
      exact hh.miss d (by simpa using hd) hs hw

theorem Grown.heard {c : CId} {l : List Wait} {w w' : World} (h : Grown c l w w') (hh : Heard {c} {c} w) : Heard {c} {c} w' := by
  refine ⟨fun d a ha => ?_, fun d hd hs hw => ?_, fun d hd hs hw => ?_⟩
  · by_cases hd : d = c
    · subst hd
      rw [h.self] at ha
      rcases List.mem_append.1 ha with ha | ha
      · exact h.sub _ _ (hh.mem d a ha)
      · exact h.mem (hh.mem d) a ha
    · rw [h.other d hd] at ha
      exact h.sub _ _ (hh.mem d a ha)
  · have hdc : d ≠ c := by simpa using hd
    simp only [World.status, h.other d hdc] at hs hw ⊢
    exact hh.dep d hd hs hw
  · have hdc : d ≠ c := by simpa using hd
    simp only [World.status, h.other d hdc] at hs hw ⊢
    rw [h.states]
    exact hh.miss d hd hs hw

/-- changes of the component that is exempted -/
theorem Heard.except {c : CId} {w : World} (h : Heard {c} {c} w) {f : Comp → Comp} (hf : ∀ x, (f x).waits = x.waits) (hs : ∀ x, (f x).status = x.status) :
    Heard {c} {c} (w.modC c f) := by
  refine h.of (fun x => ?_) (fun x _ s hx => hx) rfl (fun x hx _ => ?_)
  · left; simp only [World.modC]; split
    · rename_i hx; rw [hx]; exact hf _
    · rfl
  · by_cases hxc : x = c
    · subst hxc
      simp only [World.status, modC_self, hs] at hx
      exact ⟨hx, .inl ⟨by simp, by simp⟩⟩
    · simp only [World.status, modC_other hxc] at hx ⊢
      exact ⟨hx, .inr (by simp)⟩

theorem Heard.weaken {d m d' m' : Set CId} {w : World} (h : Heard d m w) (h1 : d ⊆ d') (h2 : m ⊆ m') : Heard d' m' w :=
  ⟨h.mem, fun c hc => h.dep c fun hm => hc (h1 hm), fun c hc => h.miss c fun hm => hc (h2 hm)⟩

/-- the state of affairs when the condition is going to be tested -/
structure WaitStart (c : CId) (x : List Wait) (w w' : World) : Prop where
  good : Good {c} w'
  off : (w'.comps c).onList = false
  waits : (w'.comps c).waits = x
  status : w'.status c = w.status c
  states : w'.states = w.states
  now : w'.now = w.now
  other : ∀ d, d ≠ c → w'.comps d = w.comps d

theorem base_states (σ : SId → Val) : Base (fun w => w.states = σ) := by
  refine ⟨fun h _ _ h3 => h3.trans h, fun _ _ h _ _ => h, fun _ h _ => h, fun _ _ _ h => h, ?_, ?_, ?_⟩
  · intro w w' c h hf
    unfold checkFailWait at hf
    split at hf
    · cases hf; exact h
    · obtain ⟨w1, h1, h2⟩ := andThen_ok hf
      have g := forR_gone (fun _ _ _ => leaveWaiters_gone) _ h1
      cases h2
      exact g.states.trans h
  · intro w w' c h hf
    unfold checkFailFrom at hf
    split at hf
    · cases hf; exact h
    · obtain ⟨w1, h1, h2⟩ := andThen_ok hf
      have g := forR_gone (K := QRef.isFrom) (fun s _ _ h => leaveQ_gone (by trivial) h) _ h1
      cases h2
      exact g.states.trans h
  · intro w w' c h hf
    unfold checkFailTo at hf
    split at hf
    · cases hf; exact h
    · obtain ⟨w1, h1, h2⟩ := andThen_ok hf
      have g := forR_gone (K := QRef.isTo) (fun s _ _ h => leaveQ_gone (by trivial) h) _ h1
      cases h2
      exact g.states.trans h

theorem base_cond (c : CId) (f) : Base (fun w => (w.comps c).cond = f) := by
  have modc : ∀ (w : World) (d : CId) (g : Comp → Comp), (∀ x, (g x).cond = x.cond) → ((w.modC d g).comps c).cond = (w.comps c).cond := by
    intro w d g hg
    simp only [World.modC]
    split
    · rename_i h; rw [h]; exact hg _
    · rfl
  refine ⟨fun h h1 _ _ => by rw [h1]; exact h, fun d g h h1 _ => (modc _ _ _ fun x => congrArg WC.cond (h1 x)).trans h, fun _ h _ => h, fun _ _ _ h => h, ?_, ?_, ?_⟩
  · intro w w' d h hf
    unfold checkFailWait at hf
    split at hf
    · cases hf; exact h
    · obtain ⟨w1, h1, h2⟩ := andThen_ok hf
      have g := forR_gone (fun _ _ _ => leaveWaiters_gone) _ h1
      cases h2
      rw [modc _ _ _ (by intro _; rfl), g.comps]; exact h
  · intro w w' d h hf
    unfold checkFailFrom at hf
    split at hf
    · cases hf; exact h
    · obtain ⟨w1, h1, h2⟩ := andThen_ok hf
      have g := forR_gone (K := QRef.isFrom) (fun s _ _ h => leaveQ_gone (by trivial) h) _ h1
      cases h2
      rw [modc _ _ _ (by intro _; rfl), g.comps]; exact h
  · intro w w' d h hf
    unfold checkFailTo at hf
    split at hf
    · cases hf; exact h
    · obtain ⟨w1, h1, h2⟩ := andThen_ok hf
      have g := forR_gone (K := QRef.isTo) (fun s _ _ h => leaveQ_gone (by trivial) h) _ h1
      cases h2
      rw [modc _ _ _ (by intro _; rfl), g.comps]; exact h

theorem wait_start {w w' : World} {c args a fa fd p u k} (hg : Good ∅ w) (hm : c ≠ w.main)
    (h : wait c args a fa fd p u k w = .ok w') : ∃ w3 t, WaitStart c (args.map fun a => ⟨a.s, a.ok⟩) w w3 ∧ (w3.comps c).cond = none ∧
      (w3.comps c).waitAll = a ∧ failTime w fa fd = some t ∧ waitEnd c t p u k w3 = .ok w' ∧ (Heard ∅ ∅ w → Heard {c} {c} w3) := by
  unfold wait at h
  have g0 : Good ∅ (w.modC c (fun x => { x with cond := none })) :=
    hg.modC' (fun _ => rfl) (fun _ => rfl) (fun _ => rfl) (fun _ => rfl) (fun _ => rfl)
  obtain ⟨w1, h1, h2⟩ := andThen_ok h
  obtain ⟨s1, _⟩ := start_preamble g0 (by simp) h1
  have n1 : w1.now = w.now := s1.now
  have f1 : w1.offset = w.offset := s1.offset
  have st1 : w1.status c = w.status c := by
    rw [s1.status]; simp [World.status, World.modC]
  have c1 : (w1.comps c).cond = none := (bs_preamble (base_cond c none) (w := w.modC c (fun x => { x with cond := none })) (by rw [modC_self]) c).to h1
  have e1 : w1.states = w.states := (bs_preamble (base_states w.states) (w := w.modC c (fun x => { x with cond := none })) rfl c).to h1
  simp only at h2
  rw [failTime_congr (w := w) (by exact n1) (by exact f1)] at h2
  split at h2
  · cases h2
  · rename_i T hT
    obtain ⟨w3, h3, h4⟩ := andThen_ok h2
    have g2 : Good {c} (w1.modC c (fun x => { x with waitAll := a, failed := false })) := by
      have := s1.good.modC' (c := c) (f := fun x => { x with waitAll := a, failed := false }) (fun _ => rfl) (fun _ => rfl) (fun _ => rfl) (fun _ => rfl) (fun _ => rfl)
      simpa using this
    have o2 : ((w1.modC c (fun x => { x with waitAll := a, failed := false })).comps c).onList = false := by rw [modC_self]; exact s1.off
    have m2 : (w1.modC c (fun x => { x with waitAll := a, failed := false })).main = w.main := s1.main
    obtain ⟨i1, i2, i3⟩ := waitArgs_grown args g2 (by rw [m2]; exact hm) o2 h3
    have hs := i1.self
    rw [modC_self] at hs
    refine ⟨w3, T, ⟨i2, i3, ?_, ?_, i1.states.trans e1, i1.now.trans n1, fun d hd => ?_⟩, ?_, ?_, hT, h4, fun hh => ?_⟩
    · rw [hs]
      simp [s1.nowait.wai]
    · rw [World.status, hs]; exact st1
    · rw [i1.other d hd, modC_other hd, s1.other d hd, modC_other hd]
    · rw [hs]; exact c1
    · rw [hs]
    · refine i1.heard (Heard.except ?_ (fun _ => rfl) (fun _ => rfl))
      refine (bs_preamble (heard_base {c} {c}) ?_ c).to h1
      exact Heard.except (hh.weaken (by simp) (by simp)) (fun _ => rfl) (fun _ => rfl)

theorem waitFor_start {w w' : World} {c f ss fa fd p u k} (hg : Good ∅ w) (hm : c ≠ w.main)
    (h : waitFor c f ss fa fd p u k w = .ok w') : ∃ w3 t, WaitStart c (ss.map fun s => ⟨s, fun _ => false⟩) w w3 ∧ (w3.comps c).cond = some f ∧
      failTime w fa fd = some t ∧ waitEnd c t p u k w3 = .ok w' ∧ (Heard ∅ ∅ w → Heard {c} {c} w3) := by
  unfold waitFor at h
  obtain ⟨w1, h1, h2⟩ := andThen_ok h
  obtain ⟨s1, _⟩ := start_preamble hg (by simp) h1
  have n1 : w1.now = w.now := s1.now
  have f1 : w1.offset = w.offset := s1.offset
  have e1 : w1.states = w.states := (bs_preamble (base_states w.states) rfl c).to h1
  simp only at h2
  rw [failTime_congr (w := w) (by exact n1) (by exact f1)] at h2
  split at h2
  · cases h2
  · rename_i T hT
    obtain ⟨w3, h3, h4⟩ := andThen_ok h2
    have g1 : Good {c} w1 := by simpa using s1.good
    have g2 : Good {c} ((w1.modC c (fun x => { x with failed := false })).modC c (fun x => { x with cond := some f })) :=
      (g1.modC' (c := c) (f := fun x => { x with failed := false }) (fun _ => rfl) (fun _ => rfl) (fun _ => rfl) (fun _ => rfl) (fun _ => rfl)).modC'
        (fun _ => rfl) (fun _ => rfl) (fun _ => rfl) (fun _ => rfl) (fun _ => rfl)
    have o2 : (((w1.modC c (fun x => { x with failed := false })).modC c (fun x => { x with cond := some f })).comps c).onList = false := by
      rw [modC_self, modC_self]; exact s1.off
    have m2 : ((w1.modC c (fun x => { x with failed := false })).modC c (fun x => { x with cond := some f })).main = w.main := s1.main
    obtain ⟨i1, i2, i3⟩ := waitForArgs_grown ss g2 (by rw [m2]; exact hm) o2 h3
    have hs := i1.self
    rw [modC_self, modC_self] at hs
    refine ⟨w3, T, ⟨i2, i3, ?_, ?_, i1.states.trans e1, i1.now.trans n1, fun d hd => ?_⟩, ?_, hT, h4, fun hh => ?_⟩
    · rw [hs]
      simp [s1.nowait.wai]
    · rw [World.status, hs]; exact s1.status
    · rw [i1.other d hd, modC_other hd, modC_other hd, s1.other d hd]
    · rw [hs]
    · refine i1.heard (Heard.except (f := fun x => { x with cond := some f }) (Heard.except (f := fun x => { x with failed := false }) ?_ (by intro _; rfl) (by intro _; rfl)) (by intro _; rfl) (by intro _; rfl))
      exact (bs_preamble (heard_base {c} {c}) (hh.weaken (by simp) (by simp)) c).to h1

/-- The restrictions: `wait` and `wait_for` aren't called for a component that is interrupted, and the condition of `wait_for` depends
on the given states, only. -/
def Attentive (w : World) : Op → Prop
  | .wait c .. => w.status c ≠ .interrupted
  | .waitFor c f ss .. => w.status c ≠ .interrupted ∧ ∀ σ τ : SId → Val, (∀ s ∈ ss, σ s = τ s) → f σ = f τ
  | _ => True

theorem exec_heard {w w' : World} {fuel o} (hg : Good ∅ w) (hh : Heard ∅ ∅ w) (hc : Calm fuel w o) (ha : Attentive w o)
    (h : exec fuel o w = .ok w') : Heard ∅ ∅ w' := by
  by_cases hs : match o with | .wait .. | .waitFor .. | .stateSet .. | .stateTrigger .. => False | _ => True
  · exact (exec_sbase (heard_sbase ∅ ∅) hh fuel o hs).to h
  · cases o <;> (first | exact absurd trivial hs | skip) <;> simp only [exec] at h
    · obtain ⟨w3, t, s, c3, _, _, h3, k3⟩ := wait_start hg hc.2.2 h
      exact heard_waitEnd s.good s.off (by rw [s.status]; exact ha) (k3 hh) (local_of_none c3) h3
    · obtain ⟨w3, t, s, c3, _, h3, k3⟩ := waitFor_start hg hc.2.2 h
      refine heard_waitEnd s.good s.off (by rw [s.status]; exact ha.1) (k3 hh) (local_of_some c3 fun σ τ hst => ha.2 σ τ fun x hx => ?_) h3
      refine hst ⟨x, fun _ => false⟩ ?_
      rw [s.waits]
      exact List.mem_map_of_mem hx
    · exact heard_stateSet hg hh h
    · exact heard_stateTrigger hg hh h

theorem Fresh.heard {w : World} (h : Fresh w) : Heard ∅ ∅ w := by
  have hw : ∀ c, (w.comps c).waits = [] := by
    intro c
    obtain ⟨b, hb⟩ := h.comps c
    rw [hb]
  exact ⟨fun c a ha => (by rw [hw] at ha; cases ha), fun c _ _ h0 => absurd (hw c) h0, fun c _ _ h0 => absurd (hw c) h0⟩

/-- calm histories in which no component is told to wait while it is interrupted -/
def CalmW (fuel : Nat) (w : World) (o : Op) : Prop := Calm fuel w o ∧ Attentive w o

theorem Reach.calmOf {w : World} (h : Reach CalmW w) : Reach Calm w := by
  induction h with
  | init hf => exact .init hf
  | op fuel o _ ho ih => exact .op fuel o ih ho.1

theorem Reach.heard {w : World} (h : Reach CalmW w) : Heard ∅ ∅ w := by
  induction h with
  | init hf => exact hf.heard
  | op fuel o hr ho ih =>
    obtain ⟨w', hw'⟩ := ho.1.1
    rw [hw']
    exact exec_heard hr.calmOf.good ih ho.1 ho.2 hw'

end Verif
