import Verif.Flow2
import Verif.Props.Resources

/-!
# Those who wait are in the queues

A component that waits to get an item from, or to put one into, stores is in the queues of all these stores, so that giving up is
always possible.
-/

namespace Verif
open World

/-- `F` and `T` are the components that are exempted -/
structure Enr (F T : Set CId) (w : World) : Prop where
  fnd : ∀ c, c ∉ F → (w.comps c).fromStores.Nodup
  frm : ∀ c, c ∉ F → ∀ s ∈ (w.comps c).fromStores, c ∈ w.inQ (.fromReq s)
  tnd : ∀ c, c ∉ T → (w.comps c).toStores.Nodup
  tos : ∀ c, c ∉ T → ∀ s ∈ (w.comps c).toStores, c ∈ w.inQ (.toReq s)

theorem Enr.of {F T F' T' : Set CId} {w w' : World} (h : Enr F T w)
    (h1 : ∀ c, c ∉ F' → (w'.comps c).fromStores = [] ∨ (c ∉ F ∧ (w'.comps c).fromStores = (w.comps c).fromStores ∧
      ∀ s, c ∈ w.inQ (.fromReq s) → c ∈ w'.inQ (.fromReq s)))
    (h2 : ∀ c, c ∉ T' → (w'.comps c).toStores = [] ∨ (c ∉ T ∧ (w'.comps c).toStores = (w.comps c).toStores ∧
      ∀ s, c ∈ w.inQ (.toReq s) → c ∈ w'.inQ (.toReq s))) : Enr F' T' w' := by
  refine ⟨fun c hc => ?_, fun c hc s hs => ?_, fun c hc => ?_, fun c hc s hs => ?_⟩
  · rcases h1 c hc with h1 | ⟨h0, h1, _⟩ <;> rw [h1]
    · exact List.nodup_nil
    · exact h.fnd c h0
  · rcases h1 c hc with h1 | ⟨h0, h1, h3⟩ <;> rw [h1] at hs
    · cases hs
    · exact h3 s (h.frm c h0 s hs)
  · rcases h2 c hc with h1 | ⟨h0, h1, _⟩ <;> rw [h1]
    · exact List.nodup_nil
    · exact h.tnd c h0
  · rcases h2 c hc with h1 | ⟨h0, h1, h3⟩ <;> rw [h1] at hs
    · cases hs
    · exact h3 s (h.tos c h0 s hs)

theorem Enr.keep {F T : Set CId} {w w' : World} (h : Enr F T w) (h1 : ∀ c, (w'.comps c).fromStores = (w.comps c).fromStores)
    (h2 : ∀ c, (w'.comps c).toStores = (w.comps c).toStores) (h3 : ∀ s c, c ∈ w.inQ (.fromReq s) → c ∈ w'.inQ (.fromReq s))
    (h4 : ∀ s c, c ∈ w.inQ (.toReq s) → c ∈ w'.inQ (.toReq s)) : Enr F T w' :=
  h.of (fun c hc => .inr ⟨hc, h1 c, fun s => h3 s c⟩) (fun c hc => .inr ⟨hc, h2 c, fun s => h4 s c⟩)

theorem Enr.modC {F T : Set CId} {w : World} (h : Enr F T w) (c : CId) {f : Comp → Comp}
    (h1 : ∀ x, (f x).fromStores = x.fromStores := by intro _; rfl) (h2 : ∀ x, (f x).toStores = x.toStores := by intro _; rfl) : Enr F T (w.modC c f) := by
  refine h.keep (fun d => ?_) (fun d => ?_) (fun _ _ h => h) (fun _ _ h => h)
  · by_cases hd : d = c
    · subst hd; rw [modC_self, h1]
    · rw [modC_other hd]
  · by_cases hd : d = c
    · subst hd; rw [modC_self, h2]
    · rw [modC_other hd]

theorem Enr.modQ {F T : Set CId} {w : World} (h : Enr F T w) {q : QRef} (f) (h1 : ∀ s, q ≠ .fromReq s) (h2 : ∀ s, q ≠ .toReq s) :
    Enr F T (w.modQ q f) :=
  h.keep (fun _ => rfl) (fun _ => rfl) (fun s c hc => by rw [inQ_modQ', if_neg (h1 s).symm]; exact hc)
    (fun s c hc => by rw [inQ_modQ', if_neg (h2 s).symm]; exact hc)

theorem Enr.onQueue {F T : Set CId} {w : World} (h : Enr F T w) {q : QRef} (f) (h1 : ∀ s, q ≠ .fromReq s) (h2 : ∀ s, q ≠ .toReq s) :
    Po (Enr F T) (onQueue q f w) := by
  unfold Verif.onQueue
  split
  · exact h.modQ _ h1 h2
  · trivial

/-- giving up from_store -/
theorem Enr.giveFrom {F T : Set CId} {w w' : World} {c : CId} {f : Comp → Comp} (h : Enr F T w) (h1 : Gone QRef.isFrom c w w')
    (hf : ∀ x, (f x).fromStores = []) (hf2 : ∀ x, (f x).toStores = x.toStores) : Enr F T (w'.modC c f) := by
  refine h.of (fun d hd => ?_) (fun d hd => .inr ⟨hd, ?_, fun s hs => ?_⟩)
  · by_cases hdc : d = c
    · subst hdc; left; rw [modC_self, hf]
    · right
      rw [modC_other hdc, h1.comps]
      exact ⟨hd, rfl, fun s hs => (h1.other _ _ hdc).2 hs⟩
  · by_cases hdc : d = c
    · subst hdc; rw [modC_self, hf2, h1.comps]
    · rw [modC_other hdc, h1.comps]
  · show d ∈ w'.inQ _
    rw [h1.rest _ (by intro h; exact h)]; exact hs

/-- giving up to_store -/
theorem Enr.giveTo {F T : Set CId} {w w' : World} {c : CId} {f : Comp → Comp} (h : Enr F T w) (h1 : Gone QRef.isTo c w w')
    (hf : ∀ x, (f x).toStores = []) (hf2 : ∀ x, (f x).fromStores = x.fromStores) : Enr F T (w'.modC c f) := by
  refine h.of (fun d hd => .inr ⟨hd, ?_, fun s hs => ?_⟩) (fun d hd => ?_)
  · by_cases hdc : d = c
    · subst hdc; rw [modC_self, hf2, h1.comps]
    · rw [modC_other hdc, h1.comps]
  · show d ∈ w'.inQ _
    rw [h1.rest _ (by intro h; exact h)]; exact hs
  · by_cases hdc : d = c
    · subst hdc; left; rw [modC_self, hf]
    · right
      rw [modC_other hdc, h1.comps]
      exact ⟨hd, rfl, fun s hs => (h1.other _ _ hdc).2 hs⟩

theorem gone_from {c : CId} {l : List StId} {w w' : World} (h : forR l (fun s0 => leaveQ c (.fromReq s0)) w = .ok w') : Gone QRef.isFrom c w w' :=
  forR_gone (fun _ _ _ h => leaveQ_gone (by trivial) h) _ h
theorem gone_to {c : CId} {l : List StId} {w w' : World} (h : forR l (fun s0 => leaveQ c (.toReq s0)) w = .ok w') : Gone QRef.isTo c w w' :=
  forR_gone (fun _ _ _ h => leaveQ_gone (by trivial) h) _ h

theorem enr_base (F T : Set CId) : Base (Enr F T) := by
  refine ⟨?_, ?_, ?_, ?_, ?_, ?_, ?_⟩
  · intro w w' h h1 h2 _
    exact h.keep (fun c => by rw [h1]) (fun c => by rw [h1]) (fun s c hc => by simpa only [World.inQ, h2] using hc)
      (fun s c hc => by simpa only [World.inQ, h2] using hc)
  · intro w c f h h1 _
    exact h.modC c (fun x => congrArg WC.fromStores (h1 x)) (fun x => congrArg WC.toStores (h1 x))
  · intro w q f h hq
    exact h.modQ f (by rintro s rfl; cases hq) (by rintro s rfl; cases hq)
  · intro w q _ _ h
    refine h.keep (fun _ => rfl) (fun _ => rfl) (fun s c hc => ?_) (fun s c hc => ?_) <;>
    · rw [inQ_modQ']
      split
      · rename_i hs; subst hs; exact hc
      · exact hc
  · intro w w' c h hf
    unfold checkFailWait at hf
    split at hf
    · cases hf; exact h
    · obtain ⟨w1, h1, h2⟩ := andThen_ok hf
      have hq := fun q (hq : ∀ s, q ≠ .waiters s) => forR_queues (q := q) (fun a w w' h => leaveWaiters_queues h q (by exact hq)) _ h1
      have g := forR_gone (fun _ _ _ => leaveWaiters_gone) _ h1
      cases h2
      refine Enr.modC (h.keep (fun d => by rw [g.comps]) (fun d => by rw [g.comps]) (fun s d hd => ?_) (fun s d hd => ?_)) c
      · rw [World.inQ, hq _ (by simp)]; exact hd
      · rw [World.inQ, hq _ (by simp)]; exact hd
  · intro w w' c h hf
    unfold checkFailFrom at hf
    split at hf
    · cases hf; exact h
    · obtain ⟨w1, h1, h2⟩ := andThen_ok hf
      cases h2
      exact h.giveFrom (gone_from h1) (fun _ => rfl) (fun _ => rfl)
  · intro w w' c h hf
    unfold checkFailTo at hf
    split at hf
    · cases hf; exact h
    · obtain ⟨w1, h1, h2⟩ := andThen_ok hf
      cases h2
      exact h.giveTo (gone_to h1) (fun _ => rfl) (fun _ => rfl)

/-! ## waiting for states -/

section
variable {F T : Set CId}

theorem enr_tryWait {w : World} (h : Enr F T w) (c) : Po (Enr F T) (tryWait c w).1 := by
  unfold tryWait
  split
  · exact h
  · split
    · refine (Po.forR (fun x w h => ?_) _ _ h).andThen fun w h => bs_wake (enr_base F T) (h.modC c) _ _
      unfold leaveWaiters
      split
      · exact h.onQueue _ (by simp) (by simp)
      · exact h
    · exact h

theorem enr_stateTryWait : ∀ (l : List CId) (mx) {w : World}, Enr F T w → Po (Enr F T) (stateTryWait l mx w)
  | [], mx, w, h => h
  | c :: t, mx, w, h => by
    unfold stateTryWait
    simp only
    refine (enr_tryWait h c).andThen fun w h => ?_
    split
    · split
      · exact h
      · exact enr_stateTryWait t _ h
    · exact enr_stateTryWait t _ h

theorem enr_waitEnd {w : World} (h : Enr F T w) (c t p u k) : Po (Enr F T) (waitEnd c t p u k w) := by
  unfold waitEnd
  split
  · trivial
  · simp only
    refine (enr_tryWait (h.modC c) c).andThen fun w h => ?_
    split
    · exact h
    · exact bs_reschedule (enr_base F T) (w := setStatus c .waiting w) (h.modC c) _ _ _ _ _ _

theorem Enr.setState {w : World} (h : Enr F T w) (s v) : Enr F T (w.setState s v) := h.keep (fun _ => rfl) (fun _ => rfl) (fun _ _ h => h) (fun _ _ h => h)

/-! ## stores -/

theorem PutIn.enr {i s} {w w' : World} (h : Enr F T w) (k : PutIn i s w w') : Enr F T w' := by
  obtain ⟨_, _, _, _, _, rfl⟩ := k; exact h.modQ _ (by simp) (by simp)
theorem OutOf.enr {i s} {w w' : World} (h : Enr F T w) (k : OutOf i s w w') : Enr F T w' := by
  obtain ⟨_, _, _, _, _, rfl⟩ := k; exact h.modQ _ (by simp) (by simp)

theorem enr_storeLeave {w w' : World} {fuel i s} (h : Enr F T w) (h1 : storeLeave fuel i s w = .ok w') : Enr F T w' := by
  obtain ⟨w1, k1, k2⟩ := storeLeave_exact h1
  have e1 := k1.enr h
  rcases k2 with ⟨rfl, _⟩ | ⟨m, y, _, _, _, _, _, w2, w3, w4, k2, k3, k4, rfl⟩
  · exact e1
  · have e3 := (k2.enr e1).giveTo (gone_to k3) (f := fun x => { x with toStores := [] }) (fun _ => rfl) (fun _ => rfl)
    exact ((bs_wake (enr_base F T) e3 _ _).to k4).modC _

theorem enr_storeEnter {w w' : World} {fuel i s p} (h : Enr F T w) (h1 : storeEnter fuel i s p w = .ok w') : Enr F T w' := by
  obtain ⟨w1, k1, k2⟩ := storeEnter_exact h1
  have e1 := k1.enr h
  rcases k2 with ⟨_, rfl⟩ | ⟨m, w2, w3, _, k2, k3, k4⟩
  · exact e1
  · have e3 := (enr_storeLeave e1 k2).giveFrom (gone_from k3) (f := fun x => { x with fromStores := [], fromItem := some i }) (fun _ => rfl) (fun _ => rfl)
    exact (bs_wake (enr_base F T) e3 _ _).to k4

theorem enr_fromStore {w : World} (h : Enr F T w) (fuel c ss f k rp fa fd p u cp) : Po (Enr F T) (fromStore fuel c ss f k rp fa fd p u cp w) := by
  unfold fromStore
  split
  · trivial
  · rename_i hss
    push Not at hss
    refine (bs_preamble (enr_base F T) h _).andThen fun w h => ?_
    split
    · trivial
    · simp only
      split
      · exact (Po.of fun w' h1 => enr_storeLeave (h.modC c) h1).andThen fun w h => bs_wake (enr_base F T) (h.modC c) _ _
      · refine Po.andThen (P := Enr F T) (Po.of fun w1 h1 => ?_) fun w h => bs_reschedule (enr_base F T) (h.modC c) _ _ _ _ _ _
        obtain ⟨k1, k2, k3⟩ := enters_all (K := fun s => .fromReq s) ss h1
        have h2 := h.modC c (f := fun x => { x with failed := false })
        generalize w.modC c (fun x => { x with failed := false }) = w2 at h2 k1 k3
        refine ⟨fun d hd => ?_, fun d hd s hs => ?_, fun d hd => ?_, fun d hd s hs => ?_⟩ <;> rw [k3] at * <;> by_cases hdc : d = c
        · subst hdc; rw [modC_self]; exact hss.1
        · rw [modC_other hdc]; exact h2.fnd d hd
        · subst hdc; rw [modC_self] at hs; exact k2 s hs
        · rw [modC_other hdc] at hs; exact k1 _ _ (h2.frm d hd s hs)
        · subst hdc; rw [modC_self]; exact h2.tnd d hd
        · rw [modC_other hdc]; exact h2.tnd d hd
        · subst hdc; rw [modC_self] at hs; exact k1 _ _ (h2.tos d hd s hs)
        · rw [modC_other hdc] at hs; exact k1 _ _ (h2.tos d hd s hs)

theorem enr_toStore {w : World} (h : Enr F T w) (fuel c ss i rp sp fa fd p u cp) : Po (Enr F T) (toStore fuel c ss i rp sp fa fd p u cp w) := by
  unfold toStore
  split
  · trivial
  · rename_i hss
    push Not at hss
    refine (bs_preamble (enr_base F T) h _).andThen fun w h => ?_
    split
    · trivial
    · simp only
      split
      · refine (Po.of fun w' h1 => enr_storeEnter (h.modC c) h1).andThen fun w h => bs_wake (enr_base F T) ?_ _ _
        exact h.giveTo (.refl _ _ _) (fun _ => rfl) (fun _ => rfl)
      · refine Po.of fun w' h1 => ?_
        obtain ⟨w1, h1, h3⟩ := andThen_ok h1
        obtain ⟨k1, k2, k3⟩ := enters_all (K := fun s => .toReq s) ss h1
        have h2 := h.modC c (f := fun x => { x with failed := false })
        generalize w.modC c (fun x => { x with failed := false }) = w2 at h2 k1 k3
        refine (bs_reschedule (enr_base F T) (w := w1.modC c (fun x => { x with status := .requesting, toItem := some i, toPrio := sp, toStores := ss }))
          ?_ _ _ _ _ _ _).to h3
        refine ⟨fun d hd => ?_, fun d hd s hs => ?_, fun d hd => ?_, fun d hd s hs => ?_⟩ <;> by_cases hdc : d = c
        · subst hdc; rw [modC_self, k3]; exact h2.fnd d hd
        · rw [modC_other hdc, k3]; exact h2.fnd d hd
        · subst hdc; rw [modC_self, k3] at hs; exact k1 _ _ (h2.frm d hd s hs)
        · rw [modC_other hdc, k3] at hs; exact k1 _ _ (h2.frm d hd s hs)
        · subst hdc; rw [modC_self]; exact hss.1
        · rw [modC_other hdc, k3]; exact h2.tnd d hd
        · subst hdc; rw [modC_self] at hs; exact k2 s hs
        · rw [modC_other hdc, k3] at hs; exact k1 _ _ (h2.tos d hd s hs)

/-- exempting a component that has left its queues -/
theorem Enr.exemptF {w w' : World} {c : CId} (h : Enr F T w) (h1 : Gone QRef.isFrom c w w') : Enr (insert c F) T w' := by
  refine h.of (fun d hd => .inr ?_) (fun d hd => .inr ⟨hd, by rw [h1.comps], fun s hs => by rw [h1.rest _ (by intro h; exact h)]; exact hs⟩)
  rw [Set.mem_insert_iff, not_or] at hd
  exact ⟨hd.2, by rw [h1.comps], fun s hs => (h1.other _ _ hd.1).2 hs⟩
theorem Enr.exemptT {w w' : World} {c : CId} (h : Enr F T w) (h1 : Gone QRef.isTo c w w') : Enr F (insert c T) w' := by
  refine h.of (fun d hd => .inr ⟨hd, by rw [h1.comps], fun s hs => by rw [h1.rest _ (by intro h; exact h)]; exact hs⟩) (fun d hd => .inr ?_)
  rw [Set.mem_insert_iff, not_or] at hd
  exact ⟨hd.2, by rw [h1.comps], fun s hs => (h1.other _ _ hd.1).2 hs⟩
theorem Enr.admitF {w : World} {c : CId} {f : Comp → Comp} (h : Enr (insert c F) T w) (hf : ∀ x, (f x).fromStores = [])
    (hf2 : ∀ x, (f x).toStores = x.toStores) : Enr F T (w.modC c f) := by
  refine h.of (fun d hd => ?_) (fun d hd => .inr ⟨hd, ?_, fun s hs => hs⟩)
  · by_cases hdc : d = c
    · subst hdc; left; rw [modC_self, hf]
    · right; rw [modC_other hdc]; exact ⟨by simp [hdc, hd], rfl, fun s hs => hs⟩
  · by_cases hdc : d = c
    · subst hdc; rw [modC_self, hf2]
    · rw [modC_other hdc]
theorem Enr.admitT {w : World} {c : CId} {f : Comp → Comp} (h : Enr F (insert c T) w) (hf : ∀ x, (f x).toStores = [])
    (hf2 : ∀ x, (f x).fromStores = x.fromStores) : Enr F T (w.modC c f) := by
  refine h.of (fun d hd => .inr ⟨hd, ?_, fun s hs => hs⟩) (fun d hd => ?_)
  · by_cases hdc : d = c
    · subst hdc; rw [modC_self, hf2]
    · rw [modC_other hdc]
  · by_cases hdc : d = c
    · subst hdc; left; rw [modC_self, hf]
    · right; rw [modC_other hdc]; exact ⟨by simp [hdc, hd], rfl, fun s hs => hs⟩

theorem enr_rescan {w : World} (h : Enr F T w) (fuel s) : Po (Enr F T) (rescan fuel s w) := by
  refine Po.forR (fun c w h => ?_) _ _ h
  split
  · refine Po.forR (fun i w h => ?_) _ _ h
    unfold rescanItems
    split
    · refine Po.of fun w' h1 => ?_
      obtain ⟨w1, k1, h1⟩ := andThen_ok h1
      obtain ⟨w2, k2, h1⟩ := andThen_ok h1
      have e3 := (enr_storeLeave (h.exemptF (gone_from k1)) k2).admitF (f := fun x => { x with fromItem := some i, fromStores := [] }) (fun _ => rfl) (fun _ => rfl)
      exact (bs_wake (enr_base F T) e3 _ _).to h1
    · exact h
  · exact h

theorem enr_rescanTo (fuel s) : ∀ (l : List CId) {w : World}, Enr F T w → Po (Enr F T) (rescanTo fuel s l w)
  | [], w, h => h
  | c :: t, w, h => by
    unfold rescanTo
    split
    · split
      · refine Po.of fun w' h1 => ?_
        obtain ⟨w1, k1, h1⟩ := andThen_ok h1
        split at h1
        · cases h1
        · obtain ⟨w2, k2, h1⟩ := andThen_ok h1
          obtain ⟨w3, k3, h1⟩ := andThen_ok h1
          have e2 := (enr_storeEnter (h.exemptT (gone_to k1)) k2).admitT (f := fun x => { x with toStores := [] }) (fun _ => rfl) (fun _ => rfl)
          have e3 := (bs_wake (enr_base F T) e2 _ _).to k3
          exact (enr_rescanTo fuel s t (e3.modC c)).to h1
      · exact h
    · exact enr_rescanTo fuel s t h

theorem exec_enr {w : World} (h : Enr F T w) (fuel o) : Po (Enr F T) (exec fuel o w) := by
  have S := enr_base F T
  by_cases hs : o.special = false
  · exact exec_base S h fuel o hs
  · cases o <;> simp [Op.special] at hs <;> simp only [exec]
    · unfold wait
      refine (bs_preamble S (h.modC _) _).andThen fun w h => ?_
      simp only
      split
      · trivial
      · refine (Po.forR (fun a w h => ?_) _ _ (h.modC _)).andThen fun w h => enr_waitEnd h _ _ _ _ _
        unfold waitArg
        refine Po.andThen ?_ fun w h => Po.ok (h.modC _)
        split
        · exact h
        · split
          · exact h.onQueue _ (by simp) (by simp)
          · exact h.onQueue _ (by simp) (by simp)
    · unfold waitFor
      refine (bs_preamble S h _).andThen fun w h => ?_
      simp only
      split
      · trivial
      · refine (Po.forR (fun a w h => ?_) _ _ ((h.modC _).modC _)).andThen fun w h => enr_waitEnd h _ _ _ _ _
        exact (h.modC _).onQueue _ (by simp) (by simp)
    · unfold stateSet
      split
      · exact h
      · exact enr_stateTryWait _ _ (h.setState _ _)
    · unfold stateTrigger
      exact (enr_stateTryWait _ _ (h.setState _ _)).andThen fun w h => enr_stateTryWait _ _ (h.setState _ _)
    · exact enr_fromStore h _ _ _ _ _ _ _ _ _ _ _
    · exact enr_toStore h _ _ _ _ _ _ _ _ _ _ _
    · exact enr_rescan h _ _
    · unfold storeSetCapacity
      simp only
      split
      · exact enr_rescanTo _ _ _ (h.modQ _ (by simp) (by simp))
      · exact Po.ok (h.modQ _ (by simp) (by simp))
    · exact Po.of fun w' h1 => enr_storeEnter h h1
    · exact Po.of fun w' h1 => enr_storeLeave h h1
    · exact (bs_releaseAll S h _ _).andThen fun w h => Po.ok (h.modC _)

end

theorem Reach.enr {w : World} (h : Reach Calm w) : Enr ∅ ∅ w := by
  induction h with
  | init hf =>
    have hc : ∀ c, (_ : World).comps c = _ := fun c => (hf.comps c).choose_spec
    refine ⟨fun c _ => ?_, fun c _ s hs => ?_, fun c _ => ?_, fun c _ s hs => ?_⟩
    · rw [hc]; exact List.nodup_nil
    · rw [hc] at hs; cases hs
    · rw [hc]; exact List.nodup_nil
    · rw [hc] at hs; cases hs
  | op fuel o _ ho ih =>
    obtain ⟨⟨w', hw⟩, _⟩ := ho
    rw [hw]
    exact (exec_enr ih fuel o).to hw

/-! ## the queues in which components wait for states and stores have no capacity -/

def QRef.hall : QRef → Bool
  | .waiters _ | .fromReq _ | .toReq _ => true
  | _ => false

def Wide (w : World) : Prop := ∀ q : QRef, q.hall = true → (w.queues q).cap = ⊤

theorem Wide.modQ {w : World} (h : Wide w) {q : QRef} {f : Queue → Queue} (hf : q.hall = true → (f (w.queues q)).cap = (w.queues q).cap) : Wide (w.modQ q f) := by
  intro p hp
  by_cases hpq : p = q
  · subst hpq; simp only [World.modQ, if_true]; rw [hf hp]; exact h p hp
  · simp only [World.modQ, if_neg hpq]; exact h p hp
theorem Wide.on {w : World} (h : Wide w) {q : QRef} {f} (hf : ∀ q', f (w.queues q) = .ok q' → q'.cap = (w.queues q).cap) : Po Wide (onQueue q f w) := by
  unfold onQueue
  split
  · rename_i q' hq; exact h.modQ fun _ => hf q' hq
  · trivial
theorem Wide.leave {w : World} (h : Wide w) (c q) : Po Wide (leaveQ c q w) :=
  h.on fun q' hq => by obtain ⟨_, _, _, hl⟩ := Queue.leave_ok hq; rw [hl.eq]
theorem Wide.enter {w : World} (h : Wide w) (c q p) : Po Wide (enterSortedQ c q p w) :=
  h.on fun q' hq => by obtain ⟨_, _, _, hl, _⟩ := Queue.enterSorted_ok hq; rw [hl.eq]
theorem Wide.leaveW {w : World} (h : Wide w) (c x) : Po Wide (leaveWaiters c x w) := by
  unfold leaveWaiters
  split
  · exact h.leave _ _
  · exact h

theorem wide_base : Base Wide := by
  refine ⟨?_, ?_, ?_, ?_, ?_, ?_, ?_⟩
  · intro w w' h _ h2 _ q hq
    rw [h2]; exact h q hq
  · intro w c f h _ _ q hq; exact h q hq
  · intro w q f h hq; exact h.modQ fun hh => by cases q <;> simp [QRef.nw, QRef.hall] at hq hh
  · intro w q _ _ h; exact h.modQ fun _ => rfl
  · intro w w' c h hf
    unfold checkFailWait at hf
    split at hf
    · cases hf; exact h
    · obtain ⟨w1, h1, h2⟩ := andThen_ok hf
      have e1 := (Po.forR (P := Wide) (fun x w h => h.leaveW c x) _ _ h).to h1
      cases h2
      exact e1
  · intro w w' c h hf
    unfold checkFailFrom at hf
    split at hf
    · cases hf; exact h
    · obtain ⟨w1, h1, h2⟩ := andThen_ok hf
      have e1 := (Po.forR (P := Wide) (fun x w h => h.leave c (.fromReq x)) _ _ h).to h1
      cases h2
      exact e1
  · intro w w' c h hf
    unfold checkFailTo at hf
    split at hf
    · cases hf; exact h
    · obtain ⟨w1, h1, h2⟩ := andThen_ok hf
      have e1 := (Po.forR (P := Wide) (fun x w h => h.leave c (.toReq x)) _ _ h).to h1
      cases h2
      exact e1

theorem wide_tryWait {w : World} (h : Wide w) (c) : Po Wide (tryWait c w).1 := by
  unfold tryWait
  split
  · exact h
  · split
    · exact (Po.forR (fun x w h => h.leaveW c x) _ _ h).andThen fun w h => bs_wake wide_base (show Wide (w.modC c _) from h) _ _
    · exact h

theorem wide_stateTryWait : ∀ (l : List CId) (mx) {w : World}, Wide w → Po Wide (stateTryWait l mx w)
  | [], mx, w, h => h
  | c :: t, mx, w, h => by
    unfold stateTryWait
    simp only
    refine (wide_tryWait h c).andThen fun w h => ?_
    split
    · split
      · exact h
      · exact wide_stateTryWait t _ h
    · exact wide_stateTryWait t _ h

theorem wide_waitArg {w : World} (h : Wide w) (c a) : Po Wide (waitArg c a w) := by
  unfold waitArg
  refine Po.andThen ?_ fun w h => Po.ok (P := Wide) h
  split
  · exact h
  · split
    · exact h.on fun q' hq => by obtain ⟨_, _, _, hl, _⟩ := Queue.enter_ok hq; rw [hl.eq]
    · exact h.enter _ _ _

theorem wide_waitEnd {w : World} (h : Wide w) (c t p u k) : Po Wide (waitEnd c t p u k w) := by
  unfold waitEnd
  split
  · trivial
  · simp only
    refine (wide_tryWait (w := w.modC c _) h c).andThen fun w h => ?_
    split
    · exact h
    · exact bs_reschedule wide_base (w := setStatus c .waiting w) h _ _ _ _ _ _

theorem wide_storeLeave {w w' : World} {fuel i s} (h : Wide w) (h1 : storeLeave fuel i s w = .ok w') : Wide w' := by
  obtain ⟨w1, k1, k2⟩ := storeLeave_exact h1
  have e1 : Wide w1 := by obtain ⟨_, _, _, _, _, rfl⟩ := k1; exact h.modQ (by simp [QRef.hall])
  rcases k2 with ⟨rfl, _⟩ | ⟨m, y, _, _, _, _, _, w2, w3, w4, k2, k3, k4, rfl⟩
  · exact e1
  · have e2 : Wide w2 := by obtain ⟨_, _, _, _, _, rfl⟩ := k2; exact e1.modQ (by simp [QRef.hall])
    have e3 := (Po.forR (P := Wide) (fun x w h => h.leave m.c (.toReq x)) _ _ e2).to k3
    have e4 := (bs_wake wide_base (w := w3.modC m.c (fun x => { x with toStores := [] })) e3 m.c none).to k4
    exact e4

theorem wide_storeEnter {w w' : World} {fuel i s p} (h : Wide w) (h1 : storeEnter fuel i s p w = .ok w') : Wide w' := by
  obtain ⟨w1, k1, k2⟩ := storeEnter_exact h1
  have e1 : Wide w1 := by obtain ⟨_, _, _, _, _, rfl⟩ := k1; exact h.modQ (by simp [QRef.hall])
  rcases k2 with ⟨_, rfl⟩ | ⟨m, w2, w3, _, k2, k3, k4⟩
  · exact e1
  · have e3 := (Po.forR (P := Wide) (fun x w h => h.leave m.c (.fromReq x)) _ _ (wide_storeLeave e1 k2)).to k3
    exact (bs_wake wide_base (w := w3.modC m.c (fun x => { x with fromStores := [], fromItem := some i })) e3 m.c (some i)).to k4

theorem wide_rescanTo (fuel s) : ∀ (l : List CId) {w : World}, Wide w → Po Wide (rescanTo fuel s l w)
  | [], w, h => h
  | c :: t, w, h => by
    unfold rescanTo
    split
    · split
      · refine (Po.forR (fun x w h => h.leave c _) _ _ h).andThen fun w h => ?_
        split
        · trivial
        · refine (Po.of fun w' h1 => wide_storeEnter h h1).andThen fun w h => ?_
          refine (bs_wake wide_base (w := w.modC c _) h _ _).andThen fun w h => ?_
          exact wide_rescanTo fuel s t (w := w.modC c _) h
      · exact h
    · exact wide_rescanTo fuel s t h

theorem exec_wide {w : World} (h : Wide w) (fuel o) : Po Wide (exec fuel o w) := by
  have S := wide_base
  by_cases hs : o.special = false
  · exact exec_base S h fuel o hs
  · cases o <;> simp [Op.special] at hs <;> simp only [exec]
    · unfold wait
      refine (bs_preamble S (w := w.modC _ _) h _).andThen fun w h => ?_
      simp only
      split
      · trivial
      · exact (Po.forR (fun a w h => wide_waitArg h _ _) _ _ (show Wide (w.modC _ _) from h)).andThen fun w h => wide_waitEnd h _ _ _ _ _
    · unfold waitFor
      refine (bs_preamble S h _).andThen fun w h => ?_
      simp only
      split
      · trivial
      · refine (Po.forR (fun a w h => ?_) _ _ (show Wide ((w.modC _ _).modC _ _) from h)).andThen fun w h => wide_waitEnd h _ _ _ _ _
        exact Wide.enter (w := w.modC _ _) h _ _ _
    · unfold stateSet
      split
      · exact h
      · exact wide_stateTryWait _ _ (w := w.setState _ _) h
    · unfold stateTrigger
      exact (wide_stateTryWait _ _ (w := w.setState _ _) h).andThen fun w h => wide_stateTryWait _ _ (w := w.setState _ _) h
    · unfold fromStore
      split
      · trivial
      · refine (bs_preamble S h _).andThen fun w h => ?_
        split
        · trivial
        · simp only
          split
          · exact (Po.of fun w' h1 => wide_storeLeave (w := w.modC _ _) h h1).andThen fun w h => bs_wake S (w := w.modC _ _) h _ _
          · exact (Po.forR (fun x w h => h.enter _ _ _) _ _ (show Wide ((w.modC _ _).modC _ _) from h)).andThen fun w h =>
              bs_reschedule S (w := w.modC _ _) h _ _ _ _ _ _
    · unfold toStore
      split
      · trivial
      · refine (bs_preamble S h _).andThen fun w h => ?_
        split
        · trivial
        · simp only
          split
          · exact (Po.of fun w' h1 => wide_storeEnter (w := w.modC _ _) h h1).andThen fun w h => bs_wake S (w := w.modC _ _) h _ _
          · exact (Po.forR (fun x w h => h.enter _ _ _) _ _ (show Wide (w.modC _ _) from h)).andThen fun w h =>
              bs_reschedule S (w := w.modC _ _) h _ _ _ _ _ _
    · refine Po.forR (fun c w h => ?_) _ _ h
      split
      · refine Po.forR (fun i w h => ?_) _ _ h
        unfold rescanItems
        split
        · refine (Po.forR (fun x w h => h.leave c _) _ _ h).andThen fun w h => ?_
          refine (Po.of fun w' h1 => wide_storeLeave h h1).andThen fun w h => ?_
          exact bs_wake S (w := w.modC c _) h _ _
        · exact h
      · exact h
    · unfold storeSetCapacity
      simp only
      split
      · exact wide_rescanTo _ _ _ (h.modQ (by simp [QRef.hall]))
      · exact Po.ok (h.modQ (by simp [QRef.hall]))
    · exact Po.of fun w' h1 => wide_storeEnter h h1
    · exact Po.of fun w' h1 => wide_storeLeave h h1
    · exact (bs_releaseAll S h _ _).andThen fun w h => Po.ok (P := Wide) h

theorem Reach.wide {w : World} (h : Reach Calm w) : Wide w := by
  induction h with
  | init hf => exact fun q hq => hf.inner q (by cases q <;> simp [QRef.hall] at hq <;> rfl)
  | op fuel o _ ho ih =>
    obtain ⟨⟨w', hw⟩, _⟩ := ho
    rw [hw]
    exact (exec_wide ih fuel o).to hw

/-- every interrupted component was scheduled before -/
theorem Reach.intr {ok} {w : World} (h : Reach ok w) {c : CId} (hs : w.status c = .interrupted) : (w.comps c).intrStatus = .scheduled := by
  induction h with
  | init hf =>
    obtain ⟨b, hb⟩ := hf.comps c
    simp only [World.status, hb] at hs
    split at hs <;> cases hs
  | @op w fuel o hr _ ih =>
    rcases exec_intr hr.inv0 fuel o c hs with h1 | ⟨h1, h2⟩
    · exact h1
    · rw [h2]; exact ih h1

end Verif
