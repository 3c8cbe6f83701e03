import Verif.Props.Stores

/-!
# More room in a store (C55)
-/

namespace Verif
open World

/-- the usual capacities: a whole number, or inf -/
def Whole (k : ETime) : Prop := k = ⊤ ∨ ∃ n : Nat, k = ((n : Rat) : ETime)

/-- the component waits to put this item into this store, and into no other -/
def Brings (w : World) (s : StId) (p y : CId) : Prop := p ∈ w.inQ (.toReq s) ∧ (w.comps p).toStores = [s] ∧ (w.comps p).toItem = some y

/-- a queue with room accepts a new member -/
theorem enterSorted_room {w : World} {s : StId} {y : CId} (p : Rat) (hk : Whole (caps w s)) (hy : y ∉ conts w s) (hr : HasRoom w s) :
    ∃ w', onQueue (.store s) (fun x => x.enterSorted w.now y p) w = .ok w' := by
  unfold onQueue Queue.enterSorted
  simp only
  rw [if_neg (by rw [has_inQ]; exact hy)]
  unfold Queue.insert
  have h : Queue.Room (w.queues (.store s)) := by
    unfold HasRoom at hr
    unfold Queue.Room
    simp only [World.inQ, List.length_map] at hr
    rcases hk with hk | ⟨n, hk⟩
    · rw [show (w.queues (.store s)).cap = ⊤ from hk]; exact le_top
    · rw [show (w.queues (.store s)).cap = ((n : Rat) : ETime) from hk] at hr ⊢
      have := Nat.cast_lt.1 (WithTop.coe_lt_coe.1 hr)
      exact WithTop.coe_le_coe.2 (Nat.cast_le.2 this)
  rw [if_neg ((Queue.room_iff _).1 h)]
  exact ⟨_, rfl⟩

theorem leave_head {w : World} {q : QRef} {c : CId} {t : List CId} (hnd : (w.inQ q).Nodup) (h : w.inQ q = c :: t) :
    ∃ w', leaveQ c q w = .ok w' ∧ w'.inQ q = t := by
  have hc : (w.queues q).has c = true := by rw [has_inQ, h]; simp
  have : ∃ q', (w.queues q).leave w.now c = .ok q' := by
    unfold Queue.leave
    cases hf : (w.queues q).find c with
    | none =>
      unfold Queue.find at hf
      rw [Queue.has_iff] at hc
      obtain ⟨m, h1, h2⟩ := hc
      have := List.find?_eq_none.1 hf m h1
      simp [h2] at this
    | some m => exact ⟨_, rfl⟩
  obtain ⟨q', hq⟩ := this
  refine ⟨w.modQ q (fun _ => q'), by unfold leaveQ onQueue; simp only [hq], ?_⟩
  obtain ⟨l1, l2, x, hx⟩ := Queue.leave_ok hq
  rw [inQ_modQ', if_pos rfl, hx.eq]
  rw [World.inQ, hx.mem] at h hnd
  cases l1 with
  | nil => simp at h ⊢; exact h.2
  | cons a l1 =>
    exfalso
    simp only [List.cons_append, List.map_cons, List.cons.injEq] at h
    simp only [List.cons_append, List.map_cons, List.nodup_cons] at hnd
    exact hnd.1 (by rw [h.1, ← hx.xc]; simp)

/-- the waiting components are served in order, as long as there's room -/
theorem rescanTo_serves {e : Set CId} (n : Nat) (s : StId) : ∀ (l : List CId) (w : World), Good e w → w.inQ (.toReq s) = l → Whole (caps w s) →
    (f : CId → CId) → (∀ p ∈ l, Brings w s p (f p) ∧ f p ∉ conts w s ∧ Unwanted w s (f p)) → (l.map f).Nodup →
    ∃ w' k, rescanTo (n + 1) s l w = .ok w' ∧ k ≤ l.length ∧ w'.inQ (.toReq s) = l.drop k ∧ (k = l.length ∨ ¬ HasRoom w' s) ∧
      (conts w' s).Perm ((l.take k).map f ++ conts w s) ∧ (∀ t, t ≠ s → conts w' t = conts w t) ∧ caps w' = caps w ∧
      (∀ p ∈ l.take k, w'.status p = .scheduled ∧ (w'.comps p).schedTime = (w.now : ETime)) ∧
      (∀ p, p ∉ l.take k → w'.comps p = w.comps p) ∧ w'.now = w.now ∧ Good e w'
  | [], w, hg, hl, hk, f, hp, hnd => ⟨w, 0, rfl, le_rfl, hl, .inl rfl, .refl _, fun _ _ => rfl, rfl, by simp, fun _ _ => rfl, rfl, hg⟩
  | c :: t, w, hg, hl, hk, f, hp, hnd => by
    by_cases hr : HasRoom w s
    · obtain ⟨⟨hc, hs, hi⟩, hy, hw⟩ := hp c (by simp)
      have hndq : (c :: t).Nodup := List.Nodup.of_map _ hnd
      obtain ⟨w1, h1, ht1⟩ := leave_head (by rw [hl]; exact hndq) hl
      have hf1 : forR (w.comps c).toStores (fun s0 => leaveQ c (.toReq s0)) w = .ok w1 := by
        rw [hs]; simp only [forR, h1, R.andThen]
      obtain ⟨c1, n1, e1, q1, cap1, sub1⟩ := leaves_away (K := fun s => .toReq s) _ hf1
      obtain ⟨l1, gone1⟩ := leaveTo_good hg hf1
      have g1 := l1.good hg
      have hst1 : w1.inQ (.store s) = w.inQ (.store s) := by simp only [World.inQ, q1 (.store s) (by simp)]
      have hcap1 : caps w1 s = caps w s := cap1 _
      have hr1 : HasRoom w1 s := by unfold HasRoom; rw [hst1]; rw [show (w1.queues (.store s)).cap = _ from cap1 _]; exact hr
      obtain ⟨w2, h2⟩ := enterSorted_room (y := f c) (w1.comps c).toPrio (by rw [hcap1]; exact hk)
        (show f c ∉ conts w1 s by rw [conts, hst1]; exact hy) hr1
      have put : PutIn (f c) s w1 w2 := putIn_of (p := some (w1.comps c).toPrio) h2
      have hwn : wanted w2 s (f c) = none := by
        rw [put.wanted]
        refine List.find?_eq_none.2 fun m hm => ?_
        have hm' : m.c ∈ w.inQ (.fromReq s) := by
          have : m.c ∈ w1.inQ (.fromReq s) := List.mem_map_of_mem hm
          simpa only [World.inQ, q1 (.fromReq s) (by simp)] using this
        rw [c1, hw m.c hm']; simp
      have hse : storeEnter (n + 1) (f c) s (some (w1.comps c).toPrio) w1 = .ok w2 := by
        unfold storeEnter
        simp only [h2, R.andThen]
        rw [show (w2.queues (.fromReq s)).mem.find? (fun m => (w2.comps m.c).fromFilter (f c)) = none from hwn]
      have g2 : Good e w2 := put.good g1
      have gone2 : ∀ x, c ∉ w2.inQ (.toReq x) := fun x => by
        rw [World.inQ, put.other (by simp)]; exact gone1 x
      obtain ⟨w3, h3, k3⟩ := wake_woken (w := w2.modC c (fun x => { x with toStores := [] })) (inv_of_ev (ev_modC (fun _ => rfl)) g2.inv) c none
      have g4 : Good e (w3.modC c (fun x => { x with toItem := none })) :=
        (wakeTo_good (e' := e) g2 (fun _ _ => Iff.rfl) gone2 h3).1.modC' (fun _ => rfl) (fun _ => rfl) (fun _ => rfl) (fun _ => rfl) (fun _ => rfl)
      have hstep : rescanTo (n + 1) s (c :: t) w = rescanTo (n + 1) s t (w3.modC c (fun x => { x with toItem := none })) := by
        conv => lhs; unfold rescanTo
        rw [if_pos (by rw [has_inQ]; exact hc), if_pos (roomIn_iff.2 hr), hf1]
        simp only [R.andThen]
        rw [c1, hi]
        simp only
        rw [← c1, hse]
        simp only [h3]
      have hoth : ∀ d, d ≠ c → (w3.modC c (fun x => { x with toItem := none })).comps d = w.comps d := fun d hd => by
        rw [modC_other hd, k3.other d hd, modC_other hd, put.comps, c1]
      have hn4 : (w3.modC c (fun x => { x with toItem := none })).now = w.now := k3.now.trans (put.now.trans n1)
      have hself : (w3.modC c (fun x => { x with toItem := none })).status c = .scheduled ∧
          ((w3.modC c (fun x => { x with toItem := none })).comps c).schedTime = (w.now : ETime) ∧
          ((w3.modC c (fun x => { x with toItem := none })).comps c).fromFilter = (w.comps c).fromFilter := by
        refine ⟨?_, ?_, ?_⟩
        · rw [World.status, modC_self, k3.self]
        · rw [modC_self, k3.self]; exact congrArg _ (put.now.trans n1)
        · rw [modC_self, k3.self, modC_self, put.comps, c1]
      have hq4 : ∀ q, (w3.modC c (fun x => { x with toItem := none })).queues q = w2.queues q := fun q => congrFun k3.queues q
      rw [hstep]
      generalize w3.modC c (fun x => { x with toItem := none }) = w4 at g4 hoth hn4 hself hq4
      have hq4' : ∀ q, (∀ x, q ≠ .toReq x) → q ≠ .store s → w4.queues q = w.queues q := fun q ha hb => by
        rw [hq4, put.other hb, q1 q ha]
      have hto4 : w4.inQ (.toReq s) = t := by rw [World.inQ, hq4, put.other (by simp)]; exact ht1
      have hcaps4 : caps w4 = caps w := by
        funext x; unfold caps; rw [hq4, put.cap, cap1]
      have hcont4 : (conts w4 s).Perm (f c :: conts w s) := by
        have : conts w4 s = w2.inQ (.store s) := by rw [conts, World.inQ, hq4]; rfl
        rw [this, conts, ← hst1]
        obtain ⟨q', m1, m2, x, hx, rfl⟩ := put
        rw [inQ_modQ', if_pos rfl, hx.eq, World.inQ, hx.mem]
        simp only [List.map_append, List.map_cons, hx.xc]
        exact List.perm_middle
      have hfil : ∀ d, (w4.comps d).fromFilter = (w.comps d).fromFilter := fun d => by
        by_cases hd : d = c
        · rw [hd]; exact hself.2.2
        · rw [hoth d hd]
      have hfr4 : w4.inQ (.fromReq s) = w.inQ (.fromReq s) := by rw [World.inQ, hq4' _ (by simp) (by simp)]; rfl
      rw [List.map_cons, List.nodup_cons] at hnd
      rw [List.nodup_cons] at hndq
      obtain ⟨w', k, r1, r2, r3, r4, r5, r6, r7, r8, r9, r10, r11⟩ := rescanTo_serves n s t w4 g4 hto4 (by rw [hcaps4]; exact hk) f (fun p hpt => by
        obtain ⟨⟨a1, a2, a3⟩, a4, a5⟩ := hp p (by simp [hpt])
        have hne : p ≠ c := fun h => hndq.1 (h ▸ hpt)
        refine ⟨⟨by rw [hto4]; exact hpt, by rw [hoth p hne]; exact a2, by rw [hoth p hne]; exact a3⟩, fun h => ?_, fun d hd => ?_⟩
        · rcases List.mem_cons.1 (hcont4.mem_iff.1 h) with h | h
          · exact hnd.1 (h ▸ List.mem_map_of_mem hpt)
          · exact a4 h
        · rw [hfil]; exact a5 d (by rw [← hfr4]; exact hd)) hnd.2
      refine ⟨w', k + 1, r1, by simpa using r2, by simpa using r3, ?_, ?_, fun x hx => ?_, r7.trans hcaps4, fun p hpm => ?_, fun p hpm => ?_,
        r10.trans hn4, r11⟩
      · rcases r4 with r4 | r4
        · left; simp [r4]
        · exact .inr r4
      · refine r5.trans ?_
        rw [List.take_succ_cons, List.map_cons, List.cons_append]
        exact (List.Perm.append_left _ hcont4).trans List.perm_middle
      · rw [r6 x hx, conts, World.inQ, hq4' _ (by simp) (by simpa using hx)]; rfl
      · rw [List.take_succ_cons, List.mem_cons] at hpm
        by_cases hpt : p ∈ t.take k
        · have := r8 p hpt
          rwa [hn4] at this
        · rcases hpm with rfl | hpm
          · rw [World.status, r9 p hpt]; exact ⟨hself.1, hself.2.1⟩
          · exact (hpt hpm).elim
      · rw [List.take_succ_cons, List.mem_cons, not_or] at hpm
        rw [r9 p hpm.2, hoth p hpm.1]
    · refine ⟨w, 0, ?_, Nat.zero_le _, hl, .inr hr, .refl _, fun _ _ => rfl, rfl, by simp, fun _ _ => rfl, rfl, hg⟩
      unfold rescanTo
      rw [if_pos (by rw [has_inQ, hl]; simp), if_neg (by rw [roomIn_iff]; exact hr)]

/-- C55: a higher capacity lets the components waiting to put an item into the store do so, first come (or highest priority) first, until the store
is full. `f` gives the item each of them brings; none of these is in the store or wanted by a waiting component. -/
theorem C55_higher {w : World} (hl : Life w) (n : Nat) (s : StId) (k : ETime) (hk : Whole k) (hge : (w.queues (.store s)).cap ≤ k) (f : CId → CId)
    (hp : ∀ p ∈ w.inQ (.toReq s), Brings w s p (f p) ∧ f p ∉ w.inQ (.store s) ∧ Unwanted w s (f p)) (hnd : ((w.inQ (.toReq s)).map f).Nodup) :
    ∃ w' served left, exec (n + 1) (.storeSetCapacity s k) w = .ok w' ∧ w.inQ (.toReq s) = served ++ left ∧ w'.inQ (.toReq s) = left ∧
      (left = [] ∨ ¬ HasRoom w' s) ∧ (w'.inQ (.store s)).Perm (served.map f ++ w.inQ (.store s)) ∧ (∀ t, t ≠ s → w'.inQ (.store t) = w.inQ (.store t)) ∧
      (w'.queues (.store s)).cap = k ∧ (∀ p ∈ served, Goes w w' p) ∧ (∀ p, p ∉ served → w'.comps p = w.comps p) ∧ w'.now = w.now := by
  have hin : ∀ q, (w.modQ (.store s) (fun q => q.setCapacity k)).inQ q = w.inQ q := fun q => by
    rw [inQ_modQ']; split
    · rename_i hs; rw [← hs]; rfl
    · rfl
  have g1 : Good ∅ (w.modQ (.store s) (fun q => q.setCapacity k)) := reset_good hl.good _ (fun _ => rfl)
  have hcap : caps (w.modQ (.store s) (fun q => q.setCapacity k)) s = k := by
    rw [caps, modQ_queues_self]; rfl
  obtain ⟨w', j, r1, r2, r3, r4, r5, r6, r7, r8, r9, r10, r11⟩ := rescanTo_serves n s (w.inQ (.toReq s)) _ g1 (hin _) (by rw [hcap]; exact hk) f
    (fun p hpp => by
      obtain ⟨⟨a1, a2, a3⟩, a4, a5⟩ := hp p hpp
      exact ⟨⟨by rw [hin]; exact a1, a2, a3⟩, by rw [conts, hin]; exact a4, fun d hd => a5 d (by rw [hin] at hd; exact hd)⟩) hnd
  refine ⟨w', (w.inQ (.toReq s)).take j, (w.inQ (.toReq s)).drop j, ?_, (List.take_append_drop _ _).symm, r3, ?_, ?_, fun t ht => ?_, ?_, fun p hpp => ?_,
    r9, r10⟩
  · simp only [exec]
    unfold storeSetCapacity
    simp only
    rw [if_pos hge, hin]
    exact r1
  · rcases r4 with r4 | r4
    · left; simp [r4]
    · exact .inr r4
  · rw [conts, conts, hin] at r5; exact r5
  · rw [← hin]; exact r6 t ht
  · rw [← hcap]; exact congrFun r7 s
  · exact goes_of r11 (r8 p hpp).1 (r8 p hpp).2

/-- a lower capacity changes nothing but the capacity, whether or not the items in the store still fit -/
theorem C55_lower {w : World} (fuel : Nat) (s : StId) (k : ETime) (hlt : k < (w.queues (.store s)).cap) :
    ∃ w', exec fuel (.storeSetCapacity s k) w = .ok w' ∧ (∀ q, w'.inQ q = w.inQ q) ∧ (w'.queues (.store s)).cap = k ∧ w'.comps = w.comps ∧
      w'.events = w.events := by
  refine ⟨w.modQ (.store s) (fun q => q.setCapacity k), ?_, fun q => ?_, ?_, rfl, rfl⟩
  · simp only [exec]
    unfold storeSetCapacity
    simp only
    rw [if_neg (not_le.2 hlt)]
  · rw [inQ_modQ']; split
    · rename_i hs; rw [← hs]; rfl
    · rfl
  · rw [modQ_queues_self]; rfl

/-! ## examples -/

/-- store 0 has two items and is full; components 5, 6 and 7 wait to put items 106, 107 and 108 into it -/
def queueW : World := execAll 20 (begin 5 ++ [bring 5 [0] 106] ++ begin 6 ++ [bring 6 [0] 107] ++ begin 7 ++ [bring 7 [0] 108])
  (execAll 20 [.storeEnter 102 0 none, .storeEnter 103 0 none] depot)

theorem queueW_life : Life queueW := life_all _ (life_all _ (.start fresh_depot) _ (by decide +kernel) (by decide +kernel)) _ (by decide +kernel) (by decide +kernel)

/-- the hypotheses of `C55_higher`: capacity 4 gives room for two of the three -/
example : ∃ w', exec 1 (.storeSetCapacity 0 (4 : Rat)) queueW = .ok w' ∧ w'.inQ (.toReq 0) = [7] ∧ (w'.inQ (.store 0)).length = 4 := by
  have hq : queueW.inQ (.toReq 0) = [5, 6, 7] := by decide +kernel
  have hs : queueW.inQ (.store 0) = [102, 103] := by decide +kernel
  have hfr : queueW.inQ (.fromReq 0) = [] := by decide +kernel
  obtain ⟨w', _⟩ := C55_higher queueW_life 0 0 (4 : Rat) (.inr ⟨4, rfl⟩) (by decide +kernel) (fun p => p + 101) (by
    intro p hp
    refine ⟨?_, ?_, ?_⟩
    · have hp' := hp
      rw [hq] at hp
      simp only [List.mem_cons, List.not_mem_nil, or_false] at hp
      refine ⟨hp', ?_⟩
      rcases hp with rfl | rfl | rfl <;> decide +kernel
    · rw [hq] at hp; rw [hs]
      simp only [List.mem_cons, List.not_mem_nil, or_false] at hp
      rcases hp with rfl | rfl | rfl <;> decide
    · intro d hd; rw [hfr] at hd; cases hd) (by rw [hq]; decide)
  exact ⟨(exec 1 (.storeSetCapacity 0 (4 : Rat)) queueW).world, ok_world (by decide +kernel), by decide +kernel, by decide +kernel⟩

/-- Without a whole capacity it fails: a store with capacity 1.5 and one item has room, as there's 0.5 available; the call that uses this room raises
an error. The same goes for `to_store`, here. -/
theorem C55_fraction_counterexample : ∃ w : World, Life w ∧ w.status 1 = .current ∧ HasRoom w 0 ∧
    ∃ w', exec 20 (bring 1 [0] 100) w = .err .queueFull w' := by
  let w0 := execAll 20 ([.storeSetCapacity 0 ((3 / 2 : Rat) : ETime), .storeEnter 101 0 none] ++ begin 1) depot
  refine ⟨w0, life_all _ (.start fresh_depot) _ (by decide +kernel) (by decide +kernel), by decide +kernel, ?_, ?_⟩
  · rw [← roomIn_iff]; decide +kernel
  · have h : (match exec 20 (bring 1 [0] 100) w0 with | .err .queueFull _ => true | _ => false) = true := by decide +kernel
    cases hx : exec 20 (bring 1 [0] 100) w0 with
    | ok w' => rw [hx] at h; cases h
    | err er w' =>
      rw [hx] at h
      cases er <;> first | exact ⟨w', rfl⟩ | cases h

/-- the hypothesis of `C55_lower` -/
example : ((1 : Rat) : ETime) < (queueW.queues (.store 0)).cap := by decide +kernel

end Verif
