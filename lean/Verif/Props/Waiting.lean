import Verif.Props.Room

/-!
# Who doesn't notice that items come and go (C62)
-/

namespace Verif
open World

/-- Only the components in `S` notice anything: what's known of the others does not change, they're in the same waiting lines, with the same
components before them (apart from the ones in `S`) and the same events scheduled. -/
structure Unnoticed (S : CId → Prop) (w w' : World) : Prop where
  comps : ∀ d, ¬ S d → w'.comps d = w.comps d
  stay : ∀ q, (∀ s, q ≠ .store s) → ∀ d, ¬ S d → d ∈ w.inQ q → d ∈ w'.inQ q
  order : ∀ q, (∀ s, q ≠ .store s) → (w'.inQ q).Sublist (w.inQ q)
  events : ∀ e : Ev, ¬ S e.c → (e ∈ w'.events ↔ e ∈ w.events)
  now : w'.now = w.now

theorem Unnoticed.trans {S : CId → Prop} {a b c : World} (h : Unnoticed S a b) (h2 : Unnoticed S b c) : Unnoticed S a c :=
  ⟨fun d hd => (h2.comps d hd).trans (h.comps d hd), fun q hq d hd hm => h2.stay q hq d hd (h.stay q hq d hd hm),
    fun q hq => (h2.order q hq).trans (h.order q hq), fun e he => (h2.events e he).trans (h.events e he), h2.now.trans h.now⟩

theorem Unnoticed.mono {S T : CId → Prop} {a b : World} (h : Unnoticed S a b) (hST : ∀ d, S d → T d) : Unnoticed T a b :=
  ⟨fun d hd => h.comps d (fun hs => hd (hST d hs)), fun q hq d hd => h.stay q hq d (fun hs => hd (hST d hs)), h.order,
    fun e he => h.events e (fun hs => he (hST _ hs)), h.now⟩

theorem PutIn.unnoticed {i s} {w w' : World} (h : PutIn i s w w') (S) : Unnoticed S w w' :=
  ⟨fun d _ => by rw [h.comps], fun q hq d _ hm => by rw [World.inQ, h.other (hq s)]; exact hm,
    fun q hq => by rw [World.inQ, h.other (hq s)]; exact List.Sublist.refl _, fun e _ => by rw [h.events], h.now⟩

theorem OutOf.unnoticed {i s} {w w' : World} (h : OutOf i s w w') (S) : Unnoticed S w w' :=
  ⟨fun d _ => by rw [h.comps], fun q hq d _ hm => by rw [World.inQ, h.other (hq s)]; exact hm,
    fun q hq => by rw [World.inQ, h.other (hq s)]; exact List.Sublist.refl _, fun e _ => by rw [h.events], h.now⟩

theorem leaves_unnoticed {c : CId} {K : StId → QRef} : ∀ (l : List StId) {w w' : World}, forR l (fun s0 => leaveQ c (K s0)) w = .ok w' →
    Unnoticed (· = c) w w'
  | [], w, w', h => by cases h; exact ⟨fun _ _ => rfl, fun _ _ _ _ h => h, fun _ _ => List.Sublist.refl _, fun _ _ => Iff.rfl, rfl⟩
  | a :: t, w, w', h => by
    unfold forR at h
    obtain ⟨w1, h1, h2⟩ := andThen_ok h
    refine Unnoticed.trans ?_ (leaves_unnoticed t h2)
    obtain ⟨q', e1, e2⟩ := onQueue_ok h1
    obtain ⟨l1, l2, x, hx⟩ := Queue.leave_ok e1
    refine ⟨fun _ _ => by rw [e2]; rfl, fun q _ d hd hm => ?_, fun q _ => ?_, fun _ _ => by rw [e2]; rfl, by rw [e2]; rfl⟩
    · rw [e2, inQ_modQ']
      split
      · rename_i hq
        subst hq
        rw [hx.eq]
        rw [World.inQ, hx.mem] at hm
        simp only [List.map_append, List.mem_append, List.map_cons, List.mem_cons, hx.xc] at hm ⊢
        tauto
      · exact hm
    · rw [e2, inQ_modQ']
      split
      · rename_i hq
        subst hq
        rw [hx.eq, World.inQ, hx.mem]
        exact (List.Sublist.append_left (List.sublist_cons_self _ _) _).map _
      · exact List.Sublist.refl _

theorem Woken.unnoticed {c : CId} {w w' : World} (h : Woken c w w') : Unnoticed (· = c) w w' :=
  ⟨fun d hd => h.other d hd, fun q _ d _ hm => by rw [World.inQ, h.queues]; exact hm, fun q _ => by rw [World.inQ, h.queues]; exact List.Sublist.refl _,
    fun e he => h.evs e he, h.now⟩

theorem modC_unnoticed (c : CId) (f : Comp → Comp) (w : World) : Unnoticed (· = c) w (w.modC c f) :=
  ⟨fun _ hd => modC_other hd _ _, fun _ _ _ _ h => h, fun _ _ => List.Sublist.refl _, fun _ _ => Iff.rfl, rfl⟩

/-- the component that puts in its item when the number of items has become `n` -/
def Supplier (w : World) (s : StId) (n : Nat) (d : CId) : Prop := (∃ t, w.inQ (.toReq s) = d :: t) ∧ ((n : Rat) : ETime) < (w.queues (.store s)).cap

theorem storeLeave_unnoticed {e : Set CId} {fuel : Nat} {i s} {w w' : World} (hg : Good e w) (h : storeLeave fuel i s w = .ok w') :
    Unnoticed (Supplier w s ((w.inQ (.store s)).length - 1)) w w' := by
  obtain ⟨w1, k1, h1⟩ := storeLeave_exact h
  have hn : (w.inQ (.store s)).length - 1 = (w1.queues (.store s)).len := by
    have := k1.len; rw [show (w.inQ (.store s)).length = (w.queues (.store s)).len by simp [World.inQ, Queue.len]]; omega
  have hq : w.inQ (.toReq s) = w1.inQ (.toReq s) := by simp only [World.inQ]; rw [k1.other (by simp)]
  rcases h1 with ⟨rfl, h1⟩ | ⟨m, y, h1, h2, hf⟩
  · exact k1.unnoticed _
  · refine (k1.unnoticed _).trans ?_
    have hm : Supplier w s ((w.inQ (.store s)).length - 1) m.c := by
      refine ⟨?_, by rw [hn, ← k1.cap]; exact roomIn_lt.1 h2⟩
      unfold headQ at h1
      cases hm : (w1.queues (.toReq s)).mem with
      | nil => rw [hm] at h1; cases h1
      | cons a t => rw [hm] at h1; cases h1; exact ⟨t.map (·.c), by rw [hq, World.inQ, hm]; rfl⟩
    obtain ⟨_, _, _, w2, w3, w4, k2, h3, h4, rfl⟩ := hf
    have g2 := k2.good (k1.good hg)
    obtain ⟨l3, _⟩ := leaveTo_good g2 h3
    have g3 := l3.good g2
    obtain ⟨w5, h5, k⟩ := wake_woken (w := w3.modC m.c (fun x => { x with toStores := [] })) (inv_of_ev (ev_modC (fun _ => rfl)) g3.inv) m.c none
    rw [h5] at h4; cases h4
    refine (k2.unnoticed _).trans (Unnoticed.mono (S := (· = m.c)) ?_ (by rintro d rfl; exact hm))
    exact (leaves_unnoticed _ h3).trans ((modC_unnoticed _ _ _).trans (k.unnoticed.trans (modC_unnoticed _ _ _)))

theorem storeEnter_unnoticed {e : Set CId} {fuel : Nat} {i s p} {w w' : World} (hg : Good e w) (h : storeEnter fuel i s p w = .ok w') :
    Unnoticed (fun d => FirstOf w s i d ∨ (¬ Unwanted w s i ∧ Supplier w s (w.inQ (.store s)).length d)) w w' := by
  obtain ⟨w1, k1, h1⟩ := storeEnter_exact h
  rcases h1 with ⟨_, rfl⟩ | ⟨m, w2, w3, hm, h2, h3, h4⟩
  · exact k1.unnoticed _
  · have hs := wanted_served hm
    have hnu : ¬ Unwanted w s i := by
      obtain ⟨a, b, e1, e2, _⟩ := hs
      intro hu
      have := hu m.c (by rw [e1]; simp)
      rw [e2] at this; cases this
    have u2 := storeLeave_unnoticed (k1.good hg) h2
    have g2 : Good e w2 := ((trR_store e _).2 _ _ _ (k1.good hg) w2 h2).good
    obtain ⟨l3, _⟩ := leaveFrom_good g2 h3
    have g3 := l3.good g2
    obtain ⟨w5, h5, k⟩ := wake_woken (w := w3.modC m.c (fun x => { x with fromStores := [], fromItem := some i })) (inv_of_ev (ev_modC (fun _ => rfl)) g3.inv)
      m.c (some i)
    rw [h5] at h4; cases h4
    have hlen : (w1.inQ (.store s)).length - 1 = (w.inQ (.store s)).length := by
      have := k1.len
      simp only [Queue.len] at this
      simp only [World.inQ, List.length_map]; omega
    refine (k1.unnoticed _).trans (Unnoticed.trans (u2.mono fun d hd => .inr ⟨hnu, ?_⟩)
      (Unnoticed.mono (S := (· = m.c)) ?_ (by rintro d rfl; exact .inl hs)))
    · obtain ⟨⟨t, ht⟩, hk⟩ := hd
      refine ⟨⟨t, by rw [← ht]; simp only [World.inQ]; rw [k1.other (by simp)]⟩, ?_⟩
      rw [hlen, k1.cap] at hk; exact hk
    · exact (leaves_unnoticed _ h3).trans ((modC_unnoticed _ _ _).trans k.unnoticed)

/-- C62: when an item leaves a store, nobody notices but the component that can put its item in, now -/
theorem C62_leave {w w' : World} {fuel i s} (hl : Life w) (h : exec fuel (.storeLeave i s) w = .ok w') :
    Unnoticed (Supplier w s ((w.inQ (.store s)).length - 1)) w w' :=
  storeLeave_unnoticed hl.good h

/-- C62: when an item is put into a store by `enter`, nobody notices but the component that gets it, and, as it's taken out of the store immediately,
the component that can put its item in -/
theorem C62_enter {w w' : World} {fuel i s r} (hl : Life w) (h : exec fuel (.storeEnter i s r) w = .ok w') :
    Unnoticed (fun d => FirstOf w s i d ∨ (¬ Unwanted w s i ∧ Supplier w s (w.inQ (.store s)).length d)) w w' :=
  storeEnter_unnoticed hl.good h

theorem Begun.unnoticed {c : CId} {w w2 : World} (b : Begun c w w2) (hs : w.status c = .current) : Unnoticed (· = c) w w2 :=
  ⟨b.other, fun q _ d _ hm => by rw [World.inQ, b.cur hs]; exact hm, fun q _ => by rw [World.inQ, b.cur hs]; exact List.Sublist.refl _,
    fun e _ => by rw [b.evs hs], b.now⟩

theorem Begun.supplier {c : CId} {w w2 : World} (b : Begun c w w2) (hs : w.status c = .current) {s n d} (h : Supplier w2 s n d) : Supplier w s n d := by
  unfold Supplier World.inQ at h ⊢; rw [b.cur hs] at h; exact h

/-- C62: when `from_store` takes an item out of a store, nobody notices but the caller and the component that can put its item in -/
theorem C62_from_store {w w' : World} {fuel c ss f k rp fa fd p u cp} (hl : Life w) (hcur : w.status c = .current)
    (h : exec fuel (.fromStore c ss f k rp fa fd p u cp) w = .ok w') (hm : ¬ NoMatch w f ss) :
    ∃ s ∈ ss, ∃ i ∈ w.inQ (.store s), (w'.comps c).fromItem = some i ∧ Unnoticed (fun d => d = c ∨ Supplier w s ((w.inQ (.store s)).length - 1) d) w w' := by
  obtain ⟨hnd, hne, w2, b, hh⟩ := fromStore_start hl.good h
  have hq : ∀ t, w2.inQ t = w.inQ t := fun t => by simp only [World.inQ, b.cur hcur]
  rcases hh with ⟨item, s, w3, h1, h2, h3⟩ | ⟨⟨s, h1⟩, h2, _, h3, h4, h5, h6⟩
  · obtain ⟨hs, hf⟩ := searchStores_found w2 f k ss _ hne h1
    have g3 : Good {c} w3 := ((trR_store _ fuel).2 _ _ _ b.good w3 h2).good
    obtain ⟨w4, h4', kk⟩ := wake_woken (w := w3.modC c (fun x => { x with fromItem := some item })) (inv_of_ev (ev_modC (fun _ => rfl)) g3.inv) c (some item)
    rw [h4'] at h3; cases h3
    have u := storeLeave_unnoticed b.good h2
    rw [hq] at u
    refine ⟨s, hs, item, ?_, by rw [kk.self, modC_self], ?_⟩
    · obtain ⟨a, _, k1, _⟩ := storeLeave_flow b.good h2
      obtain ⟨x, y, e1, _⟩ := k1.split
      rw [← hq, show w2.inQ (.store s) = _ from e1]; simp
    refine ((b.unnoticed hcur).mono fun d hd => .inl hd).trans ((u.mono fun d hd => .inr (b.supplier hcur hd)).trans ?_)
    exact ((modC_unnoticed _ _ _).trans kk.unnoticed).mono fun d hd => .inl hd
  · exact (hm fun t ht x hx => searchStores_none w2 f k ss _ h1 t ht x (by rw [conts, hq]; exact hx)).elim

/-- C62: when `to_store` puts an item into a store, nobody notices but the caller, the component that gets the item and then the one that can put its
item in -/
theorem C62_to_store {w w' : World} {fuel c ss i rp sp fa fd p u cp} (hl : Life w) (hcur : w.status c = .current)
    (h : exec fuel (.toStore c ss i rp sp fa fd p u cp) w = .ok w') (hm : ∃ s ∈ ss, HasRoom w s) :
    ∃ s1 s s2, ss = s1 ++ s :: s2 ∧ (∀ t ∈ s1, ¬ HasRoom w t) ∧ HasRoom w s ∧
      Unnoticed (fun d => d = c ∨ FirstOf w s i d ∨ (¬ Unwanted w s i ∧ Supplier w s (w.inQ (.store s)).length d)) w w' := by
  obtain ⟨_, hne, w2, b, hh⟩ := toStore_start hl.good h
  have hroom : ∀ t, roomIn w2 t = true ↔ HasRoom w t := fun t => by
    rw [roomIn_iff]; unfold HasRoom World.inQ; rw [b.cur hcur]
  have hq : ∀ t, w2.inQ t = w.inQ t := fun t => by simp only [World.inQ, b.cur hcur]
  have hco : ∀ x, ∀ d ∈ w.inQ (.fromReq x), w2.comps d = w.comps d := fun x d hd => b.other d (by
    rintro rfl
    rw [← hq] at hd
    exact b.notin rfl hd)
  rcases hh with ⟨s, w3, h1, h2, h3⟩ | ⟨h1, _⟩
  · obtain ⟨k1, a1, a2, k2, k3⟩ := List.find?_eq_some_iff_append.1 h1
    refine ⟨a1, s, a2, k2, fun t ht hr => ?_, (hroom s).1 k1, ?_⟩
    · simpa [(hroom t).2 hr] using k3 t ht
    have g3 : Good {c} w3 := ((trR_store _ fuel).1 _ _ _ _ b.good w3 h2).good
    obtain ⟨w4, h4', kk⟩ := wake_woken (w := w3.modC c (fun x => { x with toItem := none, toStores := [] })) (inv_of_ev (ev_modC (fun _ => rfl)) g3.inv) c none
    rw [h4'] at h3; cases h3
    have u := storeEnter_unnoticed b.good h2
    refine ((b.unnoticed hcur).mono fun d hd => .inl hd).trans (Unnoticed.trans (u.mono fun d hd => ?_) ?_)
    · refine .inr ?_
      rcases hd with ⟨x, y, e1, e2, e3⟩ | ⟨hu, hd⟩
      · rw [hq] at e1
        refine .inl ⟨x, y, e1, by rw [← hco s d (by rw [e1]; simp)]; exact e2, fun z hz => ?_⟩
        rw [← hco s z (by rw [e1]; simp [hz])]; exact e3 z hz
      · refine .inr ⟨fun h' => hu fun z hz => ?_, ?_⟩
        · rw [hq] at hz; rw [hco s z hz]; exact h' z hz
        · rw [hq] at hd; exact b.supplier hcur hd
    · exact ((modC_unnoticed _ _ _).trans kk.unnoticed).mono fun d hd => .inl hd
  · obtain ⟨s, hs, hr⟩ := hm
    exact (List.find?_eq_none.1 h1 s hs ((hroom s).2 hr)).elim

/-! ## examples -/

/-- Store 0 has two items and is full, and components 5, 6 and 7 wait. If an item is taken out, component 5 puts in its item; component 6 and 7 don't notice. -/
example : ∃ w', exec 20 (.storeLeave 103 0) queueW = .ok w' ∧ w'.inQ (.toReq 0) = [6, 7] ∧ w'.inQ (.store 0) = [102, 106] ∧ w'.status 5 = .scheduled ∧
    Supplier queueW 0 1 5 ∧ w'.comps 6 = queueW.comps 6 := by
  have h : exec 20 (.storeLeave 103 0) queueW = .ok (exec 20 (.storeLeave 103 0) queueW).world := ok_world (by decide +kernel)
  have hq : queueW.inQ (.toReq 0) = [5, 6, 7] := by decide +kernel
  refine ⟨_, h, by decide +kernel, by decide +kernel, by decide +kernel, ⟨⟨[6, 7], hq⟩, by decide +kernel⟩, (C62_leave queueW_life h).comps 6 ?_⟩
  rintro ⟨⟨t, ht⟩, _⟩
  rw [hq] at ht
  simp at ht

/-- the hypotheses of `C36_leave` -/
example : Calm 20 queueW (.storeLeave 103 0) := calmb_calm (by decide +kernel)

/-- somebody waits for item 100 in store 1; `enter` gives it to that component -/
example : ∃ w : World, Life w ∧ ∃ w', exec 20 (.storeEnter 100 1 none) w = .ok w' ∧ FirstOf w 1 100 1 ∧ w'.status 1 = .scheduled := by
  refine ⟨execAll 20 (begin 1 ++ [want 1 [1] [100]]) depot, life_all _ (.start fresh_depot) _ (by decide +kernel) (by decide +kernel), _,
    ok_world (by decide +kernel), ⟨[], [], by decide +kernel, by decide +kernel, by simp⟩, by decide +kernel⟩

/-- the hypotheses of `C62_from_store`: component 1 takes item 102, so that component 5 can put in its item -/
example : ∃ w : World, Life w ∧ w.status 1 = .current ∧ ∃ w', exec 20 (want 1 [0] [102]) w = .ok w' ∧ ¬ NoMatch w (fun i => [102].contains i) [0] ∧
    w'.inQ (.store 0) = [103, 106] ∧ w'.status 5 = .scheduled := by
  refine ⟨execAll 20 (begin 1) queueW, life_all _ queueW_life _ (by decide +kernel) (by decide +kernel), by decide +kernel, _,
    ok_world (by decide +kernel), fun h => ?_, by decide +kernel, by decide +kernel⟩
  have := h 0 (by simp) 102 (by decide +kernel)
  revert this; decide

end Verif
