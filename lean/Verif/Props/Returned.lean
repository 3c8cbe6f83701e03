import Verif.Props.Waiting

/-!
# What `from_store` returns (C36)

The process of a component that gets an item continues with that item as the value of the `yield` of `from_store`: the event by which it continues
carries the item, as `return_value` (salabim.py:4259, 7459-7467, 7551, 8249), and `step` sends this to the process (salabim.py:11193, 11233).
-/

namespace Verif
open World

/-! ## specification -/

/-- the component continues now, and `from_store` gives it `i` -/
def Gets (w w' : World) (c i : CId) : Prop :=
  (w'.comps c).fromItem = some i ∧ Goes w w' c ∧ ∀ e ∈ w'.events, e.c = c → e.t = w.now ∧ e.ret = some i

/-! ## proofs -/

theorem wake_ret {w w' : World} (h : w.Inv) {c : CId} {ret : Option CId} (hw : wake c ret w = .ok w') :
    (∃ e ∈ w'.events, e.c = c) ∧ ∀ e ∈ w'.events, e.c = c → e.t = w.now ∧ e.ret = ret := by
  obtain ⟨w1, h1, k⟩ := remove_removed h c
  unfold wake at hw
  rw [h1] at hw
  simp only [R.andThen] at hw
  unfold reschedule at hw
  rw [if_neg (by simp [setStatus, World.modC])] at hw
  cases hw
  have hm : ∀ e, e ∈ (push c (w1.now : ETime) ((0 : Rat) : ETime) false ret ((setStatus c .scheduled w1).modC c
      (fun x => { x with schedTime := (w1.now : ETime) }))).events ↔ e ∈ (⟨w1.now, ((0 : Rat) : ETime), ((w1.seq + 1 : Nat) : Int), c, ret⟩ : Ev) :: w1.events :=
    fun e => (Heapq.heappush_perm _ _).mem_iff
  refine ⟨⟨_, (hm _).2 List.mem_cons_self, rfl⟩, fun e he hc => ?_⟩
  rcases List.mem_cons.1 ((hm e).1 he) with rfl | h2
  · exact ⟨k.now, rfl⟩
  · have := (k.events.mem_iff.1 h2)
    simp [hc] at this

theorem wake_gets {w0 w w' : World} {c i : CId} {f : Comp → Comp} (hI : w.Inv) (hn : w.now = w0.now) (hev : ∀ x, (f x).cv = x.cv)
    (hi : ∀ x, (f x).fromItem = some i) (hw : wake c (some i) (w.modC c f) = .ok w') : Gets w0 w' c i := by
  have hI' : (w.modC c f).Inv := inv_of_ev (ev_modC hev) hI
  obtain ⟨⟨e, he, hc⟩, hr⟩ := wake_ret hI' hw
  obtain ⟨w1, h1, k⟩ := wake_woken hI' c (some i)
  rw [h1] at hw; cases hw
  have hr' : ∀ e ∈ w'.events, e.c = c → e.t = w0.now ∧ e.ret = some i := fun e he hc => by rw [← hn]; exact hr e he hc
  refine ⟨by rw [k.self, modC_self]; exact hi _, ⟨by simp only [World.status, k.self], e, he, hc, (hr' e he hc).1⟩, hr'⟩

theorem storeEnter_gets {e : Set CId} {fuel : Nat} {i s p} {w w' : World} {c : CId} (hg : Good e w) (h : storeEnter fuel i s p w = .ok w')
    (hc : FirstOf w s i c) : Gets w w' c i := by
  obtain ⟨w1, k1, h1⟩ := storeEnter_exact h
  rcases h1 with ⟨hn, rfl⟩ | ⟨m, w2, w3, hm, h2, h3, h4⟩
  · obtain ⟨x, y, e1, e2, _⟩ := hc
    have := wanted_unwanted hn c (by rw [e1]; simp)
    rw [e2] at this; cases this
  · have := (wanted_served hm).unique hc
    subst this
    have u2 := storeLeave_unnoticed (k1.good hg) h2
    have g2 : Good e w2 := ((trR_store e _).2 _ _ _ (k1.good hg) w2 h2).good
    obtain ⟨l3, _⟩ := leaveFrom_good g2 h3
    have g3 := l3.good g2
    exact wake_gets (f := fun x => { x with fromStores := [], fromItem := some i }) g3.inv ((leaves_unnoticed _ h3).now.trans (u2.now.trans k1.now)) (fun _ => rfl) (fun _ => rfl) h4

/-! ## claim -/

/-- C36: an item that's put into a store by `enter` is what `from_store` returns to the first waiting requester whose filter accepts it -/
theorem C36_enter_returns {w w' : World} {fuel i s r c} (hl : Life w) (h : exec fuel (.storeEnter i s r) w = .ok w') (hc : FirstOf w s i c) :
    Gets w w' c i :=
  storeEnter_gets hl.good h hc

/-- C36: an item that's put into a store by `to_store` is what `from_store` returns to the first waiting requester whose filter accepts it -/
theorem C36_to_store_returns {w w' : World} {fuel c ss i rp sp fa fd p u cp} (hl : Life w) (hcur : w.status c = .current)
    (h : exec fuel (.toStore c ss i rp sp fa fd p u cp) w = .ok w') {s1 s2 : List StId} {s : StId} (hss : ss = s1 ++ s :: s2)
    (hno : ∀ t ∈ s1, ¬ HasRoom w t) (hyes : HasRoom w s) {d : CId} (hd : FirstOf w s i d) : Gets w w' d i := by
  obtain ⟨_, hne, w2, b, hh⟩ := toStore_start hl.good h
  have hroom : ∀ t, roomIn w2 t = true ↔ HasRoom w t := fun t => by
    rw [roomIn_iff]; unfold HasRoom World.inQ; rw [b.cur hcur]
  have e : ss.find? (fun s => roomIn w2 s) = some s := by
    rw [List.find?_eq_some_iff_append]
    exact ⟨(hroom s).2 hyes, s1, s2, hss, fun x hx => by simpa using fun hx' => hno x hx ((hroom x).1 hx')⟩
  rcases hh with ⟨s', w3, h1, h2, h3⟩ | ⟨h1, _⟩
  · rw [h1] at e; cases e
    have g3 : Good {c} w3 := ((trR_store _ fuel).1 _ _ _ _ b.good w3 h2).good
    have hd' := (b.served hcur _ _).1 d hd
    have hdc : d ≠ c := by
      rintro rfl
      obtain ⟨x, y, e1, _⟩ := hd'
      exact b.notin rfl (q := .fromReq s) (by rw [e1]; simp)
    obtain ⟨x1, ⟨x2, e, he, x3, x4⟩, x5⟩ := storeEnter_gets b.good h2 hd'
    obtain ⟨w4, h4', kk⟩ := wake_woken (w := w3.modC c (fun x => { x with toItem := none, toStores := [] })) (inv_of_ev (ev_modC (fun _ => rfl)) g3.inv) c none
    rw [h4'] at h3; cases h3
    have u := (modC_unnoticed c (fun x => { x with toItem := none, toStores := [] }) w3).trans kk.unnoticed
    rw [b.now] at x4 x5
    refine ⟨by rw [u.comps d hdc]; exact x1, ⟨by rw [World.status, u.comps d hdc]; exact x2, e, (u.events e (by rw [x3]; exact hdc)).2 he, x3, x4⟩, fun e he hc => ?_⟩
    exact x5 e ((u.events e (by rw [hc]; exact hdc)).1 he) hc
  · rw [h1] at e; cases e

/-- C36: if one of the stores has an item that's accepted, `from_store` returns one immediately -/
theorem C36_from_store_returns {w w' : World} {fuel c ss f k rp fa fd p u cp} (hl : Life w) (hcur : w.status c = .current)
    (h : exec fuel (.fromStore c ss f k rp fa fd p u cp) w = .ok w') (hm : ¬ NoMatch w f ss) :
    ∃ s ∈ ss, ∃ i ∈ w.inQ (.store s), f i = true ∧ Gets w w' c i := by
  obtain ⟨hnd, hne, w2, b, hh⟩ := fromStore_start hl.good h
  have hq : ∀ t, w2.inQ t = w.inQ t := fun t => by simp only [World.inQ, b.cur hcur]
  rcases hh with ⟨item, s, w3, h1, h2, h3⟩ | ⟨⟨s, h1⟩, _⟩
  · obtain ⟨hs, hf⟩ := searchStores_found w2 f k ss _ hne h1
    have g3 : Good {c} w3 := ((trR_store _ fuel).2 _ _ _ b.good w3 h2).good
    have u := storeLeave_unnoticed b.good h2
    refine ⟨s, hs, item, ?_, hf, wake_gets (f := fun x => { x with fromItem := some item }) g3.inv (u.now.trans b.now) (fun _ => rfl) (fun _ => rfl) h3⟩
    obtain ⟨a, _, k1, _⟩ := storeLeave_flow b.good h2
    obtain ⟨x, y, e1, _⟩ := k1.split
    rw [← hq, show w2.inQ (.store s) = _ from e1]; simp
  · exact (hm fun t ht x hx => searchStores_none w2 f k ss _ h1 t ht x (by rw [conts, hq]; exact hx)).elim

/-! ## examples -/

/-- component 1 waits for item 100 in store 1; `enter` gives it to component 1, whose event carries it -/
example : ∃ w : World, Life w ∧ ∃ w', exec 20 (.storeEnter 100 1 none) w = .ok w' ∧ FirstOf w 1 100 1 ∧ (w'.events.filter (·.c == 1)).map Ev.ret = [some 100] := by
  refine ⟨execAll 20 (begin 1 ++ [want 1 [1] [100]]) depot, life_all _ (.start fresh_depot) _ (by decide +kernel) (by decide +kernel), _,
    ok_world (by decide +kernel), ⟨[], [], by decide +kernel, by decide +kernel, by simp⟩, by decide +kernel⟩

/-- the hypotheses of `C36_from_store_returns` -/
example : ∃ w : World, Life w ∧ w.status 1 = .current ∧ ∃ w', exec 20 (want 1 [0] [102]) w = .ok w' ∧ ¬ NoMatch w (fun i => [102].contains i) [0] ∧
    (w'.events.filter (·.c == 1)).map Ev.ret = [some 102] := by
  refine ⟨execAll 20 (begin 1) queueW, life_all _ queueW_life _ (by decide +kernel) (by decide +kernel), by decide +kernel, _,
    ok_world (by decide +kernel), fun h => ?_, by decide +kernel⟩
  have := h 0 (by simp) 102 (by decide +kernel)
  revert this; decide

/-- the hypotheses of `C36_to_store_returns`: component 1 waits for item 100 in store 1, component 2 brings it -/
example : ∃ w : World, Life w ∧ w.status 2 = .current ∧ ∃ w', exec 20 (bring 2 [1] 100) w = .ok w' ∧ HasRoom w 1 ∧ FirstOf w 1 100 1 ∧
    (w'.events.filter (·.c == 1)).map Ev.ret = [some 100] := by
  refine ⟨execAll 20 (begin 1 ++ [want 1 [1] [100]] ++ begin 2) depot, life_all _ (.start fresh_depot) _ (by decide +kernel) (by decide +kernel),
    by decide +kernel, _, ok_world (by decide +kernel), by unfold HasRoom; decide +kernel, ⟨[], [], by decide +kernel, by decide +kernel, by simp⟩, by decide +kernel⟩

end Verif
