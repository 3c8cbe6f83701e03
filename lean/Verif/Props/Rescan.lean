import Verif.Props.Places

/-!
# `rescan` (C74)
-/

namespace Verif
open World

/-- scheduled to continue now -/
def DueNow (w : World) (d : CId) : Prop := w.status d = .scheduled ∧ (w.comps d).schedTime = (w.now : ETime)

/-- a component waits to put the item into the store -/
def Offered (w : World) (s : StId) (i : CId) : Prop := ∃ p ∈ w.inQ (.toReq s), (w.comps p).toItem = some i

/-- what `rescan` has done so far -/
structure Comb (s : StId) (w w' : World) : Prop where
  now : w'.now = w.now
  filt : ∀ d, (w'.comps d).fromFilter = (w.comps d).fromFilter
  line : ∀ d, d ∈ w'.inQ (.fromReq s) → d ∈ w.inQ (.fromReq s)
  new : ∀ i ∈ w'.inQ (.store s), i ∈ w.inQ (.store s) ∨ Unwanted w' s i ∧ Offered w s i
  offers : ∀ i, Offered w' s i → Offered w s i
  got : ∀ d ∈ w.inQ (.fromReq s), d ∉ w'.inQ (.fromReq s) → ∃ i ∈ w.inQ (.store s), (w.comps d).fromFilter i = true ∧ (w'.comps d).fromItem = some i ∧ DueNow w' d ∧
    (¬ Offered w s i → i ∉ w'.inQ (.store s))
  once : ∀ d ∈ w.inQ (.fromReq s), d ∉ w'.inQ (.fromReq s) → ∀ e ∈ w.inQ (.fromReq s), e ∉ w'.inQ (.fromReq s) → d ≠ e → ∀ i, ¬ Offered w s i →
    ¬ ((w'.comps d).fromItem = some i ∧ (w'.comps e).fromItem = some i)
  gone : ∀ i ∈ w.inQ (.store s), i ∉ w'.inQ (.store s) → ∃ d ∈ w.inQ (.fromReq s), d ∉ w'.inQ (.fromReq s) ∧ (w.comps d).fromFilter i = true
  keep : ∀ d, d ∉ w.inQ (.fromReq s) → (w'.comps d).fromItem = (w.comps d).fromItem ∧ (DueNow w d → DueNow w' d)

theorem Comb.refl (s : StId) (w : World) : Comb s w w :=
  ⟨rfl, fun _ => rfl, fun _ h => h, fun _ h => .inl h, fun _ h => h, fun d h k => absurd h k, fun d h k => absurd h k, fun i h k => absurd h k, fun _ _ => ⟨rfl, fun h => h⟩⟩

theorem Unwanted.less {w w' : World} {s : StId} {i : CId} (h : Unwanted w s i) (hf : ∀ d, (w'.comps d).fromFilter = (w.comps d).fromFilter)
    (hl : ∀ d, d ∈ w'.inQ (.fromReq s) → d ∈ w.inQ (.fromReq s)) : Unwanted w' s i := fun d hd => by rw [hf]; exact h d (hl d hd)

theorem Comb.trans {s : StId} {a b c : World} (h : Comb s a b) (k : Comb s b c) : Comb s a c := by
  refine ⟨k.now.trans h.now, fun d => (k.filt d).trans (h.filt d), fun d hd => h.line d (k.line d hd), fun i hi => ?_,
    fun i hi => h.offers i (k.offers i hi), fun d hd hn => ?_, fun d hd hn e he hm hde i hi => ?_, fun i hi hn => ?_, fun d hd => ?_⟩
  · rcases k.new i hi with hi | hi
    · rcases h.new i hi with hi | hi
      · exact .inl hi
      · exact .inr ⟨hi.1.less k.filt k.line, hi.2⟩
    · exact .inr ⟨hi.1, h.offers i hi.2⟩
  · by_cases hb : d ∈ b.inQ (.fromReq s)
    · obtain ⟨i, h1, h2, h3, h5, h6⟩ := k.got d hb hn
      rw [h.filt] at h2
      rcases h.new i h1 with h4 | h4
      · exact ⟨i, h4, h2, h3, h5, fun ho => h6 fun hb => ho (h.offers i hb)⟩
      · have := h4.1 d hb
        rw [h.filt, h2] at this; cases this
    · obtain ⟨i, h1, h2, h3, h4, h5⟩ := h.got d hd hb
      obtain ⟨k1, k2⟩ := k.keep d hb
      refine ⟨i, h1, h2, k1.trans h3, k2 h4, fun ho hc => ?_⟩
      rcases k.new i hc with hc | hc
      · exact h5 ho hc
      · exact ho (h.offers i hc.2)
  · have ho : ¬ Offered b s i := fun hb => hi (h.offers i hb)
    have early : ∀ x, x ∈ a.inQ (.fromReq s) → x ∉ b.inQ (.fromReq s) → (c.comps x).fromItem = some i → i ∉ b.inQ (.store s) := by
      intro x hx hb hxi
      obtain ⟨j, _, _, h3, _, h5⟩ := h.got x hx hb
      rw [(k.keep x hb).1, h3] at hxi
      cases hxi
      exact h5 hi
    have late : ∀ x, x ∈ b.inQ (.fromReq s) → x ∉ c.inQ (.fromReq s) → (c.comps x).fromItem = some i → i ∈ b.inQ (.store s) := by
      intro x hx hc hxi
      obtain ⟨j, h1, _, h3, _⟩ := k.got x hx hc
      rw [h3] at hxi
      cases hxi
      exact h1
    rintro ⟨q1, q2⟩
    by_cases hb : d ∈ b.inQ (.fromReq s) <;> by_cases hb2 : e ∈ b.inQ (.fromReq s)
    · exact k.once d hb hn e hb2 hm hde i ho ⟨q1, q2⟩
    · exact early e he hb2 q2 (late d hb hn q1)
    · exact early d hd hb q1 (late e hb2 hm q2)
    · rw [(k.keep d hb).1] at q1
      rw [(k.keep e hb2).1] at q2
      exact h.once d hd hb e he hb2 hde i hi ⟨q1, q2⟩
  · by_cases hb : i ∈ b.inQ (.store s)
    · obtain ⟨d, h1, h2, h3⟩ := k.gone i hb hn
      rw [h.filt] at h3
      exact ⟨d, h.line d h1, h2, h3⟩
    · obtain ⟨d, h1, h2, h3⟩ := h.gone i hi hb
      exact ⟨d, h1, fun hc => h2 (k.line d hc), h3⟩
  · obtain ⟨h1, h2⟩ := h.keep d hd
    obtain ⟨k1, k2⟩ := k.keep d fun hb => hd (h.line d hb)
    exact ⟨k1.trans h1, fun hr => k2 (h2 hr)⟩

/-- one item is taken out for `c` -/
structure Picked (c item : CId) (s : StId) (w w' : World) : Prop where
  good : Good ∅ w'
  now : w'.now = w.now
  filt : ∀ d, (w'.comps d).fromFilter = (w.comps d).fromFilter
  line : ∀ d, d ∈ w'.inQ (.fromReq s) ↔ d ∈ w.inQ (.fromReq s) ∧ d ≠ c
  was : item ∈ w.inQ (.store s)
  new : ∀ i ∈ w'.inQ (.store s), (i ∈ w.inQ (.store s) ∧ i ≠ item) ∨ Unwanted w' s i ∧ Offered w s i
  offers : ∀ i, Offered w' s i → Offered w s i
  out : ∀ i ∈ w.inQ (.store s), i ≠ item → i ∈ w'.inQ (.store s)
  keep : ∀ d, d ≠ c → (w'.comps d).fromItem = (w.comps d).fromItem ∧ (DueNow w d → DueNow w' d)
  self : (w'.comps c).fromItem = some item ∧ DueNow w' c

/-- what `leave` does -/
structure Leaving (item : CId) (s : StId) (w w' : World) : Prop where
  now : w'.now = w.now
  filt : ∀ d, (w'.comps d).fromFilter = (w.comps d).fromFilter
  line : w'.inQ (.fromReq s) = w.inQ (.fromReq s)
  was : item ∈ w.inQ (.store s)
  new : ∀ i ∈ w'.inQ (.store s), (i ∈ w.inQ (.store s) ∧ i ≠ item) ∨ Unwanted w s i ∧ Offered w s i
  offers : ∀ i, Offered w' s i → Offered w s i
  out : ∀ i ∈ w.inQ (.store s), i ≠ item → i ∈ w'.inQ (.store s)
  keep : ∀ d, (w'.comps d).fromItem = (w.comps d).fromItem ∧ (DueNow w d → DueNow w' d)

theorem storeLeave_leaving {fuel item s} {w w' : World} (hg : Good ∅ w) (h : storeLeave fuel item s w = .ok w') : Leaving item s w w' := by
  obtain ⟨w1, k1, k2⟩ := storeLeave_exact h
  have g1 := k1.good hg
  have l1 : Leaving item s w w1 := by
    have hc := k1.comps
    have hn := k1.now
    have hfr : w1.inQ (.fromReq s) = w.inQ (.fromReq s) := by rw [World.inQ, k1.other (by simp)]; rfl
    obtain ⟨q', a, b, x, hx, rfl⟩ := k1
    have e1 : w.inQ (.store s) = a.map QMem.c ++ item :: b.map QMem.c := by rw [World.inQ, hx.mem]; simp [hx.xc]
    have e2 : (w.modQ (.store s) (fun _ => q')).inQ (.store s) = a.map QMem.c ++ b.map QMem.c := by
      simp only [World.inQ, World.modQ, if_true]; rw [hx.eq]; simp
    have hnd := hg.nd (.store s)
    rw [e1] at hnd
    refine ⟨hn, fun _ => rfl, hfr, by rw [e1]; simp, fun i hi => .inl ⟨?_, ?_⟩, fun i hi => ?_, fun i hi hne => ?_, fun d => ⟨rfl, fun h => h⟩⟩
    · rw [e2] at hi; rw [e1]; simp only [List.mem_append, List.mem_cons] at hi ⊢; tauto
    · rintro rfl
      rw [e2] at hi
      rw [List.nodup_middle, List.nodup_cons] at hnd
      exact hnd.1 hi
    · obtain ⟨p, hp, hpi⟩ := hi
      exact ⟨p, by rw [inQ_modQ', if_neg (by simp)] at hp; exact hp, hpi⟩
    · rw [e1] at hi; rw [e2]; simp only [List.mem_append, List.mem_cons] at hi ⊢; tauto
  rcases k2 with ⟨rfl, _⟩ | ⟨m, y, _, _, hm, hy, hw, w2, w3, w4, k2, k3, k4, rfl⟩
  · exact l1
  · have g2 := k2.good g1
    obtain ⟨c3, n3, e3, q3, _, _⟩ := leaves_away (K := fun s => .toReq s) _ k3
    obtain ⟨l3, n3'⟩ := leaveTo_good g2 k3
    have g3 : w3.Inv := (l3.good g2).inv
    obtain ⟨w4', h4, kk⟩ := wake_woken (w := w3.modC m.c (fun x => { x with toStores := [] })) (inv_of_ev (ev_modC (fun _ => rfl)) g3) m.c none
    rw [h4] at k4; cases k4
    have hc2 := k2.comps
    have hn2 := k2.now
    have hfr2 : ∀ t, w2.inQ (.fromReq t) = w1.inQ (.fromReq t) := fun t => by rw [World.inQ, k2.other (by simp)]; rfl
    have hfr : w4.inQ (.fromReq s) = w1.inQ (.fromReq s) := by
      rw [World.inQ, kk.queues, ← hfr2]
      show (w3.inQ (.fromReq s)) = _
      rw [World.inQ, q3 _ (by simp)]; rfl
    have hst : ∀ i, i ∈ w4.inQ (.store s) ↔ i = y ∨ i ∈ w1.inQ (.store s) := by
      intro i
      have : w4.inQ (.store s) = w2.inQ (.store s) := by
        rw [World.inQ, kk.queues]
        show (w3.inQ (.store s)) = _
        rw [World.inQ, q3 _ (by simp)]; rfl
      rw [this]
      obtain ⟨q', a, b, x, hx, rfl⟩ := k2
      have e1 : w1.inQ (.store s) = a.map QMem.c ++ b.map QMem.c := by rw [World.inQ, hx.mem]; simp
      have e2 : (w1.modQ (.store s) (fun _ => q')).inQ (.store s) = a.map QMem.c ++ y :: b.map QMem.c := by
        simp only [World.inQ, World.modQ, if_true]; rw [hx.eq]; simp [hx.xc]
      rw [e1, e2]; simp only [List.mem_append, List.mem_cons]; tauto
    have hcomp : ∀ d, ((w4.modC m.c (fun x => { x with toItem := none })).comps d).fromFilter = (w1.comps d).fromFilter ∧
        ((w4.modC m.c (fun x => { x with toItem := none })).comps d).fromItem = (w1.comps d).fromItem ∧
        (DueNow w1 d → DueNow (w4.modC m.c (fun x => { x with toItem := none })) d) := by
      intro d
      have hnow : w4.now = w1.now := kk.now.trans (n3.trans hn2)
      by_cases e : d = m.c
      · subst e
        unfold DueNow World.status
        rw [modC_self, kk.self, modC_self, c3, hc2]
        exact ⟨rfl, rfl, fun _ => ⟨rfl, congrArg (fun x : Rat => (x : ETime)) kk.now.symm⟩⟩
      · unfold DueNow World.status
        rw [modC_other e, kk.other d e, modC_other e, c3, hc2]
        refine ⟨rfl, rfl, fun h => ⟨h.1, h.2.trans ?_⟩⟩
        show (w1.now : ETime) = (w4.now : ETime)
        rw [hnow]
    refine ⟨kk.now.trans (n3.trans (hn2.trans l1.now)), fun d => (hcomp d).1.trans (l1.filt d), hfr.trans l1.line, l1.was, fun i hi => ?_, fun i hi => ?_, fun i hi hne => ?_,
      fun d => ⟨(hcomp d).2.1.trans (l1.keep d).1, fun h => (hcomp d).2.2 ((l1.keep d).2 h)⟩⟩
    · rcases (hst i).1 hi with rfl | hi
      · refine .inr ⟨fun d hd => ?_, l1.offers _ ⟨m.c, hm, hy⟩⟩
        rw [← l1.line] at hd
        obtain ⟨z, hz, rfl⟩ := List.mem_map.1 hd
        rw [← l1.filt]
        simpa using List.find?_eq_none.1 hw z hz
      · exact l1.new i hi
    · obtain ⟨p, hp, hpi⟩ := hi
      have hp3 : p ∈ w3.inQ (.toReq s) := by
        have : p ∈ w4.inQ (.toReq s) := hp
        rw [World.inQ, kk.queues] at this; exact this
      have hpm : p ≠ m.c := by rintro rfl; exact n3' s hp3
      refine l1.offers i ⟨p, ?_, ?_⟩
      · have := (l3.sub (.toReq s)).subset hp3
        rw [World.inQ, k2.other (by simp)] at this; exact this
      · rw [modC_other hpm, kk.other p hpm, modC_other hpm, c3, hc2] at hpi; exact hpi
    · exact (hst i).2 (.inr (l1.out i hi hne))

theorem rescanItems_picked {fuel c item s} {w w' : World} (hg : Good ∅ w) (ha : (w.comps c).fromFilter item = true)
    (h : rescanItems fuel c s item w = .ok w') : Picked c item s w w' := by
  unfold rescanItems at h
  rw [if_pos ha] at h
  obtain ⟨w1, h1, h⟩ := andThen_ok h
  obtain ⟨w2, h2, h3⟩ := andThen_ok h
  obtain ⟨l1, n1⟩ := leaveFrom_good hg h1
  have g1 := l1.good hg
  have t2 := (trR_store ∅ fuel).2 _ _ _ g1 w2 h2
  have l2 := storeLeave_leaving g1 h2
  obtain ⟨w3, h3', kk⟩ := wake_woken (w := w2.modC c (fun x => { x with fromStores := [], fromItem := some item })) (inv_of_ev (ev_modC (fun _ => rfl)) t2.good.inv) c (some item)
  obtain ⟨g4, _⟩ := wakeFrom_good (e' := ∅) t2.good (fun _ _ => Iff.rfl) (fun s hs => n1 s (t2.sub _ rfl _ hs)) h3
  rw [h3'] at h3; cases h3
  have gn := gone_from h1
  obtain ⟨c1, k1, _, q1, _, _⟩ := leaves_away (K := fun s => .fromReq s) _ h1
  have hst1 : w1.inQ (.store s) = w.inQ (.store s) := by rw [World.inQ, q1 _ (by simp)]; rfl
  have hq : ∀ q, w'.inQ q = w2.inQ q := fun q => by rw [World.inQ, kk.queues]; rfl
  have hline : ∀ d, d ∈ w'.inQ (.fromReq s) ↔ d ∈ w.inQ (.fromReq s) ∧ d ≠ c := by
    intro d
    rw [hq, l2.line]
    by_cases e : d = c
    · subst e; simp [n1 s]
    · rw [gn.other _ d e]; simp [e]
  have hfilt : ∀ d, (w'.comps d).fromFilter = (w.comps d).fromFilter := by
    intro d
    by_cases e : d = c
    · subst e; rw [kk.self, modC_self]; show (w2.comps d).fromFilter = _; rw [l2.filt, c1]
    · rw [kk.other d e, modC_other e, l2.filt, c1]
  have hnow : w'.now = w.now := kk.now.trans (l2.now.trans k1)
  have hoff : ∀ i, Offered w1 s i → Offered w s i := fun i ⟨p, hp, hpi⟩ =>
    ⟨p, by rw [World.inQ, q1 _ (by simp)] at hp; exact hp, by rw [c1] at hpi; exact hpi⟩
  refine ⟨g4, hnow, hfilt, hline, by rw [← hst1]; exact l2.was, fun i hi => ?_, fun i hi => ?_, fun i hi hne => ?_, fun d hd => ⟨?_, fun hr => ?_⟩, ?_, ?_⟩
  · rw [hq] at hi
    rcases l2.new i hi with hi | hi
    · rw [hst1] at hi; exact .inl hi
    · refine .inr ⟨hi.1.less (fun d => by rw [hfilt, c1]) fun d hd => ?_, hoff i hi.2⟩
      rw [hq, l2.line] at hd; exact hd
  · obtain ⟨p, hp, hpi⟩ := hi
    rw [hq] at hp
    refine hoff i (l2.offers i ⟨p, hp, ?_⟩)
    by_cases e : p = c
    · subst e; rw [kk.self, modC_self] at hpi; exact hpi
    · rw [kk.other p e, modC_other e] at hpi; exact hpi
  · rw [hq]; exact l2.out i (by rw [hst1]; exact hi) hne
  · rw [kk.other d hd, modC_other hd, (l2.keep d).1, c1]
  · have r1 : DueNow w1 d := by unfold DueNow World.status at hr ⊢; rw [c1, k1]; exact hr
    have r2 := (l2.keep d).2 r1
    unfold DueNow World.status at r2 ⊢
    rw [kk.other d hd, modC_other hd, kk.now]
    exact r2
  · rw [kk.self, modC_self]
  · unfold DueNow World.status
    rw [kk.self, modC_self, kk.now]
    exact ⟨rfl, rfl⟩

/-- the items one by one, for `c` -/
theorem rescanItems_comb {fuel c s} {w0 : World} (hin : c ∈ w0.inQ (.fromReq s)) : ∀ (l : List CId) (w w' : World), (∀ i ∈ l, i ∈ w0.inQ (.store s)) →
    Good ∅ w → Comb s w0 w → (c ∈ w.inQ (.fromReq s) → w = w0) → forR l (rescanItems fuel c s) w = .ok w' →
    Good ∅ w' ∧ Comb s w0 w' ∧ (c ∈ w'.inQ (.fromReq s) → c ∈ w.inQ (.fromReq s)) ∧
      (c ∈ w'.inQ (.fromReq s) → w' = w0 ∧ ∀ i ∈ l, (w0.comps c).fromFilter i = false)
  | [], w, w', _, hg, hc, he, h => by cases h; exact ⟨hg, hc, fun k => k, fun k => ⟨he k, by simp⟩⟩
  | item :: l, w, w', hl, hg, hc, he, h => by
    obtain ⟨w1, h1, h2⟩ := andThen_ok h
    by_cases ha : (w.comps c).fromFilter item = true
    · have k := rescanItems_picked hg ha h1
      have hout : c ∉ w1.inQ (.fromReq s) := fun hh => ((k.line c).1 hh).2 rfl
      have hc1 : Comb s w0 w1 := by
        refine ⟨k.now.trans hc.now, fun d => (k.filt d).trans (hc.filt d), fun d hd => hc.line d ((k.line d).1 hd).1, fun i hi => ?_,
          fun i hi => hc.offers i (k.offers i hi), fun d hd hn => ?_, fun d hd hn e hee hm hde i hi => ?_, fun i hi hn => ?_, fun d hd => ?_⟩
        · rcases k.new i hi with hi | hi
          · rcases hc.new i hi.1 with hi | hi
            · exact .inl hi
            · exact .inr ⟨hi.1.less k.filt fun d hd => ((k.line d).1 hd).1, hi.2⟩
          · exact .inr ⟨hi.1, hc.offers i hi.2⟩
        · by_cases e : d = c
          · subst e
            refine ⟨item, hl item List.mem_cons_self, by rw [← hc.filt]; exact ha, k.self.1, k.self.2, fun ho hi => ?_⟩
            rcases k.new item hi with hi | hi
            · exact hi.2 rfl
            · exact ho (hc.offers _ hi.2)
          · have hb : d ∉ w.inQ (.fromReq s) := fun hb => hn ((k.line d).2 ⟨hb, e⟩)
            obtain ⟨i, h1, h2, h3, h4, h5⟩ := hc.got d hd hb
            obtain ⟨k1, k2⟩ := k.keep d e
            refine ⟨i, h1, h2, k1.trans h3, k2 h4, fun ho hi => ?_⟩
            rcases k.new i hi with hi | hi
            · exact h5 ho hi.1
            · exact ho (hc.offers _ hi.2)
        · have other : ∀ x, x ∈ w0.inQ (.fromReq s) → x ∉ w1.inQ (.fromReq s) → x ≠ c → (w1.comps x).fromItem = some i →
              x ∉ w.inQ (.fromReq s) ∧ (w.comps x).fromItem = some i ∧ i ∉ w.inQ (.store s) := by
            intro x hx hxn hxc hxi
            have hb : x ∉ w.inQ (.fromReq s) := fun hb => hxn ((k.line x).2 ⟨hb, hxc⟩)
            rw [(k.keep x hxc).1] at hxi
            obtain ⟨j, _, _, h3, _, h5⟩ := hc.got x hx hb
            rw [h3] at hxi; cases hxi
            exact ⟨hb, h3, h5 hi⟩
          rintro ⟨q1, q2⟩
          by_cases e1 : d = c
          · subst e1
            rw [k.self.1] at q1; cases q1
            exact (other e hee hm (Ne.symm hde) q2).2.2 k.was
          · by_cases e2 : e = c
            · subst e2
              rw [k.self.1] at q2; cases q2
              exact (other d hd hn e1 q1).2.2 k.was
            · obtain ⟨a1, a2, _⟩ := other d hd hn e1 q1
              obtain ⟨b1, b2, _⟩ := other e hee hm e2 q2
              exact hc.once d hd a1 e hee b1 hde i hi ⟨a2, b2⟩
        · by_cases hb : i ∈ w.inQ (.store s)
          · have : i = item := by
              by_contra hne
              exact hn (k.out i hb hne)
            subst this
            exact ⟨c, hin, hout, by rw [← hc.filt]; exact ha⟩
          · obtain ⟨d, h1, h2, h3⟩ := hc.gone i hi hb
            exact ⟨d, h1, fun hh => h2 ((k.line d).1 hh).1, h3⟩
        · have e : d ≠ c := by rintro rfl; exact hd hin
          obtain ⟨h1, h2⟩ := hc.keep d hd
          obtain ⟨k1, k2⟩ := k.keep d e
          exact ⟨k1.trans h1, fun hr => k2 (h2 hr)⟩
      obtain ⟨r1, r2, r4, r3⟩ := rescanItems_comb hin l w1 w' (fun i hi => hl i (List.mem_cons_of_mem _ hi)) k.good hc1 (fun hh => absurd hh hout) h2
      exact ⟨r1, r2, fun hh => absurd (r4 hh) hout, fun hh => absurd (r4 hh) hout⟩
    · unfold rescanItems at h1
      rw [if_neg ha] at h1
      cases h1
      obtain ⟨r1, r2, r4, r3⟩ := rescanItems_comb hin l w w' (fun i hi => hl i (List.mem_cons_of_mem _ hi)) hg hc he h2
      refine ⟨r1, r2, r4, fun hh => ⟨(r3 hh).1, fun i hi => ?_⟩⟩
      rcases List.mem_cons.1 hi with rfl | hi
      · rw [← hc.filt]; simpa using ha
      · exact (r3 hh).2 i hi

/-- the requesters one by one -/
theorem rescan_comb {fuel s} : ∀ (l : List CId) (w w' : World), Good ∅ w → forR l (fun c w =>
      if (w.queues (.fromReq s)).has c then forR (w.inQ (.store s)) (rescanItems fuel c s) w else .ok w) w = .ok w' →
    Comb s w w' ∧ ∀ d ∈ l, d ∈ w'.inQ (.fromReq s) → ∀ i ∈ w'.inQ (.store s), (w'.comps d).fromFilter i = false
  | [], w, w', hg, h => by cases h; exact ⟨.refl _ _, by simp⟩
  | c :: l, w, w', hg, h => by
    obtain ⟨w1, h1, h2⟩ := andThen_ok h
    have hstep : Good ∅ w1 ∧ Comb s w w1 ∧ (c ∈ w1.inQ (.fromReq s) → ∀ i ∈ w1.inQ (.store s), (w1.comps c).fromFilter i = false) := by
      simp only at h1
      split at h1
      · rename_i hh
        rw [has_inQ] at hh
        obtain ⟨r1, r2, _, r3⟩ := rescanItems_comb hh _ w w1 (fun i hi => hi) hg (.refl _ _) (fun _ => rfl) h1
        refine ⟨r1, r2, fun hc => ?_⟩
        obtain ⟨rfl, k⟩ := r3 hc
        exact k
      · rename_i hh
        cases h1
        rw [has_inQ] at hh
        exact ⟨hg, .refl _ _, fun hc => absurd hc hh⟩
    obtain ⟨g1, c1, k1⟩ := hstep
    obtain ⟨c2, k2⟩ := rescan_comb l w1 w' g1 h2
    refine ⟨c1.trans c2, fun d hd hin i hi => ?_⟩
    rcases List.mem_cons.1 hd with rfl | hd
    · rcases c2.new i hi with hi | hi
      · rw [c2.filt]; exact k1 (c2.line _ hin) i hi
      · exact hi.1 d hin
    · exact k2 d hd hin i hi

/-- all a program can do, while its filters give other answers from time to time (they may look at whatever they like) -/
inductive Season : World → Prop
  | start {w} : Fresh w → Season w
  | call {w w'} (fuel : Nat) (o : Op) : Season w → Calm fuel w o → exec fuel o w = .ok w' → Season w'
  | filters {w} (f) : Season w → Season (refilter f w)

theorem Season.good {w : World} (h : Season w) : Good ∅ w := by
  induction h with
  | start hf => exact fresh_good hf
  | call fuel o _ hc hx ih => exact exec_good ih hc hx
  | filters f _ ih => exact refilter_good ih f

/-- C74: after `rescan` no item in the store is accepted by a component that's waiting for an item of the store -/
theorem C74_nothing_left {w w' : World} {fuel s} (h : Season w) (hx : exec fuel (.rescan s) w = .ok w') : ∀ i ∈ w'.inQ (.store s), Unwanted w' s i := by
  obtain ⟨k1, k2⟩ := rescan_comb _ w w' h.good hx
  exact fun i hi d hd => k2 d (k1.line d hd) hd i hi

/-- C74: those that don't wait for an item of the store anymore got an item that was in the store, and that they accept, and continue now; that item isn't in the store
anymore, and nobody else got it (unless there's a component waiting to put it into the store once more); all items that aren't in the store anymore are accepted by one of those
served; nobody has joined the line -/
theorem C74_served {w w' : World} {fuel s} (h : Season w) (hx : exec fuel (.rescan s) w = .ok w') :
    (∀ d ∈ w.inQ (.fromReq s), d ∉ w'.inQ (.fromReq s) → ∃ i ∈ w.inQ (.store s), (w.comps d).fromFilter i = true ∧ (w'.comps d).fromItem = some i ∧ DueNow w' d ∧
      (¬ Offered w s i → i ∉ w'.inQ (.store s) ∧ ∀ e ∈ w.inQ (.fromReq s), e ∉ w'.inQ (.fromReq s) → e ≠ d → (w'.comps e).fromItem ≠ some i)) ∧
    (∀ i ∈ w.inQ (.store s), i ∉ w'.inQ (.store s) → ∃ d ∈ w.inQ (.fromReq s), d ∉ w'.inQ (.fromReq s) ∧ (w.comps d).fromFilter i = true) ∧
    (∀ d, d ∈ w'.inQ (.fromReq s) → d ∈ w.inQ (.fromReq s)) ∧ w'.now = w.now := by
  obtain ⟨k1, _⟩ := rescan_comb _ w w' h.good hx
  refine ⟨fun d hd hn => ?_, k1.gone, k1.line, k1.now⟩
  obtain ⟨i, h1, h2, h3, h4, h5⟩ := k1.got d hd hn
  exact ⟨i, h1, h2, h3, h4, fun ho => ⟨h5 ho, fun e he hen hne hei => k1.once d hd hn e he hen (Ne.symm hne) i ho ⟨h3, hei⟩⟩⟩

/-! ## non-trivial cases -/

/-- item 105 can't be put in store 1, which is full with items 100 and 101, so component 4 waits; components 1, 2 and 3 wait for items from store 1, of which they accept nothing;
then filters change: component 2 accepts 101, component 3 accepts 100 and 101, nobody accepts 105 -/
def seasonW : World :=
  refilter (fun c i => (c == 2 && i == 101) || (c == 3 && (i == 100 || i == 101)))
    (execAll 20 (begin 1 ++ [want 1 [1] []] ++ begin 2 ++ [want 2 [1] []] ++ begin 3 ++ [want 3 [0, 1] []] ++
      [.storeEnter 100 1 none, .storeEnter 101 1 none] ++ begin 4 ++ [bring 4 [1] 105]) shelf)

theorem Reach.season {w : World} (h : Reach Calm w) : Season w := by
  induction h with
  | init hf => exact .start hf
  | op fuel o _ ho ih =>
    have hc := ho
    obtain ⟨⟨w', hw⟩, _⟩ := ho
    rw [hw]
    exact .call fuel o ih hc hw

theorem seasonW_season : Season seasonW := .filters _ (reach_calm _ (.init fresh_shelf) _ (by decide +kernel)).season

/-- component 2 gets item 101, component 3 gets item 100, after which only item 105 is in the store -/
example : seasonW.inQ (.fromReq 1) = [1, 2, 3] ∧ seasonW.inQ (.store 1) = [100, 101] ∧ seasonW.inQ (.toReq 1) = [4] ∧ (exec 20 (.rescan 1) seasonW).isOk = true ∧
    (exec 20 (.rescan 1) seasonW).world.inQ (.fromReq 1) = [1] ∧ (exec 20 (.rescan 1) seasonW).world.inQ (.store 1) = [105] ∧
    ((exec 20 (.rescan 1) seasonW).world.comps 3).fromItem = some 100 := by decide +kernel

end Verif
