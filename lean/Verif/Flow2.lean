import Verif.Flow

/-!
# Where the items of stores go: the calls of the API
-/

namespace Verif
open World

/-- a waiting component is served by a higher capacity -/
theorem served_flow {e : Set CId} {fuel : Nat} {s c y r} {w w1 w2 w3 : World} (hg : Good e w) (hc : c ∈ w.inQ (.toReq s))
    (h1 : forR (w.comps c).toStores (fun s0 => leaveQ c (.toReq s0)) w = .ok w1) (hy : (w1.comps c).toItem = some y)
    (h2 : storeEnter fuel y s r w1 = .ok w2) (h3 : wake c none (w2.modC c (fun x => { x with toStores := [] })) = .ok w3) :
    ∃ l, Flow nothing l w (w3.modC c (fun x => { x with toItem := none })) := by
  obtain ⟨c1, n1, e1, q1, cap1, sub1⟩ := leaves_away (K := fun s => .toReq s) _ h1
  obtain ⟨l1, gone1⟩ := leaveTo_good hg h1
  have g1 := l1.good hg
  obtain ⟨l, f, _⟩ := storeEnter_flow g1 h2 (some c) (fun d hd => by cases hd; exact gone1)
  have g2 : Good e w2 := ((trR_store e fuel).1 _ _ _ _ g1 w2 h2).good
  obtain ⟨w3', h3', k⟩ := wake_woken (w := w2.modC c (fun x => { x with toStores := [] })) (inv_of_ev (ev_modC (fun _ => rfl)) g2.inv) c none
  rw [h3'] at h3; cases h3
  refine ⟨.put y s (some c) :: l, ?_⟩
  have hoth : ∀ d, d ≠ c → (w3.modC c (fun x => { x with toItem := none })).comps d = w2.comps d := fun d hd => by
    rw [modC_other hd, k.other d hd, modC_other hd]
  have hself : (w3.modC c (fun x => { x with toItem := none })).comps c =
      { w2.comps c with toStores := [], toItem := none, status := .scheduled, schedTime := (w2.now : ETime), onList := true } := by
    rw [modC_self, k.self, modC_self]; rfl
  have hq : (w3.modC c (fun x => { x with toItem := none })).queues = w2.queues := k.queues
  have hn2 : w2.now = w.now := f.now.trans n1
  have hin : ∀ q, (w3.modC c (fun x => { x with toItem := none })).inQ q = w2.inQ q := fun q => by simp only [World.inQ, hq]
  have hevs : ∀ ev : Ev, ev.c ≠ c → (ev ∈ (w3.modC c (fun x => { x with toItem := none })).events ↔ ev ∈ w2.events) := fun ev he => k.evs ev he
  have hnow : (w3.modC c (fun x => { x with toItem := none })).now = w.now := k.now.trans hn2
  have hin1 : ∀ q, (∀ x, q ≠ .toReq x) → w1.inQ q = w.inQ q := fun q hq => by simp only [World.inQ, q1 q hq]
  generalize w3.modC c (fun x => { x with toItem := none }) = w4 at hoth hself hq hin hevs hnow
  have hst : w4.status c = .scheduled := by rw [World.status, hself]
  have htm : (w4.comps c).schedTime = (w.now : ETime) := by rw [hself, hn2]
  exact
  { led := by
      have h4 : conts w4 = conts w2 := by funext x; exact hin _
      have h5 : conts w1 = conts w := by funext x; exact hin1 _ (by simp)
      have h6 : caps w1 = caps w := by funext x; exact cap1 _
      rw [h4, ← h5, ← h6]; exact f.led
    caps := by
      have h4 : caps w4 = caps w2 := by funext x; simp only [caps, hq]
      have h6 : caps w1 = caps w := by funext x; exact cap1 _
      rw [h4, ← h6]; exact f.caps
    now := hnow
    taken := fun i t d hm => by
      have g := f.taken i t d hm
      refine ⟨by rw [← hin1 _ (by simp)]; exact g.waits, by rw [← c1]; exact g.accepts, ?_, fun x => by rw [hin]; exact g.gone x, ?_, ?_, fun ht => ?_⟩
      · by_cases hd : d = c
        · subst hd; rw [hself]; exact g.item
        · rw [hoth d hd]; exact g.item
      · by_cases hd : d = c
        · rw [hd]; exact hst
        · rw [World.status, hoth d hd]; exact g.status
      · by_cases hd : d = c
        · rw [hd]; exact htm
        · rw [hoth d hd, g.time, n1]
      · have hd : d ≠ c := by rintro rfl; exact ht _ hc
        obtain ⟨ev, h4, h5, h6, h7⟩ := g.event fun x hx => ht x (sub1 _ _ hx)
        exact ⟨ev, (hevs ev (by rw [h5]; exact hd)).2 h4, h5, h6.trans n1, h7⟩
    takers := f.takers
    puts := fun i t p hm => by
      rcases f.puts i t p hm with ⟨⟨rfl, rfl, rfl⟩, _⟩ | ⟨d, hp, g⟩
      · exact .inr ⟨c, rfl, hc, by rw [← c1]; exact hy, fun x hx => by
          rw [hin] at hx; exact gone1 x (f.subT x c hx), hst, htm⟩
      · refine .inr ⟨d, hp, sub1 _ _ g.waits, by rw [← c1]; exact g.item, fun x => by rw [hin]; exact g.gone x, ?_, ?_⟩
        · by_cases hd : d = c
          · rw [hd]; exact hst
          · rw [World.status, hoth d hd]; exact g.status
        · by_cases hd : d = c
          · rw [hd]; exact htm
          · rw [hoth d hd, g.time, n1]
    givers := f.givers
    nodrop := f.nodrop
    subF := fun x d hd => by
      rw [hin] at hd
      have := f.subF x d hd
      rwa [hin1 _ (by simp)] at this
    subT := fun x d hd => by
      rw [hin] at hd
      exact sub1 _ _ (f.subT x d hd)
    filt := fun d => by
      have h4 : (w2.comps d).fromFilter = (w.comps d).fromFilter := by rw [f.filt, c1]
      by_cases hd : d = c
      · rw [hd, hself, ← hd]; exact h4
      · rw [hoth d hd]; exact h4
    item := fun x d hx => by
      rw [hin] at hx
      have hd : d ≠ c := by rintro rfl; exact gone1 x (f.subT x d hx)
      rw [hoth d hd, f.item x d hx, c1]
    keepF := fun d hd => by
      have h4 : (w2.comps d).fromItem = (w.comps d).fromItem := by
        rw [f.keepF d (fun x => by rw [hin1 _ (by simp)]; exact hd x), c1]
      by_cases hd : d = c
      · rw [hd, hself, ← hd]; exact h4
      · rw [hoth d hd]; exact h4
    keepS := fun d => by
      by_cases hd : d = c
      · rw [hd]; exact .inr ⟨hst, htm⟩
      · have := f.keepS d
        rw [World.status, World.status, c1, n1] at this
        rw [World.status, World.status, hoth d hd]; exact this
    keepE := fun d hd ht ev he => by
      have hne : d ≠ c := by rintro rfl; exact ht _ hc
      rw [hevs ev (by rw [he]; exact hne), f.keepE d (fun x => by rw [hin1 _ (by simp)]; exact hd x) (fun x hx => ht x (sub1 _ _ hx)) ev he, e1] }

theorem rescanTo_flow {e : Set CId} (fuel : Nat) (s : StId) : ∀ (l : List CId) {w w' : World}, Good e w → rescanTo fuel s l w = .ok w' →
    ∃ m, Flow nothing m w w'
  | [], w, w', hg, h => by cases h; exact ⟨[], .refl _ _⟩
  | c :: t, w, w', hg, h => by
    have h0 := h
    unfold rescanTo at h
    split at h
    · rename_i hh
      rw [has_inQ] at hh
      split at h
      · obtain ⟨w1, h1, h⟩ := andThen_ok h
        split at h
        · cases h
        · rename_i y hy
          obtain ⟨w2, h2, h⟩ := andThen_ok h
          obtain ⟨w3, h3, h4⟩ := andThen_ok h
          obtain ⟨m1, f1⟩ := served_flow hg hh h1 hy h2 h3
          have g3 : Good e (w3.modC c (fun x => { x with toItem := none })) := by
            obtain ⟨l1, n1⟩ := leaveTo_good hg h1
            have t2' := (trR_store e fuel).1 _ _ _ _ (l1.good hg) w2 h2
            exact (wakeTo_good (e' := e) t2'.good (fun _ _ => Iff.rfl) (fun s hs => n1 s (t2'.sub _ rfl _ hs)) h3).1.modC'
              (fun _ => rfl) (fun _ => rfl) (fun _ => rfl) (fun _ => rfl) (fun _ => rfl)
          obtain ⟨m2, f2⟩ := rescanTo_flow fuel s t g3 h4
          exact ⟨m1 ++ m2, f1.trans f2⟩
      · cases h; exact ⟨[], .refl _ _⟩
    · exact rescanTo_flow fuel s t hg h

/-! ## calls that leave stores alone -/

/-- the contents and capacities of the stores -/
def Still (C : StId → List CId) (K : StId → ETime) (w : World) : Prop := conts w = C ∧ caps w = K

theorem Still.of {C K} {w w' : World} (h : Still C K w) (hq : ∀ s, w'.inQ (.store s) = w.inQ (.store s))
    (hk : ∀ s, (w'.queues (.store s)).cap = (w.queues (.store s)).cap) : Still C K w' := by
  refine ⟨Eq.trans ?_ h.1, Eq.trans ?_ h.2⟩
  · funext s; exact hq s
  · funext s; exact hk s

theorem leaveWaiters_queues {c : CId} {x : Wait} {w w' : World} (h : leaveWaiters c x w = .ok w') :
    ∀ q, (∀ y, q ≠ .waiters y) → w'.queues q = w.queues q := by
  unfold leaveWaiters at h
  split at h
  · obtain ⟨q', _, h2⟩ := onQueue_ok h
    intro q hq
    rw [h2, modQ_queues_other (hq _)]
  · cases h; exact fun _ _ => rfl

theorem forR_queues {α : Type} {f : α → World → R} {q : QRef} (hf : ∀ a w w', f a w = .ok w' → w'.queues q = w.queues q) :
    ∀ (l : List α) {w w' : World}, forR l f w = .ok w' → w'.queues q = w.queues q
  | [], w, w', h => by cases h; rfl
  | a :: t, w, w', h => by
    unfold forR at h
    obtain ⟨w1, h1, h2⟩ := andThen_ok h
    exact (forR_queues hf t h2).trans (hf a w w1 h1)

theorem still_base (C K) : Base (Still C K) := by
  refine ⟨?_, ?_, ?_, ?_, ?_, ?_, ?_⟩
  · intro w w' h _ h2 _; exact h.of (fun s => by simp only [World.inQ, h2]) (fun s => by rw [h2])
  · intro w c f h _ _; exact h
  · intro w q f h hq
    have : ∀ s, QRef.store s ≠ q := by rintro s rfl; cases hq
    exact h.of (fun s => by simp only [World.inQ, modQ_queues_other (this s)]) (fun s => by rw [modQ_queues_other (this s)])
  · intro w q _ _ h
    refine h.of (fun s => ?_) (fun s => ?_)
    · rw [inQ_modQ']; split
      · rename_i hs; rw [← hs]; rfl
      · rfl
    · by_cases hs : .store s = q
      · subst hs; rw [modQ_queues_self]; rfl
      · rw [modQ_queues_other hs]
  · intro w w' c h hf
    unfold checkFailWait at hf
    split at hf
    · cases hf; exact h
    · obtain ⟨w1, h1, h2⟩ := andThen_ok hf
      cases h2
      have hq := fun s => forR_queues (q := .store s) (fun a w w' h => leaveWaiters_queues h _ (by simp)) _ h1
      exact h.of (fun s => by simp only [World.inQ]; exact congrArg (fun q => q.mem.map QMem.c) (hq s)) (fun s => congrArg Queue.cap (hq s))
  · intro w w' c h hf
    unfold checkFailFrom at hf
    split at hf
    · cases hf; exact h
    · obtain ⟨w1, h1, h2⟩ := andThen_ok hf
      cases h2
      obtain ⟨_, _, _, hq, _⟩ := leaves_away (K := fun s => .fromReq s) _ h1
      exact h.of (fun s => congrArg (fun q => q.mem.map QMem.c) (hq (.store s) (by simp))) (fun s => congrArg Queue.cap (hq (.store s) (by simp)))
  · intro w w' c h hf
    unfold checkFailTo at hf
    split at hf
    · cases hf; exact h
    · obtain ⟨w1, h1, h2⟩ := andThen_ok hf
      cases h2
      obtain ⟨_, _, _, hq, _⟩ := leaves_away (K := fun s => .toReq s) _ h1
      exact h.of (fun s => congrArg (fun q => q.mem.map QMem.c) (hq (.store s) (by simp))) (fun s => congrArg Queue.cap (hq (.store s) (by simp)))

theorem Still.onQueue {C K} {w : World} (h : Still C K w) {q : QRef} (hq : ∀ s, q ≠ .store s) (f) : Po (Still C K) (onQueue q f w) := by
  refine Po.of fun w' h1 => ?_
  obtain ⟨q', _, h2⟩ := onQueue_ok h1
  have : ∀ s, QRef.store s ≠ q := fun s hs => hq s hs.symm
  rw [h2]
  exact h.of (fun s => by simp only [World.inQ, modQ_queues_other (this s)]) (fun s => by rw [modQ_queues_other (this s)])

theorem still_tryWait {C K} {w : World} (h : Still C K w) (c) : Po (Still C K) (tryWait c w).1 := by
  have S := still_base C K
  unfold tryWait
  split
  · exact h
  · split
    · refine (Po.forR (fun x w h => ?_) _ _ h).andThen fun w h => bs_wake S (w := w.modC c _) h _ _
      unfold leaveWaiters
      split
      · exact h.onQueue (by simp) _
      · exact h
    · exact h

theorem still_stateTryWait {C K} : ∀ (l : List CId) (mx) {w : World}, Still C K w → Po (Still C K) (stateTryWait l mx w)
  | [], mx, w, h => h
  | c :: t, mx, w, h => by
    unfold stateTryWait
    simp only
    refine (still_tryWait h c).andThen fun w h => ?_
    split
    · split
      · exact h
      · exact still_stateTryWait t _ h
    · exact still_stateTryWait t _ h

theorem still_waitEnd {C K} {w : World} (h : Still C K w) (c t p u k) : Po (Still C K) (waitEnd c t p u k w) := by
  have S := still_base C K
  unfold waitEnd
  split
  · trivial
  · simp only
    refine (still_tryWait (w := w.modC c _) h c).andThen fun w h => ?_
    split
    · exact h
    · exact bs_reschedule S (w := setStatus c .waiting w) h _ _ _ _ _ _

/-- no call but those on stores changes what's in a store -/
theorem exec_still {C K} {w : World} (h : Still C K w) (fuel o)
    (ho : match o with | .fromStore .. | .toStore .. | .rescan .. | .storeSetCapacity .. | .storeEnter .. | .storeLeave .. => False | _ => True) :
    Po (Still C K) (exec fuel o w) := by
  have S := still_base C K
  by_cases hs : o.special = false
  · exact exec_base S h fuel o hs
  · cases o <;> simp [Op.special] at hs <;> simp only [exec] <;> try exact ho.elim
    · unfold wait
      refine (bs_preamble S (w := w.modC _ _) h _).andThen fun w h => ?_
      simp only
      split
      · trivial
      · refine (Po.forR (fun a w h => ?_) _ _ (show Still C K (w.modC _ _) from h)).andThen fun w h => still_waitEnd h _ _ _ _ _
        unfold waitArg
        refine Po.andThen ?_ fun w h => Po.ok (show Still C K (w.modC _ _) from h)
        split
        · exact h
        · split
          · exact h.onQueue (by simp) _
          · exact h.onQueue (by simp) _
    · unfold waitFor
      refine (bs_preamble S h _).andThen fun w h => ?_
      simp only
      split
      · trivial
      · refine (Po.forR (fun a w h => ?_) _ _ (show Still C K ((w.modC _ _).modC _ _) from h)).andThen fun w h => still_waitEnd h _ _ _ _ _
        exact Still.onQueue (w := w.modC _ _) h (by simp) _
    · unfold stateSet
      split
      · exact h
      · exact still_stateTryWait _ _ (w := w.setState _ _) h
    · unfold stateTrigger
      exact (still_stateTryWait _ _ (w := w.setState _ _) h).andThen fun w h => still_stateTryWait _ _ (w := w.setState _ _) h
    · exact (bs_releaseAll S h _ _).andThen fun w h => Po.ok (show Still C K (w.modC _ _) from h)

/-! ## the start of a request -/

/-- the calling component is prepared for a new request; nobody else is affected -/
structure Begun (c : CId) (w w' : World) : Prop where
  good : Good {c} w'
  off : (w'.comps c).onList = false
  nowait : NoWait (w'.comps c)
  other : ∀ d, d ≠ c → w'.comps d = w.comps d
  now : w'.now = w.now
  sub : ∀ q, (w'.inQ q).Sublist (w.inQ q)
  conts : conts w' = conts w
  caps : caps w' = caps w
  main : w'.main = w.main
  cur : w.status c = .current → w'.queues = w.queues
  evs : w.status c = .current → w'.events = w.events

theorem begun_of {c : CId} {w w1 : World} (hg : Good ∅ w) (h1 : preamble c w = .ok w1) :
    Begun c w (w1.modC c (fun x => { x with failed := false })) := by
  have s1 := (start_preamble hg (by simp) h1).1
  have st : Still (Verif.conts w) (Verif.caps w) w1 := (bs_preamble (still_base _ _) ⟨rfl, rfl⟩ c).to h1
  refine ⟨?_, by rw [modC_self]; exact s1.off, ?_, fun d hd => ?_, s1.now, s1.sub, st.1, st.2, s1.main, fun hs => ?_, fun hs => ?_⟩
  · have := s1.good.modC' (c := c) (f := fun x => { x with failed := false }) (fun _ => rfl) (fun _ => rfl) (fun _ => rfl) (fun _ => rfl) (fun _ => rfl)
    simpa using this
  · rw [modC_self]; exact ⟨s1.nowait.req, s1.nowait.wai, s1.nowait.frm, s1.nowait.tos⟩
  · rw [modC_other hd, s1.other d hd]
  all_goals
    unfold preamble at h1
    rw [if_pos hs] at h1
    cases h1; rfl

theorem Begun.notin {c : CId} {w w' : World} (h : Begun c w w') {q : QRef} (hq : q.wq = true) : c ∉ w'.inQ q :=
  fun hc => h.nowait.awaits hq (h.good.coh _ _ hc)

theorem enters_all {c : CId} {K : StId → QRef} {rp} : ∀ (l : List StId) {a b : World}, forR l (fun s => enterSortedQ c (K s) rp) a = .ok b →
    (∀ q d, d ∈ a.inQ q → d ∈ b.inQ q) ∧ (∀ x ∈ l, c ∈ b.inQ (K x)) ∧ b.comps = a.comps
  | [], a, b, h => by cases h; exact ⟨fun _ _ h => h, by simp, rfl⟩
  | y :: t, a, b, h => by
    unfold forR at h
    obtain ⟨a1, e1, e2⟩ := andThen_ok h
    obtain ⟨i1, i2, i3⟩ := enters_all t e2
    obtain ⟨q', e3, e4⟩ := onQueue_ok e1
    obtain ⟨l1, l2, z, hz, _⟩ := Queue.enterSorted_ok e3
    have hq : ∀ q d, d ∈ a.inQ q → d ∈ a1.inQ q := by
      intro q d hd
      rw [e4, inQ_modQ']
      split
      · rename_i hq
        subst hq
        rw [World.inQ, hz.mem] at hd
        rw [hz.eq]
        simp only [List.map_append, List.mem_append, List.map_cons, List.mem_cons] at hd ⊢
        tauto
      · exact hd
    refine ⟨fun q d hd => i1 q d (hq q d hd), fun x hx => ?_, by rw [i3, e4]; rfl⟩
    rcases List.mem_cons.1 hx with rfl | hx
    · refine i1 _ _ ?_
      rw [e4, inQ_modQ', if_pos rfl, hz.eq]
      simp [hz.xc]
    · exact i2 x hx

/-- `from_store` -/
theorem fromStore_start {w w' : World} {fuel c ss f k rp fa fd p u cp} (hg : Good ∅ w) (h : fromStore fuel c ss f k rp fa fd p u cp w = .ok w') :
    ss.Nodup ∧ ss ≠ [] ∧ ∃ w2, Begun c w w2 ∧ ((∃ item s w3, searchStores w2 f k ss none (ss.headD 0) = (some item, s) ∧
        storeLeave fuel item s w2 = .ok w3 ∧ wake c (some item) (w3.modC c (fun x => { x with fromItem := some item })) = .ok w') ∨
      (∃ s, searchStores w2 f k ss none (ss.headD 0) = (none, s)) ∧ conts w' = conts w ∧ caps w' = caps w ∧
        (∀ x ∈ ss, c ∈ w'.inQ (.fromReq x)) ∧ w'.status c = .requesting ∧ (w'.comps c).fromFilter = f ∧ (∀ d, d ≠ c → w'.comps d = w.comps d)) := by
  unfold fromStore at h
  split at h
  · cases h
  rename_i hss
  push Not at hss
  refine ⟨hss.1, hss.2, ?_⟩
  obtain ⟨w1, h1, h2⟩ := andThen_ok h
  simp only at h2
  split at h2
  · cases h2
  have b := begun_of hg h1
  refine ⟨_, b, ?_⟩
  generalize w1.modC c (fun x => { x with failed := false }) = w2 at h2 b
  split at h2
  · rename_i item s hs
    obtain ⟨w3, h3, h4⟩ := andThen_ok h2
    exact .inl ⟨item, s, w3, hs, h3, h4⟩
  · rename_i s hs
    refine .inr ⟨⟨s, hs⟩, ?_⟩
    obtain ⟨w3, h3, h4⟩ := andThen_ok h2
    have st2 : Still (conts w) (caps w) (w2.modC c (fun x => { x with fromStores := ss })) := ⟨b.conts, b.caps⟩
    have st3 : Still (conts w) (caps w) w3 := (Po.forR (fun s w h => h.onQueue (by simp) _) _ _ st2).to h3
    have st4 : Still (conts w) (caps w) w' := (bs_reschedule (still_base _ _) (w := w3.modC c _) st3 _ _ _ _ _ _).to h4
    obtain ⟨_, hin, hco⟩ := enters_all (K := fun s => .fromReq s) ss h3
    have k := (reschedule_ok h4).1
    refine ⟨st4.1, st4.2, fun x hx => by rw [World.inQ, k.queues]; exact hin x hx, by rw [World.status, k.self, modC_self],
      by rw [k.self, modC_self], fun d hd => ?_⟩
    rw [k.other d hd, modC_other hd, hco, modC_other hd, b.other d hd]

/-- `to_store` -/
theorem toStore_start {w w' : World} {fuel c ss i rp sp fa fd p u cp} (hg : Good ∅ w) (h : toStore fuel c ss i rp sp fa fd p u cp w = .ok w') :
    ss.Nodup ∧ ss ≠ [] ∧ ∃ w2, Begun c w w2 ∧ ((∃ s w3, ss.find? (fun s => roomIn w2 s) = some s ∧
        storeEnter fuel i s (some sp) w2 = .ok w3 ∧ wake c none (w3.modC c (fun x => { x with toItem := none, toStores := [] })) = .ok w') ∨
      (ss.find? (fun s => roomIn w2 s) = none ∧ conts w' = conts w ∧ caps w' = caps w ∧
        (∀ x ∈ ss, c ∈ w'.inQ (.toReq x)) ∧ w'.status c = .requesting ∧ (w'.comps c).toItem = some i ∧ (∀ d, d ≠ c → w'.comps d = w.comps d))) := by
  unfold toStore at h
  split at h
  · cases h
  rename_i hss
  push Not at hss
  refine ⟨hss.1, hss.2, ?_⟩
  obtain ⟨w1, h1, h2⟩ := andThen_ok h
  simp only at h2
  split at h2
  · cases h2
  have b := begun_of hg h1
  refine ⟨_, b, ?_⟩
  generalize w1.modC c (fun x => { x with failed := false }) = w2 at h2 b
  split at h2
  · rename_i s hs
    obtain ⟨w3, h3, h4⟩ := andThen_ok h2
    exact .inl ⟨s, w3, hs, h3, h4⟩
  · rename_i hs
    refine .inr ⟨hs, ?_⟩
    obtain ⟨w3, h3, h4⟩ := andThen_ok h2
    have st2 : Still (conts w) (caps w) w2 := ⟨b.conts, b.caps⟩
    have st3 : Still (conts w) (caps w) w3 := (Po.forR (fun s w h => h.onQueue (by simp) _) _ _ st2).to h3
    have st4 : Still (conts w) (caps w) w' := (bs_reschedule (still_base _ _) (w := w3.modC c _) st3 _ _ _ _ _ _).to h4
    obtain ⟨_, hin, hco⟩ := enters_all (K := fun s => .toReq s) ss h3
    have k := (reschedule_ok h4).1
    refine ⟨st4.1, st4.2, fun x hx => by rw [World.inQ, k.queues]; exact hin x hx, by rw [World.status, k.self, modC_self],
      by rw [k.self, modC_self], fun d hd => ?_⟩
    rw [k.other d hd, modC_other hd, hco, b.other d hd]

end Verif
