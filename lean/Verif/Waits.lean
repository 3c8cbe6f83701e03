import Verif.Walk
import Verif.CalmOut

/-!
# Waiting for states: which components a change of a state lets go on
-/

namespace Verif
open World

/-- the condition of a component, given the values of the states -/
def Met (x : Comp) (σ : SId → Val) : Prop :=
  match x.cond with
  | some f => f σ = true
  | none => if x.waitAll = true then ∀ a ∈ x.waits, a.ok (σ a.s) = true else ∃ a ∈ x.waits, a.ok (σ a.s) = true

theorem waitOver_iff (w : World) (c : CId) : waitOver w c = true ↔ Met (w.comps c) w.states := by
  unfold waitOver Met
  simp only
  generalize w.comps c = x
  rcases hx : x.cond with _ | f
  · cases x.waitAll <;> simp
  · exact Iff.rfl

noncomputable instance (x σ) : Decidable (Met x σ) := Classical.propDecidable _

/-- The components in `sel` stop waiting and are scheduled for now; nothing else changes. -/
structure Freed (sel : List CId) (w w' : World) : Prop where
  self : ∀ c ∈ sel, w'.comps c = { w.comps c with waits := [], status := .scheduled, schedTime := (w.now : ETime), onList := true }
  other : ∀ c, c ∉ sel → w'.comps c = w.comps c
  states : w'.states = w.states
  now : w'.now = w.now
  main : w'.main = w.main
  queues : ∀ q, (∀ s, q ≠ .waiters s) → w'.queues q = w.queues q
  waiters : ∀ s, w'.inQ (.waiters s) = (w.inQ (.waiters s)).filter (fun d => decide (d ∉ sel))
  evs : Evs (· ∈ sel) w w'

theorem Freed.refl (w : World) : Freed [] w w :=
  ⟨by simp, fun _ _ => rfl, rfl, rfl, rfl, fun _ _ => rfl, fun s => by simp, .of_eq rfl⟩

theorem Freed.trans {s1 s2 : List CId} {a b c : World} (h : Freed s1 a b) (h2 : Freed s2 b c) (hd : ∀ d ∈ s1, d ∉ s2) : Freed (s1 ++ s2) a c := by
  refine ⟨fun d hm => ?_, fun d hm => ?_, h2.states.trans h.states, h2.now.trans h.now, h2.main.trans h.main,
    fun q hq => (h2.queues q hq).trans (h.queues q hq), fun s => ?_, ?_⟩
  · rcases List.mem_append.1 hm with hm | hm
    · rw [h2.other d (hd d hm), h.self d hm]
    · rw [h2.self d hm, h.other d (fun h1 => hd d h1 hm), h.now]
  · rw [List.mem_append, not_or] at hm
    rw [h2.other d hm.2, h.other d hm.1]
  · rw [h2.waiters, h.waiters, List.filter_filter]
    congr 1
    funext d
    simp [not_or, Bool.and_comm]
  · intro x hx
    have hx : ¬ x.c ∈ s1 ++ s2 := hx
    rw [List.mem_append, not_or] at hx
    rw [h2.evs x hx.2, h.evs x hx.1]

theorem leaveQ_filter {c : CId} {q : QRef} {w w' : World} (h : leaveQ c q w = .ok w') (hn : (w.inQ q).Nodup) :
    w'.inQ q = (w.inQ q).filter (fun d => d != c) ∧ (∀ p, p ≠ q → w'.queues p = w.queues p) ∧ w'.comps = w.comps ∧
    w'.states = w.states := by
  obtain ⟨q', h1, h2⟩ := onQueue_ok h
  obtain ⟨l1, l2, x, hx⟩ := Queue.leave_ok h1
  have hm : w.inQ q = l1.map QMem.c ++ c :: l2.map QMem.c := by simp [World.inQ, hx.mem, hx.xc]
  have hm' : w'.inQ q = l1.map QMem.c ++ l2.map QMem.c := by rw [h2, inQ_modQ, if_pos rfl, hx.eq]; simp
  rw [hm] at hn
  have hnd := List.nodup_append.1 hn
  have hnc := List.nodup_cons.1 hnd.2.1
  refine ⟨?_, fun p hp => by rw [h2]; simp [World.modQ, hp], by rw [h2]; rfl, by rw [h2]; rfl⟩
  rw [hm, hm', List.filter_append, List.filter_cons_of_neg (by simp)]
  congr 1
  · rw [List.filter_eq_self.2]
    intro a ha
    have := hnd.2.2 a ha c List.mem_cons_self
    simpa using this
  · rw [List.filter_eq_self.2]
    intro a ha
    have : a ≠ c := by rintro rfl; exact hnc.1 ha
    simpa using this

/-- leaving the waiters of a list of states -/
theorem leaveAll_filter {c : CId} : ∀ (l : List Wait) {w w' : World}, forR l (leaveWaiters c) w = .ok w' → (∀ q, (w.inQ q).Nodup) →
    (∀ s, w'.inQ (.waiters s) = if s ∈ l.map Wait.s then (w.inQ (.waiters s)).filter (fun d => d != c) else w.inQ (.waiters s)) ∧
    (∀ q, (∀ s, q ≠ .waiters s) → w'.queues q = w.queues q) ∧ w'.comps = w.comps ∧ w'.states = w.states
  | [], w, w', h, hn => by cases h; simp
  | a :: t, w, w', h, hn => by
    unfold forR at h
    obtain ⟨w1, h1, h2⟩ := andThen_ok h
    have hlv := (leaveWaiters_lv h1 (hn _)).1
    obtain ⟨i1, i2, i3, i4⟩ := leaveAll_filter t h2 (fun q => (hn q).sublist (hlv.sub q))
    have key : (w1.inQ (.waiters a.s) = (w.inQ (.waiters a.s)).filter (fun d => d != c)) ∧
        (∀ p, p ≠ .waiters a.s → w1.queues p = w.queues p) ∧ w1.comps = w.comps ∧ w1.states = w.states := by
      unfold leaveWaiters at h1
      split at h1
      · exact leaveQ_filter h1 (hn _)
      · rename_i hh
        cases h1
        rw [has_inQ] at hh
        refine ⟨?_, fun _ _ => rfl, rfl, rfl⟩
        rw [List.filter_eq_self.2]
        intro b hb
        have : b ≠ c := by rintro rfl; exact hh hb
        simpa using this
    obtain ⟨k1, k2, k3, k4⟩ := key
    refine ⟨fun s => ?_, fun q hq => (i2 q hq).trans (k2 q (hq _)), i3.trans k3, i4.trans k4⟩
    rw [i1 s]
    by_cases hs : s = a.s
    · subst hs
      rw [k1]
      simp [List.filter_filter]
    · have : w1.inQ (.waiters s) = w.inQ (.waiters s) := by
        simp only [World.inQ]; rw [k2 _ (by simpa using hs)]
      rw [this]
      simp [hs]

theorem tryWait_exact {e : Set CId} {c : CId} {w w' : World} (hg : Good e w) (h : (tryWait c w).1 = .ok w') :
    if w.status c ≠ .interrupted ∧ Met (w.comps c) w.states then (tryWait c w).2 = true ∧ Freed [c] w w'
    else (tryWait c w).2 = false ∧ w' = w := by
  unfold tryWait at h ⊢
  by_cases hint : w.status c = .interrupted
  · rw [if_pos hint] at h
    rw [if_neg (by simp [hint]), if_pos hint]
    cases h; exact ⟨rfl, rfl⟩
  rw [if_neg hint] at h ⊢
  by_cases hov : waitOver w c = true
  · rw [if_pos hov] at h
    rw [if_pos ⟨hint, (waitOver_iff w c).1 hov⟩, if_pos hov]
    refine ⟨rfl, ?_⟩
    simp only at h
    obtain ⟨w1, h1, h2⟩ := andThen_ok h
    obtain ⟨l1, _⟩ := forR_lv (g := fun (x : Wait) => .waiters x.s) (fun a w w' => leaveWaiters_lv) _ _ _ h1 hg.nd
    obtain ⟨f1, f2, f3, f4⟩ := leaveAll_filter _ h1 hg.nd
    have hinv : (w1.modC c (fun x => { x with waits := [] })).Inv := inv_of_ev (ev_modC (fun _ => rfl)) (l1.good hg).inv
    obtain ⟨w2, h2', k⟩ := wake_woken hinv c none
    rw [h2'] at h2; cases h2
    have hnow : w1.now = w.now := congrArg EV.now l1.ev
    have hev : w1.events = w.events := congrArg EV.events l1.ev
    refine ⟨fun d hd => ?_, fun d hd => ?_, ?_, ?_, ?_, fun q hq => ?_, fun s => ?_, ?_⟩
    · rw [List.mem_singleton] at hd
      subst hd
      rw [k.self, modC_self, f3]
      simp [World.modC, hnow]
    · rw [List.mem_singleton] at hd
      rw [k.other d hd, modC_other hd, f3]
    · exact k.states.trans f4
    · exact k.now.trans hnow
    · exact k.main.trans l1.main
    · rw [k.queues]; exact f2 q hq
    · have : w'.inQ (.waiters s) = w1.inQ (.waiters s) := by simp only [World.inQ, k.queues]; rfl
      rw [this, f1 s]
      have e1 : (fun d => decide (d ∉ [c])) = (fun d => d != c) := by funext d; by_cases hd : d = c <;> simp [hd]
      rw [e1]
      split
      · rfl
      · rename_i hs
        rw [List.filter_eq_self.2]
        intro a ha
        have : a ≠ c := by
          rintro rfl
          exact hs (hg.coh _ _ ha)
        simpa using this
    · intro x hx
      rw [k.evs x (by simpa using hx)]
      show x ∈ w1.events ↔ _
      rw [hev]
  · rw [if_neg hov] at h
    rw [if_neg (by rw [← waitOver_iff]; exact fun hh => hov hh.2), if_neg hov]
    cases h; exact ⟨rfl, rfl⟩

/-- at most `max` of a list; a maximum that isn't positive is none at all (salabim.py:23802-23805) -/
def pick {α : Type} (mx : Option Int) (l : List α) : List α :=
  match mx with
  | none => l
  | some n => if 0 < n then l.take n.toNat else l

theorem pick_nil {α : Type} (mx) : pick mx ([] : List α) = [] := by
  cases mx with
  | none => rfl
  | some n => simp [pick]

theorem pick_cons {α : Type} (mx : Option Int) (a : α) (l : List α) :
    pick mx (a :: l) = if mx.map (· - 1) = some 0 then [a] else a :: pick (mx.map (· - 1)) l := by
  cases mx with
  | none => simp [pick]
  | some n =>
    simp only [Option.map_some, Option.some.injEq, pick]
    by_cases h1 : n - 1 = 0
    · have : n = 1 := by omega
      subst this; simp
    · rw [if_neg h1]
      by_cases h2 : 0 < n
      · rw [if_pos h2, if_pos (by omega : 0 < n - 1)]
        have : n.toNat = (n - 1).toNat + 1 := by omega
        rw [this, List.take_succ_cons]
      · rw [if_neg h2, if_neg (by omega : ¬ 0 < n - 1)]

/-- the ones in a list whose wait is over -/
noncomputable def over (w : World) (l : List CId) : List CId :=
  l.filter (fun c => decide (w.status c ≠ .interrupted ∧ Met (w.comps c) w.states))

theorem over_congr {w w' : World} {l : List CId} (h1 : ∀ c ∈ l, w'.comps c = w.comps c) (h2 : w'.states = w.states) : over w' l = over w l := by
  unfold over
  refine List.filter_congr fun c hc => ?_
  simp only [World.status, h1 c hc, h2]

theorem pick_subset {α : Type} {mx} {l : List α} {a : α} (h : a ∈ pick mx l) : a ∈ l := by
  unfold pick at h
  split at h
  · exact h
  · split at h
    · exact List.mem_of_mem_take h
    · exact h

theorem Freed.good {e : Set CId} {c : CId} {w w' : World} (hg : Good e w) (h : (tryWait c w).1 = .ok w') : Good e w' := by
  rcases tryWait_good hg (e' := e) (fun _ _ => Iff.rfl) h with rfl | ⟨_, g, _⟩
  · exact hg
  · exact g

theorem stateTryWait_exact {e : Set CId} : ∀ (l : List CId) (mx : Option Int) {w w' : World}, Good e w → l.Nodup →
    stateTryWait l mx w = .ok w' → Freed (pick mx (over w l)) w w' ∧ Good e w'
  | [], mx, w, w', hg, _, h => by
    cases h
    have : over w [] = [] := rfl
    rw [this, pick_nil]
    exact ⟨.refl w, hg⟩
  | c :: t, mx, w, w', hg, hn, h => by
    have h : ((tryWait c w).1 ⊳ fun v => if (tryWait c w).2 then
        let max := mx.map (· - 1)
        if max = some 0 then .ok v else stateTryWait t max v
      else stateTryWait t mx v) = .ok w' := h
    obtain ⟨w1, h1, h2⟩ := andThen_ok h
    rw [List.nodup_cons] at hn
    have hx := tryWait_exact hg h1
    have g1 := Freed.good hg h1
    by_cases hc : w.status c ≠ .interrupted ∧ Met (w.comps c) w.states
    · rw [if_pos hc] at hx
      obtain ⟨hb, hf⟩ := hx
      rw [if_pos hb] at h2
      simp only at h2
      have ho : over w (c :: t) = c :: over w1 t := by
        rw [over_congr (w := w) (fun d hd => hf.other d (by rw [List.mem_singleton]; rintro rfl; exact hn.1 hd)) hf.states]
        unfold over
        rw [List.filter_cons_of_pos (by simpa using hc)]
      rw [ho, pick_cons]
      by_cases hm : mx.map (fun x => x - 1) = some 0
      · rw [if_pos hm] at h2 ⊢; cases h2; exact ⟨hf, g1⟩
      · rw [if_neg hm] at h2 ⊢
        obtain ⟨i1, i2⟩ := stateTryWait_exact t _ g1 hn.2 h2
        refine ⟨hf.trans i1 fun d hd hd' => ?_, i2⟩
        rw [List.mem_singleton] at hd
        subst hd
        exact hn.1 (List.mem_of_mem_filter (pick_subset hd'))
    · rw [if_neg hc] at hx
      obtain ⟨hb, rfl⟩ := hx
      rw [if_neg (by rw [hb]; simp)] at h2
      have ho : over w1 (c :: t) = over w1 t := by
        unfold over
        rw [List.filter_cons_of_neg (by simpa using hc)]
      rw [ho]
      exact stateTryWait_exact t mx g1 hn.2 h2

end Verif
