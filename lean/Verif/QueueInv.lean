import Verif.Reach
import Mathlib.Data.List.Pairwise
import Mathlib.Data.List.TakeWhile
import Mathlib.Tactic.Linarith
import Mathlib.Tactic.Ring
import Mathlib.Algebra.BigOperators.Group.List.Basic

/-!
# Invariants of queues, for every history of operations on one queue
-/

namespace Verif
namespace Queue

/-- non-decreasing priorities -/
def Sorted (l : List QMem) : Prop := l.Pairwise (fun a b => a.prio ≤ b.prio)

theorem insRev_eq (x : QMem) (l : List QMem) :
    insRev x l = l.takeWhile (fun m => decide (m.prio > x.prio)) ++ x :: l.dropWhile (fun m => decide (m.prio > x.prio)) := by
  induction l with
  | nil => rfl
  | cons m ms ih =>
    unfold insRev
    by_cases h : m.prio > x.prio
    · simp [h, ih]
    · simp [h]

theorem insFwd_eq (x : QMem) (l : List QMem) :
    insFwd x l = l.takeWhile (fun m => decide (m.prio ≤ x.prio)) ++ x :: l.dropWhile (fun m => decide (m.prio ≤ x.prio)) := by
  induction l with
  | nil => rfl
  | cons m ms ih =>
    unfold insFwd
    by_cases h : m.prio ≤ x.prio
    · simp [h, ih]
    · simp [h]

theorem dropWhile_head {α : Type} {p : α → Bool} : ∀ {l : List α} {a : α} {t : List α}, l.dropWhile p = a :: t → p a = false
  | [], a, t, h => by simp at h
  | b :: l, a, t, h => by
    rw [List.dropWhile_cons] at h
    split at h
    · exact dropWhile_head h
    · rename_i hb; cases h; simpa using hb

theorem insFwd_split {x : QMem} {l : List QMem} : ∃ l1 l2, l = l1 ++ l2 ∧ insFwd x l = l1 ++ x :: l2 ∧
    (∀ m ∈ l1, m.prio ≤ x.prio) ∧ (Sorted l → ∀ m ∈ l2, x.prio < m.prio) := by
  refine ⟨_, _, (List.takeWhile_append_dropWhile (p := fun m => decide (m.prio ≤ x.prio)) (l := l)).symm, insFwd_eq x l, ?_, ?_⟩
  · intro m hm
    simpa using List.mem_takeWhile_imp hm
  · intro hs m hm
    cases hd : l.dropWhile (fun m => decide (m.prio ≤ x.prio)) with
    | nil => rw [hd] at hm; cases hm
    | cons a t =>
      have ha : x.prio < a.prio := by simpa using dropWhile_head hd
      have hsub : Sorted (a :: t) := hs.sublist (hd ▸ List.dropWhile_sublist _)
      rw [hd] at hm
      rcases List.mem_cons.1 hm with rfl | hm
      · exact ha
      · exact lt_of_lt_of_le ha ((List.pairwise_cons.1 hsub).1 m hm)

theorem sortedIns_split {x : QMem} {l : List QMem} : ∃ l1 l2, l = l1 ++ l2 ∧ sortedIns x l = l1 ++ x :: l2 ∧
    (Sorted l → (∀ m ∈ l1, m.prio ≤ x.prio) ∧ ∀ m ∈ l2, x.prio < m.prio) := by
  cases l with
  | nil => exact ⟨[], [], rfl, rfl, by simp⟩
  | cons h t =>
    by_cases hx : x.prio < h.prio
    · refine ⟨[], h :: t, rfl, by simp [sortedIns, hx], fun hs => ⟨by simp, ?_⟩⟩
      intro m hm
      rcases List.mem_cons.1 hm with rfl | hm
      · exact hx
      · exact lt_of_lt_of_le hx ((List.pairwise_cons.1 hs).1 m hm)
    · simp only [sortedIns, hx, if_false, insRev_eq]
      generalize hr : (h :: t).reverse = r
      have hl : h :: t = r.reverse := by rw [← hr, List.reverse_reverse]
      refine ⟨(r.dropWhile (fun m => decide (m.prio > x.prio))).reverse, (r.takeWhile (fun m => decide (m.prio > x.prio))).reverse, ?_, ?_, ?_⟩
      · rw [← List.reverse_append, List.takeWhile_append_dropWhile, hl]
      · simp
      · intro hs
        rw [hl] at hs
        have hs' : r.Pairwise (fun a b => b.prio ≤ a.prio) := by
          have := hs; unfold Sorted at this; rwa [List.pairwise_reverse] at this
        refine ⟨?_, ?_⟩
        · intro m hm
          rw [List.mem_reverse] at hm
          cases hd : r.dropWhile (fun m => decide (m.prio > x.prio)) with
          | nil => rw [hd] at hm; cases hm
          | cons a t2 =>
            have ha : a.prio ≤ x.prio := by simpa using dropWhile_head hd
            have hsub : (a :: t2).Pairwise (fun a b => b.prio ≤ a.prio) := hs'.sublist (hd ▸ List.dropWhile_sublist _)
            rw [hd] at hm
            rcases List.mem_cons.1 hm with rfl | hm
            · exact ha
            · exact le_trans ((List.pairwise_cons.1 hsub).1 m hm) ha
        · intro m hm
          rw [List.mem_reverse] at hm
          simpa using List.mem_takeWhile_imp hm

theorem insBefore_split {x : QMem} {p : CId} : ∀ {l : List QMem} {m : QMem}, l.find? (fun m => m.c == p) = some m →
    ∃ l1 l2, l = l1 ++ m :: l2 ∧ insBefore x p l = l1 ++ x :: m :: l2 ∧ m.c = p
  | [], m, h => by simp at h
  | a :: l, m, h => by
    rw [List.find?_cons] at h
    by_cases ha : a.c = p
    · simp only [ha, beq_self_eq_true, Option.some.injEq] at h
      subst h
      exact ⟨[], l, rfl, by simp [insBefore, ha], ha⟩
    · have : (a.c == p) = false := by simpa using ha
      simp only [this] at h
      obtain ⟨l1, l2, h1, h2, h3⟩ := insBefore_split (x := x) h
      exact ⟨a :: l1, l2, by simp [h1], by simp [insBefore, ha, h2], h3⟩

theorem insBehind_split {x : QMem} {p : CId} : ∀ {l : List QMem} {m : QMem}, l.find? (fun m => m.c == p) = some m →
    ∃ l1 l2, l = l1 ++ m :: l2 ∧ insBehind x p l = l1 ++ m :: x :: l2 ∧ m.c = p
  | [], m, h => by simp at h
  | a :: l, m, h => by
    rw [List.find?_cons] at h
    by_cases ha : a.c = p
    · simp only [ha, beq_self_eq_true, Option.some.injEq] at h
      subst h
      exact ⟨[], l, rfl, by simp [insBehind, ha], ha⟩
    · have : (a.c == p) = false := by simpa using ha
      simp only [this] at h
      obtain ⟨l1, l2, h1, h2, h3⟩ := insBehind_split (x := x) h
      exact ⟨a :: l1, l2, by simp [h1], by simp [insBehind, ha, h2], h3⟩

/-- there is room for one more component -/
def Room (q : Queue) : Prop := ((q.mem.length + 1 : Nat) : Rat) ≤ (q.cap : ETime)

theorem room_iff (q : Queue) : Room q ↔ ¬ (ETime.subQ q.cap (q.len + 1 : Nat) < ((0 : Rat) : ETime)) := by
  unfold Room ETime.subQ len
  cases q.cap using WithTop.recTopCoe with
  | top => simp
  | coe k =>
    simp only [WithTop.map_coe, not_lt]
    rw [WithTop.coe_le_coe, WithTop.coe_le_coe]
    constructor <;> intro h <;> linarith

theorem insert_some {q q' : Queue} {t : Rat} {l : List QMem} (h : q.insert t l = some q') :
    Room q ∧ q' = { q with mem := l, arrivals := q.arrivals + 1, lens := q.lens ++ [(t, q.mem.length + 1)] } := by
  unfold insert at h
  split at h
  · cases h
  · rename_i hr
    cases h
    exact ⟨(room_iff q).2 hr, rfl⟩

/-- the component enters the queue at some place -/
structure Entered (t : Rat) (q : Queue) (c : CId) (q' : Queue) (l1 l2 : List QMem) (x : QMem) : Prop where
  new : ∀ m ∈ q.mem, m.c ≠ c
  room : Room q
  mem : q.mem = l1 ++ l2
  xc : x.c = c
  xt : x.enter = t
  eq : q' = { q with mem := l1 ++ x :: l2, arrivals := q.arrivals + 1, lens := q.lens ++ [(t, q.mem.length + 1)] }

/-- the place does not disturb the order of the priorities -/
def Fits (l l1 l2 : List QMem) (x : QMem) : Prop := Sorted l → (∀ m ∈ l1, m.prio ≤ x.prio) ∧ (∀ m ∈ l2, x.prio ≤ m.prio)

theorem has_iff (q : Queue) (c : CId) : q.has c = true ↔ ∃ m ∈ q.mem, m.c = c := by simp [has]

theorem not_has {q : Queue} {c : CId} (h : ¬ q.has c = true) : ∀ m ∈ q.mem, m.c ≠ c := by
  intro m hm hc
  exact h ((has_iff q c).2 ⟨m, hm, hc⟩)

theorem ofOpt_ok {o : Option Queue} {q' : Queue} (h : ofOpt o = .ok q') : o = some q' := by
  cases o <;> simp [ofOpt] at h ⊢; exact h

theorem enter_ok {q q' : Queue} {t : Rat} {c : CId} (h : q.enter t c = .ok q') : ∃ l1 l2 x, Entered t q c q' l1 l2 x ∧ Fits q.mem l1 l2 x ∧ l2 = [] := by
  unfold enter at h
  split at h
  · cases h
  · rename_i hn
    obtain ⟨hr, rfl⟩ := insert_some (ofOpt_ok h)
    refine ⟨q.mem, [], ⟨c, tailPrio q.mem, t⟩, ⟨not_has hn, hr, by simp, rfl, rfl, rfl⟩, fun hs => ⟨?_, by simp⟩, rfl⟩
    intro m hm
    simp only [tailPrio]
    cases hl : q.mem.getLast? with
    | none => rw [List.getLast?_eq_none_iff] at hl; rw [hl] at hm; cases hm
    | some y =>
      simp only
      obtain ⟨ys, hys⟩ := List.getLast?_eq_some_iff.1 hl
      rw [hys] at hm hs
      unfold Sorted at hs
      rw [List.pairwise_append] at hs
      rcases List.mem_append.1 hm with hm | hm
      · exact hs.2.2 m hm y (by simp)
      · simp at hm; rw [hm]

theorem enterSorted_ok {q q' : Queue} {t : Rat} {c : CId} {p : Rat} (h : q.enterSorted t c p = .ok q') :
    ∃ l1 l2 x, Entered t q c q' l1 l2 x ∧ Fits q.mem l1 l2 x ∧ x.prio = p ∧ (Sorted q.mem → ∀ m ∈ l2, p < m.prio) := by
  unfold enterSorted at h
  split at h
  · cases h
  · rename_i hn
    obtain ⟨hr, rfl⟩ := insert_some (ofOpt_ok h)
    obtain ⟨l1, l2, h1, h2, h3⟩ := sortedIns_split (x := ⟨c, p, t⟩) (l := q.mem)
    refine ⟨l1, l2, ⟨c, p, t⟩, ⟨not_has hn, hr, h1, rfl, rfl, by rw [h2]⟩, fun hs => ⟨(h3 hs).1, fun m hm => le_of_lt ((h3 hs).2 m hm)⟩, rfl,
      fun hs => (h3 hs).2⟩

theorem enterAtHead_ok {q q' : Queue} {t : Rat} {c : CId} (h : q.enterAtHead t c = .ok q') : ∃ l1 l2 x, Entered t q c q' l1 l2 x ∧ Fits q.mem l1 l2 x ∧ l1 = [] := by
  unfold enterAtHead at h
  split at h
  · cases h
  · rename_i hn
    obtain ⟨hr, rfl⟩ := insert_some (ofOpt_ok h)
    refine ⟨[], q.mem, ⟨c, headPrio q.mem, t⟩, ⟨not_has hn, hr, by simp, rfl, rfl, rfl⟩, fun hs => ⟨by simp, ?_⟩, rfl⟩
    intro m hm
    cases hl : q.mem with
    | nil => rw [hl] at hm; cases hm
    | cons y ys =>
      rw [hl] at hm hs
      simp only [headPrio, List.head?_cons]
      rcases List.mem_cons.1 hm with rfl | hm
      · exact le_refl _
      · exact (List.pairwise_cons.1 hs).1 m hm

theorem enterInFrontOf_ok {q q' : Queue} {t : Rat} {c p : CId} (h : q.enterInFrontOf t c p = .ok q') :
    ∃ l1 l2 x m, Entered t q c q' l1 (m :: l2) x ∧ Fits q.mem l1 (m :: l2) x ∧ m.c = p ∧ x.prio = m.prio := by
  unfold enterInFrontOf at h
  split at h
  · cases h
  · rename_i hn
    split at h
    · cases h
    · rename_i m hm
      obtain ⟨hr, rfl⟩ := insert_some (ofOpt_ok h)
      obtain ⟨l1, l2, h1, h2, h3⟩ := insBefore_split (x := ⟨c, m.prio, t⟩) hm
      refine ⟨l1, l2, ⟨c, m.prio, t⟩, m, ⟨not_has hn, hr, h1, rfl, rfl, by rw [h2]⟩, fun hs => ?_, h3, rfl⟩
      rw [h1] at hs
      unfold Sorted at hs
      rw [List.pairwise_append] at hs
      refine ⟨fun a ha => hs.2.2 a ha m (by simp), fun a ha => ?_⟩
      rcases List.mem_cons.1 ha with rfl | ha
      · exact le_refl _
      · exact (List.pairwise_cons.1 hs.2.1).1 a ha

theorem enterBehind_ok {q q' : Queue} {t : Rat} {c p : CId} (h : q.enterBehind t c p = .ok q') :
    ∃ l1 l2 x m, Entered t q c q' (l1 ++ [m]) l2 x ∧ Fits q.mem (l1 ++ [m]) l2 x ∧ m.c = p ∧ x.prio = m.prio := by
  unfold enterBehind at h
  split at h
  · cases h
  · rename_i hn
    split at h
    · cases h
    · rename_i m hm
      obtain ⟨hr, rfl⟩ := insert_some (ofOpt_ok h)
      obtain ⟨l1, l2, h1, h2, h3⟩ := insBehind_split (x := ⟨c, m.prio, t⟩) hm
      refine ⟨l1, l2, ⟨c, m.prio, t⟩, m, ⟨not_has hn, hr, by simp [h1], rfl, rfl, by rw [h2]; simp⟩, fun hs => ?_, h3, rfl⟩
      rw [h1] at hs
      unfold Sorted at hs
      rw [List.pairwise_append] at hs
      refine ⟨fun a ha => ?_, fun a ha => (List.pairwise_cons.1 hs.2.1).1 a ha⟩
      rcases List.mem_append.1 ha with ha | ha
      · exact hs.2.2 a ha m (by simp)
      · simp at ha; rw [ha]

/-- the member leaves the queue -/
structure Left (t : Rat) (q : Queue) (c : CId) (q' : Queue) (l1 l2 : List QMem) (x : QMem) : Prop where
  mem : q.mem = l1 ++ x :: l2
  xc : x.c = c
  eq : q' = { q with mem := l1 ++ l2, departures := q.departures + 1, stays := q.stays ++ [t - x.enter], lens := q.lens ++ [(t, l1.length + l2.length)] }

theorem find_split {l : List QMem} {c : CId} {m : QMem} (h : l.find? (fun m => m.c == c) = some m) :
    ∃ l1 l2, l = l1 ++ m :: l2 ∧ m.c = c ∧ m ∉ l1 := by
  rw [List.find?_eq_some_iff_append] at h
  obtain ⟨hc, l1, l2, h1, h2⟩ := h
  have hc' : m.c = c := by simpa using hc
  refine ⟨l1, l2, h1, hc', fun hm => ?_⟩
  have := h2 m hm
  simp [hc'] at this

theorem leave_ok {q q' : Queue} {t : Rat} {c : CId} (h : q.leave t c = .ok q') : ∃ l1 l2 x, Left t q c q' l1 l2 x := by
  unfold leave at h
  split at h
  · cases h
  · rename_i m hm
    cases h
    obtain ⟨l1, l2, h1, h2, h3⟩ := find_split hm
    refine ⟨l1, l2, m, h1, h2, ?_⟩
    have : q.mem.erase m = l1 ++ l2 := by rw [h1, List.erase_append_right _ h3]; simp
    rw [this]
    simp [len, h1, Nat.add_sub_cancel, ← Nat.add_assoc]

/-- the member gets another priority and another place -/
structure Moved (q : Queue) (c : CId) (p : Rat) (q' : Queue) (k1 k2 l1 l2 : List QMem) (x : QMem) : Prop where
  mem : q.mem = k1 ++ x :: k2
  xc : x.c = c
  split : k1 ++ k2 = l1 ++ l2
  eq : q' = { q with mem := l1 ++ { x with prio := p } :: l2 }
  sorted : Sorted q.mem → (∀ m ∈ l1, m.prio ≤ p) ∧ (∀ m ∈ l2, p < m.prio)

theorem setPriority_ok {q q' : Queue} {c : CId} {p : Rat} (h : q.setPriority c p = .ok q') :
    (q' = q ∧ ∃ m ∈ q.mem, m.c = c ∧ m.prio = p) ∨ ∃ k1 k2 l1 l2 x, Moved q c p q' k1 k2 l1 l2 x := by
  unfold setPriority at h
  split at h
  · cases h
  · rename_i m hm
    obtain ⟨k1, k2, h1, h2, h3⟩ := find_split hm
    split at h
    · rename_i hp
      cases h
      exact .inl ⟨rfl, m, by simp [h1], h2, hp.symm⟩
    · cases h
      right
      have he : q.mem.erase m = k1 ++ k2 := by rw [h1, List.erase_append_right _ h3]; simp
      obtain ⟨l1, l2, h4, h5, h6, h7⟩ := insFwd_split (x := { m with prio := p }) (l := q.mem.erase m)
      refine ⟨k1, k2, l1, l2, m, h1, h2, he.symm.trans h4, by rw [h5], fun hs => ⟨h6, ?_⟩⟩
      refine h7 ?_
      exact hs.sublist List.erase_sublist

/-! ## every operation is of one of these kinds -/

inductive Kind (t : Rat) (q q' : Queue) : Prop
  | entered (c l1 l2 x) : Entered t q c q' l1 l2 x → Kind t q q'
  | left (c l1 l2 x) : Left t q c q' l1 l2 x → Kind t q q'
  | same : q' = q → Kind t q q'
  | moved (c p k1 k2 l1 l2 x) : Moved q c p q' k1 k2 l1 l2 x → Kind t q q'
  | cap (k) : q' = q.setCapacity k → Kind t q q'
  | reset (a d) : q' = q.resetRates t a d → Kind t q q'

theorem run_kind {t : Rat} {q q' : Queue} {o : QOp} (h : o.run t q = .ok q') : Kind t q q' := by
  cases o with
  | enter c => obtain ⟨l1, l2, x, h, _⟩ := enter_ok h; exact .entered _ _ _ _ h
  | enterSorted c p => obtain ⟨l1, l2, x, h, _⟩ := enterSorted_ok h; exact .entered _ _ _ _ h
  | enterAtHead c => obtain ⟨l1, l2, x, h, _⟩ := enterAtHead_ok h; exact .entered _ _ _ _ h
  | enterInFrontOf c p => obtain ⟨l1, l2, x, m, h, _⟩ := enterInFrontOf_ok h; exact .entered _ _ _ _ h
  | enterBehind c p => obtain ⟨l1, l2, x, m, h, _⟩ := enterBehind_ok h; exact .entered _ _ _ _ h
  | leave c => obtain ⟨l1, l2, x, h⟩ := leave_ok h; exact .left _ _ _ _ h
  | setPriority c p =>
    rcases setPriority_ok h with ⟨h, _⟩ | ⟨k1, k2, l1, l2, x, h⟩
    · exact .same h
    · exact .moved _ _ _ _ _ _ _ h
  | setCapacity k => simp only [QOp.run, QR.ok.injEq] at h; exact .cap k h.symm
  | resetRates => simp only [QOp.run, QR.ok.injEq] at h; exact .reset _ _ h.symm

/-! ## specification of the time integral -/

/-- the area under a step function that is `v` from `t0` on and changes as listed, up to `t` -/
def area (t0 v : Rat) : List (Rat × Nat) → Rat → Rat
  | [], t => v * (t - t0)
  | (t1, n) :: l, t => v * (t1 - t0) + area t1 n l t

/-- the last value -/
def level (v : Rat) : List (Rat × Nat) → Rat
  | [] => v
  | (_, n) :: l => level n l

theorem area_time (t0 v : Rat) (l : List (Rat × Nat)) (t t' : Rat) : area t0 v l t' = area t0 v l t + level v l * (t' - t) := by
  induction l generalizing t0 v with
  | nil => simp [area, level]; ring
  | cons a l ih => obtain ⟨t1, n⟩ := a; simp only [area, level]; rw [ih]; ring

theorem area_snoc (t0 v : Rat) (l : List (Rat × Nat)) (t : Rat) (n : Nat) : area t0 v (l ++ [(t, n)]) t = area t0 v l t := by
  induction l generalizing t0 v with
  | nil => simp [area]
  | cons a l ih => obtain ⟨t1, m⟩ := a; simp only [List.cons_append, area]; rw [ih]

theorem level_snoc (v : Rat) (l : List (Rat × Nat)) (t : Rat) (n : Nat) : level v (l ++ [(t, n)]) = n := by
  induction l generalizing v with
  | nil => simp [level]
  | cons a l ih => obtain ⟨t1, m⟩ := a; simp only [List.cons_append, level]; exact ih _

/-! ## the invariant -/

structure QInv (t : Rat) (q : Queue) : Prop where
  nodup : (q.mem.map QMem.c).Nodup
  times : ∀ m ∈ q.mem, m.enter ≤ t
  level : level 0 q.lens = q.mem.length
  past : ∀ p ∈ q.lens, p.1 ≤ t
  little : ∀ t0, area t0 0 q.lens t = q.stays.sum + (q.mem.map (fun m => t - m.enter)).sum
  stays : ∀ s ∈ q.stays, 0 ≤ s

theorem sorted_insert {l1 l2 : List QMem} {x : QMem} (hs : Sorted (l1 ++ l2)) (h1 : ∀ m ∈ l1, m.prio ≤ x.prio)
    (h2 : ∀ m ∈ l2, x.prio ≤ m.prio) : Sorted (l1 ++ x :: l2) := by
  unfold Sorted at *
  rw [List.pairwise_append] at hs ⊢
  refine ⟨hs.1, List.pairwise_cons.2 ⟨h2, hs.2.1⟩, ?_⟩
  intro a ha b hb
  rcases List.mem_cons.1 hb with rfl | hb
  · exact h1 a ha
  · exact hs.2.2 a ha b hb

theorem sorted_delete {l1 l2 : List QMem} {x : QMem} (hs : Sorted (l1 ++ x :: l2)) : Sorted (l1 ++ l2) :=
  hs.sublist (List.Sublist.append_left (List.sublist_cons_self _ _) _)

theorem Entered.sorted {t q c q' l1 l2 x} (h : Entered t q c q' l1 l2 x) (hf : Fits q.mem l1 l2 x) (hs : Sorted q.mem) : Sorted q'.mem := by
  have := hf hs
  rw [h.eq]
  exact sorted_insert (h.mem ▸ hs) this.1 this.2

theorem run_sorted {t : Rat} {q q' : Queue} {o : QOp} (h : o.run t q = .ok q') (hs : Sorted q.mem) : Sorted q'.mem := by
  cases o with
  | enter c => obtain ⟨l1, l2, x, h, h1, _⟩ := enter_ok h; exact h.sorted h1 hs
  | enterSorted c p => obtain ⟨l1, l2, x, h, h1, _⟩ := enterSorted_ok h; exact h.sorted h1 hs
  | enterAtHead c => obtain ⟨l1, l2, x, h, h1, _⟩ := enterAtHead_ok h; exact h.sorted h1 hs
  | enterInFrontOf c p => obtain ⟨l1, l2, x, m, h, h1, _⟩ := enterInFrontOf_ok h; exact h.sorted h1 hs
  | enterBehind c p => obtain ⟨l1, l2, x, m, h, h1, _⟩ := enterBehind_ok h; exact h.sorted h1 hs
  | leave c =>
    obtain ⟨l1, l2, x, h⟩ := leave_ok h
    rw [h.eq]; exact sorted_delete (h.mem ▸ hs)
  | setPriority c p =>
    rcases setPriority_ok h with ⟨h, _⟩ | ⟨k1, k2, l1, l2, x, h⟩
    · rw [h]; exact hs
    · have := h.sorted hs
      rw [h.eq]
      refine sorted_insert (h.split ▸ sorted_delete (h.mem ▸ hs)) this.1 fun m hm' => le_of_lt (this.2 m hm')
  | setCapacity k => simp only [QOp.run, QR.ok.injEq] at h; rw [← h]; exact hs
  | resetRates => simp only [QOp.run, QR.ok.injEq] at h; rw [← h]; exact hs

theorem insertAt_ok {q q' : Queue} {t : Rat} {c : CId} {i : Int} (h : q.insertAt t c i = .ok q') :
    0 ≤ i ∧ i ≤ q.mem.length ∧ ∃ x, Entered t q c q' (q.mem.take i.toNat) (q.mem.drop i.toNat) x := by
  unfold insertAt at h
  split at h
  · cases h
  · rename_i hi
    split at h
    · cases h
    · rename_i hn
      obtain ⟨hr, rfl⟩ := insert_some (ofOpt_ok h)
      unfold len at hi
      exact ⟨by omega, by omega, _, not_has hn, hr, (List.take_append_drop _ _).symm, rfl, rfl, rfl⟩

theorem append_ok {q q' : Queue} {t : Rat} {c : CId} {p : Rat} (h : q.append t c p = .ok q') : Entered t q c q' q.mem [] ⟨c, p, t⟩ := by
  unfold append at h
  split at h
  · cases h
  · rename_i hn
    obtain ⟨hr, rfl⟩ := insert_some (ofOpt_ok h)
    exact ⟨not_has hn, hr, by simp, rfl, rfl, rfl⟩

theorem QInv.init (t : Rat) (k : ETime) (u v : Rat) : QInv t { cap := k, arrivalsT0 := u, departuresT0 := v } := by
  refine ⟨by simp, by simp, by simp [Queue.level], by simp, ?_, by simp⟩
  intro t0; simp [area]

theorem QInv.time {t t' : Rat} {q : Queue} (h : QInv t q) (ht : t ≤ t') : QInv t' q := by
  refine ⟨h.nodup, fun m hm => (h.times m hm).trans ht, h.level, fun p hp => (h.past p hp).trans ht, ?_, h.stays⟩
  intro t0
  rw [area_time t0 0 q.lens t t', h.little, h.level, add_assoc]
  congr 1
  generalize q.mem = l
  induction l with
  | nil => simp
  | cons a l ih => simp only [List.map_cons, List.sum_cons, List.length_cons]; push_cast; rw [← ih]; ring

theorem QInv.run {t : Rat} {q q' : Queue} (h : QInv t q) (hk : Kind t q q') : QInv t q' := by
  cases hk with
  | same he => rw [he]; exact h
  | cap k he => rw [he]; exact ⟨h.nodup, h.times, h.level, h.past, h.little, h.stays⟩
  | reset _ _ he => rw [he]; exact ⟨h.nodup, h.times, h.level, h.past, h.little, h.stays⟩
  | entered c l1 l2 x he =>
    obtain ⟨hn, hr, hm, hc, ht, rfl⟩ := he
    have hp : (l1 ++ x :: l2).Perm (x :: q.mem) := by rw [hm]; exact List.perm_middle
    refine ⟨?_, ?_, ?_, ?_, ?_, h.stays⟩
    · refine ((hp.map _).nodup_iff).2 ?_
      simp only [List.map_cons, List.nodup_cons]
      refine ⟨?_, h.nodup⟩
      rintro hx
      obtain ⟨m, hm, hmc⟩ := List.mem_map.1 hx
      exact hn m hm (hmc.trans hc)
    · intro m hm'
      rcases List.mem_cons.1 (hp.mem_iff.1 hm') with rfl | hm'
      · rw [ht]
      · exact h.times m hm'
    · rw [level_snoc, hp.length_eq]; simp
    · intro p hp'
      rcases List.mem_append.1 hp' with hp' | hp'
      · exact h.past p hp'
      · simp at hp'; rw [hp']
    · intro t0
      rw [area_snoc, h.little, (hp.map _).sum_eq]
      simp [ht]
  | left c l1 l2 x he =>
    obtain ⟨hm, hc, rfl⟩ := he
    have hp : q.mem.Perm (x :: (l1 ++ l2)) := by rw [hm]; exact List.perm_middle
    refine ⟨?_, ?_, ?_, ?_, ?_, ?_⟩
    · have := ((hp.map QMem.c).nodup_iff).1 h.nodup
      simp only [List.map_cons, List.nodup_cons] at this
      exact this.2
    · intro m hm'
      exact h.times m (hp.mem_iff.2 (List.mem_cons_of_mem _ hm'))
    · rw [level_snoc]; simp
    · intro p hp'
      rcases List.mem_append.1 hp' with hp' | hp'
      · exact h.past p hp'
      · simp at hp'; rw [hp']
    · intro t0
      rw [area_snoc, h.little, (hp.map _).sum_eq]
      simp; ring
    · intro s hs
      rcases List.mem_append.1 hs with hs | hs
      · exact h.stays s hs
      · simp at hs; rw [hs]; have := h.times x (by simp [hm]); linarith
  | moved c p k1 k2 l1 l2 x he =>
    obtain ⟨hm, hc, hsp, rfl, hs⟩ := he
    have hp : (l1 ++ { x with prio := p } :: l2).Perm ({ x with prio := p } :: (k1 ++ k2)) := by rw [hsp]; exact List.perm_middle
    have hp2 : q.mem.Perm (x :: (k1 ++ k2)) := by rw [hm]; exact List.perm_middle
    refine ⟨?_, ?_, ?_, h.past, ?_, h.stays⟩
    · have := ((hp2.map QMem.c).nodup_iff).1 h.nodup
      refine ((hp.map _).nodup_iff).2 ?_
      simpa using this
    · intro m hm'
      rcases List.mem_cons.1 (hp.mem_iff.1 hm') with rfl | hm'
      · exact h.times x (by simp [hm])
      · exact h.times m (hp2.mem_iff.2 (List.mem_cons_of_mem _ hm'))
    · rw [h.level, hp.length_eq, hp2.length_eq]; simp
    · intro t0
      rw [h.little, (hp.map _).sum_eq, (hp2.map _).sum_eq]; simp

end Queue

open Queue

/-! ## all queues in all histories -/

theorem St.qinv {w w' : World} (hw : ∀ q, QInv w.now (w.queues q)) {L : LK → CId → Prop} (h : St L w w') : ∀ q, QInv w'.now (w'.queues q) := by
  induction h with
  | refl => exact hw
  | comp _ h1 _ _ _ _ h6 _ _ _ ih => rw [h1, h6]; exact ih
  | push _ _ _ _ _ ih => exact ih
  | remove _ _ _ _ _ ih => exact ih
  | res _ _ _ _ ih => exact ih
  | state _ _ _ _ ih => exact ih
  | queue q o q' _ ho ih =>
    intro d
    simp only [World.modQ]
    split
    · rename_i hd
      subst hd
      exact (ih d).run (run_kind ho)
    · exact ih d

theorem exec_qinv {w : World} (h : Inv0 w) (hw : ∀ q, QInv w.now (w.queues q)) (fuel o) :
    ∀ q, QInv (exec fuel o w).world.now ((exec fuel o w).world.queues q) := by
  by_cases hp : o.plain
  · exact (exec_st fuel hp w).qinv hw
  · cases o <;> simp [Op.plain] at hp
    · rename_i c n i
      rcases exec_insertAt fuel c n i w with he | ⟨q', h1, he⟩
      · rw [he]; exact hw
      · rw [he]
        intro d
        simp only [World.modQ]
        split
        · rename_i hd
          subst hd
          obtain ⟨_, _, x, hx⟩ := insertAt_ok h1
          exact (hw _).run (.entered _ _ _ _ hx)
        · exact hw d
    · exact hw
    · have := step_kind w h.heap
      simp only [exec]
      generalize (step w).world = w' at this
      cases this with
      | turn c _ _ _ _ hs => exact hs.qinv hw
      | ev _ hk =>
        cases hk with
        | empty l s _ _ _ hs => exact St.qinv (w := { w with pending := l, standby := s }) hw hs
        | event p s e es _ hp _ hs =>
          refine St.qinv (w := { w with pending := p, standby := s, now := e.t, events := es }) (fun q => (hw q).time ?_) hs
          have hspec := Heapq.heappop_spec evLaw h.heap
          rw [hp] at hspec
          exact h.ge e (hspec.1.mem_iff.2 (by simp))

theorem Reach.qinv {ok} {w : World} (h : Reach ok w) : ∀ q, QInv w.now (w.queues q) := by
  induction h with
  | init hf =>
    intro q
    obtain ⟨k, hk⟩ := hf.queues q
    rw [hk]; exact QInv.init _ _ 0 0
  | op fuel o h1 _ ih => exact exec_qinv h1.inv0 ih fuel o

/-- no `insert(index, component)` in the queue -/
def NoInsert (q : QRef) : Nat → World → Op → Prop
  | _, _, .insertAt _ n _ => QRef.user n ≠ q
  | _, _, _ => True

theorem St.sorted {w w' : World} {q : QRef} (hw : Sorted (w.queues q).mem) {L : LK → CId → Prop} (h : St L w w') : Sorted (w'.queues q).mem := by
  induction h with
  | refl => exact hw
  | comp _ h1 _ _ _ _ h6 _ _ _ ih => rw [h6]; exact ih
  | push _ _ _ _ _ ih => exact ih
  | remove _ _ _ _ _ ih => exact ih
  | res _ _ _ _ ih => exact ih
  | state _ _ _ _ ih => exact ih
  | queue q1 o q' _ ho ih =>
    simp only [World.modQ]
    split
    · rename_i hd
      subst hd
      exact run_sorted ho ih
    · exact ih

theorem exec_sorted {w : World} (h : Inv0 w) (q : QRef) (hw : Sorted (w.queues q).mem) (fuel o) (ho : NoInsert q fuel w o) :
    Sorted ((exec fuel o w).world.queues q).mem := by
  by_cases hp : o.plain
  · exact (exec_st fuel hp w).sorted hw
  · cases o <;> simp [Op.plain] at hp
    · rename_i c n i
      rcases exec_insertAt fuel c n i w with he | ⟨q', h1, he⟩
      · rw [he]; exact hw
      · rw [he]
        simp only [World.modQ]
        rw [if_neg (Ne.symm ho)]; exact hw
    · exact hw
    · have := step_kind w h.heap
      simp only [exec]
      generalize (step w).world = w' at this
      cases this with
      | turn c _ _ _ _ hs => exact hs.sorted hw
      | ev _ hk =>
        cases hk with
        | empty l s _ _ _ hs => exact St.sorted (w := { w with pending := l, standby := s }) hw hs
        | event p s e es _ hp _ hs => exact St.sorted (w := { w with pending := p, standby := s, now := e.t, events := es }) hw hs

theorem Reach.sorted {ok} {w : World} {q : QRef} (hok : ∀ fuel w o, ok fuel w o → NoInsert q fuel w o) (h : Reach ok w) :
    Sorted (w.queues q).mem := by
  induction h with
  | init hf =>
    obtain ⟨k, hk⟩ := hf.queues q
    rw [hk]; exact List.Pairwise.nil
  | op fuel o h1 ho ih => exact exec_sorted h1.inv0 q ih fuel o (hok _ _ _ ho)

end Verif
