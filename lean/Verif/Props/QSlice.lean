import Verif.ChainSlice
import Verif.Props.Queues

/-!
# Slices of queues, `del` and `pop` (C64)
-/

namespace Verif
namespace Chain

/-- specification: the position a number stands for, negative numbers counting from the end -/
def place (n : Nat) (i : Int) : Int := if i < 0 then n + i else i

/-- specification (Python language reference, sequence types): position `p` is in the slice `[a:b:k]` of a sequence of length `n` if it is one of
`i, i + k, i + 2 * k, ...`, within the sequence and before `b`. Here `i` is `a` (by default the first position for a positive, the last one for a
negative step), but not before the first position for a positive step and not after the last one for a negative step. -/
def InSlice (n : Nat) (a b : Option Int) (k : Int) (p : Nat) : Prop :=
  p < n ∧
  (if 0 < k then
    (∃ m : Nat, (p : Int) = max 0 (place n (a.getD 0)) + m * k) ∧ ∀ j, b = some j → (p : Int) < place n j
  else
    (∃ m : Nat, (p : Int) = min ((n : Int) - 1) (place n (a.getD (-1))) + m * k) ∧ ∀ j, b = some j → place n j < (p : Int))

/-- C64: `q[a:b:k]` gives the components at the positions of the slice, in order of position (reversed for a negative step), and raises only if the
step is 0 -/
theorem C64_slice {w q} (h : PReach w) (hq : q ∈ w.live) (a b k : Option Int) :
    (k = some 0 → getSlice q a b k w.s = .error .value) ∧
    (k ≠ some 0 → ∃ ps : List Nat, getSlice q a b k w.s = .ok (ps.map fun p => (order q w.s)[p]?) ∧
      (∀ p, p ∈ ps ↔ InSlice (order q w.s).length a b (k.getD 1) p) ∧
      (0 < k.getD 1 → ps.Pairwise (· < ·)) ∧ (k.getD 1 < 0 → ps.Pairwise (· > ·))) := by
  obtain ⟨ids, hr, _, _⟩ := h.rep
  refine ⟨fun hk => by subst hk; rfl, fun hk => ?_⟩
  generalize hinc : k.getD 1 = inc
  have h0 : inc ≠ 0 := by
    rintro rfl
    cases k with
    | none => simp at hinc
    | some k => simp at hinc; exact hk (by rw [hinc])
  have hlen := hr.length hq
  generalize hl : (order q w.s) = l at *
  have hcomp := hr.order_comp hq
  rw [hl] at hcomp
  have hsome : ∀ (r : List (Option CId)) (ps : List Nat), r.map some = ps.map (fun p => (l.map some)[p]?) → (∀ p ∈ ps, p < l.length) →
      r = ps.map (fun p => l[p]?) := by
    intro r
    induction r with
    | nil => intro ps e _; cases ps with
      | nil => rfl
      | cons p ps => simp at e
    | cons x r ih =>
      intro ps e hp
      cases ps with
      | nil => simp at e
      | cons p ps =>
        simp only [List.map_cons, List.cons.injEq] at e
        rw [List.map_cons, ih ps e.2 (fun p hx => hp p (by simp [hx]))]
        congr 1
        have := e.1
        rw [List.getElem?_map] at this
        have hpl := hp p (by simp)
        rw [List.getElem?_eq_getElem hpl] at this ⊢
        simpa using this
  have hn : (w.s.queues q).length.toNat = l.length := by rw [hlen]; simp
  unfold getSlice
  rw [hinc]
  simp only [hn]
  rw [if_neg h0]
  by_cases hpos : inc > 0
  · rw [if_pos hpos, hr.toWf.members hq]
    simp only [hcomp]
    have hst : 0 ≤ (indices l.length a b inc).1 := by
      unfold indices
      simp only
      rw [if_neg (by omega), if_neg (by omega), if_neg (by omega)]
      cases a with
      | none => simp
      | some i => simp only; split <;> omega
    obtain ⟨ps, e1, e2, e3⟩ := pickUp_spec (endval := (indices l.length a b inc).2) hpos (l.map some) (indices l.length a b inc).1 0 hst
    refine ⟨ps, congrArg _ (hsome _ ps e1 fun p hp => by simpa using ((e3 p).1 hp).1), fun p => ?_, fun _ => e2, fun h => absurd h (by omega)⟩
    rw [e3]
    unfold InSlice
    rw [if_pos hpos, List.length_map]
    refine and_congr_right fun hp => ?_
    unfold indices place
    simp only
    rw [if_neg (show ¬ inc < 0 by omega), if_neg (show ¬ inc < 0 by omega), if_neg (show ¬ inc < 0 by omega), if_neg (show ¬ inc < 0 by omega)]
    have hm : ∀ m : Nat, 0 ≤ (m : Int) * inc := fun m => by positivity
    rw [and_comm]
    refine and_congr (exists_congr fun m => ?_) ?_
    · have := hm m
      cases a with
      | none => simp
      | some i => simp only [Option.getD_some]; split <;> omega
    · cases b with
      | none => simpa using hp
      | some j =>
        simp only [Option.some.injEq, forall_eq']
        split <;> omega
  · have hneg : inc < 0 := by omega
    rw [if_neg hpos, hr.toWf.membersRev hq]
    simp only [List.map_reverse, hcomp]
    rw [pickDown_up, hlen]
    have hst : -(((l.length : Nat) : Int) - 1) ≤ -(indices l.length a b inc).1 := by
      unfold indices
      simp only
      rw [if_pos hneg, if_pos hneg, if_pos hneg]
      cases a with
      | none => simp
      | some i => simp only; split <;> omega
    obtain ⟨ps, e1, e2, e3⟩ := pickUp_spec (endval := -(indices l.length a b inc).2) (inc := -inc) (by omega) (l.map some).reverse
      (-(indices l.length a b inc).1) (-(((l.length : Nat) : Int) - 1)) hst
    simp only [List.length_reverse, List.length_map] at e3
    have hlt : ∀ p ∈ ps, p < l.length := fun p hp => ((e3 p).1 hp).1
    refine ⟨ps.map (fun p => l.length - 1 - p), congrArg _ ?_, fun p => ?_, fun h => absurd h hpos, fun _ => ?_⟩
    · refine hsome _ _ ?_ (fun p hp => ?_)
      · rw [e1, List.map_map]
        refine List.map_congr_left fun p hp => ?_
        have := hlt p hp
        rw [List.getElem?_reverse (by simpa using this)]
        simp
      · obtain ⟨x, hx, rfl⟩ := List.mem_map.1 hp
        have := hlt x hx
        omega
    · have hmem : p ∈ ps.map (fun p => l.length - 1 - p) ↔ p < l.length ∧ (l.length - 1 - p) ∈ ps := by
        rw [List.mem_map]
        constructor
        · rintro ⟨x, hx, rfl⟩
          have := hlt x hx
          refine ⟨by omega, ?_⟩
          rw [show l.length - 1 - (l.length - 1 - x) = x by omega]; exact hx
        · rintro ⟨h1, h2⟩; exact ⟨_, h2, by omega⟩
      rw [hmem, e3]
      unfold InSlice
      rw [if_neg hpos]
      refine and_congr_right fun hp => ?_
      rw [show ((l.length - 1 - p : Nat) : Int) = (l.length : Int) - 1 - p by omega]
      unfold indices place
      simp only
      rw [if_pos hneg, if_pos hneg, if_pos hneg, if_pos hneg]
      have hm : ∀ m : Nat, (m : Int) * inc ≤ 0 := fun m => mul_nonpos_of_nonneg_of_nonpos (by positivity) (by omega)
      have hx : l.length - 1 - p < l.length := by omega
      simp only [hx, true_and]
      rw [and_comm]
      refine and_congr (exists_congr fun m => ?_) ?_
      · have := hm m
        rw [show (m : Int) * -inc = -(m * inc) by ring]
        cases a with
        | none => simp; omega
        | some i => simp only [Option.getD_some]; split <;> omega
      · cases b with
        | none => simp; omega
        | some j =>
          simp only [Option.some.injEq, forall_eq']
          split <;> omega
    · rw [List.pairwise_map]
      refine e2.imp_of_mem ?_
      intro x y hx hy hxy
      have := hlt x hx; have := hlt y hy
      omega

/-- C64: `remove` for a number of members -/
theorem removeAll_spec {q} : ∀ (cs : List CId) (w : PW), PReach w → q ∈ w.live → cs.Nodup → (∀ c ∈ cs, c ∈ order q w.s) →
    ∃ s', removeAll q (cs.map some) w.s = .ok s' ∧ PReach ⟨s', w.live⟩ ∧
      content q s' = (content q w.s).filter (fun m => decide (m.c ∉ cs)) ∧ ∀ p ∈ w.live, p ≠ q → content p s' = content p w.s := by
  intro cs
  induction cs with
  | nil => intro w h hq _ _; exact ⟨w.s, rfl, h, by simp, fun _ _ _ => rfl⟩
  | cons c cs ih =>
    intro w h hq hnd hin
    rw [List.nodup_cons] at hnd
    have hall : Allowed (content q w.s) (w.s.queues q).cap (.leave c q) := by
      have := hin c (by simp); unfold order at this; exact this
    obtain ⟨w1, hw1⟩ := (C11_outcome (o := .leave c q) h rfl hq).1 hall
    obtain ⟨⟨l1, m, l2, e1, e2, e3⟩, e4⟩ := C11_operations h hw1 rfl
    have hl : leave c q w.s = .ok w1.s ∧ w1.live = w.live := by
      cases hw1 with
      | op o q' s' ho _ hx => cases ho; exact ⟨hx, rfl⟩
    have hr1 : PReach w1 := .step _ _ h hw1
    have hnd' : (l1.map QMem.c ++ c :: l2.map QMem.c).Nodup := by
      have := (C15_membership h hq).2
      unfold order at this
      rw [e1] at this
      simpa [e2] using this
    have hnot : ∀ x ∈ l1 ++ l2, x.c ≠ c := by
      intro x hx hc
      rw [List.nodup_append, List.nodup_cons] at hnd'
      rcases List.mem_append.1 hx with hx | hx
      · exact hnd'.2.2 x.c (List.mem_map_of_mem hx) c (by simp) hc
      · exact hnd'.2.1.1 (hc ▸ List.mem_map_of_mem hx)
    obtain ⟨s', f1, f2, f3, f4⟩ := ih w1 hr1 (hl.2 ▸ hq) hnd.2 (fun d hd => by
      have hdo := hin d (by simp [hd])
      have hdc : d ≠ c := fun hh => hnd.1 (hh ▸ hd)
      unfold order at hdo ⊢
      rw [e1] at hdo
      rw [e3]
      simp only [List.map_append, List.map_cons, List.mem_append, List.mem_cons, e2, hdc, false_or] at hdo ⊢
      exact hdo)
    refine ⟨s', ?_, by rw [← hl.2]; exact f2, ?_, fun p hp hpq => (f4 p (hl.2 ▸ hp) hpq).trans (e4 p hp hpq)⟩
    · rw [List.map_cons]; unfold removeAll; rw [hl.1]; exact f1
    · rw [f3, e3, e1, List.filter_append, List.filter_append, List.filter_cons]
      rw [if_neg (by simp [e2])]
      have hf : ∀ l : List QMem, (∀ x ∈ l, x.c ≠ c) → l.filter (fun m => decide (m.c ∉ cs)) = l.filter (fun m => decide (m.c ∉ c :: cs)) := by
        intro l hx
        refine List.filter_congr fun x hxl => ?_
        have := hx x hxl
        simp [this]
      rw [hf l1 (fun x hx => hnot x (by simp [hx])), hf l2 (fun x hx => hnot x (by simp [hx]))]

/-- C64: `del q[a:b:k]` takes exactly the components at the positions of the slice out of the queue; the others keep their order, priority and enter
time, and nothing changes in the other queues -/
theorem C64_delete_slice {w q} (h : PReach w) (hq : q ∈ w.live) (a b k : Option Int) :
    (k = some 0 → delSlice q a b k w.s = .err .value w.s) ∧
    (k ≠ some 0 → ∃ (s' : PS) (gone : List CId), delSlice q a b k w.s = .ok s' ∧ PReach ⟨s', w.live⟩ ∧
      (∀ c, c ∈ gone ↔ ∃ p, InSlice (order q w.s).length a b (k.getD 1) p ∧ (order q w.s)[p]? = some c) ∧
      content q s' = (content q w.s).filter (fun m => decide (m.c ∉ gone)) ∧ ∀ p ∈ w.live, p ≠ q → content p s' = content p w.s) := by
  obtain ⟨h1, h2⟩ := C64_slice h hq a b k
  refine ⟨fun hk => by unfold delSlice; rw [h1 hk], fun hk => ?_⟩
  obtain ⟨ps, e1, e2, e3, e4⟩ := h2 hk
  have hnd := (C15_membership h hq).2
  have hps : ps.Nodup := by
    have h0 : k.getD 1 ≠ 0 := by
      cases k with
      | none => simp
      | some k => intro hh; exact hk (by rw [show k = 0 from hh])
    rcases lt_or_gt_of_ne h0 with hl | hl
    · exact (e4 hl).imp (fun h => by omega)
    · exact (e3 hl).imp (fun h => by omega)
  have hlt : ∀ p ∈ ps, p < (order q w.s).length := fun p hp => ((e2 p).1 hp).1
  let gone : List CId := ps.filterMap (fun p => (order q w.s)[p]?)
  have hgone : ps.map (fun p => (order q w.s)[p]?) = gone.map some := by
    have : ∀ l : List Nat, (∀ p ∈ l, p < (order q w.s).length) → l.map (fun p => (order q w.s)[p]?) = (l.filterMap (fun p => (order q w.s)[p]?)).map some := by
      intro l
      induction l with
      | nil => intro _; rfl
      | cons x l ih =>
        intro hl
        rw [List.map_cons, ih (fun p hp => hl p (by simp [hp])), List.filterMap_cons, List.getElem?_eq_getElem (hl x (by simp))]
        rfl
    exact this ps hlt
  have hmem : ∀ c, c ∈ gone ↔ ∃ p, InSlice (order q w.s).length a b (k.getD 1) p ∧ (order q w.s)[p]? = some c := by
    intro c
    rw [List.mem_filterMap]
    exact exists_congr fun p => and_congr_left fun _ => e2 p
  have hgn : gone.Nodup := by
    refine hps.filterMap ?_
    intro x y c hx hy
    rw [Option.mem_def] at hx hy
    obtain ⟨hx1, hx2⟩ := List.getElem?_eq_some_iff.1 hx
    obtain ⟨hy1, hy2⟩ := List.getElem?_eq_some_iff.1 hy
    exact (hnd.getElem_inj_iff).1 (hx2.trans hy2.symm)
  obtain ⟨s', f1, f2, f3, f4⟩ := removeAll_spec gone w h hq hgn (fun c hc => by
    obtain ⟨p, _, hp⟩ := (hmem c).1 hc
    exact List.mem_of_getElem? hp)
  refine ⟨s', gone, ?_, f2, hmem, f3, f4⟩
  unfold delSlice
  rw [e1, hgone]
  exact f1

/-- C64: `del q[i]` takes the component at position `i` (counted from the end if negative) out of the queue; IndexError if there is none -/
theorem C64_delete {w q} (h : PReach w) (hq : q ∈ w.live) (i : Int) :
    (∀ c, 0 ≤ place (order q w.s).length i → (order q w.s)[(place (order q w.s).length i).toNat]? = some c →
      ∃ s', delItem q i w.s = .ok s' ∧ PReach ⟨s', w.live⟩ ∧ content q s' = (content q w.s).filter (fun m => decide (m.c ≠ c)) ∧
        ∀ p ∈ w.live, p ≠ q → content p s' = content p w.s) ∧
    (place (order q w.s).length i < 0 ∨ ((order q w.s).length : Int) ≤ place (order q w.s).length i → delItem q i w.s = .err .exc w.s) := by
  obtain ⟨ids, hr, _, _⟩ := h.rep
  have hg := hr.getItem hq i
  constructor
  · intro c h0 hc
    obtain ⟨hlt, _⟩ := List.getElem?_eq_some_iff.1 hc
    have : getItem q i w.s = .ok (some c) := by
      rw [hg]
      unfold place at h0 hc hlt
      by_cases hi : i < 0
      · rw [if_pos hi] at h0 hc
        rw [if_neg (by omega), if_pos (by omega), show i + ((order q w.s).length : Int) = (order q w.s).length + i by omega, hc]
      · rw [if_neg hi] at h0 hc hlt
        rw [if_pos (by omega), hc]
    unfold delItem
    rw [this]
    obtain ⟨s', f1, f2, f3, f4⟩ := removeAll_spec [c] w h hq (by simp) (by intro d hd; rw [List.mem_singleton.1 hd]; exact List.mem_of_getElem? hc)
    exact ⟨s', f1, f2, by rw [f3]; simp, f4⟩
  · intro hx
    unfold place at hx
    unfold delItem
    rw [hg]
    by_cases hi : i < 0
    · rw [if_pos hi] at hx
      rw [if_neg (by omega), if_neg (by omega)]
    · rw [if_neg hi] at hx
      rw [if_neg (by omega), if_neg (by omega)]

/-- C64: `pop()` and `pop(i)` take the head, respectively the component at position `i`, out of the queue and return it; `pop()` of an empty queue
returns None -/
theorem C64_pop {w q} (h : PReach w) (hq : q ∈ w.live) (i : Option Int) :
    (∀ c, 0 ≤ place (order q w.s).length (i.getD 0) → (order q w.s)[(place (order q w.s).length (i.getD 0)).toNat]? = some c →
      ∃ s', pop q i w.s = (some c, .ok s') ∧ PReach ⟨s', w.live⟩ ∧ content q s' = (content q w.s).filter (fun m => decide (m.c ≠ c)) ∧
        ∀ p ∈ w.live, p ≠ q → content p s' = content p w.s) ∧
    (order q w.s = [] → pop q none w.s = (none, .ok w.s)) := by
  obtain ⟨ids, hr, _, _⟩ := h.rep
  constructor
  · intro c h0 hc
    obtain ⟨hlt, _⟩ := List.getElem?_eq_some_iff.1 hc
    have : popItem q i w.s = .ok (some c) := by
      unfold popItem
      cases i with
      | none =>
        simp only [hr.headC hq]
        unfold place at hc
        simp at hc
        rw [List.head?_eq_getElem?, hc]
      | some i =>
        simp only [Option.getD_some] at h0 hc hlt
        simp only
        rw [hr.getItem hq i]
        unfold place at h0 hc hlt
        by_cases hi : i < 0
        · rw [if_pos hi] at h0 hc
          rw [if_neg (by omega), if_pos (by omega), show i + ((order q w.s).length : Int) = (order q w.s).length + i by omega, hc]
        · rw [if_neg hi] at h0 hc hlt
          rw [if_pos (by omega), hc]
    obtain ⟨s', f1, f2, f3, f4⟩ := removeAll_spec [c] w h hq (by simp) (by intro d hd; rw [List.mem_singleton.1 hd]; exact List.mem_of_getElem? hc)
    refine ⟨s', ?_, f2, by rw [f3]; simp, f4⟩
    unfold pop
    rw [this]
    simp only
    simp only [List.map_cons, List.map_nil, removeAll] at f1
    cases hl : leave c q w.s with
    | ok s1 => rw [hl] at f1; simp only [PR.andThen, PR.ok.injEq] at f1; rw [f1]
    | err e s1 => rw [hl] at f1; simp [PR.andThen] at f1
  · intro he
    unfold pop popItem
    simp only [hr.headC hq, he, List.head?_nil]

/-- C64 contradicts the documentation of `pop(i)` ("None if not existing"): it raises IndexError if there is no such component -/
theorem C64_pop_counterexample : ∃ w, PReach w ∧ 0 ∈ w.live ∧ pop 0 (some 3) w.s = (none, .err .exc w.s) := by
  let w := (pexec [.newQueue 0 ⊤, .enter 1 0] .empty).getD .empty
  have h : (pexec [.newQueue 0 ⊤, .enter 1 0] .empty) = some w := rfl
  exact ⟨w, pexec_reach .empty h, by decide +kernel, rfl⟩

/-- non-vacuity of C64: a queue of six, with slices in both directions, clipped ones, and what is left after `del` -/
def sixW : PW := (pexec [.newQueue 0 ⊤, .enter 10 0, .enter 11 0, .enter 12 0, .enter 13 0, .enter 14 0, .enter 15 0] .empty).getD .empty
theorem sixW_reach : PReach sixW := pexec_reach .empty (rfl : pexec [.newQueue 0 ⊤, .enter 10 0, .enter 11 0, .enter 12 0, .enter 13 0, .enter 14 0, .enter 15 0] .empty = some sixW)
def left : PR → List CId
  | .ok s => order 0 s
  | .err _ _ => []
def got (r : Except Err (List (Option CId))) : List CId := match r with
  | .ok l => l.filterMap id
  | .error _ => []
example : got (getSlice 0 (some 1) (some 5) (some 2) sixW.s) = [11, 13] ∧ got (getSlice 0 none none (some (-1)) sixW.s) = [15, 14, 13, 12, 11, 10] ∧
    got (getSlice 0 (some (-2)) (some 100) none sixW.s) = [14, 15] ∧ got (getSlice 0 (some 100) (some 1) (some (-2)) sixW.s) = [15, 13] ∧
    left (delSlice 0 (some 1) none (some 2) sixW.s) = [10, 12, 14] ∧ left (delItem 0 (-1) sixW.s) = [10, 11, 12, 13, 14] ∧
    (pop 0 none sixW.s).1 = some 10 ∧ left (pop 0 (some 2) sixW.s).2 = [10, 11, 13, 14, 15] := by decide +kernel

end Chain
end Verif
