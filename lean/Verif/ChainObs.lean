import Verif.ChainReach

/-!
# Observers of queues at pointer level: head, tail, successor, predecessor, index, integer indexing
-/

namespace Verif
namespace Chain
open Queue (QR)

/-- what one sees when following the chain from the head: component, priority, time of entering -/
def content (q : QId) (s : PS) : List QMem := ((members q s).getD []).map (mem s)

/-- the components in the order of the chain -/
def order (q : QId) (s : PS) : List CId := (content q s).map QMem.c

theorem Rep.content {s live ids} (h : Rep s live ids) {q} (hq : live q) : content q s = (abs s ids q).mem := by
  unfold Chain.content; rw [h.toWf.members hq]; rfl

theorem Rep.order_comp {s live ids} (h : Rep s live ids) {q} (hq : live q) :
    (ids q).map (fun n => (s.nodes n).comp) = (order q s).map some := by
  rw [h.comps hq]; unfold order; rw [h.content hq]

theorem Rep.headC {s live ids} (h : Rep s live ids) {q} (hq : live q) : headC q s = (order q s).head? := by
  obtain ⟨m, B, hm⟩ := cons_of_snoc (s.queues q).tail (ids q)
  unfold Chain.headC
  rw [h.toWf.head_succ hq hm]
  have hc := h.order_comp hq
  cases hi : ids q with
  | nil =>
    rw [hi] at hm hc
    have : order q s = [] := by simpa using hc.symm
    rw [this]
    have : m = (s.queues q).tail := (List.cons.inj hm).1.symm
    rw [this]; exact (h.tl q hq).2
  | cons a l =>
    rw [hi] at hm hc
    have : m = a := (List.cons.inj hm).1.symm
    subst this
    cases ho : order q s with
    | nil => rw [ho] at hc; simp at hc
    | cons x t => rw [ho] at hc; simp at hc; simp [hc.1]

theorem Rep.tailC {s live ids} (h : Rep s live ids) {q} (hq : live q) : tailC q s = (order q s).getLast? := by
  obtain ⟨A, m, hm⟩ := snoc_of_cons (s.queues q).head (ids q)
  unfold Chain.tailC
  rw [h.toWf.tail_pred hq hm]
  have hc := congrArg List.getLast? (h.order_comp hq)
  rw [List.getLast?_map, List.getLast?_map] at hc
  have hl := congrArg List.getLast? hm
  rw [List.getLast?_concat] at hl
  rcases List.eq_nil_or_concat (ids q) with hi | ⟨l, a, hi⟩
  · rw [hi] at hl hc
    have : m = (s.queues q).head := by simpa using hl.symm
    rw [this]
    simp only [List.getLast?_nil, Option.map_none] at hc
    have hn : (order q s).getLast? = none := by
      cases hx : (order q s).getLast? <;> simp [hx] at hc ⊢
    rw [hn]; exact (h.hd q hq).2
  · rw [hi, List.concat_eq_append] at hl hc
    rw [← List.cons_append, List.getLast?_concat] at hl
    cases hl
    rw [List.getLast?_concat] at hc
    cases hx : (order q s).getLast? with
    | none => simp [hx] at hc
    | some c => simp [hx] at hc; exact hc

theorem split_unique {α : Type} {c : α} : ∀ {a b a' b' : List α}, c ∉ a → c ∉ a' → a ++ c :: b = a' ++ c :: b' → a = a' ∧ b = b'
  | [], b, [], b', _, _, h => ⟨rfl, (List.cons.inj h).2⟩
  | [], b, x :: a', b', _, h2, h => absurd (by have := (List.cons.inj h).1; simp [this]) h2
  | x :: a, b, [], b', h1, _, h => absurd (by have := (List.cons.inj h).1; simp [this]) h1
  | x :: a, b, y :: a', b', h1, h2, h => by
    have e := List.cons.inj h
    have := split_unique (fun hc => h1 (List.mem_cons_of_mem _ hc)) (fun hc => h2 (List.mem_cons_of_mem _ hc)) e.2
    exact ⟨by rw [e.1, this.1], this.2⟩

/-- where a component is -/
theorem Rep.order_split {s live ids} (h : Rep s live ids) {q} {l1 l2 : List NId} {n} (hi : ids q = l1 ++ n :: l2) (hq : live q) {c}
    (hc : (s.nodes n).comp = some c) : ∃ o1 o2, order q s = o1 ++ c :: o2 ∧ o1.map some = l1.map (fun n => (s.nodes n).comp) ∧
      o2.map some = l2.map (fun n => (s.nodes n).comp) := by
  have := h.order_comp hq
  rw [hi, List.map_append, List.map_cons, hc] at this
  rw [List.append_eq_map_iff] at this
  obtain ⟨o1, o2', ho, h1, h2⟩ := this
  cases o2' with
  | nil => simp at h2
  | cons x o2 =>
    simp only [List.map_cons, List.cons.injEq, Option.some.injEq] at h2
    rw [h2.1] at ho
    exact ⟨o1, o2, ho, h1, h2.2⟩

theorem Rep.order_nodup {s live ids} (h : Rep s live ids) {q} (hq : live q) : (order q s).Nodup := by
  have hn : (ids q).Nodup := by
    have := h.nodup q hq
    unfold ring at this
    rw [List.nodup_cons, List.nodup_append] at this
    exact this.2.1
  have h2 : ((order q s).map some).Nodup := by
    rw [← h.order_comp hq]
    refine List.Nodup.map_on ?_ hn
    intro a ha b hb hab
    obtain ⟨c, hc⟩ := Option.isSome_iff_exists.1 (h.comp q hq a ha)
    have e1 := (h.qm c q a).2 ⟨hq, ha, hc⟩
    have e2 := (h.qm c q b).2 ⟨hq, hb, by rw [← hab]; exact hc⟩
    rw [e1] at e2; exact Option.some.inj e2
  exact List.Nodup.of_map some h2

theorem Rep.mem_order {s live ids} (h : Rep s live ids) {q} (hq : live q) (c : CId) : c ∈ order q s ↔ (s.qm c q).isSome := by
  have hm : c ∈ order q s ↔ some c ∈ (ids q).map (fun n => (s.nodes n).comp) := by
    rw [h.order_comp hq, List.mem_map]; simp
  rw [hm, List.mem_map, Option.isSome_iff_exists]
  constructor
  · rintro ⟨n, hn, hc⟩; exact ⟨n, (h.qm c q n).2 ⟨hq, hn, hc⟩⟩
  · rintro ⟨n, hn⟩; have := (h.qm c q n).1 hn; exact ⟨n, this.2.1, this.2.2⟩

theorem Rep.successor {s live ids} (h : Rep s live ids) {q} (hq : live q) {c : CId} {o1 o2} (ho : order q s = o1 ++ c :: o2) :
    successor c q s = some o2.head? ∧ predecessor c q s = some o1.getLast? := by
  have hm : (s.qm c q).isSome := (h.mem_order hq c).1 (by rw [ho]; simp)
  obtain ⟨n, hn⟩ := Option.isSome_iff_exists.1 hm
  obtain ⟨_, hn1, hn2⟩ := (h.qm c q n).1 hn
  obtain ⟨l1, l2, hi⟩ := List.append_of_mem hn1
  obtain ⟨p1, p2, hp, e1, e2⟩ := h.order_split hi hq hn2
  have hnd := h.order_nodup hq
  have : o1 = p1 ∧ o2 = p2 := by
    have hx : o1 ++ c :: o2 = p1 ++ c :: p2 := ho ▸ hp
    have nd1 : (o1 ++ c :: o2).Nodup := ho ▸ hnd
    have nd2 : (p1 ++ c :: p2).Nodup := hp ▸ hnd
    have k1 : c ∉ o1 := by
      rw [List.nodup_append] at nd1; intro hc; exact nd1.2.2 c hc c (by simp) rfl
    have k2 : c ∉ p1 := by
      rw [List.nodup_append] at nd2; intro hc; exact nd2.2.2 c hc c (by simp) rfl
    exact split_unique k1 k2 hx
  obtain ⟨rfl, rfl⟩ := this
  unfold Chain.successor Chain.predecessor
  rw [hn]
  simp only [Option.bind_some]
  have hi1 : ids q = (l1 ++ [n]) ++ l2 := by simpa using hi
  obtain ⟨m', B', h2'⟩ := cons_of_snoc (s.queues q).tail l2
  obtain ⟨A', k', h1'⟩ := snoc_of_cons (s.queues q).head l1
  have hl := (h.toWf.link hq (l1 := l1 ++ [n]) (A := (s.queues q).head :: l1) (m1 := n) hi1 (by simp) h2').1
  have hr := (h.toWf.link hq hi h1' (m2 := n) (B := l2 ++ [(s.queues q).tail]) rfl).2
  rw [hl, hr]
  simp only [Option.map_some, Option.some.injEq]
  constructor
  · cases l2 with
    | nil =>
      have : m' = (s.queues q).tail := (List.cons.inj h2').1.symm
      have ho2 : o2 = [] := by simpa using e2
      rw [this, ho2]; exact (h.tl q hq).2
    | cons a l =>
      have : m' = a := (List.cons.inj h2').1.symm
      subst this
      cases o2 with
      | nil => simp at e2
      | cons x t => simp at e2; simp [e2.1]
  · have e1' := congrArg List.getLast? e1
    rw [List.getLast?_map, List.getLast?_map] at e1'
    have hl := congrArg List.getLast? h1'
    rw [List.getLast?_concat] at hl
    rcases List.eq_nil_or_concat l1 with hi | ⟨l, a, hi⟩
    · rw [hi] at hl e1'
      have : k' = (s.queues q).head := by simpa using hl.symm
      rw [this]
      have hn : o1.getLast? = none := by
        cases hx : o1.getLast? <;> simp [hx] at e1' ⊢
      rw [hn]; exact (h.hd q hq).2
    · rw [hi, List.concat_eq_append] at hl e1'
      rw [← List.cons_append, List.getLast?_concat] at hl
      cases hl
      rw [List.getLast?_concat] at e1'
      cases hx : o1.getLast? with
      | none => simp [hx] at e1'
      | some c => simp [hx] at e1'; exact e1'.symm

theorem Rep.not_succ {s live ids} (h : Rep s live ids) {q} (hq : live q) {c : CId} (hc : c ∉ order q s) :
    Chain.successor c q s = none ∧ predecessor c q s = none := by
  have : s.qm c q = none := by
    cases hx : s.qm c q with
    | none => rfl
    | some n => exact absurd ((h.mem_order hq c).2 (by simp [hx])) hc
  unfold Chain.successor predecessor
  rw [this]; exact ⟨rfl, rfl⟩

/-! ## index -/

theorem Wf.indexLoop {s live ids} (h : Wf s live ids) {q} (hq : live q) {n} :
    ∀ (l2 l1 : List NId) (m2 : NId) (B : List NId) (fuel : Nat) (i : Int), ids q = l1 ++ l2 → l2 ++ [(s.queues q).tail] = m2 :: B → l2.length < fuel →
    n ∈ l2 → indexLoop s n fuel m2 i = some (i + l2.idxOf n) := by
  intro l2
  induction l2 with
  | nil => intro l1 m2 B fuel i hi h2 hf hn; cases hn
  | cons a l2 ih =>
    intro l1 m2 B fuel i hi h2 hf hn
    cases fuel with
    | zero => simp at hf
    | succ f =>
      have ha : a = m2 := (List.cons.inj h2).1
      subst ha
      unfold Chain.indexLoop
      by_cases han : a = n
      · subst han; simp
      · rw [if_neg han]
        have hi' : ids q = (l1 ++ [a]) ++ l2 := by simpa using hi
        obtain ⟨m', B', h2'⟩ := cons_of_snoc (s.queues q).tail l2
        have hl := (h.link hq (l1 := l1 ++ [a]) (A := (s.queues q).head :: l1) (m1 := a) hi' (by simp) h2').1
        rw [hl]
        simp only
        rw [ih (l1 ++ [a]) m' B' f (i + 1) hi' h2' (by simpa using hf) ((List.mem_cons.1 hn).resolve_left (fun h => han h.symm))]
        rw [List.idxOf_cons_ne _ han]
        simp; ring

theorem Rep.index {s live ids} (h : Rep s live ids) {q} (hq : live q) (c : CId) :
    index c q s = some (if c ∈ order q s then ((order q s).idxOf c : Int) else -1) := by
  unfold Chain.index
  cases hx : s.qm c q with
  | none =>
    have : c ∉ order q s := fun hc => by have := (h.mem_order hq c).1 hc; simp [hx] at this
    simp [this]
  | some n =>
    obtain ⟨_, hn1, hn2⟩ := (h.qm c q n).1 hx
    have hc : c ∈ order q s := (h.mem_order hq c).2 (by simp [hx])
    rw [if_pos hc]
    obtain ⟨m, B, hm⟩ := cons_of_snoc (s.queues q).tail (ids q)
    simp only
    rw [h.toWf.head_succ hq hm]
    simp only [Option.bind_some]
    rw [h.toWf.indexLoop hq (ids q) [] m B s.next 0 (by simp) hm (by have := h.toWf.fuel hq; omega) hn1]
    obtain ⟨l1, l2, hi⟩ := List.append_of_mem hn1
    obtain ⟨p1, p2, hp, e1, e2⟩ := h.order_split hi hq hn2
    have hnd := h.order_nodup hq
    have k1 : c ∉ p1 := by
      rw [hp, List.nodup_append] at hnd; intro hc; exact hnd.2.2 c hc c (by simp) rfl
    have k2 : n ∉ l1 := by
      have := h.nodup q hq
      unfold ring at this
      rw [List.nodup_cons, List.nodup_append, hi, List.nodup_append] at this
      intro hn; exact this.2.1.2.2 n hn n (by simp) rfl
    have hlen : l1.length = p1.length := by simpa using congrArg List.length e1.symm
    rw [hi, hp, List.idxOf_append_of_notMem k1, List.idxOf_append_of_notMem k2]
    simp [hlen]

/-! ## integer indexing -/

theorem Rep.getLoop {s live ids} (h : Rep s live ids) {q} (hq : live q) (key : Nat) :
    ∀ (l2 l1 : List NId) (m2 : NId) (B : List NId) (fuel : Nat), ids q = l1 ++ l2 → l2 ++ [(s.queues q).tail] = m2 :: B → l2.length < fuel →
    l1.length ≤ key → key < l1.length + l2.length →
    getLoop s (s.queues q).tail key fuel m2 l1.length = some (((l2[key - l1.length]?).bind fun n => (s.nodes n).comp)) := by
  intro l2
  induction l2 with
  | nil => intro l1 m2 B fuel hi h2 hf hk1 hk2; simp at hk2; omega
  | cons a l2 ih =>
    intro l1 m2 B fuel hi h2 hf hk1 hk2
    cases fuel with
    | zero => simp at hf
    | succ f =>
      have ha : a = m2 := (List.cons.inj h2).1
      subst ha
      have hne : a ≠ (s.queues q).tail := by
        have hn := h.nodup q hq
        unfold ring at hn
        rw [List.nodup_cons, List.nodup_append] at hn
        intro hh
        exact hn.2.2.2 a (by rw [hi]; simp) a (by simp [hh]) rfl
      unfold Chain.getLoop
      rw [if_neg hne]
      by_cases hk : ((l1.length : Nat) : Int) = (key : Int)
      · rw [if_pos hk]
        have : key - l1.length = 0 := by omega
        simp [this]
      · rw [if_neg hk]
        have hi' : ids q = (l1 ++ [a]) ++ l2 := by simpa using hi
        obtain ⟨m', B', h2'⟩ := cons_of_snoc (s.queues q).tail l2
        have hl := (h.toWf.link hq (l1 := l1 ++ [a]) (A := (s.queues q).head :: l1) (m1 := a) hi' (by simp) h2').1
        rw [hl]
        have := ih (l1 ++ [a]) m' B' f hi' h2' (by simpa using hf) (by simp; omega) (by simp at hk2 ⊢; omega)
        simp only [List.length_append, List.length_singleton, Nat.cast_add, Nat.cast_one] at this
        simp only
        rw [this]
        have e : key - l1.length = (key - (l1.length + 1)) + 1 := by omega
        rw [e, List.getElem?_cons_succ]

theorem Rep.length {s live ids} (h : Rep s live ids) {q} (hq : live q) : (s.queues q).length = (order q s).length := by
  rw [h.len q hq]
  have := congrArg List.length (h.order_comp hq)
  simpa using this

theorem Rep.getItem {s live ids} (h : Rep s live ids) {q} (hq : live q) (key : Int) :
    getItem q key s =
      if 0 ≤ key ∧ key < (order q s).length then .ok ((order q s)[key.toNat]?)
      else if key < 0 ∧ 0 ≤ key + (order q s).length then .ok ((order q s)[(key + (order q s).length).toNat]?)
      else .error .exc := by
  have main : ∀ k : Nat, k < (order q s).length →
      (match (s.nodes (s.queues q).head).succ.bind fun h => Chain.getLoop s (s.queues q).tail k s.next h 0 with
      | none => .error .attribute
      | some r => .ok r : Except Err (Option CId)) = .ok ((order q s)[k]?) := by
    intro k hk
    obtain ⟨m, B, hm⟩ := cons_of_snoc (s.queues q).tail (ids q)
    rw [h.toWf.head_succ hq hm]
    simp only [Option.bind_some]
    have hlen : (ids q).length = (order q s).length := by simpa using congrArg List.length (h.order_comp hq)
    have := h.getLoop hq k (ids q) [] m B s.next (by simp) hm (by have := h.toWf.fuel hq; omega) (by simp) (by simp; omega)
    simp only [List.length_nil, Nat.cast_zero, Nat.sub_zero] at this
    rw [this]
    simp only
    congr 1
    have hx := congrArg (fun l => l[k]?) (h.order_comp hq)
    simp only [List.getElem?_map] at hx
    have hk' : k < (ids q).length := by omega
    rw [List.getElem?_eq_getElem hk, List.getElem?_eq_getElem hk'] at hx ⊢
    simpa using hx
  unfold Chain.getItem
  rw [h.length hq]
  simp only
  by_cases h1 : 0 ≤ key ∧ key < (order q s).length
  · rw [if_pos h1, if_neg (by omega : ¬ key < 0), if_neg (by push Not; omega)]
    obtain ⟨k, rfl⟩ := Int.eq_ofNat_of_zero_le h1.1
    exact main k (by omega)
  · rw [if_neg h1]
    by_cases h2 : key < 0 ∧ 0 ≤ key + (order q s).length
    · rw [if_pos h2, if_pos h2.1, if_neg (by push Not; omega)]
      obtain ⟨k, hk⟩ := Int.eq_ofNat_of_zero_le h2.2
      rw [hk]
      exact main k (by omega)
    · rw [if_neg h2]
      by_cases hneg : key < 0
      · rw [if_pos hneg, if_pos (by push Not at h2; left; exact h2 hneg)]
      · rw [if_neg hneg, if_pos (by push Not at h1; right; exact h1 (by omega))]

end Chain
end Verif
