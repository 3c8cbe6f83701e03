import Verif.ChainRep

/-!
# Each operation on the chain refines the operation on the list
-/

namespace Verif
namespace Chain
open Queue (QR)

/-- the outcome of the pointer operation is that of the list operation -/
def Refines (s : PS) (live : QId → Prop) (ids : QId → List NId) (q : QId) (lv : Option CId) (pr : PR) : QR → Prop
  | .notOk e => pr = .err e s
  | .ok q' => ∃ s' ids', pr = .ok s' ∧ Rep s' live ids' ∧ abs s' ids' q = q' ∧ (∀ p, p ≠ q → live p → abs s' ids' p = abs s ids p) ∧
      s'.now = s.now ∧ Evo s ids s' ids' q lv

theorem Rep.insert' {s live ids} (h : Rep s live ids) {q} (hq : live q) {c : CId} {prio : Rat} {l1 l2 m2 B} (hi : ids q = l1 ++ l2)
    (h2 : l2 ++ [(s.queues q).tail] = m2 :: B) (hc : s.qm c q = none) :
    Refines s live ids q none (insertInFrontOf m2 c q prio s)
      (Queue.ofOpt ((abs s ids q).insert s.now (l1.map (mem s) ++ ⟨c, prio, s.now⟩ :: l2.map (mem s)))) := by
  have := h.insert (prio := prio) hq hi h2 hc
  cases ho : (abs s ids q).insert s.now (l1.map (mem s) ++ ⟨c, prio, s.now⟩ :: l2.map (mem s)) with
  | none => rw [ho] at this; exact this
  | some q' =>
    rw [ho] at this
    obtain ⟨s', a, b, d, e, f⟩ := this
    exact ⟨s', _, a, b, d, e, f⟩

theorem Rep.has {s live ids} (h : Rep s live ids) {q} (hq : live q) (c : CId) : (abs s ids q).has c = (s.qm c q).isSome := by
  rw [Bool.eq_iff_iff, Queue.has_iff]
  constructor
  · rintro ⟨m, hm, hc⟩
    simp only [abs, List.mem_map] at hm
    obtain ⟨n, hn, rfl⟩ := hm
    have h1 := h.comp q hq n hn
    obtain ⟨c', hc'⟩ := Option.isSome_iff_exists.1 h1
    have : c' = c := by rw [← hc]; simp [mem, hc']
    subst this
    rw [(h.qm c' q n).2 ⟨hq, hn, hc'⟩]; rfl
  · intro hx
    obtain ⟨n, hn⟩ := Option.isSome_iff_exists.1 hx
    obtain ⟨_, h1, h2⟩ := (h.qm c q n).1 hn
    exact ⟨mem s n, List.mem_map_of_mem h1, by simp [mem, h2]⟩

/-- the place of a member in the list -/
theorem Rep.split {s live ids} (h : Rep s live ids) {q} {c : CId} {n} (hn : s.qm c q = some n) :
    ∃ l1 l2, ids q = l1 ++ n :: l2 ∧ (∀ m ∈ l1, (mem s m).c ≠ c) ∧ (mem s n).c = c := by
  obtain ⟨hq, h1, h2⟩ := (h.qm c q n).1 hn
  obtain ⟨l1, l2, hl⟩ := List.append_of_mem h1
  refine ⟨l1, l2, hl, ?_, by simp [mem, h2]⟩
  intro m hm hc
  have hm' : m ∈ ids q := by rw [hl]; simp [hm]
  obtain ⟨c', hc'⟩ := Option.isSome_iff_exists.1 (h.comp q hq m hm')
  have : c' = c := by rw [← hc]; simp [mem, hc']
  subst this
  have := (h.qm c' q m).2 ⟨hq, hm', hc'⟩
  rw [hn] at this
  cases this
  have hnd := h.nodup q hq
  unfold ring at hnd
  rw [hl] at hnd
  simp only [List.nodup_cons, List.nodup_append, List.mem_append] at hnd
  exact hnd.2.1.2.2 n hm n (by simp) rfl

theorem find_at {l1 l2 : List QMem} {m : QMem} {c : CId} (h1 : ∀ x ∈ l1, x.c ≠ c) (hc : m.c = c) :
    (l1 ++ m :: l2).find? (fun m => m.c == c) = some m := by
  induction l1 with
  | nil => simp [hc]
  | cons a l1 ih =>
    rw [List.cons_append, List.find?_cons]
    have : (a.c == c) = false := by simpa using h1 a (by simp)
    rw [this]
    exact ih (fun x hx => h1 x (by simp [hx]))

theorem insBefore_at {l1 l2 : List QMem} {m x : QMem} {c : CId} (h1 : ∀ x ∈ l1, x.c ≠ c) (hc : m.c = c) :
    Queue.insBefore x c (l1 ++ m :: l2) = l1 ++ x :: m :: l2 := by
  induction l1 with
  | nil => simp [Queue.insBefore, hc]
  | cons a l1 ih =>
    rw [List.cons_append, Queue.insBefore, if_neg (h1 a (by simp)), ih (fun x hx => h1 x (by simp [hx]))]; rfl

theorem insBehind_at {l1 l2 : List QMem} {m x : QMem} {c : CId} (h1 : ∀ x ∈ l1, x.c ≠ c) (hc : m.c = c) :
    Queue.insBehind x c (l1 ++ m :: l2) = l1 ++ m :: x :: l2 := by
  induction l1 with
  | nil => simp [Queue.insBehind, hc]
  | cons a l1 ih =>
    rw [List.cons_append, Queue.insBehind, if_neg (h1 a (by simp)), ih (fun x hx => h1 x (by simp [hx]))]; rfl

theorem Rep.find_none {s live ids} (h : Rep s live ids) {q} (hq : live q) {c : CId} (hn : s.qm c q = none) : (abs s ids q).find c = none := by
  unfold Queue.find
  rw [List.find?_eq_none]
  intro m hm
  have := h.has hq c
  rw [hn] at this
  have h2 : ¬ (abs s ids q).has c = true := by rw [this]; simp
  have := Queue.not_has h2 m hm
  simpa using this

theorem Rep.find_some {s live ids} (h : Rep s live ids) {q} {c : CId} {n} (hn : s.qm c q = some n) :
    (abs s ids q).find c = some (mem s n) := by
  obtain ⟨l1, l2, hl, h1, h2⟩ := h.split hn
  unfold Queue.find
  simp only [abs, hl, List.map_append, List.map_cons]
  exact find_at (by intro x hx; obtain ⟨y, hy, rfl⟩ := List.mem_map.1 hx; exact h1 y hy) h2

theorem isSome_false {α : Type} {o : Option α} (h : ¬ o.isSome = true) : o = none := by cases o <;> simp at h ⊢

/-- link between two neighbours -/
theorem Wf.link {s live ids} (h : Wf s live ids) {q} (hq : live q) {l1 l2 A m1 m2 B} (hi : ids q = l1 ++ l2)
    (h1 : (s.queues q).head :: l1 = A ++ [m1]) (h2 : l2 ++ [(s.queues q).tail] = m2 :: B) : Link s m1 m2 := by
  have := h.chain q hq
  rw [link_mid hi h1 h2, chain_mid] at this
  exact this.2.1

theorem Rep.tailPrio {s live ids} (h : Rep s live ids) {q} (hq : live q) :
    ∃ p, (s.nodes (s.queues q).tail).pred = some p ∧ (s.nodes p).prio = Queue.tailPrio (abs s ids q).mem := by
  obtain ⟨A, m, hm⟩ := snoc_of_cons (s.queues q).head (ids q)
  refine ⟨m, h.toWf.tail_pred hq hm, ?_⟩
  unfold Queue.tailPrio
  simp only [abs, List.getLast?_map]
  rcases List.eq_nil_or_concat (ids q) with he | ⟨l, x, he⟩
  · rw [he] at hm ⊢
    have : m = (s.queues q).head := by
      have := congrArg List.getLast? hm; simpa using this.symm
    rw [this]; simpa using (h.hd q hq).1
  · rw [List.concat_eq_append] at he
    rw [he] at hm ⊢
    have : m = x := by
      rw [← List.cons_append] at hm
      have := congrArg List.getLast? hm
      rw [List.getLast?_concat, List.getLast?_concat] at this
      exact (Option.some.inj this).symm
    rw [this]; simp [mem]

theorem Rep.headPrio {s live ids} (h : Rep s live ids) {q} (hq : live q) {m B} (hm : ids q ++ [(s.queues q).tail] = m :: B) :
    (s.nodes (s.queues q).head).succ = some m ∧ (s.nodes m).prio = Queue.headPrio (abs s ids q).mem := by
  refine ⟨h.toWf.head_succ hq hm, ?_⟩
  unfold Queue.headPrio
  simp only [abs, List.head?_map]
  cases he : ids q with
  | nil =>
    rw [he] at hm
    have : m = (s.queues q).tail := by simpa using (List.cons.inj hm).1.symm
    rw [this]; simpa using (h.tl q hq).1
  | cons x l =>
    rw [he] at hm
    have : m = x := (List.cons.inj hm).1.symm
    rw [this]; simp [mem]

theorem Wf.fuel {s live ids} (h : Wf s live ids) {q} (hq : live q) : (ids q).length + 2 ≤ s.next := by
  have h1 := h.nodup q hq
  have h2 := h.lt q hq
  have : (ring s ids q).Subperm (List.range s.next) := List.subperm_of_subset h1 (fun x hx => List.mem_range.2 (h2 x hx))
  have := this.length_le
  simpa [ring] using this

theorem Wf.scanBack {s live ids} (h : Wf s live ids) {q} (hq : live q) (x : QMem) :
    ∀ (r l2 : List NId) (m2 : NId) (B : List NId) (fuel : Nat), ids q = r.reverse ++ l2 → l2 ++ [(s.queues q).tail] = m2 :: B → r.length < fuel →
    ∃ l1' l2' m' B', ids q = l1' ++ l2' ∧ l2' ++ [(s.queues q).tail] = m' :: B' ∧
      scanBack s (s.queues q).head x.prio fuel m2 = some m' ∧
      (Queue.insRev x (r.map (mem s))).reverse ++ l2.map (mem s) = l1'.map (mem s) ++ x :: l2'.map (mem s) := by
  intro r
  induction r with
  | nil =>
    intro l2 m2 B fuel hi h2 hf
    cases fuel with
    | zero => simp at hf
    | succ f =>
      refine ⟨[], l2, m2, B, by simpa using hi, h2, ?_, by simp [Queue.insRev]⟩
      have := (h.link hq (l1 := []) (A := []) (by simpa using hi) rfl h2).2
      unfold Chain.scanBack
      simp [this]
  | cons a r ih =>
    intro l2 m2 B fuel hi h2 hf
    cases fuel with
    | zero => simp at hf
    | succ f =>
      have hi' : ids q = (r.reverse ++ [a]) ++ l2 := by simpa using hi
      have := (h.link hq (l1 := r.reverse ++ [a]) (A := (s.queues q).head :: r.reverse) (m1 := a) hi' (by simp) h2).2
      have hne : a ≠ (s.queues q).head := by
        have hn := h.nodup q hq
        unfold ring at hn
        rw [List.nodup_cons] at hn
        intro hh
        exact hn.1 (by rw [← hh, hi']; simp)
      unfold Chain.scanBack
      simp only [this]
      by_cases hp : (s.nodes a).prio > x.prio
      · rw [if_pos ⟨hne, hp⟩]
        obtain ⟨l1', l2', m', B', e1, e2, e3, e4⟩ := ih (a :: l2) a (l2 ++ [(s.queues q).tail]) f (by simpa using hi) rfl (by simpa using hf)
        refine ⟨l1', l2', m', B', e1, e2, e3, ?_⟩
        rw [← e4]
        have hp' : (mem s a).prio > x.prio := hp
        simp [Queue.insRev, hp']
      · rw [if_neg (by simp [hp])]
        refine ⟨(a :: r).reverse, l2, m2, B, hi, h2, rfl, ?_⟩
        have hp' : ¬ (mem s a).prio > x.prio := hp
        simp [Queue.insRev, hp']

theorem Wf.scanFwd {s live ids} (h : Wf s live ids) {q} (hq : live q) (x : QMem) :
    ∀ (l2 l1 : List NId) (m2 : NId) (B : List NId) (fuel : Nat), ids q = l1 ++ l2 → l2 ++ [(s.queues q).tail] = m2 :: B → l2.length < fuel →
    ∃ l1' l2' m' B', ids q = l1' ++ l2' ∧ l2' ++ [(s.queues q).tail] = m' :: B' ∧
      scanFwd s (s.queues q).tail x.prio fuel m2 = some m' ∧
      l1.map (mem s) ++ Queue.insFwd x (l2.map (mem s)) = l1'.map (mem s) ++ x :: l2'.map (mem s) := by
  intro l2
  induction l2 with
  | nil =>
    intro l1 m2 B fuel hi h2 hf
    cases fuel with
    | zero => simp at hf
    | succ f =>
      refine ⟨l1, [], m2, B, hi, h2, ?_, by simp [Queue.insFwd]⟩
      have : m2 = (s.queues q).tail := (List.cons.inj h2).1.symm
      unfold Chain.scanFwd
      simp [this]
  | cons a l2 ih =>
    intro l1 m2 B fuel hi h2 hf
    cases fuel with
    | zero => simp at hf
    | succ f =>
      have ha : a = m2 := (List.cons.inj h2).1
      subst ha
      have hi' : ids q = (l1 ++ [a]) ++ l2 := by simpa using hi
      obtain ⟨m', B', h2'⟩ := cons_of_snoc (s.queues q).tail l2
      have hl := (h.link hq (l1 := l1 ++ [a]) (A := (s.queues q).head :: l1) (m1 := a) hi' (by simp) h2').1
      have hne : a ≠ (s.queues q).tail := by
        have hn := h.nodup q hq
        unfold ring at hn
        rw [List.nodup_cons, List.nodup_append] at hn
        intro hh
        exact hn.2.2.2 a (by rw [hi]; simp) a (by simp [hh]) rfl
      unfold Chain.scanFwd
      by_cases hp : (s.nodes a).prio ≤ x.prio
      · rw [if_pos ⟨hne, hp⟩, hl]
        obtain ⟨l1', l2', m'', B'', e1, e2, e3, e4⟩ := ih (l1 ++ [a]) m' B' f hi' h2' (by simpa using hf)
        refine ⟨l1', l2', m'', B'', e1, e2, e3, ?_⟩
        rw [← e4]
        have hp' : (mem s a).prio ≤ x.prio := hp
        simp [Queue.insFwd, hp']
      · rw [if_neg (by simp [hp])]
        refine ⟨l1, a :: l2, a, B, hi, h2, rfl, ?_⟩
        have hp' : ¬ (mem s a).prio ≤ x.prio := hp
        simp [Queue.insFwd, hp']

/-! ## the operations -/

theorem enter_refines {s live ids} (h : Rep s live ids) {q} (hq : live q) (c : CId) :
    Refines s live ids q none (enter c q none s) ((abs s ids q).enter s.now c) := by
  unfold enter Queue.enter
  rw [h.has hq]
  split
  · exact rfl
  · rename_i hc
    obtain ⟨p, hp, hpr⟩ := h.tailPrio hq
    simp only [orAttr, hp, hpr]
    have := h.insert' (prio := Queue.tailPrio (abs s ids q).mem) hq (l1 := ids q) (l2 := []) (by simp) rfl (isSome_false hc)
    simpa [abs] using this

theorem append_refines {s live ids} (h : Rep s live ids) {q} (hq : live q) (c : CId) (prio : Rat) :
    Refines s live ids q none (append c q prio s) ((abs s ids q).append s.now c prio) := by
  unfold append Queue.append
  rw [h.has hq]
  split
  · exact rfl
  · rename_i hc
    have := h.insert' (prio := prio) hq (l1 := ids q) (l2 := []) (by simp) rfl (isSome_false hc)
    simpa [abs] using this

theorem enterSorted_refines {s live ids} (h : Rep s live ids) {q} (hq : live q) (c : CId) (prio : Rat) :
    Refines s live ids q none (enter c q (some prio) s) ((abs s ids q).enterSorted s.now c prio) := by
  unfold enter Queue.enterSorted
  rw [h.has hq]
  split
  · exact rfl
  · rename_i hc
    have hc := isSome_false hc
    obtain ⟨m, B, hm⟩ := cons_of_snoc (s.queues q).tail (ids q)
    obtain ⟨hm1, hm2⟩ := h.headPrio hq hm
    simp only [orAttr, hm1]
    obtain ⟨l1', l2', m', B', e1, e2, e3, e4⟩ := h.toWf.scanBack hq ⟨c, prio, s.now⟩ (ids q).reverse [] (s.queues q).tail [] s.next (by simp) rfl
      (by have := h.toWf.fuel hq; simp; omega)
    cases he : ids q with
    | nil =>
      have hlen : ¬ ((s.queues q).length ≥ 1 ∧ prio < (s.nodes m).prio) := by rw [h.len q hq, he]; simp
      rw [if_neg hlen, e3]
      have := h.insert' (prio := prio) hq e1 e2 hc
      rw [← e4] at this
      simpa [abs, he, Queue.sortedIns, Queue.insRev] using this
    | cons a l =>
      have ham : a = m := by rw [he] at hm; exact (List.cons.inj hm).1
      subst ham
      simp only [abs, he, List.map_cons, Queue.sortedIns]
      by_cases hp : prio < (s.nodes a).prio
      · have hlen : (s.queues q).length ≥ 1 ∧ prio < (s.nodes a).prio := ⟨by rw [h.len q hq, he]; simp, hp⟩
        have hp' : prio < (mem s a).prio := hp
        rw [if_pos hlen, if_pos hp']
        have := h.insert' (prio := prio) hq (l1 := []) (l2 := ids q) (by simp) hm hc
        simpa [abs, he] using this
      · have hp' : ¬ prio < (mem s a).prio := hp
        rw [if_neg (by simp [hp]), if_neg hp', e3]
        have := h.insert' (prio := prio) hq e1 e2 hc
        rw [← e4] at this
        simpa [abs, he] using this

theorem enterAtHead_refines {s live ids} (h : Rep s live ids) {q} (hq : live q) (c : CId) :
    Refines s live ids q none (enterAtHead c q s) ((abs s ids q).enterAtHead s.now c) := by
  unfold enterAtHead Queue.enterAtHead
  rw [h.has hq]
  split
  · exact rfl
  · rename_i hc
    obtain ⟨m, B, hm⟩ := cons_of_snoc (s.queues q).tail (ids q)
    obtain ⟨hm1, hm2⟩ := h.headPrio hq hm
    simp only [orAttr, hm1, hm2]
    have := h.insert' (prio := Queue.headPrio (abs s ids q).mem) hq (l1 := []) (l2 := ids q) (by simp) hm (isSome_false hc)
    simpa [abs] using this

theorem enterInFrontOf_refines {s live ids} (h : Rep s live ids) {q} (hq : live q) (c p : CId) :
    Refines s live ids q none (enterInFrontOf c q p s) ((abs s ids q).enterInFrontOf s.now c p) := by
  unfold enterInFrontOf Queue.enterInFrontOf
  rw [h.has hq]
  split
  · exact rfl
  · rename_i hc
    cases hp : s.qm p q with
    | none => rw [h.find_none hq hp]; exact rfl
    | some n =>
      rw [h.find_some hp]
      obtain ⟨l1, l2, hl, h1, h2⟩ := h.split hp
      have := h.insert' (prio := (s.nodes n).prio) hq hl (B := l2 ++ [(s.queues q).tail]) rfl (isSome_false hc)
      simp only
      have e : Queue.insBefore ⟨c, (mem s n).prio, s.now⟩ p (abs s ids q).mem = l1.map (mem s) ++ ⟨c, (s.nodes n).prio, s.now⟩ :: (n :: l2).map (mem s) := by
        simp only [abs, hl, List.map_append, List.map_cons]
        exact insBefore_at (by intro x hx; obtain ⟨y, hy, rfl⟩ := List.mem_map.1 hx; exact h1 y hy) h2
      rw [e]; exact this

theorem enterBehind_refines {s live ids} (h : Rep s live ids) {q} (hq : live q) (c p : CId) :
    Refines s live ids q none (enterBehind c q p s) ((abs s ids q).enterBehind s.now c p) := by
  unfold enterBehind Queue.enterBehind
  rw [h.has hq]
  split
  · exact rfl
  · rename_i hc
    cases hp : s.qm p q with
    | none => rw [h.find_none hq hp]; exact rfl
    | some n =>
      rw [h.find_some hp]
      obtain ⟨l1, l2, hl, h1, h2⟩ := h.split hp
      obtain ⟨m', B', h2'⟩ := cons_of_snoc (s.queues q).tail l2
      have hl' : ids q = (l1 ++ [n]) ++ l2 := by simpa using hl
      have hs := (h.toWf.link hq (l1 := l1 ++ [n]) (A := (s.queues q).head :: l1) (m1 := n) hl' (by simp) h2').1
      simp only [orAttr, hs]
      have := h.insert' (prio := (s.nodes n).prio) hq hl' h2' (isSome_false hc)
      have e : Queue.insBehind ⟨c, (mem s n).prio, s.now⟩ p (abs s ids q).mem = (l1 ++ [n]).map (mem s) ++ ⟨c, (s.nodes n).prio, s.now⟩ :: l2.map (mem s) := by
        simp only [abs, hl, List.map_append, List.map_cons]
        rw [insBehind_at (by intro x hx; obtain ⟨y, hy, rfl⟩ := List.mem_map.1 hx; exact h1 y hy) h2]; simp [mem]
      rw [e]; exact this

theorem Wf.scanIndex {s live ids} (h : Wf s live ids) {q} (hq : live q) (i : Nat) :
    ∀ (l2 l1 : List NId) (m2 : NId) (B : List NId) (fuel : Nat), ids q = l1 ++ l2 → l2 ++ [(s.queues q).tail] = m2 :: B → l2.length < fuel →
    l1.length ≤ i → i ≤ (ids q).length →
    ∃ m' B', (ids q).drop i ++ [(s.queues q).tail] = m' :: B' ∧
      scanIndex s (s.queues q).tail i fuel m2 l1.length = some m' := by
  intro l2
  induction l2 with
  | nil =>
    intro l1 m2 B fuel hi h2 hf h3 h4
    cases fuel with
    | zero => simp at hf
    | succ f =>
      have : m2 = (s.queues q).tail := (List.cons.inj h2).1.symm
      have e : i = (ids q).length := by rw [hi] at h4 ⊢; simp at h4 ⊢; omega
      refine ⟨m2, B, by rw [e]; simpa using h2, ?_⟩
      unfold Chain.scanIndex
      simp [this]
  | cons a l2 ih =>
    intro l1 m2 B fuel hi h2 hf h3 h4
    cases fuel with
    | zero => simp at hf
    | succ f =>
      have ha : a = m2 := (List.cons.inj h2).1
      subst ha
      have hi' : ids q = (l1 ++ [a]) ++ l2 := by simpa using hi
      obtain ⟨m', B', h2'⟩ := cons_of_snoc (s.queues q).tail l2
      have hl := (h.link hq (l1 := l1 ++ [a]) (A := (s.queues q).head :: l1) (m1 := a) hi' (by simp) h2').1
      have hne : a ≠ (s.queues q).tail := by
        have hn := h.nodup q hq
        unfold ring at hn
        rw [List.nodup_cons, List.nodup_append] at hn
        intro hh
        exact hn.2.2.2 a (by rw [hi]; simp) a (by simp [hh]) rfl
      unfold Chain.scanIndex
      rw [if_pos hne]
      by_cases hp : l1.length = i
      · rw [if_pos (by exact_mod_cast hp)]
        refine ⟨a, B, ?_, rfl⟩
        rw [hi, ← hp]; simpa using h2
      · rw [if_neg (by exact_mod_cast hp), hl]
        have := ih (l1 ++ [a]) m' B' f hi' h2' (by simpa using hf) (by simp; omega) h4
        simpa using this

theorem insertAt_refines {s live ids} (h : Rep s live ids) {q} (hq : live q) (c : CId) (i : Int) :
    Refines s live ids q none (insertAt c q i s) ((abs s ids q).insertAt s.now c i) := by
  unfold insertAt Queue.insertAt
  have hlen : ((abs s ids q).len : Int) = (s.queues q).length := by rw [h.len q hq]; simp [abs, Queue.len]
  rw [h.has hq, hlen]
  by_cases h0 : i < 0
  · rw [if_pos h0, if_pos (.inl h0)]; exact rfl
  · rw [if_neg h0]
    by_cases h1 : i > (s.queues q).length
    · rw [if_pos h1, if_pos (.inr h1)]; exact rfl
    · have h2 : ¬ (i < 0 ∨ i > (s.queues q).length) := by rintro (h | h); exact h0 h; exact h1 h
      rw [if_neg h1, if_neg h2]
      split
      · exact rfl
      · rename_i hc
        obtain ⟨k, rfl⟩ : ∃ k : Nat, i = k := ⟨i.toNat, by omega⟩
        have hk : k ≤ (ids q).length := by rw [h.len q hq] at h1; omega
        obtain ⟨m, B, hm⟩ := cons_of_snoc (s.queues q).tail (ids q)
        obtain ⟨hm1, hm2⟩ := h.headPrio hq hm
        obtain ⟨m', B', e1, e2⟩ := h.toWf.scanIndex hq k (ids q) [] m B s.next (by simp) hm (by have := h.toWf.fuel hq; omega) (by simp) hk
        simp only [List.length_nil, Nat.cast_zero] at e2
        simp only [orAttr, hm1, e2]
        have hp : (s.nodes m').prio = (((abs s ids q).mem[k]?).map QMem.prio).getD 0 := by
          simp only [abs, List.getElem?_map]
          rcases lt_or_eq_of_le hk with hk' | hk'
          · have : m' = (ids q)[k] := by
              rw [List.drop_eq_getElem_cons hk'] at e1
              exact (List.cons.inj e1).1.symm
            rw [List.getElem?_eq_getElem hk', this]; rfl
          · rw [hk'] at e1 ⊢
            simp at e1
            rw [← e1.1]; simpa using (h.tl q hq).1
        rw [hp]
        have := h.insert' (prio := (((abs s ids q).mem[k]?).map QMem.prio).getD 0) hq (List.take_append_drop k (ids q)).symm e1 (isSome_false hc)
        simpa [abs, List.map_take, List.map_drop] using this

theorem erase_at {l1 l2 : List QMem} {m : QMem} {c : CId} (h1 : ∀ x ∈ l1, x.c ≠ c) (hc : m.c = c) :
    (l1 ++ m :: l2).erase m = l1 ++ l2 := by
  rw [List.erase_append_right _ (fun hm => h1 m hm hc)]; simp

theorem leave_refines {s live ids} (h : Rep s live ids) {q} (hq : live q) (c : CId) :
    Refines s live ids q (some c) (leave c q s) ((abs s ids q).leave s.now c) := by
  unfold Queue.leave
  cases hcq : s.qm c q with
  | none => rw [h.find_none hq hcq]; unfold leave; rw [hcq]; exact rfl
  | some mx =>
    rw [h.find_some hcq]
    obtain ⟨l1, l2, hl, h1, h2⟩ := h.split hcq
    obtain ⟨A, m1, e1⟩ := snoc_of_cons (s.queues q).head l1
    obtain ⟨m2, B, e2⟩ := cons_of_snoc (s.queues q).tail l2
    have hring := ring_del hl e1 e2
    have hch := h.chain q hq
    rw [hring, chain_mid, List.isChain_cons_cons] at hch
    have hnd := h.nodup q hq
    rw [hring] at hnd
    have hnd2 := (List.nodup_append.1 hnd).2.1
    simp only [List.nodup_cons, List.mem_cons, not_or] at hnd2
    obtain ⟨⟨d1, d2, _⟩, ⟨d3, _⟩, _⟩ := hnd2
    have hm1 : m1 ∈ ring s ids q := by rw [hring]; simp
    have hm2 : m2 ∈ ring s ids q := by rw [hring]; simp
    have hmx : mx ∈ ids q := by rw [hl]; simp
    have hmc : (s.nodes mx).comp = some c := ((h.qm c q mx).1 hcq).2.2
    have hok : ∃ s', leave c q s = .ok s' ∧ Unlinked s s' m1 m2 ∧
        (∀ n, n ≠ mx → (s'.nodes n).comp = (s.nodes n).comp ∧ (s'.nodes n).prio = (s.nodes n).prio ∧ (s'.nodes n).enter = (s.nodes n).enter) ∧
        (∀ c' q', s'.qm c' q' = if c' = c ∧ q' = q then none else s.qm c' q') ∧ s'.now = s.now ∧ (∀ p, p ≠ q → s'.queues p = s.queues p) ∧
        s'.queues q = { s.queues q with
          length := (s.queues q).length - 1, stays := (s.queues q).stays ++ [s.now - (s.nodes mx).enter],
          lens := (s.queues q).lens ++ [(s.now, (s.queues q).length - 1)],
          avail := ETime.subQ (s.queues q).cap ((s.queues q).length - 1 : Int), departures := (s.queues q).departures + 1 } ∧
        (s'.nodes mx).comp = none := by
      unfold leave
      simp only [hcq, orAttr, hch.2.1.2, hch.2.2.1.1]
      refine ⟨_, rfl, ⟨?_, ?_, ?_, ?_, ?_, rfl⟩, ?_, ?_, rfl, ?_, ?_, ?_⟩
      · intro n hn
        simp only [setQ_nodes, setQm_nodes, setN_nodes, if_neg hn]
        split_ifs <;> simp
      · intro n hn
        simp only [setQ_nodes, setQm_nodes, setN_nodes, if_neg hn]
        split_ifs <;> simp
      · simp only [setQ_nodes, setQm_nodes, setN_nodes, if_neg d1, if_neg d2, if_true]
      · simp only [setQ_nodes, setQm_nodes, setN_nodes, if_neg (Ne.symm d3), if_true]
      · intro p
        by_cases hpq : p = q
        · subst hpq; simp [setQ_queues]
        · simp [setQ_queues, hpq]
      · intro n hn
        simp only [setQ_nodes, setQm_nodes, setN_nodes, if_neg hn]
        split_ifs <;> simp
      · intro c' q'; simp [setQm_qm]
      · intro p hpq; simp [setQ_queues, hpq]
      · have : ((((s.setN m1 fun x => { x with succ := some m2 }).setN m2 fun x => { x with pred := some m1 }).setN mx fun x => { x with comp := none }).nodes mx).enter
            = (s.nodes mx).enter := by
          simp only [setN_nodes]; split_ifs <;> rfl
        simp [setQ_queues, this]
      · simp [setN_nodes]
    obtain ⟨s', hs', hu, hinfo, n5, n6, hoth, n7, n8⟩ := hok
    have hwf := h.toWf.delete hq hu hl e1 e2
    have hfr := h.toWf.deleted_fresh hq hu hl e1 e2
    have hin : ∀ p, live p → ∀ n ∈ upd ids q (l1 ++ l2) p, n ∈ ids p ∧ n ≠ mx := by
      intro p hp n hn
      refine ⟨?_, fun hh => hfr p hp (hh ▸ mem_ring hn)⟩
      by_cases hpq : p = q
      · subst hpq; rw [upd_same] at hn; rw [hl]; simp at hn ⊢; tauto
      · rwa [upd_other hpq] at hn
    have hin' : ∀ p, live p → ∀ n ∈ ids p, n ≠ mx → n ∈ upd ids q (l1 ++ l2) p := by
      intro p hp n hn hne
      by_cases hpq : p = q
      · subst hpq; rw [upd_same]; rw [hl] at hn; simp at hn ⊢; tauto
      · rwa [upd_other hpq]
    have hhx : ∀ p, live p → (s.queues p).head ≠ mx ∧ (s.queues p).tail ≠ mx := by
      intro p hp
      have h1 := hfr p hp
      have a1 := head_mem (s := s') (ids := upd ids q (l1 ++ l2)) (q := p)
      have a2 := tail_mem (s := s') (ids := upd ids q (l1 ++ l2)) (q := p)
      rw [(hu.ends p).1] at a1
      rw [(hu.ends p).2] at a2
      exact ⟨fun hh => h1 (hh ▸ a1), fun hh => h1 (hh ▸ a2)⟩
    have hmapo : ∀ l : List NId, mx ∉ l → l.map (mem s') = l.map (mem s) := fun l hx =>
      map_congr' fun n hn => mem_congr (hinfo n (fun hh => hx (hh ▸ hn)))
    have hx1 : mx ∉ l1 := fun hx => h1 mx hx h2
    have hx2 : mx ∉ l2 := fun hx => hfr q hq (mem_ring (by rw [upd_same]; simp [hx]))
    refine ⟨s', upd ids q (l1 ++ l2), hs', ⟨hwf, ?_, ?_, ?_, ?_, ?_, ?_⟩, ?_, ?_, n6, ?_⟩
    · intro p hp
      by_cases hpq : p = q
      · subst hpq
        rw [n7, upd_same]
        simp only [h.len p hp, hl]; simp; omega
      · rw [hoth p hpq, upd_other hpq]; exact h.len p hp
    · intro p hp
      have := hinfo _ (hhx p hp).1
      rw [(hu.ends p).1, this.1, this.2.1]; exact h.hd p hp
    · intro p hp
      have := hinfo _ (hhx p hp).2
      rw [(hu.ends p).2, this.1, this.2.1]; exact h.tl p hp
    · intro c' p n
      rw [n5]
      split
      · rename_i hcp
        obtain ⟨rfl, rfl⟩ := hcp
        simp only [reduceCtorEq, false_iff]
        rintro ⟨a, b, d⟩
        obtain ⟨b1, b2⟩ := hin p a n b
        rw [(hinfo n b2).1] at d
        have := (h.qm c' p n).2 ⟨a, b1, d⟩
        rw [hcq] at this; cases this; exact b2 rfl
      · rename_i hcp
        rw [h.qm]
        constructor
        · rintro ⟨a, b, d⟩
          have hne : n ≠ mx := by
            rintro rfl
            rw [hmc] at d; cases d
            refine hcp ⟨rfl, ?_⟩
            by_contra hpq
            exact h.disj p q a hq hpq n (mem_ring b) (mem_ring hmx)
          exact ⟨a, hin' p a n b hne, by rw [(hinfo n hne).1]; exact d⟩
        · rintro ⟨a, b, d⟩
          obtain ⟨b1, b2⟩ := hin p a n b
          exact ⟨a, b1, by rw [← (hinfo n b2).1]; exact d⟩
    · intro p hp n hn
      obtain ⟨b1, b2⟩ := hin p hp n hn
      rw [(hinfo n b2).1]; exact h.comp p hp n b1
    · intro p hp
      by_cases hpq : p = q
      · subst hpq; rw [n7]; exact .inl rfl
      · rw [hoth p hpq]; exact h.avail p hp
    · unfold abs
      rw [upd_same, n7]
      simp only [List.map_append, hl, List.map_cons]
      rw [erase_at (c := c) (by intro x hx; obtain ⟨y, hy, rfl⟩ := List.mem_map.1 hx; exact h1 y hy) h2]
      rw [hmapo l1 hx1, hmapo l2 hx2]
      have := h.len q hq
      simp [Queue.len, this, hl, mem]
      omega
    · intro p hpq hp
      unfold abs
      rw [upd_other hpq, hoth p hpq]
      rw [hmapo]
      intro hx
      exact h.disj p q hp hq hpq mx (mem_ring hx) (mem_ring hmx)
    · refine ⟨by rw [hu.next], ?_, ?_, ?_, ?_, ?_⟩
      · intro n _
        by_cases hn : n = mx
        · subst hn
          exact .inr ⟨n8, hmx, c, rfl, hmc⟩
        · exact .inl (hinfo n hn).1
      · intro p n hn
        by_cases hnx : n = mx
        · subst hnx; exact .inr n8
        · left
          by_cases hpq : p = q
          · subst hpq; exact hin' p hq n hn hnx
          · rw [upd_other hpq]; exact hn
      · intro p n hn
        left
        by_cases hpq : p = q
        · subst hpq; exact (hin p hq n hn).1
        · rwa [upd_other hpq] at hn
      · intro p
        left
        by_cases hpq : p = q
        · subst hpq; rw [n7]
        · rw [hoth p hpq]
      · intro p
        by_cases hpq : p = q
        · subst hpq; rw [n7]
        · rw [hoth p hpq]

theorem setPriority_refines {s live ids} (h : Rep s live ids) {q} (hq : live q) (c : CId) (prio : Rat) :
    Refines s live ids q none (setPriority c q prio s) ((abs s ids q).setPriority c prio) := by
  unfold Queue.setPriority
  cases hcq : s.qm c q with
  | none => rw [h.find_none hq hcq]; unfold setPriority; rw [hcq]; exact rfl
  | some mx =>
    rw [h.find_some hcq]
    simp only
    by_cases hpr : prio = (s.nodes mx).prio
    · rw [if_pos (show prio = (mem s mx).prio from hpr)]
      unfold setPriority
      simp only [hcq, if_pos hpr]
      exact ⟨s, ids, rfl, h, rfl, fun _ _ _ => rfl, rfl, le_refl _, fun _ _ => .inl rfl, fun _ _ h => .inl h, fun _ _ h => .inl h, fun _ => .inl rfl, fun _ => rfl⟩
    · rw [if_neg (show ¬ prio = (mem s mx).prio from hpr)]
      obtain ⟨l1, l2, hl, h1, h2⟩ := h.split hcq
      obtain ⟨A, m1, e1⟩ := snoc_of_cons (s.queues q).head l1
      obtain ⟨m2, B, e2⟩ := cons_of_snoc (s.queues q).tail l2
      have hring := ring_del hl e1 e2
      have hch := h.chain q hq
      rw [hring, chain_mid, List.isChain_cons_cons] at hch
      have hnd := h.nodup q hq
      rw [hring] at hnd
      have hnd2 := (List.nodup_append.1 hnd).2.1
      simp only [List.nodup_cons, List.mem_cons, not_or] at hnd2
      obtain ⟨⟨d1, d2, _⟩, ⟨d3, _⟩, _⟩ := hnd2
      have hmx : mx ∈ ids q := by rw [hl]; simp
      have hmc : (s.nodes mx).comp = some c := ((h.qm c q mx).1 hcq).2.2
      -- the state after taking the member out
      let s1 : PS := (s.setN m1 (fun x => { x with succ := some m2 })).setN m2 (fun x => { x with pred := some m1 })
      have hinfo1 : ∀ n, (s1.nodes n).comp = (s.nodes n).comp ∧ (s1.nodes n).prio = (s.nodes n).prio ∧ (s1.nodes n).enter = (s.nodes n).enter := by
        intro n
        simp only [s1, setN_nodes]
        split_ifs <;> simp
      have hu : Unlinked s s1 m1 m2 := by
        refine ⟨?_, ?_, ?_, ?_, fun p => ⟨rfl, rfl⟩, rfl⟩
        · intro n hn
          simp only [s1, setN_nodes, if_neg hn]
          split_ifs <;> simp
        · intro n hn
          simp only [s1, setN_nodes, if_neg hn]
          split_ifs <;> simp
        · simp only [s1, setN_nodes, if_neg d2, if_true]
        · simp only [s1, setN_nodes, if_true]
      have hwf := h.toWf.delete hq hu hl e1 e2
      have hfr := h.toWf.deleted_fresh hq hu hl e1 e2
      obtain ⟨m, B', hm⟩ := cons_of_snoc (s1.queues q).tail (upd ids q (l1 ++ l2) q)
      have hhs := hwf.head_succ hq hm
      obtain ⟨k1, k2, m', B'', f1, f2, f3, f4⟩ := hwf.scanFwd hq ⟨c, prio, (s.nodes mx).enter⟩ (upd ids q (l1 ++ l2) q) [] m B' s.next (by simp) hm
        (by have := hwf.fuel hq; have e : s1.next = s.next := rfl; rw [e] at this; exact lt_of_lt_of_le (by omega) this)
      obtain ⟨A', m1', g1⟩ := snoc_of_cons (s1.queues q).head k1
      have hlk := hwf.link hq f1 g1 f2
      have hm1r : m1' ∈ ring s1 (upd ids q (l1 ++ l2)) q := by rw [link_mid f1 g1 f2]; simp
      have hm2r : m' ∈ ring s1 (upd ids q (l1 ++ l2)) q := by rw [link_mid f1 g1 f2]; simp
      have hne1 : m1' ≠ mx := fun hh => hfr q hq (hh ▸ hm1r)
      have hne2 : m' ≠ mx := fun hh => hfr q hq (hh ▸ hm2r)
      have hne12 : m1' ≠ m' := by
        have := hwf.nodup q hq
        rw [link_mid f1 g1 f2, List.nodup_append] at this
        have := this.2.1
        simp only [List.nodup_cons, List.mem_cons, not_or] at this
        exact this.1.1
      have hok : ∃ s', setPriority c q prio s = .ok s' ∧ Spliced s1 s' q mx m1' m' ∧
          ((s'.nodes mx).comp = some c ∧ (s'.nodes mx).prio = prio ∧ (s'.nodes mx).enter = (s.nodes mx).enter) ∧ s'.next = s.next ∧
          (∀ c' q', s'.qm c' q' = s.qm c' q') ∧ s'.now = s.now ∧ s'.queues q = { s.queues q with touched := touchAll (s.queues q).touched } := by
        unfold setPriority
        simp only [hcq, if_neg hpr, orAttr, hch.2.1.2, hch.2.2.1.1]
        have e1' : (((s.setN m1 (fun x => { x with succ := some m2 })).setN m2 (fun x => { x with pred := some m1 })) : PS) = s1 := rfl
        simp only [e1']
        rw [hhs]
        simp only
        have e2' : s1.next = s.next := rfl
        rw [e2', f3]
        simp only
        rw [hlk.2]
        simp only
        refine ⟨_, rfl, ⟨?_, ?_, ?_, ?_, ?_, ?_, ?_, ?_, ?_⟩, ⟨?_, ?_, ?_⟩, rfl, fun _ _ => rfl, rfl, ?_⟩
        · intro n hn
          simp only [setQ_nodes, setN_nodes, if_neg hn]
          split_ifs <;> simp
        · intro n hn hn'
          simp only [setQ_nodes, setN_nodes, if_neg hn, if_neg hn']
          split_ifs <;> simp
        · intro n hn hn'
          simp only [setQ_nodes, setN_nodes, if_neg hn, if_neg hn']
          split_ifs <;> simp
        · simp [setN_nodes, hne1, hne12]
        · simp [setN_nodes, hne2]
        · simp [setN_nodes]
        · simp [setN_nodes]
        · intro p hp; simp [setQ_queues, hp]
        · simp [setQ_queues]
        · simp [setN_nodes, (hinfo1 mx).1, hmc, Ne.symm hne1, Ne.symm hne2]
        · simp [setN_nodes]
        · simp [setN_nodes, (hinfo1 mx).2.2, Ne.symm hne1, Ne.symm hne2]
        · simp [setQ_queues, s1]
      obtain ⟨s', hs', hsp, ⟨n1, n2, n3⟩, n4, n5, n6, n7⟩ := hok
      have hmxlt : mx < s'.next := by rw [n4]; exact h.lt q hq mx (mem_ring hmx)
      have hwf' := hwf.splice hq hsp f1 g1 f2 hfr hmxlt (by rw [n4]; exact le_refl _)
      have hupd : upd (upd ids q (l1 ++ l2)) q (k1 ++ mx :: k2) = upd ids q (k1 ++ mx :: k2) := by
        funext p; unfold upd; split <;> simp
      rw [hupd] at hwf'
      rw [upd_same] at f1
      have hmem : ∀ p n, n ∈ upd ids q (k1 ++ mx :: k2) p ↔ n ∈ ids p := by
        intro p n
        by_cases hpq : p = q
        · subst hpq
          rw [upd_same, hl]
          have : n ∈ k1 ++ k2 ↔ n ∈ l1 ++ l2 := by rw [f1]
          simp at this ⊢
          tauto
        · rw [upd_other hpq]
      have hcomp : ∀ n, (s'.nodes n).comp = (s.nodes n).comp := by
        intro n
        by_cases hn : n = mx
        · subst hn; rw [n1, hmc]
        · rw [(hsp.info n hn).1, (hinfo1 n).1]
      have hrest : ∀ n, n ≠ mx → mem s' n = mem s n := fun n hn =>
        (mem_congr (hsp.info n hn)).trans (mem_congr (hinfo1 n))
      have hhd : ∀ p, (s'.queues p).head = (s.queues p).head ∧ (s'.queues p).tail = (s.queues p).tail := by
        intro p
        by_cases hpq : p = q
        · subst hpq; exact hsp.ends
        · rw [hsp.others p hpq]; exact ⟨rfl, rfl⟩
      have hhx : ∀ p, live p → (s.queues p).head ≠ mx ∧ (s.queues p).tail ≠ mx := by
        intro p hp
        have h1 := hfr p hp
        exact ⟨fun hh => h1 (hh ▸ head_mem (s := s1)), fun hh => h1 (hh ▸ tail_mem (s := s1))⟩
      refine ⟨s', upd ids q (k1 ++ mx :: k2), hs', ⟨hwf', ?_, ?_, ?_, ?_, ?_, ?_⟩, ?_, ?_, n6, ?_⟩
      · intro p hp
        by_cases hpq : p = q
        · subst hpq
          rw [n7, upd_same]
          have : (l1 ++ l2).length = (k1 ++ k2).length := by rw [f1]
          simp only [h.len p hp, hl]
          simp at this ⊢; omega
        · rw [hsp.others p hpq, upd_other hpq]; exact h.len p hp
      · intro p hp
        have hx := (hhx p hp).1
        rw [(hhd p).1, hcomp, (hsp.info _ hx).2.1, (hinfo1 _).2.1]; exact h.hd p hp
      · intro p hp
        have hx := (hhx p hp).2
        rw [(hhd p).2, hcomp, (hsp.info _ hx).2.1, (hinfo1 _).2.1]; exact h.tl p hp
      · intro c' p n
        rw [n5, h.qm, hmem, hcomp]
      · intro p hp n hn
        rw [hmem] at hn
        rw [hcomp]; exact h.comp p hp n hn
      · intro p hp
        by_cases hpq : p = q
        · subst hpq; rw [n7]; exact h.avail p hp
        · rw [hsp.others p hpq]; exact h.avail p hp
      · unfold abs
        rw [upd_same, n7]
        have hx : mx ∉ k1 ++ k2 := by
          have := hfr q hq
          unfold ring at this
          rw [upd_same, f1] at this
          exact fun hh => this (by simp at hh ⊢; tauto)
        have hmapo : ∀ l : List NId, mx ∉ l → l.map (mem s') = l.map (mem s) := fun l hx =>
          map_congr' fun n hn => hrest n (fun hh => hx (hh ▸ hn))
        have hmap1 : ∀ l : List NId, l.map (mem s1) = l.map (mem s) := fun l =>
          map_congr' fun n _ => mem_congr (hinfo1 n)
        simp only [List.map_append, hl, List.map_cons]
        rw [erase_at (c := c) (by intro x hx; obtain ⟨y, hy, rfl⟩ := List.mem_map.1 hx; exact h1 y hy) h2]
        simp only [upd_same, hmap1] at f4
        simp only [List.map_nil, List.nil_append, List.map_append] at f4
        have e : ({ mem s mx with prio := prio } : QMem) = ⟨c, prio, (s.nodes mx).enter⟩ := by simp [mem, hmc]
        have e' : mem s' mx = ⟨c, prio, (s.nodes mx).enter⟩ := by simp [mem, n1, n2, n3]
        rw [e, f4, e', hmapo k1 (fun hh => hx (by simp [hh])), hmapo k2 (fun hh => hx (by simp [hh]))]
      · intro p hpq hp
        unfold abs
        rw [upd_other hpq, hsp.others p hpq]
        have : (ids p).map (mem s') = (ids p).map (mem s) := map_congr' fun n hn => hrest n (fun hh => by
          subst hh; exact h.disj p q hp hq hpq n (mem_ring hn) (mem_ring hmx))
        rw [this]
        rfl
      · refine ⟨by rw [n4], ?_, ?_, ?_, ?_, ?_⟩
        · intro n _; exact .inl (hcomp n)
        · intro p n hn; exact .inl ((hmem p n).2 hn)
        · intro p n hn; exact .inl ((hmem p n).1 hn)
        · intro p
          by_cases hpq : p = q
          · subst hpq; exact .inr (by rw [n7])
          · exact .inl (by rw [hsp.others p hpq]; rfl)
        · intro p
          by_cases hpq : p = q
          · subst hpq; rw [n7]
          · rw [hsp.others p hpq]; rfl

end Chain
end Verif
