import Mathlib.Data.Multiset.Basic
import Mathlib.Data.Finset.Range
import Mathlib.Data.Finset.Image
import Mathlib.Data.Finset.Card
import Mathlib.Logic.Equiv.Basic
import Mathlib.Tactic.Common

/-!
# CPython's `heapq`, as used by the event list

salabim.py does not contain the heap algorithms; it calls `heapq.heappush` (salabim.py:7467),
`heapq.heappop` (salabim.py:11193) and `heapq.heapify` (salabim.py:7478).  This file models the reference
(pure Python) implementation of CPython's `Lib/heapq.py` (`_siftdown`, `_siftup`, `heappush`, `heappop`,
`heapify`) and proves that it is a priority queue.

Representation: an array of length `n` is a function `Nat → α` of which only the values below `n` matter;
`toFun`/`ofFun` convert from and to lists.  Loops get a fuel argument that is provably large enough
(the positions strictly move towards the root / the leaves).
-/

namespace Verif.Heapq

variable {α : Type}

/-- Laws of Python's `<` on the elements of the heap: a strict weak order. -/
structure Law (lt : α → α → Bool) : Prop where
  irrefl : ∀ a, lt a a = false
  trans : ∀ a b c, lt a b = true → lt b c = true → lt a c = true
  ntrans : ∀ a b c, lt a b = false → lt b c = false → lt a c = false

/-- array store `heap[i] = v` -/
def upd (f : Nat → α) (i : Nat) (v : α) : Nat → α := fun j => if j = i then v else f j

/-- parent position `(pos - 1) >> 1` -/
def parent (i : Nat) : Nat := (i - 1) / 2

/-- `heapq._siftdown(heap, startpos, pos)` with `newitem = heap[pos]` already taken out
(Lib/heapq.py `_siftdown`: follow the path to the root, moving parents down until finding a place newitem fits). -/
def siftdown (lt : α → α → Bool) (start : Nat) (new : α) : Nat → (Nat → α) → Nat → (Nat → α)
  | 0, f, pos => upd f pos new
  | fuel + 1, f, pos =>
    if pos > start then
      if lt new (f (parent pos)) then siftdown lt start new fuel (upd f pos (f (parent pos))) (parent pos)
      else upd f pos new
    else upd f pos new

/-- first phase of `heapq._siftup(heap, pos)`: bubble the smaller child up until hitting a leaf. Returns the array and
the final position of the hole. -/
def siftupLoop (lt : α → α → Bool) (n : Nat) : Nat → (Nat → α) → Nat → (Nat → α) × Nat
  | 0, f, pos => (f, pos)
  | fuel + 1, f, pos =>
    let child := 2 * pos + 1
    if child < n then
      let right := child + 1
      let c := if right < n && !(lt (f child) (f right)) then right else child
      siftupLoop lt n fuel (upd f pos (f c)) c
    else (f, pos)

/-- `heapq._siftup(heap, pos)` -/
def siftup (lt : α → α → Bool) (n : Nat) (f : Nat → α) (pos : Nat) : Nat → α :=
  let new := f pos
  let r := siftupLoop lt n n f pos
  siftdown lt pos new r.2 r.1 r.2

/-- `for i in reversed(range(n//2)): _siftup(x, i)` -/
def heapifyLoop (lt : α → α → Bool) (n : Nat) : Nat → (Nat → α) → (Nat → α)
  | 0, f => f
  | i + 1, f => heapifyLoop lt n i (siftup lt n f i)

/-- list to array -/
def toFun (d : α) (l : List α) : Nat → α := fun i => l.getD i d
/-- array to list -/
def ofFun (n : Nat) (f : Nat → α) : List α := (List.range n).map f

/-- `heapq.heappush(heap, item)`: append, then `_siftdown(heap, 0, len(heap)-1)` -/
def heappush (lt : α → α → Bool) (l : List α) (x : α) : List α :=
  let n := l.length
  ofFun (n + 1) (siftdown lt 0 x n (toFun x l) n)

/-- `heapq.heapify(x)` -/
def heapify (lt : α → α → Bool) (l : List α) : List α :=
  match l with
  | [] => []
  | d :: _ => ofFun l.length (heapifyLoop lt l.length (l.length / 2) (toFun d l))

/-- `heapq.heappop(heap)`: `lastelt = heap.pop(); if heap: returnitem = heap[0]; heap[0] = lastelt; _siftup(heap, 0)`.
`none` models the IndexError on an empty heap (the only caller tests for emptiness first). -/
def heappop (lt : α → α → Bool) (l : List α) : Option (α × List α) :=
  match l with
  | [] => none
  | [a] => some (a, [])
  | a :: b :: t =>
    let last := (b :: t).getLast (by simp)
    let n := (b :: t).length
    some (a, ofFun n (siftup lt n (upd (toFun a (a :: b :: t)) 0 last) 0))

/-! ## Specification -/

/-- heap order on the edges whose parent index is at least `k` -/
def HeapFrom (lt : α → α → Bool) (n k : Nat) (f : Nat → α) : Prop :=
  ∀ i, 0 < i → i < n → k ≤ parent i → lt (f i) (f (parent i)) = false

/-- a list is a heap: no element is smaller than its parent -/
def IsHeap (lt : α → α → Bool) (l : List α) : Prop :=
  ∀ i (h : i < l.length), 0 < i → lt l[i] (l[parent i]'(by unfold parent; omega)) = false

/-! ## Proofs -/

@[simp] theorem upd_same (f : Nat → α) (i : Nat) (v : α) : upd f i v i = v := by simp [upd]
theorem upd_ne (f : Nat → α) {i j : Nat} (v : α) (h : j ≠ i) : upd f i v j = f j := by simp [upd, h]
@[simp] theorem upd_upd (f : Nat → α) (i : Nat) (v v' : α) : upd (upd f i v) i v' = upd f i v' := by
  funext j; by_cases h : j = i <;> simp [upd, h]
@[simp] theorem upd_self (f : Nat → α) (i : Nat) : upd f i (f i) = f := by
  funext j; by_cases h : j = i <;> simp [upd, h]

/-- `pos` lies in the subtree rooted at `k` -/
inductive Desc (k : Nat) : Nat → Prop
  | refl : Desc k k
  | child {p c : Nat} : Desc k p → 0 < c → parent c = p → Desc k c

theorem Desc.le {k p : Nat} (h : Desc k p) : k ≤ p := by
  induction h with
  | refl => exact Nat.le_refl _
  | child _ h0 hp ih => unfold parent at hp; omega

theorem Desc.up {k p : Nat} (h : Desc k p) (hlt : k < p) : Desc k (parent p) := by
  cases h with
  | refl => omega
  | child hd _ hp => subst hp; exact hd

variable {lt : α → α → Bool}

theorem Law.asymm (L : Law lt) {a b : α} (h : lt a b = true) : lt b a = false := by
  by_contra hc
  have : lt b a = true := by simpa using hc
  have := L.trans _ _ _ h this
  rw [L.irrefl] at this; cases this

theorem siftdown_heap (L : Law lt) {n k : Nat} {new : α} : ∀ (fuel : Nat) (f : Nat → α) (pos : Nat),
    pos ≤ fuel → pos < n → Desc k pos →
    (∀ i, 0 < i → i < n → k ≤ parent i → i ≠ pos → lt (upd f pos new i) (upd f pos new (parent i)) = false) →
    (k < pos → ∀ i, 0 < i → i < n → parent i = pos → lt (f i) (f (parent pos)) = false) →
    HeapFrom lt n k (siftdown lt k new fuel f pos) := by
  intro fuel
  induction fuel with
  | zero =>
    intro f pos hf hn hd hA _
    have h0 : pos = 0 := by omega
    subst h0
    intro i hi hin hk
    exact hA i hi hin hk (by omega)
  | succ fuel ih =>
    intro f pos hf hn hd hA hB
    unfold siftdown
    by_cases hgt : pos > k
    · rw [if_pos hgt]
      have hpk : k ≤ parent pos := (hd.up hgt).le
      have hpp : parent pos < pos := by unfold parent; omega
      by_cases hlt : lt new (f (parent pos)) = true
      · rw [if_pos hlt]
        apply ih
        · omega
        · omega
        · exact hd.up hgt
        · intro i hi hin hki hne
          by_cases hip : i = pos
          · subst hip
            rw [upd_ne _ _ (by omega), upd_same, upd_same]
            exact L.asymm hlt
          · rw [upd_ne _ _ hne, upd_ne _ _ hip]
            have hA' := hA i hi hin hki hip
            rw [upd_ne _ _ hip] at hA'
            by_cases hpi : parent i = pos
            · rw [hpi, upd_ne _ _ (by omega), upd_same]
              exact hB hgt i hi hin hpi
            · rw [upd_ne _ _ hpi] at hA'
              by_cases hpi2 : parent i = parent pos
              · rw [hpi2, upd_same]
                rw [hpi2] at hA'
                by_contra hc
                have hc : lt (f i) new = true := by simpa using hc
                have := L.trans _ _ _ hc hlt
                rw [hA'] at this; cases this
              · rw [upd_ne _ _ hpi2, upd_ne _ _ hpi]; exact hA'
        · intro hkp i hi hin hpi
          have hppp : parent (parent pos) < parent pos := by unfold parent at hkp ⊢; omega
          have hkpp : k ≤ parent (parent pos) := ((hd.up hgt).up hkp).le
          have hAp := hA (parent pos) (by omega) (by omega) hkpp (by omega)
          rw [upd_ne _ _ (by omega), upd_ne _ _ (by omega)] at hAp
          rw [upd_ne (j := parent (parent pos)) _ _ (by omega)]
          by_cases hip : i = pos
          · subst hip; rw [upd_same]; exact hAp
          · rw [upd_ne _ _ hip]
            have hA' := hA i hi hin (by omega) hip
            rw [upd_ne _ _ hip, hpi, upd_ne _ _ (by omega)] at hA'
            exact L.ntrans _ _ _ hA' hAp
      · rw [if_neg hlt]
        intro i hi hin hki
        by_cases hip : i = pos
        · subst hip
          rw [upd_same, upd_ne _ _ (by omega)]
          simpa using hlt
        · exact hA i hi hin hki hip
    · rw [if_neg hgt]
      have : pos = k := by have := hd.le; omega
      intro i hi hin hki
      by_cases hip : i = pos
      · subst hip; subst this; unfold parent at hki; omega
      · exact hA i hi hin hki hip

/-- Facts about the array after the first phase of `_siftup`. -/
theorem siftupLoop_spec (L : Law lt) {n k : Nat} : ∀ (fuel : Nat) (f : Nat → α) (pos : Nat),
    n ≤ fuel + pos → pos < n → Desc k pos →
    (∀ i, 0 < i → i < n → k ≤ parent i → i ≠ pos → parent i ≠ pos → lt (f i) (f (parent i)) = false) →
    (k < pos → ∀ i, 0 < i → i < n → parent i = pos → lt (f i) (f (parent pos)) = false) →
    ∃ g p, siftupLoop lt n fuel f pos = (g, p) ∧ p < n ∧ Desc k p ∧ (∀ i, i < n → 0 < i → parent i ≠ p) ∧
      (∀ i, 0 < i → i < n → k ≤ parent i → i ≠ p → lt (g i) (g (parent i)) = false) := by
  intro fuel
  induction fuel with
  | zero => intro f pos h1 h2; omega
  | succ fuel ih =>
    intro f pos hf hn hd hS1 hS2
    unfold siftupLoop
    by_cases hc : 2 * pos + 1 < n
    · simp only [hc, if_true]
      generalize hcd : (if (decide (2 * pos + 1 + 1 < n) && !(lt (f (2 * pos + 1)) (f (2 * pos + 1 + 1)))) = true
        then 2 * pos + 1 + 1 else 2 * pos + 1) = c
      have hcpos : 0 < c ∧ c < n ∧ parent c = pos ∧ pos < c := by
        split at hcd
        · rename_i h
          simp at h
          unfold parent; omega
        · unfold parent; omega
      obtain ⟨hc0, hcn, hcp, hpc⟩ := hcpos
      have hsib : ∀ i, 0 < i → i < n → parent i = pos → i ≠ c → lt (f i) (f c) = false := by
        intro i hi hin hpi hic
        split at hcd
        · rename_i h
          simp at h
          have : i = 2 * pos + 1 := by unfold parent at hpi; omega
          subst this; rw [← hcd]; simpa using h.2
        · rename_i h
          have : i = 2 * pos + 1 + 1 := by unfold parent at hpi; omega
          subst this
          rw [← hcd]
          have h' : lt (f (2 * pos + 1)) (f (2 * pos + 1 + 1)) = true := by
            by_contra hx
            apply h
            simp only [Bool.and_eq_true, decide_eq_true_eq, Bool.not_eq_true']
            exact ⟨hin, by simpa using hx⟩
          exact L.asymm h'
      apply ih
      · omega
      · exact hcn
      · exact Desc.child hd hc0 hcp
      · intro i hi hin hki hic hpic
        by_cases hip : i = pos
        · subst hip
          have hpp : parent i ≠ i := by unfold parent; omega
          rw [upd_same, upd_ne _ _ hpp]
          have hki' : k < i := by unfold parent at hki; omega
          exact hS2 hki' c hc0 hcn hcp
        · rw [upd_ne _ _ hip]
          by_cases hpi : parent i = pos
          · rw [hpi, upd_same]; exact hsib i hi hin hpi hic
          · rw [upd_ne _ _ hpi]; exact hS1 i hi hin hki hip hpi
      · intro _ i hi hin hpi
        have hne : i ≠ pos := by unfold parent at hpi; omega
        rw [upd_ne _ _ hne, hcp, upd_same]
        have := hS1 i hi hin (by have := hd.le; omega) hne (by omega)
        rw [hpi] at this; exact this
    · simp only [hc, if_false]
      refine ⟨f, pos, rfl, hn, hd, ?_, ?_⟩
      · intro i hin hi; unfold parent; omega
      · intro i hi hin hki hne
        exact hS1 i hi hin hki hne (by unfold parent; omega)

theorem siftup_heap (L : Law lt) {n k : Nat} (f : Nat → α) (hk : k < n) (h : HeapFrom lt n (k + 1) f) :
    HeapFrom lt n k (siftup lt n f k) := by
  obtain ⟨g, p, he, hp, hd, hleaf, hA⟩ := siftupLoop_spec L (k := k) n f k (by omega) hk Desc.refl
    (by intro i hi hin hki _ hpi; exact h i hi hin (by omega)) (by intro h; omega)
  unfold siftup
  simp only [he]
  apply siftdown_heap L _ _ _ (Nat.le_refl _) hp hd
  · intro i hi hin hki hne
    rw [upd_ne _ _ hne, upd_ne _ _ (hleaf i hin hi)]
    exact hA i hi hin hki hne
  · intro _ i hi hin hpi; exact absurd hpi (hleaf i hin hi)

theorem heapifyLoop_heap (L : Law lt) {n : Nat} : ∀ (i : Nat) (f : Nat → α), i ≤ n → HeapFrom lt n i f →
    HeapFrom lt n 0 (heapifyLoop lt n i f) := by
  intro i
  induction i with
  | zero => intro f _ h; exact h
  | succ i ih =>
    intro f hi h
    exact ih _ (by omega) (siftup_heap L f (by omega) h)

/-! ### the multiset of elements -/

/-- the elements of an array -/
def elems (n : Nat) (f : Nat → α) : Multiset α := (Multiset.range n).map f

theorem elems_congr {n : Nat} {f g : Nat → α} (h : ∀ i, i < n → f i = g i) : elems n f = elems n g :=
  Multiset.map_congr rfl (fun x hx => h x (Multiset.mem_range.1 hx))

theorem elems_swap {n a b : Nat} (f : Nat → α) (new : α) (ha : a < n) (hb : b < n) :
    elems n (upd (upd f a (f b)) b new) = elems n (upd f a new) := by
  by_cases hab : a = b
  · subst hab; simp
  have hrange : (Multiset.range n).map (Equiv.swap a b) = Multiset.range n := by
    have h1 : (Finset.range n).map (Equiv.swap a b).toEmbedding = Finset.range n := by
      apply Finset.eq_of_subset_of_card_le
      · intro x hx
        simp only [Finset.mem_map_equiv, Equiv.symm_swap, Finset.mem_range] at hx
        rw [Finset.mem_range]
        by_cases hxa : x = a
        · omega
        by_cases hxb : x = b
        · omega
        rw [Equiv.swap_apply_of_ne_of_ne hxa hxb] at hx; exact hx
      · simp
    have := congrArg Finset.val h1
    simpa using this
  unfold elems
  conv_rhs => rw [← hrange]
  rw [Multiset.map_map]
  apply Multiset.map_congr rfl
  intro x _
  simp only [Function.comp]
  by_cases hxa : x = a
  · subst hxa; rw [Equiv.swap_apply_left, upd_ne _ _ hab, upd_same, upd_ne _ _ (Ne.symm hab)]
  by_cases hxb : x = b
  · subst hxb; rw [Equiv.swap_apply_right, upd_same, upd_same]
  · rw [Equiv.swap_apply_of_ne_of_ne hxa hxb, upd_ne _ _ hxb, upd_ne _ _ hxa, upd_ne _ _ hxa]

theorem siftdown_elems {n k : Nat} {new : α} : ∀ (fuel : Nat) (f : Nat → α) (pos : Nat), pos < n →
    elems n (siftdown lt k new fuel f pos) = elems n (upd f pos new) := by
  intro fuel
  induction fuel with
  | zero => intro f pos _; rfl
  | succ fuel ih =>
    intro f pos hn
    unfold siftdown
    split
    · split
      · rw [ih _ _ (by unfold parent; omega)]
        exact elems_swap f new hn (by unfold parent; omega)
      · rfl
    · rfl

theorem siftupLoop_elems {n : Nat} {new : α} : ∀ (fuel : Nat) (f : Nat → α) (pos : Nat), pos < n →
    (siftupLoop lt n fuel f pos).2 < n ∧
    elems n (upd (siftupLoop lt n fuel f pos).1 (siftupLoop lt n fuel f pos).2 new) = elems n (upd f pos new) := by
  intro fuel
  induction fuel with
  | zero => intro f pos h; exact ⟨h, rfl⟩
  | succ fuel ih =>
    intro f pos hn
    unfold siftupLoop
    by_cases hc : 2 * pos + 1 < n
    · simp only [hc, if_true]
      generalize hcd : (if (decide (2 * pos + 1 + 1 < n) && !(lt (f (2 * pos + 1)) (f (2 * pos + 1 + 1)))) = true
        then 2 * pos + 1 + 1 else 2 * pos + 1) = c
      have hcn : c < n := by
        split at hcd
        · rename_i h; simp at h; omega
        · omega
      have := ih (upd f pos (f c)) c hcn
      refine ⟨this.1, this.2.trans ?_⟩
      exact elems_swap f new hn hcn
    · simp only [hc, if_false]; exact ⟨hn, trivial⟩

theorem siftup_elems {n k : Nat} (f : Nat → α) (hk : k < n) : elems n (siftup lt n f k) = elems n f := by
  unfold siftup
  have h := siftupLoop_elems (lt := lt) (new := f k) n f k hk
  simp only
  rw [siftdown_elems _ _ _ h.1, h.2, upd_self]

theorem heapifyLoop_elems {n : Nat} : ∀ (i : Nat) (f : Nat → α), i ≤ n → elems n (heapifyLoop lt n i f) = elems n f := by
  intro i
  induction i with
  | zero => intro f _; rfl
  | succ i ih => intro f hi; exact (ih _ (by omega)).trans (siftup_elems f (by omega))

/-! ### lists -/

@[simp] theorem length_ofFun (n : Nat) (f : Nat → α) : (ofFun n f).length = n := by simp [ofFun]

theorem ofFun_toFun (d : α) (l : List α) : ofFun l.length (toFun d l) = l := by
  apply List.ext_getElem
  · simp
  · intro i h1 h2
    simp [ofFun, toFun, h2]

theorem elems_toFun (d : α) (l : List α) : elems l.length (toFun d l) = (l : Multiset α) := by
  unfold elems
  conv_rhs => rw [← ofFun_toFun d l]
  rfl

theorem coe_ofFun (n : Nat) (f : Nat → α) : ((ofFun n f : List α) : Multiset α) = elems n f := rfl

theorem heapFrom_of_isHeap {l : List α} (d : α) (h : IsHeap lt l) : HeapFrom lt l.length 0 (toFun d l) := by
  intro i hi hin _
  have h2 : parent i < l.length := by unfold parent; omega
  have := h i hin hi
  simpa [toFun, hin, h2] using this

theorem isHeap_of_heapFrom {n : Nat} {f : Nat → α} (h : HeapFrom lt n 0 f) : IsHeap lt (ofFun n f) := by
  intro i hin hi
  have := h i hi (by simpa using hin) (Nat.zero_le _)
  simpa [ofFun] using this

/-- `heappush` keeps the heap order. -/
theorem heappush_isHeap (L : Law lt) {l : List α} (x : α) (h : IsHeap lt l) : IsHeap lt (heappush lt l x) := by
  apply isHeap_of_heapFrom
  have hf := heapFrom_of_isHeap x h
  have hd : Desc 0 l.length := by
    have : ∀ m, Desc 0 m := by
      intro m
      induction m using Nat.strongRecOn with
      | ind m ih =>
        cases m with
        | zero => exact Desc.refl
        | succ m => exact Desc.child (ih (parent (m+1)) (by unfold parent; omega)) (by omega) rfl
    exact this _
  apply siftdown_heap L _ _ _ (Nat.le_refl _) (by omega) hd
  · intro i hi hin _ hne
    have hin' : i < l.length := by omega
    have hpi : parent i ≠ l.length := by unfold parent; omega
    rw [upd_ne _ _ hne, upd_ne _ _ hpi]
    exact hf i hi hin' (Nat.zero_le _)
  · intro _ i hi hin hpi; exfalso; unfold parent at hpi; omega

/-- `heappush` adds exactly the new element. -/
theorem heappush_perm (l : List α) (x : α) : (heappush lt l x).Perm (x :: l) := by
  rw [← Multiset.coe_eq_coe]
  show elems _ _ = _
  rw [siftdown_elems _ _ _ (by omega)]
  have : elems (l.length + 1) (upd (toFun x l) l.length x) = x ::ₘ elems l.length (toFun x l) := by
    unfold elems
    rw [Multiset.range_succ, Multiset.map_cons, upd_same]
    congr 1
    apply Multiset.map_congr rfl
    intro i hi
    rw [upd_ne _ _ (by have := Multiset.mem_range.1 hi; omega)]
  rw [this, elems_toFun]
  rfl

/-- `heapify` yields a heap. -/
theorem heapify_isHeap (L : Law lt) (l : List α) : IsHeap lt (heapify lt l) := by
  unfold heapify
  split
  · intro i h; simp at h
  · apply isHeap_of_heapFrom
    apply heapifyLoop_heap L _ _ (Nat.div_le_self _ _)
    intro i hi hin hk; exfalso; unfold parent at hk; omega

/-- `heapify` permutes. -/
theorem heapify_perm (l : List α) : (heapify lt l).Perm l := by
  rw [← Multiset.coe_eq_coe]
  unfold heapify
  split
  · rfl
  · rename_i d t
    rw [coe_ofFun, heapifyLoop_elems _ _ (Nat.div_le_self _ _), elems_toFun]

/-- The root of a heap is a least element. -/
theorem isHeap_root (L : Law lt) {a : α} {t : List α} (h : IsHeap lt (a :: t)) : ∀ b ∈ a :: t, lt b a = false := by
  have key : ∀ i (hi : i < (a :: t).length), lt (a :: t)[i] a = false := by
    intro i
    induction i using Nat.strongRecOn with
    | ind i ih =>
      intro hi
      by_cases h0 : i = 0
      · subst h0; exact L.irrefl _
      · have h1 := h i hi (by omega)
        have h2 := ih (parent i) (by unfold parent; omega) (by unfold parent; omega)
        exact L.ntrans _ _ _ h1 h2
  intro b hb
  obtain ⟨i, hi, rfl⟩ := List.getElem_of_mem hb
  exact key i hi

/-- `heappop` on a heap: fails only if empty; otherwise returns a least element and a heap of the others. -/
theorem heappop_spec (L : Law lt) {l : List α} (h : IsHeap lt l) :
    match heappop lt l with
    | none => l = []
    | some (m, r) => l.Perm (m :: r) ∧ IsHeap lt r ∧ (∀ b ∈ l, lt b m = false) := by
  match l, h with
  | [], _ => rfl
  | [a], h =>
    refine ⟨List.Perm.refl _, ?_, ?_⟩
    · intro i hi; simp at hi
    · intro b hb; simp at hb; subst hb; exact L.irrefl _
  | a :: b :: t, h =>
    show _ ∧ _ ∧ _
    have hl : (a :: b :: t).length = (b :: t).length + 1 := rfl
    set n := (b :: t).length with hn
    have hnpos : 0 < n := by simp [hn]
    set f := toFun a (a :: b :: t) with hf
    have hlast : f n = (b :: t).getLast (by simp) := by
      rw [hf, List.getLast_eq_getElem]
      simp [toFun, hn]
    refine ⟨?_, ?_, isHeap_root L h⟩
    · rw [← Multiset.coe_eq_coe]
      show ((a :: b :: t : List α) : Multiset α) = a ::ₘ ((ofFun n _ : List α) : Multiset α)
      rw [coe_ofFun, siftup_elems _ hnpos]
      rw [← hlast, ← elems_toFun a (a :: b :: t)]
      show elems (n + 1) f = _
      have e1 : elems (n + 1) f = f n ::ₘ elems n f := by
        unfold elems; rw [Multiset.range_succ, Multiset.map_cons]
      obtain ⟨m, hm⟩ : ∃ m, n = m + 1 := ⟨n - 1, by omega⟩
      have shift : ∀ g : Nat → α, elems n g = g 0 ::ₘ (Multiset.range m).map (fun i => g (i + 1)) := by
        intro g
        unfold elems
        rw [hm]
        show ((List.range (m+1)).map g : Multiset α) = _
        rw [List.range_succ_eq_map]
        simp only [List.map_cons, List.map_map]
        rfl
      rw [e1, shift f, shift (upd f 0 (f n)), upd_same, Multiset.cons_swap]
      have f0 : f 0 = a := by simp [hf, toFun]
      rw [f0]
      congr 2
      
    · apply isHeap_of_heapFrom
      apply siftup_heap L _ hnpos
      intro i hi hin hk
      have hip : parent i ≠ 0 := by omega
      rw [upd_ne _ _ (by omega), upd_ne _ _ hip]
      exact heapFrom_of_isHeap a h i hi (by omega) (Nat.zero_le _)

end Verif.Heapq
