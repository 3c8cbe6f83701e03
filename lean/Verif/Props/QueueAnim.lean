import Verif.QueueAnim
import Mathlib.Algebra.BigOperators.Group.List.Basic
import Mathlib.Data.List.Nodup
import Mathlib.Logic.Relation
import Mathlib.Tactic.Linarith
import Mathlib.Tactic.Ring

/-!
# C107: the animation of a queue
-/

namespace Verif
namespace QueueAnim

variable {C : Type} [DecidableEq C]

/-- how many at most -/
def limit (k : Look C) : Nat := if k.visible then (match k.maxLength with | none => k.queue.length | some m => m.toNat) else 0

omit [DecidableEq C] in
theorem place_fst (k : Look C) (l : List C) (x y : Rat) (n : Nat) (hl : n + l.length ≤ k.queue.length) :
    (place k l x y n).map (·.1) = l.take (limit k - n) := by
  induction l generalizing x y n with
  | nil => simp [place]
  | cons c l ih =>
    rw [place, stop]
    simp only [List.length_cons] at hl
    unfold limit at ih ⊢
    cases hv : k.visible with
    | false => simp
    | true =>
      cases hm : k.maxLength with
      | none =>
        simp only [hv, hm, if_true] at ih
        obtain ⟨j, hj⟩ : ∃ j, k.queue.length - n = j + 1 := ⟨k.queue.length - n - 1, by omega⟩
        simp only [Bool.not_true, Bool.or_false, Bool.false_eq_true, if_false, if_true, List.map_cons, hj, List.take_succ_cons]
        rw [ih _ _ _ (by omega)]
        congr 2; omega
      | some m =>
        simp only [hv, hm, if_true] at ih
        by_cases h : (n : Int) ≥ m
        · have : m.toNat - n = 0 := by omega
          simp [h, this]
        · obtain ⟨j, hj⟩ : ∃ j, m.toNat - n = j + 1 := ⟨m.toNat - n - 1, by omega⟩
          simp only [h, decide_false, Bool.not_true, Bool.or_false, Bool.false_eq_true, if_false, if_true, List.map_cons, hj, List.take_succ_cons]
          rw [ih _ _ _ (by omega)]
          congr 2; omega

/-- **C107.** Shown are the first max_length components of the queue (all if max_length is None), from the tail if reversed, and nothing if not visible. -/
theorem C107_shown (k : Look C) :
    (layout k).map (·.1) = if k.visible then
      (match k.maxLength with | none => (if k.reverse then k.queue.reverse else k.queue) | some m => (if k.reverse then k.queue.reverse else k.queue).take m.toNat) else [] := by
  have h := place_fst k (if k.reverse then k.queue.reverse else k.queue) k.x k.y 0 (by split <;> simp)
  rw [layout, h, limit]
  cases k.visible with
  | false => simp
  | true =>
    cases k.maxLength with
    | none =>
      simp only [if_true, Nat.sub_zero]
      exact List.take_of_length_le (by split <;> simp)
    | some m => simp

omit [DecidableEq C] in
theorem place_at (k : Look C) (l : List C) (x y : Rat) (n i : Nat) {c : C} {cx cy : Rat} (h : (place k l x y n)[i]? = some (c, cx, cy)) :
    l[i]? = some c ∧
    cx = (match k.dir with | .e | .t => x + ((l.take i).map k.dimx).sum | .w => x - ((l.take i).map k.dimx).sum | _ => x) ∧
    cy = (match k.dir with | .n => y + ((l.take i).map k.dimy).sum | .s => y - ((l.take i).map k.dimy).sum | _ => y) := by
  induction l generalizing x y n i with
  | nil => simp [place] at h
  | cons d l ih =>
    rw [place] at h
    split at h
    · simp at h
    · cases i with
      | zero =>
        simp only [List.getElem?_cons_zero, Option.some.injEq, Prod.mk.injEq] at h
        obtain ⟨rfl, rfl, rfl⟩ := h
        cases k.dir <;> simp
      | succ i =>
        rw [List.getElem?_cons_succ] at h
        obtain ⟨h1, h2, h3⟩ := ih _ _ _ _ h
        refine ⟨by simpa using h1, ?_, ?_⟩
        · rw [h2]; cases k.dir <;> simp [advance] <;> ring
        · rw [h3]; cases k.dir <;> simp [advance] <;> ring

/-- C107: each component is put after those before it, in the given direction: to the right, to the left, above, below or (as a length) along the trajectory -/
theorem C107_place (k : Look C) {i : Nat} {c : C} {x y : Rat} (h : (layout k)[i]? = some (c, x, y)) :
    let before := ((layout k).take i).map (·.1)
    (k.dir = .e ∨ k.dir = .t → x = k.x + (before.map k.dimx).sum ∧ y = k.y) ∧ (k.dir = .w → x = k.x - (before.map k.dimx).sum ∧ y = k.y) ∧
    (k.dir = .n → x = k.x ∧ y = k.y + (before.map k.dimy).sum) ∧ (k.dir = .s → x = k.x ∧ y = k.y - (before.map k.dimy).sum) := by
  intro before
  obtain ⟨_, h2, h3⟩ := place_at k _ _ _ _ _ h
  have hb : before = (if k.reverse then k.queue.reverse else k.queue).take i := by
    have hf := place_fst k (if k.reverse then k.queue.reverse else k.queue) k.x k.y 0 (by split <;> simp)
    have hi : i < ((layout k).map (·.1)).length := by rw [List.length_map]; exact (List.getElem?_eq_some_iff.1 h).1
    simp only [before]
    rw [List.map_take, layout, hf, List.take_take]
    rw [layout, hf, List.length_take] at hi
    rw [min_eq_left (by omega)]
  rw [hb, h2, h3]
  refine ⟨fun hd => ?_, fun hd => ?_, fun hd => ?_, fun hd => ?_⟩
  · rcases hd with hd | hd <;> simp [hd]
  · simp [hd]
  · simp [hd]
  · simp [hd]

omit [DecidableEq C] in
theorem sum_apart (f : C → Rat) (hf : ∀ c, 0 ≤ f c) (l : List (C × Rat × Rat)) {i j : Nat} (hij : i < j) {p : C × Rat × Rat} (h : l[i]? = some p) :
    (((l.take i).map (·.1)).map f).sum + f p.1 ≤ (((l.take j).map (·.1)).map f).sum := by
  have e : l.take j = l.take i ++ p :: (l.drop (i + 1)).take (j - (i + 1)) := by
    have e1 : l.take j = l.take (i + 1) ++ (l.drop (i + 1)).take (j - (i + 1)) := by
      rw [← List.take_add]; congr 1; omega
    rw [e1, List.take_add_one, h]; simp
  have nn : ∀ l : List C, 0 ≤ (l.map f).sum := by
    intro l
    induction l with
    | nil => simp
    | cons a l ih => simp only [List.map_cons, List.sum_cons]; have := hf a; linarith
  have := nn (((l.drop (i + 1)).take (j - (i + 1))).map (·.1))
  rw [e]
  simp only [List.map_append, List.map_cons, List.sum_append, List.sum_cons]
  linarith

/-- C107: components don't overlap: if the dimensions are not negative, any later component is at least the dimension of this one further -/
theorem C107_apart (k : Look C) (hx : ∀ c, 0 ≤ k.dimx c) (hy : ∀ c, 0 ≤ k.dimy c) {i j : Nat} (hij : i < j) {c c' : C} {x y x' y' : Rat}
    (h : (layout k)[i]? = some (c, x, y)) (h' : (layout k)[j]? = some (c', x', y')) :
    (k.dir = .e ∨ k.dir = .t → x + k.dimx c ≤ x') ∧ (k.dir = .w → x' ≤ x - k.dimx c) ∧ (k.dir = .n → y + k.dimy c ≤ y') ∧ (k.dir = .s → y' ≤ y - k.dimy c) := by
  obtain ⟨a1, a2, a3, a4⟩ := C107_place k h
  obtain ⟨b1, b2, b3, b4⟩ := C107_place k h'
  have sx := sum_apart k.dimx hx _ hij h
  have sy := sum_apart k.dimy hy _ hij h
  simp only at sx sy
  refine ⟨fun hd => ?_, fun hd => ?_, fun hd => ?_, fun hd => ?_⟩
  · rw [(a1 hd).1, (b1 hd).1]; linarith
  · rw [(a2 hd).1, (b2 hd).1]; linarith
  · rw [(a3 hd).2, (b3 hd).2]; linarith
  · rw [(a4 hd).2, (b4 hd).2]; linarith

/-! ## the animation objects -/

/-- all objects of a dictionary -/
def ids (l : List (C × List Nat)) : List Nat := l.flatMap (·.2)

omit [DecidableEq C] in
theorem mem_discard {l : List (C × List Nat)} {alive : List Nat} {i : Nat} : i ∈ discard l alive ↔ i ∈ alive ∧ i ∉ ids l := by
  simp [discard, ids]

theorem ids_lookup {prev : List (C × List Nat)} {c : C} {os : List Nat} (hk : (prev.map (·.1)).Nodup) (h : prev.lookup c = some os) :
    (ids prev).Perm (os ++ ids (prev.filter (fun p => p.1 ≠ c))) := by
  induction prev with
  | nil => simp at h
  | cons p prev ih =>
    obtain ⟨d, l⟩ := p
    simp only [List.map_cons, List.nodup_cons] at hk
    by_cases hd : c = d
    · subst hd
      simp only [List.lookup_cons, beq_self_eq_true, Option.some.injEq] at h
      subst h
      have : prev.filter (fun p => p.1 ≠ c) = prev := by
        rw [List.filter_eq_self]
        intro q hq
        have : q.1 ≠ c := fun e => hk.1 (e ▸ List.mem_map_of_mem hq)
        simpa using this
      rw [List.filter_cons_of_neg (by simp), this]
      simp [ids]
    · rw [List.lookup_cons] at h
      have hb : (c == d) = false := by simpa using hd
      rw [hb] at h
      rw [List.filter_cons_of_pos (by simpa using Ne.symm hd)]
      have := ih hk.2 h
      simp only [ids, List.flatMap_cons] at this ⊢
      calc l ++ prev.flatMap (·.2) |>.Perm (l ++ (os ++ (prev.filter (fun p => p.1 ≠ c)).flatMap (·.2))) := this.append_left l
        _ |>.Perm _ := by
          rw [← List.append_assoc, ← List.append_assoc]
          exact List.perm_append_comm.append_right _

omit [DecidableEq C] in
theorem ids_once {l : List (C × List Nat)} (h : (ids l).Nodup) {p q : C × List Nat} (hp : p ∈ l) (hq : q ∈ l) {i : Nat} (h1 : i ∈ p.2) (h2 : i ∈ q.2) : p = q := by
  induction l with
  | nil => simp at hp
  | cons a l ih =>
    simp only [ids, List.flatMap_cons] at h
    obtain ⟨_, n2, n3⟩ := List.nodup_append.1 h
    have later : ∀ {r : C × List Nat}, r ∈ l → i ∈ r.2 → i ∈ l.flatMap (·.2) := fun hr hi => List.mem_flatMap.2 ⟨_, hr, hi⟩
    rcases List.mem_cons.1 hp with e1 | e1 <;> rcases List.mem_cons.1 hq with e2 | e2
    · rw [e1, e2]
    · exact absurd rfl (n3 i (e1 ▸ h1) i (later e2 h2))
    · exact absurd rfl (n3 i (e2 ▸ h2) i (later e1 h1))
    · exact ih n2 e1 e2

/-- during the loop -/
structure Half (prev : List (C × List Nat)) (d : Disp C) : Prop where
  alive : ∀ i, i ∈ d.alive ↔ i ∈ ids prev ∨ i ∈ ids d.cur
  next : ∀ i ∈ d.alive, i < d.next
  once : (ids prev ++ ids d.cur).Nodup
  keys : (prev.map (·.1)).Nodup

theorem renew_half (changed : Bool) (count : C → Nat) (l : List C) {prev : List (C × List Nat)} {d : Disp C} (h : Half prev d) :
    Half (renew changed count l prev d).1 (renew changed count l prev d).2 ∧ (renew changed count l prev d).2.cur.map (·.1) = d.cur.map (·.1) ++ l ∧
    (renew changed count l prev d).2.shown = d.shown := by
  induction l generalizing prev d with
  | nil => exact ⟨h, by simp [renew], rfl⟩
  | cons c l ih =>
    rw [renew]
    split
    · rename_i os ho
      have ho' : prev.lookup c = some os := by
        cases changed with
        | true => simpa using ho
        | false => simp at ho
      have hp := ids_lookup h.keys ho'
      have hh : Half (prev.filter (fun p => p.1 ≠ c)) { d with cur := d.cur ++ [(c, os)] } := by
        have e : ids (d.cur ++ [(c, os)]) = ids d.cur ++ os := by simp [ids]
        refine ⟨fun i => ?_, h.next, ?_, (List.filter_sublist.map _).nodup h.keys⟩
        · simp only [e]
          rw [h.alive, hp.mem_iff, List.mem_append, List.mem_append]
          tauto
        · simp only [e]
          refine (List.Perm.nodup_iff ?_).1 h.once
          refine (hp.append_right _).trans ?_
          rw [List.append_assoc]
          refine List.perm_append_comm.trans ?_
          rw [List.append_assoc]
      obtain ⟨i1, i2, i3⟩ := ih hh
      exact ⟨i1, by rw [i2]; simp, i3⟩
    · have hh : Half prev { d with cur := d.cur ++ [(c, List.range' d.next (count c))], alive := d.alive ++ List.range' d.next (count c), next := d.next + count c } := by
        have e : ids (d.cur ++ [(c, List.range' d.next (count c))]) = ids d.cur ++ List.range' d.next (count c) := by simp [ids]
        refine ⟨fun i => ?_, fun i hi => ?_, ?_, h.keys⟩
        · simp only [e, List.mem_append, h.alive]; tauto
        · simp only [List.mem_append, List.mem_range'_1] at hi
          rcases hi with hi | hi
          · have := h.next i hi; simp only; omega
          · exact hi.2
        · simp only [e]
          rw [← List.append_assoc, List.nodup_append]
          refine ⟨h.once, List.nodup_range', fun i hi j hj hij => ?_⟩
          have := h.next i ((h.alive i).2 (List.mem_append.1 hi))
          rw [List.mem_range'_1] at hj
          omega
      obtain ⟨i1, i2, i3⟩ := ih hh
      exact ⟨i1, by rw [i2]; simp, i3⟩

/-- at any moment -/
structure Inv (d : Disp C) : Prop where
  next : ∀ i ∈ d.alive, i < d.next
  once : (ids d.cur).Nodup
  keys : (d.cur.map (·.1)).Nodup
  on : d.shown = true → ∀ i, i ∈ d.alive ↔ i ∈ ids d.cur
  off : d.shown = false → d.alive = []

/-- what may happen: an update, in any situation; `remove`; `show` of a queue animation that was removed -/
inductive Next : Disp C → Disp C → Prop
  | update {d : Disp C} (keep changed : Bool) (k : Look C) : k.queue.Nodup → Next d (update keep changed k d)
  | remove {d : Disp C} : Next d (remove d)
  | «show» {d : Disp C} : d.shown = false → Next d («show» d)

/-- a new AnimateQueue -/
def new : Disp C := ⟨true, [], [], 0⟩

theorem inv_remove {d : Disp C} (h : Inv d) : Inv (remove d) := by
  refine ⟨fun i hi => h.next i (mem_discard.1 hi).1, h.once, h.keys, fun e => by simp [remove] at e, fun _ => ?_⟩
  simp only [remove]
  rw [List.eq_nil_iff_forall_not_mem]
  intro i hi
  obtain ⟨h1, h2⟩ := mem_discard.1 hi
  cases hs : d.shown with
  | true => exact h2 ((h.on hs i).1 h1)
  | false => rw [h.off hs] at h1; simp at h1

theorem shown_nodup (k : Look C) (hq : k.queue.Nodup) : ((layout k).map (·.1)).Nodup := by
  rw [C107_shown]
  have : (if k.reverse then k.queue.reverse else k.queue).Nodup := by split; exact List.nodup_reverse.2 hq; exact hq
  split
  · split
    · exact this
    · exact (List.take_sublist _ _).nodup this
  · exact List.nodup_nil

theorem update_on {d : Disp C} (h : Inv d) (hs : d.shown = true) (changed : Bool) (k : Look C) (hq : k.queue.Nodup) :
    Inv (update true changed k d) ∧ (update true changed k d).cur.map (·.1) = (layout k).map (·.1) ∧ (update true changed k d).shown = true := by
  have hh : Half d.cur { d with cur := [] } := ⟨fun i => by simpa [ids] using h.on hs i, h.next, by simpa [ids] using h.once, h.keys⟩
  obtain ⟨i1, i2, i3⟩ := renew_half changed k.count ((layout k).map (·.1)) hh
  have e : update true changed k d = { (renew changed k.count ((layout k).map (·.1)) d.cur { d with cur := [] }).2 with
      alive := discard (renew changed k.count ((layout k).map (·.1)) d.cur { d with cur := [] }).1 (renew changed k.count ((layout k).map (·.1)) d.cur { d with cur := [] }).2.alive } := by
    simp [update, hs]
  rw [e]
  generalize renew changed k.count ((layout k).map (·.1)) d.cur { d with cur := [] } = r at i1 i2 i3
  simp only [List.map_nil, List.nil_append] at i2
  simp only at i3
  refine ⟨⟨fun i hi => i1.next i (mem_discard.1 hi).1, (List.nodup_append.1 i1.once).2.1, ?_, fun _ i => ?_, fun e => ?_⟩, i2, i3.trans hs⟩
  · simp only; rw [i2]; exact shown_nodup k hq
  · simp only
    rw [mem_discard, i1.alive]
    have hd := (List.nodup_append.1 i1.once).2.2
    constructor
    · rintro ⟨h1 | h1, h2⟩
      · exact absurd h1 h2
      · exact h1
    · intro h1
      exact ⟨.inr h1, fun h2 => hd i h2 i h1 rfl⟩
  · simp only at e; rw [i3, hs] at e; cases e

theorem inv_next {d d' : Disp C} (h : Inv d) (hn : Next d d') : Inv d' := by
  cases hn with
  | update keep changed k hq =>
    cases hs : d.shown with
    | false => simpa [update, hs] using h
    | true =>
      cases keep with
      | false => simpa [update, hs] using inv_remove h
      | true => exact (update_on h hs changed k hq).1
  | remove => exact inv_remove h
  | «show» hs =>
    have := h.off hs
    exact ⟨h.next, by simp [«show», ids], by simp [«show»], fun _ i => by simp [«show», ids, this], fun e => by simp [«show»] at e⟩

theorem reach_inv {d : Disp C} (h : Relation.ReflTransGen Next (new : Disp C) d) : Inv d := by
  induction h with
  | refl => exact ⟨by simp [new], by simp [new, ids], by simp [new], fun _ i => by simp [new, ids], fun e => by simp [new] at e⟩
  | tail _ h ih => exact inv_next ih h

/-- C107: after an update, whatever has happened before, the animation objects on the screen are those of the components that are shown: none is left of a component that isn't, and no
object belongs to two of them -/
theorem C107_objects {d : Disp C} (h : Relation.ReflTransGen Next (new : Disp C) d) (hs : d.shown = true) (changed : Bool) (k : Look C) (hq : k.queue.Nodup) :
    let d' := update true changed k d
    d'.cur.map (·.1) = (layout k).map (·.1) ∧ (∀ i, i ∈ d'.alive ↔ ∃ p ∈ d'.cur, i ∈ p.2) ∧
    (∀ p ∈ d'.cur, ∀ q ∈ d'.cur, ∀ i, i ∈ p.2 → i ∈ q.2 → p = q) := by
  obtain ⟨h1, h2, h3⟩ := update_on (reach_inv h) hs changed k hq
  refine ⟨h2, fun i => ?_, fun p hp q hq i h4 h5 => ?_⟩
  · rw [h1.on h3 i, ids, List.mem_flatMap]
  · exact ids_once h1.once hp hq h4 h5

theorem renew_count (count : C → Nat) (l : List C) (prev : List (C × List Nat)) (d : Disp C) (h : ∀ p ∈ d.cur, p.2.length = count p.1) :
    ∀ p ∈ (renew false count l prev d).2.cur, p.2.length = count p.1 := by
  induction l generalizing d with
  | nil => exact h
  | cons c l ih =>
    rw [renew]
    simp only [Bool.false_eq_true, if_false]
    apply ih
    intro p hp
    simp only [List.mem_append, List.mem_singleton] at hp
    rcases hp with hp | rfl
    · exact h p hp
    · simp

/-- C107: if the scale of the view has not changed, each component that is shown has as many objects as its `animation_objects()` makes -/
theorem C107_count {d : Disp C} (hs : d.shown = true) (k : Look C) : ∀ p ∈ (update true false k d).cur, p.2.length = k.count p.1 := by
  have e : (update true false k d).cur = (renew false k.count ((layout k).map (·.1)) d.cur { d with cur := [] }).2.cur := by simp [update, hs]
  rw [e]
  exact renew_count _ _ _ _ (by simp)

theorem renew_kept (count : C → Nat) (l : List C) (prev : List (C × List Nat)) (d : Disp C) (hl : l.Nodup) {c : C} {os : List Nat} (hc : c ∈ l) (h : prev.lookup c = some os) :
    (c, os) ∈ (renew true count l prev d).2.cur := by
  have grow : ∀ (l : List C) (prev : List (C × List Nat)) (d : Disp C) (p : C × List Nat), p ∈ d.cur → p ∈ (renew true count l prev d).2.cur := by
    intro l
    induction l with
    | nil => intro prev d p hp; exact hp
    | cons a l ih =>
      intro prev d p hp
      rw [renew]
      split <;> exact ih _ _ _ (List.mem_append_left _ hp)
  have look : ∀ (prev : List (C × List Nat)) {a : C}, a ≠ c → (prev.filter (fun p => p.1 ≠ a)).lookup c = prev.lookup c := by
    intro prev a hne
    induction prev with
    | nil => rfl
    | cons p prev ih =>
      obtain ⟨b, x⟩ := p
      by_cases hb : b = a
      · subst hb
        rw [List.filter_cons_of_neg (by simp), ih, List.lookup_cons]
        have : (c == b) = false := by simpa using hne.symm
        rw [this]
      · rw [List.filter_cons_of_pos (by simpa using hb), List.lookup_cons, List.lookup_cons, ih]
  induction l generalizing prev d with
  | nil => simp at hc
  | cons a l ih =>
    rw [List.nodup_cons] at hl
    rw [renew]
    by_cases ha : a = c
    · subst ha
      simp only [if_true, h]
      exact grow _ _ _ _ (by simp)
    · have hc' : c ∈ l := by
        rcases List.mem_cons.1 hc with e | e
        · exact absurd e.symm ha
        · exact e
      split
      · exact ih _ _ hl.2 hc' ((look prev ha).trans h)
      · exact ih _ _ hl.2 hc' h

/-- C107: if the scale of the view has changed, components that stay keep their objects -/
theorem C107_kept {d : Disp C} (hs : d.shown = true) (k : Look C) (hq : k.queue.Nodup) {c : C} {os : List Nat} (hc : c ∈ (layout k).map (·.1)) (h : d.cur.lookup c = some os) :
    (c, os) ∈ (update true true k d).cur := by
  have e : (update true true k d).cur = (renew true k.count ((layout k).map (·.1)) d.cur { d with cur := [] }).2.cur := by simp [update, hs]
  rw [e]
  exact renew_kept _ _ _ _ (shown_nodup k hq) hc h

/-- C107: nothing is left on the screen after `remove()`, or once `keep` is False -/
theorem C107_remove {d : Disp C} (h : Relation.ReflTransGen Next (new : Disp C) d) (changed : Bool) (k : Look C) :
    (remove d).alive = [] ∧ (update false changed k d).alive = [] := by
  have hr := (inv_remove (reach_inv h)).off rfl
  refine ⟨hr, ?_⟩
  cases hs : d.shown with
  | true => simpa [update, hs] using hr
  | false => simpa [update, hs] using (reach_inv h).off hs

/-! ## a concrete case: components 1, 2, 3, each with one object of 50 wide, at most two shown -/

/-- the queue 1, 2, 3 -/
def demo (q : List Nat) : Look Nat := ⟨q, 100, 20, .w, false, some 2, true, fun _ => 50, fun _ => 30, fun _ => 1⟩

example : layout (demo [1, 2, 3]) = [(1, 100, 20), (2, 50, 20)] := by decide +kernel
/-- 1 leaves the queue -/
example : (update true false (demo [2, 3]) (update true false (demo [1, 2, 3]) new)).cur = [(2, [2]), (3, [3])] ∧
    (update true false (demo [2, 3]) (update true false (demo [1, 2, 3]) new)).alive = [2, 3] := by decide +kernel
/-- the same with a change of scale: 2 keeps its object -/
example : (update true true (demo [2, 3]) (update true false (demo [1, 2, 3]) new)).cur = [(2, [1]), (3, [2])] := by decide +kernel

/-- `show()` of a queue animation that is already shown (which the documentation allows) forgets the objects on the screen without removing them: they stay for ever, also when the queue is
empty and after `remove()` -/
theorem C107_show_counterexample : ∃ d : Disp Nat, Relation.ReflTransGen Next new d ∧ d.shown = true ∧
    (update true false (demo []) («show» d)).alive = [0, 1] ∧ (remove (update true false (demo []) («show» d))).alive = [0, 1] :=
  ⟨update true false (demo [1, 2, 3]) new, .single (.update true false _ (by decide)), by decide +kernel, by decide +kernel, by decide +kernel⟩

end QueueAnim
end Verif
