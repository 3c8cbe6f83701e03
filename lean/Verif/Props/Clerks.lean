import Verif.Props.Clerk
import Verif.Props.Servers

/-!
# The bank with several clerks, with activate and passivate

The sample program of the documentation (sample models/Bank, 3 clerks.py), for any number of clerks: a customer enters the waiting line and wakes the first clerk that is
passive, if any; the clerks take customers out of the waiting line. What the model of the kernel does with it, for all interarrival and service times.
-/

namespace Verif
open World Bank Buffer
namespace Many
open Clerks (Mem arrives arrives_mono turn_go run_call perm3)

/-! ## the program -/

/-- the generator (component 1): for each of `n` customers, the customer is made, and the generator holds for the interarrival time -/
def generator (m : Nat) (d : Nat → Rat) (n : Nat) (k : Mem) : Prog Mem :=
  if k.count < n then .call (.create (k.count + (m + 2)) none (0 : Rat) (0 : Rat) false false false)
    (.call (.hold 1 (some ((d k.count : Rat) : ETime)) none (0 : Rat) false false 0) (.stop (.made (k.count + 1))))
  else .call .terminate (.stop k)

/-- the loop of a customer over the clerks: the first one that is passive is activated; then the customer passivates -/
def ring (c : CId) : List Nat → Prog Mem
  | [] => .call (.passivate c) (.stop .waiting)
  | j :: l => .look fun w =>
      if w.status (j + 2) = .passive then .call (.activate (j + 2) none (0 : Rat) (0 : Rat) false false false false false) (.call (.passivate c) (.stop .waiting))
      else ring c l

/-- a customer (component `i + (m + 2)` is customer `i`): enters the waiting line (queue 1), activates a clerk that is passive, and passivates; the process ends when the customer
is activated -/
def customer (m : Nat) (c : CId) : Mem → Prog Mem
  | .start => .call (.enter c 1) (ring c (List.range m))
  | k => .call .terminate (.stop k)

/-- the loop of clerk `j`: while the waiting line is empty, passivate; otherwise, take the first customer and hold for the service time -/
def loop (m : Nat) (s : Nat → Rat) (j : Nat) : Prog Mem :=
  .look fun w => match w.inQ (.user 1) with
    | [] => .call (.passivate (j + 2)) (.stop .start)
    | c :: _ => .call (.leave c 1) (.call (.hold (j + 2) (some ((s (c - (m + 2)) : Rat) : ETime)) none (0 : Rat) false false 0) (.stop (.serving c)))

/-- clerk `j` (component `j + 2`): after a service, the customer is activated -/
def clerk (m : Nat) (s : Nat → Rat) (j : Nat) : Mem → Prog Mem
  | .serving c => .call (.activate c none (0 : Rat) (0 : Rat) false false false false false) (loop m s j)
  | _ => loop m s j

/-- all processes -/
def bank (m : Nat) (d s : Nat → Rat) (n : Nat) (c : CId) (k : Mem) : Prog Mem :=
  if c = 1 then generator m d n k else if c < m + 2 then clerk m s (c - 2) k else customer m c k

/-- the main program: the generator and the clerks are made and the simulation is run until there are no more events -/
def opening (m : Nat) : List Op :=
  .create 1 none (0 : Rat) (0 : Rat) false false false ::
    ((List.range m).map (fun j => Op.create (j + 2) none (0 : Rat) (0 : Rat) false false false) ++ [.runStart none none ⊤ false false])

/-! ## the state of affairs -/

/-- a clerk: about to look at the waiting line, passive, or serving a customer -/
inductive St where
  | ready
  | passive
  | busy (i : Nat)
  deriving DecidableEq

variable {m : Nat} {d s : Nat → Rat} {n : Nat}

/-- when the service of a customer is over -/
def over (m : Nat) (d s : Nat → Rat) (i : Nat) : Rat := Desk.finish m (arrives d) s i

/-- when a clerk can begin its next service, at the earliest -/
def avail (m : Nat) (d s : Nat → Rat) (now : Rat) : St → Rat
  | .busy i => over m d s i
  | _ => now

/-- the line and the clerks: `A` customers have arrived, the service of `G` of them has begun -/
structure Line (m : Nat) (d s : Nat → Rat) (now : Rat) (A G : Nat) (K : Nat → St) : Prop where
  ga : G ≤ A
  past : ∀ i : Nat, i < A → arrives d i ≤ now
  busy : ∀ j : Nat, j < m → ∀ i, K j = .busy i → now ≤ over m d s i ∧ i < G
  inj : ∀ j : Nat, j < m → ∀ k : Nat, k < m → ∀ i, K j = .busy i → K k = .busy i → j = k
  free : ((Desk.free m (arrives d) s G).map (max now)).Perm ((List.range m).map (fun j => avail m d s now (K j)))
  late : G < A → arrives d G = now ∨ ∀ u ∈ Desk.free m (arrives d) s G, now ≤ u
  heard : (∃ j : Nat, j < m ∧ K j = .passive) → A ≤ G + (List.range m).countP (fun j => decide (K j = .ready))

/-! ## the clerks other than one -/

def others (m j : Nat) : List Nat := (List.range m).erase j

theorem hole {j : Nat} (hj : j < m) : (List.range m).Perm (j :: others m j) := List.perm_cons_erase (List.mem_range.mpr hj)

theorem mem_others {j i : Nat} (h : i ∈ others m j) : i ≠ j ∧ i < m := by
  unfold others at h
  rw [List.nodup_range.mem_erase_iff] at h
  exact ⟨h.1, List.mem_range.mp h.2⟩

theorem others_mem {j i : Nat} (h : i ≠ j) (hi : i < m) : i ∈ others m j := by
  unfold others
  rw [List.nodup_range.mem_erase_iff]
  exact ⟨h, List.mem_range.mpr hi⟩

variable {now : Rat} {A G : Nat} {K : Nat → St}

theorem upd_same (K : Nat → St) (j : Nat) (v : St) : Function.update K j v j = v := Function.update_self ..
theorem upd_ne (K : Nat → St) {j i : Nat} (v : St) (h : i ≠ j) : Function.update K j v i = K i := Function.update_of_ne h ..

theorem count_upd {j : Nat} (hj : j < m) (K : Nat → St) (v : St) :
    (List.range m).countP (fun i => decide (Function.update K j v i = .ready)) = (others m j).countP (fun i => decide (K i = .ready)) + (if v = .ready then 1 else 0) := by
  rw [(hole hj).countP_eq, List.countP_cons, upd_same]
  congr 1
  · exact List.countP_congr fun i hi => by rw [upd_ne K v (mem_others hi).1]
  · simp

theorem count_hole {j : Nat} (hj : j < m) (K : Nat → St) :
    (List.range m).countP (fun i => decide (K i = .ready)) = (others m j).countP (fun i => decide (K i = .ready)) + (if K j = .ready then 1 else 0) := by
  rw [(hole hj).countP_eq, List.countP_cons]
  congr 1
  simp

/-- nothing happens until the next event -/
theorem Line.tick {now' : Rat} (h : Line m d s now A G K) (hn : now ≤ now') (hr : ∀ j : Nat, j < m → K j = .ready → now' ≤ now)
    (hb : ∀ j : Nat, j < m → ∀ i, K j = .busy i → now' ≤ over m d s i) : Line m d s now' A G K := by
  refine ⟨h.ga, fun i hi => (h.past i hi).trans hn, fun j hj i hK => ⟨hb j hj i hK, (h.busy j hj i hK).2⟩, h.inj, ?_, ?_, h.heard⟩
  · have := h.free.map (max now')
    rw [List.map_map, List.map_map] at this
    have e1 : max now' ∘ max now = max now' := by funext u; show max now' (max now u) = _; rw [← max_assoc, max_eq_left hn]
    have e2 : (List.range m).map (max now' ∘ fun j => avail m d s now (K j)) = (List.range m).map (fun j => avail m d s now' (K j)) := by
      refine List.map_congr_left fun j hj => ?_
      have hj := List.mem_range.mp hj
      show max now' (avail m d s now (K j)) = _
      cases hK : K j with
      | busy i => exact max_eq_right (hb j hj i hK)
      | ready => exact max_eq_left hn
      | passive => exact max_eq_left hn
    rw [e1, e2] at this
    exact this
  · intro hg
    rcases hn.eq_or_lt with e | hlt
    · rw [← e]; exact h.late hg
    · right
      have hnr : ∀ j : Nat, j < m → K j ≠ .ready := fun j hj hK => absurd (hr j hj hK) (not_le.mpr hlt)
      have h0 : (List.range m).countP (fun j => decide (K j = .ready)) = 0 := by
        rw [List.countP_eq_zero]; intro j hj; simpa using hnr j (List.mem_range.mp hj)
      have hall : ∀ j : Nat, j < m → now' ≤ avail m d s now (K j) := by
        intro j hj
        cases hK : K j with
        | busy i => exact hb j hj i hK
        | ready => exact absurd hK (hnr j hj)
        | passive => have := h.heard ⟨j, hj, hK⟩; omega
      intro u hu
      have hm := h.free.subset (List.mem_map_of_mem hu)
      obtain ⟨j, hj, e⟩ := List.mem_map.mp hm
      have := hall j (List.mem_range.mp hj)
      rw [e] at this
      rcases le_max_iff.mp this with h' | h'
      · exact absurd h' (not_le.mpr hlt)
      · exact h'

/-- a customer arrives, no clerk is passive -/
theorem Line.arrive (h : Line m d s now A G K) (ht : arrives d A = now) (hp : ∀ j : Nat, j < m → K j ≠ .passive) : Line m d s now (A + 1) G K := by
  refine ⟨by have := h.ga; omega, fun i hi => ?_, h.busy, h.inj, h.free, fun hg => ?_, fun ⟨j, hj, hK⟩ => absurd hK (hp j hj)⟩
  · rcases Nat.lt_or_ge i A with h' | h'
    · exact h.past i h'
    · rw [show i = A by omega, ht]
  · rcases Nat.lt_or_ge G A with h' | h'
    · exact h.late h'
    · left; rw [show G = A by omega, ht]

theorem avail_upd {j : Nat} {v : St} (hv : avail m d s now v = avail m d s now (K j)) :
    (fun i => avail m d s now (Function.update K j v i)) = fun i => avail m d s now (K i) := by
  funext i
  by_cases h : i = j
  · rw [h, upd_same, hv]
  · rw [upd_ne K v h]

/-- a customer arrives and wakes a clerk that is passive -/
theorem Line.wake {j : Nat} (h : Line m d s now A G K) (ht : arrives d A = now) (hj : j < m) (hK : K j = .passive) :
    Line m d s now (A + 1) G (Function.update K j .ready) := by
  have hb : ∀ k i, Function.update K j St.ready k = .busy i → K k = .busy i := by
    intro k i hk
    by_cases e : k = j
    · rw [e, upd_same] at hk; exact absurd hk (by simp)
    · rwa [upd_ne K _ e] at hk
  refine ⟨by have := h.ga; omega, fun i hi => ?_, fun k hk i hi => h.busy k hk i (hb k i hi), fun k hk l hl i h1 h2 => h.inj k hk l hl i (hb k i h1) (hb l i h2), ?_, fun hg => ?_, fun _ => ?_⟩
  · rcases Nat.lt_or_ge i A with h' | h'
    · exact h.past i h'
    · rw [show i = A by omega, ht]
  · rw [avail_upd (by rw [hK]; rfl)]; exact h.free
  · rcases Nat.lt_or_ge G A with h' | h'
    · exact h.late h'
    · left; rw [show G = A by omega, ht]
  · have := h.heard ⟨j, hj, hK⟩
    rw [count_hole hj, hK] at this
    rw [count_upd hj]
    simp at this ⊢
    omega

/-- a clerk finds nobody in the line -/
theorem Line.rest {j : Nat} (h : Line m d s now A A K) (hK : avail m d s now (K j) = now) : Line m d s now A A (Function.update K j .passive) := by
  have hb : ∀ k i, Function.update K j St.passive k = .busy i → K k = .busy i := by
    intro k i hk
    by_cases e : k = j
    · rw [e, upd_same] at hk; exact absurd hk (by simp)
    · rwa [upd_ne K _ e] at hk
  refine ⟨le_rfl, h.past, fun k hk i hi => h.busy k hk i (hb k i hi), fun k hk l hl i h1 h2 => h.inj k hk l hl i (hb k i h1) (hb l i h2), ?_, fun hg => absurd hg (lt_irrefl _), fun _ => Nat.le_add_right ..⟩
  rw [avail_upd (by rw [hK]; rfl)]; exact h.free

/-- a clerk begins a service: it is the moment at which it begins according to queueing theory -/
theorem Line.begin {j : Nat} (h : Line m d s now A G K) (hd : ∀ i, 0 ≤ d i) (hs : ∀ i, 0 ≤ s i) (hj : j < m) (hK : avail m d s now (K j) = now) (hg : G < A) :
    Desk.starts m (arrives d) s G = now ∧ Line m d s now A (G + 1) (Function.update K j (.busy G)) := by
  obtain ⟨t, l, h1, h2, h3, h4⟩ := Desk.free_cons (m := m) (a := arrives d) (s := s) (by omega) G
  have hp := h.free
  have hp' := hp.trans ((hole hj).map (fun j => avail m d s now (K j)))
  rw [h1, List.map_cons, List.map_cons, hK] at hp'
  have htn : t ≤ now := by
    have := hp'.symm.subset (List.mem_cons_self ..)
    rcases List.mem_cons.mp this with e | e
    · rw [e]; exact le_max_right ..
    · obtain ⟨u, hu, e⟩ := List.mem_map.mp e
      exact (h2 u hu).trans (by rw [← e]; exact le_max_right ..)
  have hst : Desk.starts m (arrives d) s G = now := by
    rw [h3]
    refine le_antisymm (max_le (h.past G hg) htn) ?_
    rcases h.late hg with e | e
    · rw [← e]; exact le_max_left ..
    · exact (e t (by rw [h1]; simp)).trans (le_max_right ..)
  rw [max_eq_left htn] at hp'
  have hp' := hp'.cons_inv
  have hfin : now ≤ over m d s G := by unfold over Desk.finish; rw [hst]; exact le_add_of_nonneg_right (hs G)
  have hb : ∀ k i, k ≠ j → Function.update K j (St.busy G) k = .busy i → K k = .busy i := by
    intro k i e hk; rwa [upd_ne K _ e] at hk
  have hb' : ∀ i, Function.update K j (St.busy G) j = .busy i → i = G := by
    intro i hi; rw [upd_same] at hi; cases hi; rfl
  refine ⟨hst, hg, h.past, fun k hk i hi => ?_, fun k hk q hq i hi hi' => ?_, ?_, fun hg' => ?_, fun ⟨k, hk, hKk⟩ => ?_⟩
  · by_cases e : k = j
    · subst e
      rw [hb' i hi]
      exact ⟨hfin, Nat.lt_succ_self G⟩
    · have := h.busy k hk i (hb k i e hi)
      exact ⟨this.1, this.2.trans (Nat.lt_succ_self G)⟩
  · by_cases e : k = j
    · by_cases e' : q = j
      · rw [e, e']
      · have := (h.busy q hq i (hb q i e' hi')).2
        subst e
        have := hb' i hi
        omega
    · by_cases e' : q = j
      · have := (h.busy k hk i (hb k i e hi)).2
        subst e'
        have := hb' i hi'
        omega
      · exact h.inj k hk q hq i (hb k i e hi) (hb q i e' hi')
  · rw [h4]
    refine ((List.perm_orderedInsert _ _ _).map _).trans (List.Perm.trans ?_ ((hole hj).map _).symm)
    rw [List.map_cons, List.map_cons, upd_same]
    rw [show max now (Desk.finish m (arrives d) s G) = avail m d s now (.busy G) from max_eq_right hfin]
    refine List.Perm.cons _ (hp'.trans ?_)
    exact .of_eq (List.map_congr_left fun i hi => by rw [upd_ne K _ (mem_others hi).1])
  · rcases h.late hg with e | e
    · left
      exact le_antisymm (h.past _ hg') (by rw [← e]; exact arrives_mono hd G)
    · right
      intro u hu
      rw [h4] at hu
      rcases List.mem_cons.mp ((List.perm_orderedInsert _ _ _).subset hu) with e' | e'
      · rw [e']; exact hfin
      · exact e u (by rw [h1]; exact List.mem_cons_of_mem _ e')
  · have hkj : k ≠ j := by
      intro e; rw [e, upd_same] at hKk; simp at hKk
    rw [upd_ne K _ hkj] at hKk
    have := h.heard ⟨k, hk, hKk⟩
    rw [count_hole hj] at this
    rw [count_upd hj]
    split at this <;> simp <;> omega

/-! ## the events -/

def ctime (m : Nat) (d s : Nat → Rat) (now : Rat) : St → Option Rat
  | .ready => some now
  | .passive => none
  | .busy i => some (over m d s i)

/-- the events of the clerks -/
def crew (m : Nat) (d s : Nat → Rat) (now : Rat) (K : Nat → St) (q : Nat → Int) (l : List Nat) : List Ev :=
  l.flatMap fun j => evs (ctime m d s now (K j)) (j + 2) (q j) none

theorem crew_hole {j : Nat} (hj : j < m) (K : Nat → St) (q : Nat → Int) :
    (crew m d s now K q (List.range m)).Perm (evs (ctime m d s now (K j)) (j + 2) (q j) none ++ crew m d s now K q (others m j)) :=
  ((hole hj).flatMap_right _)

theorem crew_congr {K K' : Nat → St} {q q' : Nat → Int} {l : List Nat} (h : ∀ j ∈ l, K j = K' j ∧ q j = q' j) : crew m d s now K q l = crew m d s now K' q' l := by
  unfold crew
  refine List.flatMap_congr fun j hj => ?_
  rw [(h j hj).1, (h j hj).2]

theorem crew_upd {j : Nat} (hj : j < m) (K : Nat → St) (q : Nat → Int) (v : St) (z : Int) :
    (crew m d s now (Function.update K j v) (Function.update q j z) (List.range m)).Perm (evs (ctime m d s now v) (j + 2) z none ++ crew m d s now K q (others m j)) := by
  have := crew_hole (d := d) (s := s) (now := now) hj (Function.update K j v) (Function.update q j z)
  rw [upd_same, Function.update_self] at this
  rw [crew_congr (K' := K) (q' := q) (l := others m j) fun i hi => ⟨upd_ne K v (mem_others hi).1, Function.update_of_ne (mem_others hi).1 ..⟩] at this
  exact this

theorem crew_tick {now' : Rat} (hr : ∀ j : Nat, j < m → K j = .ready → now' = now) (q : Nat → Int) : crew m d s now K q (List.range m) = crew m d s now' K q (List.range m) := by
  unfold crew
  refine List.flatMap_congr fun j hj => ?_
  cases hK : K j with
  | ready => unfold ctime; rw [hr j (List.mem_range.mp hj) hK]
  | _ => rfl

/-- the service of a customer has been completed -/
def Done (m : Nat) (K : Nat → St) (G i : Nat) : Prop := i < G ∧ ∀ j : Nat, j < m → K j ≠ .busy i

theorem done_same {j : Nat} {v : St} (hK : ∀ i, K j ≠ .busy i) (hv : ∀ i, v ≠ .busy i) (i : Nat) : Done m (Function.update K j v) G i ↔ Done m K G i := by
  unfold Done
  refine and_congr_right fun _ => forall_congr' fun k => imp_congr_right fun _ => ?_
  by_cases e : k = j
  · rw [e, upd_same]; simp [hK i, hv i]
  · rw [upd_ne K v e]

theorem done_begin {j : Nat} (hj : j < m) (hK : ∀ i, K j ≠ .busy i) (hb : ∀ k : Nat, k < m → ∀ i, K k = .busy i → i < G) (i : Nat) :
    Done m (Function.update K j (.busy G)) (G + 1) i ↔ Done m K G i := by
  constructor
  · rintro ⟨h1, h2⟩
    have h3 : i ≠ G := by
      intro e; subst e
      exact h2 j hj (upd_same ..)
    refine ⟨by omega, fun k hk e => ?_⟩
    by_cases e' : k = j
    · rw [e'] at e; exact hK i e
    · exact h2 k hk (by rw [upd_ne K _ e']; exact e)
  · rintro ⟨h1, h2⟩
    refine ⟨by omega, fun k hk e => ?_⟩
    by_cases e' : k = j
    · rw [e', upd_same] at e
      cases e; omega
    · rw [upd_ne K _ e'] at e; exact h2 k hk e

theorem done_end {j g : Nat} {v : St} (hj : j < m) (hK : K j = .busy g) (hg : g < G) (hinj : ∀ k : Nat, k < m → K k = .busy g → k = j) (hv : ∀ i, v ≠ .busy i) (i : Nat) :
    Done m (Function.update K j v) G i ↔ Done m K G i ∨ i = g := by
  constructor
  · rintro ⟨h1, h2⟩
    by_cases e : i = g
    · exact .inr e
    · refine .inl ⟨h1, fun k hk e' => ?_⟩
      by_cases ek : k = j
      · rw [ek, hK] at e'; cases e'; exact e rfl
      · exact h2 k hk (by rw [upd_ne K _ ek]; exact e')
  · rintro (⟨h1, h2⟩ | e)
    · refine ⟨h1, fun k hk e' => ?_⟩
      by_cases ek : k = j
      · rw [ek, upd_same] at e'; exact hv i e'
      · rw [upd_ne K _ ek] at e'; exact h2 k hk e'
    · subst e
      refine ⟨hg, fun k hk e' => ?_⟩
      by_cases ek : k = j
      · rw [ek, upd_same] at e'; exact hv i e'
      · rw [upd_ne K _ ek] at e'; exact ek (hinj k hk e')

def kside (x : Side) : St → Prop
  | .passive => x.status = .passive ∧ x.onList = false
  | _ => x.status = .scheduled

def kmem (m : Nat) : St → Mem
  | .busy i => .serving (i + (m + 2))
  | _ => .start

def dep (m : Nat) (d s : Nat → Rat) (p : Nat × Int) : Ev := ⟨over m d s p.1, (0 : Rat), p.2, p.1 + (m + 2), none⟩

/-- `C` customers have been made; those of `P` have been served and are about to leave -/
structure Inv (m : Nat) (d s : Nat → Rat) (n : Nat) (x : Show Mem) (S : Abs) (ge : Bool) (C A G : Nat) (K : Nat → St) (P : List (Nat × Int)) : Prop where
  sim : Sim x.w S
  heap : Heapq.IsHeap Ev.lt S.events
  ev : ∃ qg qp qc, S.events.Perm (evs (Clerks.gtime d ge C) 1 qg none ++ (evs (Clerks.ptime d C A) (A + (m + 2)) qp none ++ (crew m d s S.now K qc (List.range m) ++ P.map (dep m d s)))) ∧ qp < qg
  cn : C ≤ n
  ac : A ≤ C
  ca : C ≤ A + 1
  gdone : ge = true → C = n
  line : Line m d s S.now A G K
  gdue : ∀ t, Clerks.gtime d ge C = some t → S.now ≤ t
  pdue : ∀ t, Clerks.ptime d C A = some t → S.now ≤ t
  deps : ∀ p ∈ P, S.now ≤ over m d s p.1 ∧ Done m K G p.1
  nodup : (P.map Prod.fst).Nodup
  plain : ∀ c, (S.side c).froms = [] ∧ (S.side c).tos = []
  new : ∀ i : Nat, C ≤ i → (S.side (i + (m + 2))).status = .data ∧ (S.side (i + (m + 2))).onList = false
  asleep : ∀ i : Nat, i < A → ¬ Done m K G i → (S.side (i + (m + 2))).status = .passive ∧ (S.side (i + (m + 2))).onList = false
  gone : ∀ i : Nat, Done m K G i → i ∉ P.map Prod.fst → (S.side (i + (m + 2))).status = .data
  kside : ∀ j : Nat, j < m → kside (S.side (j + 2)) (K j)
  cap : (S.queues (.user 1)).cap = ⊤
  mem : (S.queues (.user 1)).mem = (List.range' G (A - G)).map (fun i => ⟨i + (m + 2), 0, arrives d i⟩)
  stays : (S.queues (.user 1)).stays = (List.range G).map (fun i => Desk.starts m (arrives d) s i - arrives d i)
  gmem : (x.mem 1).count = C
  cmem : ∀ j : Nat, j < m → x.mem (j + 2) = kmem m (K j)
  umem0 : ∀ i : Nat, A ≤ i → x.mem (i + (m + 2)) = .start
  umem1 : ∀ i : Nat, i < A → x.mem (i + (m + 2)) = .waiting
  mom0 : ∀ i : Nat, A ≤ i → x.moments (i + (m + 2)) = []
  mom1 : ∀ i : Nat, i < A → (¬ Done m K G i ∨ i ∈ P.map Prod.fst) → x.moments (i + (m + 2)) = [arrives d i]
  mom2 : ∀ i : Nat, Done m K G i → i ∉ P.map Prod.fst → x.moments (i + (m + 2)) = [arrives d i, over m d s i]

theorem bank_gen {k : Mem} : bank m d s n 1 k = generator m d n k := rfl

theorem bank_clerk {j : Nat} {k : Mem} (hj : j < m) : bank m d s n (j + 2) k = clerk m s j k := by
  unfold bank
  rw [if_neg (show ¬ j + 2 = 1 by omega), if_pos (show j + 2 < m + 2 by omega)]; rfl

theorem bank_customer {i : Nat} {k : Mem} : bank m d s n (i + (m + 2)) k = customer m (i + (m + 2)) k := by
  unfold bank
  rw [if_neg (show ¬ i + (m + 2) = 1 by omega), if_neg (show ¬ i + (m + 2) < m + 2 by omega)]

variable {w : World} {S : Abs} {x : Show Mem} {ge : Bool} {C : Nat} {P : List (Nat × Int)}

/-- the generator makes a customer -/
theorem step_make {f : Nat} (hI : Inv m d s n x S false A A G K P) (hd : ∀ i, 0 ≤ d i) (hn : A < n) {e : Ev} {es : List Ev} (hL : Line m d s e.t A G K)
    (hpop : Heapq.heappop Ev.lt S.events = some (e, es))
    (hh : Heapq.IsHeap Ev.lt es) (hc : e.c = 1) (ht : arrives d A = e.t) {qc : Nat → Int} (hes : es.Perm (crew m d s e.t K qc (List.range m) ++ P.map (dep m d s)))
    (hld : ∀ p ∈ P, e.t ≤ over m d s p.1) :
    ∃ x' S', Show.turn f (bank m d s n) x = some x' ∧ Inv m d s n x' S' false (A + 1) A G K P := by
  obtain ⟨w1, e1, s1⟩ := hI.sim.step hpop (by rw [hc]; simp) (hI.plain _).1 (hI.plain _).2
  rw [hc] at s1
  have hnew := hI.new A le_rfl
  have n1 : A + (m + 2) ≠ 1 := by omega
  have n2 : (1 : Nat) ≠ A + (m + 2) := by omega
  obtain ⟨w2, e2, s2⟩ := Clerks.Sim.createIn (d := A + (m + 2)) (f := f) s1 (by rw [s_diff _ _ _ _ n1]; exact hnew.1) (by rw [s_diff _ _ _ _ n1]; exact hnew.2)
  obtain ⟨w3, e3, s3⟩ := s2.hold (c := 1) (t := d A) (f := f) (by simp [Abs.sched, Abs.upd, n2]) (hd A)
  obtain ⟨S3, hS3, s3⟩ : ∃ S3, S3 = _ ∧ Sim w3 S3 := ⟨_, rfl, s3⟩
  have hrun : (bank m d s n 1 (x.mem 1)).run f w1 = some (w3, .made (A + 1)) := by
    rw [bank_gen]
    unfold generator
    rw [hI.gmem, if_pos hn, run_call e2, run_call e3]; rfl
  have hcur : w1.current = 1 := s1.current
  have hside : ∀ c : Nat, c ≠ 1 → c ≠ A + (m + 2) → S3.side c = S.side c := by
    intro c h1 h2; rw [hS3]; simp [Abs.sched, Abs.upd, h1, h2]
  have hpl : ∀ c, (S3.side c).froms = [] ∧ (S3.side c).tos = [] := by
    intro c
    by_cases hc1 : c = 1
    · subst hc1; rw [hS3]; simp [Abs.sched, Abs.upd, hI.plain 1, n1, n2]
    · by_cases hc2 : c = A + (m + 2)
      · subst hc2; rw [hS3]; simp [Abs.sched, Abs.upd, hI.plain (A + (m + 2)), n1, n2]
      · rw [hside c hc1 hc2]; exact hI.plain c
  have hno : S3.now = e.t := by rw [hS3]; rfl
  have hq : S3.queues = S.queues := by rw [hS3]; rfl
  have hga := hL.ga
  have hmo : ∀ i : Nat, Show.moments ⟨w3, fun d => if d = 1 then Mem.made (A + 1) else x.mem d, x.log ++ [(w1.now, 1)]⟩ (i + (m + 2)) = x.moments (i + (m + 2)) := by
    intro i; rw [Clerks.moments_add, if_neg (show ¬ (1 : Nat) = i + (m + 2) by omega)]
  refine ⟨_, _, turn_go e1 hcur hrun,
    { sim := s3, heap := by rw [hS3]; exact Heapq.heappush_isHeap evLaw _ (Heapq.heappush_isHeap evLaw _ hh), ev := ⟨(S.seq + 2 : Nat), (S.seq + 1 : Nat), qc, ?_, by omega⟩
      cn := hn, ac := Nat.le_succ _, ca := le_rfl, gdone := fun h => absurd h (by simp), line := by rw [hno]; exact hL
      gdue := ?_, pdue := ?_
      deps := fun p hp => by rw [hno]; exact ⟨hld p hp, (hI.deps p hp).2⟩, nodup := hI.nodup, plain := hpl
      new := ?_, asleep := ?_, gone := ?_, kside := ?_, cap := by rw [hq]; exact hI.cap, mem := by rw [hq]; exact hI.mem, stays := by rw [hq]; exact hI.stays
      gmem := rfl, cmem := ?_, umem0 := ?_, umem1 := ?_
      mom0 := fun i hi => (hmo i).trans (hI.mom0 i hi), mom1 := fun i hi h => (hmo i).trans (hI.mom1 i hi h), mom2 := fun i hi h => (hmo i).trans (hI.mom2 i hi h) }⟩
  · have h1 : Clerks.gtime d false (A + 1) = some (e.t + d A) := by rw [← ht]; rfl
    have h2 : Clerks.ptime d (A + 1) A = some e.t := by unfold Clerks.ptime; rw [if_pos rfl, ht]
    rw [h1, h2, hno, hS3]
    exact evs_push (evs_push hes)
  · intro t h
    have : arrives d A + d A = t := by simpa [Clerks.gtime, arrives] using h
    rw [← this, ht, hno]; exact le_add_of_nonneg_right (hd A)
  · intro t h
    have : arrives d A = t := by simpa [Clerks.ptime] using h
    rw [← this, ht, hno]
  · intro i hi; rw [hside _ (by omega) (by omega)]; exact hI.new i (by omega)
  · intro i hi hi2; rw [hside _ (by omega) (by omega)]; exact hI.asleep i hi hi2
  · intro i hi hi2
    have := hi.1
    rw [hside _ (by omega) (by omega)]; exact hI.gone i hi hi2
  · intro j hj; rw [hside _ (by omega) (by omega)]; exact hI.kside j hj
  · intro j hj
    show (if j + 2 = 1 then Mem.made (A + 1) else x.mem (j + 2)) = _
    rw [if_neg (by omega)]; exact hI.cmem j hj
  · intro i hi
    show (if i + (m + 2) = 1 then Mem.made (A + 1) else x.mem (i + (m + 2))) = _
    rw [if_neg (by omega)]; exact hI.umem0 i hi
  · intro i hi
    show (if i + (m + 2) = 1 then Mem.made (A + 1) else x.mem (i + (m + 2))) = _
    rw [if_neg (by omega)]; exact hI.umem1 i hi

/-- the generator has made all customers -/
theorem step_gend {f : Nat} (hI : Inv m d s n x S false A A G K P) (hn : A = n) {e : Ev} {es : List Ev} (hL : Line m d s e.t A G K)
    (hpop : Heapq.heappop Ev.lt S.events = some (e, es))
    (hh : Heapq.IsHeap Ev.lt es) (hc : e.c = 1) {qc : Nat → Int} (hes : es.Perm (crew m d s e.t K qc (List.range m) ++ P.map (dep m d s)))
    (hld : ∀ p ∈ P, e.t ≤ over m d s p.1) :
    ∃ x' S', Show.turn f (bank m d s n) x = some x' ∧ Inv m d s n x' S' true A A G K P := by
  obtain ⟨w1, e1, s1⟩ := hI.sim.step hpop (by rw [hc]; simp) (hI.plain _).1 (hI.plain _).2
  rw [hc] at s1
  obtain ⟨w3, e3, s3⟩ := Clerks.Sim.exit (f := f) s1 rfl
  obtain ⟨S3, hS3, s3⟩ : ∃ S3, S3 = _ ∧ Sim w3 S3 := ⟨_, rfl, s3⟩
  have hrun : (bank m d s n 1 (x.mem 1)).run f w1 = some (w3, x.mem 1) := by
    rw [bank_gen]
    unfold generator
    rw [hI.gmem, if_neg (by omega), run_call e3]; rfl
  have hcur : w1.current = 1 := s1.current
  have hside : ∀ c : Nat, c ≠ 1 → S3.side c = S.side c := by
    intro c h1; rw [hS3]; simp [Abs.upd, h1]
  have hpl : ∀ c, (S3.side c).froms = [] ∧ (S3.side c).tos = [] := by
    intro c
    by_cases hc1 : c = 1
    · subst hc1; rw [hS3]; simp [Abs.upd, hI.plain 1]
    · rw [hside c hc1]; exact hI.plain c
  have hno : S3.now = e.t := by rw [hS3]; rfl
  have hq : S3.queues = S.queues := by rw [hS3]; rfl
  have hme : (fun d => if d = 1 then x.mem 1 else x.mem d) = x.mem := by funext d; split <;> simp_all
  have hmo : ∀ i : Nat, Show.moments ⟨w3, fun d => if d = 1 then x.mem 1 else x.mem d, x.log ++ [(w1.now, 1)]⟩ (i + (m + 2)) = x.moments (i + (m + 2)) := by
    intro i; rw [Clerks.moments_add, if_neg (show ¬ (1 : Nat) = i + (m + 2) by omega)]
  refine ⟨_, _, turn_go e1 hcur hrun,
    { sim := s3, heap := by rw [hS3]; exact hh, ev := ⟨1, 0, qc, ?_, by omega⟩
      cn := hI.cn, ac := hI.ac, ca := hI.ca, gdone := fun _ => hn, line := by rw [hno]; exact hL
      gdue := fun t h => absurd h (by simp [Clerks.gtime]), pdue := fun t h => absurd h (by simp [Clerks.ptime])
      deps := fun p hp => by rw [hno]; exact ⟨hld p hp, (hI.deps p hp).2⟩, nodup := hI.nodup, plain := hpl
      new := ?_, asleep := ?_, gone := ?_, kside := ?_, cap := by rw [hq]; exact hI.cap, mem := by rw [hq]; exact hI.mem, stays := by rw [hq]; exact hI.stays
      gmem := hI.gmem, cmem := by rw [hme]; exact hI.cmem, umem0 := by rw [hme]; exact hI.umem0, umem1 := by rw [hme]; exact hI.umem1
      mom0 := fun i hi => (hmo i).trans (hI.mom0 i hi), mom1 := fun i hi h => (hmo i).trans (hI.mom1 i hi h), mom2 := fun i hi h => (hmo i).trans (hI.mom2 i hi h) }⟩
  · have h2 : Clerks.ptime d A A = none := by simp [Clerks.ptime]
    rw [h2, hno, hS3]
    exact hes
  · intro i hi; rw [hside _ (by omega)]; exact hI.new i (by omega)
  · intro i hi hi2; rw [hside _ (by omega)]; exact hI.asleep i hi hi2
  · intro i hi hi2; rw [hside _ (by omega)]; exact hI.gone i hi hi2
  · intro j hj; rw [hside _ (by omega)]; exact hI.kside j hj

/-- what an arrival does to the waiting line -/
theorem line_enter (hI : Inv m d s n x S ge C A G K P) (t : Rat) (ht : t = arrives d A) :
    (∀ q ∈ (S.queues (.user 1)).mem, q.prio = 0 ∧ q.c ≠ A + (m + 2)) ∧
    (enq (A + (m + 2)) t (S.queues (.user 1))).mem = (List.range' G (A + 1 - G)).map (fun i => ⟨i + (m + 2), 0, arrives d i⟩) := by
  constructor
  · rw [hI.mem]
    intro q hq
    obtain ⟨i, h1, h2, rfl⟩ := range'_mem_map hq
    exact ⟨rfl, by show i + (m + 2) ≠ A + (m + 2); omega⟩
  · show (S.queues (.user 1)).mem ++ [_] = _
    rw [hI.mem, range_snoc hI.line.ga, List.map_append, ht]; rfl

theorem run_look {f : Nat} {g : World → Prog Mem} : (Prog.look g).run f w = (g w).run f w := rfl

theorem ring_none {f : Nat} {c : CId} {l : List Nat} (h : ∀ j ∈ l, w.status (j + 2) ≠ .passive) :
    (ring c l).run f w = (Prog.call (.passivate c) (.stop Mem.waiting)).run f w := by
  induction l with
  | nil => rfl
  | cons j l ih =>
    unfold ring
    rw [run_look, if_neg (h j (List.mem_cons_self ..))]
    exact ih fun k hk => h k (List.mem_cons_of_mem _ hk)

theorem ring_some {f : Nat} {c : CId} {l : List Nat} (h : ∃ j ∈ l, w.status (j + 2) = .passive) :
    ∃ j ∈ l, w.status (j + 2) = .passive ∧
      (ring c l).run f w = (Prog.call (.activate (j + 2) none (0 : Rat) (0 : Rat) false false false false false) (.call (.passivate c) (.stop Mem.waiting))).run f w := by
  induction l with
  | nil => obtain ⟨j, hj, _⟩ := h; simp at hj
  | cons j l ih =>
    by_cases hp : w.status (j + 2) = .passive
    · refine ⟨j, List.mem_cons_self .., hp, ?_⟩
      unfold ring
      rw [run_look, if_pos hp]
    · obtain ⟨k, hk, hk2, hk3⟩ := ih (by
        obtain ⟨k, hk, hk2⟩ := h
        rcases List.mem_cons.mp hk with e | e
        · rw [e] at hk2; exact absurd hk2 hp
        · exact ⟨k, e, hk2⟩)
      refine ⟨k, List.mem_cons_of_mem _ hk, hk2, ?_⟩
      rw [← hk3]
      conv_lhs => unfold ring
      rw [run_look, if_neg hp]

/-- an arrival, no clerk being passive -/
theorem step_arrive {f : Nat} (hI : Inv m d s n x S ge (A + 1) A G K P) (hK : ∀ j : Nat, j < m → K j ≠ .passive) {e : Ev} {es : List Ev} (hL : Line m d s e.t A G K)
    (hpop : Heapq.heappop Ev.lt S.events = some (e, es))
    (hh : Heapq.IsHeap Ev.lt es) (hc : e.c = A + (m + 2)) (ht : arrives d A = e.t) {qg : Int} {qc : Nat → Int}
    (hes : es.Perm (evs (Clerks.gtime d ge (A + 1)) 1 qg none ++ (crew m d s e.t K qc (List.range m) ++ P.map (dep m d s))))
    (hlg : ∀ t, Clerks.gtime d ge (A + 1) = some t → e.t ≤ t) (hld : ∀ p ∈ P, e.t ≤ over m d s p.1) :
    ∃ x' S', Show.turn f (bank m d s n) x = some x' ∧ Inv m d s n x' S' ge (A + 1) (A + 1) G K P := by
  have hga := hL.ga
  obtain ⟨w1, e1, s1⟩ := hI.sim.step hpop (by rw [hc]; exact Nat.succ_ne_zero _) (hI.plain _).1 (hI.plain _).2
  rw [hc] at s1
  obtain ⟨hm1, hm2⟩ := line_enter hI e.t ht.symm
  obtain ⟨w2, e2, s2⟩ := Clerks.Sim.enterLine (c := A + (m + 2)) (k := 1) (f := f) s1 hI.cap hm1
  obtain ⟨w3, e3, s3⟩ := Clerks.Sim.passivate (c := A + (m + 2)) (f := f) s2 (by simp [Abs.queue, Abs.upd])
  obtain ⟨S3, hS3, s3⟩ : ∃ S3, S3 = _ ∧ Sim w3 S3 := ⟨_, rfl, s3⟩
  have hks : ∀ j ∈ List.range m, w2.status (j + 2) ≠ .passive := by
    intro j hj
    have hj := List.mem_range.mp hj
    have : (S.side (j + 2)).status ≠ .passive := by
      have h1 := hI.kside j hj
      have h2 := hK j hj
      cases hKj : K j <;> rw [hKj] at h1 h2 <;> simp_all [kside]
    unfold World.status
    rw [(s2.side (j + 2)).status]
    have n1 : j + 2 ≠ A + (m + 2) := by omega
    simpa [Abs.queue, Abs.upd, n1] using this
  have hrun : (bank m d s n (A + (m + 2)) (x.mem (A + (m + 2)))).run f w1 = some (w3, .waiting) := by
    rw [bank_customer, hI.umem0 A le_rfl]
    unfold customer
    rw [run_call e2, ring_none hks, run_call e3]; rfl
  have hcur : w1.current = A + (m + 2) := s1.current
  have hside : ∀ c : Nat, c ≠ A + (m + 2) → S3.side c = S.side c := by
    intro c h1; rw [hS3]; simp [Abs.upd, Abs.queue, h1]
  have hme : (S3.side (A + (m + 2))).status = .passive ∧ (S3.side (A + (m + 2))).onList = false := by
    rw [hS3]; simp [Abs.upd, Abs.queue]
  have hpl : ∀ c, (S3.side c).froms = [] ∧ (S3.side c).tos = [] := by
    intro c
    by_cases hc1 : c = A + (m + 2)
    · subst hc1; rw [hS3]; simp [Abs.upd, Abs.queue, hI.plain (A + (m + 2))]
    · rw [hside c hc1]; exact hI.plain c
  have hno : S3.now = e.t := by rw [hS3]; rfl
  have hq : S3.queues (.user 1) = enq (A + (m + 2)) e.t (S.queues (.user 1)) := by rw [hS3]; simp [Abs.upd, Abs.queue]
  have hmo : ∀ i : Nat, i ≠ A → Show.moments ⟨w3, fun d => if d = A + (m + 2) then Mem.waiting else x.mem d, x.log ++ [(w1.now, A + (m + 2))]⟩ (i + (m + 2)) = x.moments (i + (m + 2)) := by
    intro i hi; rw [Clerks.moments_add, if_neg (show ¬ A + (m + 2) = i + (m + 2) by omega)]
  refine ⟨_, _, turn_go e1 hcur hrun,
    { sim := s3, heap := by rw [hS3]; exact hh, ev := ⟨qg, qg - 1, qc, ?_, by omega⟩
      cn := hI.cn, ac := le_rfl, ca := by omega, gdone := hI.gdone, line := by rw [hno]; exact hL.arrive ht hK
      gdue := by rw [hno]; exact hlg, pdue := fun t h => absurd h (by simp [Clerks.ptime])
      deps := fun p hp => by rw [hno]; exact ⟨hld p hp, (hI.deps p hp).2⟩, nodup := hI.nodup, plain := hpl
      new := ?_, asleep := ?_, gone := ?_, kside := ?_, cap := by rw [hq]; exact hI.cap, mem := by rw [hq]; exact hm2, stays := by rw [hq]; exact hI.stays
      gmem := ?_, cmem := ?_, umem0 := ?_, umem1 := ?_
      mom0 := fun i hi => (hmo i (by omega)).trans (hI.mom0 i (by omega)), mom1 := ?_
      mom2 := fun i hi h => (hmo i (by have := hi.1; omega)).trans (hI.mom2 i hi h) }⟩
  · have h2 : Clerks.ptime d (A + 1) (A + 1) = none := by simp [Clerks.ptime]
    rw [h2, hno, hS3]
    exact hes
  · intro i hi; rw [hside _ (by omega)]; exact hI.new i (by omega)
  · intro i hi hi2
    by_cases h : i = A
    · rw [h]; exact hme
    · rw [hside _ (by omega)]; exact hI.asleep i (by omega) hi2
  · intro i hi hi2
    have := hi.1
    rw [hside _ (by omega)]; exact hI.gone i hi hi2
  · intro j hj; rw [hside _ (by omega)]; exact hI.kside j hj
  · show (if (1 : Nat) = A + (m + 2) then Mem.waiting else x.mem 1).count = _
    rw [if_neg (by omega)]; exact hI.gmem
  · intro j hj
    show (if j + 2 = A + (m + 2) then Mem.waiting else x.mem (j + 2)) = _
    rw [if_neg (by omega)]; exact hI.cmem j hj
  · intro i hi
    show (if i + (m + 2) = A + (m + 2) then Mem.waiting else x.mem (i + (m + 2))) = _
    rw [if_neg (by omega)]; exact hI.umem0 i (by omega)
  · intro i hi
    show (if i + (m + 2) = A + (m + 2) then Mem.waiting else x.mem (i + (m + 2))) = _
    split
    · rfl
    · exact hI.umem1 i (by omega)
  · intro i hi h
    by_cases e : i = A
    · subst e
      rw [Clerks.moments_add, if_pos rfl, hI.mom0 i le_rfl, s1.now, ht]; rfl
    · exact (hmo i e).trans (hI.mom1 i (by omega) h)

/-- an arrival, a clerk being passive -/
theorem step_wake {f : Nat} (hI : Inv m d s n x S ge (A + 1) A G K P) (hK : ∃ j : Nat, j < m ∧ K j = .passive) {e : Ev} {es : List Ev} (hL : Line m d s e.t A G K)
    (hpop : Heapq.heappop Ev.lt S.events = some (e, es))
    (hh : Heapq.IsHeap Ev.lt es) (hc : e.c = A + (m + 2)) (ht : arrives d A = e.t) {qg : Int} {qc : Nat → Int}
    (hes : es.Perm (evs (Clerks.gtime d ge (A + 1)) 1 qg none ++ (crew m d s e.t K qc (List.range m) ++ P.map (dep m d s))))
    (hlg : ∀ t, Clerks.gtime d ge (A + 1) = some t → e.t ≤ t) (hld : ∀ p ∈ P, e.t ≤ over m d s p.1) :
    ∃ x' S' j, j < m ∧ K j = .passive ∧ Show.turn f (bank m d s n) x = some x' ∧ Inv m d s n x' S' ge (A + 1) (A + 1) G (Function.update K j .ready) P := by
  have hga := hL.ga
  obtain ⟨w1, e1, s1⟩ := hI.sim.step hpop (by rw [hc]; exact Nat.succ_ne_zero _) (hI.plain _).1 (hI.plain _).2
  rw [hc] at s1
  obtain ⟨hm1, hm2⟩ := line_enter hI e.t ht.symm
  obtain ⟨w2, e2, s2⟩ := Clerks.Sim.enterLine (c := A + (m + 2)) (k := 1) (f := f) s1 hI.cap hm1
  have hws : ∀ j : Nat, j < m → (w2.status (j + 2) = .passive ↔ K j = .passive) := by
    intro j hj
    unfold World.status
    rw [(s2.side (j + 2)).status]
    have n1 : j + 2 ≠ A + (m + 2) := by omega
    have h1 := hI.kside j hj
    simp only [Abs.queue, Abs.upd, n1, if_false]
    cases hKj : K j <;> rw [hKj] at h1 <;> simp_all [kside]
  obtain ⟨j, hj, hjp, hring⟩ := ring_some (w := w2) (f := f) (c := A + (m + 2)) (l := List.range m) (by
    obtain ⟨j, hj, hKj⟩ := hK
    exact ⟨j, List.mem_range.mpr hj, (hws j hj).mpr hKj⟩)
  have hj := List.mem_range.mp hj
  have hKj := (hws j hj).mp hjp
  have n1 : j + 2 ≠ A + (m + 2) := by omega
  have n2 : A + (m + 2) ≠ j + 2 := by omega
  have hk : (S.side (j + 2)).status = .passive ∧ (S.side (j + 2)).onList = false := by
    have := hI.kside j hj
    rwa [hKj] at this
  have hS2 : ((Abs.upd { S with now := e.t, events := es, current := A + (m + 2) } (A + (m + 2)) { S.side (A + (m + 2)) with onList := false, status := .current }).queue (.user 1)
      (enq (A + (m + 2)) e.t (S.queues (.user 1)))).side (j + 2) = S.side (j + 2) := by simp [Abs.queue, Abs.upd, n1]
  obtain ⟨w4, e4, s4⟩ := Clerks.Sim.activate (c := j + 2) (f := f) s2 (hS2 ▸ hk.1) (hS2 ▸ hk.2) (hS2 ▸ (hI.plain _).1) (hS2 ▸ (hI.plain _).2)
  obtain ⟨w3, e3, s3⟩ := Clerks.Sim.passivate (c := A + (m + 2)) (f := f) s4 (by simp [Abs.queue, Abs.upd, Abs.sched, n2])
  obtain ⟨S3, hS3, s3⟩ : ∃ S3, S3 = _ ∧ Sim w3 S3 := ⟨_, rfl, s3⟩
  have hrun : (bank m d s n (A + (m + 2)) (x.mem (A + (m + 2)))).run f w1 = some (w3, .waiting) := by
    rw [bank_customer, hI.umem0 A le_rfl]
    unfold customer
    rw [run_call e2, hring, run_call e4, run_call e3]; rfl
  have hcur : w1.current = A + (m + 2) := s1.current
  have hside : ∀ c : Nat, c ≠ A + (m + 2) → c ≠ j + 2 → S3.side c = S.side c := by
    intro c h1 h2; rw [hS3]; simp [Abs.upd, Abs.queue, Abs.sched, h1, h2]
  have hme : (S3.side (A + (m + 2))).status = .passive ∧ (S3.side (A + (m + 2))).onList = false := by
    rw [hS3]; simp [Abs.upd, Abs.queue, Abs.sched, n2]
  have hcl : (S3.side (j + 2)).status = .scheduled := by
    rw [hS3]; simp [Abs.upd, Abs.queue, Abs.sched, n1]
  have hpl : ∀ c, (S3.side c).froms = [] ∧ (S3.side c).tos = [] := by
    intro c
    by_cases hc1 : c = A + (m + 2)
    · subst hc1; rw [hS3]; simp [Abs.upd, Abs.queue, Abs.sched, hI.plain (A + (m + 2)), n2]
    · by_cases hc2 : c = j + 2
      · subst hc2; rw [hS3]; simp [Abs.upd, Abs.queue, Abs.sched, hI.plain (j + 2), n1]
      · rw [hside c hc1 hc2]; exact hI.plain c
  have hno : S3.now = e.t := by rw [hS3]; rfl
  have hq : S3.queues (.user 1) = enq (A + (m + 2)) e.t (S.queues (.user 1)) := by rw [hS3]; simp [Abs.upd, Abs.queue, Abs.sched]
  have hdn : ∀ i, Done m (Function.update K j .ready) G i ↔ Done m K G i := done_same (by rw [hKj]; simp) (by simp)
  have hmo : ∀ i : Nat, i ≠ A → Show.moments ⟨w3, fun d => if d = A + (m + 2) then Mem.waiting else x.mem d, x.log ++ [(w1.now, A + (m + 2))]⟩ (i + (m + 2)) = x.moments (i + (m + 2)) := by
    intro i hi; rw [Clerks.moments_add, if_neg (show ¬ A + (m + 2) = i + (m + 2) by omega)]
  refine ⟨_, _, j, hj, hKj, turn_go e1 hcur hrun,
    { sim := s3, heap := by rw [hS3]; exact Heapq.heappush_isHeap evLaw _ hh, ev := ⟨qg, qg - 1, Function.update qc j (S.seq + 1 : Nat), ?_, by omega⟩
      cn := hI.cn, ac := le_rfl, ca := by omega, gdone := hI.gdone, line := by rw [hno]; exact hL.wake ht hj hKj
      gdue := by rw [hno]; exact hlg, pdue := fun t h => absurd h (by simp [Clerks.ptime])
      deps := fun p hp => by rw [hno]; exact ⟨hld p hp, (hdn _).mpr (hI.deps p hp).2⟩, nodup := hI.nodup, plain := hpl
      new := ?_, asleep := ?_, gone := ?_, kside := ?_, cap := by rw [hq]; exact hI.cap, mem := by rw [hq]; exact hm2, stays := by rw [hq]; exact hI.stays
      gmem := ?_, cmem := ?_, umem0 := ?_, umem1 := ?_
      mom0 := fun i hi => (hmo i (by omega)).trans (hI.mom0 i (by omega)), mom1 := ?_
      mom2 := fun i hi h => (hmo i (by have := hi.1; omega)).trans (hI.mom2 i ((hdn i).mp hi) h) }⟩
  · have h2 : Clerks.ptime d (A + 1) (A + 1) = none := by simp [Clerks.ptime]
    rw [h2, hno, hS3]
    refine (evs_push hes).trans ((List.perm_append_comm_assoc _ _ _).trans (List.Perm.append_left _ ?_))
    show List.Perm _ (crew m d s e.t (Function.update K j .ready) (Function.update qc j (S.seq + 1 : Nat)) (List.range m) ++ _)
    refine List.Perm.trans ?_ ((crew_upd hj K qc .ready _).symm.append_right _)
    rw [List.append_assoc]
    refine List.Perm.append_left _ (List.Perm.append_right _ ?_)
    have := crew_hole (d := d) (s := s) (now := e.t) hj K qc
    rw [hKj] at this
    exact this
  · intro i hi; rw [hside _ (by omega) (by omega)]; exact hI.new i (by omega)
  · intro i hi hi2
    by_cases h : i = A
    · rw [h]; exact hme
    · rw [hside _ (by omega) (by omega)]; exact hI.asleep i (by omega) (fun h => hi2 ((hdn i).mpr h))
  · intro i hi hi2
    have := hi.1
    rw [hside _ (by omega) (by omega)]; exact hI.gone i ((hdn i).mp hi) hi2
  · intro k hk
    by_cases h : k = j
    · rw [h, upd_same]; exact hcl
    · rw [upd_ne K _ h, hside _ (by omega) (by omega)]; exact hI.kside k hk
  · show (if (1 : Nat) = A + (m + 2) then Mem.waiting else x.mem 1).count = _
    rw [if_neg (by omega)]; exact hI.gmem
  · intro k hk
    show (if k + 2 = A + (m + 2) then Mem.waiting else x.mem (k + 2)) = _
    rw [if_neg (by omega), hI.cmem k hk]
    by_cases h : k = j
    · rw [h, upd_same, hKj]; rfl
    · rw [upd_ne K _ h]
  · intro i hi
    show (if i + (m + 2) = A + (m + 2) then Mem.waiting else x.mem (i + (m + 2))) = _
    rw [if_neg (by omega)]; exact hI.umem0 i (by omega)
  · intro i hi
    show (if i + (m + 2) = A + (m + 2) then Mem.waiting else x.mem (i + (m + 2))) = _
    split
    · rfl
    · exact hI.umem1 i (by omega)
  · intro i hi h
    by_cases e : i = A
    · subst e
      rw [Clerks.moments_add, if_pos rfl, hI.mom0 i le_rfl, s1.now, ht]; rfl
    · refine (hmo i e).trans (hI.mom1 i (by omega) ?_)
      rwa [hdn] at h

theorem loop_take {j f : Nat} (h : Sim w S) (hst : (S.side (j + 2)).status = .current) {q : QMem} {l : List QMem} (hm : (S.queues (.user 1)).mem = q :: l) (hs : 0 ≤ s (q.c - (m + 2))) :
    ∃ w', (loop m s j).run f w = some (w', .serving q.c) ∧ Sim w' ((S.queue (.user 1) (deq S.now q l (S.queues (.user 1)))).sched (j + 2) (S.now + s (q.c - (m + 2))) none) := by
  obtain ⟨w1, e1, s1⟩ := Clerks.Sim.leaveLine (k := 1) (f := f) h hm rfl
  obtain ⟨w2, e2, s2⟩ := s1.hold (c := j + 2) (t := s (q.c - (m + 2))) (f := f) hst hs
  refine ⟨w2, ?_, s2⟩
  unfold loop
  have : w.inQ (.user 1) = q.c :: l.map (·.c) := by unfold World.inQ; rw [h.queues, hm]; rfl
  rw [Prog.run, this]
  simp only
  rw [run_call e1, run_call e2]; rfl

theorem loop_rest {j f : Nat} (h : Sim w S) (hst : (S.side (j + 2)).status = .current) (hm : (S.queues (.user 1)).mem = []) :
    ∃ w', (loop m s j).run f w = some (w', .start) ∧ Sim w' (S.upd (j + 2) { S.side (j + 2) with status := .passive }) := by
  obtain ⟨w2, e2, s2⟩ := Clerks.Sim.passivate (c := j + 2) (f := f) h hst
  refine ⟨w2, ?_, s2⟩
  unfold loop
  have : w.inQ (.user 1) = [] := by unfold World.inQ; rw [h.queues, hm]; rfl
  rw [Prog.run, this]
  simp only
  rw [run_call e2]; rfl

/-- what a clerk takes out of the waiting line -/
theorem line_leave (hI : Inv m d s n x S ge C A G K P) (hg : G < A) (t : Rat) (ht : t = Desk.starts m (arrives d) s G) :
    ∃ q l, (S.queues (.user 1)).mem = q :: l ∧ q.c = G + (m + 2) ∧ (deq t q l (S.queues (.user 1))).mem = (List.range' (G + 1) (A - (G + 1))).map (fun i => ⟨i + (m + 2), 0, arrives d i⟩) ∧
      (deq t q l (S.queues (.user 1))).stays = (List.range (G + 1)).map (fun i => Desk.starts m (arrives d) s i - arrives d i) := by
  refine ⟨⟨G + (m + 2), 0, arrives d G⟩, (List.range' (G + 1) (A - (G + 1))).map (fun i => ⟨i + (m + 2), 0, arrives d i⟩), ?_, rfl, rfl, ?_⟩
  · rw [hI.mem, range_cons hg]; rfl
  · show (S.queues (.user 1)).stays ++ [_] = _
    rw [hI.stays, List.range_succ, List.map_append, ht]; rfl

/-- a clerk begins a service, after having been waken up -/
theorem step_begin {f j : Nat} (hI : Inv m d s n x S ge C A G K P) (hd : ∀ i, 0 ≤ d i) (hs : ∀ i, 0 ≤ s i) (hg : G < A) (hj : j < m) (hK : K j = .ready) {e : Ev} {es : List Ev}
    (hL : Line m d s e.t A G K) (hpop : Heapq.heappop Ev.lt S.events = some (e, es)) (hh : Heapq.IsHeap Ev.lt es) (hc : e.c = j + 2) {qg qp : Int} {qc : Nat → Int}
    (hes : es.Perm (evs (Clerks.gtime d ge C) 1 qg none ++ (evs (Clerks.ptime d C A) (A + (m + 2)) qp none ++ (crew m d s e.t K qc (others m j) ++ P.map (dep m d s))))) (hqq : qp < qg)
    (hlg : ∀ t, Clerks.gtime d ge C = some t → e.t ≤ t) (hlp : ∀ t, Clerks.ptime d C A = some t → e.t ≤ t) (hld : ∀ p ∈ P, e.t ≤ over m d s p.1) :
    ∃ x' S', Show.turn f (bank m d s n) x = some x' ∧ Inv m d s n x' S' ge C A (G + 1) (Function.update K j (.busy G)) P := by
  obtain ⟨hb, hL'⟩ := hL.begin hd hs hj (by rw [hK]; rfl) hg
  obtain ⟨w1, e1, s1⟩ := hI.sim.step hpop (by rw [hc]; simp) (hI.plain _).1 (hI.plain _).2
  rw [hc] at s1
  obtain ⟨q, l, hm, hmc, hm1, hm2⟩ := line_leave hI hg e.t hb.symm
  obtain ⟨w3, e3, s3⟩ := loop_take (m := m) (s := s) (j := j) (f := f) s1 (by simp [Abs.upd]) hm (hs _)
  obtain ⟨S3, hS3, s3⟩ : ∃ S3, S3 = _ ∧ Sim w3 S3 := ⟨_, rfl, s3⟩
  have hm3 : q.c - (m + 2) = G := by rw [hmc]; exact Nat.add_sub_cancel ..
  rw [hmc] at e3
  rw [hm3] at hS3
  have hrun : (bank m d s n (j + 2) (x.mem (j + 2))).run f w1 = some (w3, .serving (G + (m + 2))) := by
    rw [bank_clerk hj, hI.cmem j hj, hK]
    exact e3
  have hcur : w1.current = j + 2 := s1.current
  have hside : ∀ c : Nat, c ≠ j + 2 → S3.side c = S.side c := by
    intro c h1; rw [hS3]; simp [Abs.upd, Abs.queue, Abs.sched, h1]
  have hcl : (S3.side (j + 2)).status = .scheduled := by
    rw [hS3]; simp [Abs.upd, Abs.queue, Abs.sched]
  have hpl : ∀ c, (S3.side c).froms = [] ∧ (S3.side c).tos = [] := by
    intro c
    by_cases hc2 : c = j + 2
    · subst hc2; rw [hS3]; simp [Abs.upd, Abs.queue, Abs.sched, hI.plain (j + 2)]
    · rw [hside c hc2]; exact hI.plain c
  have hno : S3.now = e.t := by rw [hS3]; rfl
  have hq : S3.queues (.user 1) = deq e.t q l (S.queues (.user 1)) := by rw [hS3]; simp [Abs.upd, Abs.queue, Abs.sched]
  have hct : ctime m d s e.t (.busy G) = some (e.t + s G) := by show some (Desk.starts m (arrives d) s G + s G) = _; rw [hb]
  have hdn : ∀ i, Done m (Function.update K j (.busy G)) (G + 1) i ↔ Done m K G i := done_begin hj (by rw [hK]; simp) (fun k hk i h => (hL.busy k hk i h).2)
  have hmo : ∀ i : Nat, Show.moments ⟨w3, fun d => if d = j + 2 then Mem.serving (G + (m + 2)) else x.mem d, x.log ++ [(w1.now, j + 2)]⟩ (i + (m + 2)) = x.moments (i + (m + 2)) := by
    intro i; rw [Clerks.moments_add, if_neg (show ¬ j + 2 = i + (m + 2) by omega)]
  refine ⟨_, _, turn_go e1 hcur hrun,
    { sim := s3, heap := by rw [hS3]; exact Heapq.heappush_isHeap evLaw _ hh, ev := ⟨qg, qp, Function.update qc j (S.seq + 1 : Nat), ?_, hqq⟩
      cn := hI.cn, ac := hI.ac, ca := hI.ca, gdone := hI.gdone, line := by rw [hno]; exact hL'
      gdue := by rw [hno]; exact hlg, pdue := by rw [hno]; exact hlp
      deps := fun p hp => by rw [hno]; exact ⟨hld p hp, (hdn _).mpr (hI.deps p hp).2⟩, nodup := hI.nodup, plain := hpl
      new := ?_, asleep := ?_, gone := ?_, kside := ?_, cap := by rw [hq]; exact hI.cap, mem := by rw [hq]; exact hm1, stays := by rw [hq]; exact hm2
      gmem := ?_, cmem := ?_, umem0 := ?_, umem1 := ?_
      mom0 := fun i hi => (hmo i).trans (hI.mom0 i hi), mom1 := fun i hi h => (hmo i).trans (hI.mom1 i hi (by rwa [hdn] at h))
      mom2 := fun i hi h => (hmo i).trans (hI.mom2 i ((hdn i).mp hi) h) }⟩
  · rw [hno, hS3]
    refine (perm3 (evs_push hes)).trans (List.Perm.append_left _ (List.Perm.append_left _ ?_))
    refine List.Perm.trans ?_ ((crew_upd hj K qc (.busy G) _).symm.append_right _)
    rw [List.append_assoc, hct]
    exact List.Perm.refl _
  · intro i hi; rw [hside _ (by omega)]; exact hI.new i (by omega)
  · intro i hi hi2
    rw [hside _ (by omega)]; exact hI.asleep i hi (fun h => hi2 ((hdn i).mpr h))
  · intro i hi hi2
    rw [hside _ (by omega)]; exact hI.gone i ((hdn i).mp hi) hi2
  · intro k hk
    by_cases h : k = j
    · rw [h, upd_same]; exact hcl
    · rw [upd_ne K _ h, hside _ (by omega)]; exact hI.kside k hk
  · show (if (1 : Nat) = j + 2 then Mem.serving (G + (m + 2)) else x.mem 1).count = _
    rw [if_neg (by omega)]; exact hI.gmem
  · intro k hk
    show (if k + 2 = j + 2 then Mem.serving (G + (m + 2)) else x.mem (k + 2)) = _
    by_cases h : k = j
    · rw [h, upd_same, if_pos rfl]; rfl
    · rw [upd_ne K _ h, if_neg (by omega)]; exact hI.cmem k hk
  · intro i hi
    show (if i + (m + 2) = j + 2 then Mem.serving (G + (m + 2)) else x.mem (i + (m + 2))) = _
    rw [if_neg (by omega)]; exact hI.umem0 i hi
  · intro i hi
    show (if i + (m + 2) = j + 2 then Mem.serving (G + (m + 2)) else x.mem (i + (m + 2))) = _
    rw [if_neg (by omega)]; exact hI.umem1 i hi

/-- a clerk that was waken up, or has just been made, finds nobody -/
theorem step_rest {f j : Nat} (hI : Inv m d s n x S ge C A A K P) (hj : j < m) (hK : K j = .ready) {e : Ev} {es : List Ev}
    (hL : Line m d s e.t A A K) (hpop : Heapq.heappop Ev.lt S.events = some (e, es)) (hh : Heapq.IsHeap Ev.lt es) (hc : e.c = j + 2) {qg qp : Int} {qc : Nat → Int}
    (hes : es.Perm (evs (Clerks.gtime d ge C) 1 qg none ++ (evs (Clerks.ptime d C A) (A + (m + 2)) qp none ++ (crew m d s e.t K qc (others m j) ++ P.map (dep m d s))))) (hqq : qp < qg)
    (hlg : ∀ t, Clerks.gtime d ge C = some t → e.t ≤ t) (hlp : ∀ t, Clerks.ptime d C A = some t → e.t ≤ t) (hld : ∀ p ∈ P, e.t ≤ over m d s p.1) :
    ∃ x' S', Show.turn f (bank m d s n) x = some x' ∧ Inv m d s n x' S' ge C A A (Function.update K j .passive) P := by
  have hL' := hL.rest (j := j) (by rw [hK]; rfl)
  obtain ⟨w1, e1, s1⟩ := hI.sim.step hpop (by rw [hc]; simp) (hI.plain _).1 (hI.plain _).2
  rw [hc] at s1
  obtain ⟨w3, e3, s3⟩ := loop_rest (m := m) (s := s) (j := j) (f := f) s1 (by simp [Abs.upd]) (by show (S.queues (.user 1)).mem = []; rw [hI.mem]; simp)
  obtain ⟨S3, hS3, s3⟩ : ∃ S3, S3 = _ ∧ Sim w3 S3 := ⟨_, rfl, s3⟩
  have hrun : (bank m d s n (j + 2) (x.mem (j + 2))).run f w1 = some (w3, .start) := by
    rw [bank_clerk hj, hI.cmem j hj, hK]
    exact e3
  have hcur : w1.current = j + 2 := s1.current
  have hside : ∀ c : Nat, c ≠ j + 2 → S3.side c = S.side c := by
    intro c h1; rw [hS3]; simp [Abs.upd, h1]
  have hcl : (S3.side (j + 2)).status = .passive ∧ (S3.side (j + 2)).onList = false := by
    rw [hS3]; simp [Abs.upd]
  have hpl : ∀ c, (S3.side c).froms = [] ∧ (S3.side c).tos = [] := by
    intro c
    by_cases hc2 : c = j + 2
    · subst hc2; rw [hS3]; simp [Abs.upd, hI.plain (j + 2)]
    · rw [hside c hc2]; exact hI.plain c
  have hno : S3.now = e.t := by rw [hS3]; rfl
  have hq : S3.queues = S.queues := by rw [hS3]; rfl
  have hdn : ∀ i, Done m (Function.update K j .passive) A i ↔ Done m K A i := done_same (by rw [hK]; simp) (by simp)
  have hmo : ∀ i : Nat, Show.moments ⟨w3, fun d => if d = j + 2 then Mem.start else x.mem d, x.log ++ [(w1.now, j + 2)]⟩ (i + (m + 2)) = x.moments (i + (m + 2)) := by
    intro i; rw [Clerks.moments_add, if_neg (show ¬ j + 2 = i + (m + 2) by omega)]
  refine ⟨_, _, turn_go e1 hcur hrun,
    { sim := s3, heap := by rw [hS3]; exact hh, ev := ⟨qg, qp, Function.update qc j 0, ?_, hqq⟩
      cn := hI.cn, ac := hI.ac, ca := hI.ca, gdone := hI.gdone, line := by rw [hno]; exact hL'
      gdue := by rw [hno]; exact hlg, pdue := by rw [hno]; exact hlp
      deps := fun p hp => by rw [hno]; exact ⟨hld p hp, (hdn _).mpr (hI.deps p hp).2⟩, nodup := hI.nodup, plain := hpl
      new := ?_, asleep := ?_, gone := ?_, kside := ?_, cap := by rw [hq]; exact hI.cap, mem := by rw [hq]; exact hI.mem, stays := by rw [hq]; exact hI.stays
      gmem := ?_, cmem := ?_, umem0 := ?_, umem1 := ?_
      mom0 := fun i hi => (hmo i).trans (hI.mom0 i hi), mom1 := fun i hi h => (hmo i).trans (hI.mom1 i hi (by rwa [hdn] at h))
      mom2 := fun i hi h => (hmo i).trans (hI.mom2 i ((hdn i).mp hi) h) }⟩
  · rw [hno, hS3]
    refine hes.trans (List.Perm.append_left _ (List.Perm.append_left _ (List.Perm.append_right _ ?_)))
    exact (crew_upd hj K qc .passive _).symm
  · intro i hi; rw [hside _ (by omega)]; exact hI.new i (by omega)
  · intro i hi hi2
    rw [hside _ (by omega)]; exact hI.asleep i hi (fun h => hi2 ((hdn i).mpr h))
  · intro i hi hi2
    rw [hside _ (by omega)]; exact hI.gone i ((hdn i).mp hi) hi2
  · intro k hk
    by_cases h : k = j
    · rw [h, upd_same]; exact hcl
    · rw [upd_ne K _ h, hside _ (by omega)]; exact hI.kside k hk
  · show (if (1 : Nat) = j + 2 then Mem.start else x.mem 1).count = _
    rw [if_neg (by omega)]; exact hI.gmem
  · intro k hk
    show (if k + 2 = j + 2 then Mem.start else x.mem (k + 2)) = _
    by_cases h : k = j
    · rw [h, upd_same, if_pos rfl]; rfl
    · rw [upd_ne K _ h, if_neg (by omega)]; exact hI.cmem k hk
  · intro i hi
    show (if i + (m + 2) = j + 2 then Mem.start else x.mem (i + (m + 2))) = _
    rw [if_neg (by omega)]; exact hI.umem0 i hi
  · intro i hi
    show (if i + (m + 2) = j + 2 then Mem.start else x.mem (i + (m + 2))) = _
    rw [if_neg (by omega)]; exact hI.umem1 i hi

/-- a clerk ends a service and begins the next one -/
theorem step_next {f j g : Nat} (hI : Inv m d s n x S ge C A G K P) (hd : ∀ i, 0 ≤ d i) (hs : ∀ i, 0 ≤ s i) (hg : G < A) (hj : j < m) (hK : K j = .busy g) {e : Ev} {es : List Ev}
    (hL : Line m d s e.t A G K) (hpop : Heapq.heappop Ev.lt S.events = some (e, es)) (hh : Heapq.IsHeap Ev.lt es) (hc : e.c = j + 2) (ht : over m d s g = e.t) {qg qp : Int} {qc : Nat → Int}
    (hes : es.Perm (evs (Clerks.gtime d ge C) 1 qg none ++ (evs (Clerks.ptime d C A) (A + (m + 2)) qp none ++ (crew m d s e.t K qc (others m j) ++ P.map (dep m d s))))) (hqq : qp < qg)
    (hlg : ∀ t, Clerks.gtime d ge C = some t → e.t ≤ t) (hlp : ∀ t, Clerks.ptime d C A = some t → e.t ≤ t) (hld : ∀ p ∈ P, e.t ≤ over m d s p.1) :
    ∃ x' S' q, Show.turn f (bank m d s n) x = some x' ∧ Inv m d s n x' S' ge C A (G + 1) (Function.update K j (.busy G)) ((g, q) :: P) := by
  obtain ⟨hb, hL'⟩ := hL.begin hd hs hj (by rw [hK]; exact ht) hg
  have hgG := (hL.busy j hj g hK).2
  have hga := hL.ga
  have hac := hI.ac
  have hnd : ¬ Done m K G g := fun h => h.2 j hj hK
  obtain ⟨w1, e1, s1⟩ := hI.sim.step hpop (by rw [hc]; simp) (hI.plain _).1 (hI.plain _).2
  rw [hc] at s1
  have n1 : g + (m + 2) ≠ j + 2 := by omega
  have n2 : j + 2 ≠ g + (m + 2) := by omega
  have hsl := hI.asleep g (by omega) hnd
  obtain ⟨w2, e2, s2⟩ := Clerks.Sim.activate (c := g + (m + 2)) (f := f) s1 (by rw [s_diff _ _ _ _ n1]; exact hsl.1) (by rw [s_diff _ _ _ _ n1]; exact hsl.2)
    (by rw [s_diff _ _ _ _ n1]; exact (hI.plain _).1) (by rw [s_diff _ _ _ _ n1]; exact (hI.plain _).2)
  obtain ⟨q, l, hm, hmc, hm1, hm2⟩ := line_leave hI hg e.t hb.symm
  obtain ⟨w3, e3, s3⟩ := loop_take (m := m) (s := s) (j := j) (f := f) s2 (by simp [Abs.upd, Abs.sched, n2]) hm (hs _)
  obtain ⟨S3, hS3, s3⟩ : ∃ S3, S3 = _ ∧ Sim w3 S3 := ⟨_, rfl, s3⟩
  have hm3 : q.c - (m + 2) = G := by rw [hmc]; exact Nat.add_sub_cancel ..
  rw [hmc] at e3
  rw [hm3] at hS3
  have hrun : (bank m d s n (j + 2) (x.mem (j + 2))).run f w1 = some (w3, Mem.serving (G + (m + 2))) := by
    rw [bank_clerk hj, hI.cmem j hj, hK]
    show (Prog.call (.activate (g + (m + 2)) none (0 : Rat) (0 : Rat) false false false false false) (loop m s j)).run f w1 = _
    rw [run_call e2]
    exact e3
  have hcur : w1.current = j + 2 := s1.current
  have hside : ∀ c : Nat, c ≠ j + 2 → c ≠ g + (m + 2) → S3.side c = S.side c := by
    intro c h1 h2; rw [hS3]; simp [Abs.upd, Abs.sched, h1, h2, Abs.queue]
  have hcl : (S3.side (j + 2)).status = .scheduled := by
    rw [hS3]; simp [Abs.upd, Abs.queue, Abs.sched]
  have hpl : ∀ c, (S3.side c).froms = [] ∧ (S3.side c).tos = [] := by
    intro c
    by_cases hc2 : c = j + 2
    · subst hc2; rw [hS3]; simp [Abs.upd, Abs.sched, hI.plain (j + 2), n2, Abs.queue]
    · by_cases hc3 : c = g + (m + 2)
      · subst hc3; rw [hS3]; simp [Abs.upd, Abs.sched, hI.plain (g + (m + 2)), n1, Abs.queue]
      · rw [hside c hc2 hc3]; exact hI.plain c
  have hno : S3.now = e.t := by rw [hS3]; rfl
  have hq : S3.queues (.user 1) = deq e.t q l (S.queues (.user 1)) := by rw [hS3]; simp [Abs.upd, Abs.queue, Abs.sched]
  have hct : ctime m d s e.t (.busy G) = some (e.t + s G) := by show some (Desk.starts m (arrives d) s G + s G) = _; rw [hb]
  have hdn : ∀ i, Done m (Function.update K j (.busy G)) (G + 1) i ↔ Done m K G i ∨ i = g := by
    intro i
    have h1 := done_end (v := .ready) hj hK hgG (fun k hk h => hL.inj k hk j hj g h hK) (by simp) i
    have h2 := done_begin (K := Function.update K j .ready) (G := G) hj (by simp) (fun k hk i h => by
      by_cases e : k = j
      · rw [e, upd_same] at h; exact absurd h (by simp)
      · rw [upd_ne K _ e] at h; exact (hL.busy k hk i h).2) i
    rw [Function.update_idem] at h2
    rw [h2, h1]
  have hmo : ∀ i : Nat, Show.moments ⟨w3, fun d => if d = j + 2 then Mem.serving (G + (m + 2)) else x.mem d, x.log ++ [(w1.now, j + 2)]⟩ (i + (m + 2)) = x.moments (i + (m + 2)) := by
    intro i; rw [Clerks.moments_add, if_neg (show ¬ j + 2 = i + (m + 2) by omega)]
  have hdp : dep m d s (g, ((S.seq + 1 : Nat) : Int)) = ⟨e.t, (0 : Rat), (S.seq + 1 : Nat), g + (m + 2), none⟩ := by unfold dep; rw [ht]
  refine ⟨_, _, (S.seq + 1 : Nat), turn_go e1 hcur hrun,
    { sim := s3, heap := by rw [hS3]; exact Heapq.heappush_isHeap evLaw _ (Heapq.heappush_isHeap evLaw _ hh), ev := ⟨qg, qp, Function.update qc j (S.seq + 2 : Nat), ?_, hqq⟩
      cn := hI.cn, ac := hI.ac, ca := hI.ca, gdone := hI.gdone, line := by rw [hno]; exact hL'
      gdue := by rw [hno]; exact hlg, pdue := by rw [hno]; exact hlp
      deps := ?_, nodup := ?_, plain := hpl
      new := ?_, asleep := ?_, gone := ?_, kside := ?_, cap := by rw [hq]; exact hI.cap, mem := by rw [hq]; exact hm1, stays := by rw [hq]; exact hm2
      gmem := ?_, cmem := ?_, umem0 := ?_, umem1 := ?_
      mom0 := fun i hi => (hmo i).trans (hI.mom0 i hi), mom1 := ?_, mom2 := ?_ }⟩
  · rw [hno, hS3, List.map_cons, hdp]
    have h1 := perm3 (evs_push (t := e.t) (q := ((S.seq + 1 : Nat) : Int)) (c := g + (m + 2)) (v := none) hes)
    refine (perm3 (evs_push h1)).trans (List.Perm.append_left _ (List.Perm.append_left _ ?_))
    refine List.Perm.trans ?_ ((crew_upd hj K qc (.busy G) _).symm.append_right _)
    rw [List.append_assoc, hct]
    exact List.Perm.append_left _ (List.perm_append_comm_assoc _ _ _)
  · intro p hp
    rw [hno]
    rcases List.mem_cons.mp hp with rfl | hp
    · exact ⟨ht.ge, (hdn _).mpr (.inr rfl)⟩
    · exact ⟨hld p hp, (hdn _).mpr (.inl (hI.deps p hp).2)⟩
  · rw [List.map_cons, List.nodup_cons]
    refine ⟨fun h => ?_, hI.nodup⟩
    obtain ⟨p, hp, h'⟩ := List.mem_map.mp h
    have := (hI.deps p hp).2
    have h' : p.1 = g := h'
    rw [h'] at this
    exact hnd this
  · intro i hi
    rw [hside _ (by omega) (by omega)]; exact hI.new i (by omega)
  · intro i hi hi2
    have h1 : i ≠ g := fun e => hi2 ((hdn i).mpr (.inr e))
    rw [hside _ (by omega) (by omega)]; exact hI.asleep i hi (fun h => hi2 ((hdn i).mpr (.inl h)))
  · intro i hi hi2
    rw [List.map_cons, List.mem_cons] at hi2
    have h1 : i ≠ g := fun e => hi2 (.inl e)
    rw [hside _ (by omega) (by omega)]; exact hI.gone i (((hdn i).mp hi).resolve_right h1) (fun h => hi2 (.inr h))
  · intro k hk
    by_cases h : k = j
    · rw [h, upd_same]; exact hcl
    · rw [upd_ne K _ h, hside _ (by omega) (by omega)]; exact hI.kside k hk
  · show (if (1 : Nat) = j + 2 then Mem.serving (G + (m + 2)) else x.mem 1).count = _
    rw [if_neg (by omega)]; exact hI.gmem
  · intro k hk
    show (if k + 2 = j + 2 then Mem.serving (G + (m + 2)) else x.mem (k + 2)) = _
    by_cases h : k = j
    · rw [h, upd_same, if_pos rfl]; rfl
    · rw [upd_ne K _ h, if_neg (by omega)]; exact hI.cmem k hk
  · intro i hi
    show (if i + (m + 2) = j + 2 then Mem.serving (G + (m + 2)) else x.mem (i + (m + 2))) = _
    rw [if_neg (by omega)]; exact hI.umem0 i hi
  · intro i hi
    show (if i + (m + 2) = j + 2 then Mem.serving (G + (m + 2)) else x.mem (i + (m + 2))) = _
    rw [if_neg (by omega)]; exact hI.umem1 i hi
  · intro i hi h
    refine (hmo i).trans (hI.mom1 i hi ?_)
    rw [List.map_cons, List.mem_cons, hdn] at h
    rcases h with h | h | h
    · exact .inl fun h' => h (.inl h')
    · exact .inl (by rw [show i = g from h]; exact hnd)
    · exact .inr h
  · intro i hi h
    rw [List.map_cons, List.mem_cons] at h
    exact (hmo i).trans (hI.mom2 i (((hdn i).mp hi).resolve_right fun e => h (.inl e)) fun h' => h (.inr h'))

/-- a clerk ends a service, nobody is waiting -/
theorem step_done {f j g : Nat} (hI : Inv m d s n x S ge C A A K P) (hj : j < m) (hK : K j = .busy g) {e : Ev} {es : List Ev}
    (hL : Line m d s e.t A A K) (hpop : Heapq.heappop Ev.lt S.events = some (e, es)) (hh : Heapq.IsHeap Ev.lt es) (hc : e.c = j + 2) (ht : over m d s g = e.t) {qg qp : Int} {qc : Nat → Int}
    (hes : es.Perm (evs (Clerks.gtime d ge C) 1 qg none ++ (evs (Clerks.ptime d C A) (A + (m + 2)) qp none ++ (crew m d s e.t K qc (others m j) ++ P.map (dep m d s))))) (hqq : qp < qg)
    (hlg : ∀ t, Clerks.gtime d ge C = some t → e.t ≤ t) (hlp : ∀ t, Clerks.ptime d C A = some t → e.t ≤ t) (hld : ∀ p ∈ P, e.t ≤ over m d s p.1) :
    ∃ x' S' q, Show.turn f (bank m d s n) x = some x' ∧ Inv m d s n x' S' ge C A A (Function.update K j .passive) ((g, q) :: P) := by
  have hL' := hL.rest (j := j) (by rw [hK]; exact ht)
  have hgG := (hL.busy j hj g hK).2
  have hga := hL.ga
  have hac := hI.ac
  have hnd : ¬ Done m K A g := fun h => h.2 j hj hK
  obtain ⟨w1, e1, s1⟩ := hI.sim.step hpop (by rw [hc]; simp) (hI.plain _).1 (hI.plain _).2
  rw [hc] at s1
  have n1 : g + (m + 2) ≠ j + 2 := by omega
  have n2 : j + 2 ≠ g + (m + 2) := by omega
  have hsl := hI.asleep g (by omega) hnd
  obtain ⟨w2, e2, s2⟩ := Clerks.Sim.activate (c := g + (m + 2)) (f := f) s1 (by rw [s_diff _ _ _ _ n1]; exact hsl.1) (by rw [s_diff _ _ _ _ n1]; exact hsl.2)
    (by rw [s_diff _ _ _ _ n1]; exact (hI.plain _).1) (by rw [s_diff _ _ _ _ n1]; exact (hI.plain _).2)
  obtain ⟨w3, e3, s3⟩ := loop_rest (m := m) (s := s) (j := j) (f := f) s2 (by simp [Abs.upd, Abs.sched, n2]) (by show (S.queues (.user 1)).mem = []; rw [hI.mem]; simp)
  obtain ⟨S3, hS3, s3⟩ : ∃ S3, S3 = _ ∧ Sim w3 S3 := ⟨_, rfl, s3⟩
  have hrun : (bank m d s n (j + 2) (x.mem (j + 2))).run f w1 = some (w3, Mem.start) := by
    rw [bank_clerk hj, hI.cmem j hj, hK]
    show (Prog.call (.activate (g + (m + 2)) none (0 : Rat) (0 : Rat) false false false false false) (loop m s j)).run f w1 = _
    rw [run_call e2]
    exact e3
  have hcur : w1.current = j + 2 := s1.current
  have hside : ∀ c : Nat, c ≠ j + 2 → c ≠ g + (m + 2) → S3.side c = S.side c := by
    intro c h1 h2; rw [hS3]; simp [Abs.upd, Abs.sched, h1, h2]
  have hcl : (S3.side (j + 2)).status = .passive ∧ (S3.side (j + 2)).onList = false := by
    rw [hS3]; simp [Abs.upd, Abs.sched, n2]
  have hpl : ∀ c, (S3.side c).froms = [] ∧ (S3.side c).tos = [] := by
    intro c
    by_cases hc2 : c = j + 2
    · subst hc2; rw [hS3]; simp [Abs.upd, Abs.sched, hI.plain (j + 2), n2]
    · by_cases hc3 : c = g + (m + 2)
      · subst hc3; rw [hS3]; simp [Abs.upd, Abs.sched, hI.plain (g + (m + 2)), n1]
      · rw [hside c hc2 hc3]; exact hI.plain c
  have hno : S3.now = e.t := by rw [hS3]; rfl
  have hq : S3.queues = S.queues := by rw [hS3]; rfl
  have hdn : ∀ i, Done m (Function.update K j .passive) A i ↔ Done m K A i ∨ i = g :=
    done_end hj hK hgG (fun k hk h => hL.inj k hk j hj g h hK) (by simp)
  have hmo : ∀ i : Nat, Show.moments ⟨w3, fun d => if d = j + 2 then Mem.start else x.mem d, x.log ++ [(w1.now, j + 2)]⟩ (i + (m + 2)) = x.moments (i + (m + 2)) := by
    intro i; rw [Clerks.moments_add, if_neg (show ¬ j + 2 = i + (m + 2) by omega)]
  have hdp : dep m d s (g, ((S.seq + 1 : Nat) : Int)) = ⟨e.t, (0 : Rat), (S.seq + 1 : Nat), g + (m + 2), none⟩ := by unfold dep; rw [ht]
  refine ⟨_, _, (S.seq + 1 : Nat), turn_go e1 hcur hrun,
    { sim := s3, heap := by rw [hS3]; exact Heapq.heappush_isHeap evLaw _ hh, ev := ⟨qg, qp, Function.update qc j 0, ?_, hqq⟩
      cn := hI.cn, ac := hI.ac, ca := hI.ca, gdone := hI.gdone, line := by rw [hno]; exact hL'
      gdue := by rw [hno]; exact hlg, pdue := by rw [hno]; exact hlp
      deps := ?_, nodup := ?_, plain := hpl
      new := ?_, asleep := ?_, gone := ?_, kside := ?_, cap := by rw [hq]; exact hI.cap, mem := by rw [hq]; exact hI.mem, stays := by rw [hq]; exact hI.stays
      gmem := ?_, cmem := ?_, umem0 := ?_, umem1 := ?_
      mom0 := fun i hi => (hmo i).trans (hI.mom0 i hi), mom1 := ?_, mom2 := ?_ }⟩
  · rw [hno, hS3, List.map_cons, hdp]
    have h1 := perm3 (evs_push (t := e.t) (q := ((S.seq + 1 : Nat) : Int)) (c := g + (m + 2)) (v := none) hes)
    refine h1.trans (List.Perm.append_left _ (List.Perm.append_left _ ?_))
    refine List.Perm.trans ?_ ((crew_upd hj K qc .passive _).symm.append_right _)
    exact List.perm_append_comm_assoc _ _ _
  · intro p hp
    rw [hno]
    rcases List.mem_cons.mp hp with rfl | hp
    · exact ⟨ht.ge, (hdn _).mpr (.inr rfl)⟩
    · exact ⟨hld p hp, (hdn _).mpr (.inl (hI.deps p hp).2)⟩
  · rw [List.map_cons, List.nodup_cons]
    refine ⟨fun h => ?_, hI.nodup⟩
    obtain ⟨p, hp, h'⟩ := List.mem_map.mp h
    have := (hI.deps p hp).2
    have h' : p.1 = g := h'
    rw [h'] at this
    exact hnd this
  · intro i hi
    rw [hside _ (by omega) (by omega)]; exact hI.new i (by omega)
  · intro i hi hi2
    have h1 : i ≠ g := fun e => hi2 ((hdn i).mpr (.inr e))
    rw [hside _ (by omega) (by omega)]; exact hI.asleep i hi (fun h => hi2 ((hdn i).mpr (.inl h)))
  · intro i hi hi2
    rw [List.map_cons, List.mem_cons] at hi2
    have h1 : i ≠ g := fun e => hi2 (.inl e)
    rw [hside _ (by omega) (by omega)]; exact hI.gone i (((hdn i).mp hi).resolve_right h1) (fun h => hi2 (.inr h))
  · intro k hk
    by_cases h : k = j
    · rw [h, upd_same]; exact hcl
    · rw [upd_ne K _ h, hside _ (by omega) (by omega)]; exact hI.kside k hk
  · show (if (1 : Nat) = j + 2 then Mem.start else x.mem 1).count = _
    rw [if_neg (by omega)]; exact hI.gmem
  · intro k hk
    show (if k + 2 = j + 2 then Mem.start else x.mem (k + 2)) = _
    by_cases h : k = j
    · rw [h, upd_same, if_pos rfl]; rfl
    · rw [upd_ne K _ h, if_neg (by omega)]; exact hI.cmem k hk
  · intro i hi
    show (if i + (m + 2) = j + 2 then Mem.start else x.mem (i + (m + 2))) = _
    rw [if_neg (by omega)]; exact hI.umem0 i hi
  · intro i hi
    show (if i + (m + 2) = j + 2 then Mem.start else x.mem (i + (m + 2))) = _
    rw [if_neg (by omega)]; exact hI.umem1 i hi
  · intro i hi h
    refine (hmo i).trans (hI.mom1 i hi ?_)
    rw [List.map_cons, List.mem_cons, hdn] at h
    rcases h with h | h | h
    · exact .inl fun h' => h (.inl h')
    · exact .inl (by rw [show i = g from h]; exact hnd)
    · exact .inr h
  · intro i hi h
    rw [List.map_cons, List.mem_cons] at h
    exact (hmo i).trans (hI.mom2 i (((hdn i).mp hi).resolve_right fun e => h (.inl e)) fun h' => h (.inr h'))

/-- a customer leaves -/
theorem step_leave {f : Nat} (hI : Inv m d s n x S ge C A G K P) {p : Nat × Int} (hp : p ∈ P) {e : Ev} {es : List Ev} (hL : Line m d s e.t A G K)
    (hpop : Heapq.heappop Ev.lt S.events = some (e, es)) (hh : Heapq.IsHeap Ev.lt es) (he : e = dep m d s p) {qg qp : Int} {qc : Nat → Int}
    (hes : es.Perm (evs (Clerks.gtime d ge C) 1 qg none ++ (evs (Clerks.ptime d C A) (A + (m + 2)) qp none ++ (crew m d s e.t K qc (List.range m) ++ (P.erase p).map (dep m d s))))) (hqq : qp < qg)
    (hlg : ∀ t, Clerks.gtime d ge C = some t → e.t ≤ t) (hlp : ∀ t, Clerks.ptime d C A = some t → e.t ≤ t) (hld : ∀ p ∈ P, e.t ≤ over m d s p.1) :
    ∃ x' S', Show.turn f (bank m d s n) x = some x' ∧ Inv m d s n x' S' ge C A G K (P.erase p) := by
  obtain ⟨i0, q0⟩ := p
  have hc : e.c = i0 + (m + 2) := by rw [he]; rfl
  have het : e.t = over m d s i0 := by rw [he]; rfl
  have hd0 := hI.deps _ hp
  have hdo : Done m K G i0 := hd0.2
  have hi0 := hdo.1
  have hga := hL.ga
  obtain ⟨w1, e1, s1⟩ := hI.sim.step hpop (by rw [hc]; exact Nat.succ_ne_zero _) (hI.plain _).1 (hI.plain _).2
  rw [hc] at s1
  obtain ⟨w3, e3, s3⟩ := Clerks.Sim.exit (f := f) s1 rfl
  obtain ⟨S3, hS3, s3⟩ : ∃ S3, S3 = _ ∧ Sim w3 S3 := ⟨_, rfl, s3⟩
  have hrun : (bank m d s n (i0 + (m + 2)) (x.mem (i0 + (m + 2)))).run f w1 = some (w3, .waiting) := by
    rw [bank_customer, hI.umem1 i0 (by omega)]
    unfold customer
    simp only
    rw [run_call e3]; rfl
  have hcur : w1.current = i0 + (m + 2) := s1.current
  have hside : ∀ c : Nat, c ≠ i0 + (m + 2) → S3.side c = S.side c := by
    intro c h1; rw [hS3]; simp [Abs.upd, h1]
  have hme : (S3.side (i0 + (m + 2))).status = .data := by rw [hS3]; simp [Abs.upd]
  have hpl : ∀ c, (S3.side c).froms = [] ∧ (S3.side c).tos = [] := by
    intro c
    by_cases hc1 : c = i0 + (m + 2)
    · subst hc1; rw [hS3]; simp [Abs.upd, hI.plain (i0 + (m + 2))]
    · rw [hside c hc1]; exact hI.plain c
  have hno : S3.now = e.t := by rw [hS3]; rfl
  have hq : S3.queues = S.queues := by rw [hS3]; rfl
  have hnd : P.Nodup := List.Nodup.of_map _ hI.nodup
  have hmem : ∀ i, i ∈ (P.erase (i0, q0)).map Prod.fst ↔ i ∈ P.map Prod.fst ∧ i ≠ i0 := by
    intro i
    constructor
    · intro h
      obtain ⟨p, hp', rfl⟩ := List.mem_map.mp h
      rw [hnd.mem_erase_iff] at hp'
      refine ⟨List.mem_map.mpr ⟨p, hp'.2, rfl⟩, fun h => hp'.1 ?_⟩
      exact List.inj_on_of_nodup_map hI.nodup hp'.2 hp h
    · rintro ⟨h, h'⟩
      obtain ⟨p, hp', rfl⟩ := List.mem_map.mp h
      exact List.mem_map.mpr ⟨p, hnd.mem_erase_iff.mpr ⟨fun h => h' (by rw [h]), hp'⟩, rfl⟩
  have hmo : ∀ i : Nat, i ≠ i0 → Show.moments ⟨w3, fun d => if d = i0 + (m + 2) then Mem.waiting else x.mem d, x.log ++ [(w1.now, i0 + (m + 2))]⟩ (i + (m + 2)) = x.moments (i + (m + 2)) := by
    intro i hi; rw [Clerks.moments_add, if_neg (show ¬ i0 + (m + 2) = i + (m + 2) by omega)]
  refine ⟨_, _, turn_go e1 hcur hrun,
    { sim := s3, heap := by rw [hS3]; exact hh, ev := ⟨qg, qp, qc, by rw [hno, hS3]; exact hes, hqq⟩
      cn := hI.cn, ac := hI.ac, ca := hI.ca, gdone := hI.gdone, line := by rw [hno]; exact hL
      gdue := by rw [hno]; exact hlg, pdue := by rw [hno]; exact hlp
      deps := fun p hp => by rw [hno]; exact ⟨hld p (List.mem_of_mem_erase hp), (hI.deps p (List.mem_of_mem_erase hp)).2⟩
      nodup := hI.nodup.sublist (List.erase_sublist.map _), plain := hpl
      new := ?_, asleep := ?_, gone := ?_, kside := ?_, cap := by rw [hq]; exact hI.cap, mem := by rw [hq]; exact hI.mem, stays := by rw [hq]; exact hI.stays
      gmem := ?_, cmem := ?_, umem0 := ?_, umem1 := ?_
      mom0 := fun i hi => (hmo i (by omega)).trans (hI.mom0 i hi), mom1 := ?_, mom2 := ?_ }⟩
  · intro i hi
    have := hI.ac
    rw [hside _ (by omega)]; exact hI.new i hi
  · intro i hi hi2
    have h1 : i ≠ i0 := fun e => hi2 (by rw [e]; exact hdo)
    rw [hside _ (by omega)]; exact hI.asleep i hi hi2
  · intro i hi hi2
    by_cases h : i = i0
    · rw [h]; exact hme
    · rw [hside _ (by omega)]; exact hI.gone i hi (fun h' => hi2 ((hmem i).mpr ⟨h', h⟩))
  · intro j hj; rw [hside _ (by omega)]; exact hI.kside j hj
  · show (if (1 : Nat) = i0 + (m + 2) then Mem.waiting else x.mem 1).count = _
    rw [if_neg (by omega)]; exact hI.gmem
  · intro j hj
    show (if j + 2 = i0 + (m + 2) then Mem.waiting else x.mem (j + 2)) = _
    rw [if_neg (by omega)]; exact hI.cmem j hj
  · intro i hi
    show (if i + (m + 2) = i0 + (m + 2) then Mem.waiting else x.mem (i + (m + 2))) = _
    rw [if_neg (by omega)]; exact hI.umem0 i (by omega)
  · intro i hi
    show (if i + (m + 2) = i0 + (m + 2) then Mem.waiting else x.mem (i + (m + 2))) = _
    split
    · rfl
    · exact hI.umem1 i (by omega)
  · intro i hi h
    have h1 : i ≠ i0 := by
      intro e
      rcases h with h | h
      · exact h (by rw [e]; exact hdo)
      · exact ((hmem i).mp h).2 e
    exact (hmo i h1).trans (hI.mom1 i hi (h.imp id fun h => ((hmem i).mp h).1))
  · intro i hi h
    by_cases e : i = i0
    · subst e
      rw [Clerks.moments_add, if_pos rfl, hI.mom1 i (by omega) (.inr (List.mem_map.mpr ⟨_, hp, rfl⟩)), s1.now]
      show [arrives d i] ++ [Ev.t _] = _
      rw [het]; rfl
    · exact (hmo i e).trans (hI.mom2 i hi fun h' => h ((hmem i).mpr ⟨h', e⟩))

/-! ## the simulation -/

def wt : St → Nat
  | .busy _ => 2
  | .ready => 1
  | .passive => 0

def load (K : Nat → St) (l : List Nat) : Nat := (l.map fun j => wt (K j)).sum

theorem load_hole {j : Nat} (hj : j < m) (K : Nat → St) : load K (List.range m) = wt (K j) + load K (others m j) := by
  unfold load
  rw [((hole hj).map _).sum_nat]; rfl

theorem load_upd {j : Nat} (hj : j < m) (K : Nat → St) (v : St) : load (Function.update K j v) (List.range m) = wt v + load K (others m j) := by
  rw [load_hole hj, upd_same]
  congr 1
  unfold load
  rw [List.map_congr_left fun i hi => by rw [upd_ne K v (mem_others hi).1]]

/-- a bound on the number of turns to come -/
def todo (m n : Nat) (ge : Bool) (C A G : Nat) (K : Nat → St) (P : List (Nat × Int)) : Nat :=
  5 * (n - C) + 4 * (C - A) + 2 * (A - G) + load K (List.range m) + P.length + (if ge then 0 else 1)

theorem next_turn {f : Nat} (hI : Inv m d s n x S ge C A G K P) (hd : ∀ i, 0 ≤ d i) (hs : ∀ i, 0 ≤ s i) (hne : S.events ≠ []) :
    ∃ x' S' ge' C' A' G' K' P', Show.turn f (bank m d s n) x = some x' ∧ Inv m d s n x' S' ge' C' A' G' K' P' ∧ todo m n ge' C' A' G' K' P' < todo m n ge C A G K P := by
  obtain ⟨qg, qp, qc, hperm, hqq⟩ := hI.ev
  obtain ⟨e, es, hpop, hh, hmem, hrest, hmin, hle⟩ := Clerks.first hI.heap hperm (fun h => by rw [h] at hperm; exact hne hperm.eq_nil)
  have hcn := hI.cn; have hac := hI.ac; have hca := hI.ca; have hga := hI.line.ga
  have hlg : ∀ t, Clerks.gtime d ge C = some t → e.t ≤ t := fun t h => hle ⟨t, (0 : Rat), qg, 1, none⟩ (by rw [h]; simp [evs])
  have hlp : ∀ t, Clerks.ptime d C A = some t → e.t ≤ t := fun t h => hle ⟨t, (0 : Rat), qp, A + (m + 2), none⟩ (by rw [h]; simp [evs])
  have hlc : ∀ j : Nat, j < m → ∀ t, ctime m d s S.now (K j) = some t → e.t ≤ t := fun j hj t h => hle ⟨t, (0 : Rat), qc j, j + 2, none⟩
    (List.mem_append_right _ (List.mem_append_right _ (List.mem_append_left _ (List.mem_flatMap.mpr ⟨j, List.mem_range.mpr hj, by rw [h]; simp [evs]⟩))))
  have hld : ∀ p ∈ P, e.t ≤ over m d s p.1 := fun p hp => hle (dep m d s p)
    (List.mem_append_right _ (List.mem_append_right _ (List.mem_append_right _ (List.mem_map_of_mem hp))))
  have hnow : S.now ≤ e.t := by
    rcases List.mem_append.mp hmem with h | h
    · cases hg : Clerks.gtime d ge C with
      | none => rw [hg] at h; simp [evs] at h
      | some t =>
        rw [hg] at h
        have he : e = ⟨t, (0 : Rat), qg, 1, none⟩ := by simpa [evs] using h
        rw [he]; exact hI.gdue t hg
    rcases List.mem_append.mp h with h | h
    · cases hg : Clerks.ptime d C A with
      | none => rw [hg] at h; simp [evs] at h
      | some t =>
        rw [hg] at h
        have he : e = ⟨t, (0 : Rat), qp, A + (m + 2), none⟩ := by simpa [evs] using h
        rw [he]; exact hI.pdue t hg
    rcases List.mem_append.mp h with h | h
    · obtain ⟨j, hj, h⟩ := List.mem_flatMap.mp h
      cases hK : K j with
      | passive => rw [hK] at h; simp [ctime, evs] at h
      | ready =>
        rw [hK] at h
        have he : e = ⟨S.now, (0 : Rat), qc j, j + 2, none⟩ := by simpa [ctime, evs] using h
        rw [he]
      | busy i =>
        rw [hK] at h
        have he : e = ⟨over m d s i, (0 : Rat), qc j, j + 2, none⟩ := by simpa [ctime, evs] using h
        rw [he]; exact (hI.line.busy j (List.mem_range.mp hj) i hK).1
    · obtain ⟨p, hp, hpe⟩ := List.mem_map.mp h
      rw [← hpe]; exact (hI.deps p hp).1
  have hready : ∀ j : Nat, j < m → K j = .ready → e.t ≤ S.now := fun j hj hK => hlc j hj S.now (by rw [hK]; rfl)
  have hL : Line m d s e.t A G K := hI.line.tick hnow hready fun j hj i hK => hlc j hj _ (by rw [hK]; rfl)
  have hcrew : crew m d s S.now K qc (List.range m) = crew m d s e.t K qc (List.range m) := crew_tick (fun j hj hK => le_antisymm (hready j hj hK) hnow) qc
  rw [hcrew] at hmem hrest hmin
  rcases List.mem_append.mp hmem with h | h
  · -- the generator
    have hge : ge = false := by
      cases ge with
      | false => rfl
      | true => simp [Clerks.gtime, evs] at h
    subst hge
    have he : e = ⟨arrives d C, (0 : Rat), qg, 1, none⟩ := by simpa [Clerks.gtime, evs] using h
    have hCA : C = A := by
      by_contra hne
      have hC : C = A + 1 := by omega
      have hp : Clerks.ptime d C A = some (arrives d A) := by unfold Clerks.ptime; rw [if_pos hC]
      have := hmin ⟨arrives d A, (0 : Rat), qp, A + (m + 2), none⟩ (by rw [hp]; simp [evs])
      rw [he] at this
      unfold Ev.lt at this
      simp only [Bool.or_eq_false_iff, Bool.and_eq_false_iff, decide_eq_false_iff_not] at this
      obtain ⟨h1, h2⟩ := this
      have h3 : arrives d A = arrives d C := le_antisymm (by rw [hC]; exact arrives_mono hd A) (not_lt.mp h1)
      rcases h2 with h2 | ⟨-, h2⟩
      · exact h2 h3
      · rcases h2 with h2 | h2
        · exact h2 trivial
        · exact h2 hqq
    subst hCA
    have hp0 : Clerks.ptime d C C = none := by simp [Clerks.ptime]
    have ht : arrives d C = e.t := by rw [he]
    have hc : e.c = 1 := by rw [he]
    have hg0 : Clerks.gtime d false C = some e.t := by rw [← ht]; rfl
    have hes : es.Perm (crew m d s e.t K qc (List.range m) ++ P.map (dep m d s)) := hrest _ (by
      rw [hp0, hg0]
      have : evs (some e.t) 1 qg none = [e] := by rw [he]; rfl
      rw [this]; exact List.Perm.refl _)
    rcases Nat.lt_or_ge C n with hn | hn
    · obtain ⟨x', S', e', h'⟩ := step_make (f := f) hI hd hn hL hpop hh hc ht hes hld
      exact ⟨x', S', _, _, _, _, _, _, e', h', by unfold todo; omega⟩
    · obtain ⟨x', S', e', h'⟩ := step_gend (f := f) hI (by omega) hL hpop hh hc hes hld
      exact ⟨x', S', _, _, _, _, _, _, e', h', by unfold todo; simp⟩
  rcases List.mem_append.mp h with h | h
  · -- an arrival
    have hC : C = A + 1 := by
      by_contra hne
      simp [Clerks.ptime, hne, evs] at h
    subst hC
    have hp : Clerks.ptime d (A + 1) A = some (arrives d A) := by unfold Clerks.ptime; rw [if_pos rfl]
    have he : e = ⟨arrives d A, (0 : Rat), qp, A + (m + 2), none⟩ := by rw [hp] at h; simpa [evs] using h
    have ht : arrives d A = e.t := by rw [he]
    have hc : e.c = A + (m + 2) := by rw [he]
    have hes : es.Perm (evs (Clerks.gtime d ge (A + 1)) 1 qg none ++ (crew m d s e.t K qc (List.range m) ++ P.map (dep m d s))) := hrest _ (by
      have : evs (Clerks.ptime d (A + 1) A) (A + (m + 2)) qp none = [e] := by rw [hp, he]; rfl
      rw [this]; exact List.perm_append_comm_assoc _ _ _)
    by_cases hK : ∃ j : Nat, j < m ∧ K j = .passive
    · obtain ⟨x', S', j, hj, hKj, e', h'⟩ := step_wake (f := f) hI hK hL hpop hh hc ht hes hlg hld
      refine ⟨x', S', _, _, _, _, _, _, e', h', ?_⟩
      unfold todo
      rw [load_upd hj, load_hole hj, hKj]
      simp only [wt]; omega
    · obtain ⟨x', S', e', h'⟩ := step_arrive (f := f) hI (fun j hj h => hK ⟨j, hj, h⟩) hL hpop hh hc ht hes hlg hld
      exact ⟨x', S', _, _, _, _, _, _, e', h', by unfold todo; omega⟩
  rcases List.mem_append.mp h with h | h
  · -- a clerk
    obtain ⟨j, hj, h⟩ := List.mem_flatMap.mp h
    have hj := List.mem_range.mp hj
    have hre : evs (ctime m d s e.t (K j)) (j + 2) (qc j) none = [e] → es.Perm (evs (Clerks.gtime d ge C) 1 qg none ++ (evs (Clerks.ptime d C A) (A + (m + 2)) qp none ++ (crew m d s e.t K qc (others m j) ++ P.map (dep m d s)))) := by
      intro he
      refine hrest _ ?_
      have h1 := crew_hole (d := d) (s := s) (now := e.t) hj K qc
      rw [he] at h1
      refine (((h1.append_right _).append_left _).append_left _).trans ?_
      exact (((List.perm_append_comm_assoc _ [e] _).append_left _).trans (List.perm_append_comm_assoc _ [e] _))
    cases hK : K j with
    | passive => rw [hK] at h; simp [ctime, evs] at h
    | ready =>
      rw [hK] at h
      have he : e = ⟨e.t, (0 : Rat), qc j, j + 2, none⟩ := by simpa [ctime, evs] using h
      have hc : e.c = j + 2 := by rw [he]
      have hes := hre (by rw [hK]; exact congrArg (fun y => [y]) he.symm)
      rcases Nat.lt_or_ge G A with hg | hg
      · obtain ⟨x', S', e', h'⟩ := step_begin (f := f) hI hd hs hg hj hK hL hpop hh hc hes hqq hlg hlp hld
        refine ⟨x', S', _, _, _, _, _, _, e', h', ?_⟩
        unfold todo
        rw [load_upd hj, load_hole hj, hK]
        simp only [wt]; omega
      · obtain rfl : G = A := by omega
        obtain ⟨x', S', e', h'⟩ := step_rest (f := f) hI hj hK hL hpop hh hc hes hqq hlg hlp hld
        refine ⟨x', S', _, _, _, _, _, _, e', h', ?_⟩
        unfold todo
        rw [load_upd hj, load_hole hj, hK]
        simp only [wt]; omega
    | busy g =>
      rw [hK] at h
      have he : e = ⟨over m d s g, (0 : Rat), qc j, j + 2, none⟩ := by simpa [ctime, evs] using h
      have hc : e.c = j + 2 := by rw [he]
      have ht : over m d s g = e.t := by rw [he]
      have hes := hre (by rw [hK, he]; rfl)
      rcases Nat.lt_or_ge G A with hg | hg
      · obtain ⟨x', S', q, e', h'⟩ := step_next (f := f) hI hd hs hg hj hK hL hpop hh hc ht hes hqq hlg hlp hld
        refine ⟨x', S', _, _, _, _, _, _, e', h', ?_⟩
        unfold todo
        rw [load_upd hj, load_hole hj, hK]
        simp only [wt, List.length_cons]; omega
      · obtain rfl : G = A := by omega
        obtain ⟨x', S', q, e', h'⟩ := step_done (f := f) hI hj hK hL hpop hh hc ht hes hqq hlg hlp hld
        refine ⟨x', S', _, _, _, _, _, _, e', h', ?_⟩
        unfold todo
        rw [load_upd hj, load_hole hj, hK]
        simp only [wt, List.length_cons]; omega
  · -- a departure
    obtain ⟨p, hp, hpe⟩ := List.mem_map.mp h
    have hes : es.Perm (evs (Clerks.gtime d ge C) 1 qg none ++ (evs (Clerks.ptime d C A) (A + (m + 2)) qp none ++ (crew m d s e.t K qc (List.range m) ++ (P.erase p).map (dep m d s)))) := hrest _ (by
      have h1 : (P.map (dep m d s)).Perm ([e] ++ (P.erase p).map (dep m d s)) := by
        rw [← hpe]; exact (List.perm_cons_erase hp).map (dep m d s)
      refine (((h1.append_left _).append_left _).append_left _).trans ?_
      exact ((((List.perm_append_comm_assoc _ _ _).append_left _).append_left _).trans ((List.perm_append_comm_assoc _ _ _).append_left _)).trans (List.perm_append_comm_assoc _ _ _))
    obtain ⟨x', S', e', h'⟩ := step_leave (f := f) hI hp hL hpop hh hpe.symm hes hqq hlg hlp hld
    have hl : (P.erase p).length < P.length := by
      rw [List.length_erase_of_mem hp]
      exact Nat.sub_lt (List.length_pos_of_mem hp) Nat.one_pos
    exact ⟨x', S', _, _, _, _, _, _, e', h', by unfold todo; omega⟩

theorem turns_run {f : Nat} (hd : ∀ i, 0 ≤ d i) (hs : ∀ i, 0 ≤ s i) : ∀ (k : Nat) {x : Show Mem} {S : Abs} {ge : Bool} {C A G : Nat} {K : Nat → St} {P : List (Nat × Int)},
    Inv m d s n x S ge C A G K P → todo m n ge C A G K P ≤ k →
    ∃ j x' S' ge' C' A' G' K' P', j ≤ k ∧ Show.run f (bank m d s n) j x = some x' ∧ Inv m d s n x' S' ge' C' A' G' K' P' ∧ S'.events = [] := by
  intro k
  induction k with
  | zero =>
    intro x S ge C A G K P hI hk
    by_cases hne : S.events = []
    · exact ⟨0, x, S, _, _, _, _, _, _, le_rfl, rfl, hI, hne⟩
    · obtain ⟨x1, S1, _, _, _, _, _, _, e1, h1, l1⟩ := next_turn (f := f) hI hd hs hne
      omega
  | succ k ih =>
    intro x S ge C A G K P hI hk
    by_cases hne : S.events = []
    · exact ⟨0, x, S, _, _, _, _, _, _, Nat.zero_le _, rfl, hI, hne⟩
    · obtain ⟨x1, S1, _, _, _, _, _, _, e1, h1, l1⟩ := next_turn (f := f) hI hd hs hne
      obtain ⟨j, x2, S2, _, _, _, _, _, _, hj, e2, h2, l2⟩ := ih h1 (by omega)
      refine ⟨j + 1, x2, S2, _, _, _, _, _, _, by omega, ?_, h2, l2⟩
      show (Show.turn f (bank m d s n) x).bind _ = _
      rw [e1]; exact e2

/-- the clerks are made, one after the other -/
theorem hire {f : Nat} : ∀ (l : List Nat) {w : World} {S : Abs}, Sim w S → Heapq.IsHeap Ev.lt S.events → l.Nodup → (∀ j ∈ l, (S.side (j + 2)).status = .data ∧ (S.side (j + 2)).onList = false) →
    ∃ w' S', forR (l.map (fun j => Op.create (j + 2) none (0 : Rat) (0 : Rat) false false false)) (exec f) w = .ok w' ∧ Sim w' S' ∧ Heapq.IsHeap Ev.lt S'.events ∧ S'.now = S.now ∧ S'.queues = S.queues ∧
      (∃ q : Nat → Int, S'.events.Perm ((l.flatMap fun j => evs (some S.now) (j + 2) (q j) none) ++ S.events)) ∧ (∀ c : Nat, (∀ j ∈ l, c ≠ j + 2) → S'.side c = S.side c) ∧
      ∀ j ∈ l, (S'.side (j + 2)).status = .scheduled ∧ (S'.side (j + 2)).froms = (S.side (j + 2)).froms ∧ (S'.side (j + 2)).tos = (S.side (j + 2)).tos
  | [], w, S, h, hh, _, _ => ⟨w, S, rfl, h, hh, rfl, rfl, ⟨fun _ => 0, List.Perm.refl _⟩, fun _ _ => rfl, fun j hj => absurd hj (by simp)⟩
  | j :: l, w, S, h, hh, hn, hd => by
    have hj := hd j (List.mem_cons_self ..)
    rw [List.nodup_cons] at hn
    obtain ⟨w1, e1, s1⟩ := Clerks.Sim.createIn (d := j + 2) (f := f) h hj.1 hj.2
    have hs1 : ∀ c : Nat, c ≠ j + 2 → (S.sched (j + 2) S.now none).side c = S.side c := fun c hc => by simp [Abs.sched, Abs.upd, hc]
    have hne : ∀ k ∈ l, k + 2 ≠ j + 2 := fun k hk e => hn.1 (by rwa [show k = j by omega] at hk)
    obtain ⟨w', S', e2, s2, h2, n2, q2, ⟨q, p2⟩, o2, c2⟩ := hire l s1 (Heapq.heappush_isHeap evLaw _ hh) hn.2 (fun k hk => by
      rw [hs1 _ (hne k hk)]; exact hd k (List.mem_cons_of_mem _ hk))
    refine ⟨w', S', ?_, s2, h2, n2, q2, ⟨Function.update q j (S.seq + 1 : Nat), ?_⟩, fun c hc => ?_, fun k hk => ?_⟩
    · show (exec f _ w ⊳ _) = _
      rw [e1, then_ok]; exact e2
    · refine p2.trans ?_
      rw [List.flatMap_cons, Function.update_self]
      have : (l.flatMap fun k => evs (some S.now) (k + 2) (Function.update q j (S.seq + 1 : Nat) k) none) = l.flatMap fun k => evs (some S.now) (k + 2) (q k) none := by
        refine List.flatMap_congr fun k hk => ?_
        rw [Function.update_of_ne (fun e : k = j => hn.1 (by rwa [e] at hk))]
      rw [this, List.append_assoc]
      exact ((evs_push (List.Perm.refl S.events)).append_left _).trans (List.perm_append_comm_assoc _ _ _)
    · rw [o2 c fun k hk => hc k (List.mem_cons_of_mem _ hk)]
      exact hs1 c (hc j (List.mem_cons_self ..))
    · rcases List.mem_cons.mp hk with e | hk
      · rw [e, o2 (j + 2) fun k hk => (hne k hk).symm]
        simp [Abs.sched, Abs.upd]
      · have := c2 k hk
        rwa [hs1 _ (hne k hk)] at this

theorem forR_append {α : Type} (g : α → World → R) : ∀ (l l' : List α) {w w1 : World}, forR l g w = .ok w1 → forR (l ++ l') g w = forR l' g w1
  | [], _, _, _, h => by cases h; rfl
  | a :: l, l', w, w1, h => by
    have h : (g a w ⊳ fun w => forR l g w) = _ := h
    show (g a w ⊳ fun w => forR (l ++ l') g w) = _
    cases h2 : g a w with
    | err x w2 => rw [h2] at h; exact absurd h (by simp [R.andThen])
    | ok w2 => rw [h2, then_ok] at h; rw [then_ok]; exact forR_append g l l' h

theorem opened {f : Nat} : ∃ w S, forR (opening m) (exec f) World.init = .ok w ∧ Inv m d s n ⟨w, fun _ => .start, []⟩ S false 0 0 0 (fun _ => .ready) [] := by
  have s1 : Sim World.init ⟨0, 0, [], 0, fun d => sideOf (World.init.comps d), fun _ => {}⟩ := by
    refine ⟨rfl, rfl, rfl, rfl, fun d => ?_, rfl, rfl, rfl, rfl⟩
    show SideIs (if d = 0 then { status := .current } else {}) (sideOf (if d = 0 then { status := .current } else {}))
    split <;> exact ⟨rfl, rfl, rfl, rfl, rfl, rfl, rfl, rfl, rfl, rfl⟩
  obtain ⟨w2, e2, s2⟩ := Clerks.Sim.createIn (d := 1) (f := f) s1 rfl rfl
  obtain ⟨S2, hS2, s2⟩ : ∃ S2, S2 = _ ∧ Sim w2 S2 := ⟨_, rfl, s2⟩
  have hside2 : ∀ c : Nat, c ≠ 0 → c ≠ 1 → S2.side c = sideOf {} := by
    intro c h0 h1; rw [hS2]; simp [Abs.upd, Abs.sched, World.init, h0, h1]
  have hheap2 : Heapq.IsHeap Ev.lt S2.events := by
    rw [hS2]
    exact Heapq.heappush_isHeap evLaw _ (show Heapq.IsHeap Ev.lt [] from fun k hk => absurd hk (Nat.not_lt_zero k))
  obtain ⟨w3, S3, e3, s3, h3, n3, q3, ⟨qc, p3⟩, o3, c3⟩ := hire (f := f) (List.range m) s2 hheap2 List.nodup_range (fun j hj => by
    rw [hside2 _ (by omega) (by omega)]; exact ⟨rfl, rfl⟩)
  obtain ⟨w4, hw4⟩ : ∃ w4 : World, w4 = { w3 with endOnEmpty := true } := ⟨_, rfl⟩
  have s4 := s3.running
  rw [← hw4] at s4
  have hS4 := s4.side 0
  have s5 := s4.modC (c := 0) (f := fun x => { x with status := .scheduled }) ⟨hS4.requests, hS4.waits, hS4.claims, (rfl : _ = (Side.mk .scheduled _ _ _ _ _ _).status), hS4.onList, hS4.froms, hS4.tos, hS4.item, hS4.prio, hS4.fil⟩
  obtain ⟨w6, e6, s6⟩ := s5.passive (c := 0)
  obtain ⟨S6, hS6, s6⟩ : ∃ S6, S6 = _ ∧ Sim w6 S6 := ⟨_, rfl, s6⟩
  have hside : ∀ c : Nat, c ≠ 0 → S6.side c = S3.side c := by
    intro c h0; rw [hS6]; simp [Abs.upd, h0]
  have hno : S6.now = 0 := by rw [hS6]; show S3.now = 0; rw [n3, hS2]; rfl
  have hqq : ∀ q, S6.queues q = {} := by intro q; rw [hS6]; show S3.queues q = _; rw [q3, hS2]; rfl
  have hev : S6.events = S3.events := by rw [hS6]; rfl
  refine ⟨w6, S6, ?_,
    { sim := s6, heap := by rw [hev]; exact h3, ev := ⟨1, 0, qc, ?_, by omega⟩, cn := Nat.zero_le _, ac := le_rfl, ca := by omega, gdone := fun h => absurd h (by simp)
      line := ⟨le_rfl, fun i hi => absurd hi (by simp), fun j _ i h => absurd h (by simp), fun j _ k _ i h => absurd h (by simp), ?_, fun h => absurd h (by simp), fun ⟨j, _, h⟩ => absurd h (by simp)⟩
      gdue := ?_, pdue := fun t h => absurd h (by simp [Clerks.ptime])
      deps := fun p hp => absurd hp (by simp), nodup := by simp, plain := ?_, new := ?_, asleep := fun i hi => absurd hi (by simp), gone := fun i hi => absurd hi.1 (Nat.not_lt_zero i)
      kside := ?_, cap := by rw [hqq], mem := by rw [hqq]; rfl, stays := by rw [hqq]; rfl, gmem := rfl, cmem := fun _ _ => rfl, umem0 := fun _ _ => rfl, umem1 := fun i hi => absurd hi (by simp)
      mom0 := fun _ _ => rfl, mom1 := fun i hi => absurd hi (by simp), mom2 := fun i hi => absurd hi.1 (Nat.not_lt_zero i) }⟩
  · unfold opening
    show (exec f (.create 1 none (0 : Rat) (0 : Rat) false false false) World.init ⊳ _) = _
    rw [e2, then_ok]
    show forR (_ ++ _) (exec f) w2 = _
    rw [forR_append _ _ _ e3]
    show (runStart none none ⊤ false false w3 ⊳ fun w => R.ok w) = _
    have : runStart none none ⊤ false false w3 = .ok w6 := by
      unfold runStart
      simp only
      rw [← hw4, s3.main, ← e6]
      unfold reschedule
      rw [if_neg (by simp), if_neg (by simp)]
      rfl
    rw [this, then_ok]
  · rw [hev, hno]
    have h0 : Clerks.ptime d 0 0 = none := by simp [Clerks.ptime]
    rw [h0]
    refine p3.trans ?_
    have h2 : S2.events = evs (some 0) 1 1 none := by rw [hS2]; rfl
    have h1 : S2.now = 0 := by rw [hS2]; rfl
    rw [h2, h1]
    refine List.perm_append_comm.trans ?_
    show List.Perm (evs (some 0) 1 1 none ++ _) (evs (some 0) 1 1 none ++ ([] ++ (crew m d s 0 (fun _ => .ready) qc (List.range m) ++ [])))
    rw [List.append_nil, List.nil_append]
    exact List.Perm.refl _
  · rw [hno]
    show ((List.replicate m (0 : Rat)).map (max 0)).Perm ((List.range m).map fun _ => (0 : Rat))
    rw [List.map_replicate, max_self, List.map_const', List.length_range]
  · rintro t ⟨⟩; rw [hno]; exact le_rfl
  · intro c
    by_cases h0 : c = 0
    · subst h0
      have h1 : S3.side 0 = S2.side 0 := o3 0 fun j _ => by omega
      rw [hS6]
      simp only [Abs.upd, if_true]
      show (S3.side 0).froms = [] ∧ (S3.side 0).tos = []
      rw [h1, hS2]; exact ⟨rfl, rfl⟩
    · rw [hside c h0]
      by_cases hc : ∃ j ∈ List.range m, c = j + 2
      · obtain ⟨j, hj, rfl⟩ := hc
        have := (c3 j hj).2
        rw [this.1, this.2, hside2 _ (by omega) (by omega)]; exact ⟨rfl, rfl⟩
      · rw [o3 c fun j hj e => hc ⟨j, hj, e⟩]
        by_cases h1 : c = 1
        · subst h1; rw [hS2]; exact ⟨rfl, rfl⟩
        · rw [hside2 c h0 h1]; exact ⟨rfl, rfl⟩
  · intro i _
    rw [hside _ (by omega), o3 _ (fun j hj => by have := List.mem_range.mp hj; omega), hside2 _ (by omega) (by omega)]
    exact ⟨rfl, rfl⟩
  · intro j hj
    rw [hside _ (by omega)]
    exact (c3 j (List.mem_range.mpr hj)).1

end Many

open Clerks (arrives arrives_mono)

/-- **C87.** The bank with `m` clerks, with activate and passivate (sample models/Bank, 3 clerks.py), for any interarrival and service times: a generator makes `n`
customers; a customer enters the waiting line, activates the first clerk that is passive, if any, and passivates; a clerk, as long as somebody is waiting, takes the first
customer out of the waiting line, holds for the service time and activates the customer, and passivates when nobody is waiting. Nothing is raised and the simulation comes to an end, within
`5 n + m + 1` turns. Each customer gets control exactly twice: when it arrives and when its service is over, which is the service time after `starts`, that is the moment at which service
begins according to queueing theory, as in C81. The length of stay of the waiting line holds the waiting times in order of arrival. In the end the waiting line is empty, the clerks are passive
and the customers are data components, and main gets control. -/
theorem C87_clerks (m : Nat) (hm : 0 < m) (d s : Nat → Rat) (n f : Nat) (hd : ∀ i, 0 ≤ d i) (hs : ∀ i, 0 ≤ s i) :
    ∃ w, forR (Many.opening m) (exec f) World.init = .ok w ∧ ∃ k x, k ≤ 5 * n + m + 1 ∧ Show.run f (Many.bank m d s n) k ⟨w, fun _ => .start, []⟩ = some x ∧
      (∀ i < n, x.moments (i + (m + 2)) = [arrives d i, Desk.starts m (arrives d) s i + s i]) ∧
      (x.w.queues (.user 1)).stays = (List.range n).map (fun i => Desk.starts m (arrives d) s i - arrives d i) ∧
      x.w.inQ (.user 1) = [] ∧ (∀ j < m, x.w.status (j + 2) = .passive) ∧ (∀ i < n, x.w.status (i + (m + 2)) = .data) ∧
      ∃ w', step x.w = .ok w' ∧ w'.current = w'.main := by
  obtain ⟨w, S, e, hI⟩ := Many.opened (m := m) (d := d) (s := s) (n := n) (f := f)
  obtain ⟨k, x, S', ge, C, A, G, K, P, hk, e', h, hev⟩ := Many.turns_run (f := f) hd hs (5 * n + m + 1) hI (by
    unfold Many.todo Many.load
    simp [Many.wt])
  obtain ⟨qg, qp, qc, hp, -⟩ := h.ev
  rw [hev] at hp
  have hp := hp.nil_eq.symm
  simp only [List.append_eq_nil_iff, List.map_eq_nil_iff] at hp
  obtain ⟨h1, h2, h3, h4⟩ := hp
  subst h4
  have hge : ge = true := by
    cases ge with
    | true => rfl
    | false => simp [Clerks.gtime, evs] at h1
  have hC := h.gdone hge
  have hA : C = A := by
    have := h.ac; have := h.ca
    by_contra hne
    rw [show C = A + 1 by omega] at h2
    simp [Clerks.ptime, evs] at h2
  have hK : ∀ j : Nat, j < m → K j = .passive := by
    intro j hj
    have := List.flatMap_eq_nil_iff.mp h3 j (List.mem_range.mpr hj)
    cases hKj : K j with
    | passive => rfl
    | ready => rw [hKj] at this; simp [Many.ctime, evs] at this
    | busy i => rw [hKj] at this; simp [Many.ctime, evs] at this
  have hG : A = G := by
    have h5 := h.line.heard ⟨0, hm, hK 0 hm⟩
    have h6 : (List.range m).countP (fun j => decide (K j = .ready)) = 0 := by
      rw [List.countP_eq_zero]; intro j hj; simp [hK j (List.mem_range.mp hj)]
    have := h.line.ga
    omega
  have hn : A = n := by omega
  subst hA hG hn
  have hdone : ∀ i : Nat, i < C → Many.Done m K C i := fun i hi => ⟨hi, fun j hj => by rw [hK j hj]; simp⟩
  refine ⟨w, e, k, x, hk, e', fun i hi => ?_, ?_, ?_, fun j hj => ?_, fun i hi => ?_, ?_⟩
  · exact h.mom2 i (hdone i hi) (by simp)
  · rw [h.sim.queues]; exact h.stays
  · unfold World.inQ; rw [h.sim.queues, h.mem]; simp
  · unfold World.status; rw [(h.sim.side (j + 2)).status]
    have := h.kside j hj
    rw [hK j hj] at this
    exact this.1
  · unfold World.status; rw [(h.sim.side (i + (m + 2))).status]; exact h.gone i (hdone i hi) (by simp)
  · have es : step x.w = stepEvent x.w := by
      unfold step
      split
      · rfl
      · rw [h.sim.pending]
    rw [es]
    unfold stepEvent
    rw [if_pos h.sim.standby]
    simp only
    rw [h.sim.events, hev]
    exact ⟨_, rfl, rfl⟩

/-- in the two programs for `m` clerks, of C81 and of C87, each customer begins and ends service at the same moments -/
theorem C87_same (m : Nat) (hm : 0 < m) (d s : Nat → Rat) (n f : Nat) (hd : ∀ i, 0 ≤ d i) (hs : ∀ i, 0 ≤ s i) :
    ∃ w x, forR (Bank.opening (arrives d) n) (exec (f + 10)) (Desk.office m) = .ok w ∧ Play.run (f + 10) (Bank.visit s) (3 * n) { w := w } = some x ∧
    ∃ w' k x', forR (Many.opening m) (exec f) World.init = .ok w' ∧ Show.run f (Many.bank m d s n) k ⟨w', fun _ => .start, []⟩ = some x' ∧
      (x.w.queues (.requesters 1)).stays = (x'.w.queues (.user 1)).stays ∧
      ∀ i < n, (x.moments (i + 1)).getLast? = (x'.moments (i + (m + 2))).getLast? ∧ (x.moments (i + 1)).head? = (x'.moments (i + (m + 2))).head? := by
  obtain ⟨w, e, x, e1, m1, s1, -⟩ := C81_servers m hm (arrives d) s n f le_rfl (arrives_mono hd) hs
  obtain ⟨w', e', k, x', -, e2, m2, s2, -⟩ := C87_clerks m hm d s n f hd hs
  refine ⟨w, x, e, e1, w', k, x', e', e2, s1.trans s2.symm, fun i hi => ?_⟩
  rw [m1 i hi, m2 i hi]
  exact ⟨rfl, rfl⟩

/-- two clerks, five customers: the third customer waits for the first clerk that is ready, the fourth arrives at the very moment that a service is over -/
example : ((Show.run 3 (Many.bank 2 (fun i => [2, 1, 2, 1, 0].getD i 0) (fun i => [4, 3, 3, 2, 1].getD i 0) 5) 26 ⟨execAll 3 (Many.opening 2) World.init, fun _ => .start, []⟩).map
    fun x => ([4, 5, 6, 7, 8].map x.moments, (x.w.queues (.user 1)).stays, x.w.now, x.w.events.length)) =
    some ([[0, 4], [2, 5], [3, 7], [5, 7], [6, 8]], [0, 0, 1, 0, 1], 8, 0) := by decide +kernel

end Verif
