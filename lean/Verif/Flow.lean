import Verif.Heard

/-!
# Where the items of stores go

The exact effects of entering and leaving a store, when the call returns.
-/

namespace Verif
open World

/-! ## entering and leaving -/

/-- the item is put into the store, nothing else changes -/
def PutIn (i : CId) (s : StId) (w w' : World) : Prop :=
  ∃ q' l1 l2 x, Queue.Entered w.now (w.queues (.store s)) i q' l1 l2 x ∧ w' = w.modQ (.store s) (fun _ => q')

/-- the item is taken out of the store, nothing else changes -/
def OutOf (i : CId) (s : StId) (w w' : World) : Prop :=
  ∃ q' l1 l2 x, Queue.Left w.now (w.queues (.store s)) i q' l1 l2 x ∧ w' = w.modQ (.store s) (fun _ => q')

theorem modQ_queues_other {w : World} {q p : QRef} {f : Queue → Queue} (h : p ≠ q) : (w.modQ q f).queues p = w.queues p := by
  simp [World.modQ, h]
theorem modQ_queues_self {w : World} {q : QRef} {f : Queue → Queue} : (w.modQ q f).queues q = f (w.queues q) := by
  simp [World.modQ]

theorem putIn_of {i : CId} {s : StId} {p : Option Rat} {w w' : World} (h : (match p with
      | some p => onQueue (.store s) (fun x => x.enterSorted w.now i p) w
      | none => onQueue (.store s) (fun x => x.enter w.now i) w) = .ok w') : PutIn i s w w' := by
  cases p with
  | some p =>
    obtain ⟨q', h1, h2⟩ := onQueue_ok h
    obtain ⟨l1, l2, x, hx, _⟩ := Queue.enterSorted_ok h1
    exact ⟨q', l1, l2, x, hx, h2⟩
  | none =>
    obtain ⟨q', h1, h2⟩ := onQueue_ok h
    obtain ⟨l1, l2, x, hx, _⟩ := Queue.enter_ok h1
    exact ⟨q', l1, l2, x, hx, h2⟩

theorem outOf_of {i : CId} {s : StId} {w w' : World} (h : leaveQ i (.store s) w = .ok w') : OutOf i s w w' := by
  obtain ⟨q', h1, h2⟩ := onQueue_ok h
  obtain ⟨l1, l2, x, hx⟩ := Queue.leave_ok h1
  exact ⟨q', l1, l2, x, hx, h2⟩

/-- somebody waits for an item like this -/
def wanted (w : World) (s : StId) (i : CId) : Option QMem := (w.queues (.fromReq s)).mem.find? (fun m => (w.comps m.c).fromFilter i)

theorem PutIn.comps {i s} {w w' : World} (h : PutIn i s w w') : w'.comps = w.comps := by obtain ⟨_, _, _, _, _, rfl⟩ := h; rfl
theorem PutIn.other {i s} {w w' : World} (h : PutIn i s w w') {q : QRef} (hq : q ≠ .store s) : w'.queues q = w.queues q := by
  obtain ⟨_, _, _, _, _, rfl⟩ := h; exact modQ_queues_other hq
theorem PutIn.now {i s} {w w' : World} (h : PutIn i s w w') : w'.now = w.now := by obtain ⟨_, _, _, _, _, rfl⟩ := h; rfl
theorem PutIn.events {i s} {w w' : World} (h : PutIn i s w w') : w'.events = w.events := by obtain ⟨_, _, _, _, _, rfl⟩ := h; rfl
theorem PutIn.cap {i s} {w w' : World} (h : PutIn i s w w') (q : QRef) : (w'.queues q).cap = (w.queues q).cap := by
  by_cases hq : q = .store s
  · subst hq; obtain ⟨_, _, _, _, hx, rfl⟩ := h; rw [modQ_queues_self, hx.eq]
  · rw [h.other hq]
theorem PutIn.len {i s} {w w' : World} (h : PutIn i s w w') : (w'.queues (.store s)).len = (w.queues (.store s)).len + 1 := by
  obtain ⟨_, _, _, _, hx, rfl⟩ := h
  rw [modQ_queues_self, hx.eq]
  simp only [Queue.len, hx.mem, List.length_append, List.length_cons]
  omega
theorem OutOf.comps {i s} {w w' : World} (h : OutOf i s w w') : w'.comps = w.comps := by obtain ⟨_, _, _, _, _, rfl⟩ := h; rfl
theorem OutOf.other {i s} {w w' : World} (h : OutOf i s w w') {q : QRef} (hq : q ≠ .store s) : w'.queues q = w.queues q := by
  obtain ⟨_, _, _, _, _, rfl⟩ := h; exact modQ_queues_other hq
theorem OutOf.now {i s} {w w' : World} (h : OutOf i s w w') : w'.now = w.now := by obtain ⟨_, _, _, _, _, rfl⟩ := h; rfl
theorem OutOf.events {i s} {w w' : World} (h : OutOf i s w w') : w'.events = w.events := by obtain ⟨_, _, _, _, _, rfl⟩ := h; rfl
theorem OutOf.cap {i s} {w w' : World} (h : OutOf i s w w') (q : QRef) : (w'.queues q).cap = (w.queues q).cap := by
  by_cases hq : q = .store s
  · subst hq; obtain ⟨_, _, _, _, hx, rfl⟩ := h; rw [modQ_queues_self, hx.eq]
  · rw [h.other hq]
theorem OutOf.len {i s} {w w' : World} (h : OutOf i s w w') : (w'.queues (.store s)).len + 1 = (w.queues (.store s)).len := by
  obtain ⟨_, _, _, _, hx, rfl⟩ := h
  rw [modQ_queues_self, hx.eq]
  simp only [Queue.len, hx.mem, List.length_append, List.length_cons]
  omega

theorem PutIn.wanted {i s} {w w' : World} (h : PutIn i s w w') (x y) : wanted w' x y = wanted w x y := by
  unfold Verif.wanted; rw [h.comps, h.other (by simp)]
theorem OutOf.wanted {i s} {w w' : World} (h : OutOf i s w w') (x y) : wanted w' x y = wanted w x y := by
  unfold Verif.wanted; rw [h.comps, h.other (by simp)]

/-- the item that is to enter the store as soon as there's room, but which is also wanted by a waiting component, makes that the call
never returns -/
theorem wanted_diverges (fuel : Nat) : ∀ {y : CId} {s : StId} {p : Option Rat} {w : World} {m : QMem}, headQ w (.toReq s) = some m →
    (w.comps m.c).toItem = some y → roomIn w s = true → (wanted w s y).isSome = true → ∀ w', storeEnter fuel y s p w ≠ .ok w' := by
  induction fuel using Nat.strong_induction_on with
  | _ fuel ih =>
    intro y s p w m h1 h2 h3 h4 w' h
    match fuel, h with
    | 0, h => rw [storeEnter] at h; cases h
    | 1, h =>
      rw [storeEnter.eq_def] at h
      obtain ⟨w1, e1, e2⟩ := andThen_ok h
      have k1 := putIn_of e1
      rw [show (w1.queues (.fromReq s)).mem.find? (fun m => (w1.comps m.c).fromFilter y) = wanted w s y from k1.wanted s y] at e2
      obtain ⟨m', hm'⟩ := Option.isSome_iff_exists.1 h4
      rw [hm'] at e2
      simp only [storeLeave] at e2
      cases e2
    | n + 2, h =>
      rw [storeEnter.eq_def] at h
      obtain ⟨w1, e1, e2⟩ := andThen_ok h
      have k1 := putIn_of e1
      rw [show (w1.queues (.fromReq s)).mem.find? (fun m => (w1.comps m.c).fromFilter y) = wanted w s y from k1.wanted s y] at e2
      obtain ⟨m', hm'⟩ := Option.isSome_iff_exists.1 h4
      rw [hm'] at e2
      simp only at e2
      obtain ⟨w2, e2, _⟩ := andThen_ok e2
      rw [storeLeave] at e2
      obtain ⟨w3, e3, e4⟩ := andThen_ok e2
      have k3 := outOf_of e3
      have hlen : (w3.queues (.store s)).len = (w.queues (.store s)).len := by have := k1.len; have := k3.len; omega
      have hcap : (w3.queues (.store s)).cap = (w.queues (.store s)).cap := (k3.cap _).trans (k1.cap _)
      simp only at e4
      have hroom : roomIn w3 s = true := by unfold roomIn; simp only [hlen, hcap]; exact h3
      rw [if_pos (of_decide_eq_true hroom)] at e4
      have hhead : headQ w3 (.toReq s) = some m := by
        unfold headQ; rw [k3.other (by simp), k1.other (by simp)]; exact h1
      have hcomps : w3.comps = w.comps := k3.comps.trans k1.comps
      rw [hhead] at e4
      simp only at e4
      rw [hcomps, h2] at e4
      simp only at e4
      obtain ⟨w4, e5, _⟩ := andThen_ok e4
      refine ih n (by omega) hhead (by rw [hcomps]; exact h2) hroom ?_ w4 e5
      rw [k3.wanted, k1.wanted]; exact h4

/-- a waiting component puts its item into the store and continues -/
def Filled (p : CId) (y : CId) (s : StId) (w w' : World) : Prop :=
  p ∈ w.inQ (.toReq s) ∧ (w.comps p).toItem = some y ∧ wanted w s y = none ∧ ∃ w1 w2 w3, PutIn y s w w1 ∧
    forR (w1.comps p).toStores (fun s0 => leaveQ p (.toReq s0)) w1 = .ok w2 ∧
    wake p none (w2.modC p (fun x => { x with toStores := [] })) = .ok w3 ∧ w' = w3.modC p (fun x => { x with toItem := none })

/-- `leave` -/
theorem storeLeave_exact {fuel : Nat} {i s} {w w' : World} (h : storeLeave fuel i s w = .ok w') :
    ∃ w1, OutOf i s w w1 ∧ ((w' = w1 ∧ (roomIn w1 s = false ∨ w1.inQ (.toReq s) = [])) ∨
      ∃ m y, headQ w1 (.toReq s) = some m ∧ roomIn w1 s = true ∧ Filled m.c y s w1 w') := by
  match fuel, h with
  | 0, h => rw [storeLeave] at h; cases h
  | n + 1, h =>
    rw [storeLeave] at h
    obtain ⟨w1, e1, e2⟩ := andThen_ok h
    refine ⟨w1, outOf_of e1, ?_⟩
    simp only at e2
    by_cases hr : roomIn w1 s = true
    · rw [if_pos (of_decide_eq_true hr)] at e2
      split at e2
      · rename_i hh
        cases e2
        refine .inl ⟨rfl, .inr ?_⟩
        unfold headQ at hh
        rw [List.head?_eq_none_iff] at hh
        simp [World.inQ, hh]
      · rename_i m hm
        split at e2
        · cases e2
        · rename_i y hy
          obtain ⟨w2, e3, e4⟩ := andThen_ok e2
          obtain ⟨w3, f4, e5⟩ := andThen_ok e4
          obtain ⟨w4, f5, e6⟩ := andThen_ok e5
          clear e4 e5
          cases e6
          have hw : wanted w1 s y = none := by
            by_contra hne
            exact wanted_diverges n hm hy hr (Option.isSome_iff_ne_none.2 hne) w2 e3
          refine .inr ⟨m, y, hm, hr, ?_, hy, hw, ?_⟩
          · unfold headQ at hm
            exact List.mem_map_of_mem (List.mem_of_mem_head? hm)
          · match n, e3 with
            | 0, e3 => rw [storeEnter] at e3; cases e3
            | k + 1, e3 =>
              rw [storeEnter.eq_def] at e3
              obtain ⟨w2', e7, e8⟩ := andThen_ok e3
              have k2 := putIn_of (p := some (w1.comps m.c).toPrio) (i := y) (s := s) (w := w1) e7
              rw [show (w2'.queues (.fromReq s)).mem.find? (fun m => (w2'.comps m.c).fromFilter y) = wanted w1 s y from k2.wanted s y, hw] at e8
              cases e8
              exact ⟨_, w3, w4, k2, f4, f5, rfl⟩
    · rw [if_neg (fun h => hr (decide_eq_true h))] at e2
      cases e2
      exact .inl ⟨rfl, .inl (by simpa using hr)⟩

/-- `enter` -/
theorem storeEnter_exact {fuel : Nat} {i s p} {w w' : World} (h : storeEnter fuel i s p w = .ok w') :
    ∃ w1, PutIn i s w w1 ∧ ((wanted w s i = none ∧ w' = w1) ∨
      ∃ m w2 w3, wanted w s i = some m ∧ storeLeave (fuel - 1) i s w1 = .ok w2 ∧
        forR (w2.comps m.c).fromStores (fun s0 => leaveQ m.c (.fromReq s0)) w2 = .ok w3 ∧
        wake m.c (some i) (w3.modC m.c (fun x => { x with fromStores := [], fromItem := some i })) = .ok w') := by
  match fuel, h with
  | 0, h => rw [storeEnter] at h; cases h
  | n + 1, h =>
    rw [storeEnter.eq_def] at h
    obtain ⟨w1, e1, e2⟩ := andThen_ok h
    have k1 := putIn_of e1
    refine ⟨w1, k1, ?_⟩
    rw [show (w1.queues (.fromReq s)).mem.find? (fun m => (w1.comps m.c).fromFilter i) = wanted w s i from k1.wanted s i] at e2
    split at e2
    · rename_i hm
      cases e2
      exact .inl ⟨hm, rfl⟩
    · rename_i m hm
      obtain ⟨w2, e3, e4⟩ := andThen_ok e2
      obtain ⟨w3, e4, e5⟩ := andThen_ok e4
      exact .inr ⟨m, w2, w3, hm, e3, e4, e5⟩

/-! ## the ledger -/

/-- what happens to the items: put into a store by the call itself (`none`) or on behalf of a component that was waiting to do so,
taken out by a component, or just taken out -/
inductive Move
  | put (i : CId) (s : StId) (p : Option CId)
  | take (i : CId) (s : StId) (c : CId)
  | drop (i : CId) (s : StId)
  deriving DecidableEq

def Move.taker : Move → Option CId
  | .take _ _ c => some c
  | _ => none
def Move.giver : Move → Option (Option CId)
  | .put _ _ p => some p
  | _ => none

/-- the moves, one by one, lead from the one contents of the stores to the other; nothing is put into a store that's full -/
inductive Ledger (cap : StId → ETime) : (StId → List CId) → List Move → (StId → List CId) → Prop
  | nil (C) : Ledger cap C [] C
  | put {C D : StId → List CId} {l : List Move} (i s p a b) : i ∉ C s → (((C s).length + 1 : Nat) : Rat) ≤ cap s → C s = a ++ b →
      Ledger cap (Function.update C s (a ++ i :: b)) l D → Ledger cap C (.put i s p :: l) D
  | take {C D : StId → List CId} {l : List Move} (i s c a b) : C s = a ++ i :: b → Ledger cap (Function.update C s (a ++ b)) l D →
      Ledger cap C (.take i s c :: l) D
  | drop {C D : StId → List CId} {l : List Move} (i s a b) : C s = a ++ i :: b → Ledger cap (Function.update C s (a ++ b)) l D →
      Ledger cap C (.drop i s :: l) D

theorem Ledger.append {cap : StId → ETime} {A B C : StId → List CId} {l1 l2 : List Move} (h : Ledger cap A l1 B) (h2 : Ledger cap B l2 C) :
    Ledger cap A (l1 ++ l2) C := by
  induction h with
  | nil => exact h2
  | put i s p a b h1 h3 h4 _ ih => exact .put i s p a b h1 h3 h4 (ih h2)
  | take i s c a b h1 _ ih => exact .take i s c a b h1 (ih h2)
  | drop i s a b h1 _ ih => exact .drop i s a b h1 (ih h2)

def conts (w : World) (s : StId) : List CId := w.inQ (.store s)
def caps (w : World) (s : StId) : ETime := (w.queues (.store s)).cap

theorem PutIn.led {i s} {w w' : World} (h : PutIn i s w w') (p) : Ledger (caps w) (conts w) [.put i s p] (conts w') := by
  obtain ⟨q', l1, l2, x, hx, rfl⟩ := h
  have h1 : conts w s = l1.map QMem.c ++ l2.map QMem.c := by simp [conts, World.inQ, hx.mem]
  have h2 : conts (w.modQ (.store s) (fun _ => q')) = Function.update (conts w) s (l1.map QMem.c ++ i :: l2.map QMem.c) := by
    funext t
    by_cases ht : t = s
    · subst ht; simp [conts, inQ_modQ', hx.eq, hx.xc]
    · rw [Function.update_of_ne ht]; simp [conts, inQ_modQ', ht]
  rw [h2]
  refine .put i s p _ _ ?_ ?_ h1 (.nil _)
  · intro hm
    obtain ⟨m, hm, hc⟩ := List.mem_map.1 hm
    exact hx.new m hm hc
  · have := hx.room
    simpa [Queue.Room, conts, World.inQ, caps] using this

theorem OutOf.split {i s} {w w' : World} (h : OutOf i s w w') : ∃ a b, conts w s = a ++ i :: b ∧ conts w' = Function.update (conts w) s (a ++ b) := by
  obtain ⟨q', l1, l2, x, hx, rfl⟩ := h
  refine ⟨l1.map QMem.c, l2.map QMem.c, by simp [conts, World.inQ, hx.mem, hx.xc], ?_⟩
  funext t
  by_cases ht : t = s
  · subst ht; simp [conts, inQ_modQ', hx.eq]
  · rw [Function.update_of_ne ht]; simp [conts, inQ_modQ', ht]

theorem OutOf.take {i s} {w w' : World} (h : OutOf i s w w') (cap c) : Ledger cap (conts w) [.take i s c] (conts w') := by
  obtain ⟨a, b, h1, h2⟩ := h.split
  rw [h2]; exact .take i s c a b h1 (.nil _)
theorem OutOf.drop {i s} {w w' : World} (h : OutOf i s w w') (cap) : Ledger cap (conts w) [.drop i s] (conts w') := by
  obtain ⟨a, b, h1, h2⟩ := h.split
  rw [h2]; exact .drop i s a b h1 (.nil _)

/-- leaving a number of queues -/
theorem leaves_away {c : CId} {K : StId → QRef} : ∀ (l : List StId) {w w' : World}, forR l (fun s0 => leaveQ c (K s0)) w = .ok w' →
    w'.comps = w.comps ∧ w'.now = w.now ∧ w'.events = w.events ∧ (∀ q, (∀ x, q ≠ K x) → w'.queues q = w.queues q) ∧
    (∀ q, (w'.queues q).cap = (w.queues q).cap) ∧ ∀ q d, d ∈ w'.inQ q → d ∈ w.inQ q
  | [], w, w', h => by cases h; exact ⟨rfl, rfl, rfl, fun _ _ => rfl, fun _ => rfl, fun _ _ h => h⟩
  | a :: t, w, w', h => by
    unfold forR at h
    obtain ⟨w1, h1, h2⟩ := andThen_ok h
    obtain ⟨i1, i2, i3, i4, i5, i6⟩ := leaves_away t h2
    obtain ⟨q', e1, e2⟩ := onQueue_ok h1
    obtain ⟨l1, l2, x, hx⟩ := Queue.leave_ok e1
    refine ⟨i1.trans (by rw [e2]; rfl), i2.trans (by rw [e2]; rfl), i3.trans (by rw [e2]; rfl), fun q hq => (i4 q hq).trans ?_, fun q => (i5 q).trans ?_,
      fun q d hd => ?_⟩
    · rw [e2, modQ_queues_other (hq a)]
    · rw [e2]
      by_cases hq : q = K a
      · subst hq; rw [modQ_queues_self, hx.eq]
      · rw [modQ_queues_other hq]
    · have := i6 q d hd
      rw [e2, inQ_modQ'] at this
      split at this
      · rename_i hq
        subst hq
        rw [hx.eq] at this
        simp only [World.inQ, hx.mem]
        simp only [List.map_append, List.mem_append, List.map_cons, List.mem_cons] at this ⊢
        tauto
      · exact this

/-- the event that lets the component continue -/
theorem wake_event {w w' : World} {c : CId} {ret} (hi : w.Inv) (h : wake c ret w = .ok w') : ∃ e ∈ w'.events, e.c = c ∧ e.t = w.now ∧ e.ret = ret := by
  obtain ⟨w1, h1, hr⟩ := remove_removed hi c
  unfold wake at h
  rw [h1] at h
  simp only [R.andThen] at h
  unfold reschedule at h
  rw [if_neg (by simp [setStatus, World.modC])] at h
  cases h
  simp only [push]
  exact ⟨_, (Heapq.heappush_perm _ _).mem_iff.2 List.mem_cons_self, rfl, hr.now, rfl⟩

/-- the component was waiting for an item like this and gets it -/
structure Got (i : CId) (s : StId) (c : CId) (w w' : World) : Prop where
  waits : c ∈ w.inQ (.fromReq s)
  accepts : (w.comps c).fromFilter i = true
  item : (w'.comps c).fromItem = some i
  gone : ∀ x, c ∉ w'.inQ (.fromReq x)
  status : w'.status c = .scheduled
  time : (w'.comps c).schedTime = (w.now : ETime)
  event : (∀ x, c ∉ w.inQ (.toReq x)) → ∃ e ∈ w'.events, e.c = c ∧ e.t = w.now ∧ e.ret = some i

/-- the component was waiting to put the item into the store, and has done so -/
structure Stored (p : CId) (i : CId) (s : StId) (w w' : World) : Prop where
  waits : p ∈ w.inQ (.toReq s)
  item : (w.comps p).toItem = some i
  gone : ∀ x, p ∉ w'.inQ (.toReq x)
  status : w'.status p = .scheduled
  time : (w'.comps p).schedTime = (w.now : ETime)

structure Flow (P : CId → StId → Option CId → Prop) (l : List Move) (w w' : World) : Prop where
  led : Ledger (caps w) (conts w) l (conts w')
  caps : caps w' = caps w
  now : w'.now = w.now
  taken : ∀ i s c, .take i s c ∈ l → Got i s c w w'
  takers : (l.filterMap Move.taker).Nodup
  puts : ∀ i s p, .put i s p ∈ l → (P i s p ∧ ∀ c, p = some c → ∀ x, c ∉ w.inQ (.toReq x)) ∨ ∃ c, p = some c ∧ Stored c i s w w'
  givers : (l.filterMap Move.giver).Nodup
  nodrop : ∀ i s, .drop i s ∉ l
  subF : ∀ x c, c ∈ w'.inQ (.fromReq x) → c ∈ w.inQ (.fromReq x)
  subT : ∀ x c, c ∈ w'.inQ (.toReq x) → c ∈ w.inQ (.toReq x)
  filt : ∀ c, (w'.comps c).fromFilter = (w.comps c).fromFilter
  item : ∀ x c, c ∈ w'.inQ (.toReq x) → (w'.comps c).toItem = (w.comps c).toItem
  keepF : ∀ c, (∀ x, c ∉ w.inQ (.fromReq x)) → (w'.comps c).fromItem = (w.comps c).fromItem
  keepS : ∀ c, (w'.status c = w.status c ∧ (w'.comps c).schedTime = (w.comps c).schedTime) ∨
    (w'.status c = .scheduled ∧ (w'.comps c).schedTime = (w.now : ETime))
  keepE : ∀ c, (∀ x, c ∉ w.inQ (.fromReq x)) → (∀ x, c ∉ w.inQ (.toReq x)) → ∀ e : Ev, e.c = c → (e ∈ w'.events ↔ e ∈ w.events)

/-- nothing is put but on behalf of waiting components -/
def nothing : CId → StId → Option CId → Prop := fun _ _ _ => False

theorem Flow.refl (P) (w : World) : Flow P [] w w :=
  ⟨.nil _, rfl, rfl, by simp, by simp, by simp, by simp, by simp, fun _ _ h => h, fun _ _ h => h, fun _ => rfl, fun _ _ _ => rfl, fun _ _ => rfl,
    fun _ => .inl ⟨rfl, rfl⟩, fun _ _ _ _ _ => Iff.rfl⟩

theorem taker_mem {l : List Move} {c : CId} (h : c ∈ l.filterMap Move.taker) : ∃ i s, .take i s c ∈ l := by
  obtain ⟨m, hm, hc⟩ := List.mem_filterMap.1 h
  cases m <;> simp [Move.taker] at hc
  subst hc; exact ⟨_, _, hm⟩
theorem giver_mem {l : List Move} {p : Option CId} (h : p ∈ l.filterMap Move.giver) : ∃ i s, .put i s p ∈ l := by
  obtain ⟨m, hm, hc⟩ := List.mem_filterMap.1 h
  cases m <;> simp [Move.giver] at hc
  subst hc; exact ⟨_, _, hm⟩

theorem Flow.trans {P l1 l2} {a b d : World} (h : Flow P l1 a b) (h2 : Flow nothing l2 b d) : Flow P (l1 ++ l2) a d where
  led := h.led.append (by rw [← h.caps]; exact h2.led)
  caps := h2.caps.trans h.caps
  now := h2.now.trans h.now
  taken i s c hm := by
    rcases List.mem_append.1 hm with hm | hm
    · have g := h.taken i s c hm
      refine ⟨g.waits, g.accepts, (h2.keepF c g.gone).trans g.item, fun x hx => g.gone x (h2.subF x c hx), ?_, ?_, fun ht => ?_⟩
      · rcases h2.keepS c with ⟨k, _⟩ | ⟨k, _⟩
        · exact k.trans g.status
        · exact k
      · rcases h2.keepS c with ⟨_, k⟩ | ⟨_, k⟩
        · exact k.trans g.time
        · rw [k, h.now]
      · obtain ⟨e, h3, h4, h5⟩ := g.event ht
        exact ⟨e, (h2.keepE c g.gone (fun x hx => ht x (h.subT x c hx)) e h4).2 h3, h4, h5⟩
    · have g := h2.taken i s c hm
      refine ⟨h.subF _ _ g.waits, by rw [← h.filt]; exact g.accepts, g.item, g.gone, g.status, by rw [g.time, h.now], fun ht => ?_⟩
      rw [← h.now]
      exact g.event fun x hx => ht x (h.subT x c hx)
  takers := by
    rw [List.filterMap_append, List.nodup_append]
    refine ⟨h.takers, h2.takers, fun c hc d hd hcd => ?_⟩
    subst hcd
    obtain ⟨i, s, h3⟩ := taker_mem hc
    obtain ⟨j, t, h4⟩ := taker_mem hd
    exact (h.taken _ _ _ h3).gone _ (h2.taken _ _ _ h4).waits
  puts i s p hm := by
    rcases List.mem_append.1 hm with hm | hm
    · rcases h.puts i s p hm with g | ⟨c, hp, g⟩
      · exact .inl g
      · refine .inr ⟨c, hp, g.waits, g.item, fun x hx => g.gone x (h2.subT x c hx), ?_, ?_⟩
        · rcases h2.keepS c with ⟨k, _⟩ | ⟨k, _⟩
          · exact k.trans g.status
          · exact k
        · rcases h2.keepS c with ⟨_, k⟩ | ⟨_, k⟩
          · exact k.trans g.time
          · rw [k, h.now]
    · rcases h2.puts i s p hm with g | ⟨c, hp, g⟩
      · exact g.1.elim
      · exact .inr ⟨c, hp, h.subT _ _ g.waits, by rw [← h.item _ _ g.waits]; exact g.item, g.gone, g.status, by rw [g.time, h.now]⟩
  givers := by
    rw [List.filterMap_append, List.nodup_append]
    refine ⟨h.givers, h2.givers, fun p hp q hq hpq => ?_⟩
    subst hpq
    obtain ⟨i, s, h3⟩ := giver_mem hp
    obtain ⟨j, t, h4⟩ := giver_mem hq
    rcases h2.puts _ _ _ h4 with g | ⟨c, rfl, g⟩
    · exact g.1
    · rcases h.puts _ _ _ h3 with ⟨_, g1⟩ | ⟨c', hc', g1⟩
      · exact g1 c rfl _ (h.subT _ _ g.waits)
      · cases hc'
        exact g1.gone _ g.waits
  nodrop i s hm := by
    rcases List.mem_append.1 hm with hm | hm
    · exact h.nodrop _ _ hm
    · exact h2.nodrop _ _ hm
  subF x c hc := h.subF x c (h2.subF x c hc)
  subT x c hc := h.subT x c (h2.subT x c hc)
  filt c := (h2.filt c).trans (h.filt c)
  item x c hc := (h2.item x c hc).trans (h.item x c (h2.subT x c hc))
  keepF c hc := (h2.keepF c fun x hx => hc x (h.subF x c hx)).trans (h.keepF c hc)
  keepS c := by
    rcases h2.keepS c with ⟨k1, k2⟩ | ⟨k1, k2⟩
    · rcases h.keepS c with ⟨j1, j2⟩ | ⟨j1, j2⟩
      · exact .inl ⟨k1.trans j1, k2.trans j2⟩
      · exact .inr ⟨k1.trans j1, k2.trans j2⟩
    · exact .inr ⟨k1, by rw [k2, h.now]⟩
  keepE c hc ht e he := (h2.keepE c (fun x hx => hc x (h.subF x c hx)) (fun x hx => ht x (h.subT x c hx)) e he).trans (h.keepE c hc ht e he)

/-! ## the calls -/

theorem putIn_flow {i s} {w w' : World} (h : PutIn i s w w') (p : Option CId) (hp : ∀ c, p = some c → ∀ x, c ∉ w.inQ (.toReq x)) :
    Flow (fun j t r => j = i ∧ t = s ∧ r = p) [.put i s p] w w' where
  led := h.led p
  caps := by funext t; exact h.cap _
  now := h.now
  taken := by simp
  takers := List.nodup_nil
  puts j t r hm := by
    simp only [List.mem_singleton, Move.put.injEq] at hm
    obtain ⟨rfl, rfl, rfl⟩ := hm
    exact .inl ⟨⟨rfl, rfl, rfl⟩, hp⟩
  givers := List.nodup_singleton _
  nodrop := by simp
  subF x c hc := by simpa only [World.inQ, h.other (q := .fromReq x) (by simp)] using hc
  subT x c hc := by simpa only [World.inQ, h.other (q := .toReq x) (by simp)] using hc
  filt c := by rw [h.comps]
  item x c _ := by rw [h.comps]
  keepF c _ := by rw [h.comps]
  keepS c := .inl ⟨by rw [World.status, h.comps], by rw [h.comps]⟩
  keepE c _ _ e _ := by rw [h.events]

theorem PutIn.good {e : Set CId} {i s} {w w' : World} (hg : Good e w) (h : PutIn i s w w') : Good e w' := by
  obtain ⟨q', l1, l2, x, hx, he⟩ := h
  refine (tr_queue (q := .store s) (f := fun _ => .ok q') hg rfl (by rw [he]; rfl) fun q'' hq'' => ?_).good
  cases hq''
  exact .entered _ _ _ _ hx
theorem OutOf.good {e : Set CId} {i s} {w w' : World} (hg : Good e w) (h : OutOf i s w w') : Good e w' := by
  obtain ⟨q', l1, l2, x, hx, he⟩ := h
  refine (tr_queue (q := .store s) (f := fun _ => .ok q') hg rfl (by rw [he]; rfl) fun q'' hq'' => ?_).good
  cases hq''
  exact .left _ _ _ _ hx

/-- a component leaves the queues of the stores it wanted to put an item in, and continues -/
structure Through (p : CId) (w w' : World) : Prop where
  queues : ∀ q, (∀ x, q ≠ .toReq x) → w'.queues q = w.queues q
  sub : ∀ x c, c ∈ w'.inQ (.toReq x) → c ∈ w.inQ (.toReq x)
  gone : ∀ x, p ∉ w'.inQ (.toReq x)
  other : ∀ c, c ≠ p → w'.comps c = w.comps c
  filt : (w'.comps p).fromFilter = (w.comps p).fromFilter
  item : (w'.comps p).fromItem = (w.comps p).fromItem
  status : w'.status p = .scheduled
  time : (w'.comps p).schedTime = (w.now : ETime)
  now : w'.now = w.now
  evs : ∀ e : Ev, e.c ≠ p → (e ∈ w'.events ↔ e ∈ w.events)

theorem through_of {e : Set CId} {p} {w1 w2 w3 : World} (g1 : Good e w1) (h2 : forR (w1.comps p).toStores (fun s0 => leaveQ p (.toReq s0)) w1 = .ok w2)
    (h3 : wake p none (w2.modC p (fun x => { x with toStores := [] })) = .ok w3) : Through p w1 (w3.modC p (fun x => { x with toItem := none })) := by
  obtain ⟨c2, n2, e2, q2, cap2, sub2⟩ := leaves_away (K := fun s => .toReq s) _ h2
  obtain ⟨l2, gone2⟩ := leaveTo_good g1 h2
  have g2 := l2.good g1
  obtain ⟨w3', h3', k⟩ := wake_woken (w := w2.modC p (fun x => { x with toStores := [] })) (inv_of_ev (ev_modC (fun _ => rfl)) g2.inv) p none
  rw [h3'] at h3; cases h3
  refine ⟨fun q hq => ?_, fun x c hc => ?_, fun x hx => ?_, fun c hc => ?_, ?_, ?_, ?_, ?_, ?_, fun e he => ?_⟩
  · exact (congrFun k.queues q).trans (q2 q hq)
  · refine sub2 _ _ ?_
    have : c ∈ w3.inQ (.toReq x) := hc
    rwa [World.inQ, k.queues] at this
  · refine gone2 x ?_
    have : p ∈ w3.inQ (.toReq x) := hx
    rwa [World.inQ, k.queues] at this
  · rw [modC_other hc, k.other c hc, modC_other hc, c2]
  · rw [modC_self, k.self, modC_self, c2]
  · rw [modC_self, k.self, modC_self, c2]
  · rw [World.status, modC_self, k.self]
  · rw [modC_self, k.self]; exact congrArg _ n2
  · exact k.now.trans n2
  · have h1 := k.evs e he
    have h4 : (w2.modC p (fun x => { x with toStores := [] })).events = w1.events := e2
    rw [h4] at h1
    exact h1

theorem Through.flow {p} {w w' : World} (h : Through p w w') {s} (hp : p ∈ w.inQ (.toReq s)) : Flow nothing [] w w' where
  led := by
    have : conts w' = conts w := by
      funext s; simp only [conts, World.inQ]; rw [h.queues (.store s) (by simp)]
    rw [this]; exact .nil _
  caps := by funext s; simp only [Verif.caps]; rw [h.queues (.store s) (by simp)]
  now := h.now
  taken := by simp
  takers := by simp
  puts := by simp
  givers := by simp
  nodrop := by simp
  subF x c hc := by simpa only [World.inQ, h.queues (.fromReq x) (by simp)] using hc
  subT := h.sub
  filt c := by
    by_cases hc : c = p
    · rw [hc]; exact h.filt
    · rw [h.other c hc]
  item x c hx := by
    have : c ≠ p := by rintro rfl; exact h.gone x hx
    rw [h.other c this]
  keepF c _ := by
    by_cases hc : c = p
    · rw [hc]; exact h.item
    · rw [h.other c hc]
  keepS c := by
    by_cases hc : c = p
    · rw [hc]; exact .inr ⟨h.status, h.time⟩
    · exact .inl ⟨by rw [World.status, h.other c hc], by rw [h.other c hc]⟩
  keepE c _ ht e he := by
    refine h.evs e ?_
    rintro rfl
    rw [he] at hp
    exact ht _ hp

theorem filled_flow {e : Set CId} {p y s} {w w' : World} (hg : Good e w) (h : Filled p y s w w') :
    Flow nothing [.put y s (some p)] w w' := by
  obtain ⟨hw, hi, _, w1, w2, w3, k1, h2, h3, rfl⟩ := h
  have g1 := k1.good hg
  have t := through_of g1 h2 h3
  have hw1 : p ∈ w1.inQ (.toReq s) := by rw [World.inQ, k1.other (by simp)]; exact hw
  have f := t.flow hw1
  have hsubT : ∀ x c, c ∈ (w3.modC p (fun x => { x with toItem := none })).inQ (.toReq x) → c ∈ w.inQ (.toReq x) := by
    intro x c hc
    have := f.subT x c hc
    rwa [World.inQ, k1.other (by simp)] at this
  have hFr : ∀ x, w1.inQ (.fromReq x) = w.inQ (.fromReq x) := fun x => by rw [World.inQ, k1.other (by simp)]; rfl
  have hTo : ∀ x, w1.inQ (.toReq x) = w.inQ (.toReq x) := fun x => by rw [World.inQ, k1.other (by simp)]; rfl
  exact
  { led := by
      have h1 := k1.led (some p)
      have h4 : conts (w3.modC p (fun x => { x with toItem := none })) = conts w1 := by
        funext s; simp only [conts, World.inQ]; rw [t.queues (.store s) (by simp)]
      rw [h4]; exact h1
    caps := f.caps.trans (by funext x; exact k1.cap _)
    now := f.now.trans k1.now
    taken := by simp
    takers := List.nodup_nil
    puts := fun i x r hm => by
      simp only [List.mem_singleton, Move.put.injEq] at hm
      obtain ⟨rfl, rfl, rfl⟩ := hm
      exact .inr ⟨p, rfl, hw, hi, t.gone, t.status, by rw [t.time, k1.now]⟩
    givers := List.nodup_singleton _
    nodrop := by simp
    subF := fun x c hc => by rw [← hFr]; exact f.subF x c hc
    subT := hsubT
    filt := fun c => by rw [f.filt, k1.comps]
    item := fun x c hc => by rw [f.item x c hc, k1.comps]
    keepF := fun c hc => by rw [f.keepF c (fun x => by rw [hFr]; exact hc x), k1.comps]
    keepS := fun c => by
      have := f.keepS c
      rwa [World.status, World.status, k1.comps, k1.now] at this
    keepE := fun c hc ht e he => by
      rw [f.keepE c (fun x => by rw [hFr]; exact hc x) (fun x => by rw [hTo]; exact ht x) e he, k1.events] }

/-- what happens when the number of items in the store becomes `n` by taking an item out of it: the first of the components that wait to put an item into
the store, if there's one, puts in its item, provided that there's room -/
def Refill (w : World) (s : StId) (n : Nat) (l : List Move) : Prop :=
  (l = [] ∧ (w.inQ (.toReq s) = [] ∨ ¬ ((n : Rat) : ETime) < (w.queues (.store s)).cap)) ∨
  ∃ p t y, w.inQ (.toReq s) = p :: t ∧ ((n : Rat) : ETime) < (w.queues (.store s)).cap ∧ (w.comps p).toItem = some y ∧ l = [.put y s (some p)]

theorem Refill.one {w : World} {s : StId} {n : Nat} {l : List Move} (h : Refill w s n l) : l = [] ∨ ∃ y p, l = [.put y s (some p)] := by
  rcases h with ⟨h, _⟩ | ⟨p, _, y, _, _, _, h⟩
  exacts [.inl h, .inr ⟨y, p, h⟩]

/-- it depends on the waiting components, the items they bring and the capacity, only -/
theorem Refill.congr {w w' : World} {s : StId} {n : Nat} {l : List Move} (h : Refill w s n l) (hq : w'.inQ (.toReq s) = w.inQ (.toReq s))
    (hk : (w'.queues (.store s)).cap = (w.queues (.store s)).cap) (hi : ∀ p ∈ w.inQ (.toReq s), (w'.comps p).toItem = (w.comps p).toItem) :
    Refill w' s n l := by
  rcases h with ⟨h, h2⟩ | ⟨p, t, y, h1, h2, h3, h4⟩
  · exact .inl ⟨h, by rw [hq, hk]; exact h2⟩
  · exact .inr ⟨p, t, y, hq.trans h1, by rw [hk]; exact h2, by rw [hi p (by rw [h1]; simp)]; exact h3, h4⟩

theorem roomIn_lt {w : World} {s : StId} : roomIn w s = true ↔ (((w.queues (.store s)).len : Nat) : Rat) < (w.queues (.store s)).cap := by
  unfold roomIn ETime.subQ
  simp only [decide_eq_true_eq]
  cases (w.queues (.store s)).cap using WithTop.recTopCoe with
  | top => simp
  | coe k => simp only [WithTop.map_coe, gt_iff_lt]; rw [WithTop.coe_lt_coe, WithTop.coe_lt_coe, sub_pos]

/-- `leave`: the item is taken out, after which a waiting component may put its item in -/
theorem storeLeave_flow {e : Set CId} {fuel : Nat} {i s} {w w' : World} (hg : Good e w) (h : storeLeave fuel i s w = .ok w') :
    ∃ w1 l, OutOf i s w w1 ∧ Flow nothing l w1 w' ∧ Refill w s ((w.queues (.store s)).len - 1) l := by
  obtain ⟨w1, k1, h1⟩ := storeLeave_exact h
  have hn : (w.queues (.store s)).len - 1 = (w1.queues (.store s)).len := by have := k1.len; omega
  have hq : w.inQ (.toReq s) = w1.inQ (.toReq s) := by simp only [World.inQ]; rw [k1.other (by simp)]
  have hr : ((((w.queues (.store s)).len - 1 : Nat) : Rat) : ETime) < (w.queues (.store s)).cap ↔ roomIn w1 s = true := by
    rw [roomIn_lt, hn, k1.cap]
  rcases h1 with ⟨rfl, h1⟩ | ⟨m, y, h1, h2, hf⟩
  · refine ⟨_, [], k1, .refl _ _, .inl ⟨rfl, ?_⟩⟩
    rcases h1 with h1 | h1
    · exact .inr fun h2 => by rw [hr.1 h2] at h1; cases h1
    · exact .inl (hq.trans h1)
  · refine ⟨w1, _, k1, filled_flow (k1.good hg) hf, .inr ?_⟩
    unfold headQ at h1
    obtain ⟨t, ht⟩ : ∃ t, (w1.queues (.toReq s)).mem = m :: t := by
      cases hm : (w1.queues (.toReq s)).mem with
      | nil => rw [hm] at h1; cases h1
      | cons a t => rw [hm] at h1; cases h1; exact ⟨t, rfl⟩
    refine ⟨m.c, t.map (·.c), y, by rw [hq, World.inQ, ht]; rfl, hr.2 h2, ?_, rfl⟩
    rw [← k1.comps]; exact hf.2.1

/-- `enter`: the item is put in, and the first component that wants it gets it; then a waiting component may put its item in -/
theorem storeEnter_flow {e : Set CId} {fuel : Nat} {i s r} {w w' : World} (hg : Good e w) (h : storeEnter fuel i s r w = .ok w')
    (p : Option CId) (hp : ∀ c, p = some c → ∀ x, c ∉ w.inQ (.toReq x)) :
    ∃ l, Flow (fun j t r => j = i ∧ t = s ∧ r = p) (.put i s p :: l) w w' ∧
      ((wanted w s i = none ∧ l = []) ∨ ∃ m l', wanted w s i = some m ∧ l = .take i s m.c :: l' ∧ Refill w s (w.queues (.store s)).len l') := by
  obtain ⟨w1, k1, h1⟩ := storeEnter_exact h
  have f1 := putIn_flow k1 p hp
  rcases h1 with ⟨hn, rfl⟩ | ⟨m, w2, w3, hm, h2, h3, h4⟩
  · exact ⟨[], f1, .inl ⟨hn, rfl⟩⟩
  obtain ⟨wb, l, kb, f2, hl⟩ := storeLeave_flow (k1.good hg) h2
  have hl1 : (w1.queues (.store s)).len - 1 = (w.queues (.store s)).len := by have := k1.len; omega
  rw [hl1] at hl
  refine ⟨.take i s m.c :: l, ?_, .inr ⟨m, l, hm, rfl, hl.congr ?_ (k1.cap _).symm (fun p _ => by rw [k1.comps])⟩⟩
  swap
  · simp only [World.inQ]; rw [k1.other (by simp)]
  replace hl := hl.one
  have g2 : Good e w2 := ((trR_store e _).2 _ _ _ (k1.good hg) w2 h2).good
  obtain ⟨c3, n3, e3, q3, cap3, sub3⟩ := leaves_away (K := fun s => .fromReq s) _ h3
  obtain ⟨l3, gone3⟩ := leaveFrom_good g2 h3
  have g3 := l3.good g2
  have hinv : (w3.modC m.c (fun x => { x with fromStores := [], fromItem := some i })).Inv := inv_of_ev (ev_modC (fun _ => rfl)) g3.inv
  have hev := wake_event hinv h4
  obtain ⟨w4, h4', k4⟩ := wake_woken hinv m.c (some i)
  rw [h4'] at h4; cases h4
  have hmw : m.c ∈ w.inQ (.fromReq s) := List.mem_map_of_mem (List.mem_of_find?_eq_some hm)
  have hacc : (w.comps m.c).fromFilter i = true := by
    have := List.find?_some hm
    simpa using this
  have hFr : ∀ x, wb.inQ (.fromReq x) = w.inQ (.fromReq x) := fun x => by
    rw [World.inQ, kb.other (by simp), k1.other (by simp)]; rfl
  have hTo : ∀ x, wb.inQ (.toReq x) = w.inQ (.toReq x) := fun x => by
    rw [World.inQ, kb.other (by simp), k1.other (by simp)]; rfl
  have hqs : ∀ q, (∀ x, q ≠ .fromReq x) → w'.queues q = w2.queues q := fun q hq => (congrFun k4.queues q).trans (q3 q hq)
  have hcb : wb.comps = w.comps := kb.comps.trans k1.comps
  have hnb : wb.now = w.now := kb.now.trans k1.now
  have hn2 : w2.now = w.now := f2.now.trans hnb
  have hnow : w'.now = w.now := (k4.now.trans n3).trans hn2
  have htime : (w3.modC m.c (fun x => { x with fromStores := [], fromItem := some i })).now = w.now := n3.trans hn2
  have hoth : ∀ c, c ≠ m.c → w'.comps c = w2.comps c := fun c hc => by rw [k4.other c hc, modC_other hc, c3]
  have hcon : conts w' = conts w2 := by funext x; simp only [conts, World.inQ]; rw [hqs _ (by simp)]
  have hst : w'.status m.c = .scheduled := by rw [World.status, k4.self]
  have htm : (w'.comps m.c).schedTime = (w.now : ETime) := by rw [k4.self, htime]
  have hit : (w'.comps m.c).fromItem = some i := by rw [k4.self, modC_self]
  have hgone : ∀ x, m.c ∉ w'.inQ (.fromReq x) := fun x hx => by
    rw [World.inQ, k4.queues] at hx; exact gone3 x hx
  have hsubT : ∀ x c, c ∈ w'.inQ (.toReq x) → c ∈ w2.inQ (.toReq x) := fun x c hc => by
    rw [World.inQ, hqs _ (by simp)] at hc; exact hc
  have hsubF : ∀ x c, c ∈ w'.inQ (.fromReq x) → c ∈ w2.inQ (.fromReq x) := fun x c hc => by
    rw [World.inQ, k4.queues] at hc; exact sub3 _ _ hc
  have hevs : ∀ ev : Ev, ev.c ≠ m.c → (ev ∈ w'.events ↔ ev ∈ w2.events) := fun ev he => by
    have := k4.evs ev he
    rw [this]
    have h5 : (w3.modC m.c (fun x => { x with fromStores := [], fromItem := some i })).events = w2.events := e3
    rw [h5]
  have hput : ∀ j t r, .put j t r ∈ l → ∃ c, r = some c ∧ Stored c j t w w' := by
    intro j t r hmem
    rcases f2.puts _ _ _ hmem with ⟨g, _⟩ | ⟨c, rfl, g⟩
    · exact g.elim
    refine ⟨c, rfl, by rw [← hTo]; exact g.waits, by rw [← hcb]; exact g.item, fun x hx => g.gone x (hsubT x c hx), ?_, ?_⟩
    · by_cases hc : c = m.c
      · rw [hc]; exact hst
      · rw [World.status, hoth c hc]; exact g.status
    · by_cases hc : c = m.c
      · rw [hc]; exact htm
      · rw [hoth c hc, g.time, hnb]
  exact
  { led := by
      have h5 := f1.led.append (kb.take (caps w) m.c)
      have h6 := f2.led
      rw [show caps wb = caps w by funext x; exact (kb.cap _).trans (k1.cap _)] at h6
      rw [hcon]
      exact h5.append h6
    caps := by
      funext x
      simp only [caps]
      rw [hqs _ (by simp)]
      exact (congrFun f2.caps x).trans ((kb.cap _).trans (k1.cap _))
    now := hnow
    taken := fun j t c hmem => by
      simp only [List.mem_cons, reduceCtorEq, false_or, Move.take.injEq] at hmem
      rcases hmem with ⟨rfl, rfl, rfl⟩ | hmem
      · refine ⟨hmw, hacc, hit, hgone, hst, htm, fun _ => ?_⟩
        obtain ⟨ev, h5, h6, h7, h8⟩ := hev
        exact ⟨ev, h5, h6, h7.trans htime, h8⟩
      · rcases hl with rfl | ⟨y, q, rfl⟩ <;> simp at hmem
    takers := by rcases hl with rfl | ⟨y, q, rfl⟩ <;> exact List.nodup_singleton _
    puts := fun j t r hmem => by
      simp only [List.mem_cons, reduceCtorEq, false_or, Move.put.injEq] at hmem
      rcases hmem with ⟨rfl, rfl, rfl⟩ | hmem
      · exact .inl ⟨⟨rfl, rfl, rfl⟩, hp⟩
      · exact .inr (hput j t r hmem)
    givers := by
      have := f2.givers
      show (p :: l.filterMap Move.giver).Nodup
      refine List.nodup_cons.2 ⟨fun hmem => ?_, this⟩
      obtain ⟨j, t, hmem⟩ := giver_mem hmem
      obtain ⟨c, hc, g⟩ := hput j t p hmem
      exact hp c hc _ g.waits
    nodrop := fun j t hmem => by
      simp only [List.mem_cons, reduceCtorEq, false_or] at hmem
      exact f2.nodrop _ _ hmem
    subF := fun x c hc => by rw [← hFr]; exact f2.subF x c (hsubF x c hc)
    subT := fun x c hc => by rw [← hTo]; exact f2.subT x c (hsubT x c hc)
    filt := fun c => by
      have h5 : (w2.comps c).fromFilter = (w.comps c).fromFilter := by rw [f2.filt, hcb]
      by_cases hc : c = m.c
      · rw [hc, k4.self, modC_self, c3, ← hc]; exact h5
      · rw [hoth c hc]; exact h5
    item := fun x c hc => by
      have h5 : (w2.comps c).toItem = (w.comps c).toItem := by rw [f2.item x c (hsubT x c hc), hcb]
      by_cases hc : c = m.c
      · rw [hc, k4.self, modC_self, c3, ← hc]; exact h5
      · rw [hoth c hc]; exact h5
    keepF := fun c hc => by
      have hne : c ≠ m.c := by rintro rfl; exact hc _ hmw
      rw [hoth c hne, f2.keepF c (fun x => by rw [hFr]; exact hc x), hcb]
    keepS := fun c => by
      by_cases hc : c = m.c
      · rw [hc]; exact .inr ⟨hst, htm⟩
      · have := f2.keepS c
        rw [World.status, World.status, hcb, hnb] at this
        rw [World.status, World.status, hoth c hc]
        exact this
    keepE := fun c hc ht ev he => by
      have hne : ev.c ≠ m.c := by rintro h5; rw [he] at h5; rw [h5] at hc; exact hc _ hmw
      rw [hevs ev hne, f2.keepE c (fun x => by rw [hFr]; exact hc x) (fun x => by rw [hTo]; exact ht x) ev he, kb.events, k1.events] }

end Verif
