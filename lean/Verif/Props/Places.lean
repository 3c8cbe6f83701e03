import Verif.Props.Lines
import Verif.Enrolled

/-!
# The place of an item in a store (C73)
-/

namespace Verif
open World

/-! ## specification -/

/-- component `c` offers item `y` with priority `p`: it does so already before the call (then it's waiting for room, or has given up), or the call is
the `to_store` in which it does so -/
def Offers (w : World) (o : Op) (c y : CId) (p : Rat) : Prop :=
  ((w.comps c).toItem = some y ∧ (w.comps c).toPrio = p) ∨ match o with
  | .toStore d _ i _ sp .. => d = c ∧ i = y ∧ sp = p
  | _ => False

/-- where an item of the store comes from: it was there already, with this priority; or it was offered with this priority; or the call puts it there, with
this priority if one is given -/
def Origin (w : World) (o : Op) (s : StId) (m : QMem) : Prop :=
  m ∈ (w.queues (.store s)).mem ∨ (∃ c, Offers w o c m.c m.prio) ∨ match o with
  | .storeEnter i t r => i = m.c ∧ t = s ∧ ∀ p, r = some p → m.prio = p
  | _ => False

/-- the filter for which `c` waits is the one it had before the call, or the one of this call -/
def Accepts (w : World) (o : Op) (c : CId) (f : CId → Bool) : Prop :=
  f = (w.comps c).fromFilter ∨ match o with
  | .fromStore d _ g .. => d = c ∧ g = f
  | _ => False

/-! ## the calls -/

structure Goods (O : CId → CId → Rat → Prop) (A : StId → QMem → Prop) (L : CId → (CId → Bool) → Prop) (w : World) : Prop where
  offer : ∀ c y, (w.comps c).toItem = some y → O c y (w.comps c).toPrio
  item : ∀ s, ∀ m ∈ (w.queues (.store s)).mem, A s m
  filt : ∀ c, L c (w.comps c).fromFilter

section
variable {O : CId → CId → Rat → Prop} {A : StId → QMem → Prop} {L : CId → (CId → Bool) → Prop}

theorem Goods.modC {w : World} (h : Goods O A L w) (c : CId) {f : Comp → Comp}
    (h1 : ∀ x, ((f x).toItem = x.toItem ∧ (f x).toPrio = x.toPrio) ∨ (f x).toItem = none := by
      intro _; first | exact .inl ⟨rfl, rfl⟩ | exact .inr rfl)
    (h2 : ∀ x, (f x).fromFilter = x.fromFilter := by intro _; rfl) : Goods O A L (w.modC c f) := by
  refine ⟨fun d y hd => ?_, h.item, fun d => ?_⟩
  · by_cases e : d = c
    · subst e
      rw [modC_self] at hd ⊢
      rcases h1 (w.comps d) with ⟨k1, k2⟩ | k
      · rw [k1] at hd; rw [k2]; exact h.offer d y hd
      · rw [k] at hd; cases hd
    · rw [modC_other e] at hd ⊢; exact h.offer d y hd
  · by_cases e : d = c
    · subst e; rw [modC_self, h2]; exact h.filt d
    · rw [modC_other e]; exact h.filt d

theorem Goods.modQ {w : World} (h : Goods O A L w) {q : QRef} {f : Queue → Queue} (hf : ∀ s, q = .store s → ∀ m ∈ (f (w.queues q)).mem, A s m) :
    Goods O A L (w.modQ q f) := by
  refine ⟨h.offer, fun s m hm => ?_, h.filt⟩
  by_cases e : QRef.store s = q
  · rw [e] at hm
    simp only [World.modQ, if_true] at hm
    exact hf s e.symm m hm
  · simp only [World.modQ, if_neg e] at hm
    exact h.item s m hm

theorem Goods.frame {w w' : World} (h : Goods O A L w) (h1 : w'.comps = w.comps) (h2 : w'.queues = w.queues) : Goods O A L w' :=
  ⟨by rw [h1]; exact h.offer, by rw [h2]; exact h.item, by rw [h1]; exact h.filt⟩

theorem Goods.on {w : World} (h : Goods O A L w) {q : QRef} {f} (hq : ∀ s, q ≠ .store s) : Po (Goods O A L) (onQueue q f w) := by
  unfold onQueue
  split
  · exact h.modQ fun s e => absurd e (hq s)
  · trivial

theorem Goods.leave {w : World} (h : Goods O A L w) (c q) : Po (Goods O A L) (leaveQ c q w) := by
  refine Po.of fun w' hw => ?_
  obtain ⟨q', h1, rfl⟩ := onQueue_ok hw
  obtain ⟨l1, l2, x, hl⟩ := Queue.leave_ok h1
  refine h.modQ fun s e m hm => h.item s m ?_
  subst e
  rw [hl.eq] at hm
  rw [hl.mem]
  simp only [List.mem_append, List.mem_cons] at hm ⊢
  tauto

theorem Goods.leaveW {w : World} (h : Goods O A L w) (c x) : Po (Goods O A L) (leaveWaiters c x w) := by
  unfold leaveWaiters
  split
  · exact h.leave _ _
  · exact h

theorem goods_base : Base (Goods O A L) := by
  refine ⟨fun h h1 h2 _ => h.frame h1 h2, ?_, ?_, ?_, ?_, ?_, ?_⟩
  · intro w c f h h1 _
    exact h.modC c (fun x => .inl ⟨congrArg WC.toItem (h1 x), congrArg WC.toPrio (h1 x)⟩) (fun x => congrArg WC.fromFilter (h1 x))
  · intro w q f h hq
    exact h.modQ fun s e => by subst e; cases hq
  · intro w q _ _ h
    exact h.modQ fun s e m hm => by subst e; exact h.item s m hm
  · intro w w' c h hf
    unfold checkFailWait at hf
    split at hf
    · cases hf; exact h
    · obtain ⟨w1, h1, h2⟩ := andThen_ok hf
      have e1 := (Po.forR (P := Goods O A L) (fun x w h => h.leaveW c x) _ _ h).to h1
      cases h2
      exact e1.modC c
  · intro w w' c h hf
    unfold checkFailFrom at hf
    split at hf
    · cases hf; exact h
    · obtain ⟨w1, h1, h2⟩ := andThen_ok hf
      have e1 := (Po.forR (P := Goods O A L) (fun x w h => h.leave c (.fromReq x)) _ _ h).to h1
      cases h2
      exact e1.modC c
  · intro w w' c h hf
    unfold checkFailTo at hf
    split at hf
    · cases hf; exact h
    · obtain ⟨w1, h1, h2⟩ := andThen_ok hf
      have e1 := (Po.forR (P := Goods O A L) (fun x w h => h.leave c (.toReq x)) _ _ h).to h1
      cases h2
      exact e1.modC c

theorem goods_tryWait {w : World} (h : Goods O A L w) (c) : Po (Goods O A L) (tryWait c w).1 := by
  unfold tryWait
  split
  · exact h
  · split
    · exact (Po.forR (fun x w h => h.leaveW c x) _ _ h).andThen fun w h => bs_wake goods_base (h.modC c) _ _
    · exact h

theorem goods_stateTryWait : ∀ (l : List CId) (mx) {w : World}, Goods O A L w → Po (Goods O A L) (stateTryWait l mx w)
  | [], mx, w, h => h
  | c :: t, mx, w, h => by
    unfold stateTryWait
    simp only
    refine (goods_tryWait h c).andThen fun w h => ?_
    split
    · split
      · exact h
      · exact goods_stateTryWait t _ h
    · exact goods_stateTryWait t _ h

theorem goods_waitEnd {w : World} (h : Goods O A L w) (c t p u k) : Po (Goods O A L) (waitEnd c t p u k w) := by
  unfold waitEnd
  split
  · trivial
  · simp only
    refine (goods_tryWait (h.modC c) c).andThen fun w h => ?_
    split
    · exact h
    · exact bs_reschedule goods_base (w := setStatus c .waiting w) (h.modC c) _ _ _ _ _ _

theorem goods_put {w : World} (h : Goods O A L w) {i : CId} {s : StId} {r : Option Rat}
    (ha : ∀ m : QMem, m.c = i → (∀ p, r = some p → m.prio = p) → A s m) : Po (Goods O A L) (match (generalizing := false) r with
      | some p => onQueue (.store s) (fun x => x.enterSorted w.now i p) w
      | none => onQueue (.store s) (fun x => x.enter w.now i) w) := by
  cases r with
  | some p =>
    refine Po.of fun w' hw => ?_
    obtain ⟨q', h1, rfl⟩ := onQueue_ok hw
    obtain ⟨l1, l2, x, hx, _, hp, _⟩ := Queue.enterSorted_ok h1
    refine h.modQ fun t e m hm => ?_
    cases e
    rw [hx.eq] at hm
    simp only [List.mem_append, List.mem_cons] at hm
    rcases hm with hm | rfl | hm
    · exact h.item s m (by rw [hx.mem]; simp [hm])
    · exact ha _ hx.xc (fun q hq => by cases hq; exact hp)
    · exact h.item s m (by rw [hx.mem]; simp [hm])
  | none =>
    refine Po.of fun w' hw => ?_
    obtain ⟨q', h1, rfl⟩ := onQueue_ok hw
    obtain ⟨l1, l2, x, hx, _, _⟩ := Queue.enter_ok h1
    refine h.modQ fun t e m hm => ?_
    cases e
    rw [hx.eq] at hm
    simp only [List.mem_append, List.mem_cons] at hm
    rcases hm with hm | rfl | hm
    · exact h.item s m (by rw [hx.mem]; simp [hm])
    · exact ha _ hx.xc (fun q hq => by cases hq)
    · exact h.item s m (by rw [hx.mem]; simp [hm])

variable (hoa : ∀ c y p s (m : QMem), O c y p → m.c = y → m.prio = p → A s m)
include hoa

theorem goods_store (fuel : Nat) : (∀ i s r w, (∀ m : QMem, m.c = i → (∀ p, r = some p → m.prio = p) → A s m) → Goods O A L w →
      Po (Goods O A L) (storeEnter fuel i s r w)) ∧
    (∀ i s w, Goods O A L w → Po (Goods O A L) (storeLeave fuel i s w)) := by
  induction fuel with
  | zero =>
    refine ⟨fun i s p w _ h => ?_, fun i s w h => ?_⟩
    · rw [storeEnter]; trivial
    · rw [storeLeave]; trivial
  | succ n ih =>
    obtain ⟨i1, i2⟩ := ih
    refine ⟨fun i s r w ha h => ?_, fun i s w h => ?_⟩
    · rw [storeEnter.eq_def]
      refine (goods_put h ha).andThen fun w h => ?_
      split
      · exact h
      · refine (i2 _ _ _ h).andThen fun w h => ?_
        exact (Po.forR (fun s0 w h => h.leave _ _) _ _ h).andThen fun w h => bs_wake goods_base (h.modC _) _ _
    · rw [storeLeave.eq_def]
      refine (h.leave _ _).andThen fun w h => ?_
      simp only
      split
      · split
        · exact h
        · split
          · trivial
          · rename_i hy
            refine (i1 _ _ _ _ (fun m hm hp => hoa _ _ _ s m (h.offer _ _ hy) hm (hp _ rfl)) h).andThen fun w h => ?_
            refine (Po.forR (fun s0 w h => h.leave _ _) _ _ h).andThen fun w h => ?_
            exact (bs_wake goods_base (h.modC _) _ _).andThen fun w h => Po.ok (h.modC _)
      · exact h

theorem goods_rescanTo (fuel s) : ∀ (l : List CId) {w : World}, Goods O A L w → Po (Goods O A L) (rescanTo fuel s l w)
  | [], w, h => h
  | c :: t, w, h => by
    unfold rescanTo
    split
    · split
      · refine (Po.forR (fun x w h => h.leave c _) _ _ h).andThen fun w h => ?_
        split
        · trivial
        · rename_i hy
          refine ((goods_store hoa fuel).1 _ _ _ _ (fun m hm hp => hoa _ _ _ s m (h.offer _ _ hy) hm (hp _ rfl)) h).andThen fun w h => ?_
          refine (bs_wake goods_base (h.modC c) _ _).andThen fun w h => ?_
          exact goods_rescanTo fuel s t (h.modC c)
      · exact h
    · exact goods_rescanTo fuel s t h

end

theorem Goods.lift {O A} {L L' : CId → (CId → Bool) → Prop} {w : World} (h : Goods O A L w) (hl : ∀ c f, L c f → L' c f) : Goods O A L' w :=
  ⟨h.offer, h.item, fun c => hl c _ (h.filt c)⟩

theorem goods_exec {w : World} (fuel o) : Po (Goods (Offers w o) (Origin w o) (Accepts w o)) (exec fuel o w) := by
  have S := goods_base (O := Offers w o) (A := Origin w o) (L := Accepts w o)
  have hoa : ∀ c y p s (m : QMem), Offers w o c y p → m.c = y → m.prio = p → Origin w o s m := by
    rintro c y p s m h rfl rfl; exact .inr (.inl ⟨c, h⟩)
  have h : Goods (Offers w o) (Origin w o) (Accepts w o) w :=
    ⟨fun c y hy => .inl ⟨hy, rfl⟩, fun s m hm => .inl hm, fun c => .inl rfl⟩
  by_cases hs : o.special = false
  · exact exec_base S h fuel o hs
  generalize hw0 : w = w0 at S hoa h ⊢
  clear hw0
  revert h
  suffices ∀ w, Goods (Offers w0 o) (Origin w0 o) (Accepts w0 o) w → Po (Goods (Offers w0 o) (Origin w0 o) (Accepts w0 o)) (exec fuel o w) from this w0
  intro w h
  cases o <;> simp [Op.special] at hs <;> simp only [exec]
  · unfold wait
    refine (bs_preamble S (h.modC _) _).andThen fun w h => ?_
    simp only
    split
    · trivial
    · refine (Po.forR (fun a w h => ?_) _ _ (h.modC _)).andThen fun w h => goods_waitEnd h _ _ _ _ _
      unfold waitArg
      refine Po.andThen ?_ fun w h => Po.ok (h.modC _)
      split
      · exact h
      · split
        · exact h.on (by simp)
        · exact h.on (by simp)
  · unfold waitFor
    refine (bs_preamble S h _).andThen fun w h => ?_
    simp only
    split
    · trivial
    · refine (Po.forR (fun a w h => ?_) _ _ ((h.modC _).modC _)).andThen fun w h => goods_waitEnd h _ _ _ _ _
      exact (h.modC _).on (by simp)
  · unfold stateSet
    split
    · exact h
    · exact goods_stateTryWait _ _ (h.frame rfl rfl)
  · unfold stateTrigger
    simp only
    exact (goods_stateTryWait _ _ (w := w.setState _ _) (h.frame rfl rfl)).andThen fun w h => goods_stateTryWait _ _ (w := w.setState _ _) (h.frame rfl rfl)
  · unfold fromStore
    split
    · trivial
    · refine (bs_preamble S h _).andThen fun w h => ?_
      split
      · trivial
      · simp only
        split
        · exact ((goods_store hoa _).2 _ _ _ (h.modC _)).andThen fun w h => bs_wake S (h.modC _) _ _
        · refine (Po.forR (fun x w h => h.on (by simp)) _ _ ((h.modC _).modC _)).andThen fun w h => bs_reschedule S ?_ _ _ _ _ _ _
          rename_i c ss f _ _ _ _ _ _ _ _ _ _ _ _ _ _ _ _ _
          refine ⟨fun d y hd => ?_, h.item, fun d => ?_⟩
          · by_cases e : d = c
            · subst e; rw [modC_self] at hd ⊢; exact h.offer d y hd
            · rw [modC_other e] at hd ⊢; exact h.offer d y hd
          · by_cases e : d = c
            · subst e; rw [modC_self]; exact .inr ⟨rfl, rfl⟩
            · rw [modC_other e]; exact h.filt d
  · unfold toStore
    split
    · trivial
    · refine (bs_preamble S h _).andThen fun w h => ?_
      split
      · trivial
      · simp only
        split
        · refine ((goods_store hoa _).1 _ _ _ _ (fun m hm hp => ?_) (h.modC _)).andThen fun w h => bs_wake S (h.modC _) _ _
          exact .inr (.inl ⟨_, .inr ⟨rfl, hm.symm, (hp _ rfl).symm⟩⟩)
        · refine (Po.forR (fun x w h => h.on (by simp)) _ _ (h.modC _)).andThen fun w h => bs_reschedule S ?_ _ _ _ _ _ _
          rename_i c ss i rp sp _ _ _ _ _ _ _ _ _ _ _ _ _ _
          refine ⟨fun d y hd => ?_, h.item, fun d => ?_⟩
          · by_cases e : d = c
            · subst e; rw [modC_self] at hd ⊢; cases hd; exact .inr ⟨rfl, rfl, rfl⟩
            · rw [modC_other e] at hd ⊢; exact h.offer d y hd
          · by_cases e : d = c
            · subst e; rw [modC_self]; exact h.filt d
            · rw [modC_other e]; exact h.filt d
  · refine Po.forR (fun c w h => ?_) _ _ h
    split
    · refine Po.forR (fun i w h => ?_) _ _ h
      unfold rescanItems
      split
      · refine (Po.forR (fun s0 w h => h.leave _ _) _ _ h).andThen fun w h => ?_
        exact ((goods_store hoa _).2 _ _ _ h).andThen fun w h => bs_wake S (h.modC _) _ _
      · exact h
    · exact h
  · unfold storeSetCapacity
    simp only
    split
    · exact goods_rescanTo hoa _ _ _ (h.modQ fun s e m hm => by cases e; exact h.item _ m hm)
    · exact Po.ok (h.modQ fun s e m hm => by cases e; exact h.item _ m hm)
  · exact (goods_store hoa _).1 _ _ _ _ (fun m hm hp => .inr (.inr ⟨hm.symm, rfl, hp⟩)) h
  · exact (goods_store hoa _).2 _ _ _ h
  · exact (bs_releaseAll S h _ _).andThen fun w h => Po.ok (h.modC _)

/-- C73: after each call that returns, every item in a store has the priority with which it was put there or offered, and while a component is waiting the item
it offers, its priority, and the filter for the items it wants don't change -/
theorem C73_origin {w w' : World} {fuel o} (h : exec fuel o w = .ok w') :
    (∀ s, ∀ m ∈ (w'.queues (.store s)).mem, Origin w o s m) ∧ (∀ c y, (w'.comps c).toItem = some y → Offers w o c y (w'.comps c).toPrio) ∧
      ∀ c, Accepts w o c (w'.comps c).fromFilter := by
  have g := (goods_exec fuel o (w := w)).to h
  exact ⟨g.item, g.offer, g.filt⟩

/-! ## where the item is put -/

theorem wake_queues {w w' : World} {c ret} (h : wake c ret w = .ok w') : w'.queues = w.queues := by
  unfold wake at h
  obtain ⟨w1, h1, h2⟩ := andThen_ok h
  rw [(reschedule_ok h2).1.queues]
  show w1.queues = w.queues
  unfold remove at h1
  split at h1
  · split at h1
    · cases h1; rfl
    · cases h1
  · split at h1 <;> cases h1 <;> rfl

theorem leaves_store {K : StId → QRef} (hK : ∀ a s, K a ≠ .store s) {c : CId} {l : List StId} {w w' : World} (h : forR l (fun s0 => leaveQ c (K s0)) w = .ok w') (s : StId) :
    w'.queues (.store s) = w.queues (.store s) := by
  have := (Po.forR (P := fun v => v.queues (.store s) = w.queues (.store s)) (fun a v hv => ?_) l w rfl).to h
  · exact this
  · refine Po.of fun v' h' => ?_
    obtain ⟨q', _, rfl⟩ := onQueue_ok h'
    simp only [World.modQ, if_neg (Ne.symm (hK a s))]
    exact hv

theorem put_stepped {w w' : World} {i s} {r : Option Rat} (h : (match r with
      | some p => onQueue (.store s) (fun x => x.enterSorted w.now i p) w
      | none => onQueue (.store s) (fun x => x.enter w.now i) w) = .ok w') : Stepped i (.store s) r w w' := by
  cases r with
  | some p => exact (enterSortedQ_stepped (c := i) (q := .store s) (p := p) h).1
  | none => exact (enterQ_stepped (c := i) (q := .store s) h).1

/-- an item nobody waits for -/
theorem storeEnter_place {fuel i s r} {w w' : World} (hs : Queue.Sorted (w.queues (.store s)).mem) (hu : Unwanted w s i)
    (h : storeEnter fuel i s r w = .ok w') :
    JoinsWith i r (w.queues (.store s)).mem (w'.queues (.store s)).mem ∧ ∀ q, q ≠ .store s → w'.queues q = w.queues q := by
  match fuel, h with
  | 0, h => rw [storeEnter] at h; cases h
  | n + 1, h =>
    rw [storeEnter.eq_def] at h
    obtain ⟨w1, e1, e2⟩ := andThen_ok h
    have k1 := putIn_of e1
    have k2 := put_stepped e1
    rw [show (w1.queues (.fromReq s)).mem.find? (fun m => (w1.comps m.c).fromFilter i) = wanted w s i from k1.wanted s i,
      show wanted w s i = none from List.find?_eq_none.2 fun m hm => by
        rw [hu m.c (List.mem_map_of_mem hm)]; simp] at e2
    cases e2
    exact ⟨k2.1 hs, k2.2.2.2⟩

/-- the line `l` without its member `i` -/
def Without (i : CId) (l l' : List QMem) : Prop := ∃ l1 x l2, l = l1 ++ x :: l2 ∧ x.c = i ∧ l' = l1 ++ l2

/-- the line `l` has become `l'`: nobody could put in something; or the first one that waits for that (the others, then, have to go on waiting) put in its
item, at the place given by the priority -/
def Supplied (w : World) (s : StId) (l l' : List QMem) : Prop :=
  (l' = l ∧ (w.inQ (.toReq s) = [] ∨ ¬ ((l.length : Rat) : ETime) < (w.queues (.store s)).cap)) ∨
  ∃ p t y, w.inQ (.toReq s) = p :: t ∧ ((l.length : Rat) : ETime) < (w.queues (.store s)).cap ∧ (w.comps p).toItem = some y ∧ Joins y (w.comps p).toPrio l l'

theorem storeLeave_place {fuel i s} {w w' : World} (hs : Queue.Sorted (w.queues (.store s)).mem) (h : storeLeave fuel i s w = .ok w') :
    ∃ l, Without i (w.queues (.store s)).mem l ∧ Supplied w s l (w'.queues (.store s)).mem := by
  match fuel, h with
  | 0, h => rw [storeLeave] at h; cases h
  | n + 1, h =>
    rw [storeLeave] at h
    obtain ⟨w1, e1, e2⟩ := andThen_ok h
    have k1 := outOf_of e1
    obtain ⟨q', h1, rfl⟩ := onQueue_ok e1
    obtain ⟨l1, l2, x, hl⟩ := Queue.leave_ok h1
    have hm : ((w.modQ (.store s) (fun _ => q')).queues (.store s)).mem = l1 ++ l2 := by simp only [World.modQ, if_true]; rw [hl.eq]
    have hcap : ((w.modQ (.store s) (fun _ => q')).queues (.store s)).cap = (w.queues (.store s)).cap := by simp only [World.modQ, if_true]; rw [hl.eq]
    have hto : ∀ t, (w.modQ (.store s) (fun _ => q')).queues (.toReq t) = w.queues (.toReq t) := fun t => by simp [World.modQ]
    have hroom : roomIn (w.modQ (.store s) (fun _ => q')) s = true ↔ (((l1 ++ l2).length : Rat) : ETime) < (w.queues (.store s)).cap := by
      rw [roomIn_iff]; unfold HasRoom World.inQ; rw [hm, hcap, List.length_map]
    have hs1 : Queue.Sorted (l1 ++ l2) := by
      rw [hl.mem] at hs
      exact List.Pairwise.sublist (List.Sublist.append (List.Sublist.refl _) (List.sublist_cons_self _ _)) hs
    have hw : (w.modQ (.store s) (fun _ => q')).comps = w.comps := rfl
    refine ⟨l1 ++ l2, ⟨l1, x, l2, hl.mem, hl.xc, rfl⟩, ?_⟩
    generalize w.modQ (.store s) (fun _ => q') = w1 at *
    simp only at e2
    by_cases hr : roomIn w1 s = true
    · rw [if_pos (of_decide_eq_true hr)] at e2
      split at e2
      · rename_i hh
        cases e2
        refine .inl ⟨hm, .inl ?_⟩
        unfold headQ at hh
        rw [List.head?_eq_none_iff, hto] at hh
        simp [World.inQ, hh]
      · rename_i m hmm
        split at e2
        · cases e2
        · rename_i y hy
          obtain ⟨w2, e3, e4⟩ := andThen_ok e2
          obtain ⟨w3, f4, e5⟩ := andThen_ok e4
          obtain ⟨w4, f5, e6⟩ := andThen_ok e5
          clear e4 e5
          cases e6
          have hun : Unwanted w1 s y := by
            have hn : wanted w1 s y = none := by
              by_contra hne
              exact wanted_diverges n hmm hy hr (Option.isSome_iff_ne_none.2 hne) w2 e3
            intro d hd
            obtain ⟨z, hz, rfl⟩ := List.mem_map.1 hd
            simpa using List.find?_eq_none.1 hn z hz
          have hj := (storeEnter_place (by rw [hm]; exact hs1) hun e3).1
          rw [hm] at hj
          have hst : ((w4.modC m.c (fun x => { x with toItem := none })).queues (.store s)).mem = (w2.queues (.store s)).mem := by
            show (w4.queues (.store s)).mem = _
            rw [wake_queues f5]
            show (w3.queues (.store s)).mem = _
            rw [leaves_store (K := fun a => .toReq a) (by simp) f4]
          rw [hst]
          unfold headQ at hmm
          rw [hto] at hmm
          obtain ⟨t, ht⟩ := List.head?_eq_some_iff.1 hmm
          rw [hw] at hy hj
          exact .inr ⟨m.c, t.map QMem.c, y, by simp [World.inQ, ht], hroom.1 hr, hy, hj⟩
    · rw [if_neg (fun h => hr (decide_eq_true h))] at e2
      cases e2
      exact .inl ⟨hm, .inr fun hlt => hr (hroom.2 hlt)⟩

/-- C73: an item put into a store by `enter` or `enter_sorted`, which nobody waits for, is in its place: at the end, or behind all items with the same or a
lower priority value and before all others; nothing else changes -/
theorem C73_enter {w w' : World} {fuel i s r} (h : Reach Calm w) (hu : Unwanted w s i) (hx : exec fuel (.storeEnter i s r) w = .ok w') :
    JoinsWith i r (w.queues (.store s)).mem (w'.queues (.store s)).mem ∧ ∀ q, q ≠ .store s → w'.queues q = w.queues q :=
  storeEnter_place (line_sorted h (by simp)) hu hx

/-- C73: the same for `to_store`, with its priority, if there's room -/
theorem C73_to_store {w w' : World} {fuel c ss i rp sp fa fd p u cp} (h : Reach Calm w) (hcur : w.status c = .current)
    (hx : exec fuel (.toStore c ss i rp sp fa fd p u cp) w = .ok w') (s1 s s2) (hss : ss = s1 ++ s :: s2) (hno : ∀ t ∈ s1, ¬ HasRoom w t) (hr : HasRoom w s)
    (hu : Unwanted w s i) :
    Joins i sp (w.queues (.store s)).mem (w'.queues (.store s)).mem ∧ ∀ q, q ≠ .store s → w'.queues q = w.queues q := by
  simp only [exec] at hx
  unfold toStore at hx
  split at hx
  · cases hx
  obtain ⟨w1, h1, h2⟩ := andThen_ok hx
  unfold preamble at h1
  rw [if_pos hcur] at h1
  cases h1
  simp only at h2
  split at h2
  · cases h2
  have hroom : ∀ t, roomIn (w.modC c (fun x => { x with failed := false })) t = roomIn w t := fun _ => rfl
  have hf : ss.find? (fun t => roomIn (w.modC c (fun x => { x with failed := false })) t) = some s := by
    refine List.find?_eq_some_iff_append.2 ⟨by rw [hroom]; exact roomIn_iff.2 hr, s1, s2, hss, fun t ht => ?_⟩
    rw [hroom]
    have := hno t ht
    rw [← roomIn_iff] at this
    simpa using this
  rw [hf] at h2
  obtain ⟨w3, h3, h4⟩ := andThen_ok h2
  have hu' : Unwanted (w.modC c (fun x => { x with failed := false })) s i := by
    intro d hd
    have := hu d hd
    by_cases e : d = c
    · subst e; rw [modC_self]; exact this
    · rw [modC_other e]; exact this
  obtain ⟨k1, k2⟩ := storeEnter_place (w := w.modC c (fun x => { x with failed := false })) (line_sorted h (by simp)) hu' h3
  rw [wake_queues h4]
  exact ⟨k1, k2⟩

/-- C73: an item taken out of a store by `leave` leaves the others where they are; then the first component that is waiting to put an item into the store does
so, if there's room, with the priority it offered it -/
theorem C73_leave {w w' : World} {fuel i s} (h : Reach Calm w) (hx : exec fuel (.storeLeave i s) w = .ok w') :
    ∃ l, Without i (w.queues (.store s)).mem l ∧ Supplied w s l (w'.queues (.store s)).mem :=
  storeLeave_place (line_sorted h (by simp)) hx

/-- C73: the same for an item handed out by `from_store` at once -/
theorem C73_from_store {w w' : World} {fuel c ss f k rp fa fd p u cp} (h : Reach Calm w) (hcur : w.status c = .current)
    (hx : exec fuel (.fromStore c ss f k rp fa fd p u cp) w = .ok w') (hw : w'.status c ≠ .requesting) :
    ∃ i s l, s ∈ ss ∧ f i = true ∧ (∃ e ∈ w'.events, e.c = c ∧ e.t = w.now ∧ e.ret = some i) ∧ Without i (w.queues (.store s)).mem l ∧
      Supplied w s l (w'.queues (.store s)).mem := by
  obtain ⟨hnd, hne, w2, b, hh⟩ := fromStore_start h.good hx
  rcases hh with ⟨item, s, w3, h1, h2, h3⟩ | ⟨_, _, _, _, h4, _⟩
  · obtain ⟨hs, hf⟩ := searchStores_found w2 f k ss _ hne h1
    have hq := b.cur hcur
    obtain ⟨l, k1, k2⟩ := storeLeave_place (by rw [hq]; exact line_sorted h (by simp)) h2
    have g3 : Good {c} w3 := ((trR_store _ fuel).2 _ _ _ b.good w3 h2).good
    have hnow : w3.now = w.now := (((trR_store _ fuel).2 _ _ _ b.good w3 h2).now).trans b.now
    obtain ⟨e, he1, he2, he3, he4⟩ := wake_event (w := w3.modC c (fun x => { x with fromItem := some item })) (inv_of_ev (ev_modC (fun _ => rfl)) g3.inv) h3
    rw [hq] at k1
    refine ⟨item, s, l, hs, hf, ⟨e, he1, he2, he3.trans hnow, he4⟩, k1, ?_⟩
    rw [wake_queues h3]
    show Supplied w s l (w3.queues (.store s)).mem
    have hin : ∀ r, w2.inQ r = w.inQ r := fun r => by simp only [World.inQ, hq]
    rcases k2 with ⟨k2, k3⟩ | ⟨a, t, y, k2, k3, k4, k5⟩
    · rw [hin, hq] at k3
      exact .inl ⟨k2, k3⟩
    · have hac : a ≠ c := by
        rintro rfl
        exact b.notin (q := .toReq s) rfl (by rw [k2]; simp)
      rw [hin] at k2
      rw [hq] at k3
      rw [b.other a hac] at k4 k5
      exact .inr ⟨a, t, y, k2, k3, k4, k5⟩
  · exact absurd h4 hw

/-! ## non-trivial cases -/

/-- items 100, 101 and 102 are in store 0 (which has room for four) with priorities 1, 3 and 3; item 104 is in store 1, which is full; component 2 is waiting to
put item 105 with priority 2 into store 1; component 3 is waiting for item 110 from store 0; component 1 is current -/
def shelf : World := { World.init with queues := fun q => match q with
  | .store 0 => { cap := (4 : Rat) }
  | .store 1 => { cap := (2 : Rat) }
  | _ => {} }

theorem fresh_shelf : Fresh shelf := by
  refine ⟨rfl, rfl, rfl, rfl, fresh_init.comps, fun q => ?_, fun q hq => ?_, fresh_init.res, fresh_init.log, fun _ => rfl⟩
  · unfold shelf
    simp only
    split
    · exact ⟨_, rfl⟩
    · exact ⟨_, rfl⟩
    · exact ⟨⊤, rfl⟩
  · unfold shelf
    simp only
    split
    · cases hq
    · cases hq
    · rfl

def shelfOps : List Op := [.storeEnter 100 0 (some 1), .storeEnter 101 0 (some 3), .storeEnter 102 0 none, .storeEnter 104 1 (some 1), .storeEnter 106 1 (some 5)] ++ begin 2 ++
  [.toStore 2 [1] 105 0 2 none none (0 : Rat) false false] ++ begin 3 ++ [want 3 [0] [110]] ++ begin 1

def shelfW : World := execAll 20 shelfOps shelf
theorem shelfW_reach : Reach Calm shelfW := reach_calm _ (.init fresh_shelf) _ (by decide +kernel)

def places (w : World) (s : StId) : List (CId × Rat) := (w.queues (.store s)).mem.map fun m => (m.c, m.prio)

example : places shelfW 0 = [(100, 1), (101, 3), (102, 3)] ∧ places shelfW 1 = [(104, 1), (106, 5)] ∧ shelfW.inQ (.toReq 1) = [2] ∧ shelfW.status 1 = .current ∧
    Unwanted shelfW 0 103 := by
  refine ⟨by decide +kernel, by decide +kernel, by decide +kernel, by decide +kernel, ?_⟩
  intro d hd
  have : shelfW.inQ (.fromReq 0) = [3] := by decide +kernel
  rw [this] at hd
  rw [List.mem_singleton.1 hd]
  decide +kernel

/-- in between -/
example : places (exec 20 (.storeEnter 103 0 (some 2)) shelfW).world 0 = [(100, 1), (103, 2), (101, 3), (102, 3)] := by decide +kernel
/-- behind those with the same priority -/
example : places (exec 20 (.toStore 1 [1, 0] 103 0 3 none none (0 : Rat) false false) shelfW).world 0 = [(100, 1), (101, 3), (102, 3), (103, 3)] := by decide +kernel
/-- item 105 takes its place when there's room -/
example : places (exec 20 (.storeLeave 104 1) shelfW).world 1 = [(105, 2), (106, 5)] := by decide +kernel
example : places (exec 20 (want 1 [1] [104]) shelfW).world 1 = [(105, 2), (106, 5)] ∧ (exec 20 (want 1 [1] [104]) shelfW).world.status 1 = .scheduled := by decide +kernel

end Verif
