import Verif.CalmStep
import Verif.Props.Interrupt
import Verif.Props.Resources

/-!
# Claim C58: a component that is told to do something else gives up what it was waiting for
-/

namespace Verif
open World

/-! ## specification -/

/-- the queues in which components wait: for resources, states, and items of or room in a store -/
def QRef.line : QRef → Bool
  | .requesters _ | .waiters _ | .fromReq _ | .toReq _ => true
  | .user _ | .claimers _ | .store _ => false

/-- `c` waits for something -/
def InLine (w : World) (c : CId) : Prop := ∃ q, q.line = true ∧ c ∈ w.inQ q

/-- nothing is pending for the component -/
structure Nothing (x : Comp) : Prop where
  requests : x.requests = []
  waits : x.waits = []
  fromStores : x.fromStores = []
  toStores : x.toStores = []

/-- the calls that let `c` do something else: hold, passivate, standby, and activate (unless the request or wait is to be kept); and the
step of the scheduler by which it becomes current (`w'` is the state after the call) -/
def Op.redirects (o : Op) (c : CId) (w w' : World) : Prop :=
  (∃ d t p u k i, o = .hold c d t p u k i) ∨ o = .passivate c ∨ o = .standby c ∨
  (∃ a d p u k pr kr kw, o = .activate c a d p u k pr kr kw ∧ (pr = true ∨ w.status c = .data ∨ (kr = false ∧ kw = false))) ∨
  (o = .step ∧ w'.current = c)

/-- `c` has given up: it waits for nothing any more; everyone else, and everything else, is as it was -/
structure GaveUpAll (c : CId) (w w' : World) : Prop where
  nothing : Nothing (w'.comps c)
  out : ¬ InLine w' c
  lines : ∀ q, q.line = true → (w'.queues q).mem = (w.queues q).mem.filter (fun m => decide (m.c ≠ c))
  kept : ∀ q, q.line = false → w'.queues q = w.queues q
  others : ∀ d, d ≠ c → w'.comps d = w.comps d
  claims : (w'.comps c).claims = (w.comps c).claims
  claimed : ∀ r, (w'.res r).claimed = (w.res r).claimed ∧ (w'.res r).cap = (w.res r).cap
  states : w'.states = w.states
  failed : InLine w c → (w'.comps c).failed = true
  unchanged : Nothing (w.comps c) → (w'.comps c).failed = (w.comps c).failed

/-! ## what leaving the queues does -/

/-- nobody but `c` has left a queue, and `c` has only left lines of waiting components -/
structure Dr (c : CId) (w w' : World) : Prop where
  lines : ∀ q, (w'.queues q).mem.filter (fun m => decide (m.c ≠ c)) = (w.queues q).mem.filter (fun m => decide (m.c ≠ c))
  kept : ∀ q, q.line = false → w'.queues q = w.queues q
  others : ∀ d, d ≠ c → w'.comps d = w.comps d
  claims : (w'.comps c).claims = (w.comps c).claims
  claimed : ∀ r, (w'.res r).claimed = (w.res r).claimed ∧ (w'.res r).cap = (w.res r).cap
  states : w'.states = w.states

theorem Dr.refl (c : CId) (w : World) : Dr c w w :=
  ⟨fun _ => rfl, fun _ _ => rfl, fun _ _ => rfl, rfl, fun _ => ⟨rfl, rfl⟩, rfl⟩
theorem Dr.trans {c : CId} {a b d : World} (h : Dr c a b) (k : Dr c b d) : Dr c a d :=
  ⟨fun q => (k.lines q).trans (h.lines q), fun q hq => (k.kept q hq).trans (h.kept q hq), fun x hx => (k.others x hx).trans (h.others x hx),
    k.claims.trans h.claims, fun r => ⟨(k.claimed r).1.trans (h.claimed r).1, (k.claimed r).2.trans (h.claimed r).2⟩, k.states.trans h.states⟩

/-- only the record of `c` (but not its claims), the event list and the like have changed -/
theorem Dr.of_comp {c : CId} {w w' : World} (hq : w'.queues = w.queues) (ho : ∀ d, d ≠ c → w'.comps d = w.comps d)
    (hc : (w'.comps c).claims = (w.comps c).claims) (hr : w'.res = w.res) (hs : w'.states = w.states) : Dr c w w' :=
  ⟨fun _ => by rw [hq], fun _ _ => by rw [hq], ho, hc, fun _ => by rw [hr]; exact ⟨rfl, rfl⟩, hs⟩

theorem Dr.modC {c : CId} {w : World} {f : Comp → Comp} (hf : ∀ x, (f x).claims = x.claims) : Dr c w (w.modC c f) :=
  .of_comp rfl (fun _ hd => modC_other hd _ _) (by rw [modC_self]; exact hf _) rfl rfl

theorem leaveQ_dr {c : CId} {q : QRef} {w w' : World} (hq : q.line = true) (h : leaveQ c q w = .ok w') : Dr c w w' ∧ w'.comps = w.comps := by
  obtain ⟨q', h1, h2⟩ := onQueue_ok h
  obtain ⟨l1, l2, x, hx⟩ := Queue.leave_ok h1
  subst h2
  refine ⟨⟨fun p => ?_, fun p hp => ?_, fun _ _ => rfl, rfl, fun _ => ⟨rfl, rfl⟩, rfl⟩, rfl⟩
  · by_cases hp : p = q
    · subst hp
      simp only [World.modQ, if_true]
      rw [hx.eq, hx.mem]
      simp [hx.xc]
    · simp only [World.modQ, if_neg hp]
  · have : p ≠ q := by rintro rfl; rw [hq] at hp; cases hp
    simp only [World.modQ, if_neg this]

theorem leaveRequesters_dr {c : CId} {r : RId} {w w' : World} (h : leaveRequesters c r w = .ok w') : Dr c w w' ∧ w'.comps = w.comps := by
  unfold leaveRequesters at h
  obtain ⟨w1, h1, h2⟩ := andThen_ok h
  obtain ⟨d1, e1⟩ := leaveQ_dr rfl h1
  cases h2
  split
  · refine ⟨d1.trans ⟨fun _ => rfl, fun _ _ => rfl, fun _ _ => rfl, rfl, fun p => ?_, rfl⟩, e1⟩
    simp only [World.modR]
    split <;> exact ⟨rfl, rfl⟩
  · exact ⟨d1, e1⟩

theorem leaveWaiters_dr {c : CId} {x : Wait} {w w' : World} (h : leaveWaiters c x w = .ok w') : Dr c w w' ∧ w'.comps = w.comps := by
  unfold leaveWaiters at h
  split at h
  · exact leaveQ_dr rfl h
  · cases h; exact ⟨.refl _ _, rfl⟩

theorem forR_dr {α : Type} {c : CId} {f : α → World → R} (hf : ∀ a w w', f a w = .ok w' → Dr c w w' ∧ w'.comps = w.comps) :
    ∀ (l : List α) (w w' : World), forR l f w = .ok w' → Dr c w w' ∧ w'.comps = w.comps
  | [], w, w', h => by cases h; exact ⟨.refl _ _, rfl⟩
  | a :: l, w, w', h => by
    obtain ⟨w1, h1, h2⟩ := andThen_ok h
    obtain ⟨d1, e1⟩ := hf _ _ _ h1
    obtain ⟨d2, e2⟩ := forR_dr hf l _ _ h2
    exact ⟨d1.trans d2, e2.trans e1⟩

theorem part_dr {α : Type} {c : CId} {f : α → World → R} (hf : ∀ a w w', f a w = .ok w' → Dr c w w' ∧ w'.comps = w.comps) {l : List α}
    {k : Comp → Comp} (hk : ∀ x, (k x).claims = x.claims) {w w' : World} (h : (forR l f w ⊳ fun w => .ok (w.modC c k)) = .ok w') :
    Dr c w w' ∧ w'.comps c = k (w.comps c) := by
  obtain ⟨w1, h1, h2⟩ := andThen_ok h
  obtain ⟨d1, e1⟩ := forR_dr hf l _ _ h1
  cases h2
  exact ⟨d1.trans (.modC hk), by rw [modC_self, e1]⟩

theorem checkFail_dr {c : CId} {w w' : World} (h : checkFail c w = .ok w') :
    Dr c w w' ∧ Nothing (w'.comps c) ∧ (¬ Nothing (w.comps c) → (w'.comps c).failed = true) ∧
      (Nothing (w.comps c) → (w'.comps c).failed = (w.comps c).failed) := by
  unfold checkFail at h
  obtain ⟨w3, h, h4⟩ := andThen_ok h
  obtain ⟨w2, h, h3⟩ := andThen_ok h
  obtain ⟨w1, h1, h2⟩ := andThen_ok h
  have a1 : Dr c w w1 ∧ w1.comps c = if (w.comps c).requests = [] then w.comps c else { w.comps c with requests := [], failed := true } := by
    unfold checkFailReq at h1
    split at h1
    · rename_i hn; cases h1; exact ⟨.refl _ _, by rw [if_pos hn]⟩
    · rename_i hn
      have := part_dr (fun _ _ _ => leaveRequesters_dr) (by intro _; rfl) h1
      exact ⟨this.1, by rw [if_neg hn]; exact this.2⟩
  have a2 : Dr c w1 w2 ∧ w2.comps c = if (w1.comps c).waits = [] then w1.comps c else { w1.comps c with waits := [], failed := true } := by
    unfold checkFailWait at h2
    split at h2
    · rename_i hn; cases h2; exact ⟨.refl _ _, by rw [if_pos (by simpa using hn)]⟩
    · rename_i hn
      have := part_dr (fun _ _ _ => leaveWaiters_dr) (by intro _; rfl) h2
      exact ⟨this.1, by rw [if_neg (by simpa using hn)]; exact this.2⟩
  have a3 : Dr c w2 w3 ∧ w3.comps c = if (w2.comps c).fromStores = [] then w2.comps c else { w2.comps c with fromStores := [], failed := true } := by
    unfold checkFailFrom at h3
    split at h3
    · rename_i hn; cases h3; exact ⟨.refl _ _, by rw [if_pos hn]⟩
    · rename_i hn
      have := part_dr (fun _ _ _ => leaveQ_dr rfl) (by intro _; rfl) h3
      exact ⟨this.1, by rw [if_neg hn]; exact this.2⟩
  have a4 : Dr c w3 w' ∧ w'.comps c = if (w3.comps c).toStores = [] then w3.comps c else { w3.comps c with toStores := [], failed := true } := by
    unfold checkFailTo at h4
    split at h4
    · rename_i hn; cases h4; exact ⟨.refl _ _, by rw [if_pos hn]⟩
    · rename_i hn
      have := part_dr (fun _ _ _ => leaveQ_dr rfl) (by intro _; rfl) h4
      exact ⟨this.1, by rw [if_neg hn]; exact this.2⟩
  refine ⟨((a1.1.trans a2.1).trans a3.1).trans a4.1, ?_⟩
  have key : ∀ x0 x1 x2 x3 x4 : Comp, (x1 = if x0.requests = [] then x0 else { x0 with requests := [], failed := true }) →
      (x2 = if x1.waits = [] then x1 else { x1 with waits := [], failed := true }) →
      (x3 = if x2.fromStores = [] then x2 else { x2 with fromStores := [], failed := true }) →
      (x4 = if x3.toStores = [] then x3 else { x3 with toStores := [], failed := true }) →
      Nothing x4 ∧ (¬ Nothing x0 → x4.failed = true) ∧ (Nothing x0 → x4.failed = x0.failed) := by
    intro x0 x1 x2 x3 x4 e1 e2 e3 e4
    have n1 : x1.requests = [] := by rw [e1]; split <;> first | assumption | rfl
    have n2 : x2.requests = [] ∧ x2.waits = [] := by
      rw [e2]; split
      · exact ⟨n1, by assumption⟩
      · exact ⟨n1, rfl⟩
    have n3 : x3.requests = [] ∧ x3.waits = [] ∧ x3.fromStores = [] := by
      rw [e3]; split
      · exact ⟨n2.1, n2.2, by assumption⟩
      · exact ⟨n2.1, n2.2, rfl⟩
    have n4 : Nothing x4 := by
      rw [e4]; split
      · exact ⟨n3.1, n3.2.1, n3.2.2, by assumption⟩
      · exact ⟨n3.1, n3.2.1, n3.2.2, rfl⟩
    subst e1
    refine ⟨n4, fun hn => ?_, fun hn => ?_⟩
    · by_cases k1 : x0.requests = []
      · rw [if_pos k1] at e2
        subst e2
        by_cases k2 : x0.waits = []
        · rw [if_pos k2] at e3
          subst e3
          by_cases k3 : x0.fromStores = []
          · rw [if_pos k3] at e4
            subst e4
            by_cases k4 : x0.toStores = []
            · exact absurd ⟨k1, k2, k3, k4⟩ hn
            · rw [if_neg k4]
          · rw [if_neg k3] at e4
            subst e4; split <;> rfl
        · rw [if_neg k2] at e3
          subst e3; subst e4; repeat' split
          all_goals rfl
      · rw [if_neg k1] at e2
        subst e2; subst e3; subst e4; repeat' split
        all_goals rfl
    · rw [if_pos hn.requests] at e2
      subst e2
      rw [if_pos hn.waits] at e3
      subst e3
      rw [if_pos hn.fromStores] at e4
      subst e4
      rw [if_pos hn.toStores]
  exact key _ _ _ _ _ a1.2 a2.2 a3.2 a4.2

theorem NoWait.nothing {x : Comp} (h : NoWait x) : Nothing x := ⟨h.req, h.wai, h.frm, h.tos⟩
theorem Nothing.noWait {x : Comp} (h : Nothing x) : NoWait x := ⟨h.requests, h.waits, h.fromStores, h.toStores⟩

theorem line_wq (q : QRef) : q.line = q.wq := by cases q <;> rfl

/-- the parts together -/
theorem gaveUpAll_of {e : Set CId} {c : CId} {w w' : World} (hg : Good e w') (hd : Dr c w w') (hn : NoWait (w'.comps c))
    (hf : InLine w c → (w'.comps c).failed = true) (hu : Nothing (w.comps c) → (w'.comps c).failed = (w.comps c).failed) : GaveUpAll c w w' := by
  have hout : ∀ q, q.line = true → c ∉ w'.inQ q := fun q hq hm => hn.awaits ((line_wq q).symm.trans hq) (hg.coh q c hm)
  refine ⟨hn.nothing, fun ⟨q, hq, hm⟩ => hout q hq hm, fun q hq => ?_, hd.kept, hd.others, hd.claims, hd.claimed, hd.states, hf, hu⟩
  rw [← hd.lines q]
  refine (List.filter_eq_self.2 fun m hm => ?_).symm
  have : m.c ≠ c := fun he => hout q hq (he ▸ List.mem_map_of_mem hm)
  simpa using this

theorem inLine_pending {e : Set CId} {c : CId} {w : World} (hg : Good e w) (h : InLine w c) : ¬ Nothing (w.comps c) := by
  obtain ⟨q, hq, hm⟩ := h
  exact fun hn => hn.noWait.awaits ((line_wq q).symm.trans hq) (hg.coh q c hm)

/-- taking `c` from the event list and letting its requests fail, or nothing at all if nothing is pending -/
structure Begins (c : CId) (w w' : World) : Prop where
  dr : Dr c w w'
  nowait : NoWait (w'.comps c)
  failed : ¬ Nothing (w.comps c) → (w'.comps c).failed = true
  unchanged : Nothing (w.comps c) → (w'.comps c).failed = (w.comps c).failed

theorem begins_same {c : CId} {w : World} (h : NoWait (w.comps c)) : Begins c w w := ⟨.refl _ _, h, fun hn => absurd h.nothing hn, fun _ => rfl⟩

theorem begins_removeFail {e : Set CId} {c : CId} {w w' : World} (hg : Good e w) (h : (remove c w ⊳ checkFail c) = .ok w') : Begins c w w' := by
  obtain ⟨w1, h1, h2⟩ := andThen_ok h
  obtain ⟨w2, h3, r⟩ := remove_removed hg.inv c
  rw [h3] at h1; cases h1
  obtain ⟨d, n, f, u⟩ := checkFail_dr h2
  have hs : w1.comps c = { w.comps c with onList := false } := r.self
  have hn : Nothing (w1.comps c) ↔ Nothing (w.comps c) := by
    rw [hs]; exact ⟨fun h => ⟨h.1, h.2, h.3, h.4⟩, fun h => ⟨h.1, h.2, h.3, h.4⟩⟩
  refine ⟨(Dr.of_comp r.queues r.other (by rw [hs]) r.res r.states).trans d, n.noWait, fun hh => f (fun k => hh (hn.1 k)), fun hh => ?_⟩
  rw [u (hn.2 hh), hs]

theorem begins_notData {c : CId} {w w' : World} (hg : Good ∅ w) (h : (checkNotData c w ⊳ remove c ⊳ checkFail c) = .ok w') : Begins c w w' := by
  obtain ⟨w1, h2, h3⟩ := andThen_ok h
  obtain ⟨w2, h4, h5⟩ := andThen_ok h2
  obtain ⟨rfl, _⟩ := checkNotData_ok h4
  exact begins_removeFail hg (by rw [h5]; exact h3)

theorem begins_idle {e : Set CId} {c : CId} {w : World} (hg : Good e w) (hs : (w.status c).idle) (hc : c ∉ e := by simp) : Begins c w w := begins_same (hg.idle c hc hs)

/-- what doesn't matter here: the scheduling of the component -/
def Comp.sameWaits (x y : Comp) : Prop :=
  x.claims = y.claims ∧ x.failed = y.failed ∧ x.requests = y.requests ∧ x.waits = y.waits ∧ x.fromStores = y.fromStores ∧ x.toStores = y.toStores

/-- afterwards only the record of `c` and the event list change -/
theorem Begins.then {c : CId} {w w1 w' : World} (h : Begins c w w1) (hq : w'.queues = w1.queues) (ho : ∀ d, d ≠ c → w'.comps d = w1.comps d)
    (hc : (w'.comps c).sameWaits (w1.comps c)) (hr : w'.res = w1.res) (hs : w'.states = w1.states) : Begins c w w' := by
  obtain ⟨e1, e2, e3, e4, e5, e6⟩ := hc
  exact ⟨h.dr.trans (.of_comp hq ho e1 hr hs), ⟨e3.trans h.nowait.req, e4.trans h.nowait.wai, e5.trans h.nowait.frm, e6.trans h.nowait.tos⟩,
    fun k => e2.trans (h.failed k), fun k => e2.trans (h.unchanged k)⟩

theorem begins_modC {c : CId} {w w1 : World} {f : Comp → Comp} (h : Begins c w w1) (hf : ∀ x, (f x).sameWaits x) : Begins c w (w1.modC c f) :=
  h.then rfl (fun _ hd => modC_other hd _ _) (by rw [modC_self]; exact hf _) rfl rfl

theorem begins_resched {c : CId} {w w1 w' : World} {t p : ETime} {u k ret} (h : Begins c w w1) (hr : reschedule c t p u k ret w1 = .ok w') :
    Begins c w w' := by
  have r := (reschedule_ok hr).1
  exact h.then r.queues r.other (by rw [r.self]; exact ⟨rfl, rfl, rfl, rfl, rfl, rfl⟩) r.res r.states

theorem begins_status {c : CId} {w w1 : World} (h : Begins c w w1) (s : Status) : Begins c w (setStatus c s w1) :=
  begins_modC h fun _ => ⟨rfl, rfl, rfl, rfl, rfl, rfl⟩

theorem hold_begins {c : CId} {d t p u k i} {w w' : World} (hg : Good ∅ w) (h : hold c d t p u k i w = .ok w') : Begins c w w' := by
  unfold hold at h
  obtain ⟨w1, h1, h2⟩ := andThen_ok h
  have b : Begins c w w1 := by
    split at h1
    · rename_i hs
      cases h1
      exact begins_idle hg (by rcases hs with hs | hs <;> rw [hs] <;> simp [Status.idle])
    · exact begins_notData hg h1
  split at h2
  · cases h2
  · split at h2
    · cases h2
    · simp only at h2
      split at h2
      · cases h2
        exact begins_modC b fun _ => ⟨rfl, rfl, rfl, rfl, rfl, rfl⟩
      · exact begins_resched (begins_status b _) h2

theorem passivate_begins {c : CId} {w w' : World} (hg : Good ∅ w) (h : passivate c w = .ok w') : Begins c w w' := by
  unfold passivate at h
  obtain ⟨w1, h1, h2⟩ := andThen_ok h
  cases h2
  refine begins_modC ?_ fun _ => ⟨rfl, rfl, rfl, rfl, rfl, rfl⟩
  split at h1
  · rename_i hs
    cases h1
    exact begins_modC (begins_idle hg (by rw [hs]; simp [Status.idle])) fun _ => ⟨rfl, rfl, rfl, rfl, rfl, rfl⟩
  · obtain ⟨w2, h3, h4⟩ := andThen_ok h1
    cases h4
    exact begins_modC (begins_notData hg h3) fun _ => ⟨rfl, rfl, rfl, rfl, rfl, rfl⟩

theorem preamble_begins {c : CId} {w w' : World} (hg : Good ∅ w) (h : preamble c w = .ok w') : Begins c w w' := by
  unfold preamble at h
  split at h
  · rename_i hs
    cases h
    exact begins_idle hg (by rw [hs]; simp [Status.idle])
  · obtain ⟨w1, h1, h2⟩ := andThen_ok h
    obtain ⟨w2, h3, h4⟩ := andThen_ok h1
    obtain ⟨w3, h5, h6⟩ := andThen_ok h3
    obtain ⟨rfl, _⟩ := checkNotData_ok h5
    unfold checkNotMain at h6
    split at h6
    · cases h6
    · cases h6
      exact begins_removeFail hg (by rw [h4]; exact h2)

theorem standby_begins {c : CId} {w w' : World} (hg : Good ∅ w) (h : standby c w = .ok w') : Begins c w w' := by
  unfold standby at h
  obtain ⟨w1, h1, h2⟩ := andThen_ok h
  cases h2
  have b := begins_modC (f := fun x => { x with schedTime := (w1.now : ETime), status := .standby }) (preamble_begins hg h1)
    fun _ => ⟨rfl, rfl, rfl, rfl, rfl, rfl⟩
  exact b.then rfl (fun _ _ => rfl) ⟨rfl, rfl, rfl, rfl, rfl, rfl⟩ rfl rfl

theorem activate_begins {e : Set CId} {c : CId} {a d p u k pr kr kw} {w w' : World} (hg : Good e w) (h : activate c a d p u k pr kr kw w = .ok w')
    (hk : pr = true ∨ w.status c = .data ∨ (kr = false ∧ kw = false)) (hc : c ∉ e := by simp) : Begins c w w' := by
  unfold activate at h
  simp only at h
  split at h
  · cases h
  · obtain ⟨w1, h1, h2⟩ := andThen_ok h
    refine begins_resched (begins_status ?_ _) h2
    split at h1
    · rename_i hs
      cases h1
      exact begins_idle hg (by rw [hs]; simp [Status.idle]) hc
    · refine begins_removeFail hg ?_
      obtain ⟨w2, h3, h4⟩ := andThen_ok h1
      rw [h3]
      show checkFail c w2 = .ok w1
      rw [if_neg] at h4
      · exact h4
      · rcases hk with hk | hk | ⟨h5, h6⟩
        · simp [hk]
        · simp [hk]
        · simp [h5, h6]

theorem stepEvent_begins {w w' : World} (hg : Good ∅ w) (h : stepEvent w = .ok w') : Begins w'.current w w' := by
  unfold stepEvent at h
  simp only at h
  have e1 : ∀ w1 : World, w1 = (if w.standby = [] then w else { w with pending := w.standby, standby := [] } : World) →
      w1.comps = w.comps ∧ w1.main = w.main ∧ w1.queues = w.queues ∧ w1.res = w.res ∧ w1.states = w.states := by
    intro w1 h1; rw [h1]; split <;> exact ⟨rfl, rfl, rfl, rfl, rfl⟩
  generalize (if w.standby = [] then w else { w with pending := w.standby, standby := [] } : World) = w1 at h e1
  obtain ⟨ec, em, eq, er, es⟩ := e1 _ rfl
  split at h
  · rename_i e es' hp
    have key : ∀ w2 : World, w2 = (({ w1 with events := es', now := e.t, current := e.c } : World).modC e.c
          (fun x => { x with onList := false, status := .current, schedTime := ⊤ })) →
        w2.queues = w.queues ∧ (∀ d, d ≠ e.c → w2.comps d = w.comps d) ∧ (w2.comps e.c).sameWaits (w.comps e.c) ∧ w2.res = w.res ∧ w2.states = w.states := by
      rintro w2 rfl
      refine ⟨eq, fun d hd => ?_, ?_, er, es⟩
      · rw [modC_other hd]; exact congrFun ec d
      · rw [modC_self]
        have : ({ w1 with events := es', now := e.t, current := e.c } : World).comps e.c = w.comps e.c := congrFun ec _
        rw [this]
        exact ⟨rfl, rfl, rfl, rfl, rfl, rfl⟩
    split at h
    · rename_i hm
      cases h
      obtain ⟨k1, k2, k3, k4, k5⟩ := key _ rfl
      have : e.c = w.main := hm.trans em
      exact (begins_same (by rw [this]; exact hg.main)).then k1 k2 k3 k4 k5
    · generalize hw2 : (({ w1 with events := es', now := e.t, current := e.c } : World).modC e.c
          (fun x => { x with onList := false, status := .current, schedTime := ⊤ })) = w2 at h key
      obtain ⟨k1, k2, k3, k4, k5⟩ := key _ rfl
      have hcur : w'.current = e.c := by
        have := fr_checkFail e.c w2
        rw [h] at this
        exact (congrArg EV.current this).trans (by rw [← hw2]; rfl)
      rw [hcur]
      obtain ⟨d, n, f, u⟩ := checkFail_dr h
      obtain ⟨s1, s2, s3, s4, s5, s6⟩ := k3
      have hn : Nothing (w2.comps e.c) ↔ Nothing (w.comps e.c) :=
        ⟨fun h => ⟨s3 ▸ h.1, s4 ▸ h.2, s5 ▸ h.3, s6 ▸ h.4⟩, fun h => ⟨s3.trans h.1, s4.trans h.2, s5.trans h.3, s6.trans h.4⟩⟩
      refine ⟨(Dr.of_comp k1 k2 s1 k4 k5).trans d, ?_, fun hh => f (fun k => hh (hn.1 k)), fun hh => (u (hn.2 hh)).trans s2⟩
      exact n.noWait
  · cases h
    have hm : w1.main = w.main := em
    refine (begins_same (c := w1.main) (by rw [hm]; exact hg.main)).then eq (fun d hd => ?_) ?_ er es
    · rw [modC_other hd]; exact congrFun ec d
    · show ((World.modC _ _ _).comps w1.main).sameWaits _
      rw [modC_self]
      show Comp.sameWaits { w1.comps w1.main with .. } _
      rw [ec]
      exact ⟨rfl, rfl, rfl, rfl, rfl, rfl⟩

theorem step_begins {w w' : World} (hg : Good ∅ w) (h : step w = .ok w') : Begins w'.current w w' := by
  unfold step at h
  split at h
  · exact stepEvent_begins hg h
  · split at h
    · exact stepEvent_begins hg h
    · rename_i c rest hpend
      have hst : w.status c = .standby := (hg.sb.mem c (by simp [World.lined, hpend])).2
      simp only at h
      rw [if_pos (show ({ w with pending := rest } : World).status c = .standby from hst)] at h
      cases h
      have b := begins_modC (f := fun x => { x with status := .current, schedTime := ⊤ }) (begins_idle (c := c) hg (by rw [hst]; simp [Status.idle]))
        fun _ => ⟨rfl, rfl, rfl, rfl, rfl, rfl⟩
      exact b.then rfl (fun _ _ => rfl) ⟨rfl, rfl, rfl, rfl, rfl, rfl⟩ rfl rfl

/-! ## the claim -/

/-- C58: a component that waits for resources, a state, an item or room in a store, and that is told to hold, to become passive, to go
into standby or to be activated (without keeping the request or wait), or that becomes current because its time is up, is taken
from all the queues in which it waits, its `failed()` becomes true, and nobody and nothing else is affected; if it wasn't waiting
for anything, `failed()` doesn't change -/
theorem C58_gives_up {w w' : World} {fuel : Nat} {o : Op} {c : CId} (h : Reach Calm w) (hc : Calm fuel w o) (ho : o.redirects c w w')
    (hx : exec fuel o w = .ok w') : GaveUpAll c w w' := by
  have hg := h.good
  have b : Begins c w w' := by
    rcases ho with ⟨d, t, p, u, k, i, rfl⟩ | rfl | rfl | ⟨a, d, p, u, k, pr, kr, kw, rfl, hk⟩ | ⟨rfl, rfl⟩
    · exact hold_begins hg hx
    · exact passivate_begins hg hx
    · exact standby_begins hg hx
    · exact activate_begins hg hx hk
    · exact step_begins hg hx
  exact gaveUpAll_of (exec_good hg hc hx) b.dr b.nowait (fun hi => b.failed (inLine_pending hg hi)) b.unchanged

/-- C58: a component that is activated with `keep_request` or `keep_wait` goes on waiting: it is scheduled, but in all the queues
it was in, at the same place -/
theorem C58_kept {w w' : World} {fuel : Nat} {c : CId} {a : Option ETime} {d p : ETime} {u k kr kw : Bool} (h : Reach Calm w)
    (hs : w.status c = .requesting ∨ w.status c = .waiting) (hk : kr = true ∨ kw = true)
    (hx : exec fuel (.activate c a d p u k false kr kw) w = .ok w') :
    w'.status c = .scheduled ∧ w'.queues = w.queues ∧ (w'.comps c).requests = (w.comps c).requests ∧ (w'.comps c).waits = (w.comps c).waits ∧
      (w'.comps c).fromStores = (w.comps c).fromStores ∧ (w'.comps c).toStores = (w.comps c).toStores ∧
      (w'.comps c).failed = (w.comps c).failed ∧ (∀ d, d ≠ c → w'.comps d = w.comps d) := by
  simp only [exec] at hx
  unfold activate at hx
  have hnd : (w.status c = .data) = False := by
    rcases hs with hs | hs <;> simp [hs]
  have hnc : ¬ w.status c = .current := by
    rcases hs with hs | hs <;> simp [hs]
  have hkk : (kr || kw) = true := by rcases hk with hk | hk <;> simp [hk]
  simp only [hnd, decide_false, Bool.or_false, Bool.false_and, Bool.false_eq_true, if_false, if_neg hnc, Bool.not_false, Bool.true_and, hkk,
    if_true] at hx
  obtain ⟨w1, h1, h2⟩ := andThen_ok hx
  obtain ⟨w2, h3, h4⟩ := andThen_ok h1
  cases h4
  obtain ⟨w3, h5, r⟩ := remove_removed h.good.inv c
  rw [h5] at h3; cases h3
  have k := (reschedule_ok h2).1
  have hc : (setStatus c .scheduled w1).comps c = { w.comps c with onList := false, status := .scheduled } := by
    unfold setStatus; rw [modC_self, r.self]
  have hself := k.self
  rw [hc] at hself
  refine ⟨?_, ?_, ?_, ?_, ?_, ?_, ?_, fun d hd => ?_⟩
  · rw [World.status, hself]
  · rw [k.queues]; exact r.queues
  · rw [hself]
  · rw [hself]
  · rw [hself]
  · rw [hself]
  · rw [hself]
  · rw [k.other d hd]
    unfold setStatus
    rw [modC_other hd]; exact r.other d hd

/-! examples: component 1 claims 3 of the 5 of resource 1, components 2, 3 and 4 wait for 4, 3 and 4; 3 is redirected -/

/-- the four components -/
def laneOps : List Op := born 1 ++ [ask 1 1 3] ++ born 2 ++ [ask 2 1 4] ++ born 3 ++ [ask 3 1 3] ++ born 4 ++ [ask 4 1 4]
def laneW : World := execAll 20 laneOps shop
theorem laneW_reach : Reach Calm laneW := reach_calm _ (.init fresh_shop) _ (by decide +kernel)

example : laneW.inQ (.requesters 1) = [2, 3, 4] ∧ laneW.status 3 = .requesting ∧ (laneW.comps 3).failed = false := by decide +kernel

example : Calm 20 laneW (.passivate 3) ∧ Calm 20 laneW (.standby 3) ∧ Calm 20 laneW (.hold 3 (some (2 : Rat)) none (0 : Rat) false false 0) ∧
    (exec 20 (.passivate 3) laneW).world.inQ (.requesters 1) = [2, 4] ∧ ((exec 20 (.passivate 3) laneW).world.comps 3).failed = true ∧
    (exec 20 (.standby 3) laneW).world.inQ (.requesters 1) = [2, 4] ∧ ((exec 20 (.standby 3) laneW).world.comps 3).failed = true ∧
    (exec 20 (.hold 3 (some (2 : Rat)) none (0 : Rat) false false 0) laneW).world.inQ (.requesters 1) = [2, 4] :=
  ⟨calmb_calm (by decide +kernel), calmb_calm (by decide +kernel), calmb_calm (by decide +kernel), by decide +kernel, by decide +kernel,
    by decide +kernel, by decide +kernel, by decide +kernel⟩

/-- activate, with and without keeping the request -/
example : let o (k : Bool) : Op := .activate 3 none (2 : Rat) (0 : Rat) false false false k false
    Calm 20 laneW (o false) ∧ (exec 20 (o false) laneW).world.inQ (.requesters 1) = [2, 4] ∧
    (exec 20 (o true) laneW).isOk = true ∧ (exec 20 (o true) laneW).world.inQ (.requesters 1) = [2, 3, 4] ∧ (exec 20 (o true) laneW).world.status 3 = .scheduled :=
  ⟨calmb_calm (by decide +kernel), by decide +kernel, by decide +kernel, by decide +kernel, by decide +kernel⟩

end Verif
