import Verif.QueueInv
import Verif.Reach
import Mathlib.Data.Set.Insert

/-!
# Histories without exceptions: what components wait for

The invariant `Good` connects the status of a component, its pending event and the queues it is in. It is kept by every call that
returns normally; a call that raises may break it (see the counterexamples in `Verif.Props.Scheduling`).
-/

namespace Verif
open World

/-- the component doesn't wait for anything -/
structure NoWait (x : Comp) : Prop where
  req : x.requests = []
  wai : x.waits = []
  frm : x.fromStores = []
  tos : x.toStores = []

/-- statuses of a component that doesn't wait for anything -/
def Status.idle (s : Status) : Prop := s = .data ∨ s = .current ∨ s = .standby ∨ s = .passive

/-- statuses with a scheduled time -/
def Status.timed (s : Status) : Prop := s = .scheduled ∨ s = .requesting ∨ s = .waiting

/-- the queue is one of those in which components wait -/
def QRef.wq : QRef → Bool
  | .requesters _ | .waiters _ | .fromReq _ | .toReq _ => true
  | _ => false

/-- being in this queue agrees with what the component waits for (nothing is said about other queues) -/
def awaits (x : Comp) : QRef → Prop
  | .requesters r => r ∈ keys x.requests
  | .waiters s => s ∈ x.waits.map Wait.s
  | .fromReq s => s ∈ x.fromStores
  | .toReq s => s ∈ x.toStores
  | _ => True

theorem NoWait.awaits {x : Comp} (h : NoWait x) {q : QRef} (hq : q.wq = true) : ¬ awaits x q := by
  cases q <;> simp [QRef.wq] at hq <;> simp [Verif.awaits, keys, h.req, h.wai, h.frm, h.tos]

/-- the components in standby, in the order of their turns -/
def World.lined (w : World) : List CId := w.pending ++ w.standby

/-- Consistency of the lists of components in standby. Without `skip_standby`, nobody in standby is forgotten. -/
structure SB (e : Set CId) (w : World) : Prop where
  nd : w.lined.Nodup
  mem : ∀ c ∈ w.lined, c ∉ e ∧ w.status c = .standby
  all : (∀ d, (w.comps d).skipStandby = false) → ∀ c, c ∉ e → w.status c = .standby → c ∈ w.lined
  main : w.status w.main ≠ .standby

theorem SB.congr {e : Set CId} {w w' : World} (h : SB e w) (hl : w'.lined = w.lined) (hm : w'.main = w.main)
    (hc : ∀ d, (w'.comps d).cv = (w.comps d).cv) : SB e w' := by
  have h1 : ∀ d, w'.status d = w.status d := fun d => congrArg CV.status (hc d)
  have h2 : ∀ d, (w'.comps d).skipStandby = (w.comps d).skipStandby := fun d => congrArg CV.skip (hc d)
  refine ⟨hl ▸ h.nd, fun c hc => ?_, fun hs c hc hst => ?_, by rw [hm, h1]; exact h.main⟩
  · rw [h1]; exact h.mem c (hl ▸ hc)
  · rw [hl]; exact h.all (fun d => (h2 d).symm.trans (hs d)) c hc ((h1 c).symm.trans hst)

theorem SB.of_ev {e : Set CId} {w w' : World} (h : SB e w) (he : w'.ev = w.ev) : SB e w' :=
  h.congr (by simp only [World.lined]; rw [show w'.pending = w.pending from congrArg EV.pending he,
    show w'.standby = w.standby from congrArg EV.standby he]) (congrArg EV.main he) fun d => congrFun (congrArg EV.comps he) d

/-- changing one component -/
theorem SB.one {e e' : Set CId} {w w' : World} {c : CId} (h : SB e w) (he : ∀ d, d ≠ c → (d ∈ e' ↔ d ∈ e)) (hm : w'.main = w.main)
    (ho : ∀ d, d ≠ c → w'.comps d = w.comps d)
    (hsk : (∀ d, (w'.comps d).skipStandby = false) → ∀ d, (w.comps d).skipStandby = false)
    (hnd : w'.lined.Nodup) (hl : ∀ d, d ≠ c → (d ∈ w'.lined ↔ d ∈ w.lined)) (h1 : c ∈ w'.lined → c ∉ e' ∧ w'.status c = .standby)
    (h2 : (∀ d, (w'.comps d).skipStandby = false) → c ∉ e' → w'.status c = .standby → c ∈ w'.lined) (h3 : c = w.main → w'.status c ≠ .standby) : SB e' w' := by
  have hst : ∀ d, d ≠ c → w'.status d = w.status d := fun d hd => by simp only [World.status, ho d hd]
  refine ⟨hnd, fun d hd => ?_, fun hs d hd hds => ?_, ?_⟩
  · by_cases hdc : d = c
    · subst hdc; exact h1 hd
    · rw [hst d hdc, he d hdc]; exact h.mem d ((hl d hdc).1 hd)
  · by_cases hdc : d = c
    · subst hdc; exact h2 hs hd hds
    · rw [hst d hdc] at hds; rw [he d hdc] at hd
      exact (hl d hdc).2 (h.all (hsk hs) d hd hds)
  · rw [hm]
    by_cases hmc : w.main = c
    · rw [hmc]; exact h3 hmc.symm
    · rw [hst _ hmc]; exact h.main

/-- changing a component that isn't in the lists -/
theorem SB.put {e e' : Set CId} {w w' : World} {c : CId} (h : SB e w) (he : ∀ d, d ≠ c → (d ∈ e' ↔ d ∈ e)) (hm : w'.main = w.main)
    (ho : ∀ d, d ≠ c → w'.comps d = w.comps d)
    (hsk : (∀ d, (w'.comps d).skipStandby = false) → ∀ d, (w.comps d).skipStandby = false)
    (hl : w'.lined = w.lined) (hc : c ∉ w.lined) (hs : w'.status c ≠ .standby ∨ c ∈ e' ∧ w'.status c = w.status c) : SB e' w' := by
  refine h.one he hm ho hsk (hl ▸ h.nd) (fun d _ => by rw [hl]) (fun hc' => absurd (hl ▸ hc') hc) (fun _ h1 h2 => ?_) (fun h1 => ?_)
  · rcases hs with hs | hs
    · exact absurd h2 hs
    · exact absurd hs.1 h1
  · rcases hs with hs | hs
    · exact hs
    · rw [hs.2, h1]; exact h.main

theorem SB.notin {e : Set CId} {w : World} {c : CId} (h : SB e w) (hc : c ∈ e ∨ w.status c ≠ .standby) : c ∉ w.lined := by
  intro hm
  rcases hc with hc | hc
  · exact (h.mem c hm).1 hc
  · exact hc (h.mem c hm).2

/-- taking a component out of the lists, if it is in standby -/
theorem SB.erased {e : Set CId} {w w' : World} {c : CId} (h : SB e w)
    (h1 : w'.standby = if w.status c = .standby then w.standby.erase c else w.standby)
    (h2 : w'.pending = if w.status c = .standby then w.pending.erase c else w.pending) :
    w'.lined.Nodup ∧ (∀ d, d ≠ c → (d ∈ w'.lined ↔ d ∈ w.lined)) ∧ c ∉ w'.lined := by
  have hn := List.nodup_append.1 h.nd
  by_cases hs : w.status c = .standby
  · rw [if_pos hs] at h1 h2
    have hl : w'.lined = w.pending.erase c ++ w.standby.erase c := by simp only [World.lined, h1, h2]
    rw [hl]
    refine ⟨?_, fun d hd => ?_, ?_⟩
    · exact h.nd.sublist (List.Sublist.append List.erase_sublist List.erase_sublist)
    · simp only [World.lined, List.mem_append, List.mem_erase_of_ne hd]
    · rw [List.mem_append]
      rintro (hc | hc)
      · exact hn.1.not_mem_erase hc
      · exact hn.2.1.not_mem_erase hc
  · rw [if_neg hs] at h1 h2
    have hl : w'.lined = w.lined := by simp only [World.lined, h1, h2]
    rw [hl]
    exact ⟨h.nd, fun _ _ => Iff.rfl, h.notin (.inr hs)⟩

/-- Consistency of a state. `e` are the components that are exempted, because a call is changing them. -/
structure Good (e : Set CId) (w : World) : Prop where
  inv : w.Inv
  nd : ∀ q, (w.inQ q).Nodup
  idle : ∀ c, c ∉ e → (w.status c).idle → NoWait (w.comps c)
  timed : ∀ c, c ∉ e → (w.status c).timed → (w.comps c).schedTime ≠ ⊤ → (w.comps c).onList = true
  dat : ∀ c, c ∉ e → w.status c = .data → (w.comps c).onList = false
  coh : ∀ q c, c ∈ w.inQ q → awaits (w.comps c) q
  main : NoWait (w.comps w.main)
  sb : SB e w

/-! ## operations on queues -/

theorem Queue.Kind.nodup {t : Rat} {q q' : Queue} (hk : Queue.Kind t q q') (h : (q.mem.map QMem.c).Nodup) :
    (q'.mem.map QMem.c).Nodup := by
  cases hk with
  | same he => rw [he]; exact h
  | cap k he => rw [he]; exact h
  | reset _ _ he => rw [he]; exact h
  | entered c l1 l2 x hx =>
    rw [hx.eq]
    have hp : (l1 ++ x :: l2).Perm (x :: q.mem) := by rw [hx.mem]; exact List.perm_middle
    refine (hp.map QMem.c).nodup_iff.2 ?_
    simp only [List.map_cons, List.nodup_cons]
    refine ⟨fun hm => ?_, h⟩
    obtain ⟨m, hm, he⟩ := List.mem_map.1 hm
    exact hx.new m hm (he.trans hx.xc)
  | left c l1 l2 x hx =>
    rw [hx.eq]
    rw [hx.mem] at h
    exact h.sublist ((List.Sublist.append_left (List.sublist_cons_self _ _) _).map _)
  | moved c p k1 k2 l1 l2 x hx =>
    rw [hx.eq]
    rw [hx.mem] at h
    have hp : (l1 ++ { x with prio := p } :: l2).Perm ({ x with prio := p } :: (k1 ++ k2)) := by
      rw [hx.split]; exact List.perm_middle
    have hp2 : (k1 ++ x :: k2).Perm (x :: (k1 ++ k2)) := List.perm_middle
    exact (hp.map QMem.c).nodup_iff.2 ((hp2.map QMem.c).nodup_iff.1 h)

theorem inQ_modQ (w : World) (q : QRef) (x : Queue) (p : QRef) :
    (w.modQ q (fun _ => x)).inQ p = if p = q then x.mem.map QMem.c else w.inQ p := by
  simp only [World.inQ, World.modQ]
  split <;> rfl

/-- an operation on one queue that returned -/
theorem onQueue_ok {w w' : World} {q f} (h : onQueue q f w = .ok w') :
    ∃ q', f (w.queues q) = .ok q' ∧ w' = w.modQ q (fun _ => q') := by
  unfold onQueue at h
  split at h
  · rename_i q' hq
    cases h
    exact ⟨q', hq, rfl⟩
  · cases h

/-- only members of queues have left -/
structure Lv (w w' : World) : Prop where
  comps : w'.comps = w.comps
  ev : w'.ev = w.ev
  main : w'.main = w.main
  sub : ∀ q, (w'.inQ q).Sublist (w.inQ q)

theorem Lv.refl (w : World) : Lv w w := ⟨rfl, rfl, rfl, fun _ => List.Sublist.refl _⟩
theorem Lv.trans {a b c : World} (h : Lv a b) (h2 : Lv b c) : Lv a c :=
  ⟨h2.comps.trans h.comps, h2.ev.trans h.ev, h2.main.trans h.main, fun q => (h2.sub q).trans (h.sub q)⟩
theorem Lv.modR {a b : World} (h : Lv a b) (r f) : Lv a (b.modR r f) := ⟨h.comps, h.ev, h.main, h.sub⟩

theorem leaveQ_lv {c : CId} {q : QRef} {w w' : World} (h : leaveQ c q w = .ok w') (hn : (w.inQ q).Nodup) :
    Lv w w' ∧ c ∉ w'.inQ q := by
  obtain ⟨q', h1, h2⟩ := onQueue_ok h
  obtain ⟨l1, l2, x, hx⟩ := Queue.leave_ok h1
  have hm : w.inQ q = l1.map QMem.c ++ c :: l2.map QMem.c := by
    simp [World.inQ, hx.mem, hx.xc]
  have hm' : w'.inQ q = l1.map QMem.c ++ l2.map QMem.c := by
    rw [h2, inQ_modQ, if_pos rfl, hx.eq]; simp
  refine ⟨⟨by rw [h2]; rfl, by rw [h2]; rfl, by rw [h2]; rfl, fun p => ?_⟩, ?_⟩
  · by_cases hp : p = q
    · subst hp
      rw [hm, hm']
      exact List.Sublist.append_left (List.sublist_cons_self _ _) _
    · rw [h2, inQ_modQ, if_neg hp]
  · rw [hm']
    rw [hm] at hn
    have := (List.perm_middle.nodup_iff).1 hn
    exact (List.nodup_cons.1 this).1

theorem leaveRequesters_lv {c : CId} {r : RId} {w w' : World} (h : leaveRequesters c r w = .ok w')
    (hn : (w.inQ (.requesters r)).Nodup) : Lv w w' ∧ c ∉ w'.inQ (.requesters r) := by
  unfold leaveRequesters at h
  cases hl : leaveQ c (.requesters r) w with
  | err e w1 => rw [hl] at h; cases h
  | ok w1 =>
    rw [hl] at h
    simp only [R.andThen] at h
    obtain ⟨h1, h2⟩ := leaveQ_lv hl hn
    cases h
    split
    · exact ⟨h1.modR _ _, h2⟩
    · exact ⟨h1, h2⟩

theorem has_inQ (w : World) (q : QRef) (c : CId) : (w.queues q).has c = true ↔ c ∈ w.inQ q := by
  simp [Queue.has, World.inQ]

theorem leaveWaiters_lv {c : CId} {x : Wait} {w w' : World} (h : leaveWaiters c x w = .ok w')
    (hn : (w.inQ (.waiters x.s)).Nodup) : Lv w w' ∧ c ∉ w'.inQ (.waiters x.s) := by
  unfold leaveWaiters at h
  split at h
  · exact leaveQ_lv h hn
  · rename_i hh
    cases h
    rw [has_inQ] at hh
    exact ⟨.refl _, hh⟩

/-- a loop that leaves queues -/
theorem forR_lv {α : Type} {c : CId} {f : α → World → R} {g : α → QRef}
    (hf : ∀ a w w', f a w = .ok w' → (w.inQ (g a)).Nodup → Lv w w' ∧ c ∉ w'.inQ (g a)) :
    ∀ (l : List α) (w w' : World), forR l f w = .ok w' → (∀ q, (w.inQ q).Nodup) → Lv w w' ∧ ∀ a ∈ l, c ∉ w'.inQ (g a)
  | [], w, w', h, hn => by cases h; exact ⟨.refl _, by simp⟩
  | a :: t, w, w', h, hn => by
    unfold forR at h
    cases ha : f a w with
    | err e w1 => rw [ha] at h; cases h
    | ok w1 =>
      rw [ha] at h
      obtain ⟨h1, h2⟩ := hf a w w1 ha (hn _)
      obtain ⟨h3, h4⟩ := forR_lv hf t w1 w' h (fun q => (hn q).sublist (h1.sub q))
      refine ⟨h1.trans h3, fun b hb => ?_⟩
      rcases List.mem_cons.1 hb with rfl | hb
      · exact fun hm => h2 ((h3.sub _).subset hm)
      · exact h4 b hb

theorem Lv.good {e : Set CId} {w w' : World} (h : Lv w w') (hg : Good e w) : Good e w' := by
  refine ⟨inv_of_ev h.ev hg.inv, fun q => (hg.nd q).sublist (h.sub q), ?_, ?_, ?_, ?_, ?_, hg.sb.of_ev h.ev⟩
  · simp only [World.status, h.comps]; exact hg.idle
  · simp only [World.status, h.comps]; exact hg.timed
  · simp only [World.status, h.comps]; exact hg.dat
  · intro q c hc; rw [h.comps]; exact hg.coh q c ((h.sub q).subset hc)
  · rw [h.comps, h.main]; exact hg.main

/-! ## changes of one component -/

theorem modC_self (w : World) (c : CId) (f) : (w.modC c f).comps c = f (w.comps c) := by simp [World.modC]

/-- changes of attributes that have nothing to do with scheduling -/
theorem Good.modC {e : Set CId} {w : World} (hg : Good e w) {c : CId} {f : Comp → Comp} (hcv : ∀ x, (f x).cv = x.cv)
    (hi : NoWait (w.comps c) → NoWait (f (w.comps c)))
    (hq : ∀ q, c ∈ w.inQ q → awaits (w.comps c) q → awaits (f (w.comps c)) q) : Good e (w.modC c f) := by
  have hst : ∀ d, ((w.modC c f).comps d).cv = (w.comps d).cv := by
    intro d; simp only [World.modC]; split <;> simp [hcv]
  have h1 : ∀ d, (w.modC c f).status d = w.status d := fun d => congrArg CV.status (hst d)
  have h2 : ∀ d, ((w.modC c f).comps d).onList = (w.comps d).onList := fun d => congrArg CV.onList (hst d)
  have h3 : ∀ d, ((w.modC c f).comps d).schedTime = (w.comps d).schedTime := fun d => congrArg CV.sched (hst d)
  have hn : ∀ d, NoWait (w.comps d) → NoWait ((w.modC c f).comps d) := by
    intro d hd
    by_cases hdc : d = c
    · subst hdc; rw [modC_self]; exact hi hd
    · rw [modC_other hdc]; exact hd
  refine ⟨inv_of_ev (ev_modC hcv) hg.inv, hg.nd, ?_, ?_, ?_, ?_, ?_, hg.sb.of_ev (ev_modC hcv)⟩
  · intro d hd hs; rw [h1] at hs; exact hn d (hg.idle d hd hs)
  · intro d hd hs; rw [h1] at hs; rw [h2, h3]; exact hg.timed d hd hs
  · intro d hd hs; rw [h1] at hs; rw [h2]; exact hg.dat d hd hs
  · intro q d hd
    by_cases hdc : d = c
    · subst hdc; rw [modC_self]; exact hq q hd (hg.coh q d hd)
    · rw [modC_other hdc]; exact hg.coh q d hd
  · exact hn _ hg.main

/-- changes of attributes that have nothing to do with scheduling or waiting -/
theorem Good.modC' {e : Set CId} {w : World} (hg : Good e w) {c : CId} {f : Comp → Comp} (hcv : ∀ x, (f x).cv = x.cv)
    (h1 : ∀ x, (f x).requests = x.requests) (h2 : ∀ x, (f x).waits = x.waits) (h3 : ∀ x, (f x).fromStores = x.fromStores)
    (h4 : ∀ x, (f x).toStores = x.toStores) : Good e (w.modC c f) := by
  refine hg.modC hcv (fun h => ⟨by rw [h1, h.req], by rw [h2, h.wai], by rw [h3, h.frm], by rw [h4, h.tos]⟩) ?_
  intro q _ hq
  cases q <;> simp only [awaits, h1, h2, h3, h4] <;> exact hq

theorem Good.modR {e : Set CId} {w : World} (hg : Good e w) (r f) : Good e (w.modR r f) :=
  ⟨hg.inv, hg.nd, hg.idle, hg.timed, hg.dat, hg.coh, hg.main, hg.sb.of_ev rfl⟩

theorem Good.setState {e : Set CId} {w : World} (hg : Good e w) (s v) : Good e (w.setState s v) :=
  ⟨hg.inv, hg.nd, hg.idle, hg.timed, hg.dat, hg.coh, hg.main, hg.sb.of_ev rfl⟩

/-! ## `_check_fail` -/

theorem forR_nil_or {α : Type} (f : α → World → R) (w : World) : forR [] f w = .ok w := rfl

/-- what `_check_fail` does, apart from the queues -/
structure Failed (c : CId) (w w' : World) : Prop where
  ev : w'.ev = w.ev
  main : w'.main = w.main
  other : ∀ d, d ≠ c → w'.comps d = w.comps d
  sub : ∀ q, (w'.inQ q).Sublist (w.inQ q)
  claims : (w'.comps c).claims = (w.comps c).claims
  requests : (w'.comps c).requests = [] ∨ (w'.comps c).requests = (w.comps c).requests
  waits : (w'.comps c).waits = [] ∨ (w'.comps c).waits = (w.comps c).waits
  fromStores : (w'.comps c).fromStores = [] ∨ (w'.comps c).fromStores = (w.comps c).fromStores
  toStores : (w'.comps c).toStores = [] ∨ (w'.comps c).toStores = (w.comps c).toStores

theorem Failed.refl (c : CId) (w : World) : Failed c w w :=
  ⟨rfl, rfl, fun _ _ => rfl, fun _ => List.Sublist.refl _, rfl, .inr rfl, .inr rfl, .inr rfl, .inr rfl⟩

theorem or_nil_trans {α : Type} {a b c : List α} (h : b = [] ∨ b = a) (h2 : c = [] ∨ c = b) : c = [] ∨ c = a := by
  rcases h2 with h2 | h2
  · exact .inl h2
  · rcases h with h | h
    · exact .inl (h2.trans h)
    · exact .inr (h2.trans h)

theorem Failed.trans {c : CId} {w1 w2 w3 : World} (h : Failed c w1 w2) (h2 : Failed c w2 w3) : Failed c w1 w3 :=
  ⟨h2.ev.trans h.ev, h2.main.trans h.main, fun d hd => (h2.other d hd).trans (h.other d hd), fun q => (h2.sub q).trans (h.sub q),
    h2.claims.trans h.claims, or_nil_trans h.requests h2.requests, or_nil_trans h.waits h2.waits,
    or_nil_trans h.fromStores h2.fromStores, or_nil_trans h.toStores h2.toStores⟩

/-- one part of `_check_fail`: leave the queues, then forget them -/
theorem checkPart {α : Type} {e : Set CId} {c : CId} {w w' : World} {l : List α} {f : α → World → R} {g : α → QRef} {k : Comp → Comp}
    (hf : ∀ a w w', f a w = .ok w' → (w.inQ (g a)).Nodup → Lv w w' ∧ c ∉ w'.inQ (g a))
    (h : (forR l f w ⊳ fun w => .ok (w.modC c k)) = .ok w') (hg : Good e w) (hcv : ∀ x, (k x).cv = x.cv)
    (hi : NoWait (w.comps c) → NoWait (k (w.comps c)))
    (hq : ∀ q, (∀ a ∈ l, q ≠ g a) → awaits (w.comps c) q → awaits (k (w.comps c)) q) (hcl : ∀ x, (k x).claims = x.claims)
    (h1 : ∀ x, (k x).requests = [] ∨ (k x).requests = x.requests) (h2 : ∀ x, (k x).waits = [] ∨ (k x).waits = x.waits)
    (h3 : ∀ x, (k x).fromStores = [] ∨ (k x).fromStores = x.fromStores) (h4 : ∀ x, (k x).toStores = [] ∨ (k x).toStores = x.toStores) :
    Good e w' ∧ Failed c w w' ∧ w'.comps c = k (w.comps c) := by
  cases hl : forR l f w with
  | err er w1 => rw [hl] at h; cases h
  | ok w1 =>
    rw [hl] at h
    cases h
    obtain ⟨hlv, hout⟩ := forR_lv hf l w w1 hl hg.nd
    have hc : (w1.modC c k).comps c = k (w.comps c) := by rw [modC_self, hlv.comps]
    refine ⟨(hlv.good hg).modC hcv ?_ ?_, ⟨?_, hlv.main, ?_, fun q => hlv.sub q, ?_, ?_, ?_, ?_, ?_⟩, hc⟩
    · rw [hlv.comps]; exact hi
    · rw [hlv.comps]
      intro q hcq haw
      refine hq q (fun a ha heq => ?_) haw
      subst heq
      exact hout a ha hcq
    · exact (ev_modC hcv).trans hlv.ev
    · intro d hd; rw [modC_other hd, hlv.comps]
    · rw [hc]; exact hcl _
    · rw [hc]; exact h1 _
    · rw [hc]; exact h2 _
    · rw [hc]; exact h3 _
    · rw [hc]; exact h4 _

theorem awaits_congr {x y : Comp} {q : QRef} (h1 : ∀ r, q = .requesters r → r ∈ keys x.requests → r ∈ keys y.requests)
    (h2 : ∀ s, q = .waiters s → s ∈ x.waits.map Wait.s → s ∈ y.waits.map Wait.s)
    (h3 : ∀ s, q = .fromReq s → s ∈ x.fromStores → s ∈ y.fromStores) (h4 : ∀ s, q = .toReq s → s ∈ x.toStores → s ∈ y.toStores) :
    awaits x q → awaits y q := by
  cases q <;> simp only [awaits, imp_self]
  · exact h1 _ rfl
  · exact h2 _ rfl
  · exact h3 _ rfl
  · exact h4 _ rfl

theorem checkFail_good {e : Set CId} {c : CId} {w w' : World} (h : checkFail c w = .ok w') (hg : Good e w) :
    Good e w' ∧ Failed c w w' ∧ NoWait (w'.comps c) := by
  unfold checkFail at h
  -- requests
  obtain ⟨w1, e1, h⟩ : ∃ w1, checkFailReq c w = .ok w1 ∧ (checkFailWait c w1 ⊳ checkFailFrom c ⊳ checkFailTo c) = .ok w' := by
    cases hr : checkFailReq c w with
    | err er w1 => rw [hr] at h; cases h
    | ok w1 => rw [hr] at h; exact ⟨w1, rfl, h⟩
  obtain ⟨w2, e2, h⟩ : ∃ w2, checkFailWait c w1 = .ok w2 ∧ (checkFailFrom c w2 ⊳ checkFailTo c) = .ok w' := by
    cases hr : checkFailWait c w1 with
    | err er w2 => rw [hr] at h; cases h
    | ok w2 => rw [hr] at h; exact ⟨w2, rfl, h⟩
  obtain ⟨w3, e3, h⟩ : ∃ w3, checkFailFrom c w2 = .ok w3 ∧ checkFailTo c w3 = .ok w' := by
    cases hr : checkFailFrom c w2 with
    | err er w3 => rw [hr] at h; cases h
    | ok w3 => rw [hr] at h; exact ⟨w3, rfl, h⟩
  have a1 : Good e w1 ∧ Failed c w w1 ∧ (w1.comps c).requests = [] := by
    unfold checkFailReq at e1
    split at e1
    · rename_i hn; cases e1; exact ⟨hg, .refl _ _, hn⟩
    · obtain ⟨g1, f1, k1⟩ := checkPart (g := fun r => .requesters r) (fun a w w' => leaveRequesters_lv) e1 hg (fun _ => rfl)
        (fun h => ⟨rfl, h.wai, h.frm, h.tos⟩)
        (fun q hq => awaits_congr (fun r hr hm => absurd hr (hq r hm)) (fun _ _ h => h) (fun _ _ h => h) (fun _ _ h => h)) (fun _ => rfl)
        (fun _ => .inl rfl) (fun _ => .inr rfl) (fun _ => .inr rfl) (fun _ => .inr rfl)
      exact ⟨g1, f1, by rw [k1]⟩
  have a2 : Good e w2 ∧ Failed c w1 w2 ∧ (w2.comps c).waits = [] := by
    unfold checkFailWait at e2
    split at e2
    · rename_i hn; cases e2; exact ⟨a1.1, .refl _ _, by simpa using hn⟩
    · obtain ⟨g1, f1, k1⟩ := checkPart (g := fun (x : Wait) => .waiters x.s) (fun a w w' => leaveWaiters_lv) e2 a1.1 (fun _ => rfl)
        (fun h => ⟨h.req, rfl, h.frm, h.tos⟩)
        (fun q hq => awaits_congr (fun _ _ h => h) (fun r hr hm => by
          obtain ⟨a, ha, hs⟩ := List.mem_map.1 hm
          exact absurd (hr.trans (by rw [hs])) (hq a ha)) (fun _ _ h => h) (fun _ _ h => h)) (fun _ => rfl)
        (fun _ => .inr rfl) (fun _ => .inl rfl) (fun _ => .inr rfl) (fun _ => .inr rfl)
      exact ⟨g1, f1, by rw [k1]⟩
  have a3 : Good e w3 ∧ Failed c w2 w3 ∧ (w3.comps c).fromStores = [] := by
    unfold checkFailFrom at e3
    split at e3
    · rename_i hn; cases e3; exact ⟨a2.1, .refl _ _, hn⟩
    · obtain ⟨g1, f1, k1⟩ := checkPart (g := fun s => .fromReq s) (fun a w w' => leaveQ_lv) e3 a2.1 (fun _ => rfl)
        (fun h => ⟨h.req, h.wai, rfl, h.tos⟩)
        (fun q hq => awaits_congr (fun _ _ h => h) (fun _ _ h => h) (fun r hr hm => absurd hr (hq r hm)) (fun _ _ h => h)) (fun _ => rfl)
        (fun _ => .inr rfl) (fun _ => .inr rfl) (fun _ => .inl rfl) (fun _ => .inr rfl)
      exact ⟨g1, f1, by rw [k1]⟩
  have a4 : Good e w' ∧ Failed c w3 w' ∧ (w'.comps c).toStores = [] := by
    unfold checkFailTo at h
    split at h
    · rename_i hn; cases h; exact ⟨a3.1, .refl _ _, hn⟩
    · obtain ⟨g1, f1, k1⟩ := checkPart (g := fun s => .toReq s) (fun a w w' => leaveQ_lv) h a3.1 (fun _ => rfl)
        (fun h => ⟨h.req, h.wai, h.frm, rfl⟩)
        (fun q hq => awaits_congr (fun _ _ h => h) (fun _ _ h => h) (fun _ _ h => h) (fun r hr hm => absurd hr (hq r hm))) (fun _ => rfl)
        (fun _ => .inr rfl) (fun _ => .inr rfl) (fun _ => .inr rfl) (fun _ => .inl rfl)
      exact ⟨g1, f1, by rw [k1]⟩
  refine ⟨a4.1, ((a1.2.1.trans a2.2.1).trans a3.2.1).trans a4.2.1, ⟨?_, ?_, ?_, a4.2.2⟩⟩
  · rcases ((a2.2.1.trans a3.2.1).trans a4.2.1).requests with h | h
    · exact h
    · exact h.trans a1.2.2
  · rcases (a3.2.1.trans a4.2.1).waits with h | h
    · exact h
    · exact h.trans a2.2.2
  · rcases a4.2.1.fromStores with h | h
    · exact h
    · exact h.trans a3.2.2

end Verif
