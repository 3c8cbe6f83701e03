import Verif.Props.Requests
import Verif.Props.Stores
import Verif.Props.Legal

/-!
# Where one joins the line (C65)
-/

namespace Verif
open World

/-! ## specification -/

/-- `c` has joined the line `l`, which has become `l'`, with priority `p`: behind everybody with the same or a higher priority (a lower value), before
everybody with a lower priority; the places of the others don't change -/
def Joins (c : CId) (p : Rat) (l l' : List QMem) : Prop :=
  ∃ l1 x l2, l = l1 ++ l2 ∧ l' = l1 ++ x :: l2 ∧ x.c = c ∧ x.prio = p ∧ (∀ m ∈ l1, m.prio ≤ p) ∧ ∀ m ∈ l2, p < m.prio

/-- the same, or, without a priority, at the end -/
def JoinsWith (c : CId) : Option Rat → List QMem → List QMem → Prop
  | some p, l, l' => Joins c p l l'
  | none, l, l' => ∃ x, l' = l ++ [x] ∧ x.c = c

/-! ## entering several queues -/

/-- `w'` is `w` in which `c` has entered queue `q`, apart from the records of the components -/
def Stepped (c : CId) (q : QRef) (p : Option Rat) (w w' : World) : Prop :=
  (Queue.Sorted (w.queues q).mem → JoinsWith c p (w.queues q).mem (w'.queues q).mem) ∧ c ∉ w.inQ q ∧ c ∈ w'.inQ q ∧
    (∀ q', q' ≠ q → w'.queues q' = w.queues q')

theorem enterSortedQ_stepped {c : CId} {q : QRef} {p : Rat} {w w' : World} (h : enterSortedQ c q p w = .ok w') : Stepped c q (some p) w w' ∧ w'.comps = w.comps := by
  obtain ⟨q', h1, rfl⟩ := onQueue_ok h
  obtain ⟨l1, l2, x, hx, hf, hp, hl⟩ := Queue.enterSorted_ok h1
  have hq : (w.modQ q (fun _ => q')).queues q = q' := by simp [World.modQ]
  refine ⟨⟨fun hs => ?_, ?_, ?_, fun r hr => by simp [World.modQ, hr]⟩, rfl⟩
  · rw [hq, hx.eq]
    exact ⟨l1, x, l2, hx.mem, rfl, hx.xc, hp, by rw [← hp]; exact (hf hs).1, hl hs⟩
  · unfold World.inQ; intro hm
    obtain ⟨m, hm, hc⟩ := List.mem_map.1 hm
    exact hx.new m hm hc
  · unfold World.inQ; rw [hq, hx.eq]; simp [hx.xc]

theorem enterQ_stepped {c : CId} {q : QRef} {w w' : World} (h : onQueue q (fun x => x.enter w.now c) w = .ok w') : Stepped c q none w w' ∧ w'.comps = w.comps := by
  obtain ⟨q', h1, rfl⟩ := onQueue_ok h
  obtain ⟨l1, l2, x, hx, hf, rfl⟩ := Queue.enter_ok h1
  have hq : (w.modQ q (fun _ => q')).queues q = q' := by simp [World.modQ]
  refine ⟨⟨fun hs => ?_, ?_, ?_, fun r hr => by simp [World.modQ, hr]⟩, rfl⟩
  · rw [hq, hx.eq]
    have := hx.mem
    rw [List.append_nil] at this
    exact ⟨x, by rw [this], hx.xc⟩
  · unfold World.inQ; intro hm
    obtain ⟨m, hm, hc⟩ := List.mem_map.1 hm
    exact hx.new m hm hc
  · unfold World.inQ; rw [hq, hx.eq]; simp [hx.xc]

/-- each of the queues is entered once; `f` does nothing else to the queues -/
theorem forR_joined {α : Type} {c : CId} {q : α → QRef} {p : α → Option Rat} {f : α → World → R} {I : World → Prop}
    : ∀ (l : List α), (∀ a ∈ l, ∀ w w', I w → f a w = .ok w' → I w' ∧ Stepped c (q a) (p a) w w') → ∀ w w' : World, I w → forR l f w = .ok w' →
    I w' ∧ (∀ a ∈ l, Queue.Sorted (w.queues (q a)).mem → JoinsWith c (p a) (w.queues (q a)).mem (w'.queues (q a)).mem) ∧
      (∀ a ∈ l, c ∉ w.inQ (q a)) ∧ (∀ a ∈ l, c ∈ w'.inQ (q a)) ∧ ∀ r, (∀ a ∈ l, r ≠ q a) → w'.queues r = w.queues r
  | [], _, w, w', hi, h => by cases h; exact ⟨hi, by simp, by simp, by simp, fun _ _ => rfl⟩
  | a :: l, hf, w, w', hi, h => by
    obtain ⟨w1, h1, h2⟩ := andThen_ok h
    obtain ⟨i1, s1, s2, s3, s4⟩ := hf a List.mem_cons_self w w1 hi h1
    obtain ⟨i2, k1, k2, k3, k4⟩ := forR_joined l (fun a ha => hf a (List.mem_cons_of_mem _ ha)) w1 w' i1 h2
    have hne : ∀ b ∈ l, q b ≠ q a := fun b hb he => k2 b hb (by rw [he]; exact s3)
    have ha : w'.queues (q a) = w1.queues (q a) := k4 _ fun b hb he => hne b hb he.symm
    refine ⟨i2, fun b hb hs => ?_, fun b hb => ?_, fun b hb => ?_, fun r hr => ?_⟩
    · rcases List.mem_cons.1 hb with rfl | hb
      · rw [ha]; exact s1 hs
      · have e := s4 _ (hne b hb)
        rw [← e] at hs ⊢
        exact k1 b hb hs
    · rcases List.mem_cons.1 hb with rfl | hb
      · exact s2
      · have := k2 b hb
        unfold World.inQ at this ⊢
        rw [← s4 _ (hne b hb)]; exact this
    · rcases List.mem_cons.1 hb with rfl | hb
      · unfold World.inQ at s3 ⊢; rw [ha]; exact s3
      · exact k3 b hb
    · rw [k4 r fun b hb => hr b (List.mem_cons_of_mem _ hb)]
      exact s4 r (hr a List.mem_cons_self)

theorem line_sorted {w : World} (h : Reach Calm w) {q : QRef} (hq : ∀ n, q ≠ .user n) : Queue.Sorted (w.queues q).mem :=
  Reach.sorted (q := q) (fun _ _ o _ => by cases o <;> first | exact trivial | exact fun e => hq _ e.symm) h

theorem wake_status {w w' : World} {c : CId} {ret : Option CId} (h : wake c ret w = .ok w') : w'.status c = .scheduled := by
  unfold wake at h
  obtain ⟨w1, _, h2⟩ := andThen_ok h
  rw [World.status, (reschedule_ok h2).1.self]
  simp [setStatus, World.modC]

theorem remove_waits {w w' : World} {c : CId} (h : remove c w = .ok w') : (w'.comps c).waits = (w.comps c).waits := by
  unfold remove at h
  split at h
  · split at h
    · cases h; simp [World.modC]
    · cases h
  · split at h <;> cases h <;> rfl

/-- the queues after the arguments of `wait` -/
theorem waitArgs_joined {c : CId} : ∀ (l : List WArg) (w w' : World), forR l (waitArg c) w = .ok w' →
    (∀ l1 a l2, l = l1 ++ a :: l2 → (∀ b ∈ l1, b.s ≠ a.s) → (∀ x ∈ (w.comps c).waits, x.s ≠ a.s) → Queue.Sorted (w.queues (.waiters a.s)).mem →
      JoinsWith c a.prio (w.queues (.waiters a.s)).mem (w'.queues (.waiters a.s)).mem) ∧
    (∀ q, (∀ a ∈ l, q = .waiters a.s → ∃ x ∈ (w.comps c).waits, x.s = a.s) → w'.queues q = w.queues q)
  | [], w, w', h => by
    cases h
    exact ⟨fun l1 a l2 he => by simp at he, fun _ _ => rfl⟩
  | b :: l, w, w', h => by
    obtain ⟨w1, h1, h2⟩ := andThen_ok h
    obtain ⟨k1, k2⟩ := waitArgs_joined l w1 w' h2
    have key : w1.comps c = { w.comps c with waits := (w.comps c).waits ++ [⟨b.s, b.ok⟩] } ∧
        ((∃ x ∈ (w.comps c).waits, x.s = b.s) ∧ w1.queues = w.queues ∨
          (∀ x ∈ (w.comps c).waits, x.s ≠ b.s) ∧ ∃ v : World, v.queues = w1.queues ∧ Stepped c (.waiters b.s) b.prio w v) := by
      unfold waitArg at h1
      obtain ⟨w2, h3, h4⟩ := andThen_ok h1
      cases h4
      rw [modC_self]
      split at h3
      · rename_i hx
        cases h3
        obtain ⟨x, hx, hs⟩ := List.any_eq_true.1 hx
        exact ⟨rfl, .inl ⟨⟨x, hx, by simpa using hs⟩, rfl⟩⟩
      · rename_i hx
        have hx : ∀ x ∈ (w.comps c).waits, x.s ≠ b.s := fun x hm he => hx (List.any_eq_true.2 ⟨x, hm, by simpa using he⟩)
        split at h3
        · rename_i hp
          obtain ⟨hs, hc⟩ := enterQ_stepped h3
          exact ⟨by rw [hc], .inr ⟨hx, w2, rfl, hp ▸ hs⟩⟩
        · rename_i p hp
          obtain ⟨hs, hc⟩ := enterSortedQ_stepped h3
          exact ⟨by rw [hc], .inr ⟨hx, w2, rfl, hp ▸ hs⟩⟩
    obtain ⟨hc, hq⟩ := key
    have hw : (w1.comps c).waits = (w.comps c).waits ++ [⟨b.s, b.ok⟩] := by rw [hc]
    have other : ∀ q, q ≠ .waiters b.s → w1.queues q = w.queues q := fun q hne => by
      rcases hq with ⟨_, e⟩ | ⟨_, v, e, hv⟩
      · rw [e]
      · rw [← e]; exact hv.2.2.2 q hne
    refine ⟨fun l1 a l2 he hf hn hs => ?_, fun q hq' => ?_⟩
    · cases l1 with
      | nil =>
        simp only [List.nil_append, List.cons.injEq] at he
        obtain ⟨rfl, rfl⟩ := he
        rcases hq with ⟨⟨x, hx, e⟩, _⟩ | ⟨_, v, e, hv⟩
        · exact absurd e (hn x hx)
        · rw [k2 _ fun a _ e => ⟨⟨b.s, b.ok⟩, by rw [hw]; simp, by injection e⟩, ← e]
          exact hv.1 hs
      | cons b' l1 =>
        simp only [List.cons_append, List.cons.injEq] at he
        obtain ⟨rfl, he⟩ := he
        have hne : (QRef.waiters a.s) ≠ .waiters b.s := fun e => hf b List.mem_cons_self (by injection e with e; exact e.symm)
        have e := other _ hne
        have := k1 l1 a l2 he (fun x hx => hf x (List.mem_cons_of_mem _ hx)) (fun x hx => ?_) (by rw [e]; exact hs)
        · rw [e] at this; exact this
        · rw [hw] at hx
          rcases List.mem_append.1 hx with hx | hx
          · exact hn x hx
          · rw [List.mem_singleton.1 hx]; exact hf b List.mem_cons_self
    · rw [k2 q fun a ha e => ?_]
      · by_cases hb : q = .waiters b.s
        · rcases hq with ⟨_, e⟩ | ⟨hx, _⟩
          · rw [e]
          · obtain ⟨x, hm, e⟩ := hq' b List.mem_cons_self hb
            exact absurd e (hx x hm)
        · exact other q hb
      · obtain ⟨x, hx, e⟩ := hq' a (List.mem_cons_of_mem _ ha) e
        exact ⟨x, by rw [hw]; simp [hx], e⟩

/-- the end of `wait` and `wait_for`, if the component waits -/
theorem waitEnd_queues {c : CId} {t p u k} {w w' : World} (h : waitEnd c t p u k w = .ok w') (hs : w'.status c = .waiting) : w'.queues = w.queues := by
  unfold waitEnd at h
  split at h
  · cases h
  simp only at h
  obtain ⟨w2, h1, h2⟩ := andThen_ok h
  unfold tryWait at h1
  have key : w2.queues = w.queues ∨ (w2.comps c).waits = [] ∧ w2.status c = .scheduled := by
    split at h1
    · cases h1; exact .inl rfl
    · split at h1
      · obtain ⟨w3, h3, h4⟩ := andThen_ok h1
        refine .inr ⟨?_, wake_status h4⟩
        unfold wake at h4
        obtain ⟨w4, h5, h6⟩ := andThen_ok h4
        rw [(reschedule_ok h6).1.self]
        simp only [setStatus, modC_self]
        rw [remove_waits h5, modC_self]
      · cases h1; exact .inl rfl
  rcases key with hq | ⟨hw, hst⟩
  · split at h2
    · cases h2; exact hq
    · rw [(reschedule_ok h2).1.queues]; exact hq
  · rw [hw] at h2
    simp only [List.isEmpty_nil, if_true] at h2
    cases h2
    rw [hst] at hs; cases hs

theorem requestArgs_joined {c : CId} {args : List Arg} {put : Bool} {w w' : World} (hnp : ∀ a ∈ args, (w.res a.r).preemptive = false)
    (h : forR args (requestArg c args.length put) w = .ok w') :
    (∀ a ∈ args, Queue.Sorted (w.queues (.requesters a.r)).mem → Joins c a.prio (w.queues (.requesters a.r)).mem (w'.queues (.requesters a.r)).mem) ∧
      ∀ q, (∀ a ∈ args, q ≠ .requesters a.r) → w'.queues q = w.queues q := by
  have hstep : ∀ a ∈ args, ∀ v v' : World, (∀ b ∈ args, (v.res b.r).preemptive = false) → requestArg c args.length put a v = .ok v' →
      (∀ b ∈ args, (v'.res b.r).preemptive = false) ∧ Stepped c (.requesters a.r) (some a.prio) v v' := by
    intro a ha v v' hi h
    unfold requestArg at h
    simp only at h
    rw [if_neg (by rw [hi a ha]; simp)] at h
    generalize (if put = true then -a.q else a.q) = q at h
    split at h
    · cases h
    obtain ⟨v1, h1, h2⟩ := andThen_ok h
    simp only [hi a ha, Bool.false_eq_true, if_false] at h2
    cases h2
    obtain ⟨hs, _⟩ := enterSortedQ_stepped h1
    obtain ⟨q', _, rfl⟩ := onQueue_ok h1
    exact ⟨hi, hs⟩
  obtain ⟨_, k1, _, _, k4⟩ := forR_joined args hstep w w' hnp h
  exact ⟨k1, k4⟩

/-! ## claim -/

/-- C65: a component that has to wait for resources joins the line of each of them -/
theorem C65_request {w w' : World} {fuel c args oneof put fa fd p u k} (h : Reach Calm w) (hcur : w.status c = .current)
    (hc : Calm fuel w (.request c args oneof put fa fd p u k)) (hx : exec fuel (.request c args oneof put fa fd p u k) w = .ok w')
    (hnp : ∀ a ∈ args, (w.res a.r).preemptive = false) (hw : w'.status c = .requesting) :
    (∀ a ∈ args, Joins c a.prio (w.queues (.requesters a.r)).mem (w'.queues (.requesters a.r)).mem) ∧
      ∀ q, (∀ a ∈ args, q ≠ .requesters a.r) → w'.queues q = w.queues q := by
  simp only [exec] at hx
  obtain ⟨t, w4, g4, p4, q4, cl4, on4, wa4, fr4, to4, hqs, h5⟩ := request_split h.good hc.2.1 hc.2.2 h.coh hx
  obtain ⟨w2, w3, e2, er, h3, e4, _⟩ := hqs hcur
  obtain ⟨w5, h5, h6⟩ := andThen_ok h5
  have e5 : w'.queues = w4.queues := by
    cases fuel with
    | zero => rw [tryReqC] at h5; cases h5
    | succ n =>
      rw [tryReqC] at h5
      split at h5
      · cases h5
        split at h6
        · cases h6; rfl
        · rw [(reschedule_ok h6).1.queues]; rfl
      · rename_i res hres
        obtain ⟨w6, h6', h7⟩ := andThen_ok h5
        obtain ⟨g6, _, r6, st6, _, _, _, _⟩ := honorNow_good g4 (e' := ∅) not_single hres h6'
        obtain ⟨l, hl⟩ := honorNow_self g4 hres h6'
        have n6 : NoWait (w6.comps c) := by rw [hl]; exact ⟨rfl, wa4, fr4, to4⟩
        have f7 := ((trR_try ∅ n).2.1 _ w6 g6 w5 h7).frozen c n6
        rw [if_pos (by rw [f7]; exact r6)] at h6
        cases h6
        unfold World.status at hw st6
        rw [f7, st6] at hw; cases hw
  obtain ⟨k1, k4⟩ := requestArgs_joined (by rw [er]; exact hnp) h3
  rw [e2] at k1 k4
  rw [e5, e4]
  exact ⟨fun a ha => k1 a ha (line_sorted h (by simp)), k4⟩

/-- C65: a component that has to wait for an item joins the line of the requesters of each of the stores -/
theorem C65_from_store {w w' : World} {fuel c ss f key rp fa fd p u k} (h : Reach Calm w) (hcur : w.status c = .current)
    (hx : exec fuel (.fromStore c ss f key rp fa fd p u k) w = .ok w') (hw : w'.status c = .requesting) :
    (∀ s ∈ ss, Joins c rp (w.queues (.fromReq s)).mem (w'.queues (.fromReq s)).mem) ∧
      ∀ q, (∀ s ∈ ss, q ≠ .fromReq s) → w'.queues q = w.queues q := by
  simp only [exec] at hx
  unfold fromStore at hx
  split at hx
  · cases hx
  obtain ⟨w1, h1, h2⟩ := andThen_ok hx
  unfold preamble at h1
  rw [if_pos hcur] at h1
  cases h1
  simp only at h2
  split at h2
  · cases h2
  split at h2
  · obtain ⟨w3, h3, h4⟩ := andThen_ok h2
    rw [wake_status h4] at hw; cases hw
  · obtain ⟨w3, h3, h4⟩ := andThen_ok h2
    obtain ⟨_, k1, _, _, k4⟩ := forR_joined (I := fun _ => True) (q := fun s => .fromReq s) (p := fun _ => some rp) (c := c) ss
      (fun s _ v v' _ hv => ⟨trivial, (enterSortedQ_stepped hv).1⟩) _ w3 trivial h3
    rw [(reschedule_ok h4).1.queues]
    exact ⟨fun s hs => k1 s hs (line_sorted h (by simp)), k4⟩

/-- C65: a component that has to wait for room joins the line of those that want to put something in each of the stores -/
theorem C65_to_store {w w' : World} {fuel c ss i rp sp fa fd p u k} (h : Reach Calm w) (hcur : w.status c = .current)
    (hx : exec fuel (.toStore c ss i rp sp fa fd p u k) w = .ok w') (hw : w'.status c = .requesting) :
    (∀ s ∈ ss, Joins c rp (w.queues (.toReq s)).mem (w'.queues (.toReq s)).mem) ∧
      ∀ q, (∀ s ∈ ss, q ≠ .toReq s) → w'.queues q = w.queues q := by
  simp only [exec] at hx
  unfold toStore at hx
  split at hx
  · cases hx
  obtain ⟨w1, h1, h2⟩ := andThen_ok hx
  unfold preamble at h1
  rw [if_pos hcur] at h1
  cases h1
  simp only at h2
  split at h2
  · cases h2
  split at h2
  · obtain ⟨w3, h3, h4⟩ := andThen_ok h2
    rw [wake_status h4] at hw; cases hw
  · obtain ⟨w3, h3, h4⟩ := andThen_ok h2
    obtain ⟨_, k1, _, _, k4⟩ := forR_joined (I := fun _ => True) (q := fun s => .toReq s) (p := fun _ => some rp) (c := c) ss
      (fun s _ v v' _ hv => ⟨trivial, (enterSortedQ_stepped hv).1⟩) _ w3 trivial h3
    rw [(reschedule_ok h4).1.queues]
    exact ⟨fun s hs => k1 s hs (line_sorted h (by simp)), k4⟩

/-- C65: a component that has to wait for states joins the line of each of them once, according to the first argument for that state; without
a priority at the end -/
theorem C65_wait {w w' : World} {fuel c args all fa fd p u k} (h : Reach Calm w) (hcur : w.status c = .current)
    (hx : exec fuel (.wait c args all fa fd p u k) w = .ok w') (hw : w'.status c = .waiting) :
    (∀ l1 a l2, args = l1 ++ a :: l2 → (∀ b ∈ l1, b.s ≠ a.s) → JoinsWith c a.prio (w.queues (.waiters a.s)).mem (w'.queues (.waiters a.s)).mem) ∧
      ∀ q, (∀ a ∈ args, q ≠ .waiters a.s) → w'.queues q = w.queues q := by
  simp only [exec] at hx
  unfold wait at hx
  obtain ⟨w1, h1, h2⟩ := andThen_ok hx
  unfold preamble at h1
  rw [if_pos (by rw [World.status, modC_self]; exact hcur)] at h1
  cases h1
  simp only at h2
  split at h2
  · cases h2
  obtain ⟨w3, h3, h4⟩ := andThen_ok h2
  obtain ⟨k1, k2⟩ := waitArgs_joined _ _ _ h3
  rw [waitEnd_queues h4 hw]
  have hn : (w.comps c).waits = [] := (start_preamble h.good (by simp) (show preamble c w = .ok w by unfold preamble; rw [if_pos hcur])).1.nowait.wai
  refine ⟨fun l1 a l2 he hf => k1 l1 a l2 he hf ?_ (line_sorted h (by simp)), fun q hq => k2 q fun a ha e => absurd e (hq a ha)⟩
  rw [modC_self, modC_self]
  show ∀ x ∈ (w.comps c).waits, _
  rw [hn]; simp

/-- C65: the same for `wait_for` -/
theorem C65_wait_for {w w' : World} {fuel c cond ss fa fd p u k} (h : Reach Calm w) (hcur : w.status c = .current)
    (hx : exec fuel (.waitFor c cond ss fa fd p u k) w = .ok w') (hw : w'.status c = .waiting) :
    (∀ s ∈ ss, Joins c p (w.queues (.waiters s)).mem (w'.queues (.waiters s)).mem) ∧
      ∀ q, (∀ s ∈ ss, q ≠ .waiters s) → w'.queues q = w.queues q := by
  simp only [exec] at hx
  unfold waitFor at hx
  obtain ⟨w1, h1, h2⟩ := andThen_ok hx
  unfold preamble at h1
  rw [if_pos hcur] at h1
  cases h1
  simp only at h2
  split at h2
  · cases h2
  obtain ⟨w3, h3, h4⟩ := andThen_ok h2
  rw [waitEnd_queues h4 hw]
  obtain ⟨_, k1, _, _, k4⟩ := forR_joined (I := fun _ => True) (q := fun s => .waiters s) (p := fun _ => some p) (c := c) ss
    (f := fun s w => enterSortedQ c (.waiters s) p (w.modC c (fun x => { x with waits := x.waits ++ [⟨s, fun _ => false⟩] })))
    (fun s _ v v' _ hv => ⟨trivial, (enterSortedQ_stepped hv).1⟩) _ w3 trivial h3
  exact ⟨fun s hs => k1 s hs (line_sorted h (by simp)), k4⟩

/-! ## the priority of a claim -/

/-- the call is a request by `c` for `r` with priority `p` -/
def Op.AsksWith (c : CId) (r : RId) (p : Rat) : Op → Prop
  | .request d args _ _ _ _ _ _ _ => d = c ∧ ∃ a ∈ args, a.r = r ∧ a.prio = p
  | _ => False

/-- a component asks with the priority of the call -/
def prioLic (o : Op) : Lic := ⟨fun c => ¬ NotRequestBy c o, fun r _ p => ∃ c, o.AsksWith c r p, fun _ _ => True, fun _ _ _ => True, fun _ _ _ => True⟩

theorem prioLic_ok (w : World) (o : Op) : (prioLic o).ok w o := by
  cases o <;> simp [Lic.ok, prioLic, NotRequestBy, Op.AsksWith]
  intro a ha; exact ⟨a, ha, rfl, rfl⟩

/-- specification: `m` of `r` is as it was, or has been made by the call `o` -/
def Kept (o : Op) (r : RId) (l : List QMem) (m : QMem) : Prop := m ∈ l ∨ o.AsksWith m.c r m.prio

theorem inserted_mem {l l' : List QMem} {x m : QMem} (h : RView.Inserted l l' x) (hm : m ∈ l') : m = x ∨ m ∈ l := by
  obtain ⟨l1, l2, h1, h2, _⟩ := h
  rw [h2] at hm; rw [h1]
  simp only [List.mem_append, List.mem_cons] at hm ⊢
  tauto

/-- C65: whoever is in the line of a resource after a call was there already, with the same priority, or made this call, a request for this resource with
this priority; and whoever claims a resource after a call did so already, with the same priority, or was in the line, or made the request, with the priority
that it has as claimer -/
theorem C65_claim {w : World} (h : Reach Any w) (fuel : Nat) (o : Op) (r : RId) :
    (∀ m ∈ ((exec fuel o w).world.queues (.requesters r)).mem, Kept o r (w.queues (.requesters r)).mem m) ∧
    ∀ m ∈ ((exec fuel o w).world.queues (.claimers r)).mem, m ∈ (w.queues (.claimers r)).mem ∨
      ∃ x, Kept o r (w.queues (.requesters r)).mem x ∧ x.c = m.c ∧ x.prio = m.prio := by
  have hs := (exec_refines (L := prioLic o) h.coh fuel o (prioLic_ok _ _)).2
  have key : ∀ v, Relation.ReflTransGen (RView.Step (prioLic o)) w.rv v → (∀ m ∈ (v.reqs r).1, Kept o r (w.rv.reqs r).1 m) ∧
      ∀ m ∈ (v.clms r).1, m ∈ (w.rv.clms r).1 ∨ ∃ x, Kept o r (w.rv.reqs r).1 x ∧ x.c = m.c ∧ x.prio = m.prio := by
    intro v hv
    induction hv with
    | refl => exact ⟨fun m hm => .inl hm, fun m hm => .inl hm⟩
    | @tail v1 v2 _ s ih =>
      obtain ⟨i1, i2⟩ := ih
      cases s with
      | oneof c b _ e => subst e; exact ⟨i1, i2⟩
      | ask c r' q prio hw hp s =>
        refine ⟨?_, by rw [s.clms]; exact i2⟩
        by_cases hr : r' = r
        · subst hr
          have := s.reqs.2
          split at this
          · rw [this]; exact i1
          · obtain ⟨x, hxc, hxp, hi⟩ := this
            intro m hm
            rcases inserted_mem hi hm with rfl | hm
            · right
              obtain ⟨c', hp⟩ := hp
              have : c' = c := by
                cases o <;> simp only [Op.AsksWith] at hp <;> simp only [prioLic, NotRequestBy, not_true_eq_false, ne_eq, not_not] at hw
                rw [← hp.1]; exact hw
              rw [hxc, hxp, ← this]; exact hp
            · exact i1 m hm
        · rw [s.oreq r (Ne.symm hr)]; exact i1
      | fail c s =>
        refine ⟨fun m hm => i1 m ?_, by rw [s.clms]; exact i2⟩
        rw [s.reqs] at hm; exact (List.mem_filter.1 hm).1
      | honor c hon s =>
        refine ⟨fun m hm => i1 m ?_, fun m hm => ?_⟩
        · rw [s.reqs] at hm; exact (List.mem_filter.1 hm).1
        · have := s.clms r
          split at this
          · obtain ⟨x, n, h1, h2, h3, h4, h5⟩ := this
            rcases inserted_mem h5 hm with rfl | hm
            · exact .inr ⟨n, i1 n h2, by rw [h3, h1], h4.symm⟩
            · exact i2 m hm
          · rw [this] at hm; exact i2 m hm
      | release c r' cl a _ s =>
        refine ⟨by rw [s.reqs]; exact i1, fun m hm => i2 m ?_⟩
        by_cases hr : r' = r
        · subst hr
          rw [s.clms] at hm
          split at hm
          · exact (List.mem_filter.1 hm).1
          · exact hm
        · rw [s.oclms r (Ne.symm hr)] at hm; exact hm
      | anon r' a _ _ e => subst e; exact ⟨i1, i2⟩
      | cap r' k _ e => subst e; exact ⟨i1, i2⟩
  exact key _ hs

/-! ## examples -/

/-- a request for one of resource 3, which has capacity 1, with priority `p` -/
def pask (c : CId) (p : Rat) : Op := .request c [⟨3, 1, p⟩] false false none none (0 : Rat) false false
/-- component 1 has claimed resource 3, for which components 2 (priority 0), 3 (priority 0) and 4 (priority 2) are waiting; component 5 is current -/
def lineW : World := execAll 20 (born 1 ++ [pask 1 0] ++ born 2 ++ [pask 2 0] ++ born 3 ++ [pask 3 0] ++ born 4 ++ [pask 4 2] ++ born 5) shop

/-- the hypotheses of `C65_request`: component 5, with priority 0, ends up behind component 3 and before component 4 -/
example : ∃ w', Reach Calm lineW ∧ lineW.status 5 = .current ∧ Calm 20 lineW (pask 5 0) ∧ exec 20 (pask 5 0) lineW = .ok w' ∧ w'.status 5 = .requesting ∧
    lineW.inQ (.requesters 3) = [2, 3, 4] ∧ w'.inQ (.requesters 3) = [2, 3, 5, 4] := by
  refine ⟨_, reach_calm _ (.init fresh_shop) _ (by decide +kernel), by decide +kernel, calmb_calm (by decide +kernel), ok_world (by decide +kernel),
    by decide +kernel, by decide +kernel, by decide +kernel⟩

/-- `C65_claim`: component 4 claims with priority 2, with which it had asked, component 5 with the priority of the call -/
example : ∃ w, Reach Any w ∧ ((w.queues (.claimers 3)).mem.map fun m => (m.c, m.prio)) = [] ∧ ((w.queues (.requesters 3)).mem.map fun m => (m.c, m.prio)) = [] ∧
    (((exec 20 (pask 5 7) w).world.queues (.claimers 3)).mem.map fun m => (m.c, m.prio)) = [(5, 7)] := by
  refine ⟨execAll 20 (born 5) shop, (reach_calm _ (.init fresh_shop) _ (by decide +kernel) : Reach Calm _).any, by decide +kernel, by decide +kernel, by decide +kernel⟩

example : ((lineW.queues (.requesters 3)).mem.map fun m => (m.c, m.prio)) = [(2, 0), (3, 0), (4, 2)] ∧
    ((((execAll 20 [.releaseAll 1, .releaseAll 2] lineW).queues (.requesters 3)).mem.map fun m => (m.c, m.prio)) = [(4, 2)] ∧
    (((execAll 20 [.releaseAll 1, .releaseAll 2, .releaseAll 3] lineW).queues (.claimers 3)).mem.map fun m => (m.c, m.prio)) = [(4, 2)]) := by decide +kernel

/-- asks for item 100 from store 0 or 1, with priority `p` -/
def pwant (c : CId) (p : Rat) : Op := .fromStore c [0, 1] (fun i => i == 100) none p none none (0 : Rat) false false

/-- the hypotheses of `C65_from_store`: component 3 ends up behind component 1 and before component 2, in both lines -/
example : ∃ w w', Reach Calm w ∧ w.status 3 = .current ∧ exec 20 (pwant 3 1) w = .ok w' ∧ w'.status 3 = .requesting ∧
    w'.inQ (.fromReq 0) = [1, 3, 2] ∧ w'.inQ (.fromReq 1) = [1, 3, 2] := by
  refine ⟨execAll 20 (begin 1 ++ [pwant 1 1] ++ begin 2 ++ [pwant 2 5] ++ begin 3) depot, _, reach_calm _ (.init fresh_depot) _ (by decide +kernel),
    by decide +kernel, ok_world (by decide +kernel), by decide +kernel, by decide +kernel, by decide +kernel⟩

/-- brings an item to store 1, with priority `p` -/
def pbring (c i : CId) (p : Rat) : Op := .toStore c [1] i p 0 none none (0 : Rat) false false

/-- the hypotheses of `C65_to_store`: store 1 is full; component 3 goes before component 2, which has a lower priority -/
example : ∃ w w', Reach Calm w ∧ w.status 3 = .current ∧ exec 20 (pbring 3 102 (-1)) w = .ok w' ∧ w'.status 3 = .requesting ∧
    w'.inQ (.toReq 1) = [3, 2] := by
  refine ⟨execAll 20 (begin 1 ++ [pbring 1 100 0] ++ begin 2 ++ [pbring 2 101 0] ++ begin 3) depot, _, reach_calm _ (.init fresh_depot) _ (by decide +kernel),
    by decide +kernel, ok_world (by decide +kernel), by decide +kernel, by decide +kernel⟩

/-- waits until state 0 is 1, with priority `p` -/
def pwait (c : CId) (p : Option Rat) : Op := .wait c [{ s := 0, prio := p }, { s := 0, ok := fun v => v == 2 }] false none none (0 : Rat) false false

/-- the hypotheses of `C65_wait` and `C65_wait_for`: component 3 goes before component 2, component 4, which gives no priority, is put at the end -/
example : ∃ w w' w'', Reach Calm w ∧ w.status 3 = .current ∧ exec 20 (pwait 3 (some 1)) w = .ok w' ∧ w'.status 3 = .waiting ∧
    w'.inQ (.waiters 0) = [1, 3, 2] ∧ exec 20 (.waitFor 3 (fun v => v 0 == 1) [0] none none 1 false false) w = .ok w'' ∧ w''.status 3 = .waiting ∧
    w''.inQ (.waiters 0) = [1, 3, 2] ∧ (execAll 20 (begin 4 ++ [pwait 4 none]) w').inQ (.waiters 0) = [1, 3, 2, 4] := by
  refine ⟨execAll 20 (begin 1 ++ [pwait 1 (some 0)] ++ begin 2 ++ [pwait 2 (some 7)] ++ begin 3) World.init, _, _,
    reach_calm _ (.init fresh_init) _ (by decide +kernel), by decide +kernel, ok_world (by decide +kernel), by decide +kernel, by decide +kernel,
    ok_world (by decide +kernel), by decide +kernel, by decide +kernel, by decide +kernel⟩

end Verif
