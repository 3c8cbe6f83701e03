import Verif.Props.Lines

/-!
# A request waits for its turn (C30)
-/

namespace Verif
open World RView

/-! ## specification -/

/-- somebody else has to be served from `r` before a request with priority `p`: with honor_only_first anybody with the same or a higher priority, with
honor_only_highest_priority anybody with a higher priority (a lower number) -/
def SomebodyFirst (w : World) (r : RId) (p : Rat) : Prop :=
  ((w.res r).honorFirst = true ∧ ∃ m ∈ (w.queues (.requesters r)).mem, m.prio ≤ p) ∨
  ((w.res r).honorHighest = true ∧ ∃ m ∈ (w.queues (.requesters r)).mem, m.prio < p)

/-! ## proof -/

theorem flags_step {L : Lic} {v v' : RView} (s : Step L v v') (r : RId) :
    (v'.res r).honorFirst = (v.res r).honorFirst ∧ (v'.res r).honorHighest = (v.res r).honorHighest := by
  cases s with
  | oneof c b _ hv => subst hv; exact ⟨rfl, rfl⟩
  | ask c r' q prio _ _ s => rw [s.res]; exact ⟨rfl, rfl⟩
  | fail c s => rw [s.res]; exact ⟨rfl, rfl⟩
  | honor c hon s => rw [s.res]; exact ⟨rfl, rfl⟩
  | release c r' cl a _ s =>
    by_cases h : r = r'
    · subst h; rw [s.res]; exact ⟨rfl, rfl⟩
    · rw [s.ores r h]; exact ⟨rfl, rfl⟩
  | anon r' a _ _ hv =>
    subst hv
    simp only
    split
    · rename_i h; subst h; exact ⟨rfl, rfl⟩
    · exact ⟨rfl, rfl⟩
  | cap r' k _ hv =>
    subst hv
    simp only
    split <;> exact ⟨rfl, rfl⟩

theorem flags_path {L : Lic} {v v' : RView} (s : Relation.ReflTransGen (Step L) v v') (r : RId) :
    (v'.res r).honorFirst = (v.res r).honorFirst ∧ (v'.res r).honorHighest = (v.res r).honorHighest := by
  induction s with
  | refl => exact ⟨rfl, rfl⟩
  | tail _ s ih => exact ⟨(flags_step s r).1.trans ih.1, (flags_step s r).2.trans ih.2⟩

theorem not_canHonor {w w4 : World} {c : CId} {r : RId} {p q : Rat} (hs : SomebodyFirst w r p) (hj : Joins c p (w.queues (.requesters r)).mem (w4.queues (.requesters r)).mem)
    (hc : c ∉ w.inQ (.requesters r)) (hf : (w4.res r).honorFirst = (w.res r).honorFirst) (hh : (w4.res r).honorHighest = (w.res r).honorHighest)
    (hso : Queue.Sorted (w.queues (.requesters r)).mem) : canHonor w4 c r q = false := by
  obtain ⟨l1, x, l2, h1, h2, hxc, hxp, hle, hlt⟩ := hj
  have hne : ∃ y t, l1 = y :: t ∧ ∀ m ∈ (w.queues (.requesters r)).mem, y.prio ≤ m.prio := by
    have : ∃ m ∈ (w.queues (.requesters r)).mem, m.prio ≤ p := by
      rcases hs with ⟨_, m, hm, hp⟩ | ⟨_, m, hm, hp⟩
      · exact ⟨m, hm, hp⟩
      · exact ⟨m, hm, hp.le⟩
    obtain ⟨m, hm, hp⟩ := this
    cases l1 with
    | nil =>
      rw [h1] at hm
      exact absurd (hlt m hm) (not_lt.2 hp)
    | cons y t =>
      refine ⟨y, t, rfl, fun m hm => ?_⟩
      rw [h1] at hm hso
      rcases List.mem_cons.1 hm with rfl | hm
      · exact le_rfl
      · exact (List.pairwise_cons.1 hso).1 m hm
  obtain ⟨y, t, rfl, hy⟩ := hne
  have hyc : y.c ≠ c := fun e => hc (by unfold World.inQ; rw [h1]; exact List.mem_map.2 ⟨y, by simp, e⟩)
  have hd : headQ w4 (.requesters r) = some y := by unfold headQ; rw [h2]; rfl
  unfold canHonor
  simp only
  rw [hf, hh, hd]
  rcases hs with ⟨h, _⟩ | ⟨h, m, hm, hp⟩
  · simp [h, hyc]
  · have hfind : (w4.queues (.requesters r)).find c = some x := by
      unfold Queue.find
      rw [h2, List.find?_append, List.find?_eq_none.2, List.find?_cons_of_pos (by simp [hxc])]
      · rfl
      · intro z hz
        have : z.c ≠ c := fun e => hc (by unfold World.inQ; rw [h1]; exact List.mem_map.2 ⟨z, List.mem_append_left _ hz, e⟩)
        simpa using this
    have hlt : x.prio ≠ y.prio := by
      have := hy m hm
      rw [hxp]; exact fun e => absurd (lt_of_le_of_lt this hp) (by rw [e]; exact lt_irrefl _)
    rw [hfind]
    simp [h, hlt]

theorem mem_asked {put : Bool} : ∀ (l : List Arg) (d : List (RId × Rat)) {r : RId}, r ∈ keys d ∨ (∃ a ∈ l, a.r = r) → r ∈ keys (asked put d l)
  | [], d, r, h => h.resolve_right (by simp)
  | a :: t, d, r, h => by
    refine mem_asked t (addTo d a.r _) ?_
    rcases h with h | ⟨b, hb, rfl⟩
    · exact .inl (mem_keys_addTo.2 (.inr h))
    · rcases List.mem_cons.1 hb with rfl | hb
      · exact .inl (mem_keys_addTo.2 (.inl rfl))
      · exact .inr ⟨b, hb, rfl⟩

/-- the request up to the moment that it is tried -/
theorem request_blocked {w w' : World} {fuel c args oneof put fa fd p u k} (h : Reach Calm w) (hcur : w.status c = .current)
    (hc : Calm fuel w (.request c args oneof put fa fd p u k)) (hx : exec fuel (.request c args oneof put fa fd p u k) w = .ok w')
    (hnp : ∀ a ∈ args, (w.res a.r).preemptive = false) {a : Arg} (ha : a ∈ args) (hs : SomebodyFirst w a.r a.prio) :
    ∃ t w4, Good {c} w4 ∧ w4.rv.Coh ∧ (w4.comps c).requests = demand put args ∧ (w4.comps c).claims = (w.comps c).claims ∧ (w4.comps c).oneof = oneof ∧
      NoWait { w4.comps c with requests := [] } ∧ (∀ q, canHonor w4 c a.r q = false) ∧ a.r ∈ keys (w4.comps c).requests ∧
      (tryReqC fuel c w4 ⊳ fun w => if (w.comps c).requests = [] then .ok w else reschedule c t p u k none (setStatus c .requesting w)) = .ok w' := by
  simp only [exec] at hx
  obtain ⟨t, w4, g4, p4, q4, cl4, on4, wa4, fr4, to4, hqs, h5⟩ := request_split h.good hc.2.1 hc.2.2 h.coh hx
  obtain ⟨w2, w3, e2, er, h3, e4, _⟩ := hqs hcur
  obtain ⟨k1, _⟩ := requestArgs_joined (by rw [er]; exact hnp) h3
  have hso : Queue.Sorted (w.queues (.requesters a.r)).mem := line_sorted h (by simp)
  have hj := k1 a ha (by rw [e2]; exact hso)
  rw [e2, ← e4] at hj
  have hcn : c ∉ w.inQ (.requesters a.r) := fun hm => by
    have h1 := (h.coh.rq c a.r).1 hm
    have h2 : (w.comps c).requests = [] := (h.good.idle c (by simp) (.inr (.inl hcur))).1
    have h3 : a.r ∈ keys (w.comps c).requests := h1
    rw [h2] at h3; cases h3
  obtain ⟨f1, f2⟩ := flags_path p4.2 a.r
  refine ⟨t, w4, g4, p4.1, q4, cl4, on4, ⟨rfl, wa4, fr4, to4⟩, fun q => not_canHonor hs hj hcn f1 f2 hso, ?_, h5⟩
  rw [q4]
  exact mem_asked args [] (.inr ⟨a, ha, rfl⟩)

/-! ## claim -/

/-- C30: a request is not granted as long as somebody else has to be served first: it waits -/
theorem C30_waits {w w' : World} {fuel c args put fa fd p u k} (h : Reach Calm w) (hcur : w.status c = .current)
    (hc : Calm fuel w (.request c args false put fa fd p u k)) (hx : exec fuel (.request c args false put fa fd p u k) w = .ok w')
    (hnp : ∀ a ∈ args, (w.res a.r).preemptive = false) {a : Arg} (ha : a ∈ args) (hs : SomebodyFirst w a.r a.prio) :
    w'.status c = .requesting ∧ (w'.comps c).claims = (w.comps c).claims ∧ (w'.comps c).requests = demand put args := by
  obtain ⟨t, w4, g4, coh4, q4, cl4, on4, nw4, hno, hk, h5⟩ := request_blocked h hcur hc hx hnp ha hs
  have hall : honored w4 c = [] := by
    unfold honored honorAll
    rw [on4]
    simp only [Bool.false_eq_true, if_false]
    rw [if_neg]
    intro hall
    obtain ⟨q, hq⟩ := mem_keys.1 hk
    have := List.all_eq_true.1 hall _ hq
    rw [hno] at this; cases this
  have hn : honorNow c w4 = none := by unfold honorNow; rw [if_pos (.inr hall)]
  cases fuel with
  | zero => rw [tryReqC] at h5; cases h5
  | succ n =>
    rw [tryReqC, hn] at h5
    simp only [R.andThen] at h5
    have hne : (w4.comps c).requests ≠ [] := fun e => by rw [e] at hk; cases hk
    rw [if_neg hne] at h5
    have hr := (reschedule_ok h5).1
    unfold World.status
    rw [hr.self, setStatus, modC_self]
    exact ⟨rfl, cl4, q4⟩

/-- C30: nor is it from that resource, if any one of the resources is enough -/
theorem C30_not_served {w w' : World} {fuel c args oneof put fa fd p u k} (h : Reach Calm w) (hcur : w.status c = .current)
    (hc : Calm fuel w (.request c args oneof put fa fd p u k)) (hx : exec fuel (.request c args oneof put fa fd p u k) w = .ok w')
    (hnp : ∀ a ∈ args, (w.res a.r).preemptive = false) {a : Arg} (ha : a ∈ args) (hs : SomebodyFirst w a.r a.prio) :
    lookup (w'.comps c).claims a.r = lookup (w.comps c).claims a.r := by
  obtain ⟨t, w4, g4, coh4, q4, cl4, on4, nw4, hno, hk, h5⟩ := request_blocked h hcur hc hx hnp ha hs
  cases fuel with
  | zero => rw [tryReqC] at h5; cases h5
  | succ n =>
    rw [tryReqC] at h5
    cases hn : honorNow c w4 with
    | none =>
      rw [hn] at h5
      simp only [R.andThen] at h5
      have hne : (w4.comps c).requests ≠ [] := fun e => by rw [e] at hk; cases hk
      rw [if_neg hne] at h5
      have hr := (reschedule_ok h5).1
      rw [hr.self, setStatus, modC_self]
      show lookup (w4.comps c).claims a.r = _
      rw [cl4]
    | some res =>
      rw [hn] at h5
      obtain ⟨w5, h5, h6⟩ := andThen_ok h5
      simp only at h5
      obtain ⟨w6, h6', h7⟩ := andThen_ok h5
      obtain ⟨g6, _, r6, st6, _, _, _, _⟩ := honorNow_good g4 (e' := ∅) not_single hn h6'
      obtain ⟨l, hl⟩ := honorNow_self g4 hn h6'
      have n6 : NoWait (w6.comps c) := by rw [hl]; exact ⟨rfl, nw4.2, nw4.3, nw4.4⟩
      have f7 := ((trR_try ∅ n).2.1 _ w6 g6 w5 h7).frozen c n6
      rw [if_pos (by rw [f7]; exact r6)] at h6
      cases h6
      rw [f7, ← cl4]
      have hon := honorNow_honor g4 coh4 hn h6'
      have hnot : a.r ∉ honored w4 c := by
        intro hm
        have : ∃ q, canHonor w4 c a.r q = true := by
          unfold honored at hm
          split at hm
          · unfold honorAny at hm
            split at hm
            · rename_i p hp
              have := List.find?_some hp
              rw [List.mem_singleton.1 hm]; exact ⟨p.2, this⟩
            · cases hm
          · unfold honorAll at hm
            simp only at hm
            split at hm
            · rename_i hall
              obtain ⟨q, hq⟩ := mem_keys.1 hm
              exact ⟨q, List.all_eq_true.1 hall _ hq⟩
            · cases hm
        obtain ⟨q, hq⟩ := this
        rw [hno] at hq; cases hq
      have h1 : (lookup (w6.comps c).claims a.r).getD 0 = (lookup (w4.comps c).claims a.r).getD 0 := by
        have := hon.claim a.r
        rw [if_neg (fun hh => hnot hh.1), add_zero] at this
        exact this
      have h2 : a.r ∈ keys (w6.comps c).claims ↔ a.r ∈ keys (w4.comps c).claims :=
        (hon.keys a.r).trans ⟨fun hh => hh.resolve_right fun hh => hnot hh.1, .inl⟩
      rw [← lookup_isSome, ← lookup_isSome] at h2
      cases e1 : lookup (w6.comps c).claims a.r <;> cases e2 : lookup (w4.comps c).claims a.r <;> rw [e1, e2] at h1 h2
      · simp at h2
      · simp at h2
      · exact congrArg some h1

/-! ## examples -/

/-- resource 3 has a capacity of 5 and honor_only_first, resource 4 a capacity of 5 and honor_only_highest_priority; component 1 has claimed 4 of both, component 2, with
priority 0, wants 2 of both; component 3 is current -/
def turnShop : World := { World.init with
  res := fun r => if r = 3 then { cap := (5 : Rat), honorFirst := true } else if r = 4 then { cap := (5 : Rat), honorHighest := true } else {} }

theorem fresh_turnShop : Fresh turnShop := by
  refine ⟨rfl, rfl, rfl, rfl, fresh_init.comps, fun _ => ⟨⊤, rfl⟩, fun _ _ => rfl, fun r => ?_, fun r => ?_, fun _ => rfl⟩
  rotate_left
  · simp only [turnShop]
    repeat' split
    all_goals rfl
  by_cases h1 : r = 3
  · subst h1; exact ⟨rfl, rfl, le_refl _, WithTop.coe_le_coe.2 (by decide +kernel), fun _ => rfl⟩
  by_cases h2 : r = 4
  · subst h2; exact ⟨rfl, rfl, le_refl _, WithTop.coe_le_coe.2 (by decide +kernel), fun _ => rfl⟩
  · simp only [turnShop, h1, h2, if_false]
    exact ⟨trivial, trivial, le_refl _, WithTop.coe_le_coe.2 (by decide +kernel), fun _ => trivial⟩

/-- asks for `q` of resource `r`, with priority `p` -/
def turnAsk (c : CId) (r : RId) (q p : Rat) : Op := .request c [⟨r, q, p⟩] false false none none (0 : Rat) false false
def turnW : World := execAll 20 (born 1 ++ [.request 1 [⟨3, 4, 0⟩, ⟨4, 4, 0⟩] false false none none (0 : Rat) false false, .step, .passivate 1] ++
  born 2 ++ [.request 2 [⟨3, 2, 0⟩, ⟨4, 2, 0⟩] false false none none (0 : Rat) false false] ++ born 3) turnShop

/-- the hypotheses of `C30_waits`: component 3 wants 1, which is available, but with the same priority it has to wait for resource 3 and with a lower priority for
resource 4; with the same priority it gets 1 of resource 4 -/
example : ∃ w', Reach Calm turnW ∧ turnW.status 3 = .current ∧ Calm 20 turnW (turnAsk 3 3 1 0) ∧ exec 20 (turnAsk 3 3 1 0) turnW = .ok w' ∧
    SomebodyFirst turnW 3 0 ∧ SomebodyFirst turnW 4 1 ∧ (turnW.res 3).claimed = 4 ∧ w'.status 3 = .requesting ∧
    (exec 20 (turnAsk 3 4 1 1) turnW).world.status 3 = .requesting ∧ (exec 20 (turnAsk 3 4 1 0) turnW).world.status 3 = .scheduled := by
  refine ⟨_, reach_calm _ (.init fresh_turnShop) _ (by decide +kernel), by decide +kernel, calmb_calm (by decide +kernel), ok_world (by decide +kernel),
    .inl ⟨by decide +kernel, by decide +kernel⟩, .inr ⟨by decide +kernel, by decide +kernel⟩, by decide +kernel, by decide +kernel, by decide +kernel, by decide +kernel⟩

end Verif
