import Verif.Props.Turn

/-!
# When a request is granted at once (C31)
-/

namespace Verif
open World RView

/-! ## specification -/

/-- there is enough of `r` to claim `q` more of it; if something is put back (`q` is negative): not more than is claimed -/
def Enough (w : World) (r : RId) (q : Rat) : Prop :=
  (0 < q → (((w.res r).claimed + q : Rat) : ETime) ≤ (w.res r).cap + (eps : ETime)) ∧ (q ≤ 0 → 0 ≤ (w.res r).claimed + q + eps)

/-- the quantity asked for: put gives back -/
def Arg.want (put : Bool) (a : Arg) : Rat := if put then -a.q else a.q

/-- nothing stands in the way of this part of a request: nobody has to be served first, and there is enough -/
def Grantable (w : World) (put : Bool) (a : Arg) : Prop := ¬ SomebodyFirst w a.r a.prio ∧ Enough w a.r (a.want put)

/-- `c` has got exactly the parts `l` of its request, and continues -/
def GetsAll (c : CId) (put : Bool) (l : List Arg) (w w' : World) : Prop :=
  w'.status c = .scheduled ∧ (w'.comps c).requests = [] ∧ (∀ r, c ∉ w'.inQ (.requesters r)) ∧
  ∀ r, (lookup (w'.comps c).claims r).getD 0 = (lookup (w.comps c).claims r).getD 0 +
    if (w.res r).anonymous then 0 else ((l.filter (fun a => a.r = r)).map (Arg.want put)).sum

/-- `c` has got nothing and waits for all parts of its request -/
def QueuesUp (c : CId) (put : Bool) (args : List Arg) (w w' : World) : Prop :=
  w'.status c = .requesting ∧ (w'.comps c).claims = (w.comps c).claims ∧ (w'.comps c).requests = args.map (fun a => (a.r, a.want put))

/-! ## proof -/

theorem Coh_anon_fits {a : ETime} {b q : Rat} : (q : ETime) ≤ ETime.subQ a b + (eps : ETime) ↔ ((b + q : Rat) : ETime) ≤ a + (eps : ETime) := ⟨subQ_le, le_subQ⟩

theorem canHonor_grantable {w w4 : World} {c : CId} {put : Bool} {a : Arg} (hj : Joins c a.prio (w.queues (.requesters a.r)).mem (w4.queues (.requesters a.r)).mem)
    (hc : c ∉ w.inQ (.requesters a.r)) (hr : (w4.res a.r).rv = (w.res a.r).rv)
    (hso : Queue.Sorted (w.queues (.requesters a.r)).mem) : canHonor w4 c a.r (a.want put) = true ↔ Grantable w put a := by
  have f1 : (w4.res a.r).rv.honorFirst = (w.res a.r).rv.honorFirst := by rw [hr]
  have f2 : (w4.res a.r).rv.honorHighest = (w.res a.r).rv.honorHighest := by rw [hr]
  have f3 : (w4.res a.r).rv.claimed = (w.res a.r).rv.claimed := by rw [hr]
  have f4 : (w4.res a.r).rv.cap = (w.res a.r).rv.cap := by rw [hr]
  change (w4.res a.r).honorFirst = (w.res a.r).honorFirst at f1
  change (w4.res a.r).honorHighest = (w.res a.r).honorHighest at f2
  change (w4.res a.r).claimed = (w.res a.r).claimed at f3
  change (w4.res a.r).cap = (w.res a.r).cap at f4
  have hen : (if a.want put > 0 then decide ((a.want put : ETime) ≤ (w4.res a.r).avail + (eps : ETime))
      else decide (-a.want put ≤ (w4.res a.r).claimed + eps)) = true ↔ Enough w a.r (a.want put) := by
    unfold Enough
    by_cases hq : a.want put > 0
    · rw [if_pos hq, decide_eq_true_iff]
      unfold Res.avail
      rw [Coh_anon_fits, f3, f4]
      exact ⟨fun h => ⟨fun _ => h, fun h' => absurd hq (not_lt.2 h')⟩, fun h => h.1 hq⟩
    · rw [if_neg hq, decide_eq_true_iff, f3]
      constructor
      · intro h; exact ⟨fun h' => absurd h' hq, fun _ => by linarith⟩
      · intro h; have := h.2 (not_lt.1 hq); linarith
  by_cases hs : SomebodyFirst w a.r a.prio
  · rw [not_canHonor hs hj hc f1 f2 hso]
    exact ⟨fun h => (by cases h), fun h => absurd hs h.1⟩
  · obtain ⟨l1, x, l2, h1, h2, hxc, hxp, hle, hlt⟩ := hj
    have hfind : (w4.queues (.requesters a.r)).find c = some x := by
      unfold Queue.find
      rw [h2, List.find?_append, List.find?_eq_none.2, List.find?_cons_of_pos (by simp [hxc])]
      · rfl
      · intro z hz
        have : z.c ≠ c := fun e => hc (by unfold World.inQ; rw [h1]; exact List.mem_map.2 ⟨z, List.mem_append_left _ hz, e⟩)
        simpa using this
    unfold canHonor
    simp only [Bool.and_eq_true]
    rw [hen]
    refine ⟨fun h => ⟨hs, h.2⟩, fun h => ⟨⟨?_, ?_⟩, h.2⟩⟩
    · cases hf : (w4.res a.r).honorFirst with
      | false => simp
      | true =>
        have : l1 = [] := by
          cases l1 with
          | nil => rfl
          | cons y t => exact absurd (.inl ⟨by rw [← f1]; exact hf, y, by rw [h1]; simp, hle y (by simp)⟩) hs
        subst this
        unfold headQ
        rw [h2]; simp [hxc]
    · cases hf : (w4.res a.r).honorHighest with
      | false => simp
      | true =>
        have : ∃ y, headQ w4 (.requesters a.r) = some y ∧ y.prio = x.prio := by
          unfold headQ
          rw [h2]
          cases l1 with
          | nil => exact ⟨x, rfl, rfl⟩
          | cons y t =>
            refine ⟨y, rfl, le_antisymm (by rw [hxp]; exact hle y (by simp)) ?_⟩
            rw [hxp]
            by_contra hlt'
            exact hs (.inr ⟨by rw [← f2]; exact hf, y, by rw [h1]; simp, not_le.1 hlt'⟩)
        obtain ⟨y, e1, e2⟩ := this
        rw [hfind, e1]
        simp [e2]

/-- entering the lines: the resources are different, and don't change -/
theorem requestArgs_kept {c : CId} {n : Nat} {put : Bool} : ∀ (args : List Arg) {w w' : World}, (∀ a ∈ args, (w.res a.r).preemptive = false) →
    forR args (requestArg c n put) w = .ok w' →
    w'.res = w.res ∧ (args.map Arg.r).Nodup ∧ (∀ a ∈ args, c ∉ w.inQ (.requesters a.r))
  | [], w, w', _, h => by cases h; exact ⟨rfl, List.nodup_nil, by simp⟩
  | a :: l, w, w', hnp, h => by
    obtain ⟨w1, h1, h2⟩ := andThen_ok h
    unfold requestArg at h1
    simp only at h1
    rw [if_neg (by rw [hnp a (by simp)]; simp)] at h1
    generalize (if put = true then -a.q else a.q) = q at h1
    split at h1
    · cases h1
    obtain ⟨v1, h1, h3⟩ := andThen_ok h1
    simp only [hnp a (by simp), Bool.false_eq_true, if_false] at h3
    cases h3
    obtain ⟨⟨_, s2, s3, s4⟩, _⟩ := enterSortedQ_stepped h1
    have e1 : w1.res = w.res := by
      obtain ⟨q', _, rfl⟩ := onQueue_ok h1; rfl
    obtain ⟨k1, k2, k3⟩ := requestArgs_kept l (by rw [e1]; exact fun b hb => hnp b (List.mem_cons_of_mem _ hb)) h2
    have hne : ∀ b ∈ l, b.r ≠ a.r := fun b hb e => k3 b hb (by rw [e]; exact s3)
    refine ⟨k1.trans e1, ?_, fun b hb => ?_⟩
    · rw [List.map_cons, List.nodup_cons]
      refine ⟨fun hm => ?_, k2⟩
      obtain ⟨b, hb, e⟩ := List.mem_map.1 hm
      exact hne b hb e
    · rcases List.mem_cons.1 hb with rfl | hb
      · exact s2
      · have := k3 b hb
        unfold World.inQ at this ⊢
        rw [s4 _ (by simpa using hne b hb)] at this
        exact this

theorem asked_nodup {put : Bool} : ∀ (l : List Arg) (d : List (RId × Rat)), (l.map Arg.r).Nodup → (∀ a ∈ l, a.r ∉ keys d) →
    asked put d l = d ++ l.map (fun a => (a.r, a.want put))
  | [], d, _, _ => by simp [asked]
  | a :: t, d, hn, hd => by
    rw [List.map_cons, List.nodup_cons] at hn
    have e : addTo d a.r (a.want put) = d ++ [(a.r, a.want put)] := by
      unfold addTo
      rw [if_neg]
      intro hh
      refine hd a (by simp) ?_
      simpa [keys] using hh
    show asked put (addTo d a.r (a.want put)) t = _
    rw [e, asked_nodup t _ hn.2]
    · simp
    · intro b hb hm
      simp only [keys, List.map_append, List.mem_append, List.map_cons, List.map_nil, List.mem_singleton] at hm
      rcases hm with hm | hm
      · exact hd b (List.mem_cons_of_mem _ hb) hm
      · exact hn.1 (by rw [← hm]; exact List.mem_map_of_mem hb)

theorem lookup_args {put : Bool} : ∀ (l : List Arg) (r : RId), (l.map Arg.r).Nodup →
    (lookup (l.map (fun a => (a.r, a.want put))) r).getD 0 = ((l.filter (fun a => a.r = r)).map (Arg.want put)).sum
  | [], r, _ => rfl
  | a :: t, r, hn => by
    rw [List.map_cons, List.nodup_cons] at hn
    rw [List.map_cons, lookup_cons]
    by_cases h : a.r = r
    · subst h
      have : t.filter (fun b => b.r = a.r) = [] := by
        rw [List.filter_eq_nil_iff]
        intro b hb; simpa using fun e => hn.1 (by rw [← e]; exact List.mem_map_of_mem hb)
      simp [this]
    · simp only [h, if_false]
      rw [lookup_args t r hn.2, List.filter_cons_of_neg (by simpa using h)]

theorem filter_one {l : List Arg} (hn : (l.map Arg.r).Nodup) {a : Arg} (ha : a ∈ l) : l.filter (fun b => b.r = a.r) = [a] := by
  induction l with
  | nil => cases ha
  | cons b t ih =>
    rw [List.map_cons, List.nodup_cons] at hn
    rcases List.mem_cons.1 ha with rfl | ha
    · rw [List.filter_cons_of_pos (by simp), List.filter_eq_nil_iff.2]
      intro x hx; simpa using fun e => hn.1 (by rw [← e]; exact List.mem_map_of_mem hx)
    · rw [List.filter_cons_of_neg, ih hn.2 ha]
      simpa using fun e : b.r = a.r => hn.1 (by rw [e]; exact List.mem_map_of_mem ha)

/-! ## claim -/

/-- C31: a component asks for several resources. If all have to be available, it gets all of them at once if nothing stands in the way of any of the parts of the
request, and otherwise nothing; if one is enough, it gets the first one, in the order in which it asks, that nothing stands in the way of -/
theorem C31_at_once {w w' : World} {fuel c args oneof put fa fd p u k} (h : Reach Calm w) (hcur : w.status c = .current)
    (hc : Calm fuel w (.request c args oneof put fa fd p u k)) (hx : exec fuel (.request c args oneof put fa fd p u k) w = .ok w')
    (hnp : ∀ a ∈ args, (w.res a.r).preemptive = false) :
    if oneof then
      (∃ l1 a l2, args = l1 ++ a :: l2 ∧ Grantable w put a ∧ (∀ b ∈ l1, ¬ Grantable w put b) ∧ GetsAll c put [a] w w') ∨
      ((∀ a ∈ args, ¬ Grantable w put a) ∧ QueuesUp c put args w w')
    else ((∀ a ∈ args, Grantable w put a) ∧ GetsAll c put args w w') ∨ ((∃ a ∈ args, ¬ Grantable w put a) ∧ QueuesUp c put args w w') := by
  have hx0 := hx
  simp only [exec] at hx
  have hcoh' : w'.rv.Coh := by
    have := (exec_refines (L := anyLic) h.coh fuel _ (anyLic_ok w (.request c args oneof put fa fd p u k))).1
    rw [hx0] at this; exact this
  obtain ⟨t, w4, g4, p4, q4, cl4, on4, wa4, fr4, to4, hqs, h5⟩ := request_split h.good hc.2.1 hc.2.2 h.coh hx
  obtain ⟨w2, w3, e2, er, h3, e4, hres4, hst⟩ := hqs hcur
  obtain ⟨k1, _⟩ := requestArgs_joined (by rw [er]; exact hnp) h3
  obtain ⟨r3, hnd, hnin⟩ := requestArgs_kept args (by rw [er]; exact hnp) h3
  have hD : demand put args = args.map (fun a => (a.r, a.want put)) := by
    unfold demand
    rw [asked_nodup args [] hnd (by simp [keys])]; rfl
  have q4' : (w4.comps c).requests = args.map (fun a => (a.r, a.want put)) := q4.trans hD
  have hres : ∀ r, (w4.res r).rv = (w.res r).rv := fun r => by rw [hres4, r3, er]
  have hcan : ∀ a ∈ args, (canHonor w4 c a.r (a.want put) = true ↔ Grantable w put a) := fun a ha => by
    have hso : Queue.Sorted (w.queues (.requesters a.r)).mem := line_sorted h (by simp)
    have hj := k1 a ha (by rw [e2]; exact hso)
    rw [e2, ← e4] at hj
    have := hnin a ha
    unfold World.inQ at this
    rw [e2] at this
    exact canHonor_grantable hj this (hres a.r) hso
  have hwait : honored w4 c = [] → QueuesUp c put args w w' := fun hall => by
    have hn : honorNow c w4 = none := by unfold honorNow; rw [if_pos (.inr hall)]
    cases fuel with
    | zero => rw [tryReqC] at h5; cases h5
    | succ n =>
      rw [tryReqC, hn] at h5
      simp only [R.andThen] at h5
      have hne : (w4.comps c).requests ≠ [] := by
        rw [q4']; intro e
        exact hc.2.1.1 (List.map_eq_nil_iff.1 e)
      rw [if_neg hne] at h5
      have hr := (reschedule_ok h5).1
      unfold QueuesUp World.status
      rw [hr.self, setStatus, modC_self]
      exact ⟨rfl, cl4, q4'⟩
  have hget : ∀ l : List Arg, (l.map Arg.r).Nodup → (∀ a ∈ l, a ∈ args) → honored w4 c = l.map Arg.r → honored w4 c ≠ [] → GetsAll c put l w w' :=
      fun l hln hsub hl hne => by
    cases fuel with
    | zero => rw [tryReqC] at h5; cases h5
    | succ n =>
      rw [tryReqC] at h5
      have hn : ∃ res, honorNow c w4 = some res := by
        unfold honorNow
        rw [if_neg]
        · exact ⟨_, rfl⟩
        · rintro (e | e)
          · rw [hst] at e; cases e
          · exact hne e
      obtain ⟨res, hn⟩ := hn
      rw [hn] at h5
      obtain ⟨w5, h5, h6⟩ := andThen_ok h5
      simp only at h5
      obtain ⟨w6, h6', h7⟩ := andThen_ok h5
      have hh := honorNow_honor g4 p4.1 hn h6'
      obtain ⟨g6, _, r6, st6, _, _, _, _⟩ := honorNow_good g4 (e' := ∅) not_single hn h6'
      obtain ⟨l', hl'⟩ := honorNow_self g4 hn h6'
      have n6 : NoWait (w6.comps c) := by rw [hl']; exact ⟨rfl, wa4, fr4, to4⟩
      have f7 := ((trR_try ∅ n).2.1 _ w6 g6 w5 h7).frozen c n6
      rw [if_pos (by rw [f7]; exact r6)] at h6
      cases h6
      have hreq : (w'.comps c).requests = [] := by rw [f7]; exact r6
      refine ⟨?_, hreq, fun r hr => ?_, fun r => ?_⟩
      · unfold World.status; rw [f7]; exact st6
      · have := (hcoh'.rq c r).1 hr
        have e : (w'.rv.comps c).requests = [] := hreq
        rw [e] at this; simp [keys] at this
      · have h8 := hh.claim r
        have e1 : w6.rv.claim c r = (lookup (w'.comps c).claims r).getD 0 := by rw [f7]; rfl
        have e2 : w4.rv.claim c r = (lookup (w.comps c).claims r).getD 0 := by rw [← cl4]; rfl
        have e3 : (w4.rv.res r).anonymous = (w.res r).anonymous := anonymous_path p4.2 r
        have e4 : w4.rv.wants c r = lookup (args.map (fun a => (a.r, a.want put))) r := by rw [← q4']; rfl
        rw [e1, e2, e3, e4] at h8
        rw [h8]
        congr 1
        cases (w.res r).anonymous with
        | true => simp
        | false =>
          simp only [and_true, Bool.false_eq_true, if_false]
          by_cases hr : r ∈ honored w4 c
          · rw [if_pos hr]
            rw [hl] at hr
            obtain ⟨a, ha, rfl⟩ := List.mem_map.1 hr
            rw [lookup_args args a.r hnd, filter_one hnd (hsub a ha), filter_one hln ha]
          · rw [if_neg hr, List.filter_eq_nil_iff.2]
            · rfl
            · intro a ha
              simpa using fun e => hr (by rw [hl, ← e]; exact List.mem_map_of_mem ha)
  cases oneof with
  | true =>
    rw [if_pos rfl]
    cases hf : (w4.comps c).requests.find? (fun p => canHonor w4 c p.1 p.2) with
    | none =>
      right
      have hno : honored w4 c = [] := by unfold honored honorAny; rw [on4, hf]; rfl
      refine ⟨fun a ha hg => ?_, hwait hno⟩
      have := List.find?_eq_none.1 hf (a.r, a.want put) (by rw [q4']; exact List.mem_map.2 ⟨a, ha, rfl⟩)
      exact this ((hcan a ha).2 hg)
    | some p =>
      left
      have hon : honored w4 c = [p.1] := by unfold honored honorAny; rw [on4, hf]; rfl
      obtain ⟨hp, l1, l2, e, hl⟩ := List.find?_eq_some_iff_append.1 hf
      rw [q4'] at e
      obtain ⟨m1, m2, e1, e2, e3⟩ := List.map_eq_append_iff.1 e
      obtain ⟨a, m3, rfl, e4, e5⟩ := List.map_eq_cons_iff.1 e3
      subst e4
      have ha : a ∈ args := by rw [e1]; simp
      refine ⟨m1, a, m3, e1, (hcan a ha).1 hp, fun b hb hg => ?_, hget [a] (by simp) (by simpa using ha) hon (by rw [hon]; simp)⟩
      have := hl (b.r, b.want put) (by rw [← e2]; exact List.mem_map.2 ⟨b, hb, rfl⟩)
      rw [(hcan b (by rw [e1]; simp [hb])).2 hg] at this
      cases this
  | false =>
    rw [if_neg (by simp)]
    by_cases hall : (w4.comps c).requests.all (fun p => canHonor w4 c p.1 p.2) = true
    · left
      have hon : honored w4 c = args.map Arg.r := by
        unfold honored honorAll; rw [on4]
        simp only [Bool.false_eq_true, if_false]
        rw [if_pos hall, q4']
        simp [keys, Function.comp_def]
      refine ⟨fun a ha => (hcan a ha).1 ?_, hget args hnd (fun _ h => h) hon ?_⟩
      · exact List.all_eq_true.1 hall (a.r, a.want put) (by rw [q4']; exact List.mem_map.2 ⟨a, ha, rfl⟩)
      · rw [hon]; intro e
        exact hc.2.1.1 (List.map_eq_nil_iff.1 e)
    · right
      have hno : honored w4 c = [] := by
        unfold honored honorAll; rw [on4]
        simp only [Bool.false_eq_true, if_false]
        rw [if_neg hall]
      refine ⟨?_, hwait hno⟩
      by_contra hcon
      push Not at hcon
      refine hall (List.all_eq_true.2 fun x hx => ?_)
      rw [q4'] at hx
      obtain ⟨a, ha, rfl⟩ := List.mem_map.1 hx
      exact (hcan a ha).2 (hcon a ha)

/-! ## examples -/

/-- component 3 asks for 1 of resource 3 (with priority `p`) and 1 of resource 4 -/
def bothAsk (o : Bool) (p : Rat) : Op := .request 3 [⟨3, 1, p⟩, ⟨4, 1, 0⟩] o false none none (0 : Rat) false false

/-- the hypotheses of `C31_at_once`. Component 2 has to be served first from resource 3, unless component 3 has a higher priority: with `oneof` component 3 gets 1
of resource 4 respectively of resource 3; without `oneof` nothing respectively both -/
example : ∃ w', Reach Calm turnW ∧ turnW.status 3 = .current ∧ Calm 20 turnW (bothAsk true 0) ∧ exec 20 (bothAsk true 0) turnW = .ok w' ∧
    Calm 20 turnW (bothAsk true (-1)) ∧ Calm 20 turnW (bothAsk false 0) ∧ Calm 20 turnW (bothAsk false (-1)) ∧
    (turnW.res 3).preemptive = false ∧ (turnW.res 4).preemptive = false ∧ (w'.comps 3).claims = [(4, 1)] ∧
    ((exec 20 (bothAsk true (-1)) turnW).world.comps 3).claims = [(3, 1)] ∧ ((exec 20 (bothAsk false 0) turnW).world.comps 3).claims = [] ∧
    ((exec 20 (bothAsk false (-1)) turnW).world.comps 3).claims = [(3, 1), (4, 1)] := by
  refine ⟨_, reach_calm _ (.init fresh_turnShop) _ (by decide +kernel), by decide +kernel, calmb_calm (by decide +kernel), ok_world (by decide +kernel),
    calmb_calm (by decide +kernel), calmb_calm (by decide +kernel), calmb_calm (by decide +kernel), by decide +kernel, by decide +kernel, by decide +kernel,
    by decide +kernel, by decide +kernel, by decide +kernel⟩

end Verif
