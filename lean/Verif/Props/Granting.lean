import Verif.Props.Lines
import Verif.RTry
import Verif.Props.Ending
import Verif.Props.Preempt

/-!
# Granting requests comes to an end (C66)
-/

namespace Verif
open World RView

/-! ## specification -/

/-- the resources in a list of resources with quantities -/
def keys' (l : List (RId × Option Rat)) : List RId := l.map (·.1)

/-- nobody is waiting for both anonymous and other resources -/
def NoMix (w : World) : Prop :=
  ∀ c, (∀ p ∈ (w.comps c).requests, (w.res p.1).anonymous = true) ∨ (∀ p ∈ (w.comps c).requests, (w.res p.1).anonymous = false)

/-- with enough fuel (depth of recursion) the call returns, with the same result -/
def ReturnsAlways (g : Nat → R) : Prop := ∃ w' f, ∀ fuel, f ≤ fuel → g fuel = .ok w'

/-- a request is made by the current component and is for anonymous resources only, or for other resources only -/
def Unmixed (w : World) : Op → Prop
  | .request c args _ _ _ _ _ _ _ => w.status c = .current ∧ ∃ b, ∀ a ∈ args, (w.res a.r).anonymous = b
  | _ => True

/-! ## nobody waits for both kinds, if nobody asks for both -/

theorem mem_addTo_fst {l : List (RId × Rat)} {r : RId} {q : Rat} {p : RId × Rat} (h : p ∈ addTo l r q) : p.1 = r ∨ ∃ p' ∈ l, p'.1 = p.1 := by
  have : p.1 ∈ keys (addTo l r q) := List.mem_map.2 ⟨p, h, rfl⟩
  rcases mem_keys_addTo.1 this with h | h
  · exact .inl h
  · obtain ⟨p', hp, he⟩ := List.mem_map.1 h
    exact .inr ⟨p', hp, he⟩

/-- which resources are anonymous, and which kind everybody waits for -/
def Kinds (A : RId → Bool) (κ : CId → Bool) (v : RView) : Prop := (∀ r, (v.res r).anonymous = A r) ∧ ∀ d, ∀ p ∈ (v.comps d).requests, A p.1 = κ d

/-- `c` asks for resources of kind `κ c` -/
def kindLic (A : RId → Bool) (κ : CId → Bool) (c : CId) : Lic := ⟨(· = c), fun r _ _ => A r = κ c, fun _ _ => True, fun _ _ _ => True, fun _ _ _ => True⟩

theorem kinds_step {A : RId → Bool} {κ : CId → Bool} {c : CId} {v v' : RView} (h : Kinds A κ v) (s : Step (kindLic A κ c) v v') : Kinds A κ v' := by
  cases s with
  | oneof d b _ hv =>
    subst hv
    refine ⟨h.1, fun e p hp => h.2 e p ?_⟩
    simp only at hp
    split at hp <;> exact hp
  | ask d r q prio hw ha s =>
    obtain rfl : d = c := hw
    refine ⟨fun x => by rw [s.res]; exact h.1 x, fun e p hp => ?_⟩
    by_cases hd : e = d
    · subst hd
      rw [s.requests] at hp
      rcases mem_addTo_fst hp with e1 | ⟨p', h1, h2⟩
      · rw [e1]; exact ha
      · rw [← h2]; exact h.2 e p' h1
    · rw [s.other e hd] at hp; exact h.2 e p hp
  | fail d s =>
    refine ⟨fun x => by rw [s.res]; exact h.1 x, fun e p hp => ?_⟩
    by_cases hd : e = d
    · subst hd; rw [s.comp] at hp; cases hp
    · rw [s.other e hd] at hp; exact h.2 e p hp
  | honor d hon s =>
    refine ⟨fun x => by rw [s.res]; exact h.1 x, fun e p hp => ?_⟩
    by_cases hd : e = d
    · subst hd; rw [s.requests] at hp; cases hp
    · rw [s.other e hd] at hp; exact h.2 e p hp
  | release d r cl a _ s =>
    refine ⟨fun x => ?_, fun e p hp => ?_⟩
    · by_cases hx : x = r
      · subst hx; rw [s.res]; exact h.1 x
      · rw [s.ores x hx]; exact h.1 x
    · by_cases hd : e = d
      · subst hd; rw [s.requests] at hp; exact h.2 e p hp
      · rw [s.other e hd] at hp; exact h.2 e p hp
  | anon r a _ _ hv =>
    subst hv
    refine ⟨fun x => ?_, h.2⟩
    simp only
    split
    · rename_i hx; subst hx; exact h.1 x
    · exact h.1 x
  | cap r k _ hv =>
    subst hv
    refine ⟨fun x => ?_, h.2⟩
    simp only
    split <;> exact h.1 x

theorem kinds_noMix {A : RId → Bool} {κ : CId → Bool} {w : World} (h : Kinds A κ w.rv) : NoMix w := by
  intro c
  have h1 : ∀ p ∈ (w.comps c).requests, (w.res p.1).anonymous = κ c := fun p hp => (h.1 p.1).trans (h.2 c p hp)
  cases hk : κ c
  · right; rw [hk] at h1; exact h1
  · left; rw [hk] at h1; exact h1

theorem noMix_kinds {w : World} (h : NoMix w) : ∃ κ, Kinds (fun r => (w.res r).anonymous) κ w.rv := by
  classical
  refine ⟨fun c => decide (∀ p ∈ (w.comps c).requests, (w.res p.1).anonymous = true), fun _ => rfl, fun d p hp => ?_⟩
  simp only
  by_cases hd : ∀ p ∈ (w.comps d).requests, (w.res p.1).anonymous = true
  · rw [decide_eq_true hd]; exact hd p hp
  · rw [decide_eq_false hd]; exact (h d).resolve_left hd p hp

theorem kinds_path {A : RId → Bool} {κ : CId → Bool} {c : CId} {v v' : RView} (h : Kinds A κ v)
    (s : Relation.ReflTransGen (Step (kindLic A κ c)) v v') : Kinds A κ v' := by
  induction s with
  | refl => exact h
  | tail _ s ih => exact kinds_step ih s

/-! ## only finitely many are waiting -/

/-- all who are waiting for resources are in `l` -/
def Askers (l : List CId) (v : RView) : Prop := ∀ c, (v.comps c).requests ≠ [] → c ∈ l

theorem askers_step {L : Lic} {v v' : RView} {l : List CId} (h : Askers l v) (s : Step L v v') : ∃ l', Askers l' v' := by
  cases s with
  | oneof c b _ hv =>
    subst hv
    refine ⟨l, fun d hd => h d fun e => hd ?_⟩
    show (if d = c then _ else _ : RC).requests = []
    split <;> exact e
  | ask c r q prio _ _ s =>
    refine ⟨c :: l, fun d hd => ?_⟩
    by_cases hc : d = c
    · simp [hc]
    · rw [s.other d hc] at hd; exact List.mem_cons_of_mem _ (h d hd)
  | fail c s =>
    refine ⟨l, fun d hd => ?_⟩
    by_cases hc : d = c
    · subst hc; rw [s.comp] at hd; exact absurd rfl hd
    · rw [s.other d hc] at hd; exact h d hd
  | honor c hon s =>
    refine ⟨l, fun d hd => ?_⟩
    by_cases hc : d = c
    · subst hc; exact absurd s.requests hd
    · rw [s.other d hc] at hd; exact h d hd
  | release c r cl a _ s =>
    refine ⟨l, fun d hd => ?_⟩
    by_cases hc : d = c
    · subst hc; rw [s.requests] at hd; exact h d hd
    · rw [s.other d hc] at hd; exact h d hd
  | anon r a _ _ hv => subst hv; exact ⟨l, h⟩
  | cap r k _ hv => subst hv; exact ⟨l, h⟩

theorem askers_path {L : Lic} {v v' : RView} (h : ∃ l, Askers l v) (s : Relation.ReflTransGen (Step L) v v') : ∃ l, Askers l v' := by
  induction s with
  | refl => exact h
  | tail _ s ih => obtain ⟨l, hl⟩ := ih; exact askers_step hl s

theorem Reach.askers {ok} {w : World} (h : Reach ok w) : ∃ l, Askers l w.rv := by
  induction h with
  | init hf =>
    refine ⟨[], fun c hc => ?_⟩
    obtain ⟨b, hb⟩ := hf.comps c
    refine absurd ?_ hc
    show (Comp.rc _).requests = []
    rw [hb]; rfl
  | op fuel o h _ ih => exact askers_path ih (exec_refines (L := anyLic) h.any.coh fuel o (anyLic_ok _ o)).2

/-! ## the loops end -/

/-- the call returns `w'` -/
def Ends (g : Nat → R) (w' : World) : Prop := ∃ f, ∀ fuel, f ≤ fuel → g fuel = .ok w'

theorem Ends.andThen {g : Nat → R} {k : Nat → World → R} {w' w'' : World} (h : Ends g w') (h' : Ends (fun n => k n w') w'') :
    Ends (fun n => g n ⊳ k n) w'' := by
  obtain ⟨f, h⟩ := h
  obtain ⟨f', h'⟩ := h'
  exact ⟨max f f', fun n hn => by show (g n ⊳ k n) = _; rw [h n (le_trans (le_max_left _ _) hn)]; exact h' n (le_trans (le_max_right _ _) hn)⟩

theorem Ends.succ {g k : Nat → R} {w' : World} (h : Ends k w') (he : ∀ n, g (n + 1) = k n) : Ends g w' := by
  obtain ⟨f, h⟩ := h
  refine ⟨f + 1, fun n hn => ?_⟩
  obtain ⟨m, rfl⟩ : ∃ m, n = m + 1 := ⟨n - 1, by omega⟩
  rw [he]; exact h m (by omega)

theorem Ends.of_ok {w' : World} : Ends (fun _ => .ok w') w' := ⟨0, fun _ _ => rfl⟩

/-- what holds while requests are granted -/
structure Lively (e : Set CId) (l : List CId) (w : World) : Prop where
  good : Good e w
  coh : w.rv.Coh
  mix : NoMix w
  ask : Askers l w.rv

theorem coh_modR {w : World} (h : w.rv.Coh) (r : RId) {f : Res → Res} (hf : ∀ x, (f x).anonymous = x.anonymous) : (w.modR r f).rv.Coh := by
  have ha : ∀ s, ((w.modR r f).rv.res s).anonymous = (w.rv.res s).anonymous := fun s => by
    show ((w.modR r f).res s).anonymous = (w.res s).anonymous
    simp only [World.modR]
    split
    · rw [hf]
    · rfl
  exact ⟨h.capq, h.rnd, h.cnd, h.rq, h.cq, h.rk, h.ck, fun c s q hq hn => by rw [ha]; exact h.pos c s q hq hn, h.nneg,
    fun s hs => h.anon s (by rw [← ha]; exact hs)⟩

theorem modR_anonymous {w : World} {r : RId} {f : Res → Res} (hf : ∀ x, (f x).anonymous = x.anonymous) (s : RId) :
    ((w.modR r f).res s).anonymous = (w.res s).anonymous := by
  simp only [World.modR]
  split
  · rw [hf]
  · rfl

theorem Lively.modR {e : Set CId} {l : List CId} {w : World} (h : Lively e l w) (r : RId) {f : Res → Res} (hf : ∀ x, (f x).anonymous = x.anonymous) :
    Lively e l (w.modR r f) :=
  ⟨h.good.modR r f, coh_modR h.coh r hf, fun c => (h.mix c).imp (fun k p hp => by rw [modR_anonymous hf]; exact k p hp)
    (fun k p hp => by rw [modR_anonymous hf]; exact k p hp), h.ask⟩

theorem Lively.mono {e : Set CId} {l l' : List CId} {w : World} (h : Lively e l w) (hl : ∀ c ∈ l, c ∈ l') : Lively e l' w :=
  ⟨h.good, h.coh, h.mix, fun c hc => hl c (h.ask c hc)⟩

theorem honorNow_honored {c : CId} {w : World} {r : R} (h : honorNow c w = some r) : honored w c ≠ [] := by
  unfold honorNow at h
  split at h
  · cases h
  · rename_i hh; exact fun e => hh (.inr e)

/-- granting a request never fails -/
theorem honorNow_returns {e : Set CId} {c : CId} {w : World} {r : R} (hg : Good e w) (hcoh : w.rv.Coh) (h : honorNow c w = some r) : ∃ w', r = .ok w' := by
  have hne := honorNow_honored h
  unfold honorNow at h
  split at h
  · cases h
  · simp only [Option.some.injEq] at h
    subst h
    obtain ⟨w0, h0, _⟩ := honor_step hcoh c hne
    obtain ⟨w1, h1, _⟩ := andThen_ok h0
    obtain ⟨g1, _, _⟩ := forR_claimOne _ _ _ hg h1
    have hinv : (w1.modC c (fun x => { x with requests := [] })).Inv := inv_of_ev (ev_modC (fun _ => rfl)) g1.inv
    obtain ⟨w2, h2, _⟩ := wake_woken hinv c none
    exact ⟨w2, by rw [h1]; exact h2⟩

theorem Lively.honor {e : Set CId} {l : List CId} {c : CId} {w : World} {r : R} (h : Lively e l w) (hr : honorNow c w = some r) :
    ∃ w', r = .ok w' ∧ Lively e (l.filter (· != c)) w' ∧ (l.filter (· != c)).length < l.length ∧ Honor c (honored w c) w.rv w'.rv := by
  obtain ⟨w', rfl⟩ := honorNow_returns h.good h.coh hr
  have hh := honorNow_honor h.good h.coh hr rfl
  obtain ⟨g, hne, hreq, _, hoth, _, _, _⟩ := honorNow_good h.good (fun _ _ => Iff.rfl) hr rfl
  have hc : c ∈ l := h.ask c hne
  have ha : ∀ s, (w'.res s).anonymous = (w.res s).anonymous := fun s => by
    have := hh.res s
    have : (w'.rv.res s).anonymous = (w.rv.res s).anonymous := by rw [this]
    exact this
  refine ⟨w', rfl, ⟨g, h.coh.honor hh, fun d => ?_, fun d hd => ?_⟩, ?_, hh⟩
  · by_cases hd : d = c
    · subst hd; rw [hreq]; left; simp
    · rw [hoth d hd]
      exact (h.mix d).imp (fun k p hp => by rw [ha]; exact k p hp) (fun k p hp => by rw [ha]; exact k p hp)
  · by_cases hdc : d = c
    · subst hdc; exact absurd hh.requests hd
    · rw [hh.other d hdc] at hd
      simp [h.ask d hd, hdc]
  · exact List.length_filter_lt_length_iff_exists.2 ⟨c, hc, by simp⟩

theorem succ_mid {q : Queue} {l1 l2 : List QMem} {m : QMem} (h : q.mem = l1 ++ m :: l2) (hn : (q.mem.map QMem.c).Nodup) : q.succ m.c = l2.head? := by
  unfold Queue.succ
  have : q.mem.dropWhile (fun x => x.c != m.c) = m :: l2 := by
    rw [h, List.dropWhile_append_of_pos]
    · simp
    · intro x hx
      rw [h] at hn
      simp only [List.map_append, List.map_cons, List.nodup_append, List.mem_map, List.mem_cons] at hn
      have := hn.2.2 x.c ⟨x, hx, rfl⟩ m.c (.inl rfl)
      simpa using this
  rw [this]
  cases l2 <;> rfl

/-- all four loops end -/
theorem grants (e : Set CId) (l : List CId) :
    (∀ c w r, Lively e l w → honorNow c w = some r → ∃ w', Ends (fun k => tryReqC k c w) w' ∧ Lively e (l.filter (· != c)) w') ∧
    (∀ r first w l1 l2, Lively e l w → (w.queues (.requesters r)).mem = l1 ++ l2 → ∃ w', Ends (fun k => loopR k r l2.head? first w) w' ∧ Lively e l w') ∧
    (∀ r w, Lively e l w → ∃ w', Ends (fun k => tryReqR k r w) w' ∧ Lively e l w') ∧
    (∀ rs w, Lively e l w → ∃ w', Ends (fun k => tryReqList k rs w) w' ∧ Lively e l w') := by
  induction hn : l.length using Nat.strong_induction_on generalizing l with
  | _ n ih =>
  subst hn
  have shrink : ∀ c, ∀ d ∈ l.filter (· != c), d ∈ l := fun c d hd => (List.mem_filter.1 hd).1
  -- a request that can be granted
  have A : ∀ c w r, Lively e l w → honorNow c w = some r → ∃ w', Ends (fun k => tryReqC k c w) w' ∧ Lively e (l.filter (· != c)) w' := by
    intro c w r hw hr
    obtain ⟨w1, rfl, hw1, hlt, _⟩ := hw.honor hr
    obtain ⟨w2, he, hw2⟩ := (ih _ hlt _ rfl).2.2.2 ((keys (w.comps c).requests).filter (fun r => (w.res r).anonymous)) w1 hw1
    refine ⟨w2, he.succ fun k => ?_, hw2⟩
    rw [tryReqC, hr]; rfl
  have B : ∀ r first l2 w l1, Lively e l w → (w.queues (.requesters r)).mem = l1 ++ l2 → ∃ w', Ends (fun k => loopR k r l2.head? first w) w' ∧ Lively e l w' := by
    intro r first l2
    induction l2 with
    | nil =>
      intro w l1 hw _
      exact ⟨w, Ends.of_ok.succ fun k => by rw [List.head?_nil, loopR], hw⟩
    | cons m l2 ihl =>
      intro w l1 hw hq
      have hnd : ((w.queues (.requesters r)).mem.map QMem.c).Nodup := hw.good.nd _
      have hin : m.c ∈ w.inQ (.requesters r) := by unfold World.inQ; rw [hq]; simp
      have hhas : (w.queues (.requesters r)).has m.c = true := (has_inQ _ _ _).2 hin
      have hsucc := succ_mid hq hnd
      by_cases h1 : ((w.res r).honorFirst && (some m.c != first.map QMem.c)) = true
      · exact ⟨w, Ends.of_ok.succ fun k => by rw [List.head?_cons, loopR]; simp only [h1, if_true], hw⟩
      by_cases h2 : ((w.res r).honorHighest && (some m.prio != first.map QMem.prio)) = true
      · exact ⟨w, Ends.of_ok.succ fun k => by rw [List.head?_cons, loopR]; simp only [h1, h2, if_true]; rfl, hw⟩
      by_cases h3 : (!(w.res r).anonymous && decide ((w.res r).minq > (w.res r).avail + (eps : ETime))) = true
      · exact ⟨w, Ends.of_ok.succ fun k => by rw [List.head?_cons, loopR]; simp only [h1, h2, h3, if_true]; rfl, hw⟩
      have unf : ∀ k, loopR (k + 1) r (m :: l2).head? first w = (tryReqC k m.c w ⊳ fun w' =>
          if (w.res r).anonymous && !(w'.queues (.requesters r)).has m.c then loopR k r (cursor0 w' r) first w' else loopR k r l2.head? first w') := by
        intro k
        rw [List.head?_cons, loopR]
        simp only [h1, h2, h3, hhas, hsucc, Bool.not_true, Bool.false_eq_true, if_false]
      cases hh : honorNow m.c w with
      | none =>
        obtain ⟨w', he, hw'⟩ := ihl w (l1 ++ [m]) hw (by rw [hq]; simp)
        refine ⟨w', Ends.succ (Ends.andThen (w' := w) (Ends.of_ok.succ fun k => by rw [tryReqC, hh]) (k := fun k w' =>
          if (w.res r).anonymous && !(w'.queues (.requesters r)).has m.c then loopR k r (cursor0 w' r) first w' else loopR k r l2.head? first w') ?_) unf, hw'⟩
        obtain ⟨f, he⟩ := he
        exact ⟨f, fun k hk => by simp only [hhas, Bool.not_true, Bool.and_false, Bool.false_eq_true, if_false]; exact he k hk⟩
      | some res =>
        obtain ⟨w1, hres, hw1, hlt, hon⟩ := hw.honor hh
        cases ha : (w.res r).anonymous with
        | true =>
          obtain ⟨w2, he2, hw2⟩ := A m.c w res hw hh
          have hno : (w2.queues (.requesters r)).has m.c = false := by
            rw [Bool.eq_false_iff]
            intro hc
            have := (hw2.coh.rq m.c r).1 ((has_inQ _ _ _).1 hc)
            have h5 : (w2.rv.comps m.c).requests ≠ [] := fun e => by rw [e] at this; simp [keys] at this
            have := hw2.ask m.c h5
            simp at this
          obtain ⟨w3, he3, hw3⟩ := (ih _ hlt _ rfl).2.1 r first w2 [] (w2.queues (.requesters r)).mem hw2 rfl
          refine ⟨w3, Ends.succ (Ends.andThen he2 (k := fun k w' =>
            if (w.res r).anonymous && !(w'.queues (.requesters r)).has m.c then loopR k r (cursor0 w' r) first w' else loopR k r l2.head? first w') ?_) unf, hw3.mono (shrink _)⟩
          obtain ⟨f, he⟩ := he3
          exact ⟨f, fun k hk => by simp only [hno, ha, Bool.not_false, Bool.and_true, if_true]; exact he k hk⟩
        | false =>
          have hkey : r ∈ keys (w.comps m.c).requests := (hw.coh.rq m.c r).1 hin
          have hall : ∀ p ∈ (w.comps m.c).requests, (w.res p.1).anonymous = false := by
            obtain ⟨q, hq⟩ := mem_keys.1 hkey
            rcases hw.mix m.c with h | h
            · have := h _ hq
              simp only [ha] at this
              cases this
            · exact h
          have hanon : (keys (w.comps m.c).requests).filter (fun r => (w.res r).anonymous) = [] := by
            rw [List.filter_eq_nil_iff]
            intro s hs
            obtain ⟨q, hq⟩ := mem_keys.1 hs
            simp [hall _ hq]
          have he1 : Ends (fun k => tryReqC k m.c w) w1 := ⟨2, fun k hk => by
            obtain ⟨j, rfl⟩ : ∃ j, k = j + 2 := ⟨k - 2, by omega⟩
            show tryReqC (j + 1 + 1) m.c w = _
            rw [tryReqC, hh]
            simp only [hanon]
            rw [hres]
            show tryReqList (j + 1) [] w1 = _
            rw [tryReqList]⟩
          have hq1 : (w1.queues (.requesters r)).mem = l1 ++ l2 := by
            have h6 : (w1.queues (.requesters r)).mem = (w.queues (.requesters r)).mem.filter (fun x => x.c != m.c) := congrArg Prod.fst (hon.reqs r)
            rw [h6, hq, List.filter_append, List.filter_cons_of_neg (by simp)]
            rw [hq] at hnd
            simp only [List.map_append, List.map_cons, List.nodup_append, List.mem_map, List.mem_cons, List.nodup_cons] at hnd
            rw [List.filter_eq_self.2, List.filter_eq_self.2]
            · intro x hx
              have : m.c ≠ x.c := fun e => hnd.2.1.1 ⟨x, hx, e.symm⟩
              simpa using this.symm
            · intro x hx
              have := hnd.2.2 x.c ⟨x, hx, rfl⟩ m.c (.inl rfl)
              simpa using this
          obtain ⟨w3, he3, hw3⟩ := (ih _ hlt _ rfl).2.1 r first w1 l1 l2 hw1 hq1
          refine ⟨w3, Ends.succ (Ends.andThen he1 (k := fun k w' =>
            if (w.res r).anonymous && !(w'.queues (.requesters r)).has m.c then loopR k r (cursor0 w' r) first w' else loopR k r l2.head? first w') ?_) unf, hw3.mono (shrink _)⟩
          obtain ⟨f, he⟩ := he3
          exact ⟨f, fun k hk => by simp only [ha, Bool.false_and, Bool.false_eq_true, if_false]; exact he k hk⟩
  have C : ∀ r w, Lively e l w → ∃ w', Ends (fun k => tryReqR k r w) w' ∧ Lively e l w' := by
    intro r w hw
    cases ha : (w.res r).anonymous with
    | false =>
      obtain ⟨w', he, hw'⟩ := B r (cursor0 w r) (w.queues (.requesters r)).mem w [] hw rfl
      exact ⟨w', he.succ fun k => by rw [tryReqR, ha]; rfl, hw'⟩
    | true =>
      cases ht : (w.res r).trying with
      | true => exact ⟨w, Ends.of_ok.succ fun k => by rw [tryReqR, ha, ht]; rfl, hw⟩
      | false =>
        obtain ⟨w', he, hw'⟩ := B r (cursor0 w r) (w.queues (.requesters r)).mem (w.modR r (fun x => { x with trying := true })) []
          (hw.modR r (by intro _; rfl)) rfl
        refine ⟨w'.modR r (fun x => { x with trying := false }), Ends.succ (Ends.andThen he (k := fun _ w => .ok (w.modR r (fun x => { x with trying := false })))
          Ends.of_ok) fun k => by rw [tryReqR, ha, ht]; rfl, hw'.modR r (by intro _; rfl)⟩
  refine ⟨A, fun r first w l1 l2 hw hq => B r first l2 w l1 hw hq, C, fun rs => ?_⟩
  induction rs with
  | nil => exact fun w hw => ⟨w, Ends.of_ok.succ fun k => by rw [tryReqList], hw⟩
  | cons r rs ihr =>
    intro w hw
    obtain ⟨w1, he1, hw1⟩ := C r w hw
    obtain ⟨w2, he2, hw2⟩ := ihr w1 hw1
    exact ⟨w2, Ends.succ (Ends.andThen he1 he2) fun k => by rw [tryReqList], hw2⟩

/-! ## claims are kept -/

theorem grants_keys {v v' : RView} (g : Grants v v') {c : CId} {r : RId} (h : r ∈ keys (v.comps c).claims) : r ∈ keys (v'.comps c).claims := by
  induction g with
  | refl => exact h
  | tail _ s ih =>
    obtain ⟨d, hon, s⟩ := s
    by_cases hd : c = d
    · subst hd; exact (s.keys r).2 (.inl ih)
    · rw [s.other c hd]; exact ih

theorem Lively.of_reach {w : World} (h : Reach Calm w) (hm : NoMix w) : ∃ l, Lively ∅ l w := by
  obtain ⟨l, hl⟩ := h.askers
  exact ⟨l, h.good, h.coh, hm, hl⟩

/-- giving back a claim, up to the granting of what others wait for -/
theorem Lively.release {e : Set CId} {l : List CId} {w : World} (h : Lively e l w) {c : CId} {r : RId} (hr : r ∈ keys (w.comps c).claims) (a : Option Rat) :
    ∃ w', releaseCore c r a w = .ok w' ∧ Lively e l w' ∧ ∀ s, s ≠ r → s ∈ keys (w.comps c).claims → s ∈ keys (w'.comps c).claims := by
  rcases release_step' h.coh c r a with ⟨hs, _⟩ | ⟨cl, hok, hs⟩
  · exact absurd hr (lookup_none.1 hs)
  · cases hc : releaseCore c r a w with
    | err x y => rw [hc] at hok; cases hok
    | ok w' =>
      rw [hc] at hs
      replace hs : Release c r cl (RView.amount a cl) w.rv w'.rv := hs
      have ha : ∀ s, (w'.res s).anonymous = (w.res s).anonymous := fun s => by
        show (w'.rv.res s).anonymous = (w.rv.res s).anonymous
        by_cases hsr : s = r
        · subst hsr; rw [hs.res]
        · rw [hs.ores s hsr]
      have hreq : ∀ d, (w'.comps d).requests = (w.comps d).requests := fun d => by
        show (w'.rv.comps d).requests = (w.rv.comps d).requests
        by_cases hd : d = c
        · subst hd; exact hs.requests
        · rw [hs.other d hd]
      refine ⟨w', rfl, ⟨(releaseCore_good h.good hc).1, h.coh.release hs, fun d => ?_, fun d hd => h.ask d ?_⟩, fun s hsr hk => ?_⟩
      · rw [hreq]
        exact (h.mix d).imp (fun k p hp => by rw [ha]; exact k p hp) (fun k p hp => by rw [ha]; exact k p hp)
      · show (w.comps d).requests ≠ []
        rw [← hreq]; exact hd
      · have h1 : lookup (w'.comps c).claims s = lookup (w.comps c).claims s := by
          have := hs.claims s
          rw [if_neg hsr] at this
          exact this
        rw [← lookup_isSome] at hk ⊢
        rw [h1]; exact hk

theorem release1_returns {e : Set CId} {l : List CId} {w : World} (h : Lively e l w) {c : CId} {r : RId} (hr : r ∈ keys (w.comps c).claims) (a : Option Rat) :
    ∃ w', Ends (fun k => release1 k c r a w) w' ∧ Lively e l w' ∧ ∀ s, s ≠ r → s ∈ keys (w.comps c).claims → s ∈ keys (w'.comps c).claims := by
  obtain ⟨w1, h1, l1, k1⟩ := h.release hr a
  obtain ⟨w2, e2, l2⟩ := (grants e l).2.2.1 r w1 l1
  refine ⟨w2, ?_, l2, fun s hs hk => ?_⟩
  · obtain ⟨f, e2⟩ := e2
    exact ⟨f, fun k hk => by show (releaseCore c r a w ⊳ tryReqR k r) = _; rw [h1]; exact e2 k hk⟩
  · obtain ⟨f, e2⟩ := e2
    have := tryReqR_grants l1.coh f r
    have e3 : tryReqR f r w1 = .ok w2 := e2 f le_rfl
    rw [e3] at this
    exact grants_keys this (k1 s hs hk)

theorem claimed_anonymous {w : World} (h : w.rv.Coh) {c : CId} {r : RId} (hr : r ∈ keys (w.comps c).claims) : (w.res r).anonymous = false := by
  rw [Bool.eq_false_iff]
  intro ha
  have h1 : c ∈ w.rv.clmQ r := (h.cq c r).2 hr
  have h2 : (w.rv.clms r).1 = [] := h.anon r ha
  unfold RView.clmQ at h1
  rw [h2] at h1
  cases h1

theorem releases_return {α : Type} {e : Set CId} {l : List CId} {c : CId} {rs : α → RId} {qs : α → Option Rat} {g : Nat → α → World → R}
    (hg : ∀ k a w, (w.res (rs a)).anonymous = false → g k a w = release1 k c (rs a) (qs a) w) : ∀ (args : List α) (w : World), Lively e l w → (args.map rs).Nodup →
    (∀ a ∈ args, rs a ∈ keys (w.comps c).claims) → ∃ w', Ends (fun k => forR args (g k) w) w' ∧ Lively e l w'
  | [], w, h, _, _ => ⟨w, Ends.of_ok, h⟩
  | a :: t, w, h, hn, hk => by
    simp only [List.map_cons, List.nodup_cons] at hn
    obtain ⟨w1, ⟨f, e1⟩, l1, k1⟩ := release1_returns h (hk a List.mem_cons_self) (qs a)
    obtain ⟨w2, e2, l2⟩ := releases_return hg t w1 l1 hn.2 fun b hb => k1 (rs b) (fun e => hn.1 (List.mem_map.2 ⟨b, hb, e⟩)) (hk b (List.mem_cons_of_mem _ hb))
    have e3 : Ends (fun k => g k a w) w1 := ⟨f, fun k hf => by
      show g k a w = _
      rw [hg k a w (claimed_anonymous h.coh (hk a List.mem_cons_self))]; exact e1 k hf⟩
    exact ⟨w2, Ends.andThen e3 e2, l2⟩

theorem releaseAll_returns {e : Set CId} {l : List CId} (c : CId) {w : World} (h : Lively e l w) : ∃ w', Ends (fun k => releaseAll k c w) w' ∧ Lively e l w' :=
  releases_return (rs := id) (qs := fun _ => none) (g := fun k r => release1 k c r none) (fun _ _ _ _ => rfl) _ w h (by rw [List.map_id]; exact h.coh.ck c) fun _ ha => ha

/-! ## all claimers -/

/-- granting lets those behind a claimer grow by at most the number of those who stop waiting -/
theorem grants_suffix {v v' : RView} (g : Grants v v') (r : RId) {l1 l2 : List QMem} {m : QMem} (h : (v.clms r).1 = l1 ++ m :: l2) :
    ∃ l1' l2', (v'.clms r).1 = l1' ++ m :: l2' ∧ l2'.length + (v'.reqs r).1.length ≤ l2.length + (v.reqs r).1.length := by
  induction g with
  | refl => exact ⟨l1, l2, h, le_rfl⟩
  | @tail b v' _ s ih =>
    obtain ⟨d, hon, s⟩ := s
    obtain ⟨k1, k2, e, hle⟩ := ih
    have hr : (v'.reqs r).1 = (b.reqs r).1.filter (fun m => m.c != d) := congrArg Prod.fst (s.reqs r)
    have hc := s.clms r
    split at hc
    · obtain ⟨x, y, _, hy, hyd, _, a1, a2, ha, hb, _⟩ := hc
      have hlt : (v'.reqs r).1.length < (b.reqs r).1.length := by
        rw [hr]; exact List.length_filter_lt_length_iff_exists.2 ⟨y, hy, by simp [hyd]⟩
      rw [e] at ha
      rcases List.append_eq_append_iff.1 ha with ⟨c1, h1, h2⟩ | ⟨c1, h1, h2⟩
      · cases c1 with
        | nil =>
          refine ⟨k1 ++ [x], k2, ?_, by omega⟩
          rw [hb, h1, ← (show m :: k2 = a2 from h2)]; simp
        | cons z c1 =>
          simp only [List.cons_append, List.cons.injEq] at h2
          obtain ⟨rfl, h2⟩ := h2
          refine ⟨k1, c1 ++ x :: a2, by rw [hb, h1]; simp, ?_⟩
          rw [h2] at hle
          simp only [List.length_append, List.length_cons] at hle ⊢
          omega
      · refine ⟨a1 ++ x :: c1, k2, by rw [hb, h2]; simp, by omega⟩
    · refine ⟨k1, k2, by rw [hc]; exact e, ?_⟩
      rw [hr]
      have := List.length_filter_le (fun m : QMem => m.c != d) (b.reqs r).1
      omega

theorem resReleaseLoop_returns {e : Set CId} {l : List CId} {r : RId} : ∀ (n : Nat) (l1 l2 : List QMem) (w : World), Lively e l w →
    (w.queues (.claimers r)).mem = l1 ++ l2 → l2.length + (w.queues (.requesters r)).mem.length ≤ n →
    ∃ w', Ends (fun k => resReleaseLoop k r l2.head? w) w'
  | n, l1, [], w, h, hq, _ => ⟨w, Ends.of_ok.succ fun k => by rw [List.head?_nil, resReleaseLoop]⟩
  | 0, l1, m :: l2, w, h, hq, hn => absurd hn (by simp)
  | n + 1, l1, m :: l2, w, h, hq, hn => by
    have hnd : ((w.queues (.claimers r)).mem.map QMem.c).Nodup := h.good.nd _
    have hin : m.c ∈ w.inQ (.claimers r) := by unfold World.inQ; rw [hq]; simp
    have hhas : (w.queues (.claimers r)).has m.c = true := (has_inQ _ _ _).2 hin
    have hsucc := succ_mid hq hnd
    have hkey : r ∈ keys (w.comps m.c).claims := (h.coh.cq m.c r).1 hin
    obtain ⟨w1, h1, lv1, _⟩ := h.release hkey none
    obtain ⟨w2, e2, lv2⟩ := (grants e l).2.2.1 r w1 lv1
    have hrel : ∃ cl, Release m.c r cl cl w.rv w1.rv := by
      rcases release_step' h.coh m.c r none with ⟨hs, _⟩ | ⟨cl, hok, hs⟩
      · exact absurd hkey (lookup_none.1 hs)
      · rw [h1] at hs; exact ⟨cl, hs⟩
    obtain ⟨cl, hrel⟩ := hrel
    have hq1 : (w1.queues (.claimers r)).mem = l1 ++ l2 := by
      have h6 : (w1.queues (.claimers r)).mem = if cl - cl < eps then (w.queues (.claimers r)).mem.filter (fun x => x.c != m.c) else (w.queues (.claimers r)).mem :=
        congrArg Prod.fst hrel.clms
      rw [if_pos (by rw [sub_self]; decide +kernel)] at h6
      rw [h6, hq, List.filter_append, List.filter_cons_of_neg (by simp)]
      rw [hq] at hnd
      simp only [List.map_append, List.map_cons, List.nodup_append, List.mem_map, List.mem_cons, List.nodup_cons] at hnd
      rw [List.filter_eq_self.2, List.filter_eq_self.2]
      · intro x hx
        have : m.c ≠ x.c := fun e => hnd.2.1.1 ⟨x, hx, e.symm⟩
        simpa using this.symm
      · intro x hx
        have := hnd.2.2 x.c ⟨x, hx, rfl⟩ m.c (.inl rfl)
        simpa using this
    have hr1 : (w1.queues (.requesters r)).mem = (w.queues (.requesters r)).mem := congrArg (fun f => (f r).1) hrel.reqs
    have unf : ∀ k, resReleaseLoop (k + 1) r (m :: l2).head? w = (release1 k m.c r none w ⊳ resReleaseLoop k r l2.head?) := by
      intro k
      rw [List.head?_cons, resReleaseLoop]
      simp only [hhas, hsucc, Bool.not_true, Bool.false_eq_true, if_false]
    have e3 : Ends (fun k => release1 k m.c r none w) w2 := by
      obtain ⟨f, e2⟩ := e2
      exact ⟨f, fun k hk => by show (releaseCore m.c r none w ⊳ tryReqR k r) = _; rw [h1]; exact e2 k hk⟩
    have hgr : Grants w1.rv w2.rv := by
      obtain ⟨f, e2⟩ := e2
      have := tryReqR_grants lv1.coh f r
      have e3 : tryReqR f r w1 = .ok w2 := e2 f le_rfl
      rw [e3] at this
      exact this
    have next : ∃ w', Ends (fun k => resReleaseLoop k r l2.head? w2) w' := by
      cases l2 with
      | nil => exact ⟨w2, Ends.of_ok.succ fun k => by rw [List.head?_nil, resReleaseLoop]⟩
      | cons m2 l3 =>
        obtain ⟨a1, a2, ha, hle⟩ := grants_suffix hgr r (l1 := l1) (m := m2) (l2 := l3) hq1
        have hle' : a2.length + (w2.queues (.requesters r)).mem.length ≤ l3.length + (w1.queues (.requesters r)).mem.length := hle
        rw [hr1] at hle'
        simp only [List.length_cons] at hn
        exact resReleaseLoop_returns n a1 (m2 :: a2) w2 lv2 ha (by simp only [List.length_cons]; omega)
    obtain ⟨w', he⟩ := next
    exact ⟨w', Ends.succ (Ends.andThen e3 he) unf⟩

/-! ## giving up -/

/-- what is known about requests, claims and resources -/
def Tidy (l : List CId) (w : World) : Prop := w.rv.Coh ∧ NoMix w ∧ Askers l w.rv

theorem noMix_rv {w w' : World} (h : NoMix w) (he : w'.rv = w.rv) : NoMix w' := by
  intro c
  have h1 : (w'.comps c).requests = (w.comps c).requests := congrArg (fun v => (v.comps c).requests) he
  have h2 : ∀ r, (w'.res r).anonymous = (w.res r).anonymous := fun r => congrArg (fun v : RView => (v.res r).anonymous) he
  rw [h1]
  exact (h c).imp (fun k p hp => by rw [h2]; exact k p hp) (fun k p hp => by rw [h2]; exact k p hp)

theorem tidy_rv {l : List CId} {w w' : World} (h : Tidy l w) (he : w'.rv = w.rv) : Tidy l w' :=
  ⟨by rw [he]; exact h.1, noMix_rv h.2.1 he, by rw [he]; exact h.2.2⟩

theorem tidy_stable (l : List CId) : StableF (Tidy l) where
  frame0 h he _ _ _ := tidy_rv h he
  fail {w} c h := by
    have s := fail_step h.1 c
    refine ⟨h.1.fail s, fun d => ?_, fun d hd => ?_⟩
    · have ha : ∀ r, ((checkFailReq c w).world.res r).anonymous = (w.res r).anonymous := fun r =>
        by
        have := congrArg (fun x => (x r).anonymous) s.res
        exact this
      by_cases hd : d = c
      · subst hd
        left
        have : ((checkFailReq d w).world.comps d).requests = [] := by
          have := congrArg RC.requests s.comp
          exact this
        rw [this]; simp
      · have : ((checkFailReq c w).world.comps d).requests = (w.comps d).requests := congrArg RC.requests (s.other d hd)
        rw [this]
        exact (h.2.1 d).imp (fun k p hp => by rw [ha]; exact k p hp) (fun k p hp => by rw [ha]; exact k p hp)
    · by_cases hc : d = c
      · subst hc; rw [s.comp] at hd; exact absurd rfl hd
      · rw [s.other d hc] at hd; exact h.2.2 d hd

theorem anon_stable (w : World) : StableF (fun w' => w'.rv.Coh ∧ ∀ r, (w'.res r).anonymous = (w.res r).anonymous) where
  frame0 h he hr _ _ := ⟨by rw [he]; exact h.1, fun r => by rw [hr]; exact h.2 r⟩
  fail {w'} c h := by
    have s := fail_step h.1 c
    refine ⟨h.1.fail s, fun r => ?_⟩
    have := congrArg (fun x => (x r).anonymous) s.res
    exact Eq.trans this (h.2 r)

theorem Tidy.lively {e : Set CId} {l : List CId} {w : World} (h : Tidy l w) (hg : Good e w) : Lively e l w := ⟨hg, h.1, h.2.1, h.2.2⟩
theorem Lively.tidy {e : Set CId} {l : List CId} {w : World} (h : Lively e l w) : Tidy l w := ⟨h.coh, h.mix, h.ask⟩

theorem Pr.to {P : World → Prop} {r : R} {w : World} (h : Pr P r) (he : r = .ok w) : P w := by subst he; exact h

/-! ## asking -/

/-- while the arguments of a request are handled -/
structure Poses (c : CId) (b : Bool) (l : List CId) (w : World) : Prop where
  live : Lively {c} (c :: l) w
  kind : ∀ p ∈ (w.comps c).requests, (w.res p.1).anonymous = b
  main : c ≠ w.main
  off : (w.comps c).onList = false

theorem Poses.asked {c : CId} {b : Bool} {l : List CId} {w : World} (h : Poses c b l w) {put : Bool} {a : Arg} (hb : (w.res a.r).anonymous = b)
    (hq : (if put then -a.q else a.q) < 0 → (w.res a.r).anonymous = true) (hnew : a.r ∉ keys (w.comps c).requests) :
    ∃ w', enterSortedQ c (.requesters a.r) a.prio (w.modC c (fun x => { x with requests := addTo x.requests a.r (if put then -a.q else a.q) })) = .ok w' ∧ Poses c b l w' ∧ w'.res = w.res ∧ w'.now = w.now ∧ (∀ s, s ∈ keys (w'.comps c).requests ↔ s = a.r ∨ s ∈ keys (w.comps c).requests) ∧
      (w'.comps c).requests ≠ [] := by
  have st := ask_step h.live.coh c a.r (if put then -a.q else a.q) a.prio hq
  obtain ⟨q', x, k1, k2, k3, k4, k5⟩ := enterSortedQ_run (c := c) (q := .requesters a.r) (p := a.prio)
    (w := w.modC c (fun x => { x with requests := addTo x.requests a.r (if put then -a.q else a.q) })) (h.live.coh.capq a.r).1 (fun hh => hnew ((h.live.coh.rq c a.r).1 hh))
  rw [k1] at st
  refine ⟨_, k1, ?_⟩
  have n0 : a.r ∈ keys ((w.modC c (fun x => { x with requests := addTo x.requests a.r (if put then -a.q else a.q) })).comps c).requests := by
    rw [modC_self]; exact mem_keys_addTo.2 (.inl rfl)
  obtain ⟨x1, x2, x3, _⟩ := enterQ_inQ k1
  have g := good_enter (q := .requesters a.r) (h.live.good.grow (f := fun x => { x with requests := addTo x.requests a.r (if put then -a.q else a.q) }) rfl h.main (fun _ => rfl) fun q =>
    awaits_congr (fun r _ h => mem_keys_addTo.2 (.inr h)) (fun _ _ h => h) (fun _ _ h => h) (fun _ _ h => h)) n0 x1 x2 x3
  have m : ((w.modC c (fun x => { x with requests := addTo x.requests a.r (if put then -a.q else a.q) })).modQ (.requesters a.r) (fun _ => q')).main = w.main := rfl
  have o : (((w.modC c (fun x => { x with requests := addTo x.requests a.r (if put then -a.q else a.q) })).modQ (.requesters a.r) (fun _ => q')).comps c).onList = false := by
    show ((w.modC c (fun x => { x with requests := addTo x.requests a.r (if put then -a.q else a.q) })).comps c).onList = false
    rw [modC_self]; exact h.off
  have rne : (((w.modC c (fun x => { x with requests := addTo x.requests a.r (if put then -a.q else a.q) })).modQ (.requesters a.r) (fun _ => q')).comps c).requests ≠ [] := by
    intro hh
    rw [show (((w.modC c (fun x => { x with requests := addTo x.requests a.r (if put then -a.q else a.q) })).modQ (.requesters a.r) (fun _ => q')).comps c) =
      ((w.modC c (fun x => { x with requests := addTo x.requests a.r (if put then -a.q else a.q) })).comps c) from rfl] at hh
    rw [hh] at n0; simp [keys] at n0
  clear x1 x2 x3
  replace st : Ask c a.r (if put then -a.q else a.q) a.prio w.rv
    ((w.modC c (fun x => { x with requests := addTo x.requests a.r (if put then -a.q else a.q) })).modQ (.requesters a.r) (fun _ => q')).rv := st
  have hres : ((w.modC c (fun x => { x with requests := addTo x.requests a.r (if put then -a.q else a.q) })).modQ (.requesters a.r) (fun _ => q')).res = w.res := rfl
  have hnow : ((w.modC c (fun x => { x with requests := addTo x.requests a.r (if put then -a.q else a.q) })).modQ (.requesters a.r) (fun _ => q')).now = w.now := rfl
  generalize ((w.modC c (fun x => { x with requests := addTo x.requests a.r (if put then -a.q else a.q) })).modQ (.requesters a.r) (fun _ => q')) = w' at *
  have hreq : (w'.comps c).requests = addTo (w.comps c).requests a.r (if put then -a.q else a.q) := st.requests
  have hkind : ∀ p ∈ (w'.comps c).requests, (w'.res p.1).anonymous = b := by
    intro p hp
    rw [hreq] at hp
    rw [hres]
    rcases mem_addTo_fst hp with e | ⟨p', h1, h2⟩
    · rw [e]; exact hb
    · rw [← h2]; exact h.kind p' h1
  refine ⟨⟨⟨g, h.live.coh.ask st, fun d => ?_, fun d hd => ?_⟩, hkind, by rw [m]; exact h.main, o⟩, hres, hnow, fun s => ?_, rne⟩
  · by_cases hd : d = c
    · subst hd
      cases b
      · exact .inr hkind
      · exact .inl hkind
    · have : (w'.comps d).requests = (w.comps d).requests := congrArg RC.requests (st.other d hd)
      rw [this, hres]; exact h.live.mix d
  · by_cases hc : d = c
    · simp [hc]
    · rw [st.other d hc] at hd; exact h.live.ask d hd
  · rw [hreq]; exact mem_keys_addTo

theorem Poses.arg {c : CId} {b : Bool} {l : List CId} {w : World} (h : Poses c b l w) {n : Nat} {put : Bool} {a : Arg} (hb : (w.res a.r).anonymous = b)
    (hp : (w.res a.r).preemptive = false) (hq : (if put then -a.q else a.q) < 0 → (w.res a.r).anonymous = true) (hnew : a.r ∉ keys (w.comps c).requests) :
    ∃ w', requestArg c n put a w = .ok w' ∧ Poses c b l w' ∧ w'.res = w.res ∧ w'.now = w.now ∧ (∀ s, s ∈ keys (w'.comps c).requests ↔ s = a.r ∨ s ∈ keys (w.comps c).requests) ∧
      (w'.comps c).requests ≠ [] := by
  obtain ⟨w1, k1, hh⟩ := h.asked (put := put) (a := a) hb hq hnew
  refine ⟨w1, ?_, hh⟩
  unfold requestArg
  simp only
  rw [if_neg (by rw [hp]; simp), if_neg (by intro hh; rw [hq hh.1] at hh; cases hh.2), k1]
  simp only [R.andThen]
  rw [if_neg (by rw [hp]; simp)]

/-! ## bumping -/

theorem release_anonymous {w w' : World} (h : w.rv.Coh) {c : CId} {r : RId} {a : Option Rat} (he : releaseCore c r a w = .ok w') (s : RId) :
    (w'.res s).anonymous = (w.res s).anonymous := by
  rcases release_step h c r a with hs | ⟨cl, _, hs⟩
  · rw [hs] at he; cases he
  · rw [he] at hs
    replace hs : Release c r cl (RView.amount a cl) w.rv w'.rv := hs
    show (w'.rv.res s).anonymous = (w.rv.res s).anonymous
    by_cases hsr : s = r
    · subst hsr; rw [hs.res]
    · rw [hs.ores s hsr]

theorem bumps_return {c : CId} {L : List CId} {r : RId} : ∀ (ds : List CId) {w : World}, Lively {c} L w → Enr ∅ ∅ w → ds.Nodup →
    (∀ d ∈ ds, d ≠ c ∧ r ∈ keys (w.comps d).claims ∧ w.status d ≠ .data) →
    ∃ w', forR ds (fun d w => releaseCore d r none w ⊳ activate d none ((0:Rat):ETime) ((0:Rat):ETime) false false false false false) w = .ok w' ∧
      Lively {c} L w' ∧ w'.comps c = w.comps c ∧ w'.main = w.main ∧ w'.now = w.now ∧ ∀ s, (w'.res s).anonymous = (w.res s).anonymous
  | [], w, h, _, _, _ => ⟨w, rfl, h, rfl, rfl, rfl, fun _ => rfl⟩
  | d :: t, w, h, he, hn, hd => by
    obtain ⟨hdc, hdr, hds⟩ := hd d List.mem_cons_self
    obtain ⟨hdt, hnt⟩ := List.nodup_cons.1 hn
    obtain ⟨w0, h0, l0, _⟩ := h.release hdr none
    obtain ⟨_, k0⟩ := releaseCore_good h.good h0
    have e0 : Enr ∅ ∅ w0 := (bs_releaseCore (enr_base _ _) he d r none).to h0
    have s0 : w0.status d ≠ .data := by
      obtain ⟨x, hx⟩ := k0.self
      unfold World.status
      rw [hx]; exact hds
    have f1 : Fine (activate d none ((0:Rat):ETime) ((0:Rat):ETime) false false false false false w0) := by
      unfold activate
      simp only [Bool.false_or, decide_eq_true_eq]
      rw [if_neg (by simp [s0])]
      refine Fine.all ?_ fun w2 _ => reschedule_fine.2 (.inl ?_)
      · split
        · exact .ok _
        · simp only [Bool.or_self, Bool.and_false, Bool.false_eq_true, if_false]
          obtain ⟨w1, h1, r1⟩ := remove_removed l0.good.inv d
          refine Fine.andThen ⟨w1, h1, ?_⟩
          have hr1 : w1.rv = w0.rv := by
            have := rv_remove w0 d
            rw [h1] at this; exact this
          exact checkFail_fine (F := ∅) (T := ∅) (by rw [hr1]; exact l0.coh) ((bs_remove (enr_base _ _) e0 d).to h1) (by simp) (by simp)
      · show (w2.now : ETime) ≤ (w2.now : ETime) + ((0:Rat) : ETime)
        simp
    obtain ⟨w1, h1⟩ := f1
    obtain ⟨g1, m1, o1, _⟩ := activate_good l0.good h1
    obtain ⟨x1, _⟩ := activate_out l0.good (by simpa using hdc) h1
    have e1 : Enr ∅ ∅ w1 := (bs_activate (enr_base _ _) e0 _ _ _ _ _ _ _ _ _).to h1
    have t1 := (rf_activate (tidy_stable L) l0.tidy d none ((0:Rat):ETime) ((0:Rat):ETime) false false false false false).to h1
    have a1 := ((rf_activate (anon_stable w0) ⟨l0.coh, fun _ => rfl⟩ d none ((0:Rat):ETime) ((0:Rat):ETime) false false false false false).to h1).2
    have same : ∀ x, x ≠ d → w1.comps x = w.comps x := fun x hx => (o1 x hx).trans (k0.other x hx)
    obtain ⟨w2, h2, l2, c2, m2, n2, a2⟩ := bumps_return t (t1.lively g1) e1 hnt (fun x hx => by
      have hxd : x ≠ d := fun e => hdt (e ▸ hx)
      obtain ⟨y1, y2, y3⟩ := hd x (List.mem_cons_of_mem _ hx)
      refine ⟨y1, ?_, ?_⟩
      · rw [same x hxd]; exact y2
      · unfold World.status; rw [same x hxd]; exact y3)
    refine ⟨w2, ?_, l2, c2.trans (same c (Ne.symm hdc)), m2.trans (m1.trans k0.main), n2.trans (x1.now.trans k0.now), fun s =>
      (a2 s).trans ((a1 s).trans (release_anonymous h.coh h0 s))⟩
    unfold forR
    rw [h0]
    simp only [R.andThen]
    rw [h1]; exact h2

/-- the argument of a request for a preemptive resource -/
theorem Poses.preempt {c : CId} {b : Bool} {l : List CId} {w : World} (h : Poses c b l w) (he : Enr ∅ ∅ w) {r : RId} (q prio : Rat)
    (hc : c ∉ w.inQ (.claimers r)) (hd : ∀ d, d ≠ c → w.status d = .data → (w.comps d).claims = []) :
    ∃ w', Verif.preempt r q prio w = .ok w' ∧ Poses c b l w' ∧ w'.now = w.now ∧ w'.comps c = w.comps c := by
  unfold Verif.preempt
  simp only
  split
  · have hnd : ((w.queues (.claimers r)).mem.reverse.map QMem.c).Nodup := by
      rw [List.map_reverse, List.nodup_reverse]; exact h.live.coh.cnd r
    obtain ⟨w', e, l1, c1, m1, n1, a1⟩ := bumps_return (r := r) (bumpCandidates (w.res r).avail q prio (w.queues (.claimers r)).mem.reverse) h.live he (bump_nodup hnd)
      (fun d hd' => by
        obtain ⟨m, hm, hmc⟩ := bump_mem hd'
        have hin : d ∈ w.inQ (.claimers r) := List.mem_map.2 ⟨m, by simpa using hm, hmc⟩
        have hk : r ∈ keys (w.comps d).claims := (h.live.coh.cq d r).1 hin
        have hdc : d ≠ c := fun e => hc (e ▸ hin)
        refine ⟨hdc, hk, fun hs => ?_⟩
        rw [hd d hdc hs] at hk; simp [keys] at hk)
    refine ⟨w', e, ⟨l1, ?_, by rw [m1]; exact h.main, by rw [c1]; exact h.off⟩, n1, c1⟩
    rw [c1]
    intro p hp
    rw [a1]; exact h.kind p hp
  · exact ⟨w, rfl, h, rfl, rfl⟩

theorem Poses.arg_preempt {c : CId} {b : Bool} {l : List CId} {w : World} (h : Poses c b l w) (he : Enr ∅ ∅ w) {n : Nat} (hn : n ≤ 1) {put : Bool} {a : Arg}
    (hb : (w.res a.r).anonymous = b) (hp : (w.res a.r).preemptive = true) (hq : (if put then -a.q else a.q) < 0 → (w.res a.r).anonymous = true)
    (hnew : a.r ∉ keys (w.comps c).requests) (hc : c ∉ w.inQ (.claimers a.r)) (hd : ∀ d, d ≠ c → w.status d = .data → (w.comps d).claims = []) :
    ∃ w', requestArg c n put a w = .ok w' ∧ Poses c b l w' ∧ w'.now = w.now ∧ (w'.comps c).requests ≠ [] := by
  have key := h.asked (put := put) (a := a) hb hq hnew
  obtain ⟨w1, e1, p1, r1, n1, k1, ne1⟩ := key
  obtain ⟨x1, _, _, _⟩ := enterQ_inQ e1
  have e1' : Enr ∅ ∅ w1 := by
    rw [x1]; exact (he.modC c).modQ _ (by simp) (by simp)
  obtain ⟨w2, e2, p2, n2, c2⟩ := p1.preempt e1' (r := a.r) (if put then -a.q else a.q) a.prio (by
    have : w1.inQ (.claimers a.r) = w.inQ (.claimers a.r) := by rw [x1]; simp [World.inQ, World.modQ, World.modC]
    rw [this]; exact hc) (fun d hdc hs => by
    have : w1.comps d = w.comps d := by
      rw [x1]
      exact modC_other hdc (fun x => { x with requests := addTo x.requests a.r (if put then -a.q else a.q) }) w
    rw [this]
    unfold World.status at hs
    rw [this] at hs
    exact hd d hdc hs)
  refine ⟨w2, ?_, p2, n2.trans n1, by rw [c2]; exact ne1⟩
  unfold requestArg
  simp only
  rw [if_neg (by omega), if_neg (by intro hh; rw [hq hh.1] at hh; cases hh.2), e1]
  simp only [R.andThen]
  rw [if_pos hp]
  exact e2

theorem Poses.args {c : CId} {b : Bool} {l : List CId} {n : Nat} {put : Bool} : ∀ (args : List Arg) {w : World}, Poses c b l w →
    (∀ a ∈ args, (w.res a.r).anonymous = b ∧ (w.res a.r).preemptive = false ∧ ((if put then -a.q else a.q) < 0 → (w.res a.r).anonymous = true) ∧
      a.r ∉ keys (w.comps c).requests) → (args.map Arg.r).Nodup → ∃ w', forR args (requestArg c n put) w = .ok w' ∧ Poses c b l w' ∧ w'.now = w.now ∧
      (args ≠ [] ∨ (w.comps c).requests ≠ [] → (w'.comps c).requests ≠ [])
  | [], w, h, _, _ => ⟨w, rfl, h, rfl, fun h => h.resolve_left (by simp)⟩
  | a :: t, w, h, ha, hn => by
    obtain ⟨h1, h2, h3, h4⟩ := ha a List.mem_cons_self
    obtain ⟨w1, e1, p1, r1, n1, k1, ne1⟩ := h.arg (n := n) h1 h2 h3 h4
    simp only [List.map_cons, List.nodup_cons] at hn
    obtain ⟨w2, e2, p2, n2, ne2⟩ := Poses.args (n := n) (put := put) t p1 (fun x hx => by
      obtain ⟨h1, h2, h3, h4⟩ := ha x (List.mem_cons_of_mem _ hx)
      rw [r1]
      refine ⟨h1, h2, h3, fun hk => ?_⟩
      rcases (k1 _).1 hk with e | e
      · exact hn.1 (List.mem_map.2 ⟨x, hx, e⟩)
      · exact h4 e) hn.2
    exact ⟨w2, by unfold forR; rw [e1]; exact e2, p2, n2.trans n1, fun _ => ne2 (.inr ne1)⟩

theorem lowerMinq_lively {e : Set CId} {l : List CId} (rq : List (RId × Rat)) {w : World} (h : Lively e l w) : Lively e l (lowerMinq rq w) := by
  unfold lowerMinq
  induction rq generalizing w with
  | nil => exact h
  | cons p t ih => exact ih (h.modR p.1 (by intro _; rfl))

/-! ## claim -/

/-- C66: if every request is made by the current component and is for resources of one kind, nobody ever waits for resources of both kinds -/
theorem C66_unmixed {w : World} (h : Reach (fun fuel w o => Calm fuel w o ∧ Unmixed w o) w) : NoMix w := by
  induction h with
  | init hf =>
    intro c
    obtain ⟨b, hb⟩ := hf.comps c
    left
    rw [hb]
    intro p hp
    cases hp
  | @op w fuel o h ho ih =>
    have hr : Reach Calm w := Reach.mono (fun _ _ _ h => h.1) h
    obtain ⟨κ, hk⟩ := noMix_kinds ih
    by_cases hq : ∃ c args oneof put fa fd p u k, o = .request c args oneof put fa fd p u k
    · obtain ⟨c, args, oneof, put, fa, fd, p, u, k, rfl⟩ := hq
      obtain ⟨hs, b, hb⟩ := ho.2
      have hn : (w.comps c).requests = [] := (hr.good.idle c (by simp) (.inr (.inl hs))).1
      have hk' : Kinds (fun r => (w.res r).anonymous) (fun d => if d = c then b else κ d) w.rv := by
        refine ⟨fun _ => rfl, fun d p hp => ?_⟩
        by_cases hd : d = c
        · subst hd
          replace hp : p ∈ (w.comps d).requests := hp
          rw [hn] at hp; cases hp
        · simp only [hd, if_false]; exact hk.2 d p hp
      have hl : (kindLic (fun r => (w.res r).anonymous) (fun d => if d = c then b else κ d) c).ok w (.request c args oneof put fa fd p u k) := by
        refine ⟨rfl, fun a ha => ?_⟩
        show (w.res a.r).anonymous = if c = c then b else κ c
        rw [if_pos rfl]; exact hb a ha
      exact kinds_noMix (kinds_path hk' (exec_refines hr.coh fuel _ hl).2)
    · refine kinds_noMix (kinds_path hk (exec_refines (L := kindLic _ _ 0) hr.coh fuel o ?_).2)
      cases o <;> first
        | exact absurd ⟨_, _, _, _, _, _, _, _, _, rfl⟩ hq
        | simp [Lic.ok, kindLic]


/-- C66: set_capacity of a resource returns -/
theorem C66_set_capacity {w : World} (h : Reach Calm w) (hm : NoMix w) (r : RId) (cap : ETime) :
    ReturnsAlways (fun fuel => exec fuel (.resSetCapacity r cap) w) := by
  obtain ⟨l, hl⟩ := Lively.of_reach h hm
  obtain ⟨w', he, _⟩ := (grants ∅ l).2.2.1 r _ (hl.modR r (f := fun x => { x with cap := cap, log := x.log.caps w.now cap x.claimed }) (by intro _; rfl))
  exact ⟨w', he⟩

/-- C66: release of an anonymous resource returns -/
theorem C66_release_anonymous {w : World} (h : Reach Calm w) (hm : NoMix w) {r : RId} (ha : (w.res r).anonymous = true) (q : Option Rat) :
    ReturnsAlways (fun fuel => exec fuel (.resRelease r q) w) := by
  obtain ⟨l, hl⟩ := Lively.of_reach h hm
  obtain ⟨w', ⟨f, he⟩, _⟩ := (grants ∅ l).2.2.1 r _ (hl.modR r (f := fun x => { x with claimed :=
    if (w.res r).claimed - (match q with | none => (w.res r).claimed | some q => q) < eps then 0
    else (w.res r).claimed - (match q with | none => (w.res r).claimed | some q => q), log := x.log.claims w.now x.cap (if (w.res r).claimed - (match q with | none => (w.res r).claimed | some q => q) < eps then 0
    else (w.res r).claimed - (match q with | none => (w.res r).claimed | some q => q)) }) (by intro _; rfl))
  refine ⟨w', f, fun k hk => ?_⟩
  show resRelease k r q w = _
  unfold resRelease
  rw [if_pos ha]
  exact he k hk

/-- C66: release of another resource (by all its claimers) returns if no quantity is given -/
theorem C66_release_resource {w : World} (h : Reach Calm w) (hm : NoMix w) {r : RId} (ha : (w.res r).anonymous = false) :
    ReturnsAlways (fun fuel => exec fuel (.resRelease r none) w) := by
  obtain ⟨l, hl⟩ := Lively.of_reach h hm
  obtain ⟨w', f, he⟩ := resReleaseLoop_returns (r := r) _ [] (w.queues (.claimers r)).mem w hl rfl le_rfl
  refine ⟨w', f, fun k hk => ?_⟩
  show resRelease k r none w = _
  unfold resRelease
  rw [if_neg (by simp [ha])]
  exact he k hk

/-- C66: release of claimed resources, each given once, returns -/
theorem C66_release {w : World} (h : Reach Calm w) (hm : NoMix w) (c : CId) {args : List (RId × Option Rat)} (hn : (keys' args).Nodup)
    (hc : ∀ a ∈ args, a.1 ∈ keys (w.comps c).claims) : ReturnsAlways (fun fuel => exec fuel (.release c args) w) := by
  obtain ⟨l, hl⟩ := Lively.of_reach h hm
  obtain ⟨w', he, _⟩ := releases_return (c := c) (rs := Prod.fst) (qs := Prod.snd)
    (g := fun k (a : RId × Option Rat) (w : World) => if (w.res a.1).anonymous then R.err .value w else release1 k c a.1 a.2 w)
    (fun k a w ha => by simp only [ha, Bool.false_eq_true, if_false]) args w hl hn hc
  exact ⟨w', he⟩

/-- C66: so does release of everything that is claimed -/
theorem C66_release_all {w : World} (h : Reach Calm w) (hm : NoMix w) (c : CId) : ReturnsAlways (fun fuel => exec fuel (.releaseAll c) w) := by
  obtain ⟨l, hl⟩ := Lively.of_reach h hm
  obtain ⟨w', he, _⟩ := releaseAll_returns c hl
  exact ⟨w', he⟩

/-- C66: cancel returns -/
theorem C66_cancel {w : World} (h : Reach Calm w) (hm : NoMix w) (c : CId) : ReturnsAlways (fun fuel => exec fuel (.cancel c) w) := by
  obtain ⟨l, hl⟩ := Lively.of_reach h hm
  by_cases hd : w.status c = .data
  · exact ⟨w, 0, fun k _ => by show cancel k c w = _; unfold cancel; rw [if_pos hd]⟩
  have key : ∃ w1, (if w.status c = .current then R.ok w else checkNotData c w ⊳ remove c ⊳ checkFail c) = .ok w1 ∧ ∃ e, Lively e l w1 := by
    by_cases hs : w.status c = .current
    · exact ⟨w, by rw [if_pos hs], ∅, hl⟩
    · obtain ⟨w1, h1⟩ := notData_fine h.ready hd
      exact ⟨w1, by rw [if_neg hs]; exact h1, _, ((rf_removeFail (tidy_stable l) hl.tidy c).to h1).lively (start_notData hl.good h1).1.good⟩
  obtain ⟨w1, h1, e, l1⟩ := key
  obtain ⟨w2, ⟨f, he⟩, _⟩ := releaseAll_returns c l1
  refine ⟨w2.modC c (fun x => { x with schedTime := ⊤, status := .data }), f, fun k hk => ?_⟩
  show cancel k c w = _
  unfold cancel
  rw [if_neg hd, h1]
  show (releaseAll k c w1 ⊳ _) = _
  have : releaseAll k c w1 = .ok w2 := he k hk
  rw [this]; rfl

/-- C66: so does the end of the process of the current component -/
theorem C66_end {w : World} (h : Reach Calm w) (hm : NoMix w) : ReturnsAlways (fun fuel => exec fuel .terminate w) := by
  obtain ⟨l, hl⟩ := Lively.of_reach h hm
  obtain ⟨w1, ⟨f, he⟩, _⟩ := releaseAll_returns w.current hl
  refine ⟨w1.modC w.current (fun x => { x with fromItem := none, toItem := none, status := .data, schedTime := ⊤ }), f, fun k hk => ?_⟩
  show terminate k w.current w = _
  unfold terminate
  have : releaseAll k w.current w = .ok w1 := he k hk
  rw [this]; rfl

/-- C66: a request for different resources, either all anonymous or none of them, returns (a preemptive resource has to be the only one and must not already be
claimed by the component), unless a quantity is negative (for put: positive) and the
resource isn't anonymous, fail_at and fail_delay are both given or the moment of failure is in the past -/
theorem C66_request {w : World} (h : Reach Calm w) (hm : NoMix w) {c : CId} (hc : CanWait w c) (hmain : c ≠ w.main) {args : List Arg} (hne : args ≠ [])
    (hnd : (args.map Arg.r).Nodup) {b : Bool} {put : Bool} (hb : ∀ a ∈ args, (w.res a.r).anonymous = b)
    (hp : ∀ a ∈ args, (w.res a.r).preemptive = true → args = [a] ∧ c ∉ w.inQ (.claimers a.r))
    (hq : b = false → ∀ a ∈ args, 0 ≤ if put then -a.q else a.q) (oneof : Bool) {failAt failDelay : Option ETime} (prio : ETime) (urgent : Bool) {cap : Bool}
    (ht : InTime w (limitTime w failAt failDelay) cap) :
    ReturnsAlways (fun fuel => exec fuel (.request c args oneof put failAt failDelay prio urgent cap) w) := by
  obtain ⟨T, hT, ht⟩ := ht
  obtain ⟨l, hl⟩ := Lively.of_reach h hm
  have t0 : Tidy l (w.modC c (fun x => { x with oneof := oneof })) := by
    refine ⟨?_, fun d => ?_, fun d hd => hl.ask d fun he => hd ?_⟩
    · refine RView.Coh.step (L := anyLic) h.coh (.oneof c oneof trivial ?_)
      simp only [World.rv, World.modC]
      congr 1
      funext d
      split
      · rename_i hd; simp [hd, Comp.rc]
      · rename_i hd; simp [hd, Comp.rc]
    · by_cases hd : d = c
      · subst hd; rw [modC_self]; exact hm d
      · rw [modC_other hd]; exact hm d
    · show ((w.modC c (fun x => { x with oneof := oneof })).comps d).requests = []
      have he : (w.comps d).requests = [] := he
      by_cases hd : d = c
      · subst hd; rw [modC_self]; exact he
      · rw [modC_other hd]; exact he
  have r0 : Ready (w.modC c (fun x => { x with oneof := oneof })) :=
    ⟨h.good.modC' (fun _ => rfl) (fun _ => rfl) (fun _ => rfl) (fun _ => rfl) (fun _ => rfl), t0.1, h.enr.modC c, h.wide⟩
  have hc0 : CanWait (w.modC c (fun x => { x with oneof := oneof })) c := by
    unfold CanWait World.status
    rw [modC_self]; exact hc
  obtain ⟨w1, h1⟩ := preamble_fine r0 hc0
  have s1 := (start_preamble r0.good (by simp) h1).1
  have t1 : Tidy l w1 := (rf_preamble (tidy_stable l) t0 c).to h1
  have an1 : ∀ r, (w1.res r).anonymous = (w.res r).anonymous :=
    ((rf_preamble (anon_stable (w.modC c (fun x => { x with oneof := oneof }))) ⟨t0.1, fun _ => rfl⟩ c).to h1).2
  have pr1 : ∀ r, (w1.res r).preemptive = (w.res r).preemptive := by
    have := sc_preamble c (w.modC c (fun x => { x with oneof := oneof }))
    rw [h1] at this
    exact this.1
  have hT1 : failTime w1 failAt failDelay = some T := by
    rw [failTime_limit, ← hT]
    have a1 : w1.now = w.now := s1.now
    have a2 : w1.offset = w.offset := s1.offset
    cases failAt <;> cases failDelay <;> simp [limitTime, a1, a2]
  have r1 : (w1.comps c).requests = [] := s1.nowait.1
  have p2 : Poses c b l (w1.modC c (fun x => { x with failed := false })) := by
    have g2 : Good {c} (w1.modC c (fun x => { x with failed := false })) := by
      have := s1.good.modC' (c := c) (f := fun x => { x with failed := false }) (fun _ => rfl) (fun _ => rfl) (fun _ => rfl) (fun _ => rfl) (fun _ => rfl)
      simpa using this
    refine ⟨((tidy_rv t1 (rv_modC _ _ (by intro _; rfl))).lively g2).mono (by simp +contextual), ?_, ?_, ?_⟩
    · rw [modC_self]; rw [show ({ w1.comps c with failed := false } : Comp).requests = [] from r1]; simp
    · show c ≠ w1.main
      rw [s1.main]; exact hmain
    · rw [modC_self]; exact s1.off
  have new2 : ∀ r, r ∉ keys ((w1.modC c (fun x => { x with failed := false })).comps c).requests := by
    intro r
    rw [modC_self]; rw [show ({ w1.comps c with failed := false } : Comp).requests = [] from r1]; simp [keys]
  have pos2 : ∀ a ∈ args, (if put then -a.q else a.q) < 0 → (w1.res a.r).anonymous = true := fun a ha hneg => by
    refine (an1 a.r).trans ((hb a ha).trans ?_)
    cases b with
    | true => rfl
    | false => exact absurd (hq rfl a ha) (not_le.2 hneg)
  have all3 : ∃ w3, forR args (requestArg c args.length put) (w1.modC c (fun x => { x with failed := false })) = .ok w3 ∧ Poses c b l w3 ∧
      w3.now = w1.now ∧ (w3.comps c).requests ≠ [] := by
    by_cases hpre : ∃ a ∈ args, (w.res a.r).preemptive = true
    · obtain ⟨a, ha, hap⟩ := hpre
      obtain ⟨e, hcl⟩ := hp a ha hap
      have e1 : Enr ∅ ∅ w1 := (bs_preamble (enr_base _ _) r0.enr c).to h1
      obtain ⟨w3, h3, p3, n3, ne3⟩ := p2.arg_preempt (n := args.length) (put := put) (a := a) (e1.modC c) (by rw [e]; simp) ((an1 a.r).trans (hb a ha)) ((pr1 a.r).trans hap)
        (pos2 a ha) (new2 _) (fun hh => by
          have hk : a.r ∈ keys (w1.comps c).claims := (t1.1.cq c a.r).1 hh
          rw [s1.claims, modC_self] at hk
          exact hcl ((h.coh.cq c a.r).2 hk)) (fun d hd hs => by
          have : (w1.modC c (fun x => { x with failed := false })).comps d = w.comps d := by
            rw [modC_other hd, s1.other d hd, modC_other hd]
          rw [this]
          unfold World.status at hs
          rw [this] at hs
          exact h.data_claims d hs)
      refine ⟨w3, ?_, p3, n3, ne3⟩
      conv_lhs => rw [show (forR args) = forR [a] by rw [e]]
      unfold forR
      rw [h3]; rfl
    · obtain ⟨w3, h3, p3, n3, ne3⟩ := Poses.args (n := args.length) (put := put) args p2 (fun a ha =>
        ⟨(an1 a.r).trans (hb a ha), (pr1 a.r).trans (by
          cases hh : (w.res a.r).preemptive
          · rfl
          · exact absurd ⟨a, ha, hh⟩ hpre), pos2 a ha, new2 _⟩) hnd
      exact ⟨w3, h3, p3, n3, ne3 (.inl hne)⟩
  obtain ⟨w3, h3, p3, n3, ne3⟩ := all3
  have hne' : args.isEmpty = false := by
    cases args with
    | nil => exact absurd rfl hne
    | cons a t => rfl
  have l4 := lowerMinq_lively (w3.comps c).requests p3.live
  obtain ⟨_, c4, _⟩ := lowerMinq_good p3.live.good (w3.comps c).requests
  have n4 : (lowerMinq (w3.comps c).requests w3).now = w.now := (lowerMinq_out _ _).trans (n3.trans s1.now)
  have unf : ∀ k, request k c args oneof put failAt failDelay prio urgent cap w = (tryReqC k c ((lowerMinq (w3.comps c).requests w3).modC c (fun x =>
      { x with remaining := T.subQ (lowerMinq (w3.comps c).requests w3).now })) ⊳ fun w =>
      if (w.comps c).requests = [] then .ok w else reschedule c T prio urgent cap none (setStatus c .requesting w)) := by
    intro k
    unfold request
    rw [h1]
    simp only [R.andThen, hT1, hne', h3, Bool.false_eq_true, if_false]
  have o4 : ((lowerMinq (w3.comps c).requests w3).comps c).onList = false := by rw [c4]; exact p3.off
  have q4 : ((lowerMinq (w3.comps c).requests w3).comps c).requests ≠ [] := by rw [c4]; exact ne3
  generalize lowerMinq (w3.comps c).requests w3 = w4 at l4 n4 unf o4 q4
  have l5 : Lively {c} (c :: l) (w4.modC c (fun x => { x with remaining := T.subQ w4.now })) :=
    (tidy_rv l4.tidy (rv_modC _ _ (by intro _; rfl))).lively (l4.good.set (fun _ _ => Iff.rfl) o4 (by simp) (by simp) (by simp) (by simp) (by simp) (by simp) (by simp))
  have q5 : ((w4.modC c (fun x => { x with remaining := T.subQ w4.now })).comps c).requests ≠ [] := by rw [modC_self]; exact q4
  have n5 : (w4.modC c (fun x => { x with remaining := T.subQ w4.now })).now = w.now := n4
  generalize w4.modC c (fun x => { x with remaining := T.subQ w4.now }) = w5 at l5 unf q5 n5
  cases hh : honorNow c w5 with
  | none =>
    have hf : Fine (reschedule c T prio urgent cap none (setStatus c .requesting w5)) := by
      rw [reschedule_fine]
      show (w5.now : ETime) ≤ T ∨ _
      rw [n5]; exact ht
    obtain ⟨w', hf⟩ := hf
    refine ⟨w', 1, fun k hk => ?_⟩
    obtain ⟨j, rfl⟩ : ∃ j, k = j + 1 := ⟨k - 1, by omega⟩
    show request (j + 1) c args oneof put failAt failDelay prio urgent cap w = _
    rw [unf, tryReqC, hh]
    simp only [R.andThen]
    rw [if_neg q5]; exact hf
  | some res =>
    obtain ⟨w6, ⟨f, he⟩, l6⟩ := (grants {c} (c :: l)).1 c w5 res l5 hh
    refine ⟨w6, f, fun k hk => ?_⟩
    show request k c args oneof put failAt failDelay prio urgent cap w = _
    have e6 : tryReqC k c w5 = .ok w6 := he k hk
    have q6 : (w6.comps c).requests = [] := by
      by_contra hq6
      have := l6.ask c hq6
      simp at this
    rw [unf, e6]
    simp only [R.andThen]
    rw [if_pos q6]

/-! ## examples -/

/-- the calls are unmixed, and as in the hypothesis of `reach_calm` -/
def unmixedb (w : World) : Op → Bool
  | .request c args _ _ _ _ _ _ _ => decide (w.status c = .current) && (args.all (fun a => (w.res a.r).anonymous) || args.all (fun a => !(w.res a.r).anonymous))
  | _ => true

theorem unmixedb_unmixed {w : World} {o : Op} (h : unmixedb w o = true) : Unmixed w o := by
  cases o <;> first
    | trivial
    | (simp only [unmixedb, Bool.and_eq_true, Bool.or_eq_true, decide_eq_true_eq, List.all_eq_true, Bool.not_eq_true'] at h
       obtain ⟨h1, h2 | h2⟩ := h
       · exact ⟨h1, true, h2⟩
       · exact ⟨h1, false, h2⟩)

/-- all calls are unmixed -/
def allUnmixed (fuel : Nat) : List Op → World → Bool
  | [], _ => true
  | o :: os, w => unmixedb w o && allUnmixed fuel os (exec fuel o w).world

theorem reach_unmixed (fuel : Nat) : ∀ (ops : List Op) {w : World}, Reach (fun fuel w o => Calm fuel w o ∧ Unmixed w o) w → calmAll fuel ops w = true →
    allUnmixed fuel ops w = true → Reach (fun fuel w o => Calm fuel w o ∧ Unmixed w o) (execAll fuel ops w)
  | [], w, h, _, _ => h
  | o :: os, w, h, h1, h2 => by
    simp only [calmAll, allUnmixed, Bool.and_eq_true] at h1 h2
    exact reach_unmixed fuel os (.op fuel o h ⟨calmb_calm h1.1, unmixedb_unmixed h2.1⟩) h1.2 h2.2

/-- component 1 has claimed all of resource 1 and component 2 all of resource 2, which is anonymous; components 3 and 4 wait for resource 1, component 5 for
resource 2; component 6 is current -/
def stallW : World := execAll 20 stallOps shop
where stallOps : List Op := born 1 ++ [ask 1 1 5, .step, .passivate 1] ++ born 2 ++ [ask 2 2 6, .step, .passivate 2] ++ born 3 ++ [ask 3 1 2] ++ born 4 ++ [ask 4 1 3] ++ born 5 ++ [ask 5 2 4] ++ born 6

theorem stallW_reach : Reach (fun fuel w o => Calm fuel w o ∧ Unmixed w o) stallW := reach_unmixed 20 _ (.init fresh_shop) (by decide +kernel) (by decide +kernel)
theorem stallW_calm : Reach Calm stallW := Reach.mono (fun _ _ _ h => h.1) stallW_reach

/-- the hypotheses of the claims: three components are waiting, and what is released goes to two of them -/
example : stallW.inQ (.requesters 1) = [3, 4] ∧ stallW.inQ (.requesters 2) = [5] ∧
    ((exec 20 (.release 1 [(1, none)]) stallW).world.inQ (.claimers 1) = [3, 4] ∧ (exec 20 (.resRelease 2 (some 4)) stallW).world.inQ (.requesters 2) = []) := by
  decide +kernel
example : ReturnsAlways (fun fuel => exec fuel (.release 1 [(1, some 3)]) stallW) :=
  C66_release stallW_calm (C66_unmixed stallW_reach) 1 (by simp [keys']) (by decide +kernel)
example : ReturnsAlways (fun fuel => exec fuel (.resRelease 1 none) stallW) := C66_release_resource stallW_calm (C66_unmixed stallW_reach) (by decide +kernel)
example : ReturnsAlways (fun fuel => exec fuel (.resRelease 2 (some 5)) stallW) := C66_release_anonymous stallW_calm (C66_unmixed stallW_reach) (by decide +kernel) _
example : ReturnsAlways (fun fuel => exec fuel (.resSetCapacity 1 (8 : Rat)) stallW) := C66_set_capacity stallW_calm (C66_unmixed stallW_reach) _ _
example : ReturnsAlways (fun fuel => exec fuel (.cancel 1) stallW) ∧ ReturnsAlways (fun fuel => exec fuel (.releaseAll 1) stallW) ∧
    ReturnsAlways (fun fuel => exec fuel .terminate stallW) :=
  ⟨C66_cancel stallW_calm (C66_unmixed stallW_reach) _, C66_release_all stallW_calm (C66_unmixed stallW_reach) _, C66_end stallW_calm (C66_unmixed stallW_reach)⟩
example : ReturnsAlways (fun fuel => exec fuel (.request 6 [⟨2, -4, 0⟩] false false none none (0 : Rat) false false) stallW) :=
  C66_request stallW_calm (C66_unmixed stallW_reach) (.inl (by decide +kernel)) (by decide +kernel) (by simp) (by simp) (b := true) (by decide +kernel)
    (by intro a ha hh; rw [List.mem_singleton.1 ha] at hh; exact absurd hh (by decide +kernel))
    (by simp) _ _ _ ⟨_, rfl, .inl le_top⟩

/-- components 1 and 2 claim from the preemptive resource 1 and do something, component 3 is current -/
def bedsOps : List Op :=
  born 1 ++ [urge 1 1 1, .step, .hold 1 (some (10 : Rat)) none (0 : Rat) false false 0] ++ born 2 ++
    [urge 2 1 3, .step, .hold 2 (some (10 : Rat)) none (0 : Rat) false false 0] ++ born 3
def bedsW : World := execAll 20 bedsOps ward

/-- a request that takes the claim of component 2 -/
example : ReturnsAlways (fun fuel => exec fuel (urge 3 1 2) (bedsW)) ∧
    (bedsW).inQ (.claimers 1) = [1, 2] ∧ (exec 20 (urge 3 1 2) (bedsW)).world.inQ (.claimers 1) = [1, 3] := by
  have hr : Reach (fun fuel w o => Calm fuel w o ∧ Unmixed w o) (bedsW) := reach_unmixed 20 _ (.init fresh_ward) (by decide +kernel) (by decide +kernel)
  refine ⟨C66_request (Reach.mono (fun _ _ _ h => h.1) hr) (C66_unmixed hr) (.inl (by decide +kernel)) (by decide +kernel) (by simp) (by simp) (b := false) (by decide +kernel)
    (fun a ha _ => ?_) (fun _ => by decide +kernel) _ _ _ ⟨_, rfl, .inl le_top⟩, by decide +kernel, by decide +kernel⟩
  rw [List.mem_singleton.1 ha]
  exact ⟨rfl, by decide +kernel⟩

/-! ## counterexample -/

/-- component 1 has claimed all of resource 1, and nothing is left in resource 2, which is anonymous. Component 3 wants 1 of resource 1 and to put 5 in
resource 2, component 4 wants 1 of resource 1 and 3 of resource 2, component 5 wants 1 of resource 1 and 9 of resource 2. -/
def mixW : World := execAll 20 mixOps shop
where mixOps : List Op := born 1 ++ [ask 1 1 5, .step, .passivate 1] ++ born 2 ++ [ask 2 2 6, .step, .passivate 2] ++
  born 3 ++ [.request 3 [⟨1, 1, 0⟩, ⟨2, -5, 0⟩] false false none none (0 : Rat) false false] ++
  born 4 ++ [.request 4 [⟨1, 1, 0⟩, ⟨2, 3, 0⟩] false false none none (0 : Rat) false false] ++
  born 5 ++ [.request 5 [⟨1, 1, 0⟩, ⟨2, 9, 0⟩] false false none none (0 : Rat) false false] ++ born 6

theorem mixW_reach : Reach Calm mixW := reach_calm _ (.init fresh_shop) _ (by decide +kernel)

/-- Some components wait for both anonymous and other resources. When component 1 releases what it has claimed, component 3 gets what it asked for, and what it puts in
resource 2 makes that component 4 gets what it asked for. Component 4 thus has left the line of resource 1, but is still next for the loop over that line, that raises an
AttributeError. -/
theorem C66_release_counterexample : Reach Calm mixW ∧ 1 ∈ keys (mixW.comps 1).claims ∧ mixW.inQ (.requesters 1) = [3, 4, 5] ∧
    (∃ w', exec 20 (.release 1 [(1, none)]) mixW = .err .attribute w') ∧
    (exec 20 (.release 1 [(1, none)]) mixW).world.status 4 = .scheduled := by
  refine ⟨mixW_reach, by decide +kernel, by decide +kernel, ?_, by decide +kernel⟩
  have h : (match exec 20 (.release 1 [(1, none)]) mixW with | .err .attribute _ => true | _ => false) = true := by decide +kernel
  split at h
  · rename_i w' he; exact ⟨w', he⟩
  · cases h

end Verif
