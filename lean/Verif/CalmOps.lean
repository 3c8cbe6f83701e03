import Verif.CalmTry

/-!
# Histories without exceptions: every call that returns keeps the state consistent
-/

namespace Verif
open World

theorem not_single {c : CId} : ∀ d, d ≠ c → (d ∈ (∅ : Set CId) ↔ d ∈ ({c} : Set CId)) := fun d hd => by simp [hd]

theorem not_insert {e : Set CId} {c : CId} : ∀ d, d ≠ c → (d ∈ e ↔ d ∈ insert c e) := fun d hd => by simp [hd]

/-- the change of the component is complete -/
theorem Good.close {e : Set CId} {w : World} {c : CId} (hg : Good (insert c e) w) (hi : (w.status c).idle → NoWait (w.comps c))
    (ht : (w.status c).timed → (w.comps c).schedTime ≠ ⊤ → (w.comps c).onList = true)
    (hd : w.status c = .data → (w.comps c).onList = false) (hs : w.status c ≠ .standby) : Good e w :=
  hg.settle (c := c) not_insert (hg.sb.put (c := c) not_insert rfl (fun _ _ => rfl) (fun h => h) rfl (hg.sb.notin (.inr hs)) (.inl hs)) hg.inv rfl rfl (fun _ _ => rfl) rfl rfl rfl rfl (fun _ => hi) (fun _ => ht) (fun _ => hd)

/-- setting attributes of a component without event -/
theorem Good.set {e e' : Set CId} {w : World} {c : CId} {f : Comp → Comp} (hg : Good e w) (he : ∀ d, d ≠ c → (d ∈ e' ↔ d ∈ e))
    (hoff : (w.comps c).onList = false) (hon : ∀ x, (f x).onList = x.onList) (h1 : ∀ x, (f x).requests = x.requests)
    (h2 : ∀ x, (f x).waits = x.waits) (h3 : ∀ x, (f x).fromStores = x.fromStores) (h4 : ∀ x, (f x).toStores = x.toStores)
    (hi : c ∉ e' → (f (w.comps c)).status.idle → NoWait (w.comps c)) (ht : c ∉ e' → ¬ (f (w.comps c)).status.timed)
    (hst : ((∀ x, (f x).status = x.status) ∧ (c ∈ e' ↔ c ∈ e)) ∨ (c ∈ e ∧ (f (w.comps c)).status ≠ .standby) := by
      first
      | exact .inl ⟨fun _ => rfl, Iff.rfl⟩
      | exact .inr ⟨Set.mem_insert _ _, by simp⟩)
    (hsk : (f (w.comps c)).skipStandby = false → (w.comps c).skipStandby = false := by intro h; exact h) : Good e' (w.modC c f) := by
  have hoth : ∀ d, d ≠ c → (w.modC c f).comps d = w.comps d := fun d hd => modC_other hd _ _
  have hsk' : (∀ d, ((w.modC c f).comps d).skipStandby = false) → ∀ d, (w.comps d).skipStandby = false := by
    intro h d
    have := h d
    by_cases hd : d = c
    · subst hd; rw [modC_self] at this; exact hsk this
    · rwa [hoth d hd] at this
  have hsb : SB e' (w.modC c f) := by
    rcases hst with ⟨h1, h2⟩ | ⟨h1, h2⟩
    · have hs : (w.modC c f).status c = w.status c := by simp only [World.status, modC_self, h1]
      refine hg.sb.one he rfl hoth hsk' hg.sb.nd (fun _ _ => Iff.rfl) (fun h => ?_) (fun hk h h' => ?_) (fun h => ?_)
      · rw [hs, h2]; exact hg.sb.mem c h
      · rw [hs] at h'; rw [h2] at h
        exact hg.sb.all (hsk' hk) c h h'
      · rw [hs, h]; exact hg.sb.main
    · refine hg.sb.put he rfl hoth hsk' rfl (hg.sb.notin (.inl h1)) (.inl ?_)
      simp only [World.status, modC_self]; exact h2
  refine hg.settle he hsb (modC_inv_off hg.inv hoff hon) rfl rfl (fun d hd => modC_other hd _ _) (by rw [modC_self, h1])
    (by rw [modC_self, h2]) (by rw [modC_self, h3]) (by rw [modC_self, h4]) ?_ ?_ ?_
  · intro hc; simp only [World.status, modC_self]; exact hi hc
  · intro hc; simp only [World.status, modC_self]; exact fun h => absurd h (ht hc)
  · intro _ _; rw [modC_self, hon]; exact hoff

/-- a component that is exempted starts to wait for more -/
theorem Good.grow {e : Set CId} {w : World} {c : CId} {f : Comp → Comp} (hg : Good e w) (hc : c ∈ e) (hm : c ≠ w.main)
    (hcv : ∀ x, (f x).cv = x.cv) (hq : ∀ q, awaits (w.comps c) q → awaits (f (w.comps c)) q) : Good e (w.modC c f) := by
  have hne : ∀ d, d ∉ e → d ≠ c := fun d hd hdc => hd (hdc ▸ hc)
  refine ⟨inv_of_ev (ev_modC hcv) hg.inv, hg.nd, ?_, ?_, ?_, ?_, ?_, hg.sb.of_ev (ev_modC hcv)⟩
  · intro d hd hs; simp only [World.status, modC_other (hne d hd)] at hs ⊢; exact hg.idle d hd hs
  · intro d hd hs; simp only [World.status, modC_other (hne d hd)] at hs ⊢; exact hg.timed d hd hs
  · intro d hd hs; simp only [World.status, modC_other (hne d hd)] at hs ⊢; exact hg.dat d hd hs
  · intro q d hd
    by_cases hdc : d = c
    · subst hdc; rw [modC_self]; exact hq q (hg.coh q d hd)
    · rw [modC_other hdc]; exact hg.coh q d hd
  · show NoWait ((w.modC c f).comps w.main)
    rw [modC_other (Ne.symm hm)]; exact hg.main

/-- changes of the world that have nothing to do with all this -/
theorem Good.congr {e : Set CId} {w w' : World} (hg : Good e w) (h1 : w'.now = w.now) (h2 : w'.seq = w.seq) (h3 : w'.events = w.events)
    (h4 : w'.comps = w.comps) (h5 : w'.queues = w.queues) (h6 : w'.main = w.main)
    (h7 : w'.pending = w.pending) (h8 : w'.standby = w.standby) : Good e w' := by
  have hin : ∀ q, w'.inQ q = w.inQ q := fun q => by simp [World.inQ, h5]
  refine ⟨inv_congr hg.inv h1 h2 h3 h4, fun q => by rw [hin]; exact hg.nd q, ?_, ?_, ?_, ?_, ?_,
    hg.sb.congr (by simp only [World.lined, h7, h8]) h6 (fun d => by rw [h4])⟩
  · simp only [World.status, h4]; exact hg.idle
  · simp only [World.status, h4]; exact hg.timed
  · simp only [World.status, h4]; exact hg.dat
  · intro q c hc; rw [hin] at hc; rw [h4]; exact hg.coh q c hc
  · rw [h4, h6]; exact hg.main

/-! ## the start of a call -/

/-- what a call has done to its component before it comes to its own work -/
structure Start (e : Set CId) (c : CId) (w w' : World) : Prop where
  good : Good (insert c e) w'
  off : (w'.comps c).onList = false
  nowait : NoWait (w'.comps c)
  other : ∀ d, d ≠ c → w'.comps d = w.comps d
  main : w'.main = w.main
  now : w'.now = w.now
  offset : w'.offset = w.offset
  sub : ∀ q, (w'.inQ q).Sublist (w.inQ q)
  claims : (w'.comps c).claims = (w.comps c).claims
  status : w'.status c = w.status c
  evs : Evs (· = c) w w'

theorem Good.insert {e : Set CId} {w : World} (h : Good e w) (c : CId) (hs : w.status c ≠ .standby) : Good (insert c e) w :=
  ⟨h.inv, h.nd, fun d hd => h.idle d fun hm => hd (Set.mem_insert_of_mem _ hm), fun d hd => h.timed d fun hm => hd (Set.mem_insert_of_mem _ hm),
    fun d hd => h.dat d fun hm => hd (Set.mem_insert_of_mem _ hm), h.coh, h.main,
    h.sb.put (c := c) (fun d hd => by simp [hd]) rfl (fun _ _ => rfl) (fun h => h) rfl (h.sb.notin (.inr hs)) (.inl hs)⟩

theorem start_idle {e : Set CId} {w : World} {c : CId} (hg : Good e w) (hc : c ∉ e) (hs : w.status c = .current ∨ w.status c = .passive) :
    Start e c w w := by
  refine ⟨hg.insert c (by rcases hs with h | h <;> simp [h]), ?_, hg.idle c hc ?_, fun _ _ => rfl, rfl, rfl, rfl, fun _ => List.Sublist.refl _, rfl, rfl, .refl _ _⟩
  · exact (off_of_status hg.inv (by rcases hs with h | h <;> simp [h])).2
  · rcases hs with h | h <;> simp [h, Status.idle]

theorem start_removeFail {e : Set CId} {w w' : World} {c : CId} (hg : Good e w) (h : (remove c w ⊳ checkFail c) = .ok w') :
    Start e c w w' := by
  obtain ⟨w1, h1, h2⟩ := andThen_ok h
  obtain ⟨g1, r1⟩ := good_remove hg h1
  obtain ⟨g2, f2, n2⟩ := checkFail_good h2 g1
  have hcv : (w'.comps c).cv = (w1.comps c).cv := congrFun (congrArg EV.comps f2.ev) c
  refine ⟨g2, (congrArg CV.onList hcv).trans r1.off, n2, fun d hd => (f2.other d hd).trans (r1.other d hd), f2.main.trans r1.main,
    (congrArg EV.now f2.ev).trans r1.now, (congrArg EV.offset f2.ev).trans r1.offset, ?_, ?_, ?_,
    r1.evs.trans (.of_eq (congrArg EV.events f2.ev))⟩
  · intro q
    have := f2.sub q
    simpa only [World.inQ, r1.queues] using this
  · rw [f2.claims, r1.self]
  · exact (congrArg CV.status hcv).trans (by rw [r1.self]; rfl)

theorem checkNotData_ok {c : CId} {w w' : World} (h : checkNotData c w = .ok w') : w' = w ∧ w.status c ≠ .data := by
  unfold checkNotData at h
  split at h
  · cases h
  · rename_i hh; cases h; exact ⟨rfl, hh⟩

theorem start_notData {e : Set CId} {w w' : World} {c : CId} (hg : Good e w) (h : (checkNotData c w ⊳ remove c ⊳ checkFail c) = .ok w') :
    Start e c w w' ∧ w.status c ≠ .data := by
  obtain ⟨w1, h1, h2⟩ := andThen_ok h
  obtain ⟨w0, h0, h1'⟩ := andThen_ok h1
  obtain ⟨rfl, hd⟩ := checkNotData_ok h0
  refine ⟨start_removeFail hg ?_, hd⟩
  rw [h1']; exact h2

theorem start_preamble {e : Set CId} {w w' : World} {c : CId} (hg : Good e w) (hc : c ∉ e) (h : preamble c w = .ok w') :
    Start e c w w' ∧ w.status c ≠ .data := by
  unfold preamble at h
  split at h
  · rename_i hs
    cases h
    exact ⟨start_idle hg hc (.inl hs), by rw [hs]; simp⟩
  · obtain ⟨w1, h1, h2⟩ := andThen_ok h
    obtain ⟨w0, h0, h1'⟩ := andThen_ok h1
    obtain ⟨w00, h00, h0'⟩ := andThen_ok h0
    obtain ⟨rfl, hd⟩ := checkNotData_ok h00
    have h0'' : (if c = w00.main then R.err .value w00 else R.ok w00) = .ok w0 := h0'
    split at h0''
    · cases h0''
    · cases h0''
      refine ⟨start_removeFail hg ?_, hd⟩
      rw [h1']; exact h2

/-! ## the calls -/

theorem setStatus_self (c : CId) (w : World) : setStatus c (w.status c) w = w := by
  unfold setStatus World.modC World.status
  congr 1
  funext d
  split
  · rename_i hd; rw [hd]
  · rfl

theorem hold_good {w w' : World} {c d t p u k i} (hg : Good ∅ w) (h : hold c d t p u k i w = .ok w') : Good ∅ w' := by
  unfold hold at h
  obtain ⟨w1, h1, h2⟩ := andThen_ok h
  have s1 : Start ∅ c w w1 := by
    split at h1
    · rename_i hs
      cases h1
      exact start_idle hg (by simp) hs.symm
    · exact (start_notData hg h1).1
  simp only at h2
  split at h2
  · cases h2
  · split at h2
    · cases h2
    · split at h2
      · cases h2
        refine s1.good.set not_insert s1.off ?_ ?_ ?_ ?_ ?_ ?_ ?_ <;> simp [Status.idle, Status.timed]
      · exact good_resched s1.good not_insert s1.off (.inl rfl) h2

theorem passivate_good {w w' : World} {c} (hg : Good ∅ w) (h : passivate c w = .ok w') : Good ∅ w' := by
  unfold passivate at h
  obtain ⟨w1, h1, h2⟩ := andThen_ok h
  cases h2
  have s1 : Good (insert c ∅) w1 ∧ (w1.comps c).onList = false ∧ NoWait (w1.comps c) := by
    split at h1
    · rename_i hs
      cases h1
      have s := start_idle hg (by simp) (.inl hs)
      refine ⟨?_, by rw [modC_self]; exact s.off, by rw [modC_self]; exact ⟨s.nowait.req, s.nowait.wai, s.nowait.frm, s.nowait.tos⟩⟩
      refine s.good.set (fun _ _ => Iff.rfl) s.off ?_ ?_ ?_ ?_ ?_ ?_ ?_ <;> simp
    · obtain ⟨w2, h2, h3⟩ := andThen_ok h1
      cases h3
      have s := (start_notData hg h2).1
      refine ⟨?_, by rw [modC_self]; exact s.off, by rw [modC_self]; exact ⟨s.nowait.req, s.nowait.wai, s.nowait.frm, s.nowait.tos⟩⟩
      refine s.good.set (fun _ _ => Iff.rfl) s.off ?_ ?_ ?_ ?_ ?_ ?_ ?_ <;> simp
  refine s1.1.set not_insert s1.2.1 (fun _ => rfl) (fun _ => rfl) (fun _ => rfl) (fun _ => rfl) (fun _ => rfl) (fun _ _ => s1.2.2) ?_
  simp [Status.timed]

theorem activate_good {e : Set CId} {w w' : World} {c a d p u k pr kr kw} (hg : Good e w)
    (h : activate c a d p u k pr kr kw w = .ok w') : Good e w' ∧ w'.main = w.main ∧ (∀ d, d ≠ c → w'.comps d = w.comps d) ∧
      (∀ q, ∀ d, d ∈ w'.inQ q → d ∈ w.inQ q) := by
  unfold activate at h
  simp only at h
  split at h
  · cases h
  · obtain ⟨w1, h1, h2⟩ := andThen_ok h
    have s1 : Good (insert c e) w1 ∧ (w1.comps c).onList = false ∧ w1.main = w.main ∧ (∀ d, d ≠ c → w1.comps d = w.comps d) ∧
        (∀ q, ∀ d, d ∈ w1.inQ q → d ∈ w.inQ q) := by
      split at h1
      · rename_i hs
        cases h1
        exact ⟨hg.insert c (by simp [hs]), (off_of_status hg.inv (by simp [hs])).2, rfl, fun _ _ => rfl, fun _ _ h => h⟩
      · obtain ⟨w2, h2, h3⟩ := andThen_ok h1
        split at h3
        · cases h3
          obtain ⟨g, r⟩ := good_remove hg h2
          exact ⟨g, r.off, r.main, r.other, fun q d hd => by simpa only [World.inQ, r.queues] using hd⟩
        · have s := start_removeFail (w' := w1) hg (by rw [h2]; exact h3)
          exact ⟨s.good, s.off, s.main, s.other, fun q d hd => (s.sub q).subset hd⟩
    have r2 := (reschedule_ok h2).1
    refine ⟨good_resched s1.1 not_insert s1.2.1 (.inl rfl) h2, r2.main.trans s1.2.2.1, ?_, ?_⟩
    · intro d hd
      rw [r2.other d hd, ← s1.2.2.2.1 d hd]
      exact modC_other hd _ _
    · intro q d hd
      refine s1.2.2.2.2 q d ?_
      simp only [World.inQ, r2.queues] at hd
      exact hd

theorem create_good {w w' : World} {c a d p u k s} (hg : Good ∅ w) (hk : (w.comps c).skipStandby = true → s = true)
    (h : create c a d p u k s w = .ok w') : Good ∅ w' := by
  unfold create at h
  split at h
  · cases h
  · rename_i hs
    simp only [not_or, Bool.not_eq_true] at hs
    simp only at h
    have hoff := hs.2
    have hs : w.status c = .data := by simpa using hs.1
    have e1 : (w.modC c (fun x => { x with status := .scheduled, skipStandby := s, hasProcess := true })) =
        setStatus c .scheduled (w.modC c (fun x => { x with skipStandby := s, hasProcess := true })) := by
      unfold setStatus World.modC
      congr 1
      funext d
      by_cases hd : d = c <;> simp [hd]
    rw [e1] at h
    refine good_resched (e := insert c ∅) (w := w.modC c (fun x => { x with skipStandby := s, hasProcess := true })) ?_ not_insert
      (by rw [modC_self]; exact hoff) (.inl rfl) h
    refine (hg.insert c (by simp [hs])).set (fun _ _ => Iff.rfl) hoff ?_ ?_ ?_ ?_ ?_ ?_ ?_ (.inl ⟨fun _ => rfl, Iff.rfl⟩) ?_ <;> simp
    intro hs
    cases hb : (w.comps c).skipStandby with
    | false => rfl
    | true => rw [hk hb] at hs; cases hs

theorem interrupt_good {w w' : World} {c} (hg : Good ∅ w) (h : interrupt c w = .ok w') : Good ∅ w' := by
  unfold interrupt at h
  split at h
  · rename_i hs
    cases h
    have hoff := (off_of_status hg.inv (c := c) (by simp [hs])).2
    refine hg.set (fun _ _ => Iff.rfl) hoff (fun _ => rfl) (fun _ => rfl) (fun _ => rfl) (fun _ => rfl) (fun _ => rfl) ?_ ?_ <;>
      simp [World.status] at hs <;> simp [hs, Status.idle, Status.timed]
  · split at h
    · obtain ⟨w1, h1, h2⟩ := andThen_ok h
      cases h2
      obtain ⟨g, r⟩ := good_remove hg h1
      refine g.set not_insert r.off ?_ ?_ ?_ ?_ ?_ ?_ ?_ <;> simp [Status.idle, Status.timed]
    · cases h

theorem resume_good {w w' : World} {c a p u} (hg : Good ∅ w) (h : resume c a p u w = .ok w') : Good ∅ w' := by
  unfold resume at h
  split at h
  · rename_i hs
    have hoff := (off_of_status hg.inv (c := c) (by simp [hs])).2
    have g1 : Good ∅ (w.modC c (fun x => { x with intrLevel := x.intrLevel - 1 })) := by
      refine hg.set (fun _ _ => Iff.rfl) hoff (fun _ => rfl) (fun _ => rfl) (fun _ => rfl) (fun _ => rfl) (fun _ => rfl) ?_ ?_ <;>
        simp [World.status] at hs <;> simp [hs, Status.idle, Status.timed]
    have o1 : ((w.modC c (fun x => { x with intrLevel := x.intrLevel - 1 })).comps c).onList = false := by rw [modC_self]; exact hoff
    have s1 : (w.modC c (fun x => { x with intrLevel := x.intrLevel - 1 })).status c ≠ .standby := by
      simp only [World.status, modC_self] at hs ⊢; simp [hs]
    simp only at h
    generalize w.modC c (fun x => { x with intrLevel := x.intrLevel - 1 }) = w1 at h g1 o1 s1
    split at h
    · cases h; exact g1
    · split at h
      · rename_i hst
        have e1 : setStatus c (w1.comps c).intrStatus w1 = setStatus c .scheduled w1 := by
          have : (w1.comps c).intrStatus = .scheduled := by simpa [setStatus, World.status, World.modC] using hst
          rw [this]
        rw [e1] at h
        exact good_resched g1 (fun _ _ => Iff.rfl) o1 (.inl rfl) h (.inr s1)
      · cases h
  · cases h

theorem standby_good {w w' : World} {c} (hg : Good ∅ w) (hm : c ≠ w.main) (h : standby c w = .ok w') : Good ∅ w' := by
  unfold standby at h
  obtain ⟨w1, h1, h2⟩ := andThen_ok h
  have s := (start_preamble hg (by simp) h1).1
  cases h2
  have hnot := s.good.sb.notin (c := c) (.inl (Set.mem_insert _ _))
  have hoth : ∀ d, d ≠ c → (w1.modC c (fun x => { x with schedTime := (w1.now : ETime), status := .standby })).comps d = w1.comps d :=
    fun d hd => modC_other hd _ _
  have hlin : ({ w1.modC c (fun x => { x with schedTime := (w1.now : ETime), status := .standby }) with
      standby := w1.standby ++ [c] } : World).lined = w1.lined ++ [c] := by
    simp only [World.lined, List.append_assoc]; rfl
  have hst : ({ w1.modC c (fun x => { x with schedTime := (w1.now : ETime), status := .standby }) with
      standby := w1.standby ++ [c] } : World).comps c = { w1.comps c with schedTime := (w1.now : ETime), status := .standby } := by simp [World.modC]
  have hsb : SB ∅ ({ w1.modC c (fun x => { x with schedTime := (w1.now : ETime), status := .standby }) with
      standby := w1.standby ++ [c] } : World) := by
    refine s.good.sb.one (c := c) not_insert rfl hoth (fun h d => ?_) ?_ (fun d hd => ?_) (fun _ => ⟨by simp, ?_⟩) (fun _ _ _ => ?_) ?_
    · have := h d
      by_cases hd : d = c
      · subst hd; rw [hst] at this; exact this
      · exact (congrArg Comp.skipStandby (hoth d hd)).symm.trans this
    · rw [hlin, List.nodup_append]
      refine ⟨s.good.sb.nd, by simp, ?_⟩
      intro a ha b hb hab
      simp only [List.mem_singleton] at hb
      subst hb; subst hab; exact hnot ha
    · rw [hlin]; simp [hd]
    · simp [World.status, World.modC]
    · rw [hlin]; simp
    · intro h; exact absurd (h.trans s.main) hm
  have hinv : ({ w1.modC c (fun x => { x with schedTime := (w1.now : ETime), status := .standby }) with
      standby := w1.standby ++ [c] } : World).Inv := by
    have := standby_inv hg.inv c; unfold standby at this; rw [h1] at this; exact this
  refine s.good.settle (c := c) not_insert hsb hinv rfl rfl hoth (by rw [hst]) (by rw [hst]) (by rw [hst]) (by rw [hst]) ?_ ?_ ?_
  · exact fun _ _ => s.nowait
  · intro _; simp [World.status, World.modC, Status.timed]
  · intro _; simp [World.status, World.modC]

theorem setRemaining_good {w w' : World} {c v p u} (hg : Good ∅ w) (hs : w.status c ≠ .data) (h : setRemaining c v p u w = .ok w') :
    Good ∅ w' := by
  unfold setRemaining at h
  split at h
  · rename_i hp
    cases h
    have hoff := (off_of_status hg.inv (c := c) (by rcases hp with h | h <;> simp [h])).2
    have hid : (w.status c).idle → NoWait (w.comps c) := hg.idle c (by simp)
    refine hg.set (fun _ _ => Iff.rfl) hoff (fun _ => rfl) (fun _ => rfl) (fun _ => rfl) (fun _ => rfl) (fun _ => rfl) (fun _ => hid) ?_
    intro _ ht
    rcases hp with h | h <;> simp [World.status] at h <;> simp [h, Status.timed] at ht
  · rename_i hp
    split at h
    · cases h
    · rename_i hp2
      obtain ⟨w1, h1, h2⟩ := andThen_ok h
      obtain ⟨g, r⟩ := good_remove hg h1
      have hst : w1.status c = w.status c := by simp [World.status, r.self]
      rw [← setStatus_self c w1] at h2
      refine good_resched g not_insert r.off ?_ h2
      rw [hst]
      simp only [not_or] at hp hp2
      unfold Status.timed
      cases hw : w.status c <;> simp_all

/-! ### requests -/

theorem mem_keys_addTo {l : List (RId × Rat)} {r x : RId} {q : Rat} : r ∈ keys (addTo l x q) ↔ r = x ∨ r ∈ keys l := by
  unfold addTo
  split
  · rename_i hx
    obtain ⟨p, hp, he⟩ := List.any_eq_true.1 hx
    have he : p.1 = x := by simpa using he
    have hk : keys (l.map (fun p => if p.1 = x then (p.1, p.2 + q) else p)) = keys l := by
      simp only [keys, List.map_map]
      refine List.map_congr_left fun y _ => ?_
      simp only [Function.comp]
      split <;> rfl
    rw [hk]
    refine ⟨.inr, ?_⟩
    rintro (rfl | h)
    · exact List.mem_map.2 ⟨p, hp, he⟩
    · exact h
  · simp [keys, or_comm]

theorem preempt_good {c : CId} {w w' : World} {r q prio} (hg : Good {c} w) (hc : c ∉ w.inQ (.claimers r))
    (h : preempt r q prio w = .ok w') : Good {c} w' ∧ w'.comps c = w.comps c ∧ w'.main = w.main := by
  unfold preempt at h
  simp only at h
  split at h
  · have key : ∀ (l : List CId) (w w' : World), (∀ d ∈ l, d ≠ c) → Good {c} w →
        forR l (fun d w => releaseCore d r none w ⊳ activate d none ((0:Rat):ETime) ((0:Rat):ETime) false false false false false) w = .ok w' →
        Good {c} w' ∧ w'.comps c = w.comps c ∧ w'.main = w.main := by
      intro l
      induction l with
      | nil => intro w w' _ hg h; cases h; exact ⟨hg, rfl, rfl⟩
      | cons d t ih =>
        intro w w' hl hg h
        unfold forR at h
        obtain ⟨w1, h1, h2⟩ := andThen_ok h
        obtain ⟨w0, h0, h1⟩ := andThen_ok h1
        obtain ⟨g0, k0⟩ := releaseCore_good hg h0
        obtain ⟨g1, m1, o1, _⟩ := activate_good g0 h1
        obtain ⟨g2, c2, m2⟩ := ih w1 w' (fun x hx => hl x (by simp [hx])) g1 h2
        have hdc : c ≠ d := (hl d (by simp)).symm
        exact ⟨g2, by rw [c2, o1 c hdc, k0.other c hdc], by rw [m2, m1, k0.main]⟩
    refine key _ _ _ (fun d hd hdc => ?_) hg h
    subst hdc
    obtain ⟨m, hm, hmc⟩ := bump_mem hd
    exact hc (List.mem_map.2 ⟨m, by simpa using hm, hmc⟩)
  · cases h; exact ⟨hg, rfl, rfl⟩

theorem requestArg_good {c : CId} {n : Nat} {put : Bool} {a : Arg} {w w' : World} (hg : Good {c} w) (hm : c ≠ w.main)
    (hoff : (w.comps c).onList = false)
    (hp : n > 1 ∨ ((w.res a.r).preemptive = true → c ∉ w.inQ (.claimers a.r))) (h : requestArg c n put a w = .ok w') :
    Good {c} w' ∧ w'.main = w.main ∧ (w'.comps c).onList = false ∧ (w'.comps c).requests ≠ [] := by
  unfold requestArg at h
  simp only at h
  by_cases hpre : (w.res a.r).preemptive = true ∧ n > 1
  · rw [if_pos hpre] at h; cases h
  · rw [if_neg hpre] at h
    generalize (if put = true then -a.q else a.q) = q at h
    by_cases hq : q < 0 ∧ (w.res a.r).anonymous = false
    · rw [if_pos hq] at h; cases h
    · rw [if_neg hq] at h
      obtain ⟨w1, h1, h2⟩ := andThen_ok h
      have g0 : Good {c} (w.modC c (fun x => { x with requests := addTo x.requests a.r q })) := by
        refine hg.grow rfl hm (fun _ => rfl) fun q => awaits_congr (fun r _ h => ?_) (fun _ _ h => h) (fun _ _ h => h) (fun _ _ h => h)
        exact mem_keys_addTo.2 (.inr h)
      have n0 : a.r ∈ keys ((w.modC c (fun x => { x with requests := addTo x.requests a.r q })).comps c).requests := by
        rw [modC_self]; exact mem_keys_addTo.2 (.inl rfl)
      have o0 : ((w.modC c (fun x => { x with requests := addTo x.requests a.r q })).comps c).onList = false := by
        rw [modC_self]; exact hoff
      have m0 : (w.modC c (fun x => { x with requests := addTo x.requests a.r q })).main = w.main := rfl
      have q0 : ∀ p, (w.modC c (fun x => { x with requests := addTo x.requests a.r q })).inQ p = w.inQ p := fun _ => rfl
      generalize w.modC c (fun x => { x with requests := addTo x.requests a.r q }) = w0 at h1 g0 n0 o0 m0 q0
      obtain ⟨e1, e2, e3, e4⟩ := enterQ_inQ h1
      have g1 : Good {c} w1 := good_enter (q := .requesters a.r) g0 n0 e1 e2 e3
      have c1 : w1.comps = w0.comps := by rw [e1]; rfl
      have m1 : w1.main = w0.main := by rw [e1]; rfl
      have ne : (w0.comps c).requests ≠ [] := by intro he; rw [he] at n0; simp [keys] at n0
      split at h2
      · rename_i hpr
        rcases hp with hp | hp
        · exact absurd ⟨hpr, hp⟩ hpre
        · obtain ⟨g2, c2, m2⟩ := preempt_good g1 (by rw [e4 _ (by simp), q0]; exact hp hpr) h2
          exact ⟨g2, by rw [m2, m1, m0], by rw [c2, c1]; exact o0, by rw [c2, c1]; exact ne⟩
      · cases h2
        exact ⟨g1, m1.trans m0, by rw [c1]; exact o0, by rw [c1]; exact ne⟩

theorem requestArgs_good {c : CId} {n : Nat} {put : Bool} (hn : n > 1) : ∀ (l : List Arg) (w w' : World), Good {c} w → c ≠ w.main →
    (w.comps c).onList = false → (w.comps c).requests ≠ [] → forR l (requestArg c n put) w = .ok w' →
    Good {c} w' ∧ w'.main = w.main ∧ (w'.comps c).onList = false ∧ (w'.comps c).requests ≠ []
  | [], w, w', hg, hm, ho, hr, h => by cases h; exact ⟨hg, rfl, ho, hr⟩
  | a :: t, w, w', hg, hm, ho, hr, h => by
    unfold forR at h
    obtain ⟨w1, h1, h2⟩ := andThen_ok h
    obtain ⟨g1, m1, o1, r1⟩ := requestArg_good hg hm ho (.inl hn) h1
    obtain ⟨g2, m2, o2, r2⟩ := requestArgs_good hn t w1 w' g1 (by rw [m1]; exact hm) o1 r1 h2
    exact ⟨g2, m2.trans m1, o2, r2⟩

theorem tryReqC_good {fuel : Nat} {c : CId} {w w' : World} (hg : Good {c} w) (h : tryReqC fuel c w = .ok w') :
    w' = w ∨ (Good ∅ w' ∧ (w'.comps c).requests = []) := by
  have hq := tryReqC_requests h
  cases fuel with
  | zero => rw [tryReqC] at h; cases h
  | succ n =>
    rw [tryReqC] at h
    split at h
    · cases h; exact .inl rfl
    · rename_i res hres
      obtain ⟨w1, h1, h2⟩ := andThen_ok h
      obtain ⟨g1, ne, r1, _⟩ := honorNow_good hg (e' := ∅) not_single hres h1
      have g2 := ((trR_try ∅ n).2.1 _ w1 g1 w' h2).good
      rcases hq with rfl | hq
      · exact .inl rfl
      · exact .inr ⟨g2, hq⟩

theorem lowerMinq_good {e : Set CId} {w : World} (hg : Good e w) (l : List (RId × Rat)) : Good e (lowerMinq l w) ∧
    (lowerMinq l w).comps = w.comps ∧ (lowerMinq l w).main = w.main := by
  unfold lowerMinq
  induction l generalizing w with
  | nil => exact ⟨hg, rfl, rfl⟩
  | cons p t ih => exact ih (hg.modR _ _)

theorem request_good {w w' : World} {fuel c args o pu fa fd p u k} (hg : Good ∅ w) (hr : ReqOK w c args) (hm : c ≠ w.main)
    (h : request fuel c args o pu fa fd p u k w = .ok w') : Good ∅ w' := by
  unfold request at h
  have g0 : Good ∅ (w.modC c (fun x => { x with oneof := o })) :=
    hg.modC' (fun _ => rfl) (fun _ => rfl) (fun _ => rfl) (fun _ => rfl) (fun _ => rfl)
  obtain ⟨w1, h1, h2⟩ := andThen_ok h
  have s1 := (start_preamble g0 (by simp) h1).1
  have sc1 : SameCl w w1 := by
    have := sc_preamble c (w.modC c (fun x => { x with oneof := o }))
    rw [h1] at this
    exact SameCl.trans (b := w.modC c (fun x => { x with oneof := o })) ⟨fun _ => rfl, fun _ => rfl⟩ this
  have m1 : w1.main = w.main := s1.main
  simp only at h2
  split at h2
  · cases h2
  · rename_i t _
    have hne : args.isEmpty = false := by
      cases args with
      | nil => exact absurd rfl hr.1
      | cons a t => rfl
    simp only [hne, Bool.false_eq_true, if_false] at h2
    obtain ⟨w3, h3, h4⟩ := andThen_ok h2
    have g2 : Good {c} (w1.modC c (fun x => { x with failed := false })) := by
      have := s1.good.modC' (c := c) (f := fun x => { x with failed := false }) (fun _ => rfl) (fun _ => rfl) (fun _ => rfl) (fun _ => rfl) (fun _ => rfl)
      simpa using this
    have o2 : ((w1.modC c (fun x => { x with failed := false })).comps c).onList = false := by rw [modC_self]; exact s1.off
    have m2 : (w1.modC c (fun x => { x with failed := false })).main = w.main := m1
    have sc2 : SameCl w (w1.modC c (fun x => { x with failed := false })) := sc1.trans ⟨fun _ => rfl, fun _ => rfl⟩
    generalize w1.modC c (fun x => { x with failed := false }) = w2 at h3 g2 o2 m2 sc2
    have s3 : Good {c} w3 ∧ w3.main = w.main ∧ (w3.comps c).onList = false ∧ (w3.comps c).requests ≠ [] := by
      obtain ⟨_, hr⟩ := hr
      match args, hr, h3, hne with
      | [a], hr, h3, _ =>
        unfold forR at h3
        obtain ⟨w5, h5, h6⟩ := andThen_ok h3
        cases h6
        have := requestArg_good g2 (by rw [m2]; exact hm) o2 (.inr fun hpre => ?_) h5
        · exact ⟨this.1, this.2.1.trans m2, this.2.2⟩
        · have h7 := hr a (by simp) (by rw [← sc2.1]; exact hpre)
          rw [← sc2.2] at h7
          rw [← has_inQ, h7]; simp
      | a :: b :: t, hr, h3, _ =>
        have hn : (a :: b :: t).length > 1 := by simp
        generalize (a :: b :: t).length = n at h3 hn
        unfold forR at h3
        obtain ⟨w5, h5, h6⟩ := andThen_ok h3
        obtain ⟨g5, m5, o5, r5⟩ := requestArg_good g2 (by rw [m2]; exact hm) o2 (.inl hn) h5
        obtain ⟨g6, m6, o6, r6⟩ := requestArgs_good hn _ w5 w3 g5 (by rw [m5, m2]; exact hm) o5 r5 h6
        exact ⟨g6, (m6.trans m5).trans m2, o6, r6⟩
    obtain ⟨g3, m3, o3, r3⟩ := s3
    obtain ⟨g4, c4, m4⟩ := lowerMinq_good g3 (w3.comps c).requests
    obtain ⟨w5, h5, h6⟩ := andThen_ok h4
    have o4 : ((lowerMinq (w3.comps c).requests w3).comps c).onList = false := by rw [c4]; exact o3
    have r4 : ((lowerMinq (w3.comps c).requests w3).comps c).requests ≠ [] := by rw [c4]; exact r3
    generalize lowerMinq (w3.comps c).requests w3 = w4 at h5 g4 o4 r4
    have g5 : Good {c} (w4.modC c (fun x => { x with remaining := t.subQ w4.now })) := by
      refine g4.set (fun _ _ => Iff.rfl) o4 ?_ ?_ ?_ ?_ ?_ ?_ ?_ <;> simp
    rcases tryReqC_good g5 h5 with rfl | ⟨g6, r6⟩
    · split at h6
      · rename_i hr6; rw [modC_self] at hr6; exact absurd hr6 r4
      · exact good_resched g5 not_single (by rw [modC_self]; exact o4) (.inr (.inl rfl)) h6
    · rw [if_pos r6] at h6; cases h6; exact g6

/-! ### waits -/

theorem entered_inQ {c : CId} {q : QRef} {f} {w w' : World} (h : onQueue q f w = .ok w')
    (hf : ∀ q', f (w.queues q) = .ok q' → ∃ l1 l2 x, Queue.Entered w.now (w.queues q) c q' l1 l2 x) :
    w' = w.modQ q (fun _ => w'.queues q) ∧ (w'.inQ q).Perm (c :: w.inQ q) ∧ c ∉ w.inQ q := by
  obtain ⟨q', h1, h2⟩ := onQueue_ok h
  obtain ⟨l1, l2, x, hx⟩ := hf q' h1
  subst h2
  refine ⟨?_, ?_, ?_⟩
  · simp [World.modQ]
  · rw [inQ_modQ, if_pos rfl, hx.eq]
    have hp : (l1 ++ x :: l2).Perm (x :: (w.queues q).mem) := by rw [hx.mem]; exact List.perm_middle
    have := hp.map QMem.c
    rw [List.map_cons, hx.xc] at this
    exact this
  · intro hm
    obtain ⟨m, hm, he⟩ := List.mem_map.1 hm
    exact hx.new m hm he

theorem enter_then {c : CId} {q : QRef} {w w1 : World} {f : Comp → Comp} (hg : Good {c} (w.modC c f)) (ha : awaits (f (w.comps c)) q)
    (h1 : w1 = w.modQ q (fun _ => w1.queues q)) (h2 : (w1.inQ q).Perm (c :: w.inQ q)) (h3 : c ∉ w.inQ q) : Good {c} (w1.modC c f) := by
  refine good_enter (w := w.modC c f) (c := c) (q := q) hg (by rw [modC_self]; exact ha) ?_ h2 h3
  show _ = (w.modC c f).modQ q (fun _ => w1.queues q)
  conv_lhs => rw [h1]
  rfl

theorem waitArg_good {c : CId} {a : WArg} {w w' : World} (hg : Good {c} w) (hm : c ≠ w.main) (hoff : (w.comps c).onList = false)
    (h : waitArg c a w = .ok w') : Good {c} w' ∧ w'.main = w.main ∧ (w'.comps c).onList = false := by
  unfold waitArg at h
  obtain ⟨w1, h1, h2⟩ := andThen_ok h
  cases h2
  have g0 : Good {c} (w.modC c (fun x => { x with waits := x.waits ++ [⟨a.s, a.ok⟩] })) := by
    refine hg.grow rfl hm (fun _ => rfl) fun q => awaits_congr (fun _ _ h => h) (fun r _ h => ?_) (fun _ _ h => h) (fun _ _ h => h)
    simp only [List.map_append, List.mem_append]; exact .inl h
  have ent : ∀ {f}, onQueue (.waiters a.s) f w = .ok w1 →
      (∀ q', f (w.queues (.waiters a.s)) = .ok q' → ∃ l1 l2 x, Queue.Entered w.now (w.queues (.waiters a.s)) c q' l1 l2 x) →
      Good {c} (w1.modC c (fun x => { x with waits := x.waits ++ [⟨a.s, a.ok⟩] })) ∧ w1.main = w.main ∧ w1.comps = w.comps := by
    intro f hf hk
    obtain ⟨e1, e2, e3⟩ := entered_inQ (c := c) hf hk
    exact ⟨enter_then g0 (by simp [awaits]) e1 e2 e3, by rw [e1]; rfl, by rw [e1]; rfl⟩
  have key : Good {c} (w1.modC c (fun x => { x with waits := x.waits ++ [⟨a.s, a.ok⟩] })) ∧ w1.main = w.main ∧ w1.comps = w.comps := by
    split at h1
    · cases h1; exact ⟨g0, rfl, rfl⟩
    · split at h1
      · refine ent h1 fun q' hq' => ?_
        obtain ⟨l1, l2, x, hx, _⟩ := Queue.enter_ok hq'
        exact ⟨l1, l2, x, hx⟩
      · refine ent h1 fun q' hq' => ?_
        obtain ⟨l1, l2, x, hx, _⟩ := Queue.enterSorted_ok hq'
        exact ⟨l1, l2, x, hx⟩
  exact ⟨key.1, key.2.1, by rw [modC_self, key.2.2]; exact hoff⟩

theorem waitEnd_good {c : CId} {w w' : World} {t p u k} (hg : Good {c} w) (hoff : (w.comps c).onList = false)
    (h : waitEnd c t p u k w = .ok w') : Good ∅ w' := by
  unfold waitEnd at h
  split at h
  · cases h
  · rename_i hne
    simp only at h
    obtain ⟨w1, h1, h2⟩ := andThen_ok h
    have g1 : Good {c} (w.modC c (fun x => { x with remaining := t.subQ w.now })) := by
      refine hg.set (fun _ _ => Iff.rfl) hoff ?_ ?_ ?_ ?_ ?_ ?_ ?_ <;> simp
    have o1 : ((w.modC c (fun x => { x with remaining := t.subQ w.now })).comps c).onList = false := by rw [modC_self]; exact hoff
    have n1 : ¬ ((w.modC c (fun x => { x with remaining := t.subQ w.now })).comps c).waits.isEmpty = true := by rw [modC_self]; exact hne
    generalize w.modC c (fun x => { x with remaining := t.subQ w.now }) = w0 at h1 g1 o1 n1
    rcases tryWait_good g1 (e' := ∅) not_single h1 with rfl | ⟨_, g2, e2, _⟩
    · rw [if_neg n1] at h2
      exact good_resched g1 not_single o1 (.inr (.inr rfl)) h2
    · rw [if_pos (by rw [e2]; rfl)] at h2
      cases h2; exact g2

theorem wait_good {w w' : World} {c args a fa fd p u k} (hg : Good ∅ w) (hm : c ≠ w.main)
    (h : wait c args a fa fd p u k w = .ok w') : Good ∅ w' := by
  unfold wait at h
  have g0 : Good ∅ (w.modC c (fun x => { x with cond := none })) :=
    hg.modC' (fun _ => rfl) (fun _ => rfl) (fun _ => rfl) (fun _ => rfl) (fun _ => rfl)
  obtain ⟨w1, h1, h2⟩ := andThen_ok h
  have s1 := (start_preamble g0 (by simp) h1).1
  simp only at h2
  split at h2
  · cases h2
  · obtain ⟨w3, h3, h4⟩ := andThen_ok h2
    have g2 : Good {c} (w1.modC c (fun x => { x with waitAll := a, failed := false })) := by
      have := s1.good.modC' (c := c) (f := fun x => { x with waitAll := a, failed := false }) (fun _ => rfl) (fun _ => rfl) (fun _ => rfl) (fun _ => rfl) (fun _ => rfl)
      simpa using this
    have o2 : ((w1.modC c (fun x => { x with waitAll := a, failed := false })).comps c).onList = false := by rw [modC_self]; exact s1.off
    have m2 : (w1.modC c (fun x => { x with waitAll := a, failed := false })).main = w.main := s1.main
    generalize w1.modC c (fun x => { x with waitAll := a, failed := false }) = w2 at h3 g2 o2 m2
    have key : ∀ (l : List WArg) (w2 : World), Good {c} w2 → w2.main = w.main → (w2.comps c).onList = false → forR l (waitArg c) w2 = .ok w3 →
        Good {c} w3 ∧ (w3.comps c).onList = false := by
      intro l
      induction l with
      | nil => intro w2 g m o h; cases h; exact ⟨g, o⟩
      | cons x t ih =>
        intro w2 g m o h
        unfold forR at h
        obtain ⟨w5, h5, h6⟩ := andThen_ok h
        obtain ⟨g5, m5, o5⟩ := waitArg_good g (by rw [m]; exact hm) o h5
        exact ih w5 g5 (m5.trans m) o5 h6
    obtain ⟨g3, o3⟩ := key _ _ g2 m2 o2 h3
    exact waitEnd_good g3 o3 h4

theorem waitFor_good {w w' : World} {c f ss fa fd p u k} (hg : Good ∅ w) (hm : c ≠ w.main)
    (h : waitFor c f ss fa fd p u k w = .ok w') : Good ∅ w' := by
  unfold waitFor at h
  obtain ⟨w1, h1, h2⟩ := andThen_ok h
  have s1 := (start_preamble hg (by simp) h1).1
  simp only at h2
  split at h2
  · cases h2
  · obtain ⟨w3, h3, h4⟩ := andThen_ok h2
    have g2 : Good {c} ((w1.modC c (fun x => { x with failed := false })).modC c (fun x => { x with cond := some f })) := by
      have g1 : Good {c} w1 := by simpa using s1.good
      exact (g1.modC' (c := c) (f := fun x => { x with failed := false }) (fun _ => rfl) (fun _ => rfl) (fun _ => rfl) (fun _ => rfl) (fun _ => rfl)).modC'
        (fun _ => rfl) (fun _ => rfl) (fun _ => rfl) (fun _ => rfl) (fun _ => rfl)
    have o2 : (((w1.modC c (fun x => { x with failed := false })).modC c (fun x => { x with cond := some f })).comps c).onList = false := by
      rw [modC_self, modC_self]; exact s1.off
    have m2 : ((w1.modC c (fun x => { x with failed := false })).modC c (fun x => { x with cond := some f })).main = w.main := s1.main
    generalize (w1.modC c (fun x => { x with failed := false })).modC c (fun x => { x with cond := some f }) = w2 at h3 g2 o2 m2
    have key : ∀ (l : List SId) (w2 : World), Good {c} w2 → w2.main = w.main → (w2.comps c).onList = false →
        forR l (fun s w => enterSortedQ c (.waiters s) p (w.modC c (fun x => { x with waits := x.waits ++ [⟨s, fun _ => false⟩] }))) w2 = .ok w3 →
        Good {c} w3 ∧ (w3.comps c).onList = false := by
      intro l
      induction l with
      | nil => intro w2 g m o h; cases h; exact ⟨g, o⟩
      | cons s t ih =>
        intro w2 g m o h
        unfold forR at h
        obtain ⟨w5, h5, h6⟩ := andThen_ok h
        have g0 : Good {c} (w2.modC c (fun x => { x with waits := x.waits ++ [⟨s, fun _ => false⟩] })) := by
          refine g.grow rfl (by rw [m]; exact hm) (fun _ => rfl) fun q => awaits_congr (fun _ _ h => h) (fun r _ h => ?_) (fun _ _ h => h) (fun _ _ h => h)
          simp only [List.map_append, List.mem_append]; exact .inl h
        obtain ⟨e1, e2, e3, e4⟩ := enterQ_inQ h5
        have g5 : Good {c} w5 := good_enter g0 (by rw [modC_self]; simp [awaits]) e1 e2 e3
        exact ih w5 g5 (by rw [e1]; exact m) (by rw [e1]; simp only [World.modQ]; rw [modC_self]; exact o) h6
    obtain ⟨g3, o3⟩ := key _ _ g2 m2 o2 h3
    exact waitEnd_good g3 o3 h4

/-! ### stores -/

theorem forR_enter_good {c : CId} {g : StId → QRef} {p : Rat} : ∀ (l : List StId) (w w' : World), Good {c} w →
    (∀ s ∈ l, awaits (w.comps c) (g s)) → forR l (fun s => enterSortedQ c (g s) p) w = .ok w' →
    Good {c} w' ∧ w'.comps = w.comps
  | [], w, w', hg, _, h => by cases h; exact ⟨hg, rfl⟩
  | s :: t, w, w', hg, ha, h => by
    unfold forR at h
    obtain ⟨w1, h1, h2⟩ := andThen_ok h
    obtain ⟨e1, e2, e3, e4⟩ := enterQ_inQ h1
    have c1 : w1.comps = w.comps := by rw [e1]; rfl
    obtain ⟨g2, c2⟩ := forR_enter_good t w1 w' (good_enter hg (ha s (by simp)) e1 e2 e3) (fun x hx => by rw [c1]; exact ha x (by simp [hx])) h2
    exact ⟨g2, c2.trans c1⟩

/-- entering queues doesn't depend on the components -/
theorem forR_enter_modC {c : CId} {g : StId → QRef} {p : Rat} {f : Comp → Comp} : ∀ (l : List StId) (w w' : World),
    forR l (fun s => enterSortedQ c (g s) p) w = .ok w' → forR l (fun s => enterSortedQ c (g s) p) (w.modC c f) = .ok (w'.modC c f)
  | [], w, w', h => by cases h; rfl
  | s :: t, w, w', h => by
    unfold forR at h ⊢
    obtain ⟨w1, h1, h2⟩ := andThen_ok h
    have : enterSortedQ c (g s) p (w.modC c f) = .ok (w1.modC c f) := by
      unfold enterSortedQ onQueue at h1 ⊢
      simp only [World.modC, World.modQ] at h1 ⊢
      split at h1
      · rename_i q' hq'
        cases h1
        simp only [hq']
      · cases h1
    rw [this]
    exact forR_enter_modC t w1 w' h2

theorem fromStore_good {w w' : World} {fuel c ss f k rp fa fd p u cp} (hg : Good ∅ w) (hm : c ≠ w.main)
    (h : fromStore fuel c ss f k rp fa fd p u cp w = .ok w') : Good ∅ w' := by
  unfold fromStore at h
  split at h
  · cases h
  · obtain ⟨w1, h1, h2⟩ := andThen_ok h
    have s1 := (start_preamble hg (by simp) h1).1
    simp only at h2
    split at h2
    · cases h2
    · have g2 : Good {c} (w1.modC c (fun x => { x with failed := false })) := by
        have := s1.good.modC' (c := c) (f := fun x => { x with failed := false }) (fun _ => rfl) (fun _ => rfl) (fun _ => rfl) (fun _ => rfl) (fun _ => rfl)
        simpa using this
      have o2 : ((w1.modC c (fun x => { x with failed := false })).comps c).onList = false := by rw [modC_self]; exact s1.off
      have n2 : NoWait ((w1.modC c (fun x => { x with failed := false })).comps c) := by
        rw [modC_self]; exact ⟨s1.nowait.req, s1.nowait.wai, s1.nowait.frm, s1.nowait.tos⟩
      have m2 : (w1.modC c (fun x => { x with failed := false })).main = w.main := s1.main
      generalize w1.modC c (fun x => { x with failed := false }) = w2 at h2 g2 o2 m2 n2
      split at h2
      · obtain ⟨w3, h3, h4⟩ := andThen_ok h2
        have t3 := (trR_store {c} fuel).2 _ _ _ g2 w3 h3
        refine (good_wake (e' := ∅) (t3.good.modC' ?_ ?_ ?_ ?_ ?_) not_single h4).1 <;> exact fun _ => rfl
      · obtain ⟨w3, h3, h4⟩ := andThen_ok h2
        have g3 : Good {c} (w2.modC c (fun x => { x with fromStores := ss })) := by
          refine g2.grow rfl (by rw [m2]; exact hm) (fun _ => rfl) fun q => awaits_congr (fun _ _ h => h) (fun _ _ h => h) (fun r _ h => ?_) (fun _ _ h => h)
          rw [n2.frm] at h; cases h
        obtain ⟨g4, c4⟩ := forR_enter_good (g := fun s => .fromReq s) _ _ _ g3 (fun s hs => by rw [modC_self]; exact hs) h3
        have e5 : w3.modC c (fun x => { x with status := .requesting, fromItem := none, fromFilter := f }) =
            setStatus c .requesting (w3.modC c (fun x => { x with fromItem := none, fromFilter := f })) := by
          unfold setStatus World.modC
          congr 1
          funext d
          by_cases hd : d = c <;> simp [hd]
        rw [e5] at h4
        refine good_resched (e := {c}) ?_ not_single ?_ (.inr (.inl rfl)) h4
        · exact g4.modC' (fun _ => rfl) (fun _ => rfl) (fun _ => rfl) (fun _ => rfl) (fun _ => rfl)
        · rw [modC_self, c4, modC_self]; exact o2

theorem toStore_good {w w' : World} {fuel c ss i rp sp fa fd p u cp} (hg : Good ∅ w) (hm : c ≠ w.main)
    (h : toStore fuel c ss i rp sp fa fd p u cp w = .ok w') : Good ∅ w' := by
  unfold toStore at h
  split at h
  · cases h
  · obtain ⟨w1, h1, h2⟩ := andThen_ok h
    have s1 := (start_preamble hg (by simp) h1).1
    simp only at h2
    split at h2
    · cases h2
    · have g2 : Good {c} (w1.modC c (fun x => { x with failed := false })) := by
        have := s1.good.modC' (c := c) (f := fun x => { x with failed := false }) (fun _ => rfl) (fun _ => rfl) (fun _ => rfl) (fun _ => rfl) (fun _ => rfl)
        simpa using this
      have o2 : ((w1.modC c (fun x => { x with failed := false })).comps c).onList = false := by rw [modC_self]; exact s1.off
      have n2 : NoWait ((w1.modC c (fun x => { x with failed := false })).comps c) := by
        rw [modC_self]; exact ⟨s1.nowait.req, s1.nowait.wai, s1.nowait.frm, s1.nowait.tos⟩
      have m2 : (w1.modC c (fun x => { x with failed := false })).main = w.main := s1.main
      generalize w1.modC c (fun x => { x with failed := false }) = w2 at h2 g2 o2 m2 n2
      split at h2
      · obtain ⟨w3, h3, h4⟩ := andThen_ok h2
        have t3 := (trR_store {c} fuel).1 _ _ _ _ g2 w3 h3
        have n3 : NoWait (w3.comps c) := by rw [t3.frozen c n2]; exact n2
        have g4 : Good {c} (w3.modC c (fun x => { x with toItem := none, toStores := [] })) := by
          refine t3.good.modC (fun _ => rfl) (fun h => ⟨h.req, h.wai, h.frm, rfl⟩) fun q _ => ?_
          refine awaits_congr (fun _ _ h => h) (fun _ _ h => h) (fun _ _ h => h) (fun r _ h => ?_)
          rw [n3.tos] at h; exact h
        exact (good_wake (e' := ∅) g4 not_single h4).1
      · obtain ⟨w3, h3, h4⟩ := andThen_ok h2
        have h3' := forR_enter_modC (f := fun x => { x with toItem := some i, toPrio := sp, toStores := ss }) _ _ _ h3
        have g3 : Good {c} (w2.modC c (fun x => { x with toItem := some i, toPrio := sp, toStores := ss })) := by
          refine g2.grow rfl (by rw [m2]; exact hm) (fun _ => rfl) fun q => awaits_congr (fun _ _ h => h) (fun _ _ h => h) (fun _ _ h => h) (fun r _ h => ?_)
          rw [n2.tos] at h; cases h
        obtain ⟨g4, c4⟩ := forR_enter_good (g := fun s => .toReq s) _ _ _ g3 (fun s hs => by rw [modC_self]; exact hs) h3'
        have e5 : w3.modC c (fun x => { x with status := .requesting, toItem := some i, toPrio := sp, toStores := ss }) =
            setStatus c .requesting (w3.modC c (fun x => { x with toItem := some i, toPrio := sp, toStores := ss })) := by
          unfold setStatus World.modC
          congr 1
          funext d
          by_cases hd : d = c <;> simp [hd]
        rw [e5] at h4
        refine good_resched (e := {c}) g4 not_single ?_ (.inr (.inl rfl)) h4
        rw [c4, modC_self]; exact o2

/-! ### cancel and termination -/

theorem toData_good {c : CId} {w w1 : World} {f : Comp → Comp} (t : TrC (insert c ∅) w w1) (hn : NoWait (w.comps c))
    (hoff : (w.comps c).onList = false) (hon : ∀ x, (f x).onList = x.onList) (h1 : ∀ x, (f x).requests = x.requests)
    (h2 : ∀ x, (f x).waits = x.waits) (h3 : ∀ x, (f x).fromStores = x.fromStores) (h4 : ∀ x, (f x).toStores = x.toStores)
    (hs : ∀ x, (f x).status = .data) (hk : ∀ x, (f x).skipStandby = x.skipStandby) : Good ∅ (w1.modC c f) := by
  obtain ⟨l, hl⟩ := t.frozen c hn
  refine t.good.set not_insert (by rw [hl]; exact hoff) hon h1 h2 h3 h4 (fun _ _ => t.noWait hn) ?_
    (.inr ⟨Set.mem_insert _ _, by rw [hs]; simp⟩) (by rw [hk]; exact id)
  intro _; rw [hs]; simp [Status.timed]

theorem cancel_good {w w' : World} {fuel c} (hg : Good ∅ w) (h : cancel fuel c w = .ok w') : Good ∅ w' := by
  unfold cancel at h
  split at h
  · cases h; exact hg
  · obtain ⟨w2, h2, h3⟩ := andThen_ok h
    obtain ⟨w1, h1, h2⟩ := andThen_ok h2
    have s1 : Start ∅ c w w1 := by
      split at h1
      · rename_i hs
        cases h1
        exact start_idle hg (by simp) (.inl hs)
      · exact (start_notData hg h1).1
    have t2 := trRC_releaseAll s1.good fuel c w2 h2
    cases h3
    exact toData_good t2 s1.nowait s1.off (fun _ => rfl) (fun _ => rfl) (fun _ => rfl) (fun _ => rfl) (fun _ => rfl) (fun _ => rfl) (fun _ => rfl)

theorem terminate_good {w w' : World} {fuel c} (hg : Good ∅ w) (hs : w.status c = .current) (h : terminate fuel c w = .ok w') :
    Good ∅ w' := by
  unfold terminate at h
  obtain ⟨w1, h1, h2⟩ := andThen_ok h
  have s1 := start_idle hg (by simp) (.inl hs)
  have t2 := trRC_releaseAll s1.good fuel c w1 h1
  cases h2
  exact toData_good t2 s1.nowait s1.off (fun _ => rfl) (fun _ => rfl) (fun _ => rfl) (fun _ => rfl) (fun _ => rfl) (fun _ => rfl) (fun _ => rfl)

/-! ### step and run -/

/-- the components that went into standby get their turn, once those before them had theirs -/
theorem good_turns {w : World} (hg : Good ∅ w) (hp : (∀ d, (w.comps d).skipStandby = false) → w.pending = []) :
    Good ∅ (if w.standby = [] then w else { w with pending := w.standby, standby := [] } : World) := by
  split
  · exact hg
  · refine ⟨inv_congr hg.inv rfl rfl rfl rfl, hg.nd, hg.idle, hg.timed, hg.dat, hg.coh, hg.main, ?_⟩
    have hl : ({ w with pending := w.standby, standby := [] } : World).lined = w.standby := by simp [World.lined]
    refine ⟨?_, fun c hc => ?_, fun hs c _ hst => ?_, hg.sb.main⟩
    · rw [hl]; exact hg.sb.nd.sublist (List.sublist_append_right _ _)
    · rw [hl] at hc; exact hg.sb.mem c (List.mem_append_right _ hc)
    · rw [hl]
      have := hg.sb.all hs c (by simp) hst
      simpa [World.lined, hp hs] using this

/-- a component becomes current -/
theorem sb_current {e' : Set CId} {w w' : World} {c : CId} (h : SB ∅ w) (he : ∀ d, d ≠ c → d ∉ e') (hm : w'.main = w.main)
    (ho : ∀ d, d ≠ c → w'.comps d = w.comps d) (hc : (w'.comps c).status = .current)
    (hk : (w'.comps c).skipStandby = (w.comps c).skipStandby) (hl : w'.lined = w.lined) (hn : w.status c ≠ .standby) : SB e' w' := by
  refine h.put (c := c) (fun d hd => by simp [he d hd]) hm ho (fun h d => ?_) hl (h.notin (.inr hn)) (.inl (by simp [World.status, hc]))
  have := h d
  by_cases hd : d = c
  · subst hd; rw [← hk]; exact this
  · rwa [ho d hd] at this

/-- the component of the first event becomes current -/
theorem popped_good {w1 : World} {e : Ev} {es : List Ev} (g1 : Good ∅ w1) (hp : Heapq.heappop Ev.lt w1.events = some (e, es)) :
    (e.c = w1.main → Good ∅ (({ w1 with events := es, now := e.t, current := e.c } : World).modC e.c
      (fun x => { x with onList := false, status := .current, schedTime := ⊤ }))) ∧
      Good (insert e.c ∅) (({ w1 with events := es, now := e.t, current := e.c } : World).modC e.c
      (fun x => { x with onList := false, status := .current, schedTime := ⊤ })) := by
  have hi := pop_inv g1.inv hp
  have hns : w1.status e.c ≠ .standby := by
    intro hs
    have hon := off_of_status g1.inv (.inr (.inr (.inr hs)))
    have hspec := Heapq.heappop_spec evLaw (show Heapq.IsHeap Ev.lt w1.events from g1.inv.heap)
    rw [hp] at hspec
    have h2 : (w1.comps e.c).onList = true := (g1.inv.on e.c).2 ⟨e, hspec.1.mem_iff.2 (by simp), rfl⟩
    rw [hon.2] at h2; cases h2
  have hother : ∀ d, d ≠ e.c → (({ w1 with events := es, now := e.t, current := e.c } : World).modC e.c
      (fun x => { x with onList := false, status := .current, schedTime := ⊤ })).comps d = w1.comps d := by
    intro d hd; exact modC_other hd _ _
  constructor
  · intro hm
    refine g1.settle (c := e.c) (fun _ _ => Iff.rfl) (sb_current g1.sb (fun _ _ => by simp) rfl hother (by rw [modC_self])
      (by rw [modC_self]) rfl hns) hi rfl rfl hother (by rw [modC_self]) (by rw [modC_self]) (by rw [modC_self])
      (by rw [modC_self]) (fun _ _ => hm ▸ g1.main) ?_ ?_ <;> intro _ <;> simp only [World.status, modC_self] <;> simp [Status.timed]
  · refine g1.settle (c := e.c) (fun d hd => by simp [hd]) (sb_current g1.sb (fun d hd => by simp [hd]) rfl hother (by rw [modC_self])
      (by rw [modC_self]) rfl hns) hi rfl rfl hother (by rw [modC_self]) (by rw [modC_self]) (by rw [modC_self])
      (by rw [modC_self]) ?_ ?_ ?_ <;> intro hh <;> exact absurd (Set.mem_insert _ _) hh

theorem stepEvent_good {w w' : World} (hg : Good ∅ w) (hp : (∀ d, (w.comps d).skipStandby = false) → w.pending = [])
    (h : stepEvent w = .ok w') : Good ∅ w' := by
  have hinv := stepEvent_inv hg.inv
  rw [h] at hinv
  unfold stepEvent at h
  simp only at h
  have g1 := good_turns hg hp
  generalize (if w.standby = [] then w else { w with pending := w.standby, standby := [] } : World) = w1 at g1 h
  split at h
  · rename_i e es hp
    have g2 := popped_good g1 hp
    split at h
    · rename_i hm
      cases h
      exact g2.1 hm
    · obtain ⟨g3, f3, n3⟩ := checkFail_good h g2.2
      have hcv : (w'.comps e.c).cv = _ := congrFun (congrArg EV.comps f3.ev) e.c
      have hst : w'.status e.c = .current := (congrArg CV.status hcv).trans (by simp [World.ev, Comp.cv, World.modC])
      refine g3.close (fun _ => n3) ?_ ?_ ?_ <;> rw [hst] <;> simp [Status.timed]
  · cases h
    have hother : ∀ d, d ≠ w1.main → (({ w1 with current := w1.main, atInf := if w1.endOnEmpty then w1.atInf else true } : World).modC w1.main
          (fun x => { x with onList := false, status := .current, schedTime := ⊤ })).comps d = w1.comps d := by
        intro d hd; exact modC_other hd _ _
    refine g1.settle (c := w1.main) (fun _ _ => Iff.rfl) (sb_current g1.sb (c := w1.main) (fun _ _ => by simp) rfl hother (by rw [modC_self])
          (by rw [modC_self]) rfl g1.sb.main) hinv rfl rfl hother (by rw [modC_self]) (by rw [modC_self])
      (by rw [modC_self]) (by rw [modC_self]) (fun _ _ => g1.main) ?_ ?_ <;> intro _ <;> simp only [World.status, modC_self] <;>
      simp [Status.timed]

/-- a component in standby gets its turn -/
theorem turn_good {w : World} {c : CId} {rest : List CId} (hg : Good ∅ w) (hl : w.pending = c :: rest) :
    Good ∅ ({ ({ w with pending := rest } : World).modC c (fun x => { x with status := .current, schedTime := ⊤ }) with current := c } : World) := by
  have hs : w.status c = .standby := (hg.sb.mem c (by simp [World.lined, hl])).2
  have hoff := off_of_status hg.inv (c := c) (.inr (.inr (.inr hs)))
  have hn := hg.idle c (by simp) (by rw [hs]; simp [Status.idle])
  have hother : ∀ d, d ≠ c → (({ w with pending := rest } : World).modC c (fun x => { x with status := .current, schedTime := ⊤ })).comps d =
      w.comps d := fun d hd => modC_other hd _ _
  have hself : ({ ({ w with pending := rest } : World).modC c (fun x => { x with status := .current, schedTime := ⊤ }) with
      current := c } : World).comps c = { w.comps c with status := .current, schedTime := ⊤ } := by simp [World.modC]
  have hlin : w.lined = c :: ({ ({ w with pending := rest } : World).modC c (fun x => { x with status := .current, schedTime := ⊤ }) with
      current := c } : World).lined := by simp [World.lined, hl, World.modC]
  have hnd := List.nodup_cons.1 (hlin ▸ hg.sb.nd)
  have hsb : SB ∅ ({ ({ w with pending := rest } : World).modC c (fun x => { x with status := .current, schedTime := ⊤ }) with
      current := c } : World) := by
    refine hg.sb.one (c := c) (fun _ _ => Iff.rfl) rfl hother (fun h d => ?_) hnd.2 (fun d hd => ?_) (fun h => absurd h hnd.1) (fun _ _ h => ?_)
      (fun _ h => ?_)
    · have := h d
      by_cases hd : d = c
      · subst hd; rw [hself] at this; exact this
      · exact (congrArg Comp.skipStandby (hother d hd)).symm.trans this
    · rw [hlin]; simp [hd]
    · simp [World.status, World.modC] at h
    · simp [World.status, World.modC] at h
  have hinv : ({ ({ w with pending := rest } : World).modC c (fun x => { x with status := .current, schedTime := ⊤ }) with
      current := c } : World).Inv := by
    have h1 : ({ w with pending := rest } : World).Inv := inv_congr hg.inv rfl rfl rfl rfl
    have h2 := modC_inv_off (f := fun x => { x with status := .current, schedTime := ⊤ }) h1 hoff.2 (fun _ => by rfl)
    exact inv_congr h2 rfl rfl rfl rfl
  refine hg.settle (c := c) (fun _ _ => Iff.rfl) hsb hinv rfl rfl hother (by rw [hself]) (by rw [hself]) (by rw [hself]) (by rw [hself])
    (fun _ _ => hn) ?_ ?_ <;> intro _ <;> simp [World.status, World.modC, Status.timed]

theorem step_good {w w' : World} (hg : Good ∅ w) (h : step w = .ok w') : Good ∅ w' := by
  unfold step at h
  split at h
  · rename_i hs
    exact stepEvent_good hg (fun h => absurd hs (by simp [h])) h
  · split at h
    · rename_i hp
      exact stepEvent_good hg (fun _ => hp) h
    · rename_i c rest hp
      simp only at h
      rw [if_pos (show ({ w with pending := rest } : World).status c = .standby from (hg.sb.mem c (by simp [World.lined, hp])).2)] at h
      cases h
      exact turn_good hg hp

theorem runStart_good {w w' : World} {d t p u k} (hg : Good ∅ w) (hm : w.status w.main = .current)
    (h : runStart d t p u k w = .ok w') : Good ∅ w' := by
  unfold runStart at h
  split at h
  · cases h
  · rename_i t' b _
    have g1 : Good ∅ ({ w with endOnEmpty := b } : World) := hg.congr rfl rfl rfl rfl rfl rfl rfl rfl
    exact good_resched g1 (fun _ _ => Iff.rfl) (hg.inv.not_on (.inl hm)) (.inl rfl) h (.inr (by simp [World.status] at hm ⊢; simp [hm]))

/-! ## histories -/

/-- Calls that return normally and do not use the model in one of these ways: a request as excluded by `ReqOK`; `run` from a
process; setting the remaining duration of a data component; the process of a component ending while it isn't current any more
(e.g. after a `hold` that is not yielded); the main component waiting for something; the number of an old component being used
again for another kind of component (with another `skip_standby`). -/
def Calm (fuel : Nat) (w : World) (o : Op) : Prop :=
  (∃ w', exec fuel o w = .ok w') ∧ OpOK w o ∧ match o with
  | .setRemaining c .. => w.status c ≠ .data
  | .terminate => w.status w.current = .current
  | .request c .. | .wait c .. | .waitFor c .. | .fromStore c .. | .toStore c .. | .standby c => c ≠ w.main
  | .create c _ _ _ _ _ s => (w.comps c).skipStandby = true → s = true
  | _ => True

theorem tr_user {w w' : World} {n : Nat} {f} (hg : Good ∅ w) (h : onQueue (.user n) f w = .ok w')
    (hk : ∀ q', f (w.queues (.user n)) = .ok q' → Queue.Kind w.now (w.queues (.user n)) q') : Good ∅ w' := (tr_queue hg rfl h hk).good

theorem reset_good {w : World} (hg : Good ∅ w) (q : QRef) {f : Queue → Queue} (hf : ∀ x, (f x).mem = x.mem) : Good ∅ (w.modQ q f) := by
  have hin : ∀ p, (w.modQ q f).inQ p = w.inQ p := by
    intro p
    simp only [World.inQ, World.modQ]
    split
    · rename_i hp; rw [hf, hp]
    · rfl
  refine ⟨inv_congr hg.inv rfl rfl rfl rfl, fun p => by rw [hin]; exact hg.nd p, hg.idle, hg.timed, hg.dat, fun p c hc => ?_, hg.main,
    hg.sb.congr rfl rfl (fun _ => rfl)⟩
  rw [hin] at hc; exact hg.coh p c hc

theorem exec_good {w w' : World} {fuel o} (hg : Good ∅ w) (hc : Calm fuel w o) (h : exec fuel o w = .ok w') : Good ∅ w' := by
  obtain ⟨hex, hok, hc⟩ := hc
  clear hex
  cases o <;> simp only [exec] at h
  case hold => exact hold_good hg h
  case passivate => exact passivate_good hg h
  case activate => exact (activate_good hg h).1
  case create => exact create_good hg hc h
  case interrupt => exact interrupt_good hg h
  case resume => exact resume_good hg h
  case standby => exact standby_good hg hc h
  case setRemaining => exact setRemaining_good hg hc h
  case cancel => exact cancel_good hg h
  case request => exact request_good hg hok hc h
  case release => exact (trRC_releaseArgs hg _ _ _ w' h).good
  case releaseAll => exact (trRC_releaseAll hg _ _ w' h).good
  case resRelease => exact (trRC_resRelease hg _ _ _ w' h).good
  case resSetCapacity => exact (trR_resSetCapacity hg _ _ _ w' h).good
  case wait => exact wait_good hg hc h
  case waitFor => exact waitFor_good hg hc h
  case stateSet => exact (trR_stateSet hg _ _ w' h).good
  case stateTrigger => exact (trR_stateTrigger hg _ _ _ _ w' h).good
  case fromStore => exact fromStore_good hg hc h
  case toStore => exact toStore_good hg hc h
  case rescan => exact (trR_rescan _ hg _ w' h).good
  case storeSetCapacity => exact (trR_storeSetCapacity _ hg _ _ w' h).good
  case storeEnter => exact ((trR_store ∅ fuel).1 _ _ _ _ hg w' h).good
  case storeLeave => exact ((trR_store ∅ fuel).2 _ _ _ hg w' h).good
  case enter c n => exact tr_user hg h fun q' hq' => Queue.run_kind (o := .enter c) hq'
  case enterSorted c n p => exact tr_user hg h fun q' hq' => Queue.run_kind (o := .enterSorted c p) hq'
  case enterAtHead c n => exact tr_user hg h fun q' hq' => Queue.run_kind (o := .enterAtHead c) hq'
  case enterInFrontOf c n p => exact tr_user hg h fun q' hq' => Queue.run_kind (o := .enterInFrontOf c p) hq'
  case enterBehind c n p => exact tr_user hg h fun q' hq' => Queue.run_kind (o := .enterBehind c p) hq'
  case leave c n => exact tr_user hg h fun q' hq' => Queue.run_kind (o := .leave c) hq'
  case setPriority c n p => exact tr_user hg h fun q' hq' => Queue.run_kind (o := .setPriority c p) hq'
  case insertAt c n i =>
    refine tr_user hg h fun q' hq' => ?_
    obtain ⟨_, _, x, hx⟩ := Queue.insertAt_ok hq'
    exact .entered _ _ _ _ hx
  case queueSetCapacity n k => cases h; exact reset_good hg _ fun _ => rfl
  case queueReset q => cases h; exact reset_good hg _ fun _ => rfl
  case runStart => exact runStart_good hg hok h
  case resetNow => cases h; exact hg.congr rfl rfl rfl rfl rfl rfl rfl rfl
  case step => exact step_good hg h
  case terminate => exact terminate_good hg hc h

theorem Fresh.good {w : World} (h : Fresh w) : Good ∅ w := by
  have hn : ∀ c, NoWait (w.comps c) := by
    intro c
    obtain ⟨b, hb⟩ := h.comps c
    rw [hb]; exact ⟨rfl, rfl, rfl, rfl⟩
  have hq : ∀ q, w.inQ q = [] := by
    intro q
    obtain ⟨k, hk⟩ := h.queues q
    simp [World.inQ, hk]
  have ho : ∀ c, (w.comps c).onList = false := by
    intro c
    obtain ⟨b, hb⟩ := h.comps c
    rw [hb]
  refine ⟨h.inv, fun q => by rw [hq]; exact List.nodup_nil, fun c _ _ => hn c, ?_, fun c _ _ => ho c, fun q c hc => (by rw [hq] at hc; cases hc), hn _, ?_⟩
  rotate_left
  · have hl : w.lined = [] := by simp [World.lined, h.pending, h.standby]
    have hst : ∀ c, w.status c ≠ .standby := by
      intro c
      obtain ⟨b, hb⟩ := h.comps c
      simp only [World.status, hb]
      split <;> simp
    exact ⟨by rw [hl]; exact List.nodup_nil, by simp [hl], fun _ c _ hs => absurd hs (hst c), hst _⟩
  intro c _ ht
  obtain ⟨b, hb⟩ := h.comps c
  simp only [World.status, hb] at ht
  split at ht <;> simp [Status.timed] at ht

theorem Reach.good {w : World} (h : Reach Calm w) : Good ∅ w := by
  induction h with
  | init hf => exact hf.good
  | op fuel o _ ho ih =>
    obtain ⟨w', hw'⟩ := ho.1
    rw [hw']
    exact exec_good ih ho hw'

end Verif
