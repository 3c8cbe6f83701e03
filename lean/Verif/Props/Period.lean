import Verif.Props.Slice

/-!
# Period monitors, C50
-/

namespace Verif
namespace Mon

/-! ## specification -/

/-- is it the start of a period -/
def PEvent.isNext : PEvent → Bool
  | .next => true
  | _ => false

/-- the number of periods started in a list of events -/
def started (h : List (Rat × PEvent)) : Nat := (h.filter (fun e => e.2.isNext)).length

/-- the last value tallied -/
def lastValue (v : Val) (h : List (Rat × PEvent)) : Val := h.foldl (fun c e => match e.2 with | .tally v _ => v | .next => c) v

/-- the number of periods started, and the tallies each with the period it belongs to: with n periods, the k-th started is number (k-1) mod n -/
def assignStep (n : Nat) (s : Nat × List (Nat × Rat × Val × Rat)) (e : Rat × PEvent) : Nat × List (Nat × Rat × Val × Rat) :=
  match e.2 with
  | .next => (s.1 + 1, s.2)
  | .tally v w => (s.1, if s.1 = 0 then s.2 else s.2 ++ [((s.1 - 1) % n, e.1, v, w)])

/-- the tallies with their period -/
def assigned (n : Nat) (h : List (Rat × PEvent)) : List (Nat × Rat × Val × Rat) := (h.foldl (assignStep n) (0, [])).2

theorem started_snoc (h : List (Rat × PEvent)) (e : Rat × PEvent) : started (h ++ [e]) = started h + if e.2.isNext then 1 else 0 := by
  unfold started
  rw [List.filter_append, List.length_append]
  congr 1
  by_cases hn : e.2.isNext = true <;> simp [hn]

theorem assign_fst (n : Nat) (h : List (Rat × PEvent)) : (h.foldl (assignStep n) (0, [])).1 = started h := by
  induction h using List.reverseRecOn with
  | nil => rfl
  | append_singleton h e ih =>
    rw [List.foldl_append, started_snoc, ← ih]
    obtain ⟨t, op⟩ := e
    cases op <;> rfl

theorem assigned_snoc (n : Nat) (h : List (Rat × PEvent)) (e : Rat × PEvent) : assigned n (h ++ [e]) =
    match e.2 with
    | .next => assigned n h
    | .tally v w => if started h = 0 then assigned n h else assigned n h ++ [((started h - 1) % n, e.1, v, w)] := by
  unfold assigned
  rw [List.foldl_append, ← assign_fst n h]
  obtain ⟨t, op⟩ := e
  cases op <;> rfl

/-- each tally after the start of the first period is assigned to one period, in order -/
theorem assigned_all (n : Nat) (h1 h2 : List (Rat × PEvent)) (t : Rat) (hno : ∀ e ∈ h1, e.2.isNext = false) :
    (assigned n (h1 ++ (t, .next) :: h2)).map (fun a => (a.2.1, a.2.2)) = h2.filterMap (fun e => match e.2 with | .tally v w => some (e.1, v, w) | .next => none) := by
  have h0 : ∀ h1 : List (Rat × PEvent), (∀ e ∈ h1, e.2.isNext = false) → started h1 = 0 ∧ assigned n h1 = [] := by
    intro h1 hno
    induction h1 using List.reverseRecOn with
    | nil => exact ⟨rfl, rfl⟩
    | append_singleton h e ih =>
      obtain ⟨a, b⟩ := ih (fun x hx => hno x (by simp [hx]))
      refine ⟨by rw [started_snoc, a, hno e (by simp)]; rfl, ?_⟩
      rw [assigned_snoc]
      obtain ⟨t, op⟩ := e
      cases op with
      | next => exact b
      | tally v w => simp only [a, if_true]; exact b
  induction h2 using List.reverseRecOn with
  | nil =>
    rw [assigned_snoc, (h0 h1 hno).2]
    rfl
  | append_singleton h e ih =>
    rw [List.append_cons, ← List.append_assoc, assigned_snoc, List.filterMap_append]
    obtain ⟨t', op⟩ := e
    cases op with
    | next => simp only; rw [← List.append_cons, ih]; simp
    | tally v w =>
      have : started (h1 ++ [(t, .next)] ++ h) ≠ 0 := by
        unfold started
        simp [PEvent.isNext]
      simp only [this, if_false]
      rw [List.map_append, ← List.append_cons, ih]
      simp

/-! ## the periods follow each other -/

theorem on_length (p : Periods) (i : Nat) (f : Monitor → Monitor) : (p.on i f).perperiod.length = p.perperiod.length := by
  unfold Periods.on; simp

theorem begin_length (p : Periods) (now : Rat) (i : Nat) : (p.begin now i).perperiod.length = p.perperiod.length := by
  unfold Periods.begin
  simp only
  split <;> simp [on_length]

theorem step_length (s : Periods × Nat) (e : Rat × PEvent) : (Periods.step s e).1.perperiod.length = s.1.perperiod.length := by
  obtain ⟨t, op⟩ := e
  cases op with
  | next => exact begin_length _ _ _
  | tally v w => unfold Periods.step Periods.tally; simp [on_length]

theorem run_snoc (s : Periods × Nat) (h : List (Rat × PEvent)) (e : Rat × PEvent) : Periods.run s (h ++ [e]) = Periods.step (Periods.run s h) e := by
  unfold Periods.run; rw [List.foldl_append]; rfl

/-- periods follow each other cyclically: the current period is (number of periods started - 1) mod n -/
theorem C50_cyclic (t0 : Rat) (parent : Monitor) (n : Nat) (h : List (Rat × PEvent)) :
    let s := Periods.run (periodsNew t0 parent n, 0) h
    s.1.perperiod.length = n ∧ s.2 = started h ∧ s.1.iperiod = if started h = 0 then 0 else (started h - 1) % n := by
  induction h using List.reverseRecOn with
  | nil => exact ⟨by simp [Periods.run, periodsNew], rfl, rfl⟩
  | append_singleton h e ih =>
    simp only at ih ⊢
    rw [run_snoc, started_snoc]
    obtain ⟨a, b, c⟩ := ih
    refine ⟨by rw [step_length, a], ?_⟩
    obtain ⟨t, op⟩ := e
    generalize Periods.run (periodsNew t0 parent n, 0) h = s at *
    cases op with
    | next =>
      refine ⟨by show s.2 + 1 = _; rw [b]; rfl, ?_⟩
      have : (s.1.begin t (s.2 % s.1.perperiod.length)).iperiod = s.2 % s.1.perperiod.length := by
        unfold Periods.begin
        simp only
        split <;> rfl
      show (s.1.begin t (s.2 % s.1.perperiod.length)).iperiod = _
      rw [this, a, b]
      simp [PEvent.isNext]
    | tally v w =>
      refine ⟨by show s.2 = _; rw [b]; rfl, ?_⟩
      show s.1.iperiod = _
      rw [c]; simp [PEvent.isNext]

/-! ## non level monitors -/

/-- the state of the monitor of a period: on or off, and its tallies -/
structure PState (m : Monitor) (on : Bool) (Z : List (Rat × Val × Rat)) : Prop where
  level : m.level = false
  full : m.statsOnly = false
  gen : m.generated = false
  type : m.xtype = .any
  on : m.on = on
  ht : m.t = Z.map (·.1)
  hx : m.x = Z.map (·.2.1)
  hw : m.weights = Z.map (·.2.2)

theorem PState.switch {m : Monitor} {b : Bool} {Z : List (Rat × Val × Rat)} (h : PState m b Z) (now : Rat) (b' : Bool) :
    PState (m.setMonitor now (some b')).1 b' Z := by
  rw [plain_setMonitor h.level h.full h.gen]
  refine ⟨h.level, h.full, h.gen, h.type, rfl, h.ht, h.hx, ?_⟩
  rw [weights_eq]; exact (weights_eq m).symm.trans h.hw

theorem PState.tally {m : Monitor} {b : Bool} {Z : List (Rat × Val × Rat)} (h : PState m b Z) (now : Rat) (v : Val) (w : Rat) :
    PState (m.doTally now v w).1 b (if b then Z ++ [(now, v, w)] else Z) := by
  unfold Monitor.doTally
  simp only [h.level, h.full, h.gen, Bool.false_eq_true, if_false]
  by_cases hon : m.on = true
  · have hb : b = true := by rw [← h.on]; exact hon
    simp only [hon, hb, if_true, h.type, XType.accepts]
    refine ⟨rfl, rfl, rfl, rfl, rfl, ?_, ?_, ?_⟩
    · simp [h.ht]
    · simp [h.hx]
    · rw [weights_eq]
      show weightsOf (m.weight.push m.x.length w) (m.x ++ [v]).length = _
      rw [List.length_append, List.length_singleton, weightsOf_push, ← weights_eq, h.hw]; simp
  · have hb : b = false := by rw [← h.on]; simpa using hon
    simp only [hon, hb, Bool.false_eq_true, if_false]
    refine ⟨rfl, rfl, rfl, h.type, by simp, h.ht, h.hx, ?_⟩
    rw [weights_eq]; exact (weights_eq m).symm.trans h.hw

theorem modify_get {l : List Monitor} {i j : Nat} {m : Monitor} (f : Monitor → Monitor) (h : l[i]? = some m) : (l.modify j f)[i]? = some (if j = i then f m else m) := by
  rw [List.getElem?_modify, h]
  by_cases hij : j = i <;> simp [hij]

/-- C50 for non level monitors: each tally made after the start of the first period is in exactly one of the period monitors, that of the period
(number of periods started - 1) mod n, with its moment, value and weight; only the monitor of the current period is on -/
theorem C50_plain (t0 : Rat) (parent : Monitor) (hl : parent.level = false) {n : Nat} (hn : 0 < n) (h : List (Rat × PEvent)) (i : Nat) (hi : i < n) :
    ∃ m, (Periods.run (periodsNew t0 parent n, 0) h).1.perperiod[i]? = some m ∧
      m.t.zip (m.x.zip m.weights) = ((assigned n h).filter (fun a => a.1 == i)).map (·.2) ∧
      (m.on = true ↔ 0 < started h ∧ (started h - 1) % n = i) := by
  suffices H : (Periods.run (periodsNew t0 parent n, 0) h).1.parent.level = false ∧
      ∃ m, (Periods.run (periodsNew t0 parent n, 0) h).1.perperiod[i]? = some m ∧
        PState m (decide (0 < started h ∧ (started h - 1) % n = i)) (((assigned n h).filter (fun a => a.1 == i)).map (·.2)) by
    obtain ⟨_, m, hm, hp⟩ := H
    refine ⟨m, hm, ?_, by rw [hp.on]; simp⟩
    rw [hp.ht, hp.hx, hp.hw, zip3]
  induction h using List.reverseRecOn with
  | nil =>
    refine ⟨hl, (create false none .any false false t0).1, ?_, ⟨rfl, rfl, rfl, rfl, rfl, rfl, rfl, rfl⟩⟩
    show (periodsNew t0 parent n).perperiod[i]? = _
    unfold periodsNew
    simp [hi, hl]
  | append_singleton h e ih =>
    obtain ⟨hpl, m, hm, hp⟩ := ih
    obtain ⟨c1, c2, c3⟩ := C50_cyclic t0 parent n h
    rw [run_snoc, started_snoc, assigned_snoc]
    generalize Periods.run (periodsNew t0 parent n, 0) h = s at *
    obtain ⟨t, op⟩ := e
    have hlev : ∀ (M : Monitor) (t : Rat) (v : Val) (w : Rat), M.level = false → (M.doTally t v w).1.level = false := by
      intro M t v w hM
      unfold Monitor.doTally Monitor.addStats
      simp only [hM, Bool.false_eq_true, if_false]
      repeat' split
      all_goals first | exact hM | rfl
    cases op with
    | tally v w =>
      refine ⟨hlev _ _ _ _ hpl, ?_⟩
      show ∃ m, (s.1.perperiod.modify s.1.iperiod (fun m => (m.doTally t v w).1))[i]? = some m ∧ _
      refine ⟨_, modify_get _ hm, ?_⟩
      simp only [PEvent.isNext, Bool.false_eq_true, if_false, Nat.add_zero]
      by_cases hz : started h = 0
      · -- before the first period
        simp only [hz, if_true]
        rw [hz] at hp
        have hp' : PState m false (((assigned n h).filter (fun a => a.1 == i)).map (·.2)) := by simpa using hp
        by_cases hii : s.1.iperiod = i
        · rw [if_pos hii]
          simpa using hp'.tally t v w
        · rw [if_neg hii]
          simpa using hp'
      · simp only [hz, if_false]
        rw [if_neg hz] at c3
        have hpos : 0 < started h := Nat.pos_of_ne_zero hz
        by_cases hii : s.1.iperiod = i
        · rw [if_pos hii]
          have hd : decide (0 < started h ∧ (started h - 1) % n = i) = true := by simp [hpos, ← c3, hii]
          rw [hd] at hp ⊢
          have := hp.tally t v w
          rw [if_pos rfl] at this
          rw [List.filter_append, List.map_append]
          have e1 : ((started h - 1) % n == i) = true := by simp [← c3, hii]
          simpa [e1] using this
        · rw [if_neg hii]
          rw [List.filter_append, List.map_append]
          have e1 : ((started h - 1) % n == i) = false := by simp [← c3, hii]
          simpa [e1] using hp
    | next =>
      have hbeg : (s.1.begin t (s.2 % s.1.perperiod.length)).perperiod =
          (s.1.perperiod.modify s.1.iperiod (fun m => (m.setMonitor t (some false)).1)).modify (s.2 % s.1.perperiod.length) (fun m => (m.setMonitor t (some true)).1) ∧
          (s.1.begin t (s.2 % s.1.perperiod.length)).parent = s.1.parent := by
        unfold Periods.begin Periods.on
        simp only [hpl, Bool.false_eq_true, if_false]
        simp
      refine ⟨by show (s.1.begin t (s.2 % s.1.perperiod.length)).parent.level = false; rw [hbeg.2]; exact hpl, ?_⟩
      show ∃ m, (s.1.begin t (s.2 % s.1.perperiod.length)).perperiod[i]? = some m ∧ _
      rw [hbeg.1, c1, c2]
      refine ⟨_, modify_get _ (modify_get _ hm), ?_⟩
      simp only [PEvent.isNext, if_true, Nat.add_sub_cancel, Nat.succ_pos, true_and]
      -- the monitor of this period after switching off the old one
      have hp1 : PState (if s.1.iperiod = i then (m.setMonitor t (some false)).1 else m) false (((assigned n h).filter (fun a => a.1 == i)).map (·.2)) := by
        by_cases hii : s.1.iperiod = i
        · rw [if_pos hii]; exact hp.switch t false
        · rw [if_neg hii]
          have hd : decide (0 < started h ∧ (started h - 1) % n = i) = false := by
            rw [decide_eq_false_iff_not]
            rintro ⟨a, b⟩
            rw [if_neg (by omega)] at c3
            exact hii (c3.trans b)
          rw [hd] at hp
          exact hp
      generalize (if s.1.iperiod = i then (m.setMonitor t (some false)).1 else m) = m1 at hp1
      by_cases hni : started h % n = i
      · rw [if_pos hni]; simpa [hni] using hp1.switch t true
      · rw [if_neg hni]; simpa [hni] using hp1

/-! ## level monitors -/

/-- the period with this number of periods started -/
def period (n k : Nat) : Nat := if k = 0 then 0 else (k - 1) % n

/-- what happens to the monitor of period i, with the number of periods started and the value of the parent -/
def histStep (n i : Nat) (s : Nat × Val × List (Rat × Op)) (e : Rat × PEvent) : Nat × Val × List (Rat × Op) :=
  match e.2 with
  | .next => (s.1 + 1, s.2.1, s.2.2 ++ ((if period n s.1 = i then [(e.1, .monitor false)] else []) ++
      (if s.1 % n = i then [(e.1, .tally s.2.1 1), (e.1, .monitor true)] else [])))
  | .tally v w => (s.1, v, s.2.2 ++ if period n s.1 = i then [(e.1, .tally v w)] else [])

/-- the operations on the monitor of period i -/
def hist (n i : Nat) (v : Val) (h : List (Rat × PEvent)) : Nat × Val × List (Rat × Op) := h.foldl (histStep n i) (0, v, [])

theorem hist_snoc (n i : Nat) (v : Val) (h : List (Rat × PEvent)) (e : Rat × PEvent) : hist n i v (h ++ [e]) = histStep n i (hist n i v h) e := by
  unfold hist; rw [List.foldl_append]; rfl

theorem lastValue_snoc (v : Val) (h : List (Rat × PEvent)) (e : Rat × PEvent) :
    lastValue v (h ++ [e]) = match e.2 with | .tally v _ => v | .next => lastValue v h := by
  unfold lastValue; rw [List.foldl_append]; rfl

theorem hist_state (n i : Nat) (v : Val) (h : List (Rat × PEvent)) : (hist n i v h).1 = started h ∧ (hist n i v h).2.1 = lastValue v h := by
  induction h using List.reverseRecOn with
  | nil => exact ⟨rfl, rfl⟩
  | append_singleton h e ih =>
    rw [hist_snoc, started_snoc, lastValue_snoc, ← ih.1, ← ih.2]
    obtain ⟨t, op⟩ := e
    cases op <;> exact ⟨rfl, rfl⟩

/-- tallies that a level monitor accepts: values other than off, weight 1 -/
def FineE (off : Val) : PEvent → Prop
  | .tally v w => w = 1 ∧ v ≠ off ∧ v ≠ .ninf
  | .next => True

/-- the moments do not decrease -/
def ChronoE (t0 : Rat) (h : List (Rat × PEvent)) (now : Rat) : Prop := (t0 :: (h.map (·.1) ++ [now])).Pairwise (· ≤ ·)

theorem chronoE_snoc {t0 now : Rat} {h : List (Rat × PEvent)} {e : Rat × PEvent} : ChronoE t0 (h ++ [e]) now ↔ ChronoE t0 h e.1 ∧ e.1 ≤ now := by
  have key := @chrono_snoc t0 now (h.map (fun e => (e.1, Op.addNow))) (e.1, Op.addNow)
  unfold Chrono at key
  unfold ChronoE
  simpa [List.map_append, Function.comp_def] using key

theorem chronoE_le {t0 now : Rat} {h : List (Rat × PEvent)} (hc : ChronoE t0 h now) : ∀ e ∈ h, e.1 ≤ now := by
  intro e he
  unfold ChronoE at hc
  have := (List.pairwise_cons.1 hc).2
  exact (List.pairwise_append.1 this).2.2 e.1 (List.mem_map_of_mem he) now (by simp)

/-- the operations on the monitor of a period are in order of time, and accepted -/
theorem hist_fine {n i : Nat} {v off : Val} {t0 : Rat} {h : List (Rat × PEvent)} : ∀ {now : Rat}, ChronoE t0 h now → (∀ e ∈ h, FineE off e.2) → v ≠ .ninf →
    Chrono t0 (hist n i v h).2.2 now ∧ (∀ e ∈ (hist n i v h).2.2, Fine .any e.2 ∧ (∀ b s, e.2 ≠ .reset b s)) ∧ (hist n i v h).2.1 ≠ .ninf := by
  induction h using List.reverseRecOn with
  | nil =>
    intro now hc _ hv
    refine ⟨?_, by simp [hist], hv⟩
    unfold ChronoE at hc
    unfold Chrono
    simpa [hist] using hc
  | append_singleton h e ih =>
    intro now hc hf hv
    rw [chronoE_snoc] at hc
    obtain ⟨a, b, c⟩ := ih hc.1 (fun x hx => hf x (by simp [hx])) hv
    have hfe := hf e (by simp)
    rw [hist_snoc]
    generalize hist n i v h = s at *
    obtain ⟨t, op⟩ := e
    have happ : ∀ l : List (Rat × Op), (∀ x ∈ l, x.1 = t) → Chrono t0 (s.2.2 ++ l) now := by
      intro l hl
      have hgo : ∀ l : List (Rat × Op), (∀ x ∈ l, x.1 = t) → Chrono t0 (s.2.2 ++ l) t := by
        intro l hl
        induction l using List.reverseRecOn with
        | nil => rw [List.append_nil]; exact a
        | append_singleton l x ihl =>
          rw [← List.append_assoc, chrono_snoc, hl x (by simp)]
          exact ⟨ihl (fun y hy => hl y (by simp [hy])), le_rfl⟩
      have := hgo l hl
      unfold Chrono at this ⊢
      rw [List.pairwise_cons] at this ⊢
      obtain ⟨p, q⟩ := this
      rw [List.pairwise_append] at q ⊢
      obtain ⟨q1, q2, q3⟩ := q
      have ht : t ≤ now := hc.2
      refine ⟨?_, q1, by simp, ?_⟩
      · intro x hx
        rcases List.mem_append.1 hx with hx | hx
        · exact p x (by simp only [List.mem_append]; exact Or.inl hx)
        · simp at hx; subst hx
          exact le_trans (p t (by simp)) ht
      · intro x hx y hy
        simp at hy; subst hy
        exact le_trans (q3 x hx t (by simp)) ht
    cases op with
    | next =>
      refine ⟨happ _ ?_, ?_, c⟩
      · intro x hx
        rcases List.mem_append.1 hx with hx | hx
        · split at hx
          · simp at hx; subst hx; rfl
          · simp at hx
        · split at hx
          · simp at hx; rcases hx with rfl | rfl <;> rfl
          · simp at hx
      · intro x hx
        rcases List.mem_append.1 hx with hx | hx
        · exact b x hx
        · rcases List.mem_append.1 hx with hx | hx
          · split at hx
            · simp at hx; subst hx; exact ⟨trivial, by simp⟩
            · simp at hx
          · split at hx
            · simp at hx
              rcases hx with rfl | rfl
              · exact ⟨⟨rfl, rfl, c⟩, by simp⟩
              · exact ⟨trivial, by simp⟩
            · simp at hx
    | tally v' w =>
      obtain ⟨w1, w2, w3⟩ := hfe
      refine ⟨happ _ ?_, ?_, w3⟩
      · intro x hx
        split at hx
        · simp at hx; subst hx; rfl
        · simp at hx
      · intro x hx
        rcases List.mem_append.1 hx with hx | hx
        · exact b x hx
        · split at hx
          · simp at hx; subst hx; exact ⟨⟨w1, rfl, w3⟩, by simp⟩
          · simp at hx

/-- only what happened up to a moment counts for the signal at that moment -/
theorem hist_filter {n i : Nat} {v : Val} {t0 τ : Rat} {h : List (Rat × PEvent)} : ∀ {now : Rat}, ChronoE t0 h now →
    (hist n i v h).2.2.filter (fun e => decide (e.1 ≤ τ)) = (hist n i v (h.filter (fun e => decide (e.1 ≤ τ)))).2.2 ∧ ∀ x ∈ (hist n i v h).2.2, ∃ e ∈ h, x.1 = e.1 := by
  induction h using List.reverseRecOn with
  | nil => intro now _; exact ⟨rfl, by simp [hist]⟩
  | append_singleton h e ih =>
    intro now hc
    rw [chronoE_snoc] at hc
    obtain ⟨i1, i2⟩ := ih hc.1
    have hmem : ∀ x ∈ (hist n i v (h ++ [e])).2.2, ∃ e' ∈ h ++ [e], x.1 = e'.1 := by
      intro x hx
      rw [hist_snoc] at hx
      obtain ⟨t, op⟩ := e
      cases op with
      | next =>
        rcases List.mem_append.1 hx with hx | hx
        · obtain ⟨e', h1, h2⟩ := i2 x hx; exact ⟨e', by simp [h1], h2⟩
        · refine ⟨(t, .next), by simp, ?_⟩
          rcases List.mem_append.1 hx with hx | hx
          · split at hx
            · simp at hx; subst hx; rfl
            · simp at hx
          · split at hx
            · simp at hx; rcases hx with rfl | rfl <;> rfl
            · simp at hx
      | tally v w =>
        rcases List.mem_append.1 hx with hx | hx
        · obtain ⟨e', h1, h2⟩ := i2 x hx; exact ⟨e', by simp [h1], h2⟩
        · refine ⟨(t, .tally v w), by simp, ?_⟩
          split at hx
          · simp at hx; subst hx; rfl
          · simp at hx
    refine ⟨?_, hmem⟩
    by_cases hle : e.1 ≤ τ
    · have hall : ∀ x ∈ h ++ [e], decide (x.1 ≤ τ) = true := by
        intro x hx
        rcases List.mem_append.1 hx with hx | hx
        · simpa using le_trans (chronoE_le hc.1 x hx) hle
        · simp at hx; subst hx; simpa using hle
      rw [List.filter_eq_self.2 hall, List.filter_eq_self.2]
      intro x hx
      obtain ⟨e', h1, h2⟩ := hmem x hx
      rw [h2]; exact hall e' h1
    · rw [List.filter_append, List.filter_singleton]
      simp only [hle, decide_false, cond_false, List.append_nil]
      rw [← i1, hist_snoc]
      obtain ⟨t, op⟩ := e
      have hle' : ¬ t ≤ τ := hle
      cases op with
      | next =>
        simp only [histStep, List.filter_append]
        have : ∀ l : List (Rat × Op), (∀ x ∈ l, x.1 = t) → l.filter (fun e => decide (e.1 ≤ τ)) = [] := by
          intro l hl
          rw [List.filter_eq_nil_iff]
          intro x hx; rw [hl x hx]; simpa using hle'
        have e1 := this (if period n (hist n i v h).1 = i then [(t, Op.monitor false)] else []) (by intro x hx; split at hx <;> simp at hx; subst hx; rfl)
        have e2 := this (if (hist n i v h).1 % n = i then [(t, Op.tally (hist n i v h).2.1 1), (t, Op.monitor true)] else []) (by
          intro x hx
          split at hx
          · simp at hx; rcases hx with rfl | rfl <;> rfl
          · simp at hx)
        rw [e1, e2, List.append_nil, List.append_nil]
      | tally v w =>
        simp only [histStep, List.filter_append]
        split
        · simp [hle']
        · simp

/-- the signal of the monitor of a period: on during the period only, with the value of the parent -/
theorem hist_signal {n i : Nat} (hn : 0 < n) {v : Val} {t0 : Rat} (h : List (Rat × PEvent)) :
    let g := signal (born none false t0) (hist n i v h).2.2
    (g.on = decide (0 < started h ∧ (started h - 1) % n = i)) ∧ (g.on = true → g.cur = lastValue v h) ∧ g.start = t0 := by
  induction h using List.reverseRecOn with
  | nil => exact ⟨rfl, by intro h; simp [signal, hist, born] at h, rfl⟩
  | append_singleton h e ih =>
    simp only at ih ⊢
    rw [hist_snoc, started_snoc, lastValue_snoc]
    obtain ⟨s1, s2⟩ := hist_state n i v h
    generalize hist n i v h = s at *
    obtain ⟨i1, i2, i3⟩ := ih
    obtain ⟨t, op⟩ := e
    cases op with
    | next =>
      simp only [histStep, PEvent.isNext, if_true, Nat.add_sub_cancel, Nat.succ_pos, true_and]
      unfold signal at *
      rw [List.foldl_append, List.foldl_append]
      generalize List.foldl Sig.step (born none false t0) s.2.2 = g at *
      rw [s1, s2]
      -- after switching off
      have hoff : (List.foldl Sig.step g (if period n (started h) = i then [(t, Op.monitor false)] else [])).on = false ∧
          (List.foldl Sig.step g (if period n (started h) = i then [(t, Op.monitor false)] else [])).start = t0 := by
        by_cases hp : period n (started h) = i
        · rw [if_pos hp]; exact ⟨rfl, i3⟩
        · rw [if_neg hp]
          refine ⟨?_, i3⟩
          show g.on = false
          rw [i1, decide_eq_false_iff_not]
          rintro ⟨a, b⟩
          unfold period at hp
          rw [if_neg (by omega)] at hp
          exact hp b
      generalize List.foldl Sig.step g (if period n (started h) = i then [(t, Op.monitor false)] else []) = g1 at *
      by_cases hq : started h % n = i
      · simp only [hq, if_true, decide_true]
        exact ⟨rfl, fun _ => rfl, hoff.2⟩
      · simp only [hq, if_false, decide_false]
        refine ⟨hoff.1, ?_, hoff.2⟩
        intro hx
        rw [show List.foldl Sig.step g1 [] = g1 from rfl, hoff.1] at hx
        cases hx
    | tally v' w =>
      simp only [histStep, PEvent.isNext, Bool.false_eq_true, if_false, Nat.add_zero]
      unfold signal at *
      rw [List.foldl_append]
      generalize List.foldl Sig.step (born none false t0) s.2.2 = g at *
      rw [s1]
      by_cases hp : period n (started h) = i
      · rw [if_pos hp]
        exact ⟨i1, fun _ => rfl, i3⟩
      · rw [if_neg hp]
        refine ⟨i1, ?_, i3⟩
        intro hx
        exfalso
        rw [show List.foldl Sig.step g [] = g from rfl, i1, decide_eq_true_eq] at hx
        unfold period at hp
        rw [if_neg (by omega)] at hp
        exact hp hx.2

theorem put_tally (m : Monitor) (now : Rat) (v : Val) : (m.put now v).1.tally = m.tally ∧ (m.put now v).1.level = m.level ∧ (m.put now v).1.statsOnly = m.statsOnly ∧
    (m.put now v).1.generated = m.generated ∧ (m.put now v).1.off = m.off := by
  unfold Monitor.put
  repeat' split
  all_goals exact ⟨rfl, rfl, rfl, rfl, rfl⟩

theorem level_tally {m : Monitor} (h1 : m.level = true) (h2 : m.statsOnly = false) (h3 : m.generated = false) (now : Rat) {v : Val} (hv : v ≠ m.off) :
    let m' := (m.doTally now v 1).1
    m'.tally = v ∧ m'.level = true ∧ m'.statsOnly = false ∧ m'.generated = false ∧ m'.off = m.off := by
  unfold Monitor.doTally
  simp only [h1, h2, h3, Bool.false_eq_true, if_false, if_true, ne_eq, not_true_eq_false]
  split
  · rename_i h; exact absurd h hv
  · split
    · obtain ⟨a, b, c, d, e⟩ := put_tally { m with level := true, statsOnly := false, generated := false, cache := [], tally := v, ttally := now } now v
      exact ⟨a, b, c, d, e⟩
    · exact ⟨rfl, rfl, rfl, rfl, rfl⟩

/-- the monitor of period i is the result of its operations -/
theorem perperiod_run {t0 : Rat} {parent : Monitor} (hl : parent.level = true) (hs : parent.statsOnly = false) (hg : parent.generated = false)
    {n : Nat} (hn : 0 < n) {i : Nat} (hi : i < n) (h : List (Rat × PEvent)) (hf : ∀ e ∈ h, FineE parent.off e.2) :
    let s := Periods.run (periodsNew t0 parent n, 0) h
    (s.1.parent.level = true ∧ s.1.parent.statsOnly = false ∧ s.1.parent.generated = false ∧ s.1.parent.off = parent.off ∧ s.1.parent.tally = lastValue parent.tally h) ∧
      s.1.perperiod[i]? = some ((create true none .any false false t0).1.run (hist n i parent.tally h).2.2) := by
  induction h using List.reverseRecOn with
  | nil =>
    refine ⟨⟨hl, hs, hg, rfl, rfl⟩, ?_⟩
    show (periodsNew t0 parent n).perperiod[i]? = _
    unfold periodsNew
    simp [hi, hl, hist, Monitor.run]
  | append_singleton h e ih =>
    simp only at ih ⊢
    obtain ⟨⟨p1, p2, p3, p4, p5⟩, hm⟩ := ih (fun x hx => hf x (by simp [hx]))
    obtain ⟨c1, c2, c3⟩ := C50_cyclic t0 parent n h
    obtain ⟨q1, q2⟩ := hist_state n i parent.tally h
    have hfe := hf e (by simp)
    rw [run_snoc, lastValue_snoc, hist_snoc]
    generalize Periods.run (periodsNew t0 parent n, 0) h = s at *
    generalize hist n i parent.tally h = s' at *
    have hper : s.1.iperiod = period n s'.1 := by rw [c3, q1]; rfl
    obtain ⟨t, op⟩ := e
    cases op with
    | tally v w =>
      obtain ⟨w1, w2, w3⟩ := hfe
      subst w1
      obtain ⟨a1, a2, a3, a4, a5⟩ := level_tally p1 p2 p3 t (v := v) (by rw [p4]; exact w2)
      refine ⟨⟨a2, a3, a4, a5.trans p4, a1⟩, ?_⟩
      show (s.1.perperiod.modify s.1.iperiod (fun m => (m.doTally t v 1).1))[i]? = _
      rw [modify_get _ hm, hper]
      simp only [histStep]
      unfold Monitor.run
      rw [List.foldl_append]
      by_cases hp : period n s'.1 = i
      · rw [if_pos hp, if_pos hp]; rfl
      · rw [if_neg hp, if_neg hp]; rfl
    | next =>
      have hbeg : (s.1.begin t (s.2 % s.1.perperiod.length)).perperiod =
          ((s.1.perperiod.modify s.1.iperiod (fun m => (m.setMonitor t (some false)).1)).modify (s.2 % s.1.perperiod.length) (fun m => (m.doTally t s.1.parent.tally 1).1)).modify
            (s.2 % s.1.perperiod.length) (fun m => (m.setMonitor t (some true)).1) ∧
          (s.1.begin t (s.2 % s.1.perperiod.length)).parent = s.1.parent := by
        unfold Periods.begin Periods.on
        simp only [p1, if_true]
        simp
      refine ⟨?_, ?_⟩
      · show (s.1.begin t (s.2 % s.1.perperiod.length)).parent.level = true ∧ (s.1.begin t (s.2 % s.1.perperiod.length)).parent.statsOnly = false ∧
          (s.1.begin t (s.2 % s.1.perperiod.length)).parent.generated = false ∧ (s.1.begin t (s.2 % s.1.perperiod.length)).parent.off = parent.off ∧
          (s.1.begin t (s.2 % s.1.perperiod.length)).parent.tally = lastValue parent.tally h
        rw [hbeg.2]
        exact ⟨p1, p2, p3, p4, p5⟩
      · show (s.1.begin t (s.2 % s.1.perperiod.length)).perperiod[i]? = _
        rw [hbeg.1, modify_get _ (modify_get _ (modify_get _ hm)), c1, c2, hper, p5, ← q1, ← q2]
        simp only [histStep]
        unfold Monitor.run
        rw [List.foldl_append, List.foldl_append]
        by_cases hp : period n s'.1 = i
        · by_cases hq : s'.1 % n = i
          · rw [if_pos hp, if_pos hp, if_pos hq, if_pos hq, if_pos hq]; rfl
          · rw [if_pos hp, if_pos hp, if_neg hq, if_neg hq, if_neg hq]; rfl
        · by_cases hq : s'.1 % n = i
          · rw [if_neg hp, if_neg hp, if_pos hq, if_pos hq, if_pos hq]; rfl
          · rw [if_neg hp, if_neg hp, if_neg hq, if_neg hq, if_neg hq]; rfl

/-- C50 for level monitors: at each moment, the monitor of the period that is current at that moment has the value of the parent, and all other period monitors
are off; before the first period all are off -/
theorem C50_level {t0 : Rat} {parent : Monitor} (hl : parent.level = true) (hs : parent.statsOnly = false) (hg : parent.generated = false) (hv : parent.tally ≠ .ninf)
    {n : Nat} (hn : 0 < n) {i : Nat} (hi : i < n) {h : List (Rat × PEvent)} {now : Rat} (hc : ChronoE t0 h now) (hf : ∀ e ∈ h, FineE parent.off e.2)
    {τ : Rat} (h1 : t0 ≤ τ) (h2 : τ < now) :
    ∃ m, (Periods.run (periodsNew t0 parent n, 0) h).1.perperiod[i]? = some m ∧
      m.get now 0 (some τ) = .ok (let g := h.filter (fun e => decide (e.1 ≤ τ))
        if 0 < started g ∧ (started g - 1) % n = i then lastValue parent.tally g else .ninf) := by
  obtain ⟨_, hm⟩ := perperiod_run (t0 := t0) hl hs hg hn hi h hf
  refine ⟨_, hm, ?_⟩
  obtain ⟨a, b, _⟩ := hist_fine (n := n) (i := i) (v := parent.tally) hc hf hv
  have hst : (signal (born none false t0) (hist n i parent.tally h).2.2).start = t0 := (hist_signal hn h).2.2
  rw [C18_value_at (ty := .any) (v := none) rfl (by decide) a (fun e he => (b e he).1) 0 τ (by rw [hst, add_zero]; exact h1) (by rw [add_zero]; exact h2)]
  congr 1
  rw [add_zero]
  unfold signalAt
  rw [(hist_filter hc).1]
  simp only
  obtain ⟨k1, k2, _⟩ := hist_signal (n := n) (i := i) hn (v := parent.tally) (t0 := t0) (h.filter (fun e => decide (e.1 ≤ τ)))
  unfold Sig.val
  by_cases hcase : 0 < started (h.filter (fun e => decide (e.1 ≤ τ))) ∧ (started (h.filter (fun e => decide (e.1 ≤ τ))) - 1) % n = i
  · rw [decide_eq_true hcase] at k1
    rw [if_pos k1, if_pos hcase, k2 k1]
  · rw [decide_eq_false hcase] at k1
    rw [if_neg (by rw [k1]; simp), if_neg hcase]
    rfl

/-- three periods, the tallies of two rounds -/
example :
    let p := (create false none .any false true 0).1
    let h : List (Rat × PEvent) := [(0, .next), (1, .tally (.num 10) 1), (2, .next), (3, .tally (.num 20) 1), (4, .next), (6, .next), (7, .tally (.num 30) 2)]
    (Periods.run (periodsNew 0 p 3, 0) h).1.perperiod.map (·.x) = [[.num 10, .num 30], [.num 20], []] ∧
      assigned 3 h = [(0, 1, .num 10, 1), (1, 3, .num 20, 1), (0, 7, .num 30, 2)] := by decide +kernel

/-- a history that meets the hypotheses of `C50_level` -/
example :
    let p := (create true (some (.num 1)) .any false true 0).1
    let h : List (Rat × PEvent) := [(0, .next), (1, .tally (.num 10) 1), (2, .next), (3, .tally (.num 20) 1), (4, .next)]
    (Periods.run (periodsNew 0 p 2, 0) h).1.perperiod.map (fun m => [m.get 6 0 (some (1 / 2)), m.get 6 0 (some 1), m.get 6 0 (some (5 / 2)), m.get 6 0 (some 3), m.get 6 0 (some 5)]) =
      [[.ok (.num 1), .ok (.num 10), .ok .ninf, .ok .ninf, .ok (.num 20)], [.ok .ninf, .ok .ninf, .ok (.num 10), .ok (.num 20), .ok .ninf]] := by decide +kernel

/-- a tally before the process of the period monitor starts is in none of the period monitors -/
theorem C50_early_counterexample :
    let p := (create false none .any false true 0).1
    (Periods.run (periodsNew 0 p 3, 0) [(0, .tally (.num 10) 1), (0, .next)]).1.perperiod.map (·.x) = [[], [], []] ∧
      (Periods.run (periodsNew 0 p 3, 0) [(0, .tally (.num 10) 1), (0, .next)]).1.parent.x = [.num 10] := by decide +kernel

/-- with a second period monitor on one monitor, tallying never ends: the patched method calls itself. The first period monitor gets nothing. -/
theorem C50_two_counterexample (fuel : Nat) : (Patched.add (Patched.add {})).call fuel .patched = none := by
  induction fuel with
  | zero => rfl
  | succ f ih =>
    show ((Patched.add (Patched.add {})).call f (Patched.add (Patched.add {})).orgTally).map _ = none
    rw [show (Patched.add (Patched.add {})).orgTally = Method.patched from rfl, ih]
    rfl

/-- with one period monitor a tally is done twice: in the period monitor and in the monitor itself -/
theorem C50_one (fuel : Nat) : (Patched.add {}).call (fuel + 2) .patched = some 2 := rfl

end Mon
end Verif
