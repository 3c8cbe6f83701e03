import Verif.Props.MonMerge

/-!
# Merging, mapping and scaling: non level monitors, C22 and C26

What a monitor contains is given as a list of (moment, value, weight).
-/

namespace Verif
namespace Mon

/-- the tallies of a non level monitor, with moment and weight -/
structure PlainOk (now : Rat) (m : Monitor) (Z : List (Rat × Val × Rat)) : Prop where
  level : m.level = false
  full : m.statsOnly = false
  ht : m.t = Z.map (·.1)
  hx : m.x = Z.map (·.2.1)
  hw : m.weights = Z.map (·.2.2)
  sorted : Z.Pairwise (fun a b => a.1 ≤ b.1)
  past : ∀ z ∈ Z, z.1 ≤ now

/-- the weights that `_weight` stands for, with n tallies -/
def weightsOf (ws : Weights) (n : Nat) : List Rat :=
  match ws with
  | .list (w :: l) => w :: l
  | _ => List.replicate n 1

theorem weights_eq (m : Monitor) : m.weights = weightsOf m.weight m.x.length := by
  unfold Monitor.weights weightsOf
  split <;> simp_all

theorem weightsOf_push (ws : Weights) (n : Nat) (w : Rat) : weightsOf (ws.push n w) (n + 1) = weightsOf ws n ++ [w] := by
  cases ws with
  | no =>
    unfold Weights.push
    by_cases h : w = 1
    · simp [h, weightsOf, List.replicate_succ']
    · simp only [h, if_false]
      cases n <;> simp [weightsOf, List.replicate_succ]
  | yes =>
    unfold Weights.push
    by_cases h : w = 1
    · simp [h, weightsOf, List.replicate_succ']
    · simp only [h, if_false]
      cases n <;> simp [weightsOf, List.replicate_succ]
  | list l =>
    unfold Weights.push
    cases l with
    | nil =>
      by_cases h : w = 1
      · simp [h, weightsOf, List.replicate_succ']
      · simp only [h, false_and, if_false, if_true]
        cases n <;> simp [weightsOf, List.replicate_succ]
    | cons a l => simp [weightsOf]

/-- operations that a non level monitor accepts: values of the type, any weight, and no change to stats_only -/
def FineP (ty : XType) : Op → Prop
  | .tally v _ => ty.accepts v = true
  | .reset _ s => s ≠ some true
  | _ => True

/-- a non level monitor after one more tally -/
theorem PlainOk.add {m m' : Monitor} {Z : List (Rat × Val × Rat)} {t0 now : Rat} (h : PlainOk t0 m Z) (ht : t0 ≤ now) {v : Val} {w : Rat}
    (h1 : m'.level = m.level) (h2 : m'.statsOnly = m.statsOnly) (h3 : m'.t = m.t ++ [now]) (h4 : m'.x = m.x ++ [v]) (h5 : m'.weight = m.weight.push m.x.length w) :
    PlainOk now m' (Z ++ [(now, v, w)]) := by
  refine ⟨h1.trans h.level, h2.trans h.full, by rw [h3, h.ht]; simp, by rw [h4, h.hx]; simp, ?_, ?_, ?_⟩
  · rw [weights_eq, h5, h4, List.length_append, List.length_singleton, weightsOf_push, ← weights_eq, h.hw]; simp
  · rw [List.pairwise_append]
    exact ⟨h.sorted, by simp, fun a ha b hb => by simp at hb; subst hb; exact le_trans (h.past a ha) ht⟩
  · intro z hz
    rcases List.mem_append.1 hz with hz | hz
    · exact le_trans (h.past z hz) ht
    · simp at hz; subst hz; exact le_rfl

theorem PlainOk.same {m m' : Monitor} {Z : List (Rat × Val × Rat)} {t0 now : Rat} (h : PlainOk t0 m Z) (ht : t0 ≤ now)
    (h1 : m'.level = m.level) (h2 : m'.statsOnly = m.statsOnly) (h3 : m'.t = m.t) (h4 : m'.x = m.x) (h5 : m'.weight = m.weight) : PlainOk now m' Z :=
  ⟨h1.trans h.level, h2.trans h.full, h3.trans h.ht, h4.trans h.hx, by rw [weights_eq, h5, h4, ← weights_eq, h.hw], h.sorted, fun z hz => le_trans (h.past z hz) ht⟩

theorem plain_setMonitor {m : Monitor} (hl : m.level = false) (hs : m.statsOnly = false) (hg : m.generated = false) (now : Rat) (b : Option Bool) :
    (m.setMonitor now b).1 = { m with on := b.getD m.on } := by
  cases b with
  | none => rfl
  | some b => cases b <;> simp [Monitor.setMonitor, hl, hs, hg]

theorem plainOk_apply {ty : XType} {m : Monitor} {Z : List (Rat × Val × Rat)} {t0 : Rat} (h : PlainOk t0 m Z) (hty : m.xtype = ty) (hg : m.generated = false)
    {e : Rat × Op} (he : t0 ≤ e.1) (hf : FineP ty e.2) : (∃ Z', PlainOk e.1 (m.apply e) Z' ∧ ∀ z ∈ Z', z ∈ Z ∨ e = (z.1, .tally z.2.1 z.2.2)) ∧
      (m.apply e).xtype = ty ∧ (m.apply e).generated = false := by
  obtain ⟨now, op⟩ := e
  cases op with
  | tally v w =>
    have hf' : m.xtype.accepts v = true := by rw [hty]; exact hf
    show (∃ Z', PlainOk now (m.doTally now v w).1 Z' ∧ _) ∧ (m.doTally now v w).1.xtype = ty ∧ (m.doTally now v w).1.generated = false
    unfold Monitor.doTally
    simp only [h.level, h.full, hg, Bool.false_eq_true, if_false]
    by_cases hon : m.on = true
    · simp only [hon, if_true, hf']
      refine ⟨⟨_, h.add he (v := v) (w := w) h.level.symm h.full.symm rfl rfl rfl, ?_⟩, hty, trivial⟩
      intro z hz
      rcases List.mem_append.1 hz with hz | hz
      · exact Or.inl hz
      · simp at hz; subst hz; exact Or.inr rfl
    · simp only [hon, if_false, Bool.false_eq_true]
      exact ⟨⟨_, h.same he h.level.symm h.full.symm rfl rfl rfl, fun z hz => Or.inl hz⟩, hty, trivial⟩
  | monitor b =>
    show (∃ Z', PlainOk now (m.setMonitor now (some b)).1 Z' ∧ _) ∧ (m.setMonitor now (some b)).1.xtype = ty ∧ (m.setMonitor now (some b)).1.generated = false
    rw [plain_setMonitor h.level h.full hg]
    exact ⟨⟨_, h.same he rfl rfl rfl rfl rfl, fun z hz => Or.inl hz⟩, hty, hg⟩
  | reset b s =>
    have hs : s.getD m.statsOnly = false := by
      cases s with
      | none => exact h.full
      | some s => cases s
                  · rfl
                  · exact absurd rfl hf
    show (∃ Z', PlainOk now (m.reset now b s).1 Z' ∧ _) ∧ (m.reset now b s).1.xtype = ty ∧ (m.reset now b s).1.generated = false
    unfold Monitor.reset
    simp only [hg, hs, h.level, Bool.false_eq_true, if_false]
    rw [plain_setMonitor rfl rfl rfl]
    exact ⟨⟨[], ⟨rfl, rfl, rfl, rfl, rfl, by simp, by simp⟩, by simp⟩, hty, rfl⟩
  | read ex0 fn =>
    show (∃ Z', PlainOk now (if m.statsOnly then m else (m.xweight now ex0 fn).2) Z' ∧ _) ∧ (if m.statsOnly then m else (m.xweight now ex0 fn).2).xtype = ty ∧
      (if m.statsOnly then m else (m.xweight now ex0 fn).2).generated = false
    rw [if_neg (by rw [h.full]; simp)]
    unfold Monitor.xweight
    split
    · exact ⟨⟨_, h.same he rfl rfl rfl rfl rfl, fun z hz => Or.inl hz⟩, hty, hg⟩
    · exact ⟨⟨_, h.same he rfl rfl rfl rfl rfl, fun z hz => Or.inl hz⟩, hty, hg⟩
  | addNow =>
    show (∃ Z', PlainOk now (if m.statsOnly && m.level then m.tallyAddNow now else m) Z' ∧ _) ∧ (if m.statsOnly && m.level then m.tallyAddNow now else m).xtype = ty ∧
      (if m.statsOnly && m.level then m.tallyAddNow now else m).generated = false
    rw [h.full, Bool.false_and, if_neg (by simp)]
    exact ⟨⟨_, h.same he rfl rfl rfl rfl rfl, fun z hz => Or.inl hz⟩, hty, hg⟩

/-- every history of a non level monitor gives such a monitor, with tallies of the history -/
theorem plainOk_run (ty : XType) (b : Bool) (t0 : Rat) {h : List (Rat × Op)} {now : Rat} (hc : Chrono t0 h now) (hf : ∀ e ∈ h, FineP ty e.2) :
    ∃ Z, PlainOk now ((create false none ty false b t0).1.run h) Z ∧ (∀ z ∈ Z, (z.1, .tally z.2.1 z.2.2) ∈ h) ∧ ((create false none ty false b t0).1.run h).xtype = ty := by
  have h0 : PlainOk t0 (create false none ty false b t0).1 [] ∧ (create false none ty false b t0).1.xtype = ty ∧ (create false none ty false b t0).1.generated = false := by
    cases b <;> exact ⟨⟨rfl, rfl, rfl, rfl, rfl, by simp, by simp⟩, rfl, rfl⟩
  have go : ∀ (h : List (Rat × Op)) (m : Monitor) (Z : List (Rat × Val × Rat)) (t0 : Rat), PlainOk t0 m Z → m.xtype = ty → m.generated = false → Chrono t0 h now →
      (∀ e ∈ h, FineP ty e.2) → ∃ Z', PlainOk now (m.run h) Z' ∧ (∀ z ∈ Z', z ∈ Z ∨ (z.1, .tally z.2.1 z.2.2) ∈ h) ∧ (m.run h).xtype = ty := by
    intro h
    induction h with
    | nil =>
      intro m Z t0 hp hty _ hc _
      rw [chrono_nil] at hc
      exact ⟨Z, hp.same hc rfl rfl rfl rfl rfl, fun z hz => Or.inl hz, hty⟩
    | cons e h ih =>
      intro m Z t0 hp hty hg hc hf
      have h1 : t0 ≤ e.1 := by
        unfold Chrono at hc
        exact (List.pairwise_cons.1 hc).1 e.1 (by simp)
      have h2 : Chrono e.1 h now := by
        unfold Chrono at hc ⊢
        have := (List.pairwise_cons.1 hc).2
        simpa using this
      obtain ⟨⟨Z', hp', hz'⟩, hty', hg'⟩ := plainOk_apply hp hty hg h1 (hf e (by simp))
      obtain ⟨Z'', a, b, c⟩ := ih _ Z' _ hp' hty' hg' h2 (fun a ha => hf a (by simp [ha]))
      refine ⟨Z'', a, ?_, c⟩
      intro z hz
      rcases b z hz with hb | hb
      · rcases hz' z hb with h | h
        · exact Or.inl h
        · right; rw [h]; simp
      · right; simp [hb]
  obtain ⟨Z, a, b, c⟩ := go h _ [] t0 h0.1 h0.2.1 h0.2.2 hc hf
  exact ⟨Z, a, fun z hz => (b z hz).resolve_left (by simp), c⟩

theorem plain_system (ty : XType) (now : Rat) : PlainOk now (system false ty now) [] ∧ (system false ty now).generated = false ∧ (system false ty now).weight = .no ∧
    (system false ty now).xtype = ty ∧ (system false ty now).cache = [] :=
  ⟨⟨rfl, rfl, rfl, rfl, rfl, by simp, by simp⟩, rfl, rfl, rfl, rfl⟩

theorem finish_plain {m : Monitor} (hl : m.level = false) (hs : m.statsOnly = false) (hg : m.generated = false) (now : Rat) :
    finish m now = { m with on := false, generated := true } := by
  unfold finish
  rw [plain_setMonitor hl hs hg]
  rfl

/-! ### C22 for non level monitors -/

theorem mergeAll_perm {α : Type} (ls : List (List (Rat × Nat × α))) : (mergeAll ls).Perm ls.flatten := by
  induction ls with
  | nil => exact List.Perm.refl _
  | cons a r ih =>
    rw [List.flatten_cons]
    rw [mergeAll_cons]
    exact (List.merge_perm_append _).trans (List.Perm.append_left a ih)

theorem tagged_flatten {α : Type} (ls : List (List (Rat × α))) : ∀ i, (tagged i ls).flatten.map (fun e => (e.1, e.2.2)) = ls.flatten := by
  induction ls with
  | nil => intro i; rfl
  | cons a r ih =>
    intro i
    rw [tagged, List.flatten_cons, List.map_append, ih, List.flatten_cons, List.map_map]
    congr 1
    exact List.map_id'' (fun _ => rfl) a

theorem zip3 (Z : List (Rat × Val × Rat)) : (Z.map (·.1)).zip ((Z.map (·.2.1)).zip (Z.map (·.2.2))) = Z := by
  induction Z with
  | nil => rfl
  | cons a Z ih => simp only [List.map_cons, List.zip_cons_cons, ih]

theorem plainRound_fold (E : List (Rat × Nat × (Val × Rat))) (m : Monitor) (Z : List (Rat × Val × Rat)) {now : Rat}
    (h : PlainOk now m Z) (hE : ∀ e ∈ E, e.1 ≤ now) (hS : (Z ++ E.map (fun e => (e.1, e.2.2))).Pairwise (fun a b => a.1 ≤ b.1)) :
    PlainOk now (E.foldl plainRound m) (Z ++ E.map (fun e => (e.1, e.2.2))) ∧ (E.foldl plainRound m).generated = m.generated := by
  induction E generalizing m Z with
  | nil => simpa using h
  | cons e E ih =>
    rw [List.foldl_cons, List.map_cons, List.append_cons]
    have h' : PlainOk now (plainRound m e) (Z ++ [(e.1, e.2.2)]) := by
      rw [List.map_cons, List.append_cons] at hS
      refine ⟨h.level, h.full, ?_, ?_, ?_, (List.pairwise_append.1 hS).1, ?_⟩
      · show m.t ++ [e.1] = _; rw [h.ht]; simp
      · show m.x ++ [e.2.2.1] = _; rw [h.hx]; simp
      · rw [weights_eq]
        show weightsOf (m.weight.push m.x.length e.2.2.2) (m.x ++ [e.2.2.1]).length = _
        rw [List.length_append, List.length_singleton, weightsOf_push, ← weights_eq, h.hw]; simp
      · intro z hz
        rcases List.mem_append.1 hz with hz | hz
        · exact h.past z hz
        · simp at hz; subst hz; exact hE e (by simp)
    have := ih (plainRound m e) (Z ++ [(e.1, e.2.2)]) h' (fun a ha => hE a (by simp [ha])) (by rw [List.map_cons, List.append_cons] at hS; exact hS)
    exact ⟨this.1, this.2⟩

/-- lists of the tallies of the monitors -/
theorem plains_of {now : Rat} {l : List Monitor} {Zs : List (List (Rat × Val × Rat))} (h : List.Forall₂ (PlainOk now) l Zs) :
    l.map (fun k => k.t.zip (k.x.zip k.weights)) = Zs := by
  induction h with
  | nil => rfl
  | cons a _ ih =>
    rw [List.map_cons, ih, a.ht, a.hx, a.hw, zip3]

/-- C22 for non level monitors: the merged monitor has all tallies of the monitors, each with its value, moment and weight, and no others, in order of
time, and those of one monitor in the order in which they were made; merging succeeds if the monitors all are of this kind -/
theorem C22_plain {now : Rat} {m : Monitor} {ms : List Monitor} {Zs : List (List (Rat × Val × Rat))} (hok : List.Forall₂ (PlainOk now) (m :: ms) Zs) :
    ∃ new Z, merge now m ms = .ok new ∧ PlainOk now new Z ∧ Z.Perm Zs.flatten ∧
      ∃ tag : List (Rat × Nat × (Val × Rat)), Z = tag.map (fun e => (e.1, e.2.2)) ∧
        ∀ k (hk : k < Zs.length), (tag.filter (fun e => e.2.1 == k)).map (fun e => (e.1, e.2.2)) = Zs[k] := by
  have hfull : ∀ k ∈ m :: ms, k.statsOnly = false ∧ k.level = false := by
    intro k hk
    obtain ⟨i, hi, rfl⟩ := List.mem_iff_getElem.1 hk
    have := (List.forall₂_iff_get.1 hok).2 i hi (by rw [← hok.length_eq]; exact hi)
    exact ⟨this.full, this.level⟩
  have hZ : ∀ Z ∈ Zs, Z.Pairwise (fun a b => a.1 ≤ b.1) ∧ ∀ z ∈ Z, z.1 ≤ now := by
    intro Z hZ
    obtain ⟨i, hi, rfl⟩ := List.mem_iff_getElem.1 hZ
    have := (List.forall₂_iff_get.1 hok).2 i (by rw [hok.length_eq]; exact hi) hi
    exact ⟨this.sorted, this.past⟩
  have h1 : (m :: ms).any (·.statsOnly) = false := by
    rw [List.any_eq_false]; intro k hk; rw [(hfull k hk).1]; simp
  have h2 : ms.any (fun k => k.level != m.level) = false := by
    rw [List.any_eq_false]; intro k hk; rw [(hfull k (by simp [hk])).2, (hfull m (by simp)).2]; simp
  have hE := mergeAll_perm (tagged 0 Zs)
  have hs := mergeAll_sorted (tagged_sorted (fun Z h => (hZ Z h).1) 0)
  have hperm : ((mergeAll (tagged 0 Zs)).map (fun e => (e.1, e.2.2))).Perm Zs.flatten := by
    have := hE.map (fun e => (e.1, e.2.2))
    rwa [tagged_flatten] at this
  have hmem : ∀ e ∈ mergeAll (tagged 0 Zs), e.1 ≤ now := by
    intro e he
    have : (e.1, e.2.2) ∈ Zs.flatten := hperm.mem_iff.1 (List.mem_map.2 ⟨e, he, rfl⟩)
    obtain ⟨Z, hZm, hz⟩ := List.mem_flatten.1 this
    exact (hZ Z hZm).2 _ hz
  have hfold := plainRound_fold (mergeAll (tagged 0 Zs)) (system false (mergedType m.xtype ms) now) [] (plain_system _ now).1 hmem (by
    rw [List.nil_append, List.pairwise_map]
    refine hs.imp ?_
    intro a b hab
    simp only [leKey, Bool.or_eq_true, Bool.and_eq_true, decide_eq_true_eq] at hab
    rcases hab with h | ⟨h, _⟩
    · exact h.le
    · exact h.le)
  rw [List.nil_append] at hfold
  refine ⟨finish ((mergeAll (tagged 0 Zs)).foldl plainRound (system false (mergedType m.xtype ms) now)) now, _, ?_, ?_, hperm, mergeAll (tagged 0 Zs), rfl, ?_⟩
  · unfold merge
    rw [h1, h2, plains_of hok, (hfull m (by simp)).2]
    rfl
  · rw [finish_plain hfold.1.level hfold.1.full (by rw [hfold.2]; rfl)]
    exact hfold.1.same le_rfl rfl rfl rfl rfl rfl
  · intro k hk
    have := filter_mergeAll (ls := Zs) (i := 0) hk
    simp only [Nat.zero_add] at this
    rw [this, List.map_map]
    exact List.map_id'' (fun _ => rfl) _

example :
    let a := (create false none .any false true 0).1.run [(1, .tally (.num 4) 1), (5, .tally (.num 5) 1)]
    let b := (create false none .any false true 1).1.run [(1, .tally (.num 7) 2), (3, .tally (.num 20) 1)]
    (merge 8 a [b]).map (fun n => n.t.zip (n.x.zip n.weights)) = .ok [(1, .num 4, 1), (1, .num 7, 2), (3, .num 20, 1), (5, .num 5, 1)] := by decide +kernel

/-! ### C26 -/

/-- x_map of level monitors: at each moment in the past the value is the function of the values of the monitors, and off if one of the monitors is off -/
theorem C26_x_map_level {now : Rat} {f : List Val → Val} {m : Monitor} {ms : List Monitor} (hok : ∀ k ∈ m :: ms, ∃ L, LevelOk now k.xtype k L) :
    ∃ new, xMap now f m ms = .ok new ∧ (∃ L, LevelOk now new.xtype new L) ∧ new.off = .ninf ∧
    ∀ offset τ, τ + offset < now → ∃ vs, (m :: ms).map (fun k => k.get now offset (some τ)) = vs.map .ok ∧
      new.get now offset (some τ) = .ok (if ∃ k ∈ (m :: ms).zip vs, k.2 = k.1.off ∨ k.2 = .ninf then .ninf else f vs) := by
  obtain ⟨Ls, hlen, hLs⟩ := lists_of hok
  have hlev : ∀ k ∈ m :: ms, k.level = true := by
    intro k hk; obtain ⟨L, hL⟩ := hok k hk; exact hL.level
  have h2 : ms.any (fun k => k.level != m.level) = false := by
    rw [List.any_eq_false]; intro k hk; rw [hlev k (by simp [hk]), hlev m (by simp)]; simp
  let g : Val → Val → Val := fun off v => if v = off then .ninf else v
  let Ps : List (List (Rat × Val)) := List.zipWith (fun k L => L.map (fun p => (p.1, g k.off p.2))) (m :: ms) Ls
  have hPl : Ps.length = (m :: ms).length := by simp only [Ps, List.length_zipWith, hlen, Nat.min_self]
  have hpts : (m :: ms).map (fun k => k.t.zip k.anyValues) = Ps := by
    apply List.ext_getElem
    · rw [List.length_map, hPl]
    · intro i h1 h2
      simp only [List.getElem_map, Ps, List.getElem_zipWith]
      have h1' : i < (m :: ms).length := by simpa using h1
      have hk := hLs i h1' (by omega)
      unfold Monitor.anyValues
      rw [hk.ht, hk.hx, ← zip_fst_snd]
  have hall : ∀ L ∈ Ls, Asc L ∧ L ≠ [] ∧ ∀ p ∈ L, p.1 ≤ now := by
    intro L hL
    obtain ⟨i, hi, rfl⟩ := List.mem_iff_getElem.1 hL
    have hk := hLs i (by omega) hi
    exact ⟨hk.asc, hk.ne, hk.past⟩
  have hPs : ∀ P ∈ Ps, ∃ k, ∃ L ∈ Ls, P = L.map (fun p => (p.1, g k p.2)) := by
    intro P hP
    obtain ⟨i, hi, rfl⟩ := List.mem_iff_getElem.1 hP
    simp only [Ps, List.getElem_zipWith]
    exact ⟨_, _, List.getElem_mem _, rfl⟩
  have hPne : ∃ P ∈ Ps, P ≠ [] := by
    have h0 : 0 < Ps.length := by rw [hPl]; simp
    refine ⟨Ps[0], List.getElem_mem h0, ?_⟩
    obtain ⟨k, L, hL, e⟩ := hPs _ (List.getElem_mem h0)
    rw [e]
    simpa using (hall L hL).2.1
  obtain ⟨R, r1, r2, r3, r4, r5, r6⟩ := levelLoop_spec (mapOrOff f) .ninf
    (by intro n hn
        unfold mapOrOff
        rw [if_pos]
        simp [hn.ne']) Ps
    (by intro P hP
        obtain ⟨k, L, hL, rfl⟩ := hPs P hP
        exact asc_mapVal _ (hall L hL).1) hPne
  obtain ⟨s1, s2, s3, s4⟩ := system_ok .any now
  obtain ⟨new0, hnew0⟩ : ∃ n : Monitor, n = { system true .any now with x := (levelLoop (mapOrOff f) .ninf Ps).1, t := (levelLoop (mapOrOff f) .ninf Ps).2, start := (levelLoop (mapOrOff f) .ninf Ps).2.headD 0 } := ⟨_, rfl⟩
  have hok0 : LevelOk now .any new0 R := by
    rw [hnew0]
    refine ⟨s1, s2, s4, r2, r1, r3, r4, ?_, fun _ _ => rfl⟩
    intro q hq
    obtain ⟨P, hP, e, he, h1⟩ := r5 q hq
    obtain ⟨k, L', hL', rfl⟩ := hPs P hP
    obtain ⟨p, hp, rfl⟩ := List.mem_map.1 he
    rw [h1]
    exact (hall L' hL').2.2 p hp
  obtain ⟨L', hok', htal, hst⟩ := finish_level hok0 (by rw [hnew0]; exact s3)
  refine ⟨finish new0 now, ?_, ⟨L', by rw [hok'.type]; exact hok'⟩, by rw [Monitor.off, hok'.type]; rfl, ?_⟩
  · unfold xMap
    rw [h2, hlev m (by simp), hpts, hnew0]
    rfl
  intro offset τ hτ
  let vs := List.zipWith (fun (k : Monitor) L => stepAt k.off L (τ + offset)) (m :: ms) Ls
  have hvl : vs.length = (m :: ms).length := by simp only [vs, List.length_zipWith, hlen, Nat.min_self]
  refine ⟨vs, ?_, ?_⟩
  · apply List.ext_getElem
    · rw [List.length_map, List.length_map, hvl]
    · intro i h1 h2
      simp only [List.getElem_map, vs, List.getElem_zipWith]
      have h1' : i < (m :: ms).length := by simpa using h1
      have hk := hLs i h1' (by omega)
      rw [hk.get offset τ hτ]
      rfl
  · rw [hok'.get offset τ hτ, hst, if_neg (not_le.2 hτ)]
    show Except.ok (stepAt Val.ninf R (τ + offset)) = _
    rw [r6]
    have hmap : Ps.map (fun L => stepAt .ninf L (τ + offset)) = List.zipWith (fun (k : Monitor) v => g k.off v) (m :: ms) vs := by
      apply List.ext_getElem
      · simp only [List.length_map, hPl, List.length_zipWith (l₂ := vs), hvl, Nat.min_self]
      · intro i h1 h2
        simp only [List.getElem_map, vs, List.getElem_zipWith, Ps]
        generalize ((m :: ms)[i]'(by rw [List.length_map, hPl] at h1; exact h1)).off = o
        generalize Ls[i]'(by rw [List.length_map, hPl] at h1; omega) = L
        induction L using List.reverseRecOn with
        | nil => simp [stepAt, g]
        | append_singleton L a ih =>
          obtain ⟨t, v⟩ := a
          rw [List.map_append, List.map_singleton, stepAt_snoc, stepAt_snoc, ih]
          split <;> rfl
    rw [hmap]
    congr 1
    unfold mapOrOff
    have e1 : ((List.zipWith (fun (k : Monitor) v => g k.off v) (m :: ms) vs).any (fun v => v == .ninf) = true) ↔ ∃ k ∈ (m :: ms).zip vs, k.2 = k.1.off ∨ k.2 = .ninf := by
      rw [List.any_eq_true, show List.zipWith (fun (k : Monitor) v => g k.off v) (m :: ms) vs = ((m :: ms).zip vs).map (fun p => g p.1.off p.2) from by rw [List.zip, List.map_zipWith]]
      constructor
      · rintro ⟨x, hx, hx'⟩
        obtain ⟨p, hp, rfl⟩ := List.mem_map.1 hx
        refine ⟨p, hp, ?_⟩
        simp only [g] at hx'
        by_cases h : p.2 = p.1.off
        · exact Or.inl h
        · right; simpa [h] using hx'
      · rintro ⟨p, hp, h⟩
        refine ⟨_, List.mem_map.2 ⟨p, hp, rfl⟩, ?_⟩
        simp only [g]
        rcases h with h | h
        · simp [h]
        · simp [h]
    by_cases hex : ∃ k ∈ (m :: ms).zip vs, k.2 = k.1.off ∨ k.2 = .ninf
    · rw [if_pos (e1.2 hex), if_pos hex]
    · rw [if_neg (fun h => hex (e1.1 h)), if_neg hex]
      congr 1
      apply List.ext_getElem
      · rw [List.length_zipWith, hvl, Nat.min_self]
      · intro i h1 h2
        simp only [List.getElem_zipWith, g]
        rw [if_neg]
        intro h
        refine hex ⟨((m :: ms)[i]'(by omega), vs[i]), ?_, Or.inl h⟩
        rw [← List.getElem_zip (l := m :: ms) (l' := vs) (i := i) (h := by rw [List.length_zip]; omega)]
        exact List.getElem_mem _

/-- x_map of a non level monitor without weights: each tally is mapped and keeps its moment (values equal to off of the type aside, see the counterexample) -/
theorem C26_x_map_plain {now : Rat} {f : List Val → Val} {m : Monitor} {Z : List (Rat × Val × Rat)} (hok : PlainOk now m Z) (hw : ∀ z ∈ Z, z.2.2 = 1)
    (hv : ∀ z ∈ Z, z.2.1 ≠ m.off ∧ z.2.1 ≠ .ninf) :
    ∃ new, xMap now f m [] = .ok new ∧ PlainOk now new (Z.map (fun z => (z.1, f [z.2.1], z.2.2))) := by
  refine ⟨finish { system false .any now with x := m.anyValues.map (fun v => if v = .ninf then .ninf else f [v]), t := m.t } now, ?_, ?_⟩
  · unfold xMap
    rw [hok.level]
    rfl
  · rw [finish_plain rfl rfl rfl]
    have hx : m.anyValues.map (fun v => if v = .ninf then .ninf else f [v]) = Z.map (fun z => f [z.2.1]) := by
      unfold Monitor.anyValues
      rw [hok.hx, List.map_map, List.map_map]
      apply List.map_congr_left
      intro z hz
      simp [(hv z hz).1, (hv z hz).2]
    refine ⟨rfl, rfl, ?_, ?_, ?_, ?_, ?_⟩
    · show m.t = _
      rw [hok.ht, List.map_map]; rfl
    · show m.anyValues.map _ = _
      rw [hx, List.map_map]; rfl
    · rw [weights_eq]
      show List.replicate (m.anyValues.map _).length 1 = _
      rw [hx, List.length_map, List.map_map, eq_comm, List.eq_replicate_iff]
      refine ⟨by simp, ?_⟩
      intro b hb
      obtain ⟨z, hz, rfl⟩ := List.mem_map.1 hb
      exact hw z hz
    · rw [List.pairwise_map]; exact hok.sorted
    · intro z hz
      obtain ⟨z', hz', rfl⟩ := List.mem_map.1 hz
      exact hok.past z' hz'

/-- multiply of a float monitor without weights: each tally is multiplied and keeps its moment -/
theorem C26_multiply {now k : Rat} {m : Monitor} {Z : List (Rat × Val × Rat)} (hok : PlainOk now m Z) (hty : m.xtype = .float) (hw : ∀ z ∈ Z, z.2.2 = 1) :
    ∃ new, multiply now m k = .ok new ∧ PlainOk now new (Z.map (fun z => (z.1, .num (z.2.1.toRat * k), z.2.2))) ∧ new.cache = [] ∧ new.weight = .no := by
  refine ⟨{ (create false none .float false false now).1 with x := m.x.map (fun v => .num (v.toRat * k)), t := m.t, generated := true }, ?_, ?_, ?_, ?_⟩
  · unfold multiply
    rw [hok.level, hok.full, if_pos hty]
    rfl
  · refine ⟨rfl, rfl, ?_, ?_, ?_, ?_, ?_⟩
    · show m.t = _
      rw [hok.ht, List.map_map]; rfl
    · show m.x.map _ = _
      rw [hok.hx, List.map_map, List.map_map]; rfl
    · rw [weights_eq]
      show List.replicate (m.x.map _).length 1 = _
      rw [hok.hx, List.length_map, List.length_map, List.map_map, eq_comm, List.eq_replicate_iff]
      refine ⟨by simp, ?_⟩
      intro b hb
      obtain ⟨z, hz, rfl⟩ := List.mem_map.1 hb
      exact hw z hz
    · rw [List.pairwise_map]; exact hok.sorted
    · intro z hz
      obtain ⟨z', hz', rfl⟩ := List.mem_map.1 hz
      exact hok.past z' hz'
  · rfl
  · rfl

/-- the values and weights in the statistics of a non level monitor -/
theorem plain_fresh {now now' : Rat} {m : Monitor} {Z : List (Rat × Val × Rat)} (hok : PlainOk now m Z) :
    nums (m.fresh now' false true).1 = Z.map (fun z => z.2.1.toRat) ∧ (m.fresh now' false true).2 = Z.map (·.2.2) := by
  have hx : nums (m.values true) = Z.map (fun z => z.2.1.toRat) := by
    unfold nums Monitor.values
    rw [hok.hx]
    split
    · rw [List.map_map]; rfl
    · rw [List.map_map, List.map_map]
      apply List.map_congr_left
      intro z _
      show z.2.1.force.toRat = z.2.1.toRat
      cases z.2.1 <;> rfl
  have hlen : (m.values true).length = m.x.length := by
    unfold Monitor.values
    split <;> simp
  rw [← hx, ← hok.hw]
  unfold Monitor.fresh Monitor.weights
  simp only [hok.level, Bool.false_eq_true, if_false]
  split
  · rename_i w ws h
    exact ⟨rfl, rfl⟩
  · rename_i h
    refine ⟨rfl, ?_⟩
    simp only
    rw [hlen]

theorem sum_ones (Z : List (Rat × Val × Rat)) (hw : ∀ z ∈ Z, z.2.2 = 1) : (Z.map (·.2.2)).sum = Z.length := by
  induction Z with
  | nil => simp
  | cons a Z ih =>
    rw [List.map_cons, List.sum_cons, ih (fun z hz => hw z (by simp [hz])), hw a (by simp)]
    push_cast [List.length_cons]; ring

theorem dot_scale (k : Rat) (f : (Rat × Val × Rat) → Rat) (Z : List (Rat × Val × Rat)) :
    dot (Z.map (fun z => f z * k)) (Z.map (·.2.2)) = k * dot (Z.map f) (Z.map (·.2.2)) := by
  unfold dot
  induction Z with
  | nil => simp
  | cons a Z ih =>
    simp only [List.map_cons, List.zipWith_cons_cons, List.sum_cons, ih]
    ring

/-- C26: after any history of a float monitor with tallies of weight 1, multiply(k) succeeds and has k times the mean (nan if there are no tallies) -/
theorem C26_mean (b : Bool) (t0 k : Rat) {h : List (Rat × Op)} {now : Rat} (hc : Chrono t0 h now) (hf : ∀ e ∈ h, FineP .float e.2)
    (hw : ∀ t v w, (t, Op.tally v w) ∈ h → w = 1) :
    ∃ new, multiply now ((create false none .float false b t0).1.run h) k = .ok new ∧
      new.mean now false = (((create false none .float false b t0).1.run h).mean now false).map (k * ·) := by
  have hcache := C21_plain .float b t0 h now false true
  obtain ⟨Z, hok, hmem, hty⟩ := plainOk_run .float b t0 hc hf
  generalize (create false none .float false b t0).1.run h = m at *
  have hw1 : ∀ z ∈ Z, z.2.2 = 1 := fun z hz => hw _ _ _ (hmem z hz)
  obtain ⟨new, e, hnew, hnc, _⟩ := C26_multiply (k := k) hok hty hw1
  refine ⟨new, e, ?_⟩
  have hxn : (new.xweight now false true).1 = new.fresh now false true := by
    unfold Monitor.xweight Monitor.cached
    rw [hnc]; rfl
  unfold Monitor.mean
  rw [if_neg (by rw [hnew.full]; simp), if_neg (by rw [hok.full]; simp), hcache, hxn]
  obtain ⟨a1, a2⟩ := plain_fresh (now' := now) hok
  obtain ⟨b1, b2⟩ := plain_fresh (now' := now) hnew
  rw [List.map_map] at b1 b2
  unfold meanOf
  rw [a1, a2, b1, b2]
  have e1 : (Z.map ((fun z => z.2.1.toRat) ∘ fun z : Rat × Val × Rat => (z.1, Val.num (z.2.1.toRat * k), z.2.2))) = Z.map (fun z => z.2.1.toRat * k) := rfl
  have e2 : (Z.map ((fun z => z.2.2) ∘ fun z : Rat × Val × Rat => (z.1, Val.num (z.2.1.toRat * k), z.2.2))) = Z.map (·.2.2) := rfl
  rw [e1, e2, dot_scale k (fun z => z.2.1.toRat) Z]
  split
  · rw [Option.map_some]; congr 1; ring
  · rfl

/-- weights are lost in multiply and in x_map: a tally of 10 with weight 3 and one of 20 with weight 1 have mean 12.5, and mean 15 after `* 1` -/
theorem C26_weights_counterexample :
    let m := (create false none .float false true 0).1.run [(1, .tally (.num 10) 3), (2, .tally (.num 20) 1)]
    m.mean 5 false = some (25 / 2) ∧ (multiply 5 m 1).map (fun n => n.mean 5 false) = .ok (some 15) ∧
      (xMap 5 (fun v => v.headD (.num 0)) m []).map (fun n => n.mean 5 false) = .ok (some 15) := by decide +kernel

/-- only monitors of type float can be multiplied: neither the default type, nor double, nor level monitors -/
theorem C26_types_counterexample :
    multiply 5 ((create false none .any false true 0).1.run [(1, .tally (.num 10) 1)]) 2 = .error .value ∧
    multiply 5 ((create false none .double false true 0).1.run [(1, .tally (.num 10) 1)]) 2 = .error .value ∧
    multiply 5 ((create true none .float false true 0).1.run [(1, .tally (.num 10) 1)]) 2 = .error .value := by decide +kernel

/-- a value that is the code for off is lost in x_map of a non level monitor, where nothing is ever off -/
theorem C26_off_counterexample :
    (xMap 5 (fun v => .num ((v.map Val.toRat).sum + 1)) ((create false none .uint8 false true 0).1.run [(1, .tally (.num 10) 1), (2, .tally (.num 255) 1)]) []).map
      (fun n => n.x) = .ok [.num 11, .ninf] := by decide +kernel

/-- a history that meets the hypotheses of `C26_mean`, `C26_multiply` and `C26_x_map_plain` -/
example :
    let h : List (Rat × Op) := [(1, .tally (.num 10) 1), (2, .tally (.num 20) 1), (3, .monitor false), (4, .tally (.num 100) 1)]
    let m := (create false none .float false true 0).1.run h
    (∀ e ∈ h, FineP .float e.2) ∧ m.mean 5 false = some 15 ∧ (multiply 5 m 3).map (fun n => n.mean 5 false) = .ok (some 45) := by
  refine ⟨?_, by decide +kernel, by decide +kernel⟩
  intro e he
  simp at he
  rcases he with rfl | rfl | rfl | rfl
  · exact (by decide : XType.accepts .float (.num 10) = true)
  · exact (by decide : XType.accepts .float (.num 20) = true)
  · trivial
  · exact (by decide : XType.accepts .float (.num 100) = true)

/-! ### t_multiply -/

/-- t_multiply(k) of a level monitor: the value at k times a moment is the value at that moment, and the monitor is off from k times the present moment on;
provided that the last change is before now, and not at now/k (see the counterexample) -/
theorem C26_t_multiply {now k : Rat} {ty : XType} {m : Monitor} {L : List (Rat × Val)} (hok : LevelOk now ty m L) (hk : 0 < k) {last : Rat}
    (hlast : m.t.getLast? = some last) (h1 : last < now) (h2 : last * k ≠ now) :
    ∃ new, tMultiply now m k = .ok new ∧ ∀ τ, τ * k ≠ now → new.get now 0 (some (τ * k)) = .ok (if now ≤ τ then ty.off else stepAt ty.off L τ) := by
  obtain ⟨pre, a, hL⟩ : ∃ pre a, L = pre ++ [a] := by
    rcases List.eq_nil_or_concat L with h' | ⟨R0, q, h'⟩
    · exact absurd h' hok.ne
    · exact ⟨R0, q, by simpa using h'⟩
  obtain ⟨t, w⟩ := a
  have ht : t = last := by
    rw [hok.ht, hL] at hlast
    simpa using hlast
  subst ht
  obtain ⟨s1, s2, s3, s4⟩ := system_ok ty now
  let S : List (Rat × Val) := L.map (fun p => (p.1 * k, p.2))
  have hS : S = pre.map (fun p => (p.1 * k, p.2)) ++ [(t * k, w)] := by simp only [S]; rw [hL]; simp
  obtain ⟨n0, hn0⟩ : ∃ n : Monitor, n = { system true m.xtype now with x := m.x, t := m.t.map (· * k), start := m.start * k } := ⟨_, rfl⟩
  have g1 : n0.level = true := by rw [hn0, hok.type]; exact s1
  have g2 : n0.statsOnly = false := by rw [hn0, hok.type]; exact s2
  have g3 : n0.generated = false := by rw [hn0, hok.type]; exact s3
  have g4 : n0.xtype = ty := by rw [hn0, hok.type]; exact s4
  have g5 : n0.x = S.map (·.2) := by rw [hn0]; show m.x = _; rw [hok.hx]; simp only [S]; rw [List.map_map]; rfl
  have g6 : n0.t = S.map (·.1) := by rw [hn0]; show m.t.map _ = _; rw [hok.ht]; simp only [S]; rw [List.map_map, List.map_map]; rfl
  have hoff : n0.off = ty.off := by rw [Monitor.off, g4]
  have hput := put_eq (m := { n0 with on := false }) (now := now) (v := ty.off) (pre := pre.map (fun p => (p.1 * k, p.2))) (t := t * k) (w := w) (by rw [← hS]; exact g6) (by rw [← hS]; exact g5)
    (by show n0.xtype.accepts _ = true; rw [g4]; exact accepts_off ty)
  have hputL : putL S now ty.off = S ++ [(now, ty.off)] := by
    unfold putL
    rw [if_neg]
    rw [hS]; simpa using h2
  rw [← hS, hputL] at hput
  have hres : tMultiply now m k = .ok { n0 with on := false, x := (S ++ [(now, ty.off)]).map (·.2), t := (S ++ [(now * k, ty.off)]).map (·.1), generated := true } := by
    unfold tMultiply
    rw [hok.level, if_neg (by simp), if_neg (not_le.2 hk)]
    rw [← hn0]
    simp only [setMonitor_false g2 g3 g1, hoff, hput]
    simp
  refine ⟨_, hres, ?_⟩
  have hasc : Asc (S ++ [(now * k, ty.off)]) := by
    unfold Asc
    rw [List.pairwise_append]
    refine ⟨?_, by simp, ?_⟩
    · simp only [S]
      rw [List.pairwise_map]
      exact hok.asc.imp (fun h => mul_lt_mul_of_pos_right h hk)
    · intro p hp q hq
      simp at hq; subst hq
      simp only [S] at hp
      obtain ⟨p', hp', rfl⟩ := List.mem_map.1 hp
      refine mul_lt_mul_of_pos_right ?_ hk
      rw [hL] at hp'
      rcases List.mem_append.1 hp' with hp' | hp'
      · have hA := hok.asc
        unfold Asc at hA
        rw [hL] at hA
        exact lt_trans ((List.pairwise_append.1 hA).2.2 p' hp' (t, w) (by simp)) h1
      · simp at hp'; subst hp'; exact h1
  intro τ hτ
  rw [get_step (m := { n0 with on := false, x := (S ++ [(now, ty.off)]).map (·.2), t := (S ++ [(now * k, ty.off)]).map (·.1), generated := true }) (ty := ty) (L := S ++ [(now * k, ty.off)]) g1 g2 g4 rfl (by simp) hasc (by simp) 0 (τ * k) (by rw [add_zero]; exact hτ)]
  rw [stepAt_snoc, add_zero]
  have hcmp : ∀ a : Rat, a * k ≤ τ * k ↔ a ≤ τ := fun a => mul_le_mul_iff_left₀ hk
  congr 1
  by_cases hle : now ≤ τ
  · rw [if_pos ((hcmp now).2 hle), if_pos hle]
  · rw [if_neg (fun h => hle ((hcmp now).1 h)), if_neg hle]
    simp only [S]
    clear hasc hres hputL hput hS g5 g6 S hL hlast hok
    induction L using List.reverseRecOn with
    | nil => rfl
    | append_singleton L a ih =>
      obtain ⟨t', v⟩ := a
      rw [List.map_append, List.map_singleton, stepAt_snoc, stepAt_snoc, ih]
      by_cases h : t' ≤ τ
      · rw [if_pos h, if_pos ((hcmp t').2 h)]
      · rw [if_neg h, if_neg (fun h' => h ((hcmp t').1 h'))]

/-- a monitor that changes at 4, multiplied by 2 at 8: the new value (from 8 to 16) is lost, and the old value holds until 16 -/
theorem C26_t_multiply_counterexample :
    let m := (create true (some (.num 1)) .any false true 0).1.run [(4, .tally (.num 2) 1)]
    m.get 8 0 (some 5) = .ok (.num 2) ∧ (tMultiply 8 m 2).map (fun n => n.get 8 0 (some 10)) = .ok (.ok (.num 1)) := by decide +kernel

example :
    let m := (create true (some (.num 1)) .any false true 0).1.run [(3, .tally (.num 2) 1)]
    m.t.getLast? = some 3 ∧ (tMultiply 8 m 2).map (fun n => [n.get 8 0 (some 5), n.get 8 0 (some 7), n.get 8 0 (some 16)]) =
      .ok [.ok (.num 1), .ok (.num 2), .ok .ninf] := by decide +kernel

end Mon
end Verif
