import Verif.Props.Percentile
import Verif.Props.MonPlain

/-!
# The statistics of non level monitors are those of the tallies, C56

What should be in a monitor is stated with a log, that only needs the history of calls.
-/

namespace Verif
namespace Mon

/-- the log of a non level monitor: is it on, and the moment, value and weight of the tallies that count -/
structure Log where
  on : Bool
  l : List (Rat × Val × Rat)

/-- a tally counts if the monitor is on; monitor() switches on or off; reset() forgets all and switches too if so asked -/
def Log.step (s : Log) (e : Rat × Op) : Log :=
  match e.2 with
  | .tally v w => if s.on then { s with l := s.l ++ [(e.1, v, w)] } else s
  | .monitor b => { s with on := b }
  | .reset b _ => ⟨b.getD s.on, []⟩
  | .read _ _ | .addNow => s

/-- the tallies that count after a history, for a monitor that is created on or off -/
def tallies (b : Bool) (h : List (Rat × Op)) : List (Rat × Val × Rat) := (h.foldl Log.step ⟨b, []⟩).l

/-- the numbers and weights of the tallies, without the zeros if ex0 -/
def entries (ex0 : Bool) (L : List (Rat × Val × Rat)) : List (Rat × Rat) :=
  (L.map (fun z => (z.2.1.toRat, z.2.2))).filter (fun p => !ex0 || decide (p.1 ≠ 0))

/-- weighted sum of a function of the numbers -/
def total (g : Rat → Rat) (E : List (Rat × Rat)) : Rat := (E.map (fun p => g p.1 * p.2)).sum

/-- the monitor has stored the log -/
def Logged (ty : XType) (B : Monitor) (s : Log) : Prop :=
  B.level = false ∧ B.statsOnly = false ∧ B.generated = false ∧ B.xtype = ty ∧ B.on = s.on ∧ B.t = s.l.map (·.1) ∧ B.x = s.l.map (·.2.1) ∧
  B.weights = s.l.map (·.2.2)

theorem Logged.apply {ty : XType} {B : Monitor} {s : Log} (h : Logged ty B s) {e : Rat × Op} (hf : FineN ty e.2) : Logged ty (B.apply e) (s.step e) := by
  obtain ⟨b1, b2, b3, b4, b5, b6, b7, b8⟩ := h
  obtain ⟨now, op⟩ := e
  cases op with
  | tally v w =>
    obtain ⟨hw, hacc, hninf⟩ := hf
    show Logged ty (B.doTally now v w).1 (if s.on then { s with l := s.l ++ [(now, v, w)] } else s)
    unfold Monitor.doTally
    simp only [b1, b2, b3, Bool.false_eq_true, if_false]
    by_cases hon : B.on = true
    · rw [if_pos (show s.on = true by rw [← b5]; exact hon)]
      simp only [hon, if_true, b4, hacc]
      refine ⟨rfl, rfl, rfl, rfl, ?_, ?_, ?_, ?_⟩
      · show true = s.on; rw [← b5]; exact hon.symm
      · show B.t ++ [now] = _; rw [b6]; simp
      · show B.x ++ [v] = _; rw [b7]; simp
      · rw [weights_eq]
        show weightsOf (B.weight.push B.x.length w) (B.x ++ [v]).length = _
        rw [List.length_append, List.length_singleton, weightsOf_push, ← weights_eq, b8]; simp
    · rw [if_neg (show ¬ s.on = true by rw [← b5]; exact hon)]
      have hon' : B.on = false := by simpa using hon
      simp only [hon', Bool.false_eq_true, if_false]
      exact ⟨rfl, rfl, rfl, b4, hon'.symm.trans b5, b6, b7, b8⟩
  | monitor b =>
    show Logged ty (B.setMonitor now (some b)).1 { s with on := b }
    rw [plain_setMonitor b1 b2 b3]
    exact ⟨b1, b2, b3, b4, rfl, b6, b7, b8⟩
  | reset b so =>
    cases hf
    show Logged ty (B.reset now b none).1 ⟨b.getD s.on, []⟩
    unfold Monitor.reset
    simp only [b1, b2, b3, Bool.false_eq_true, if_false, Option.getD_none]
    rw [plain_setMonitor rfl rfl rfl]
    refine ⟨rfl, rfl, rfl, b4, ?_, rfl, rfl, rfl⟩
    show b.getD (b.getD B.on) = b.getD s.on
    rw [b5]; cases b <;> rfl
  | read ex0 fn =>
    show Logged ty (if B.statsOnly then B else (B.xweight now ex0 fn).2) s
    rw [if_neg (by rw [b2]; simp)]
    unfold Monitor.xweight
    split
    · exact ⟨b1, b2, b3, b4, b5, b6, b7, b8⟩
    · exact ⟨b1, b2, b3, b4, b5, b6, b7, b8⟩
  | addNow =>
    show Logged ty (if B.statsOnly && B.level then B.tallyAddNow now else B) s
    rw [if_neg (by rw [b2]; simp)]
    exact ⟨b1, b2, b3, b4, b5, b6, b7, b8⟩

theorem logged_run {ty : XType} {h : List (Rat × Op)} : ∀ {B : Monitor} {s : Log}, Logged ty B s → (∀ e ∈ h, FineN ty e.2) → Logged ty (B.run h) (h.foldl Log.step s) := by
  induction h with
  | nil => exact fun hS _ => hS
  | cons e h ih => exact fun hS hf => ih (hS.apply (hf e (by simp))) (fun a ha => hf a (by simp [ha]))

theorem logged_create (ty : XType) (b : Bool) (t0 : Rat) : Logged ty (create false none ty false b t0).1 ⟨b, []⟩ := by
  cases b <;> exact ⟨rfl, rfl, rfl, rfl, rfl, rfl, rfl, rfl⟩

theorem zip_maps {α β : Type} (Z : List (α × β)) : (Z.map (·.1)).zip (Z.map (·.2)) = Z := by
  induction Z with
  | nil => rfl
  | cons a Z ih => simp only [List.map_cons, List.zip_cons_cons, ih]

/-- the two ways to describe what is stored agree -/
theorem Logged.holds {ty : XType} {B : Monitor} {s : Log} (h : Logged ty B s) {Z : List (Val × Rat)} (hB : Holds ty B Z) : Z = s.l.map (·.2) := by
  obtain ⟨_, _, _, _, _, _, b7, b8⟩ := h
  obtain ⟨_, _, _, _, h5, h6, _⟩ := hB
  have hw : B.weights = Z.map (·.2) := by
    rw [weights_eq]
    rcases h6 with ⟨e, hone⟩ | ⟨hne, e⟩
    · rw [e, h5]
      show List.replicate (Z.map (·.1)).length 1 = _
      symm
      rw [List.eq_replicate_iff]
      refine ⟨by simp, ?_⟩
      intro b hb
      obtain ⟨p, hp, rfl⟩ := List.mem_map.1 hb
      exact hone p hp
    · rw [e]
      cases Z with
      | nil => exact absurd rfl hne
      | cons a r => rfl
  have h1 : Z.map (·.1) = (s.l.map (·.2)).map (·.1) := by rw [← h5, b7]; simp
  have h2 : Z.map (·.2) = (s.l.map (·.2)).map (·.2) := by rw [← hw, b8]; simp
  rw [← zip_maps Z, h1, h2, zip_maps]

theorem pairs_entries (ex0 : Bool) (L : List (Rat × Val × Rat)) : pairs ex0 (L.map (·.2)) = entries ex0 L := by
  unfold pairs entries
  rw [List.map_map]
  congr 1
  funext p
  by_cases h : p.1 = 0 <;> simp [h]

/-- all about the monitor after a history -/
theorem tally_core (ty : XType) (b : Bool) (t0 : Rat) {h : List (Rat × Op)} (hf : ∀ e ∈ h, FineN ty e.2) (now : Rat) :
    let B := (create false none ty false b t0).1.run h
    Logged ty B (h.foldl Log.step ⟨b, []⟩) ∧ SimN ty ((create false none ty true b t0).1.run h) B ((tallies b h).map (·.2)) ∧
    ∀ ex0, IsPairs (B.xweight now ex0 true).1 (entries ex0 (tallies b h)) ∧ (∀ p ∈ entries ex0 (tallies b h), 0 < p.2) := by
  intro B
  have hL : Logged ty B (h.foldl Log.step ⟨b, []⟩) := logged_run (logged_create ty b t0) hf
  obtain ⟨Z, hS⟩ := simN_run (simN_create ty b t0) hf
  have hZ : Z = (tallies b h).map (·.2) := hL.holds hS.1
  subst hZ
  refine ⟨hL, hS, fun ex0 => ?_⟩
  have hx : (B.xweight now ex0 true).1 = B.fresh now ex0 true := C21_plain ty b t0 h now ex0 true
  rw [hx, ← pairs_entries]
  exact ⟨hS.1.fresh now ex0, pairs_pos hS.1 ex0⟩

/-- C56: after any history of a non level monitor (values of the type that are not infinite, positive weights), whether it is stats_only or not: the number
of entries, the weight, the mean, the variance (square of std), the minimum and the maximum are those of the tallies made since the last reset while the
monitor was on, without the zeros if ex0 -/
theorem C56_statistics (ty : XType) (so b : Bool) (t0 : Rat) {h : List (Rat × Op)} (hf : ∀ e ∈ h, FineN ty e.2) (now : Rat) (ex0 : Bool) :
    let m := (create false none ty so b t0).1.run h
    let E := entries ex0 (tallies b h)
    let W := total (fun _ => 1) E
    let M := total (fun x => x) E / W
    m.numberOfEntries now ex0 = .ok E.length ∧ m.sysWeight now ex0 = W ∧
    (E = [] → m.mean now ex0 = none ∧ m.variance now ex0 = none ∧ m.minimum now ex0 = none ∧ m.maximum now ex0 = none) ∧
    (E ≠ [] → m.mean now ex0 = some M ∧ m.variance now ex0 = some (total (fun x => (x - M) ^ 2) E / W) ∧
      (∃ lo, m.minimum now ex0 = some lo ∧ (∃ p ∈ E, p.1 = lo) ∧ ∀ p ∈ E, lo ≤ p.1) ∧ ∃ hi, m.maximum now ex0 = some hi ∧ (∃ p ∈ E, p.1 = hi) ∧ ∀ p ∈ E, p.1 ≤ hi) := by
  intro m E W M
  have key : ∀ so', so' = false → let m := (create false none ty so' b t0).1.run h
    m.numberOfEntries now ex0 = .ok E.length ∧ m.sysWeight now ex0 = W ∧
    (E = [] → m.mean now ex0 = none ∧ m.variance now ex0 = none ∧ m.minimum now ex0 = none ∧ m.maximum now ex0 = none) ∧
    (E ≠ [] → m.mean now ex0 = some M ∧ m.variance now ex0 = some (total (fun x => (x - M) ^ 2) E / W) ∧
      (∃ lo, m.minimum now ex0 = some lo ∧ (∃ p ∈ E, p.1 = lo) ∧ ∀ p ∈ E, lo ≤ p.1) ∧ ∃ hi, m.maximum now ex0 = some hi ∧ (∃ p ∈ E, p.1 = hi) ∧ ∀ p ∈ E, p.1 ≤ hi) := by
    intro so' hso m
    subst hso
    obtain ⟨hL, _, hP⟩ := tally_core ty b t0 hf now
    obtain ⟨hP, hpos⟩ := hP ex0
    have hlev : m.level = false := hL.1
    have hfull : m.statsOnly = false := hL.2.1
    have hP : IsPairs (m.xweight now ex0 true).1 E := hP
    have hpos : ∀ p ∈ E, 0 < p.2 := hpos
    have hW : (m.xweight now ex0 true).1.2.sum = W := by rw [hP.sum]; rfl
    have hlen : (m.xweight now ex0 true).1.1.length = E.length := by rw [hP.len, hP.2]; simp
    refine ⟨?_, ?_, ?_, ?_⟩
    · unfold Monitor.numberOfEntries
      rw [hlev, hfull, hlen]; rfl
    · unfold Monitor.sysWeight
      rw [hfull, hW]; rfl
    · intro hE
      have hW0 : W = 0 := by
        show total _ E = 0
        rw [hE]; rfl
      have hn : nums (m.xweight now ex0 true).1.1 = [] := by rw [hP.1, hE]; rfl
      unfold Monitor.mean Monitor.variance Monitor.minimum Monitor.maximum meanOf varianceOf
      simp only [hfull, hW, hW0, hn, ne_eq, not_true_eq_false, if_false, Bool.false_eq_true, minOf, maxOf, and_self]
    · intro hE
      have hW0 : W ≠ 0 := (psum_pos' hpos hE).ne'
      have hmean : meanOf (m.xweight now ex0 true).1 = some M := by
        unfold meanOf
        rw [hW, if_pos hW0, ← wsum_toRat, hP.wsum (fun x => x)]
        rfl
      have hne : nums (m.xweight now ex0 true).1.1 ≠ [] := by rw [hP.1]; simpa using hE
      obtain ⟨lo, hlo⟩ := minOf_some hne
      obtain ⟨hi, hhi⟩ := maxOf_some hne
      refine ⟨?_, ?_, ⟨lo, ?_, ?_⟩, hi, ?_, ?_⟩
      · unfold Monitor.mean
        rw [hfull]; exact hmean
      · unfold Monitor.variance
        rw [hfull]
        show varianceOf (m.xweight now ex0 true).1 = _
        unfold varianceOf
        rw [hmean, hW, if_pos hW0, hP.1, hP.2, List.zipWith_map]
        congr 2
        show _ = (E.map _).sum
        congr 1
        have aux : ∀ l : List (Rat × Rat), List.zipWith (fun a b : Rat × Rat => b.2 * (a.1 - (some M).getD 0) ^ 2) l l = l.map (fun p => (p.1 - M) ^ 2 * p.2) := by
          intro l
          induction l with
          | nil => rfl
          | cons a l ih =>
            rw [List.zipWith_cons_cons, List.map_cons, ih]
            congr 1
            exact mul_comm _ _
        exact aux E
      · unfold Monitor.minimum
        rw [hfull]; exact hlo
      · have := minOf_spec hlo
        rw [hP.1] at this
        obtain ⟨h1, h2⟩ := this
        obtain ⟨p, hp, e⟩ := List.mem_map.1 h1
        exact ⟨⟨p, hp, e⟩, fun p hp => h2 _ (List.mem_map.2 ⟨p, hp, rfl⟩)⟩
      · unfold Monitor.maximum
        rw [hfull]; exact hhi
      · have := maxOf_spec hhi
        rw [hP.1] at this
        obtain ⟨h1, h2⟩ := this
        obtain ⟨p, hp, e⟩ := List.mem_map.1 h1
        exact ⟨⟨p, hp, e⟩, fun p hp => h2 _ (List.mem_map.2 ⟨p, hp, rfl⟩)⟩
  cases so with
  | false => exact key false rfl
  | true =>
    have k := key false rfl
    obtain ⟨c1, c2, c3, c4, c5, c6⟩ := C20_plain ty b t0 h hf now ex0
    simp only [m, c1, c2, c3, c4, c5, c6]
    exact k

/-- `_weight` tells whether one of the weights is not 1 -/
theorem truthy_iff {ty : XType} {B : Monitor} {Z : List (Val × Rat)} (h : Holds ty B Z) (hw : B.weight.truthy = false) : ∀ p ∈ Z, p.2 = 1 := by
  rcases h.2.2.2.2.2.1 with ⟨_, hall⟩ | ⟨hz0, hwl⟩
  · exact hall
  · exfalso
    rw [hwl] at hw
    cases Z with
    | nil => exact hz0 rfl
    | cons a r => simp [Weights.truthy] at hw

/-- C56, the stored tallies: a monitor that is not stats_only has exactly the tallies that count, in the order in which they were made, each with its moment,
value and weight -/
theorem C56_stored (ty : XType) (b : Bool) (t0 : Rat) {h : List (Rat × Op)} (hf : ∀ e ∈ h, FineN ty e.2) :
    let m := (create false none ty false b t0).1.run h
    m.t.zip (m.x.zip m.weights) = tallies b h ∧ m.t.length = (tallies b h).length ∧ m.x.length = (tallies b h).length := by
  intro m
  obtain ⟨hL, _, _⟩ := tally_core ty b t0 hf 0
  obtain ⟨_, _, _, _, _, b6, b7, b8⟩ := hL
  have e : (h.foldl Log.step ⟨b, []⟩).l = tallies b h := rfl
  rw [e] at b6 b7 b8
  show (((create false none ty false b t0).1.run h).t.zip _ = _ ∧ _)
  rw [b6, b7, b8]
  exact ⟨zip3 _, by simp, by simp⟩

/-- C56, counting: the number of entries and the weight in a bin, with the lower bound excluded and the upper bound included (none is infinite), and those of
some values are those of the tallies -/
theorem C56_counts (ty : XType) (b : Bool) (t0 : Rat) {h : List (Rat × Op)} (hf : ∀ e ∈ h, FineN ty e.2) (now : Rat) (ex0 : Bool) (lb ub : Option Rat) (vs : List Val) :
    let m := (create false none ty false b t0).1.run h
    let inside : Rat → Prop := fun x => (∀ l, lb = some l → l < x) ∧ ∀ u, ub = some u → x ≤ u
    (∃ n, m.binEntries now lb ub ex0 = .ok n ∧ ∀ [DecidablePred inside], n = (entries ex0 (tallies b h)).countP (fun p => inside p.1)) ∧
    (∀ [DecidablePred inside], m.binWeight now lb ub = (((entries false (tallies b h)).filter (fun p => inside p.1)).map (·.2)).sum) ∧
    m.valueEntries now vs = .ok ((tallies b h).countP (fun z => decide (z.2.1 ∈ vs))) ∧
    m.valueWeight now vs = (((tallies b h).filter (fun z => decide (z.2.1 ∈ vs))).map (·.2.2)).sum := by
  intro m inside
  obtain ⟨hL, _, hP⟩ := tally_core ty b t0 hf now
  have hin : ∀ [DecidablePred inside] (x : Rat), inBin lb ub x = decide (inside x) := by
    intro _ x
    rw [Bool.eq_iff_iff, decide_eq_true_iff]
    unfold inBin
    cases lb <;> cases ub <;> simp [inside]
  obtain ⟨b1, b2, _, _, _, _, b7, b8⟩ := hL
  have e : (h.foldl Log.step ⟨b, []⟩).l = tallies b h := rfl
  rw [e] at b7 b8
  have b1 : m.level = false := b1
  have b2 : m.statsOnly = false := b2
  have b7 : m.x = _ := b7
  have b8 : m.weights = _ := b8
  have hx : (m.xweight now false false).1 = m.fresh now false false := C21_plain ty b t0 h now false false
  have hv : (m.xweight now false false).1 = ((tallies b h).map (·.2.1), (tallies b h).map (·.2.2)) := by
    have hfr : m.fresh now false false = (m.x, m.weights) := by
      unfold Monitor.fresh Monitor.weights
      rw [b1]
      simp only [Monitor.values, Bool.not_false, Bool.or_true, if_true, Bool.false_eq_true, if_false]
      split <;> rfl
    rw [hx, hfr, b7, b8]
  refine ⟨⟨(entries ex0 (tallies b h)).countP (fun p => inBin lb ub p.1), ?_, ?_⟩, ?_, ?_, ?_⟩
  · unfold Monitor.binEntries
    rw [b2, b1]
    have := (hP ex0).1.1
    rw [show nums (m.xweight now ex0 true).1.1 = _ from this, List.countP_map]
    rfl
  · intro _
    congr 1
    funext p
    exact hin _
  · intro _
    unfold Monitor.binWeight
    have hh := (hP false).1
    show (((List.zip (nums (m.xweight now false true).1.1) (m.xweight now false true).1.2).filter _).map _).sum = _
    rw [show nums (m.xweight now false true).1.1 = _ from hh.1, show (m.xweight now false true).1.2 = _ from hh.2, zip_maps]
    congr 2
    refine List.filter_congr (fun p _ => hin _)
  · unfold Monitor.valueEntries
    rw [b2, b1, hv, List.countP_map]
    show Except.ok _ = _
    congr 1
    congr 1
    funext z
    simp [Bool.eq_iff_iff]
  · unfold Monitor.valueWeight
    rw [hv]
    have : ((tallies b h).map (·.2.1)).zip ((tallies b h).map (·.2.2)) = (tallies b h).map (·.2) := by
      have := zip_maps ((tallies b h).map (·.2))
      simpa [List.map_map, Function.comp_def] using this
    show (((((tallies b h).map (·.2.1)).zip ((tallies b h).map (·.2.2))).filter _).map _).sum = _
    rw [this, List.filter_map, List.map_map]
    congr 2
    refine List.filter_congr (fun z _ => ?_)
    simp [Bool.eq_iff_iff]

/-- C56, percentiles: if there are tallies that count, the percentile (linear, lower, higher or midpoint) is between the lowest and the highest of them. If a
weight is not 1, at least q percent of the weight is at or below it and at least (100-q) percent at or above it. If all weights are 1 that holds for the
number of entries less one. -/
theorem C56_percentile (ty : XType) (b : Bool) (t0 : Rat) {h : List (Rat × Op)} (hf : ∀ e ∈ h, FineN ty e.2) (now : Rat) {it : Interp}
    (hit : it ≠ .other ∧ it ≠ .nearest) {q : Rat} (hq0 : 0 ≤ q) (hq1 : q ≤ 100) (ex0 : Bool) :
    let m := (create false none ty false b t0).1.run h
    let E := entries ex0 (tallies b h)
    E ≠ [] → ∃ p, m.percentile now q ex0 it = .ok (some p) ∧ (∃ e ∈ E, e.1 ≤ p) ∧ (∃ e ∈ E, p ≤ e.1) ∧
      ((∃ z ∈ tallies b h, z.2.2 ≠ 1) → q / 100 * total (fun _ => 1) E ≤ total (fun _ => 1) (E.filter (fun e => e.1 ≤ p)) ∧
        (1 - q / 100) * total (fun _ => 1) E ≤ total (fun _ => 1) (E.filter (fun e => p ≤ e.1))) ∧
      ((∀ z ∈ tallies b h, z.2.2 = 1) → q / 100 * ((E.length : Rat) - 1) ≤ (E.countP (fun e => e.1 ≤ p) : Rat) ∧
        (1 - q / 100) * ((E.length : Rat) - 1) ≤ (E.countP (fun e => p ≤ e.1) : Rat)) := by
  intro m E hE
  obtain ⟨hL, hS, hP⟩ := tally_core ty b t0 hf now
  obtain ⟨hP, hpos⟩ := hP ex0
  have hP : IsPairs (m.xweight now ex0 true).1 E := hP
  have hne : (m.xweight now ex0 true).1.1 ≠ [] := by
    intro h0
    have := hP.1
    rw [h0] at this
    exact hE (List.map_eq_nil_iff.1 this.symm)
  obtain ⟨p, lo, hi, h1, h2, h3, h4, h5, h6, h7⟩ := C24_tallies ty b t0 h hf now hit hq0 hq1 ex0 hne
  have hzip : (nums (m.xweight now ex0 true).1.1).zip (m.xweight now ex0 true).1.2 = E := by rw [hP.1, hP.2, zip_maps]
  have htot : ∀ l : List (Rat × Rat), (l.map (·.2)).sum = total (fun _ => 1) l := by
    intro l; unfold total; simp
  have hweighted : m.weight.truthy = true → q / 100 * total (fun _ => 1) E ≤ total (fun _ => 1) (E.filter (fun e => e.1 ≤ p)) ∧
        (1 - q / 100) * total (fun _ => 1) E ≤ total (fun _ => 1) (E.filter (fun e => p ≤ e.1)) := by
    intro ht
    obtain ⟨_, _, i3, i4⟩ := h6 ht
    have e1 : massLe p ((nums (m.xweight now ex0 true).1.1).zip (m.xweight now ex0 true).1.2) = total (fun _ => 1) (E.filter (fun e => e.1 ≤ p)) := by
      rw [hzip, massLe, htot]
    have e2 : massGe p ((nums (m.xweight now ex0 true).1.1).zip (m.xweight now ex0 true).1.2) = total (fun _ => 1) (E.filter (fun e => p ≤ e.1)) := by
      rw [hzip, massGe, htot]
    have e3 : (m.xweight now ex0 true).1.2.sum = total (fun _ => 1) E := by rw [hP.2, htot]
    rw [← e1, ← e2, ← e3]
    exact ⟨i3, i4⟩
  have hends : (∃ e ∈ E, e.1 ≤ p) ∧ ∃ e ∈ E, p ≤ e.1 := by
    have hfull : m.statsOnly = false := hL.2.1
    have hlo : minOf (nums (m.xweight now ex0 true).1.1) = some lo := by
      have : m.minimum now ex0 = some lo := h2
      unfold Monitor.minimum at this
      rwa [hfull] at this
    have hhi : maxOf (nums (m.xweight now ex0 true).1.1) = some hi := by
      have : m.maximum now ex0 = some hi := h3
      unfold Monitor.maximum at this
      rwa [hfull] at this
    have a := (minOf_spec hlo).1
    have c := (maxOf_spec hhi).1
    rw [hP.1] at a c
    obtain ⟨e, he, rfl⟩ := List.mem_map.1 a
    obtain ⟨e', he', rfl⟩ := List.mem_map.1 c
    exact ⟨⟨e, he, h4⟩, e', he', h5⟩
  refine ⟨p, h1, hends.1, hends.2, ?_, ?_⟩
  · rintro ⟨z, hz, hz1⟩
    apply hweighted
    by_contra ht
    have := truthy_iff hS.1 (by simpa using ht) z.2 (List.mem_map.2 ⟨z, hz, rfl⟩)
    exact hz1 this
  · intro hone
    have hlen : E.length = (nums (m.xweight now ex0 true).1.1).length := by rw [hP.1]; simp
    cases ht : m.weight.truthy with
    | false =>
      obtain ⟨_, _, i3, i4⟩ := h7 ht
      have i3 : q / 100 * (((nums (m.xweight now ex0 true).1.1).length : Rat) - 1) ≤ ((nums (m.xweight now ex0 true).1.1).countP (fun a => decide (a ≤ p)) : Rat) := i3
      have i4 : (1 - q / 100) * (((nums (m.xweight now ex0 true).1.1).length : Rat) - 1) ≤ ((nums (m.xweight now ex0 true).1.1).countP (fun a => decide (p ≤ a)) : Rat) := i4
      rw [← hlen, hP.1, List.countP_map] at i3 i4
      exact ⟨i3, i4⟩
    | true =>
      obtain ⟨i3, i4⟩ := hweighted ht
      have h1' : ∀ e ∈ E, e.2 = 1 := by
        intro e he
        obtain ⟨z, hz, rfl⟩ := List.mem_map.1 (List.mem_filter.1 he).1
        exact hone z hz
      have hcnt : ∀ l : List (Rat × Rat), (∀ e ∈ l, e.2 = 1) → total (fun _ => 1) l = (l.length : Rat) := by
        intro l hl
        induction l with
        | nil => rfl
        | cons a l ih =>
          have := ih (fun e he => hl e (by simp [he]))
          unfold total at this ⊢
          rw [List.map_cons, List.sum_cons, this, hl a (by simp)]
          push_cast [List.length_cons]; ring
      rw [hcnt E h1', hcnt _ (fun e he => h1' e (List.mem_filter.1 he).1), ← List.countP_eq_length_filter] at i3 i4
      have q0 : 0 ≤ q / 100 := by positivity
      have q1 : 0 ≤ 1 - q / 100 := by linarith
      exact ⟨by linarith, by linarith⟩

/-- a history with a tally while the monitor is off, one before a reset, a zero and different weights -/
def tallyDemo : List (Rat × Op) :=
  [(1, .tally (.num 9) 1), (2, .reset none none), (3, .tally (.num 4) 1), (3, .monitor false), (4, .tally (.num 100) 2), (5, .monitor true), (5, .read true true),
   (6, .tally (.num 0) 3), (7, .tally (.num 10) 2)]

/-- it meets the hypotheses, and this is what the theorems say about it -/
example : (∀ e ∈ tallyDemo, FineN .any e.2) ∧ tallies true tallyDemo = [(3, .num 4, 1), (6, .num 0, 3), (7, .num 10, 2)] ∧
    entries true (tallies true tallyDemo) = [(4, 1), (10, 2)] ∧
    (let m := (create false none .any false true 0).1.run tallyDemo
     let s := (create false none .any true true 0).1.run tallyDemo
     m.mean 8 false = some 4 ∧ m.mean 8 true = some 8 ∧ m.variance 8 false = some 20 ∧ s.mean 8 true = some 8 ∧ s.numberOfEntries 8 true = .ok 2 ∧
     m.binWeight 8 (some 0) (some 4) = 1 ∧ m.valueWeight 8 [.num 0, .num 10] = 5 ∧ m.percentile 8 50 false .linear = .ok (some 2)) := by
  refine ⟨?_, by decide +kernel⟩
  intro e he
  simp only [tallyDemo, List.mem_cons, List.not_mem_nil, or_false] at he
  rcases he with rfl | rfl | rfl | rfl | rfl | rfl | rfl | rfl | rfl <;> simp [FineN, XType.accepts]

end Mon
end Verif
