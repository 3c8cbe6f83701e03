import Verif.Monitor
import Verif.Props.Util
import Mathlib.Data.List.Induction
import Mathlib.Tactic.Linarith
import Mathlib.Tactic.Ring
import Mathlib.Tactic.FieldSimp

/-!
# Claims about level monitors and their statistics (C18, C19, C21)

The specification is a signal: a monitor is on or off and has a current value; tallies change the value, `monitor()` the switch.
-/

namespace Verif
namespace Mon

/-! ## the signal -/

/-- what a level monitor should follow: is it on, the value, the moment of the last reset -/
structure Sig where
  on : Bool
  cur : Val
  start : Rat
  deriving DecidableEq

/-- the effect of an operation on the signal -/
def Sig.step (s : Sig) (e : Rat × Op) : Sig :=
  match e.2 with
  | .tally v _ => { s with cur := v }
  | .monitor b => { s with on := b }
  | .reset b _ => { s with on := b.getD s.on, start := e.1 }
  | _ => s

/-- the value, or off -/
def Sig.val (off : Val) (s : Sig) : Val := if s.on then s.cur else off

/-- the signal after some operations -/
def signal (s : Sig) (h : List (Rat × Op)) : Sig := h.foldl Sig.step s

/-- the signal at a moment: only what was done up to that moment counts -/
def signalAt (s : Sig) (h : List (Rat × Op)) (τ : Rat) : Sig := signal s (h.filter (fun e => decide (e.1 ≤ τ)))

/-- the integral over the time from the last reset up to now of `g` of the signal: the signal, the moment of the last operation, the integral -/
def integralStep (g : Val → Rat) (off : Val) (a : Sig × Rat × Rat) (e : Rat × Op) : Sig × Rat × Rat :=
  (a.1.step e, e.1, match e.2 with | .reset _ _ => 0 | _ => a.2.2 + g (a.1.val off) * (e.1 - a.2.1))

/-- the integral of `g` of the signal from the last reset to `now` -/
def integral (g : Val → Rat) (off : Val) (s : Sig) (t0 : Rat) (h : List (Rat × Op)) (now : Rat) : Rat :=
  let a := h.foldl (integralStep g off) (s, t0, 0)
  a.2.2 + g (a.1.val off) * (now - a.2.1)

/-- the moments do not decrease, from t0 to now -/
def Chrono (t0 : Rat) (h : List (Rat × Op)) (now : Rat) : Prop := (t0 :: (h.map (·.1) ++ [now])).Pairwise (· ≤ ·)

/-- operations that a level monitor of this type accepts: values of the type other than off, weight 1, and no change to stats_only -/
def Fine (ty : XType) : Op → Prop
  | .tally v w => w = 1 ∧ ty.accepts v = true ∧ v ≠ ty.off
  | .reset _ s => s ≠ some true
  | _ => True

/-! ## the stored list -/

/-- put a value at a moment at the end of a list of moments and values -/
def putL (L : List (Rat × Val)) (now : Rat) (v : Val) : List (Rat × Val) :=
  if (L.map (·.1)).getLast? = some now then L.dropLast ++ [(now, v)] else L ++ [(now, v)]

/-- the value at a moment according to a list of moments and values -/
def stepAt (off : Val) (L : List (Rat × Val)) (τ : Rat) : Val := L.foldl (fun acc p => if p.1 ≤ τ then p.2 else acc) off

/-- the sum of `g value * duration` -/
def W (g : Val → Rat) (now : Rat) : List (Rat × Val) → Rat
  | [] => 0
  | [a] => g a.2 * (now - a.1)
  | a :: b :: r => g a.2 * (b.1 - a.1) + W g now (b :: r)

/-- strictly ascending moments -/
def Asc (L : List (Rat × Val)) : Prop := L.Pairwise (fun a b => a.1 < b.1)

theorem W_snoc (g : Val → Rat) (now s : Rat) (v : Val) : ∀ L, L ≠ [] → W g now (L ++ [(s, v)]) = W g s L + g v * (now - s)
  | [], h => absurd rfl h
  | [a], _ => by simp [W]
  | a :: b :: r, _ => by
    have := W_snoc g now s v (b :: r) (by simp)
    simp only [List.cons_append, W] at this ⊢
    rw [this]; ring

theorem W_dropLast (g : Val → Rat) (now s : Rat) (v : Val) (L : List (Rat × Val)) :
    W g s (L ++ [(s, v)]) = W g s L := by
  cases L with
  | nil => simp [W]
  | cons a r => rw [W_snoc _ _ _ _ _ (by simp)]; ring

theorem W_later (g : Val → Rat) (now s : Rat) (L : List (Rat × Val)) (a : Rat × Val) :
    W g now (L ++ [a]) = W g s (L ++ [a]) + g a.2 * (now - s) := by
  cases L with
  | nil => simp [W]; ring
  | cons b r =>
    obtain ⟨t, v⟩ := a
    rw [W_snoc _ _ _ _ _ (by simp), W_snoc _ _ _ _ _ (by simp)]; ring

/-- the relation between a level monitor (not stats_only) and the signal, at a moment not after `now`; `L` are the stored moments and values -/
structure Rep (ty : XType) (m : Monitor) (s : Sig) (L : List (Rat × Val)) (now : Rat) : Prop where
  level : m.level = true
  full : m.statsOnly = false
  gen : m.generated = false
  type : m.xtype = ty
  tally : m.tally = s.cur
  on : m.on = s.on
  start : m.start = s.start
  acc : ty.accepts s.cur = true
  noff : s.cur ≠ ty.off
  ht : m.t = L.map (·.1)
  hx : m.x = L.map (·.2)
  asc : Asc L
  shape : ∃ pre t, L = pre ++ [(t, s.val ty.off)] ∧ t ≤ now
  head : L.head?.map (·.1) = some s.start

theorem accepts_off (ty : XType) : ty.accepts ty.off = true := by cases ty <;> decide

theorem putL_snoc (pre : List (Rat × Val)) (t now : Rat) (w v : Val) :
    putL (pre ++ [(t, w)]) now v = if t = now then pre ++ [(now, v)] else pre ++ [(t, w)] ++ [(now, v)] := by
  unfold putL; simp

theorem put_eq {m : Monitor} {pre : List (Rat × Val)} {t now : Rat} {w v : Val} (ht : m.t = (pre ++ [(t, w)]).map (·.1))
    (hx : m.x = (pre ++ [(t, w)]).map (·.2)) (ha : m.xtype.accepts v = true) :
    m.put now v = ({ m with x := (putL (pre ++ [(t, w)]) now v).map (·.2), t := (putL (pre ++ [(t, w)]) now v).map (·.1) }, none) := by
  unfold Monitor.put
  rw [putL_snoc]
  have h1 : m.t.getLast? = some t := by rw [ht]; simp
  rw [h1]
  simp only [ha, Bool.not_true, Bool.false_eq_true, if_false]
  by_cases h : t = now
  · subst h; simp only [if_true]; rw [hx, ht]; simp
  · simp only [h, if_false]; rw [hx, ht]; simp

theorem asc_putL {pre : List (Rat × Val)} {t now : Rat} {w v : Val} (h : Asc (pre ++ [(t, w)])) (hn : t ≤ now) : Asc (putL (pre ++ [(t, w)]) now v) := by
  rw [putL_snoc]
  unfold Asc at *
  rw [List.pairwise_append] at h
  obtain ⟨h1, h2, h3⟩ := h
  split
  · rename_i e; subst e
    rw [List.pairwise_append]
    exact ⟨h1, by simp, fun a ha b hb => by simp at hb; subst hb; exact h3 a ha (t, w) (by simp)⟩
  · rename_i e
    have : t < now := lt_of_le_of_ne hn e
    rw [List.pairwise_append]
    refine ⟨List.pairwise_append.2 ⟨h1, h2, h3⟩, by simp, ?_⟩
    intro a ha b hb
    simp at hb; subst hb
    rcases List.mem_append.1 ha with ha | ha
    · exact lt_trans (h3 a ha (t, w) (by simp)) this
    · simp at ha; subst ha; exact this

theorem putL_head {pre : List (Rat × Val)} {t now : Rat} {w v : Val} : (putL (pre ++ [(t, w)]) now v).head?.map (·.1) = (pre ++ [(t, w)]).head?.map (·.1) := by
  rw [putL_snoc]; split
  · rename_i e; subst e; cases pre <;> simp
  · cases pre <;> simp

theorem putL_shape {pre : List (Rat × Val)} {t now : Rat} {w v : Val} : ∃ p', putL (pre ++ [(t, w)]) now v = p' ++ [(now, v)] := by
  rw [putL_snoc]; split
  · exact ⟨_, rfl⟩
  · exact ⟨_, rfl⟩

/-- storing the value of the signal keeps the relation -/
theorem Rep.put {ty : XType} {m : Monitor} {s s' : Sig} {L : List (Rat × Val)} {t0 now : Rat} (h : Rep ty m s L t0) (hn : t0 ≤ now)
    (m' : Monitor) (hm' : m' = { m with tally := s'.cur, on := s'.on, ttally := m'.ttally, cache := m'.cache }) (hs : s'.start = s.start)
    (ha : ty.accepts s'.cur = true) (hno : s'.cur ≠ ty.off) :
    (m'.put now (s'.val ty.off)).2 = none ∧ Rep ty (m'.put now (s'.val ty.off)).1 s' (putL L now (s'.val ty.off)) now := by
  obtain ⟨pre, t, hL, ht⟩ := h.shape
  have hty : m'.xtype = ty := by rw [hm', ← h.type]
  have hacc : m'.xtype.accepts (s'.val ty.off) = true := by
    rw [hty]; unfold Sig.val; split
    · exact ha
    · exact accepts_off ty
  have e := put_eq (m := m') (now := now) (v := s'.val ty.off) (by rw [hm']; simpa [hL] using h.ht) (by rw [hm']; simpa [hL] using h.hx) hacc
  rw [e, hL]
  refine ⟨rfl, ?_⟩
  have hasc := h.asc
  rw [hL] at hasc
  exact { level := by rw [hm']; exact h.level, full := by rw [hm']; exact h.full, gen := by rw [hm']; exact h.gen, type := hty
          tally := by rw [hm'], on := by rw [hm'], start := by rw [hm', hs]; exact h.start, acc := ha, noff := hno, ht := rfl, hx := rfl
          asc := asc_putL hasc (le_trans ht hn)
          shape := by
            obtain ⟨p, hp⟩ := putL_shape (pre := pre) (t := t) (now := now) (w := s.val ty.off) (v := s'.val ty.off)
            exact ⟨p, now, hp, le_rfl⟩
          head := by rw [putL_head, ← hL, hs]; exact h.head }

theorem doTally_full {m : Monitor} {now : Rat} {v : Val} (h1 : m.level = true) (h2 : m.statsOnly = false) (h3 : m.generated = false) (h4 : v ≠ m.off) :
    m.doTally now v 1 = if m.on then ({ m with cache := [], tally := v, ttally := now } : Monitor).put now v
      else ({ m with cache := [], tally := v, ttally := now }, none) := by
  cases m
  simp only at h1 h2 h3
  subst h1 h2 h3
  simp only [Monitor.off] at h4
  simp [Monitor.doTally, Monitor.off, h4]

theorem setMonitor_true {m : Monitor} {now : Rat} (h2 : m.statsOnly = false) (h3 : m.generated = false) (h1 : m.level = true) :
    m.setMonitor now (some true) = ({ m with on := true } : Monitor).doTally now m.tally 1 := by
  cases m
  simp only at h1 h2 h3
  subst h1 h2 h3
  simp [Monitor.setMonitor]

theorem setMonitor_false {m : Monitor} {now : Rat} (h2 : m.statsOnly = false) (h3 : m.generated = false) (h1 : m.level = true) :
    m.setMonitor now (some false) = ({ m with on := false } : Monitor).put now m.off := by
  cases m
  simp only at h1 h2 h3
  subst h1 h2 h3
  simp [Monitor.setMonitor, Monitor.off]

theorem reset_full {m : Monitor} {now : Rat} {b so : Option Bool} (h2 : so.getD m.statsOnly = false) (h3 : m.generated = false) (h1 : m.level = true)
    (v : Val) (hv : v = if b.getD m.on then m.tally else m.off) (ha : m.xtype.accepts v = true) :
    m.reset now b so = ({ m with on := b.getD m.on, statsOnly := false, start := now, x := [v], t := [now], weight := .yes, cache := [] } : Monitor).setMonitor now b := by
  cases m
  simp only at h1 h2 h3 ha hv
  subst h1 h3 hv
  simp only [Monitor.off] at ha
  simp [Monitor.reset, h2, Monitor.off, ha]

/-- the relation holds after any change of fields that do not matter -/
theorem Rep.keep {ty : XType} {m : Monitor} {s : Sig} {L : List (Rat × Val)} {t0 now : Rat} (h : Rep ty m s L t0) (hn : t0 ≤ now)
    (m' : Monitor) (s' : Sig) (hm' : m' = { m with tally := s'.cur, ttally := m'.ttally, cache := m'.cache }) (ho : s'.on = s.on) (hs : s'.start = s.start)
    (hv : s'.val ty.off = s.val ty.off) (ha : ty.accepts s'.cur = true) (hno : s'.cur ≠ ty.off) : Rep ty m' s' L now := by
  obtain ⟨pre, t, hL, ht⟩ := h.shape
  exact { level := by rw [hm']; exact h.level, full := by rw [hm']; exact h.full, gen := by rw [hm']; exact h.gen, type := by rw [hm']; exact h.type
          tally := by rw [hm'], on := by rw [hm', ho]; exact h.on, start := by rw [hm', hs]; exact h.start, acc := ha, noff := hno
          ht := by rw [hm']; exact h.ht, hx := by rw [hm']; exact h.hx, asc := h.asc, shape := ⟨pre, t, by rw [hL, hv], le_trans ht hn⟩
          head := by rw [hs]; exact h.head }

theorem Rep.doTally {ty : XType} {m : Monitor} {s : Sig} {L : List (Rat × Val)} {t0 now : Rat} {v : Val} (h : Rep ty m s L t0) (hn : t0 ≤ now)
    (ha : ty.accepts v = true) (hno : v ≠ ty.off) :
    Rep ty (m.doTally now v 1).1 { s with cur := v } (if s.on then putL L now v else L) now := by
  have hoff : m.off = ty.off := by rw [Monitor.off, h.type]
  have hd := doTally_full (now := now) (v := v) h.level h.full h.gen (by rw [hoff]; exact hno)
  rw [hd]
  by_cases hon : s.on = true
  · rw [if_pos (by rw [h.on]; exact hon), if_pos hon]
    have := h.put (now := now) (s' := { s with cur := v }) hn { m with cache := [], tally := v, ttally := now } (by rw [← h.on]) rfl ha hno
    have hv : ({ s with cur := v } : Sig).val ty.off = v := by simp [Sig.val, hon]
    rw [hv] at this
    exact this.2
  · rw [if_neg (by rw [h.on]; exact hon), if_neg hon]
    have hv : ({ s with cur := v } : Sig).val ty.off = s.val ty.off := by simp [Sig.val, hon]
    exact h.keep hn _ _ rfl rfl rfl hv ha hno

theorem Rep.setMonitor {ty : XType} {m : Monitor} {s : Sig} {L : List (Rat × Val)} {t0 now : Rat} (b : Bool) (h : Rep ty m s L t0) (hn : t0 ≤ now) :
    Rep ty (m.setMonitor now (some b)).1 { s with on := b } (putL L now (({ s with on := b } : Sig).val ty.off)) now := by
  have hoff : m.off = ty.off := by rw [Monitor.off, h.type]
  cases b with
  | true =>
    rw [setMonitor_true h.full h.gen h.level]
    have hd := doTally_full (m := { m with on := true }) (now := now) (v := m.tally) h.level h.full h.gen (by
        show m.tally ≠ m.off; rw [hoff, h.tally]; exact h.noff)
    rw [hd, if_pos rfl]
    have := h.put (now := now) (s' := { s with on := true }) hn { m with on := true, cache := [], tally := m.tally, ttally := now } (by rw [← h.tally]) rfl h.acc h.noff
    have hv : ({ s with on := true } : Sig).val ty.off = m.tally := by simp [Sig.val, h.tally]
    rw [hv] at this ⊢
    exact this.2
  | false =>
    rw [setMonitor_false h.full h.gen h.level, hoff]
    have := h.put (now := now) (s' := { s with on := false }) hn { m with on := false } (by rw [← h.tally]) rfl h.acc h.noff
    have hv : ({ s with on := false } : Sig).val ty.off = ty.off := by simp [Sig.val]
    rw [hv] at this ⊢
    exact this.2

theorem Rep.reset {ty : XType} {m : Monitor} {s : Sig} {L : List (Rat × Val)} {t0 now : Rat} {b so : Option Bool} (h : Rep ty m s L t0)
    (hso : so ≠ some true) : Rep ty (m.reset now b so).1 { s with on := b.getD s.on, start := now }
      [(now, ({ s with on := b.getD s.on, start := now } : Sig).val ty.off)] now := by
  have hoff : m.off = ty.off := by rw [Monitor.off, h.type]
  have hso : so.getD m.statsOnly = false := by
    rw [h.full]
    cases so with
    | none => rfl
    | some c => cases c with
      | true => exact absurd rfl hso
      | false => rfl
  generalize hs' : ({ s with on := b.getD s.on, start := now } : Sig) = s'
  have hcur : s'.cur = s.cur := by rw [← hs']
  have hstart : s'.start = now := by rw [← hs']
  have hon' : s'.on = b.getD s.on := by rw [← hs']
  have hv0 : s'.val ty.off = (if b.getD m.on = true then m.tally else m.off) := by
    rw [hoff, h.on, h.tally, ← hs']; rfl
  have hacc : m.xtype.accepts (s'.val ty.off) = true := by
    rw [h.type]
    unfold Sig.val; split
    · rw [hcur]; exact h.acc
    · exact accepts_off ty
  rw [reset_full hso h.gen h.level _ hv0 hacc]
  have b0 : Rep ty { m with on := b.getD m.on, statsOnly := false, start := now, x := [s'.val ty.off], t := [now], weight := .yes, cache := [] } s' [(now, s'.val ty.off)] now :=
    { level := h.level, full := rfl, gen := h.gen, type := h.type
      tally := by rw [hcur]; exact h.tally, on := by rw [hon', ← h.on], start := hstart.symm
      acc := by rw [hcur]; exact h.acc, noff := by rw [hcur]; exact h.noff, ht := rfl, hx := rfl
      asc := by simp [Asc], shape := ⟨[], now, rfl, le_rfl⟩, head := by simp [hstart] }
  cases b with
  | none => exact b0
  | some b =>
    have b1 := b0.setMonitor (now := now) b le_rfl
    have hsame : ({ s' with on := b } : Sig) = s' := by rw [← hs']; rfl
    have single : putL [(now, s'.val ty.off)] now (s'.val ty.off) = [(now, s'.val ty.off)] := by simp [putL]
    rw [hsame, single] at b1
    exact b1

/-- one operation: the stored list is kept (and the value of the signal as well), the new value is put at the end, or it is started again -/
theorem Rep.apply {ty : XType} {m : Monitor} {s : Sig} {L : List (Rat × Val)} {t0 : Rat} (h : Rep ty m s L t0) {e : Rat × Op} (hn : t0 ≤ e.1)
    (hf : Fine ty e.2) : ∃ L', Rep ty (m.apply e) (s.step e) L' e.1 ∧
      ((L' = L ∧ (s.step e).val ty.off = s.val ty.off ∧ (s.step e).start = s.start ∧ (∀ b c, e.2 ≠ .reset b c)) ∨
       (L' = putL L e.1 ((s.step e).val ty.off) ∧ (s.step e).start = s.start ∧ (∀ b c, e.2 ≠ .reset b c)) ∨
       (L' = [(e.1, (s.step e).val ty.off)] ∧ (s.step e).start = e.1 ∧ ∃ b c, e.2 = .reset b c)) := by
  obtain ⟨now, op⟩ := e
  cases op with
  | tally v w =>
    obtain ⟨rfl, ha, hno⟩ := hf
    refine ⟨_, h.doTally hn ha hno, ?_⟩
    by_cases hon : s.on = true
    · rw [if_pos hon]
      have hv : (s.step (now, .tally v 1)).val ty.off = v := by simp [Sig.val, Sig.step, hon]
      exact Or.inr (Or.inl ⟨by rw [hv], rfl, by simp⟩)
    · rw [if_neg hon]
      have hv : (s.step (now, .tally v 1)).val ty.off = s.val ty.off := by simp [Sig.val, Sig.step, hon]
      exact Or.inl ⟨rfl, hv, rfl, by simp⟩
  | monitor b => exact ⟨_, h.setMonitor b hn, Or.inr (Or.inl ⟨rfl, rfl, by simp⟩)⟩
  | reset b so => exact ⟨_, h.reset hf, Or.inr (Or.inr ⟨rfl, rfl, b, so, rfl⟩)⟩
  | read ex0 fn =>
    refine ⟨L, h.keep hn _ s ?_ rfl rfl rfl h.acc h.noff, Or.inl ⟨rfl, rfl, rfl, by simp⟩⟩
    have e1 : m.apply (now, .read ex0 fn) = (m.xweight now ex0 fn).2 := by simp [Monitor.apply, h.full]
    rw [e1]
    unfold Monitor.xweight
    split <;> simp [h.tally.symm]
  | addNow =>
    have e1 : m.apply (now, .addNow) = m := by simp [Monitor.apply, h.full]
    rw [e1]
    exact ⟨L, h.keep hn _ s (by rw [h.tally.symm]) rfl rfl rfl h.acc h.noff, Or.inl ⟨rfl, rfl, rfl, by simp⟩⟩

/-! ## histories -/

theorem chrono_snoc {t0 now : Rat} {h : List (Rat × Op)} {e : Rat × Op} : Chrono t0 (h ++ [e]) now ↔ Chrono t0 h e.1 ∧ e.1 ≤ now := by
  unfold Chrono
  rw [List.map_append, List.map_singleton, ← List.cons_append, ← List.cons_append]
  rw [List.pairwise_append (l₁ := t0 :: h.map (·.1) ++ [e.1])]
  constructor
  · rintro ⟨h1, _, h2⟩
    exact ⟨h1, h2 e.1 (by simp) now (by simp)⟩
  · rintro ⟨h1, h2⟩
    refine ⟨h1, by simp, ?_⟩
    intro a ha b hb
    simp only [List.mem_singleton] at hb; subst hb
    rw [List.pairwise_append] at h1
    rcases List.mem_append.1 ha with ha | ha
    · exact le_trans (h1.2.2 a ha e.1 (by simp)) h2
    · simp only [List.mem_singleton] at ha; subst ha; exact h2

theorem chrono_nil {t0 now : Rat} : Chrono t0 [] now ↔ t0 ≤ now := by simp [Chrono]

theorem chrono_le {t0 now : Rat} {h : List (Rat × Op)} (hc : Chrono t0 h now) : ∀ e ∈ h, e.1 ≤ now := by
  intro e he
  unfold Chrono at hc
  rw [← List.cons_append, List.pairwise_append] at hc
  exact hc.2.2 e.1 (List.mem_cons_of_mem _ (List.mem_map_of_mem he)) now (by simp)

theorem stepAt_snoc (off : Val) (pre : List (Rat × Val)) (t τ : Rat) (v : Val) :
    stepAt off (pre ++ [(t, v)]) τ = if t ≤ τ then v else stepAt off pre τ := by simp [stepAt]

theorem stepAt_putL (off : Val) (pre : List (Rat × Val)) (t now τ : Rat) (w v : Val) (h : t ≤ now) :
    stepAt off (putL (pre ++ [(t, w)]) now v) τ = if now ≤ τ then v else stepAt off (pre ++ [(t, w)]) τ := by
  rw [putL_snoc]
  split
  · rename_i e; subst e
    rw [stepAt_snoc, stepAt_snoc]
    split <;> rfl
  · rw [stepAt_snoc]

theorem W_putL (g : Val → Rat) (pre : List (Rat × Val)) (t now n' : Rat) (w v : Val) :
    W g n' (putL (pre ++ [(t, w)]) now v) = W g now (pre ++ [(t, w)]) + g v * (n' - now) := by
  rw [putL_snoc]
  split
  · rename_i e; subst e
    cases pre with
    | nil => simp [W]
    | cons a r => rw [W_snoc _ _ _ _ _ (by simp), W_snoc _ _ _ _ _ (by simp)]; ring
  · rw [W_snoc _ _ _ _ _ (by simp)]

theorem signalAt_snoc (s : Sig) (h : List (Rat × Op)) (e : Rat × Op) (τ : Rat) (hle : ∀ a ∈ h, a.1 ≤ e.1) :
    signalAt s (h ++ [e]) τ = if e.1 ≤ τ then (signal s h).step e else signalAt s h τ := by
  unfold signalAt
  rw [List.filter_append]
  split
  · rename_i ht
    have : h.filter (fun e => decide (e.1 ≤ τ)) = h := List.filter_eq_self.2 (fun a ha => by simpa using le_trans (hle a ha) ht)
    rw [this]; simp [ht, signal]
  · rename_i ht; simp [ht]

theorem integral_fst (g : Val → Rat) (off : Val) (h : List (Rat × Op)) (s : Sig) (a : Rat × Rat) :
    (h.foldl (integralStep g off) (s, a)).1 = signal s h := by
  induction h generalizing s a with
  | nil => rfl
  | cons e h ih => exact ih _ _

theorem integral_snoc (g : Val → Rat) (off : Val) (s : Sig) (t0 : Rat) (h : List (Rat × Op)) (e : Rat × Op) (now : Rat) :
    integral g off s t0 (h ++ [e]) now =
      (match e.2 with | .reset _ _ => 0 | _ => integral g off s t0 h e.1) + g (((signal s h).step e).val off) * (now - e.1) := by
  unfold integral
  rw [List.foldl_append]
  simp only [List.foldl_cons, List.foldl_nil, integralStep, integral_fst]

/-- any history: the stored list gives at each moment the value of the signal, and its sums are the integrals of the signal -/
theorem Rep.run {ty : XType} {m : Monitor} {s : Sig} {t0 : Rat} (h0 : Rep ty m s [(t0, s.val ty.off)] t0) (hst : s.start = t0)
    (h : List (Rat × Op)) : ∀ now, Chrono t0 h now → (∀ e ∈ h, Fine ty e.2) → ∃ L, Rep ty (m.run h) (signal s h) L now ∧
      (∀ τ, (signal s h).start ≤ τ → stepAt ty.off L τ = (signalAt s h τ).val ty.off) ∧
      (∀ g n', W g n' L = integral g ty.off s t0 h n') := by
  induction h using List.reverseRecOn with
  | nil =>
    intro now hc _
    rw [chrono_nil] at hc
    obtain ⟨pre, t, hL, ht⟩ := h0.shape
    refine ⟨_, { h0 with shape := ⟨pre, t, hL, le_trans ht hc⟩ }, ?_, ?_⟩
    · intro τ hτ
      simp only [signal, List.foldl_nil, hst] at hτ
      simp [stepAt, signalAt, signal, hτ]
    · intro g n'
      simp [W, integral]
  | append_singleton h e ih =>
    intro now hc hf
    rw [chrono_snoc] at hc
    obtain ⟨L, hR, hat, hW⟩ := ih e.1 hc.1 (fun a ha => hf a (by simp [ha]))
    obtain ⟨L', hR', hcase⟩ := hR.apply le_rfl (hf e (by simp))
    obtain ⟨pre, t, hL, ht⟩ := hR.shape
    have hrun : m.run (h ++ [e]) = (m.run h).apply e := by simp [Monitor.run]
    have hsig : signal s (h ++ [e]) = (signal s h).step e := by simp [signal]
    rw [hrun, hsig]
    obtain ⟨pre', t', hL', ht'⟩ := hR'.shape
    refine ⟨L', { hR' with shape := ⟨pre', t', hL', le_trans ht' hc.2⟩ }, ?_, ?_⟩
    · intro τ hτ
      rw [signalAt_snoc _ _ _ _ (chrono_le hc.1)]
      rcases hcase with ⟨rfl, hv, hs, _⟩ | ⟨rfl, hs, _⟩ | ⟨rfl, hs, _⟩
      · split
        · rename_i hle
          rw [hL, stepAt_snoc, if_pos (le_trans ht hle), hv]
        · exact hat τ (by rw [← hs]; exact hτ)
      · rw [hL, stepAt_putL _ _ _ _ _ _ _ ht]
        split
        · rfl
        · rw [← hL]; exact hat τ (by rw [← hs]; exact hτ)
      · rw [hs] at hτ
        simp [stepAt, hτ]
    · intro g n'
      rw [integral_snoc]
      rcases hcase with ⟨rfl, hv, hs, hn⟩ | ⟨rfl, hs, hn⟩ | ⟨rfl, hs, b, c, hr⟩
      · rw [hL, W_later g n' e.1, ← hL, hW, hv]
        congr 1
        split
        · exact absurd ‹_› (hn _ _)
        · rfl
      · rw [hL, W_putL, ← hL, hW]
        congr 1
        split
        · exact absurd ‹_› (hn _ _)
        · rfl
      · rw [hr]; simp [W]

/-- a new level monitor -/
theorem create_rep {ty : XType} {v : Option Val} {b : Bool} {t0 : Rat} (ha : ty.accepts (v.getD (.num 0)) = true) (hno : v.getD (.num 0) ≠ ty.off) :
    Rep ty (create true v ty false b t0).1 ⟨b, v.getD (.num 0), t0⟩ [(t0, (⟨b, v.getD (.num 0), t0⟩ : Sig).val ty.off)] t0 := by
  have h : Rep ty ({ level := true, xtype := ty, statsOnly := false, on := b, tally := v.getD (.num 0), ttally := t0, ttallyMonitored := t0, x := [(⟨b, v.getD (.num 0), t0⟩ : Sig).val ty.off], t := [t0], weight := .no, start := t0, all := {}, ex0 := {}, cache := [] } : Monitor)
      ⟨b, v.getD (.num 0), t0⟩ [(t0, (⟨b, v.getD (.num 0), t0⟩ : Sig).val ty.off)] t0 :=
    { level := rfl, full := rfl, gen := rfl, type := rfl, tally := rfl, on := rfl, start := rfl, acc := ha, noff := hno, ht := rfl, hx := rfl
      asc := by simp [Asc], shape := ⟨[], t0, rfl, le_rfl⟩, head := rfl }
  exact h.reset (b := some b) (so := none) (by simp)

/-- the signal of a new level monitor -/
def born (v : Option Val) (b : Bool) (t0 : Rat) : Sig := ⟨b, v.getD (.num 0), t0⟩

theorem level_run {ty : XType} {v : Option Val} {b : Bool} {t0 : Rat} (ha : ty.accepts (v.getD (.num 0)) = true) (hno : v.getD (.num 0) ≠ ty.off)
    {h : List (Rat × Op)} {now : Rat} (hc : Chrono t0 h now) (hf : ∀ e ∈ h, Fine ty e.2) :
    ∃ L, Rep ty ((create true v ty false b t0).1.run h) (signal (born v b t0) h) L now ∧
      (∀ τ, (signal (born v b t0) h).start ≤ τ → stepAt ty.off L τ = (signalAt (born v b t0) h τ).val ty.off) ∧
      (∀ g n', W g n' L = integral g ty.off (born v b t0) t0 h n') :=
  (create_rep ha hno).run rfl h now hc hf

/-! ## C18 -/

theorem asc_map {L : List (Rat × Val)} (h : Asc L) : Util.Ascending (L.map (·.1)) := by
  unfold Util.Ascending
  rw [List.pairwise_map]
  exact List.Pairwise.imp (fun h => le_of_lt h) h

/-- the value found with bisect is that of the step function -/
theorem bisect_stepAt (off : Val) {τ : Rat} : ∀ (L : List (Rat × Val)), Asc L → (∃ a ∈ L, a.1 ≤ τ) →
    (L.map (·.2)).getD (Util.bisectRight (L.map (·.1)) τ - 1) off = stepAt off L τ := by
  intro L hA hex
  rw [Util.bisectRight_eq (asc_map hA)]
  induction L using List.reverseRecOn with
  | nil => simp at hex
  | append_singleton L a ih =>
    obtain ⟨t, v⟩ := a
    rw [stepAt_snoc]
    simp only [List.map_append, List.map_singleton, List.countP_append, List.countP_singleton]
    have hA' := List.pairwise_append.1 hA
    by_cases hle : t ≤ τ
    · rw [if_pos hle]
      have : (L.map (·.1)).countP (fun e => decide (e ≤ τ)) = L.length := by
        rw [List.countP_eq_length.2, List.length_map]
        intro x hx
        obtain ⟨p, hp, rfl⟩ := List.mem_map.1 hx
        have := hA'.2.2 p hp (t, v) (by simp)
        simp only [decide_eq_true_eq]; exact le_trans (le_of_lt this) hle
      rw [this]
      simp [hle]
    · rw [if_neg hle]
      simp only [hle, decide_false, Bool.false_eq_true, if_false, Nat.add_zero]
      have hex' : ∃ a ∈ L, a.1 ≤ τ := by
        obtain ⟨a, ha, hat⟩ := hex
        rcases List.mem_append.1 ha with ha | ha
        · exact ⟨a, ha, hat⟩
        · simp at ha; subst ha; exact absurd hat hle
      rw [← ih hA'.1 hex']
      have hpos : (L.map (·.1)).countP (fun e => decide (e ≤ τ)) ≤ L.length := by
        have := List.countP_le_length (p := fun e => decide (e ≤ τ)) (l := L.map (·.1)); simpa using this
      have hne : 0 < L.length := by obtain ⟨a, ha, _⟩ := hex'; exact List.length_pos_of_mem ha
      rw [List.getD_append _ _ _ _ (by rw [List.length_map]; omega)]

/-- C18: the value of a level monitor at a moment between the last reset and now is that of the signal at that moment: the value last tallied at or
before it, off when the monitor was off then. Several tallies at one moment count as the last one, as the signal does all operations of the moment. -/
theorem C18_value_at {ty : XType} {v : Option Val} {b : Bool} {t0 : Rat} (ha : ty.accepts (v.getD (.num 0)) = true) (hno : v.getD (.num 0) ≠ ty.off)
    {h : List (Rat × Op)} {now : Rat} (hc : Chrono t0 h now) (hf : ∀ e ∈ h, Fine ty e.2) (offset τ : Rat)
    (h1 : (signal (born v b t0) h).start ≤ τ + offset) (h2 : τ + offset < now) :
    ((create true v ty false b t0).1.run h).get now offset (some τ) = .ok ((signalAt (born v b t0) h (τ + offset)).val ty.off) := by
  obtain ⟨L, hR, hat, _⟩ := level_run (b := b) ha hno hc hf
  generalize (create true v ty false b t0).1.run h = m at hR
  have hoff : m.off = ty.off := by rw [Monitor.off, hR.type]
  unfold Monitor.get
  simp only [hR.level, Bool.not_true, Bool.false_eq_true, if_false, hR.full, (ne_of_lt h2)]
  have hhead := hR.head
  have hex : ∃ a ∈ L, a.1 ≤ τ + offset := by
    cases hL : L with
    | nil => rw [hL] at hhead; simp at hhead
    | cons a r => rw [hL] at hhead; simp at hhead; exact ⟨a, by simp, by rw [hhead]; exact h1⟩
  have hval := bisect_stepAt ty.off L hR.asc hex
  rw [hat _ h1] at hval
  rw [hoff, hR.hx, hR.ht]
  cases hL : L with
  | nil => rw [hL] at hhead; simp at hhead
  | cons a r =>
    rw [hL] at hval hhead
    simp only [List.head?_cons, Option.map_some, Option.some.injEq] at hhead
    simp only [List.map_cons]
    rw [if_neg (by rw [hhead]; exact not_lt.2 h1)]
    simp only [List.map_cons] at hval
    rw [hval]

/-- C18: now and without a moment: the value last tallied, also if the monitor is off (as the comment in the code says) -/
theorem C18_value_now {ty : XType} {v : Option Val} {b : Bool} {t0 : Rat} (ha : ty.accepts (v.getD (.num 0)) = true) (hno : v.getD (.num 0) ≠ ty.off)
    {h : List (Rat × Op)} {now : Rat} (hc : Chrono t0 h now) (hf : ∀ e ∈ h, Fine ty e.2) (offset : Rat) :
    ((create true v ty false b t0).1.run h).get now offset none = .ok (signal (born v b t0) h).cur ∧
    ((create true v ty false b t0).1.run h).get now offset (some (now - offset)) = .ok (signal (born v b t0) h).cur := by
  obtain ⟨L, hR, _⟩ := level_run (b := b) ha hno hc hf
  generalize (create true v ty false b t0).1.run h = m at hR
  unfold Monitor.get
  simp [hR.level, hR.tally]

/-- C18: before the last reset the monitor is off -/
theorem C18_value_before {ty : XType} {v : Option Val} {b : Bool} {t0 : Rat} (ha : ty.accepts (v.getD (.num 0)) = true) (hno : v.getD (.num 0) ≠ ty.off)
    {h : List (Rat × Op)} {now : Rat} (hc : Chrono t0 h now) (hf : ∀ e ∈ h, Fine ty e.2) (offset τ : Rat)
    (h1 : τ + offset < (signal (born v b t0) h).start) (h2 : τ + offset < now) :
    ((create true v ty false b t0).1.run h).get now offset (some τ) = .ok ty.off := by
  obtain ⟨L, hR, _⟩ := level_run (b := b) ha hno hc hf
  generalize (create true v ty false b t0).1.run h = m at hR
  have hoff : m.off = ty.off := by rw [Monitor.off, hR.type]
  have hhead := hR.head
  unfold Monitor.get
  simp only [hR.level, Bool.not_true, Bool.false_eq_true, if_false, hR.full, (ne_of_lt h2)]
  rw [hoff, hR.ht]
  cases hL : L with
  | nil => rw [hL] at hhead; simp at hhead
  | cons a r =>
    rw [hL] at hhead
    simp only [List.head?_cons, Option.map_some, Option.some.injEq] at hhead
    simp only [List.map_cons]
    rw [if_pos (by rw [hhead]; exact h1)]

/-! ## what is read -/

/-- a stored value as it is used in a statistic -/
def seen (ty : XType) (fn : Bool) (v : Val) : Val := if ty.coded || !fn then v else v.force

/-- the values and durations that are used, from the stored list -/
def freshL (ty : XType) (L : List (Rat × Val)) (now : Rat) (ex0 fn : Bool) : List (Val × Rat) :=
  ((L.map (fun p => seen ty fn p.2)).zip (durations now (L.map (·.1)))).filter (fun p => counts ty.off ex0 p.1)

theorem values_eq {m : Monitor} {fn : Bool} : m.values fn = m.x.map (seen m.xtype fn) := by
  unfold Monitor.values seen
  split
  · simp
  · rfl

theorem Rep.fresh {ty : XType} {m : Monitor} {s : Sig} {L : List (Rat × Val)} {t0 : Rat} (h : Rep ty m s L t0) (now : Rat) (ex0 fn : Bool) :
    m.fresh now ex0 fn = ((freshL ty L now ex0 fn).map (·.1), (freshL ty L now ex0 fn).map (·.2)) := by
  unfold Monitor.fresh freshL
  simp only [h.level, if_true, values_eq, h.hx, h.ht, List.map_map, Monitor.off, h.type]
  rfl

/-- the sum of `g value * weight` -/
def wsum (g : Val → Rat) (xw : XW) : Rat := (List.zipWith (fun v w => g v * w) xw.1 xw.2).sum

theorem wsum_map (g : Val → Rat) (l : List (Val × Rat)) : wsum g (l.map (·.1), l.map (·.2)) = (l.map (fun p => g p.1 * p.2)).sum := by
  unfold wsum
  rw [List.zipWith_map]
  congr 1
  induction l with
  | nil => rfl
  | cons a l ih => simp [ih]

theorem sum_filter (g : Val → Rat) (q : Val → Bool) (l : List (Val × Rat)) :
    ((l.filter (fun p => q p.1)).map (fun p => g p.1 * p.2)).sum = (l.map (fun p => (if q p.1 then g p.1 else 0) * p.2)).sum := by
  induction l with
  | nil => rfl
  | cons a l ih =>
    by_cases h : q a.1 = true
    · simp [h, ih]
    · simp [h, ih]

theorem sum_durations (g : Val → Rat) (f : Val → Val) (now : Rat) : ∀ L : List (Rat × Val),
    (((L.map (fun p => f p.2)).zip (durations now (L.map (·.1)))).map (fun p => g p.1 * p.2)).sum = W (fun v => g (f v)) now L
  | [] => rfl
  | [a] => by simp [durations, W]
  | a :: b :: r => by
    have := sum_durations g f now (b :: r)
    simp only [List.map_cons, durations, List.zip_cons_cons, List.sum_cons, W] at this ⊢
    rw [this]

/-- how much a stored value counts in a sum -/
def weigh (ty : XType) (ex0 fn : Bool) (g : Val → Rat) (v : Val) : Rat := if counts ty.off ex0 (seen ty fn v) then g (seen ty fn v) else 0

theorem wsum_freshL (ty : XType) (L : List (Rat × Val)) (now : Rat) (ex0 fn : Bool) (g : Val → Rat) :
    wsum g ((freshL ty L now ex0 fn).map (·.1), (freshL ty L now ex0 fn).map (·.2)) = W (weigh ty ex0 fn g) now L := by
  rw [wsum_map, freshL, sum_filter, sum_durations (fun v => if counts ty.off ex0 v then g v else 0) (seen ty fn)]
  rfl

/-! ## C21 -/

/-- what has a duration -/
def solid (l : List (Val × Rat)) : List (Val × Rat) := l.filter (fun p => p.2 != 0)

theorem durations_snoc (now a : Rat) : ∀ ts, durations now (ts ++ [a]) = durations a ts ++ [now - a]
  | [] => rfl
  | [b] => rfl
  | b :: c :: r => by
    have := durations_snoc now a (c :: r)
    simp only [List.cons_append, durations] at this ⊢
    rw [this]

theorem durations_length (now : Rat) : ∀ ts, (durations now ts).length = ts.length
  | [] => rfl
  | [b] => rfl
  | b :: c :: r => by simp [durations, durations_length now (c :: r)]

theorem freshL_snoc (ty : XType) (pre : List (Rat × Val)) (t now : Rat) (v : Val) (ex0 fn : Bool) :
    freshL ty (pre ++ [(t, v)]) now ex0 fn = freshL ty pre t ex0 fn ++ [(seen ty fn v, now - t)].filter (fun p => counts ty.off ex0 p.1) := by
  unfold freshL
  rw [List.map_append, List.map_append, List.map_singleton, List.map_singleton, durations_snoc, List.zip_append, List.filter_append]
  · rfl
  · simp [durations_length]

theorem solid_append (a b : List (Val × Rat)) : solid (a ++ b) = solid a ++ solid b := List.filter_append ..

theorem solid_zero (q : Val × Rat → Bool) (v : Val) : solid ([(v, (0 : Rat))].filter q) = [] := by
  unfold solid
  rw [List.filter_filter]; simp

/-- putting a value at the moment itself does not change what has a duration -/
theorem solid_putL (ty : XType) (pre : List (Rat × Val)) (t now : Rat) (w v : Val) (ex0 fn : Bool) :
    solid (freshL ty (putL (pre ++ [(t, w)]) now v) now ex0 fn) = solid (freshL ty (pre ++ [(t, w)]) now ex0 fn) := by
  rw [putL_snoc]
  split
  · rename_i e; subst e
    rw [freshL_snoc, freshL_snoc, solid_append, solid_append, sub_self, solid_zero, solid_zero]
  · rw [freshL_snoc, sub_self, solid_append, solid_zero, List.append_nil]

theorem solid_sum (g : Val → Rat) (l : List (Val × Rat)) : ((solid l).map (fun p => g p.1 * p.2)).sum = (l.map (fun p => g p.1 * p.2)).sum := by
  induction l with
  | nil => rfl
  | cons a l ih =>
    unfold solid at *
    by_cases h : a.2 = 0
    · simp [h, ih]
    · simp [h, ih]

/-- the cache of a level monitor at `now`: no entry is of a later moment; one of this moment has the current values and durations, except for
a value with duration 0, and exactly those if the monitor was not switched off at this moment -/
def CacheOk (ty : XType) (m : Monitor) (L : List (Rat × Val)) (h : List (Rat × Op)) (now : Rat) : Prop :=
  ∀ k tc r, lookup k m.cache = some (tc, r) → tc ≤ now ∧ (tc = now →
    (∃ l, r = (l.map (·.1), l.map (·.2)) ∧ solid l = solid (freshL ty L now k.1 k.2)) ∧
    ((now, Op.monitor false) ∉ h → r = ((freshL ty L now k.1 k.2).map (·.1), (freshL ty L now k.1 k.2).map (·.2))))

theorem CacheOk.later {ty : XType} {m : Monitor} {L : List (Rat × Val)} {h : List (Rat × Op)} {now n' : Rat} (hc : CacheOk ty m L h now) (hn : now ≤ n') :
    CacheOk ty m L h n' := by
  intro k tc r hl
  obtain ⟨h1, h2⟩ := hc k tc r hl
  refine ⟨le_trans h1 hn, fun e => ?_⟩
  have : now = n' := le_antisymm hn (by rw [← e]; exact h1)
  subst this
  exact h2 e

theorem CacheOk.nil {ty : XType} {m : Monitor} {L : List (Rat × Val)} {h : List (Rat × Op)} {now : Rat} (hc : m.cache = []) : CacheOk ty m L h now := by
  intro k tc r hl; rw [hc] at hl; cases hl

theorem put_cache (m : Monitor) (now : Rat) (v : Val) : (m.put now v).1.cache = m.cache := by
  unfold Monitor.put
  split
  · rfl
  · split
    · rfl
    · split <;> rfl

theorem setMonitor_cache_nil {m : Monitor} {now : Rat} {b : Option Bool} (h : m.cache = []) (h1 : m.statsOnly = false) (h2 : m.generated = false)
    (h3 : m.level = true) : (m.setMonitor now b).1.cache = [] := by
  cases b with
  | none => exact h
  | some b =>
    cases b with
    | true =>
      rw [setMonitor_true h1 h2 h3]
      unfold Monitor.doTally
      simp only [h1, h2, h3, Bool.false_eq_true, if_false, if_true]
      split
      · rfl
      · split
        · rfl
        · rw [put_cache]
    | false =>
      rw [setMonitor_false h1 h2 h3, put_cache]; exact h

/-- what the history does to the list, with the cache -/
theorem Rep.run_cache {ty : XType} {m : Monitor} {s : Sig} {L0 : List (Rat × Val)} {t0 : Rat} (h0 : Rep ty m s L0 t0) (hcache : m.cache = [])
    (h : List (Rat × Op)) : ∀ now, Chrono t0 h now → (∀ e ∈ h, Fine ty e.2) → ∃ L, Rep ty (m.run h) (signal s h) L now ∧ CacheOk ty (m.run h) L h now := by
  induction h using List.reverseRecOn with
  | nil =>
    intro now hc _
    rw [chrono_nil] at hc
    obtain ⟨pre, t, hL, ht⟩ := h0.shape
    exact ⟨_, { h0 with shape := ⟨pre, t, hL, le_trans ht hc⟩ }, CacheOk.nil hcache⟩
  | append_singleton h e ih =>
    intro now hc hf
    rw [chrono_snoc] at hc
    obtain ⟨L, hR, hC⟩ := ih e.1 hc.1 (fun a ha => hf a (by simp [ha]))
    have hfe := hf e (by simp)
    obtain ⟨L', hR', hcase⟩ := hR.apply le_rfl hfe
    obtain ⟨pre, t, hL, ht⟩ := hR.shape
    have hrun : m.run (h ++ [e]) = (m.run h).apply e := by simp [Monitor.run]
    have hsig : signal s (h ++ [e]) = (signal s h).step e := by simp [signal]
    rw [hrun, hsig]
    obtain ⟨pre', t', hL', ht'⟩ := hR'.shape
    refine ⟨L', { hR' with shape := ⟨pre', t', hL', le_trans ht' hc.2⟩ }, CacheOk.later ?_ hc.2⟩
    generalize m.run h = m1 at *
    have hmap : L' = L → L'.map (·.1) = L.map (·.1) := fun e => by rw [e]
    obtain ⟨te, op⟩ := e
    cases op with
    | tally v w =>
      obtain ⟨rfl, ha, hno⟩ := hfe
      apply CacheOk.nil
      show (m1.doTally te v 1).1.cache = []
      rw [doTally_full hR.level hR.full hR.gen (by rw [Monitor.off, hR.type]; exact hno)]
      split
      · rw [put_cache]
      · rfl
    | monitor b =>
      cases b with
      | true =>
        apply CacheOk.nil
        show (m1.setMonitor te (some true)).1.cache = []
        rw [setMonitor_true hR.full hR.gen hR.level, doTally_full (m := { m1 with on := true }) hR.level hR.full hR.gen (by
          show m1.tally ≠ m1.off; rw [Monitor.off, hR.type, hR.tally]; exact hR.noff)]
        rw [if_pos rfl, put_cache]
      | false =>
        have hcc : (m1.apply (te, .monitor false)).cache = m1.cache := by
          show (m1.setMonitor te (some false)).1.cache = _
          rw [setMonitor_false hR.full hR.gen hR.level, put_cache]
        have hL2 : L' = putL L te ty.off := by
          have hv : ((signal s h).step (te, .monitor false)).val ty.off = ty.off := by simp [Sig.step, Sig.val]
          have hrep : Rep ty (m1.apply (te, .monitor false)) _ _ te := hR.setMonitor false le_rfl
          have h1 := hrep.ht.symm.trans hR'.ht
          have h2 := hrep.hx.symm.trans hR'.hx
          have e0 : ({ signal s h with on := false } : Sig).val ty.off = ty.off := by simp [Sig.val]
          rw [e0] at h1 h2
          have hz : ∀ (A B : List (Rat × Val)), A.map (·.1) = B.map (·.1) → A.map (·.2) = B.map (·.2) → A = B := by
            intro A
            induction A with
            | nil => intro B h1 _; cases B with | nil => rfl | cons b B => simp at h1
            | cons a A ih =>
              intro B h1 h2
              cases B with
              | nil => simp at h1
              | cons b B => simp at h1 h2; rw [ih B h1.2 h2.2, Prod.ext h1.1 h2.1]
          exact (hz _ _ h1 h2).symm
        intro k tc r hl
        rw [hcc] at hl
        obtain ⟨h1, h2⟩ := hC k tc r hl
        refine ⟨h1, fun e => ?_⟩
        obtain ⟨⟨l, hr, hs⟩, _⟩ := h2 e
        refine ⟨⟨l, hr, ?_⟩, fun hn => absurd (by simp) hn⟩
        rw [hs, hL2, hL]
        exact (solid_putL ty pre t te _ _ k.1 k.2).symm
    | reset b so =>
      apply CacheOk.nil
      show (m1.reset te b so).1.cache = []
      have hso : so.getD m1.statsOnly = false := by
        rw [hR.full]
        cases so with
        | none => rfl
        | some c => cases c with
          | true => exact absurd rfl hfe
          | false => rfl
      have hacc : m1.xtype.accepts (if b.getD m1.on then m1.tally else m1.off) = true := by
        split
        · rw [hR.type, hR.tally]; exact hR.acc
        · exact accepts_off _
      rw [reset_full hso hR.gen hR.level _ rfl hacc]
      exact setMonitor_cache_nil rfl rfl hR.gen hR.level
    | read ex0 fn =>
      have e1 : m1.apply (te, .read ex0 fn) = (m1.xweight te ex0 fn).2 := by simp [Monitor.apply, hR.full]
      have hLL : L'.map (·.1) = L.map (·.1) ∧ L'.map (·.2) = L.map (·.2) := by
        rw [← hR'.ht, ← hR'.hx, ← hR.ht, ← hR.hx, e1]
        unfold Monitor.xweight
        split <;> exact ⟨rfl, rfl⟩
      have hF : ∀ a b, freshL ty L' te a b = freshL ty L te a b := by
        intro a b
        unfold freshL
        have e2 : L'.map (fun p => seen ty b p.2) = L.map (fun p => seen ty b p.2) := by
          have := congrArg (List.map (seen ty b)) hLL.2
          simpa [List.map_map, Function.comp_def] using this
        rw [e2, hLL.1]
      intro k tc r hl
      rw [hF]
      have hmem : (te, Op.monitor false) ∉ h ++ [(te, Op.read ex0 fn)] → (te, Op.monitor false) ∉ h := fun hn hh => hn (by simp [hh])
      rw [e1] at hl
      unfold Monitor.xweight at hl
      have old : lookup k m1.cache = some (tc, r) → tc ≤ te ∧ (tc = te →
          (∃ l, r = (l.map (·.1), l.map (·.2)) ∧ solid l = solid (freshL ty L te k.1 k.2)) ∧
          ((te, Op.monitor false) ∉ h ++ [(te, Op.read ex0 fn)] → r = ((freshL ty L te k.1 k.2).map (·.1), (freshL ty L te k.1 k.2).map (·.2)))) := by
        intro hl
        obtain ⟨h1, h2⟩ := hC k tc r hl
        exact ⟨h1, fun e => ⟨(h2 e).1, fun hn => (h2 e).2 (hmem hn)⟩⟩
      split at hl
      · exact old hl
      · simp only [lookup] at hl
        split at hl
        · rename_i hk
          simp only [Option.some.injEq, Prod.mk.injEq] at hl
          obtain ⟨rfl, rfl⟩ := hl
          subst hk
          refine ⟨le_rfl, fun _ => ⟨⟨_, hR.fresh _ _ _, rfl⟩, fun _ => hR.fresh _ _ _⟩⟩
        · exact old hl
    | addNow =>
      have e1 : m1.apply (te, .addNow) = m1 := by simp [Monitor.apply, hR.full]
      have hLL : L'.map (·.1) = L.map (·.1) ∧ L'.map (·.2) = L.map (·.2) := by
        rw [← hR'.ht, ← hR'.hx, ← hR.ht, ← hR.hx, e1]; exact ⟨rfl, rfl⟩
      have hF : ∀ a b, freshL ty L' te a b = freshL ty L te a b := by
        intro a b
        unfold freshL
        have e2 : L'.map (fun p => seen ty b p.2) = L.map (fun p => seen ty b p.2) := by
          have := congrArg (List.map (seen ty b)) hLL.2
          simpa [List.map_map, Function.comp_def] using this
        rw [e2, hLL.1]
      intro k tc r hl
      rw [e1] at hl
      rw [hF]
      obtain ⟨h1, h2⟩ := hC k tc r hl
      exact ⟨h1, fun e => ⟨(h2 e).1, fun hn => (h2 e).2 (fun hh => hn (by simp [hh]))⟩⟩

theorem list_ext {A B : List (Rat × Val)} (h1 : A.map (·.1) = B.map (·.1)) (h2 : A.map (·.2) = B.map (·.2)) : A = B := by
  induction A generalizing B with
  | nil => cases B with | nil => rfl | cons b B => simp at h1
  | cons a A ih =>
    cases B with
    | nil => simp at h1
    | cons b B => simp at h1 h2; rw [ih h1.2 h2.2, Prod.ext h1.1 h2.1]

theorem create_cache {v : Option Val} {ty : XType} {b : Bool} {t0 : Rat} (ha : ty.accepts (v.getD (.num 0)) = true) : (create true v ty false b t0).1.cache = [] := by
  unfold create
  simp only [Bool.not_true, Bool.false_and, Bool.false_eq_true, if_false]
  have hacc : ty.accepts (if b = true then v.getD (.num 0) else ty.off) = true := by
    split
    · exact ha
    · exact accepts_off _
  rw [reset_full (b := some b) (so := none) rfl rfl rfl _ rfl hacc]
  exact setMonitor_cache_nil rfl rfl rfl rfl

/-- everything about a level monitor after a history -/
theorem level_all {ty : XType} {v : Option Val} {b : Bool} {t0 : Rat} (ha : ty.accepts (v.getD (.num 0)) = true) (hno : v.getD (.num 0) ≠ ty.off)
    {h : List (Rat × Op)} {now : Rat} (hc : Chrono t0 h now) (hf : ∀ e ∈ h, Fine ty e.2) :
    ∃ L, Rep ty ((create true v ty false b t0).1.run h) (signal (born v b t0) h) L now ∧
      CacheOk ty ((create true v ty false b t0).1.run h) L h now ∧ (∀ g n', W g n' L = integral g ty.off (born v b t0) t0 h n') := by
  obtain ⟨L, hR, _, hW⟩ := level_run (b := b) ha hno hc hf
  obtain ⟨L', hR', hC⟩ := (create_rep (b := b) (t0 := t0) ha hno).run_cache (create_cache ha) h now hc hf
  have : L = L' := list_ext (hR.ht.symm.trans hR'.ht) (hR.hx.symm.trans hR'.hx)
  subst this
  exact ⟨L, hR, hC, hW⟩

theorem xweight_sum {ty : XType} {m : Monitor} {s : Sig} {L : List (Rat × Val)} {h : List (Rat × Op)} {now : Rat} (hR : Rep ty m s L now)
    (hC : CacheOk ty m L h now) (ex0 fn : Bool) (g : Val → Rat) :
    wsum g (m.xweight now ex0 fn).1 = wsum g (m.fresh now ex0 fn) := by
  unfold Monitor.xweight
  split
  · rename_i r hr
    unfold Monitor.cached at hr
    split at hr
    · rename_i tc r' hl
      split at hr
      · rename_i ht
        simp only [Option.some.injEq] at hr; subst hr
        obtain ⟨l, hr, hs⟩ := ((hC _ _ _ hl).2 ht).1
        rw [hR.fresh]
        show wsum g r' = _
        rw [hr, wsum_map, wsum_map, ← solid_sum g l, hs, solid_sum]
      · cases hr
    · cases hr
  · rfl

/-- C21. Full statement: what is read is always computed from the tallies up to now. For a level monitor that was switched off at the very moment
of the previous reading this is false for minimum, maximum and percentile (`C21_counterexample`).
What holds: every weighted sum (duration, mean, standard deviation, duration of values and bins) is computed from the tallies up to now, whatever was read
before; see `C21_level_partial` and `C21_plain` for everything that is read -/
theorem C21_sums {ty : XType} {v : Option Val} {b : Bool} {t0 : Rat} (ha : ty.accepts (v.getD (.num 0)) = true) (hno : v.getD (.num 0) ≠ ty.off)
    {h : List (Rat × Op)} {now : Rat} (hc : Chrono t0 h now) (hf : ∀ e ∈ h, Fine ty e.2) (ex0 fn : Bool) (g : Val → Rat) :
    wsum g (((create true v ty false b t0).1.run h).xweight now ex0 fn).1 = wsum g (((create true v ty false b t0).1.run h).fresh now ex0 fn) := by
  obtain ⟨L, hR, hC, _⟩ := level_all (b := b) ha hno hc hf
  exact xweight_sum hR hC ex0 fn g

/-- C21, see `C21_sums` for the full statement. For level monitors: all that is read is computed from the tallies up to now, unless the monitor is
switched off at this very moment -/
theorem C21_level_partial {ty : XType} {v : Option Val} {b : Bool} {t0 : Rat} (ha : ty.accepts (v.getD (.num 0)) = true) (hno : v.getD (.num 0) ≠ ty.off)
    {h : List (Rat × Op)} {now : Rat} (hc : Chrono t0 h now) (hf : ∀ e ∈ h, Fine ty e.2) (hn : (now, Op.monitor false) ∉ h) (ex0 fn : Bool) :
    (((create true v ty false b t0).1.run h).xweight now ex0 fn).1 = ((create true v ty false b t0).1.run h).fresh now ex0 fn := by
  obtain ⟨L, hR, hC, _⟩ := level_all (b := b) ha hno hc hf
  generalize (create true v ty false b t0).1.run h = m at *
  unfold Monitor.xweight
  split
  · rename_i r hr
    unfold Monitor.cached at hr
    split at hr
    · rename_i tc r' hl
      split at hr
      · rename_i ht
        simp only [Option.some.injEq] at hr; subst hr
        rw [hR.fresh]
        exact ((hC _ _ _ hl).2 ht).2 hn
      · cases hr
    · cases hr
  · rfl

/-- the cache of a non level monitor -/
def CacheN (m : Monitor) : Prop := m.level = false ∧ (m.statsOnly = true → m.cache = []) ∧
  ∀ k tc r, lookup k m.cache = some (tc, r) → ∀ now, r = m.fresh now k.1 k.2

theorem fresh_plain {m : Monitor} (h : m.level = false) (a b : Rat) (ex0 fn : Bool) : m.fresh a ex0 fn = m.fresh b ex0 fn := by
  unfold Monitor.fresh; simp [h]

theorem CacheN.nil {m : Monitor} (h : m.level = false) (hc : m.cache = []) : CacheN m :=
  ⟨h, fun _ => hc, fun k tc r hl => by rw [hc] at hl; cases hl⟩

theorem CacheN.same {m m' : Monitor} (h : CacheN m) (h1 : m'.level = m.level) (h2 : m'.statsOnly = m.statsOnly) (h3 : m'.cache = m.cache) (h4 : m'.x = m.x)
    (h5 : m'.t = m.t) (h6 : m'.weight = m.weight) (h7 : m'.xtype = m.xtype) : CacheN m' := by
  refine ⟨by rw [h1]; exact h.1, by rw [h2, h3]; exact h.2.1, ?_⟩
  intro k tc r hl now
  rw [h3] at hl
  rw [h.2.2 k tc r hl now]
  unfold Monitor.fresh Monitor.values Monitor.off
  rw [h1, h4, h5, h6, h7]

theorem addStats_frame (m : Monitor) (v : Val) (w : Rat) : (m.addStats v w).level = m.level ∧ (m.addStats v w).cache = m.cache := by
  unfold Monitor.addStats; split <;> exact ⟨rfl, rfl⟩

theorem CacheN.doTally {m : Monitor} (h : CacheN m) (now : Rat) (v : Val) (w : Rat) : CacheN (m.doTally now v w).1 := by
  have hl := h.1
  unfold Monitor.doTally
  split
  · exact h
  · split
    · rename_i hs
      simp only [hl, Bool.false_eq_true, if_false]
      refine CacheN.nil ?_ ?_
      · rw [(addStats_frame m v w).1]; exact hl
      · rw [(addStats_frame m v w).2]; exact h.2.1 hs
    · simp only [hl, Bool.false_eq_true, if_false]
      split
      · split
        · exact CacheN.nil rfl rfl
        · exact CacheN.nil rfl rfl
      · exact CacheN.nil rfl rfl

theorem CacheN.setMonitor {m : Monitor} (h : CacheN m) (now : Rat) (b : Option Bool) : CacheN (m.setMonitor now b).1 := by
  have hl := h.1
  cases b with
  | none => exact h
  | some b =>
    unfold Monitor.setMonitor
    simp only [hl, Bool.and_false, Bool.false_eq_true, if_false]
    split
    · refine h.same ?_ ?_ ?_ ?_ ?_ ?_ ?_ <;> simp [hl]
    · split
      · exact h
      · refine h.same ?_ ?_ ?_ ?_ ?_ ?_ ?_ <;> simp [hl]

theorem CacheN.apply {m : Monitor} (h : CacheN m) (e : Rat × Op) : CacheN (m.apply e) := by
  have hl := h.1
  obtain ⟨now, op⟩ := e
  cases op with
  | tally v w => exact h.doTally now v w
  | monitor b => exact h.setMonitor now (some b)
  | reset b so =>
    show CacheN (m.reset now b so).1
    unfold Monitor.reset
    split
    · exact h
    · extract_lets m1 m2
      split
      · exact CacheN.setMonitor (CacheN.nil (m := m2) hl rfl) now b
      · have hl1 : m1.level = false := hl
        simp only [hl1, Bool.false_eq_true, if_false]
        exact CacheN.setMonitor (CacheN.nil rfl rfl) now b
  | read ex0 fn =>
    show CacheN (if m.statsOnly then m else (m.xweight now ex0 fn).2)
    split
    · exact h
    · rename_i hs
      unfold Monitor.xweight
      split
      · exact h
      · refine ⟨hl, fun h1 => absurd h1 hs, ?_⟩
        intro k tc r hk n'
        simp only [lookup] at hk
        split at hk
        · rename_i hkk
          simp only [Option.some.injEq, Prod.mk.injEq] at hk
          obtain ⟨_, rfl⟩ := hk
          subst hkk
          show m.fresh now ex0 fn = m.fresh n' ex0 fn
          exact fresh_plain hl _ _ _ _
        · exact h.2.2 k tc r hk n'
  | addNow =>
    show CacheN (if m.statsOnly && m.level then m.tallyAddNow now else m)
    simp only [hl, Bool.and_false, Bool.false_eq_true, if_false]
    exact h

/-- C21: for non level monitors all that is read is computed from the tallies up to now, whatever was done and read before, in any order -/
theorem C21_plain (ty : XType) (b : Bool) (t0 : Rat) (h : List (Rat × Op)) (now : Rat) (ex0 fn : Bool) :
    (((create false none ty false b t0).1.run h).xweight now ex0 fn).1 = ((create false none ty false b t0).1.run h).fresh now ex0 fn := by
  have h0 : CacheN (create false none ty false b t0).1 := by
    unfold create
    simp only [Option.isSome_none, Bool.and_false, Bool.false_eq_true, if_false]
    unfold Monitor.reset
    simp only [Option.getD_none, Bool.false_eq_true, if_false]
    exact CacheN.setMonitor (CacheN.nil rfl rfl) _ _
  have hn : ∀ (h : List (Rat × Op)) (m : Monitor), CacheN m → CacheN (m.run h) := by
    intro h
    induction h with
    | nil => exact fun m hm => hm
    | cons e h ih => exact fun m hm => ih _ (hm.apply e)
  have hC := hn h _ h0
  generalize (create false none ty false b t0).1.run h = m at *
  unfold Monitor.xweight
  split
  · rename_i r hr
    unfold Monitor.cached at hr
    split at hr
    · rename_i tc r' hl
      split at hr
      · simp only [Option.some.injEq] at hr; subst hr
        exact hC.2.2 _ _ _ hl now
      · cases hr
    · cases hr
  · rfl

/-- C21 fails for the maximum of a level monitor: 5 is tallied at 0, the maximum read, the monitor switched off at 0: the maximum read is still 5,
while nothing was tallied (the fresh result has no values) -/
theorem C21_counterexample :
    let m := (create true none .any false true 0).1.run [(0, .tally (.num 5) 1), (0, .read false true), (0, .monitor false)]
    m.maximum 0 false = some 5 ∧ m.fresh 0 false true = ([], []) := by decide +kernel

/-! ## C19 -/

theorem seen_toRat (ty : XType) (fn : Bool) (v : Val) : (seen ty fn v).toRat = v.toRat := by
  unfold seen
  split
  · rfl
  · cases v <;> rfl

theorem seen_off (ty : XType) (fn : Bool) (v : Val) : seen ty fn v = ty.off ↔ v = ty.off := by
  unfold seen
  split
  · exact Iff.rfl
  · rename_i h
    cases ty <;> simp [XType.coded] at h
    cases v <;> simp [Val.force, XType.off]

/-- the value is a number other than zero (or the number of a text etc. is) -/
def nonzero (ty : XType) (v : Val) : Prop := seen ty true v ≠ .num 0
instance (ty : XType) (v : Val) : Decidable (nonzero ty v) := by unfold nonzero; infer_instance

/-- is a value taken into account -/
def included (ty : XType) (ex0 : Bool) (v : Val) : Prop := v ≠ ty.off ∧ (ex0 = true → nonzero ty v)
instance (ty : XType) (ex0 : Bool) (v : Val) : Decidable (included ty ex0 v) := by unfold included; infer_instance

theorem weigh_eq (ty : XType) (ex0 : Bool) (g : Val → Rat) :
    weigh ty ex0 true g = fun v => if included ty ex0 v then g (seen ty true v) else 0 := by
  funext v
  unfold weigh included nonzero counts
  have := seen_off ty true v
  by_cases h1 : v = ty.off
  · have h2 := this.2 h1
    simp [h1, h2]
    intro h3; exact absurd (h1 ▸ h2) h3
  · have h2 : seen ty true v ≠ ty.off := fun h => h1 (this.1 h)
    cases ex0 <;> simp [h1, h2]

section
variable {ty : XType} {v : Option Val} {b : Bool} {t0 : Rat} {h : List (Rat × Op)} {now : Rat}

theorem level_sum (ha : ty.accepts (v.getD (.num 0)) = true) (hno : v.getD (.num 0) ≠ ty.off) (hc : Chrono t0 h now) (hf : ∀ e ∈ h, Fine ty e.2)
    (ex0 fn : Bool) (g : Val → Rat) : wsum g (((create true v ty false b t0).1.run h).xweight now ex0 fn).1 =
      integral (weigh ty ex0 fn g) ty.off (born v b t0) t0 h now := by
  obtain ⟨L, hR, hC, hW⟩ := level_all (b := b) ha hno hc hf
  rw [xweight_sum hR hC, hR.fresh, wsum_freshL, hW]

theorem level_lengths (ha : ty.accepts (v.getD (.num 0)) = true) (hno : v.getD (.num 0) ≠ ty.off) (hc : Chrono t0 h now) (hf : ∀ e ∈ h, Fine ty e.2)
    (ex0 fn : Bool) : (((create true v ty false b t0).1.run h).xweight now ex0 fn).1.1.length = (((create true v ty false b t0).1.run h).xweight now ex0 fn).1.2.length := by
  obtain ⟨L, hR, hC, hW⟩ := level_all (b := b) ha hno hc hf
  generalize (create true v ty false b t0).1.run h = m at *
  unfold Monitor.xweight
  split
  · rename_i r hr
    unfold Monitor.cached at hr
    split at hr
    · rename_i tc r' hl
      split at hr
      · rename_i ht
        simp only [Option.some.injEq] at hr; subst hr
        obtain ⟨l, hr, hs⟩ := ((hC _ _ _ hl).2 ht).1
        show r'.1.length = r'.2.length
        rw [hr]; simp
      · cases hr
    · cases hr
  · rw [hR.fresh]; simp

theorem level_full (ha : ty.accepts (v.getD (.num 0)) = true) (hno : v.getD (.num 0) ≠ ty.off) (hc : Chrono t0 h now) (hf : ∀ e ∈ h, Fine ty e.2) :
    ((create true v ty false b t0).1.run h).statsOnly = false := by
  obtain ⟨L, hR, _⟩ := level_all (b := b) ha hno hc hf
  exact hR.full

theorem wsum_one {xw : XW} (hl : xw.1.length = xw.2.length) : wsum (fun _ => 1) xw = xw.2.sum := by
  unfold wsum
  congr 1
  obtain ⟨a, b⟩ := xw
  simp only at hl ⊢
  induction a generalizing b with
  | nil => cases b with | nil => rfl | cons _ _ => simp at hl
  | cons x a ih =>
    cases b with
    | nil => simp at hl
    | cons y b => simp only [List.length_cons, Nat.add_right_cancel_iff] at hl; rw [List.zipWith_cons_cons, ih b hl, one_mul]

theorem wsum_toRat (xw : XW) : wsum Val.toRat xw = dot (nums xw.1) xw.2 := by
  unfold wsum dot nums
  rw [List.zipWith_map_left]

/-- C19: the duration of a level monitor, with or without zeros, is the time since the last reset during which it was on (and the value not zero) -/
theorem C19_duration (ha : ty.accepts (v.getD (.num 0)) = true) (hno : v.getD (.num 0) ≠ ty.off) (hc : Chrono t0 h now) (hf : ∀ e ∈ h, Fine ty e.2) (ex0 : Bool) :
    ((create true v ty false b t0).1.run h).sysWeight now ex0 = integral (fun v => if included ty ex0 v then 1 else 0) ty.off (born v b t0) t0 h now := by
  have h1 := level_sum (b := b) ha hno hc hf ex0 true (fun _ => 1)
  rw [wsum_one (level_lengths ha hno hc hf ex0 true), weigh_eq] at h1
  unfold Monitor.sysWeight
  rw [level_full ha hno hc hf]
  simpa using h1

theorem integral_sub (g1 g2 g3 : Val → Rat) (off : Val) (s : Sig) (t0 : Rat) (h : List (Rat × Op)) (now : Rat) (hg : ∀ v, g1 v - g2 v = g3 v) :
    integral g1 off s t0 h now - integral g2 off s t0 h now = integral g3 off s t0 h now := by
  induction h using List.reverseRecOn generalizing now with
  | nil => simp [integral, ← hg]; ring
  | append_singleton h e ih =>
    rw [integral_snoc, integral_snoc, integral_snoc, ← hg]
    cases e.2 <;> simp only <;> first | (rw [← ih]; ring) | ring

/-- C19: the duration of zero is the time during which the monitor was on and the value zero, i.e. the durations of zero and of the other values add
up to the duration -/
theorem C19_duration_zero (ha : ty.accepts (v.getD (.num 0)) = true) (hno : v.getD (.num 0) ≠ ty.off) (hc : Chrono t0 h now) (hf : ∀ e ∈ h, Fine ty e.2) :
    ((create true v ty false b t0).1.run h).sysWeightZero now = integral (fun v => if v ≠ ty.off ∧ ¬ nonzero ty v then 1 else 0) ty.off (born v b t0) t0 h now ∧
    ((create true v ty false b t0).1.run h).sysWeightZero now + ((create true v ty false b t0).1.run h).sysWeight now true =
      ((create true v ty false b t0).1.run h).sysWeight now false := by
  unfold Monitor.sysWeightZero
  rw [C19_duration ha hno hc hf, C19_duration ha hno hc hf]
  refine ⟨integral_sub _ _ _ _ _ _ _ _ ?_, by ring⟩
  intro v
  unfold included
  by_cases h1 : v = ty.off
  · simp [h1]
  · by_cases h2 : nonzero ty v <;> simp [h1, h2]

/-- C19: the mean of a level monitor is the time integral of the value (over the time it was on, and the value not zero if these are excluded) divided by
that time; nan if there is no such time -/
theorem C19_mean (ha : ty.accepts (v.getD (.num 0)) = true) (hno : v.getD (.num 0) ≠ ty.off) (hc : Chrono t0 h now) (hf : ∀ e ∈ h, Fine ty e.2) (ex0 : Bool) :
    let D := integral (fun v => if included ty ex0 v then 1 else 0) ty.off (born v b t0) t0 h now
    ((create true v ty false b t0).1.run h).mean now ex0 =
      if D ≠ 0 then some (integral (fun v => if included ty ex0 v then v.toRat else 0) ty.off (born v b t0) t0 h now / D) else none := by
  intro D
  have h0 := C19_duration (b := b) ha hno hc hf ex0
  have h1 := level_sum (b := b) ha hno hc hf ex0 true Val.toRat
  rw [wsum_toRat, weigh_eq] at h1
  simp only [seen_toRat] at h1
  unfold Monitor.sysWeight at h0
  unfold Monitor.mean meanOf
  rw [level_full ha hno hc hf] at h0 ⊢
  simp only [Bool.false_eq_true, if_false] at h0 ⊢
  rw [h0, h1]

theorem wsum_add (g1 g2 g3 : Val → Rat) (c : Rat) (hg : ∀ v, g3 v = g1 v + c * g2 v) (xw : XW) : wsum g3 xw = wsum g1 xw + c * wsum g2 xw := by
  unfold wsum
  obtain ⟨a, b⟩ := xw
  simp only
  induction a generalizing b with
  | nil => simp
  | cons x a ih =>
    cases b with
    | nil => simp
    | cons y b => rw [List.zipWith_cons_cons, List.zipWith_cons_cons, List.zipWith_cons_cons, List.sum_cons, List.sum_cons, List.sum_cons, ih b, hg x]; ring

/-- the variance of weighted values is the weighted mean of the squares minus the square of the mean -/
theorem varianceOf_eq (xw : XW) (hl : xw.1.length = xw.2.length) (hs : xw.2.sum ≠ 0) :
    varianceOf xw = some (wsum (fun v => v.toRat ^ 2) xw / xw.2.sum - (wsum Val.toRat xw / xw.2.sum) ^ 2) := by
  unfold varianceOf meanOf
  rw [if_pos hs, if_pos hs, Option.getD_some, ← wsum_toRat]
  generalize hμ : wsum Val.toRat xw / xw.2.sum = μ
  have e1 : (List.zipWith (fun x w => w * (x - μ) ^ 2) (nums xw.1) xw.2).sum = wsum (fun v => (v.toRat - μ) ^ 2) xw := by
    unfold wsum nums
    rw [List.zipWith_map_left]
    congr 1
    exact congrArg (fun f => List.zipWith f xw.1 xw.2) (by funext a b; ring)
  have e2 := wsum_add (fun v => v.toRat ^ 2 + (-2 * μ) * v.toRat) (fun _ => 1) (fun v => (v.toRat - μ) ^ 2) (μ ^ 2) (fun v => by ring) xw
  have e3 := wsum_add (fun v => v.toRat ^ 2) Val.toRat (fun v => v.toRat ^ 2 + (-2 * μ) * v.toRat) (-2 * μ) (fun v => rfl) xw
  rw [e1, e2, e3, wsum_one hl]
  have e4 : wsum Val.toRat xw = μ * xw.2.sum := by rw [← hμ]; field_simp
  rw [e4]
  congr 1
  field_simp
  ring

/-- C19: the square of the standard deviation is the time average of the square minus the square of the time average -/
theorem C19_variance (ha : ty.accepts (v.getD (.num 0)) = true) (hno : v.getD (.num 0) ≠ ty.off) (hc : Chrono t0 h now) (hf : ∀ e ∈ h, Fine ty e.2) (ex0 : Bool) :
    let D := integral (fun v => if included ty ex0 v then 1 else 0) ty.off (born v b t0) t0 h now
    let I := integral (fun v => if included ty ex0 v then v.toRat else 0) ty.off (born v b t0) t0 h now
    let I2 := integral (fun v => if included ty ex0 v then v.toRat ^ 2 else 0) ty.off (born v b t0) t0 h now
    ((create true v ty false b t0).1.run h).variance now ex0 = if D ≠ 0 then some (I2 / D - (I / D) ^ 2) else none := by
  intro D I I2
  have h0 := C19_duration (b := b) ha hno hc hf ex0
  have h1 := level_sum (b := b) ha hno hc hf ex0 true Val.toRat
  have h2 := level_sum (b := b) ha hno hc hf ex0 true (fun v => v.toRat ^ 2)
  rw [weigh_eq] at h1 h2
  simp only [seen_toRat] at h1 h2
  have hl := level_lengths (b := b) ha hno hc hf ex0 true
  unfold Monitor.sysWeight at h0
  unfold Monitor.variance
  rw [level_full ha hno hc hf] at h0 ⊢
  simp only [Bool.false_eq_true, if_false] at h0 ⊢
  by_cases hD : D = 0
  · rw [if_neg (not_not.2 hD)]
    unfold varianceOf
    rw [h0, if_neg (not_not.2 hD)]
  · rw [if_pos hD, varianceOf_eq _ hl (by rw [h0]; exact hD), h0, h1, h2]

theorem valueWeight_wsum (xw : XW) (vs : List Val) : ((xw.1.zip xw.2).filter (fun p => vs.contains p.1) |>.map (·.2)).sum =
    wsum (fun v => if vs.contains v then 1 else 0) xw := by
  unfold wsum
  obtain ⟨a, b⟩ := xw
  simp only
  induction a generalizing b with
  | nil => simp
  | cons x a ih =>
    cases b with
    | nil => simp
    | cons y b =>
      simp only [List.zip_cons_cons, List.zipWith_cons_cons, List.sum_cons, List.filter_cons]
      by_cases h : vs.contains x = true
      · rw [if_pos h, if_pos h, List.map_cons, List.sum_cons, ih b]; ring
      · rw [if_neg h, if_neg h, ih b]; ring

/-- C19: the duration of one or more values is the time during which the monitor was on with one of these values -/
theorem C19_value_duration (ha : ty.accepts (v.getD (.num 0)) = true) (hno : v.getD (.num 0) ≠ ty.off) (hc : Chrono t0 h now) (hf : ∀ e ∈ h, Fine ty e.2)
    (vs : List Val) : ((create true v ty false b t0).1.run h).valueWeight now vs =
      integral (fun v => if v ≠ ty.off ∧ v ∈ vs then 1 else 0) ty.off (born v b t0) t0 h now := by
  unfold Monitor.valueWeight
  simp only
  rw [valueWeight_wsum, level_sum ha hno hc hf]
  congr 1
  funext v
  unfold weigh counts seen
  by_cases h1 : v = ty.off <;> by_cases h2 : v ∈ vs <;> simp [h1, h2]

theorem binWeight_wsum (xw : XW) (lb ub : Option Rat) : (((List.zip (nums xw.1) xw.2).filter (fun p => inBin lb ub p.1)).map (·.2)).sum =
    wsum (fun v => if inBin lb ub v.toRat then 1 else 0) xw := by
  unfold wsum nums
  obtain ⟨a, b⟩ := xw
  simp only
  induction a generalizing b with
  | nil => simp
  | cons x a ih =>
    cases b with
    | nil => simp
    | cons y b =>
      simp only [List.map_cons, List.zip_cons_cons, List.zipWith_cons_cons, List.sum_cons, List.filter_cons]
      by_cases h : inBin lb ub x.toRat = true
      · rw [if_pos h, if_pos h, List.map_cons, List.sum_cons, ih b]; ring
      · rw [if_neg h, if_neg h, ih b]; ring

/-- C19: the duration of a bin is the time during which the monitor was on with a value in the bin -/
theorem C19_bin_duration (ha : ty.accepts (v.getD (.num 0)) = true) (hno : v.getD (.num 0) ≠ ty.off) (hc : Chrono t0 h now) (hf : ∀ e ∈ h, Fine ty e.2)
    (lb ub : Option Rat) : ((create true v ty false b t0).1.run h).binWeight now lb ub =
      integral (fun v => if v ≠ ty.off ∧ inBin lb ub v.toRat = true then 1 else 0) ty.off (born v b t0) t0 h now := by
  unfold Monitor.binWeight
  simp only
  rw [binWeight_wsum, level_sum ha hno hc hf, weigh_eq]
  congr 1
  funext v
  unfold included
  rw [seen_toRat]
  by_cases h1 : v = ty.off <;> by_cases h2 : inBin lb ub v.toRat = true <;> simp [h1, h2]

end

/-- a history with the hypotheses of C18 and C19: on at 0 with value 0, 3 at 1 and at once 4, off from 3 to 5, zero at 6 -/
def demoHist : List (Rat × Op) := [(1, .tally (.num 3) 1), (1, .tally (.num 4) 1), (2, .read false true), (3, .monitor false), (5, .monitor true), (6, .tally (.num 0) 1)]

example : Chrono 0 demoHist 8 ∧ (∀ e ∈ demoHist, Fine .any e.2) := by
  refine ⟨by unfold Chrono; decide +kernel, ?_⟩
  intro e he
  simp only [demoHist, List.mem_cons, List.not_mem_nil, or_false] at he
  rcases he with rfl | rfl | rfl | rfl | rfl | rfl <;> simp [Fine, XType.accepts, XType.off]

example :
    let m := (create true none .any false true 0).1.run demoHist
    m.get 8 0 (some 2) = .ok (.num 4) ∧ m.get 8 0 (some 4) = .ok .ninf ∧ m.mean 8 false = some 2 ∧ m.mean 8 true = some 4 ∧ m.sysWeight 8 false = 6 ∧
      m.sysWeightZero 8 = 3 ∧ m.variance 8 false = some 4 ∧
      integral (fun v => if included .any true v then v.toRat else 0) .ninf (born none true 0) 0 demoHist 8 = 12 := by decide +kernel

end Mon
end Verif
