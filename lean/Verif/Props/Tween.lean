import Verif.Tween
import Verif.Props.Util
import Mathlib.Algebra.Order.Group.Abs
import Mathlib.Algebra.Order.Ring.Abs
import Mathlib.Logic.Relation
import Mathlib.Tactic.FieldSimp
import Mathlib.Tactic.Linarith
import Mathlib.Tactic.Ring
import Mathlib.Tactic.NormNum

/-!
# C106: animation objects move without jumps
-/

namespace Verif
namespace Tween

open Util

variable {A V : Type} [DecidableEq V]

theorem value_same (comb : Rat → V → V → V) {k : Obj A V} {a : A} (h : k.v0 a = k.v1 a) (t : WithTop Rat) : value comb k a t = k.v0 a := by
  unfold value interpolateWith; rw [if_pos h]

/-- C106: an attribute of which nothing is said in a call of update stays what it is at that moment, for ever, also if it was moving -/
theorem C106_rest (comb : Rat → V → V → V) (now : Rat) (u : Args A V) (k : Obj A V) {a : A} (h0 : u.v0 a = none) (h1 : u.v1 a = none) (t : WithTop Rat) :
    value comb (update comb now u k) a t = value comb k a now := by
  rw [value_same comb (by simp [update, h0, h1])]
  simp [update, h0]

/-- C106: an update at `now`, whatever it says about the future, doesn't change what is shown at `now`; unless x0 or t0 is given, or t1 is `now` -/
theorem C106_no_jump (comb : Rat → V → V → V) (now : Rat) (u : Args A V) (k : Obj A V) {a : A} (h0 : u.v0 a = none) (ht0 : u.t0 = none)
    (ht1 : u.t1 ≠ some (now : WithTop Rat)) : value comb (update comb now u k) a now = value comb k a now := by
  have e : (update comb now u k).v0 a = value comb k a now := by simp [update, h0]
  rw [← e]
  generalize hk : update comb now u k = k'
  have e0 : k'.t0 = (now : WithTop Rat) := by rw [← hk]; simp [update, ht0]
  have e1 : k'.t1 ≠ (now : WithTop Rat) := by
    rw [← hk]
    simp only [update]
    cases h : u.t1 with
    | none => exact WithTop.top_ne_coe
    | some t1 => rw [h] at ht1; simpa using ht1
  unfold value
  rw [e0]
  rcases lt_or_gt_of_ne e1 with h | h
  · exact (C43_after comb _ _).2 h WithTop.coe_ne_top le_rfl
  · exact (C43_before_partial comb _ _).1 h le_rfl

/-- C106: the new value is reached at t1 and kept from then on -/
theorem C106_arrives (comb : Rat → V → V → V) {now t1 : Rat} (h : now < t1) {u : Args A V} (k : Obj A V) {a : A} {v : V} (ht0 : u.t0 = none) (ht1 : u.t1 = some (t1 : WithTop Rat))
    (hv : u.v1 a = some v) {t : WithTop Rat} (ht : (t1 : WithTop Rat) ≤ t) : value comb (update comb now u k) a t = v := by
  have := (C43_after comb (t := t) ((update comb now u k).v0 a) v).1 (WithTop.coe_lt_coe.2 h) WithTop.coe_ne_top ht
  simpa [value, update, ht0, ht1, hv] using this

/-- C106: if t1 is in the past, the new value is never shown -/
theorem C106_past (comb : Rat → V → V → V) {now t1 : Rat} (h : t1 < now) {u : Args A V} (k : Obj A V) {a : A} (h0 : u.v0 a = none) (ht0 : u.t0 = none)
    (ht1 : u.t1 = some (t1 : WithTop Rat)) {t : WithTop Rat} (ht : (now : WithTop Rat) ≤ t) : value comb (update comb now u k) a t = value comb k a now := by
  have := (C43_after comb (t := t) (value comb k a now) ((update comb now u k).v1 a)).2 (WithTop.coe_lt_coe.2 h) WithTop.coe_ne_top ht
  simpa [value, update, ht0, ht1, h0] using this

/-- C106: without t1, the new value is never shown either -/
theorem C106_never (comb : Rat → V → V → V) (now : Rat) {u : Args A V} (k : Obj A V) {a : A} (h0 : u.v0 a = none) (ht0 : u.t0 = none) (ht1 : u.t1 = none ∨ u.t1 = some ⊤)
    (t : WithTop Rat) : value comb (update comb now u k) a t = value comb k a now := by
  have := (C43_infinite comb t (now : WithTop Rat) (value comb k a now) ((update comb now u k).v1 a) WithTop.coe_ne_top).1
  rcases ht1 with ht1 | ht1 <;> simpa [value, update, ht0, ht1, h0] using this

/-- C106: with a starting value and t0, the starting value is shown up to t0, and the new value from t1 on -/
theorem C106_given (comb : Rat → V → V → V) (now : Rat) {t0 t1 : Rat} (h : t0 < t1) {u : Args A V} (k : Obj A V) {a : A} {w v : V} (h0 : u.v0 a = some w)
    (ht0 : u.t0 = some (t0 : WithTop Rat) ∨ (u.t0 = none ∧ t0 = now)) (ht1 : u.t1 = some (t1 : WithTop Rat)) (hv : u.v1 a = some v) (t : WithTop Rat) :
    (t ≤ t0 → value comb (update comb now u k) a t = w) ∧ (t1 ≤ t → value comb (update comb now u k) a t = v) := by
  have h1 := (C43_before_partial comb (t := t) w v).1 (WithTop.coe_lt_coe.2 h)
  have h2 := (C43_after comb (t := t) w v).1 (WithTop.coe_lt_coe.2 h) WithTop.coe_ne_top
  rcases ht0 with ht0 | ⟨ht0, rfl⟩ <;> simpa [value, update, ht0, ht1, h0, hv] using ⟨h1, h2⟩

/-- C106: in between, numbers move along a straight line, with constant speed -/
theorem C106_line {now t1 : Rat} (h : now < t1) {u : Args A Rat} (k : Obj A Rat) {a : A} {v : Rat} (h0 : u.v0 a = none) (ht0 : u.t0 = none) (ht1 : u.t1 = some (t1 : WithTop Rat))
    (hv : u.v1 a = some v) {t : Rat} (hn : now ≤ t) (ht : t ≤ t1) :
    value mixQ (update mixQ now u k) a t = value mixQ k a now + (v - value mixQ k a now) / (t1 - now) * (t - now) := by
  have hd : t1 - now ≠ 0 := by have : 0 < t1 - now := by linarith
                               exact this.ne'
  rcases eq_or_lt_of_le hn with rfl | hn
  · rw [C106_no_jump mixQ _ u k h0 ht0 (by rw [ht1]; simpa using h.ne')]; simp
  rcases eq_or_lt_of_le ht with rfl | ht
  · rw [C106_arrives mixQ h k ht0 ht1 hv le_rfl]; field_simp; ring
  generalize hw : value mixQ k a now = w
  have e : value mixQ (update mixQ now u k) a t = interpolateWith mixQ (t : WithTop Rat) (now : WithTop Rat) (t1 : WithTop Rat) w v := by
    simp [value, update, ht0, ht1, h0, hv, ← hw]
  rw [e]
  by_cases hv' : w = v
  · unfold interpolateWith; rw [if_pos hv', hv']; simp
  · rw [interpolate_mid mixQ hn ht hv', mixQ, if_neg hv']; field_simp; ring

/-! ## any history -/

/-- the speed that a call at `now` asks for is at most `L`, where the object is at `x` -/
def Slow (L now x : Rat) (u : Args A Rat) (a : A) : Prop :=
  u.v0 a = none ∧ u.t0 = none ∧ ∀ v (t1 : Rat), u.v1 a = some v → u.t1 = some (t1 : WithTop Rat) → t1 < now ∨ (now < t1 ∧ |v - x| ≤ L * (t1 - now))

/-- time goes by, or update is called -/
inductive Next (L : Rat) (a : A) : Obj A Rat × Rat → Obj A Rat × Rat → Prop
  | wait {k : Obj A Rat} {now now' : Rat} : now ≤ now' → Next L a (k, now) (k, now')
  | update {k : Obj A Rat} {now : Rat} (u : Args A Rat) : Slow L now (value mixQ k a now) u a → Next L a (k, now) (update mixQ now u k, now)

/-- from `now` on, the object moves with at most speed `L` -/
def Steady (L : Rat) (a : A) (s : Obj A Rat × Rat) : Prop :=
  ∀ t t' : Rat, s.2 ≤ t → t ≤ t' → |value mixQ s.1 a t' - value mixQ s.1 a t| ≤ L * (t' - t)

theorem update_steady {L : Rat} (hL : 0 ≤ L) {a : A} {k : Obj A Rat} {now : Rat} {u : Args A Rat} (h : Slow L now (value mixQ k a now) u a) :
    Steady L a (update mixQ now u k, now) := by
  obtain ⟨h0, ht0, hs⟩ := h
  intro t t' hn ht
  simp only at hn
  have still : (∀ s : Rat, now ≤ s → value mixQ (update mixQ now u k) a s = value mixQ k a now) →
      |value mixQ (update mixQ now u k) a t' - value mixQ (update mixQ now u k) a t| ≤ L * (t' - t) := by
    intro h
    rw [h t hn, h t' (hn.trans ht), sub_self, abs_zero]
    exact mul_nonneg hL (by linarith)
  cases hv : u.v1 a with
  | none => exact still (fun s _ => C106_rest mixQ now u k h0 hv s)
  | some v =>
    cases h1 : u.t1 with
    | none => exact still (fun s _ => C106_never mixQ now k h0 ht0 (.inl h1) s)
    | some t1 =>
      induction t1 using WithTop.recTopCoe with
      | top => exact still (fun s _ => C106_never mixQ now k h0 ht0 (.inr h1) s)
      | coe t1 =>
        rcases hs v t1 hv h1 with hp | ⟨hf, hl⟩
        · exact still (fun s hs => C106_past mixQ hp k h0 ht0 h1 (WithTop.coe_le_coe.2 hs))
        · have hd : 0 < t1 - now := by linarith
          generalize hx : value mixQ k a now = x at hl
          have at_ : ∀ s : Rat, now ≤ s → value mixQ (update mixQ now u k) a s = x + (v - x) / (t1 - now) * (min s t1 - now) := by
            intro s hs
            rcases le_total s t1 with h | h
            · rw [min_eq_left h, C106_line hf k h0 ht0 h1 hv hs h, hx]
            · rw [min_eq_right h, C106_arrives mixQ hf k ht0 h1 hv (WithTop.coe_le_coe.2 h)]; field_simp; ring
          rw [at_ t hn, at_ t' (hn.trans ht)]
          have e : x + (v - x) / (t1 - now) * (min t' t1 - now) - (x + (v - x) / (t1 - now) * (min t t1 - now)) = (v - x) / (t1 - now) * (min t' t1 - min t t1) := by ring
          have m1 : 0 ≤ min t' t1 - min t t1 := by have := min_le_min_right t1 ht; linarith
          have m2 : min t' t1 - min t t1 ≤ t' - t := by
            rcases le_total t' t1 with h | h
            · rw [min_eq_left h, min_eq_left (ht.trans h)]
            · rw [min_eq_right h]
              rcases le_total t t1 with h' | h'
              · rw [min_eq_left h']; linarith
              · rw [min_eq_right h']; linarith
          rw [e, abs_mul, abs_of_nonneg m1, abs_div, abs_of_pos hd]
          have q : |v - x| / (t1 - now) ≤ L := by rw [div_le_iff₀ hd]; exact hl
          exact mul_le_mul q m2 m1 hL

theorem steady_next {L : Rat} (hL : 0 ≤ L) {a : A} {s s' : Obj A Rat × Rat} (h : Steady L a s) (hn : Next L a s s') :
    Steady L a s' ∧ s.2 ≤ s'.2 ∧ |value mixQ s'.1 a s'.2 - value mixQ s.1 a s.2| ≤ L * (s'.2 - s.2) := by
  cases hn with
  | wait hw => exact ⟨fun t t' h1 h2 => h t t' (hw.trans h1) h2, hw, h _ _ le_rfl hw⟩
  | @update k now u hu =>
    refine ⟨update_steady hL hu, le_rfl, ?_⟩
    obtain ⟨h0, ht0, hs⟩ := id hu
    by_cases h1 : u.t1 = some (now : WithTop Rat)
    · cases hv : u.v1 a with
      | none => simp only; rw [C106_rest mixQ now u k h0 hv]; simp
      | some v => rcases hs v now hv h1 with h | h <;> exact absurd rfl (by first | exact h.ne | exact h.1.ne)
    · simp only; rw [C106_no_jump mixQ now u k h0 ht0 h1]; simp

/-- **C106.** Whatever updates are made, at whatever moments: as long as none of them gives a new starting point and none asks for more than speed `L`, what is shown moves with at most
speed `L`, and so never jumps. -/
theorem C106_smooth {L : Rat} (hL : 0 ≤ L) {a : A} {k k' : Obj A Rat} {now now' : Rat} {u : Args A Rat} (hu : Slow L now (value mixQ k a now) u a)
    (h : Relation.ReflTransGen (Next L a) (update mixQ now u k, now) (k', now')) :
    now ≤ now' ∧ |value mixQ k' a now' - value mixQ k a now| ≤ L * (now' - now) := by
  have main : ∀ {s s' : Obj A Rat × Rat}, Steady L a s → Relation.ReflTransGen (Next L a) s s' →
      Steady L a s' ∧ s.2 ≤ s'.2 ∧ |value mixQ s'.1 a s'.2 - value mixQ s.1 a s.2| ≤ L * (s'.2 - s.2) := by
    intro s s' hs h
    induction h with
    | refl => exact ⟨hs, le_rfl, by simp⟩
    | @tail b c _ h2 ih =>
      obtain ⟨i1, i2, i3⟩ := ih
      obtain ⟨j1, j2, j3⟩ := steady_next hL i1 h2
      refine ⟨j1, i2.trans j2, ?_⟩
      have := abs_add_le (value mixQ c.1 a c.2 - value mixQ b.1 a b.2) (value mixQ b.1 a b.2 - value mixQ s.1 a s.2)
      rw [sub_add_sub_cancel] at this
      linarith
  obtain ⟨_, m2, m3⟩ := main (update_steady hL hu) h
  refine ⟨m2, ?_⟩
  simp only at m3
  have e : value mixQ (Tween.update mixQ now u k) a now = value mixQ k a now := by
    obtain ⟨h0, ht0, hs⟩ := id hu
    by_cases h1 : u.t1 = some (now : WithTop Rat)
    · cases hv : u.v1 a with
      | none => rw [C106_rest mixQ now u k h0 hv]
      | some v => rcases hs v now hv h1 with h | h <;> exact absurd rfl (by first | exact h.ne | exact h.1.ne)
    · rw [C106_no_jump mixQ now u k h0 ht0 h1]
  rwa [e] at m3

/-- C106: a new object is shown at x0 up to t0 (the moment of creation, if not given) and at x1 from t1 on (x0, if no x1 is given; always x0 if no t1 is given) -/
theorem C106_create (comb : Rat → V → V → V) (now : Rat) (v0 : A → V) (u : Args A V) (a : A) :
    (∀ t, u.v1 a = none → value comb (create now v0 u) a t = v0 a) ∧
    (∀ t, u.t0 ≠ some ⊤ → u.t1 = none → value comb (create now v0 u) a t = v0 a) ∧
    (∀ (t1 : Rat), u.t0 = none → u.t1 = some (t1 : WithTop Rat) → now < t1 → ∀ (v : V), u.v1 a = some v →
      (∀ t : WithTop Rat, t ≤ now → value comb (create now v0 u) a t = v0 a) ∧ ∀ t : WithTop Rat, t1 ≤ t → value comb (create now v0 u) a t = v) ∧
    (∀ (t0 t1 : Rat), u.t0 = some (t0 : WithTop Rat) → u.t1 = some (t1 : WithTop Rat) → t0 < t1 → ∀ (v : V), u.v1 a = some v →
      (∀ t : WithTop Rat, t ≤ t0 → value comb (create now v0 u) a t = v0 a) ∧ ∀ t : WithTop Rat, t1 ≤ t → value comb (create now v0 u) a t = v) := by
  refine ⟨fun t h => value_same comb (by simp [create, h]) t, fun t h0 h1 => ?_, fun t1 h0 h1 hlt v hv => ⟨fun t ht => ?_, fun t ht => ?_⟩,
    fun t0 t1 h0 h1 hlt v hv => ⟨fun t ht => ?_, fun t ht => ?_⟩⟩
  · have h2 : (create now v0 u).t0 ≠ ⊤ := by
      simp only [create]
      cases h : u.t0 with
      | none => exact WithTop.coe_ne_top
      | some x => rw [h] at h0; simpa using h0
    have e : (create now v0 u).t1 = ⊤ := by simp [create, h1]
    unfold value
    rw [e]
    exact (C43_infinite comb t _ _ _ h2).1
  · simpa [value, create, h0, h1, hv] using (C43_before_partial comb (v0 a) v).1 (WithTop.coe_lt_coe.2 hlt) ht
  · simpa [value, create, h0, h1, hv] using (C43_after comb (v0 a) v).1 (WithTop.coe_lt_coe.2 hlt) WithTop.coe_ne_top ht
  · simpa [value, create, h0, h1, hv] using (C43_before_partial comb (v0 a) v).1 (WithTop.coe_lt_coe.2 hlt) ht
  · simpa [value, create, h0, h1, hv] using (C43_after comb (v0 a) v).1 (WithTop.coe_lt_coe.2 hlt) WithTop.coe_ne_top ht

/-! ## a concrete case: from (0, 0) at 0 to (100, 50) at 10; at 4, x is sent to 0 at 8 -/

/-- moves to (100, 50) -/
def demo : Obj Bool Rat := create 0 (fun _ => 0) { t1 := some ((10 : Rat) : WithTop Rat), v1 := fun a => some (if a then 100 else 50) }
/-- x to 0 -/
def back : Args Bool Rat := { t1 := some ((8 : Rat) : WithTop Rat), v1 := fun a => if a then some 0 else none }

/-- at 4 the object is at (40, 20); x is sent back to 0, where it is at 8, and half way at 6; y, of which nothing is said, stays 20 -/
example : value mixQ demo true ((4 : Rat) : WithTop Rat) = 40 ∧ value mixQ (update mixQ 4 back demo) true ((4 : Rat) : WithTop Rat) = 40 ∧
    value mixQ (update mixQ 4 back demo) true ((6 : Rat) : WithTop Rat) = 20 ∧ value mixQ (update mixQ 4 back demo) true ((9 : Rat) : WithTop Rat) = 0 ∧
    value mixQ (update mixQ 4 back demo) false ((9 : Rat) : WithTop Rat) = 20 := by decide +kernel

/-- non-vacuity of C106_smooth -/
example : Slow 10 4 (value mixQ demo true ((4 : Rat) : WithTop Rat)) back true := by
  have e : value mixQ demo true ((4 : Rat) : WithTop Rat) = 40 := by decide +kernel
  refine ⟨rfl, rfl, fun v t1 hv ht => .inr ?_⟩
  simp only [back, if_true, Option.some.injEq, WithTop.coe_inj] at hv ht
  rw [e, ← hv, ← ht]
  norm_num

/-- with t1 = now() the object jumps to the new value at once -/
theorem C106_now_counterexample : value mixQ (update mixQ 4 { t1 := some ((4 : Rat) : WithTop Rat), v1 := fun _ => some 0 } demo) true ((4 : Rat) : WithTop Rat) = 0 ∧
    value mixQ demo true ((4 : Rat) : WithTop Rat) = 40 := by decide +kernel

end Tween
end Verif
