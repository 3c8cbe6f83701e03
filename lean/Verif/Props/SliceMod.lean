import Verif.Props.Slice

/-!
# Slices of monitors that repeat, C23: slice(start, stop, modulo)
-/

namespace Verif
namespace Mon

/-- a moment in a window: from start + k * modulo up to, not including, stop + k * modulo for some integer k. Only windows that start before now count, and
not those that start before `day`. -/
def InWindow (start stop modulo day now τ : Rat) : Prop :=
  ∃ k : Int, start + k * modulo ≤ τ ∧ τ < stop + k * modulo ∧ day ≤ start + k * modulo ∧ start + k * modulo < now

/-- the windows as the loop makes them, from s1 on -/
def Win (now len modulo s1 : Rat) (f : Nat) (τ : Rat) : Prop := ∃ k : Nat, k < f ∧ s1 + k * modulo ≤ τ ∧ τ < s1 + k * modulo + len ∧ s1 + k * modulo < now

theorem win_succ {now len modulo s1 : Rat} {f : Nat} {τ : Rat} (h : s1 < now) :
    Win now len modulo s1 (f + 1) τ ↔ (s1 ≤ τ ∧ τ < s1 + len) ∨ Win now len modulo (s1 + modulo) f τ := by
  constructor
  · rintro ⟨k, hk, h1, h2, h3⟩
    cases k with
    | zero => left; simp at h1 h2; exact ⟨h1, h2⟩
    | succ k => right; push_cast at h1 h2 h3; exact ⟨k, by omega, by linarith, by linarith, by linarith⟩
  · rintro (⟨h1, h2⟩ | ⟨k, hk, h1, h2, h3⟩)
    · exact ⟨0, by omega, by simpa using h1, by simpa using h2, by simpa using h⟩
    · exact ⟨k + 1, by omega, by push_cast; linarith, by push_cast; linarith, by push_cast; linarith⟩

theorem win_none {now len modulo s1 : Rat} {f : Nat} {τ : Rat} (hm : 0 < modulo) (h : now ≤ s1) : ¬ Win now len modulo s1 f τ := by
  rintro ⟨k, _, _, _, h3⟩
  have : 0 ≤ (k : Rat) * modulo := by positivity
  linarith

/-- windows start at s1 or later -/
theorem win_after {now len modulo s1 : Rat} {f : Nat} {τ : Rat} (hm : 0 < modulo) (h : Win now len modulo s1 f τ) : s1 ≤ τ := by
  obtain ⟨k, _, h1, _⟩ := h
  have : 0 ≤ (k : Rat) * modulo := by positivity
  linarith

theorem winPlain {now len modulo : Rat} (hm : 0 < modulo) (hl : 0 < len) (hlm : len < modulo) :
    ∀ (f : Nat) (s1 : Rat) (T : List (Rat × Val × Rat)) (m : Monitor) (Z : List (Rat × Val × Rat)), PlainOk now m Z → (Z ++ T).Pairwise (fun a b => a.1 ≤ b.1) →
      (∀ z ∈ T, z.1 ≤ now) →
      ∃ m', ((mergeTwo leAct (moduloActions now len modulo f s1) (T.map (fun z => (z.1, Act.tally z.2.1 z.2.2)))).foldl plainSliceRound (false, m)).2 = m' ∧
        m'.generated = m.generated ∧ ∀ [DecidablePred (Win now len modulo s1 f)], PlainOk now m' (Z ++ T.filter (fun z => decide (Win now len modulo s1 f z.1))) := by
  intro f
  induction f with
  | zero =>
    intro s1 T m Z hok hS hp
    refine ⟨m, ?_, rfl, ?_⟩
    · simp only [moduloActions, mergeTwo]; rw [fold_disabled]
    · intro _
      rw [List.filter_eq_nil_iff.2]
      · simpa using hok
      · intro z _
        simp only [decide_eq_true_eq]
        rintro ⟨k, hk, _⟩
        omega
  | succ f ih =>
    intro s1 T m Z hok hS hp
    unfold moduloActions
    by_cases hn : s1 < now
    · rw [if_pos hn]
      have hT : T.Pairwise (fun a b => a.1 ≤ b.1) := (List.pairwise_append.1 hS).2.1
      rw [items_more (Or.inl rfl) _ T (·.1) (·.2.1) (·.2.2) hT]
      have hpart := partition3' (start := s1) (e := s1 + len) (b := .stop) T hT
      obtain ⟨A, hA⟩ : ∃ A, A = T.filter (fun z => decide (z.1 < s1)) := ⟨_, rfl⟩
      obtain ⟨B, hB⟩ : ∃ B, B = T.filter (fun z => !decide (z.1 < s1) && beforeEnd .stop (s1 + len) z.1) := ⟨_, rfl⟩
      obtain ⟨C, hC⟩ : ∃ C, C = T.filter (fun z => !decide (z.1 < s1) && !beforeEnd .stop (s1 + len) z.1) := ⟨_, rfl⟩
      rw [← hA, ← hB, ← hC] at hpart ⊢
      have hAt : ∀ z ∈ A, z.1 < s1 := by
        intro z hz; rw [hA] at hz; simpa using (List.mem_filter.1 hz).2
      have hBt : ∀ z ∈ B, s1 ≤ z.1 ∧ z.1 < s1 + len := by
        intro z hz; rw [hB] at hz; simpa [beforeEnd] using (List.mem_filter.1 hz).2
      have hCt : ∀ z ∈ C, s1 + len ≤ z.1 := by
        intro z hz; rw [hC] at hz
        have := (List.mem_filter.1 hz).2
        simp only [beforeEnd, if_true, Bool.and_eq_true, Bool.not_eq_true', decide_eq_false_iff_not, not_lt] at this
        exact this.2
      have hsub : (Z ++ B).Pairwise (fun a b => a.1 ≤ b.1) := by
        refine List.Pairwise.sublist (List.Sublist.append_left ?_ Z) hS
        rw [hB]; exact List.filter_sublist
      have hsub2 : ((Z ++ B) ++ C).Pairwise (fun a b => a.1 ≤ b.1) := by
        refine List.Pairwise.sublist ?_ hS
        rw [List.append_assoc, hpart]
        exact List.Sublist.append_left (List.sublist_append_right A (B ++ C)) Z
      have hmem : ∀ z, z ∈ B ∨ z ∈ C → z ∈ T := by
        intro z hz; rw [hpart]; simp only [List.mem_append]; tauto
      rw [List.foldl_append, fold_disabled, List.foldl_cons]
      show ∃ m', (List.foldl plainSliceRound (true, m) _).2 = m' ∧ _
      rw [List.foldl_append]
      obtain ⟨m1, e1, k1, g1⟩ := fold_enabled B m Z hok (fun z hz => hp z (hmem z (Or.inl hz))) hsub
      rw [e1, List.foldl_cons]
      show ∃ m', (List.foldl plainSliceRound (false, m1) _).2 = m' ∧ _
      obtain ⟨m2, e2, g2, k2⟩ := ih (s1 + modulo) C m1 (Z ++ B) k1 hsub2 (fun z hz => hp z (hmem z (Or.inr hz)))
      refine ⟨m2, e2, g2.trans g1, ?_⟩
      intro _
      classical
      have := k2
      convert this using 1
      rw [List.append_assoc]
      congr 1
      conv_lhs => rw [hpart]
      rw [List.filter_append, List.filter_append]
      have fA : A.filter (fun z => decide (Win now len modulo s1 (f + 1) z.1)) = [] := by
        rw [List.filter_eq_nil_iff]
        intro z hz
        simp only [decide_eq_true_eq]
        intro hw
        exact absurd (win_after hm hw) (not_le.2 (hAt z hz))
      have fB : B.filter (fun z => decide (Win now len modulo s1 (f + 1) z.1)) = B := by
        rw [List.filter_eq_self]
        intro z hz
        simp only [decide_eq_true_eq]
        exact (win_succ hn).2 (Or.inl (hBt z hz))
      have fC : C.filter (fun z => decide (Win now len modulo s1 (f + 1) z.1)) = C.filter (fun z => decide (Win now len modulo (s1 + modulo) f z.1)) := by
        refine List.filter_congr ?_
        intro z hz
        rw [decide_eq_decide, win_succ hn]
        constructor
        · rintro (⟨_, h⟩ | h)
          · exact absurd h (not_lt.2 (hCt z hz))
          · exact h
        · exact Or.inr
      rw [fA, fB, fC]
      simp
    · rw [if_neg hn]
      refine ⟨m, by simp only [mergeTwo]; rw [fold_disabled], rfl, ?_⟩
      intro _
      rw [List.filter_eq_nil_iff.2]
      · simpa using hok
      · intro z _
        simp only [decide_eq_true_eq]
        exact win_none hm (not_lt.1 hn)

theorem fmod_range {M : Rat} (hM : 0 < M) (x : Rat) : 0 ≤ fmod x M ∧ fmod x M < M := by
  unfold fmod
  have h1 := Rat.floor_le (x / M)
  have h2 := Rat.lt_floor_add_one (x / M)
  push_cast at h2
  rw [le_div_iff₀ hM] at h1
  rw [div_lt_iff₀ hM] at h2
  constructor <;> linarith

theorem fmod_unique {M : Rat} (hM : 0 < M) {x r : Rat} {j : Int} (h : x = r + j * M) (h1 : 0 ≤ r) (h2 : r < M) : fmod x M = r := by
  have hfl : (x / M).floor = j := by
    apply le_antisymm
    · have : (x / M).floor < j + 1 := by
        rw [Rat.floor_lt_iff, div_lt_iff₀ hM, h]; push_cast; linarith
      omega
    · rw [Rat.le_floor_iff, le_div_iff₀ hM, h]; linarith
  unfold fmod
  rw [hfl, h]; ring

/-- the windows of the loop are those of the slice -/
theorem win_iff {start stop modulo now t0 : Rat} (h1 : start < stop) (h2 : stop - start < modulo) {f : Nat}
    (hf : now ≤ (t0 - fmod t0 modulo + fmod start modulo) + f * modulo) (τ : Rat) :
    Win now (fmod (fmod stop modulo - fmod start modulo) modulo) modulo (t0 - fmod t0 modulo + fmod start modulo) f τ ↔
      InWindow start stop modulo (t0 - fmod t0 modulo) now τ := by
  have hM : 0 < modulo := by linarith
  have hlen : fmod (fmod stop modulo - fmod start modulo) modulo = stop - start := by
    refine fmod_unique hM (j := (start / modulo).floor - (stop / modulo).floor) ?_ (by linarith) h2
    unfold fmod; push_cast; ring
  rw [hlen]
  obtain ⟨r1, r2⟩ := fmod_range hM start
  obtain ⟨n0, hn0⟩ : ∃ n : Int, t0 - fmod t0 modulo = n * modulo := ⟨(t0 / modulo).floor, by unfold fmod; ring⟩
  obtain ⟨n1, hn1⟩ : ∃ n : Int, fmod start modulo = start - n * modulo := ⟨(start / modulo).floor, by unfold fmod; ring⟩
  rw [hn0, hn1] at hf ⊢
  rw [hn1] at r1 r2
  constructor
  · rintro ⟨k, _, a1, a2, a3⟩
    have hk : 0 ≤ (k : Rat) * modulo := by positivity
    refine ⟨n0 - n1 + k, ?_, ?_, ?_, ?_⟩ <;> push_cast <;> linarith
  · rintro ⟨k, a1, a2, a3, a4⟩
    have hk : 0 ≤ k - (n0 - n1) := by
      by_contra hneg
      have hle : k + 1 ≤ n0 - n1 := by omega
      have hle' : (k : Rat) + 1 ≤ n0 - n1 := by exact_mod_cast hle
      have := mul_le_mul_of_nonneg_right hle' hM.le
      linarith
    obtain ⟨i, hi⟩ := Int.eq_ofNat_of_zero_le hk
    have hi' : (k : Rat) - (n0 - n1) = (i : Rat) := by exact_mod_cast hi
    have hki : (k : Rat) = n0 - n1 + i := by linarith
    have e : (n0 : Rat) * modulo + (start - n1 * modulo) + i * modulo = start + k * modulo := by rw [hki]; ring
    refine ⟨i, ?_, ?_, ?_, ?_⟩
    · by_contra hge
      have : (f : Rat) ≤ i := by exact_mod_cast not_lt.1 hge
      have := mul_le_mul_of_nonneg_right this hM.le
      linarith
    · rw [e]; exact a1
    · rw [e]; linarith
    · rw [e]; exact a4

/-- C23, slice(start, stop, modulo) of a non level monitor with tallies: it has the tallies in the windows, with their weights, in the same order. `day` is the last
multiple of modulo at or before the first tally: windows that start before it do not count (see the counterexample). -/
theorem C23_modulo {now : Rat} {m : Monitor} {Z : List (Rat × Val × Rat)} (hok : PlainOk now m Z) {z0 : Rat × Val × Rat} (hz : Z.head? = some z0) (offset : Rat)
    {start stop modulo : Rat} (h1 : start < stop) (h2 : stop - start < modulo) {day : Rat} (hd : ∃ n : Int, day = n * modulo) (hd1 : day ≤ z0.1)
    (hd2 : z0.1 < day + modulo) {fuel : Nat} (hf : now - z0.1 ≤ (fuel - 1) * modulo) :
    ∃ new, slice fuel now offset m (some start) (some stop) (some modulo) = .ok new ∧
      ∀ [DecidablePred (InWindow start stop modulo day now)], PlainOk now new (Z.filter (fun z => decide (InWindow start stop modulo day now z.1))) := by
  obtain ⟨n, hn⟩ := hd
  have hM : 0 < modulo := by linarith
  have hday : fmod z0.1 modulo = z0.1 - day := fmod_unique hM (j := n) (by rw [← hn]; ring) (by linarith) (by linarith)
  have ht : ∃ r, m.t = z0.1 :: r := by
    rw [hok.ht]
    cases Z with
    | nil => simp at hz
    | cons a Z => simp at hz; subst hz; exact ⟨_, rfl⟩
  obtain ⟨r, ht⟩ := ht
  obtain ⟨r1, r2⟩ := fmod_range hM start
  have hT : m.t.zip (List.zipWith Act.tally m.x m.weights) = Z.map (fun z => (z.1, Act.tally z.2.1 z.2.2)) := by
    rw [hok.ht, hok.hx, hok.hw]
    clear hok hz ht
    induction Z with
    | nil => rfl
    | cons a Z ih => simp only [List.map_cons, List.zipWith_cons_cons, List.zip_cons_cons, ih]
  have hlen : fmod (fmod stop modulo - fmod start modulo) modulo = stop - start := by
    refine fmod_unique hM (j := (start / modulo).floor - (stop / modulo).floor) ?_ (by linarith) h2
    unfold fmod; push_cast; ring
  have hwin := win_iff (now := now) (t0 := z0.1) h1 h2 (f := fuel) (by rw [hday]; linarith)
  obtain ⟨m', e, g, k⟩ := winPlain (now := now) (len := fmod (fmod stop modulo - fmod start modulo) modulo) hM (by rw [hlen]; linarith) (by rw [hlen]; exact h2) fuel
    (z0.1 - fmod z0.1 modulo + fmod start modulo) Z (system false m.xtype now) [] (plain_system m.xtype now).1 (by simpa using hok.sorted) hok.past
  refine ⟨finish m' now, ?_, ?_⟩
  · unfold slice
    rw [hok.full]
    simp only [Bool.false_eq_true, if_false]
    rw [if_neg (not_le.2 h1), if_neg (not_le.2 h2), ht]
    simp only
    unfold sliceWith
    simp only [hok.level, Bool.false_eq_true, if_false]
    rw [hT, e]
  · intro _
    classical
    have k := k
    rw [List.nil_append] at k
    have hk : PlainOk now m' (Z.filter (fun z => decide (InWindow start stop modulo day now z.1))) := by
      convert k using 2
      funext z
      rw [decide_eq_decide, hwin z.1, hday]
      rw [sub_sub_cancel]
    rw [finish_plain hk.level hk.full (by rw [g]; rfl)]
    exact hk.same le_rfl rfl rfl rfl rfl rfl

/-- if the window is within one period, i.e. between two consecutive multiples of modulo, all windows count that contain a moment at or after `day` -/
theorem C23_windows {start stop modulo day now τ : Rat} (hM : 0 < modulo) (hd : ∃ n : Int, day = n * modulo) (hw : ∃ n : Int, n * modulo ≤ start ∧ stop ≤ (n + 1) * modulo)
    (hτ : day ≤ τ) (hn : τ < now) : InWindow start stop modulo day now τ ↔ ∃ k : Int, start + k * modulo ≤ τ ∧ τ < stop + k * modulo := by
  constructor
  · rintro ⟨k, h1, h2, _, _⟩; exact ⟨k, h1, h2⟩
  · rintro ⟨k, h1, h2⟩
    refine ⟨k, h1, h2, ?_, by linarith⟩
    obtain ⟨d, hd⟩ := hd
    obtain ⟨n, hn1, hn2⟩ := hw
    have h3 : (d : Rat) < n + 1 + k := by
      have : (d : Rat) * modulo < (n + 1 + k) * modulo := by rw [← hd]; linarith
      exact lt_of_mul_lt_mul_right this hM.le
    have h4 : d ≤ n + k := by
      have : d < n + 1 + k := by exact_mod_cast h3
      omega
    have h5 : (d : Rat) ≤ n + k := by exact_mod_cast h4
    have := mul_le_mul_of_nonneg_right h5 hM.le
    rw [hd]; linarith

/-! ### level monitors -/

/-- the state of the loop between windows; T are the tallies to come and s1 is the start of the next window -/
structure Between (ty : XType) (s : SliceSt) (s1 : Rat) (T R : List (Rat × Val)) : Prop where
  off : s.enabled = false
  ht : s.t = R.map (·.1)
  hx : s.x = R.map (·.2)
  asc : Asc R
  acc : ∀ p ∈ R, ty.accepts p.2 = true
  cur : ty.accepts s.cur = true
  last : ∃ pre a, R = pre ++ [(a, ty.off)] ∧ (∀ p ∈ T, a ≤ p.1) ∧ (s.cur = ty.off → pre = []) ∧ (s.cur ≠ ty.off → a ≤ s1)

theorem asc_append_le {R : List (Rat × Val)} {pre : List (Rat × Val)} {a : Rat} {c : Val} (h : Asc R) (e : R = pre ++ [(a, c)]) : ∀ p ∈ R, p.1 ≤ a := by
  intro p hp
  rw [e] at hp h
  rcases List.mem_append.1 hp with hp | hp
  · exact le_of_lt ((List.pairwise_append.1 h).2.2 p hp (a, c) (by simp))
  · simp at hp; subst hp; exact le_rfl

theorem fold_cur (off : Val) (B : List (Rat × Val)) (s : SliceSt) :
    ((B.map (fun p => (p.1, Act.tally p.2 1))).foldl (sliceRound off) s).cur = B.foldl (fun _ p => p.2) s.cur := by
  induction B generalizing s with
  | nil => rfl
  | cons b B ih =>
    rw [List.map_cons, List.foldl_cons, List.foldl_cons, ih]
    congr 1
    unfold sliceRound
    simp only
    split <;> rfl

theorem last_off {off : Val} {B : List (Rat × Val)} (hon : ∀ p ∈ B, p.2 ≠ off) {c : Val} (h : B.foldl (fun _ p => p.2) c = off) : B = [] ∧ c = off := by
  rcases List.eq_nil_or_concat B with rfl | ⟨B', b, rfl⟩
  · exact ⟨rfl, h⟩
  · rw [List.concat_eq_append, List.foldl_append] at h
    exact absurd h (hon b (by simp))

/-- one window -/
theorem one_window {ty : XType} {s : SliceSt} {s1 e : Rat} (hse : s1 < e) {T R : List (Rat × Val)} (hb : Between ty s s1 T R) (hT : T.Pairwise (fun a b => a.1 ≤ b.1))
    (hacc : ∀ p ∈ T, ty.accepts p.2 = true) (hon : ∀ p ∈ T, p.2 ≠ ty.off) {A B C : List (Rat × Val)} (hpart : T = A ++ (B ++ C)) (hAt : ∀ p ∈ A, p.1 < s1)
    (hBt : ∀ p ∈ B, s1 ≤ p.1 ∧ p.1 < e) (hCt : ∀ p ∈ C, e ≤ p.1) {s2 : Rat} (he2 : e ≤ s2) :
    let tal := fun p : Rat × Val => (p.1, Act.tally p.2 1)
    let s' := sliceRound ty.off ((B.map tal).foldl (sliceRound ty.off) (sliceRound ty.off ((A.map tal).foldl (sliceRound ty.off) s) (s1, .start))) (e, .stop)
    ∃ R', Between ty s' s2 C R' ∧ s'.cur = (A ++ B).foldl (fun _ p => p.2) s.cur ∧ (∃ pre, R' = pre ++ [(e, ty.off)]) ∧
      ∀ τ, (s1 ≤ τ ∧ τ < e → stepAt ty.off R' τ = T.foldl (fun v p => if p.1 ≤ τ then p.2 else v) s.cur) ∧
        (¬ (s1 ≤ τ ∧ τ < e) → stepAt ty.off R' τ = stepAt ty.off R τ) := by
  intro tal s'
  obtain ⟨pre, a, hR, haT, hoffp, hons⟩ := hb.last
  have hsd := hb.off
  have fA : (A.map tal).foldl (sliceRound ty.off) s = { s with cur := A.foldl (fun _ p => p.2) s.cur } := foldl_disabled ty.off A s hsd
  have hmA : ∀ p ∈ A, p ∈ T := fun p hp => by rw [hpart]; simp [hp]
  have hmB : ∀ p ∈ B, p ∈ T := fun p hp => by rw [hpart]; simp [hp]
  have hmC : ∀ p ∈ C, p ∈ T := fun p hp => by rw [hpart]; simp [hp]
  have hfold : ∀ τ, s1 ≤ τ → τ < e → T.foldl (fun v p => if p.1 ≤ τ then p.2 else v) s.cur = B.foldl (fun v p => if p.1 ≤ τ then p.2 else v) (A.foldl (fun _ p => p.2) s.cur) := by
    intro τ h1 h2
    rw [hpart, List.foldl_append, List.foldl_append, foldl_late C _ τ (fun p hp => lt_of_lt_of_le h2 (hCt p hp))]
    congr 1
    exact (foldl_val_last A s.cur τ (fun p hp => (lt_of_lt_of_le (hAt p hp) h1).le)).symm
  have hcur' : s'.cur = (A ++ B).foldl (fun _ p => p.2) s.cur := by
    have h1 : ∀ (q : SliceSt) (t : Rat) (v : Val), (q.switch t v).cur = q.cur := by
      intro q t v; unfold SliceSt.switch; split; rfl; split <;> rfl
    show (SliceSt.switch _ e ty.off).cur = _
    rw [h1, fold_cur]
    show B.foldl (fun _ p => p.2) (SliceSt.switch _ s1 _).cur = _
    rw [h1, fA, List.foldl_append]
  by_cases hall : (A ++ B).foldl (fun _ p => p.2) s.cur = ty.off
  · -- nothing tallied yet
    obtain ⟨hAB, hc⟩ := last_off (fun p hp => (List.mem_append.1 hp).elim (fun h => hon p (hmA p h)) (fun h => hon p (hmB p h))) hall
    obtain ⟨rfl, rfl⟩ := List.append_eq_nil_iff.1 hAB
    have hp := hoffp hc
    subst hp
    have ht : s.t = [a] := by rw [hb.ht, hR]; rfl
    have hx : s.x = [ty.off] := by rw [hb.hx, hR]; rfl
    have hs1 : (s.switch s1 s.cur).t = [s1] ∧ (s.switch s1 s.cur).x = [ty.off] := by
      unfold SliceSt.switch
      by_cases has : a = s1
      · rw [if_pos (by rw [ht, has]; rfl)]; simp only; rw [ht, hx, has, hc]; exact ⟨rfl, rfl⟩
      · rw [if_neg (by rw [ht]; simpa using has), if_pos (by rw [hx, hc]; rfl)]; simp only; rw [ht, hx]; exact ⟨rfl, rfl⟩
    have hs' : s'.t = [e] ∧ s'.x = [ty.off] := by
      show (SliceSt.switch { s.switch s1 s.cur with enabled := true } e ty.off).t = [e] ∧ (SliceSt.switch { s.switch s1 s.cur with enabled := true } e ty.off).x = [ty.off]
      have hne : s1 ≠ e := hse.ne
      unfold SliceSt.switch
      obtain ⟨q1, q2⟩ := hs1
      unfold SliceSt.switch at q1 q2
      rw [if_neg (by simp only; rw [q1]; simpa using hne), if_pos (by simp only; rw [q2]; rfl)]
      simp only
      rw [q1, q2]
      exact ⟨rfl, rfl⟩
    refine ⟨[(e, ty.off)], ⟨rfl, hs'.1, hs'.2, by simp [Asc], by simpa using accepts_off ty, by rw [hcur', hall]; exact accepts_off ty, ⟨[], e, rfl, hCt, fun _ => rfl, fun h => absurd (hcur'.trans hall) h⟩⟩, hcur', ⟨[], rfl⟩, ?_⟩
    intro τ
    constructor
    · rintro ⟨h1, h2⟩
      rw [hfold τ h1 h2]
      show (if e ≤ τ then ty.off else ty.off) = s.cur
      rw [ite_self, hc]
    · intro _
      rw [hR]
      show (if e ≤ τ then ty.off else ty.off) = (if a ≤ τ then ty.off else ty.off)
      rw [ite_self, ite_self]
  · -- the start
    obtain ⟨c0, hc0⟩ : ∃ c0, c0 = A.foldl (fun _ p => p.2) s.cur := ⟨_, rfl⟩
    have hc0a : ty.accepts c0 = true := by
      rcases List.eq_nil_or_concat A with rfl | ⟨A', p, rfl⟩
      · rw [hc0]; exact hb.cur
      · rw [hc0, List.concat_eq_append, List.foldl_append]
        exact hacc p (hmA p (by simp))
    have hstart : ∃ R1, SliceOk ty { ({ s with cur := c0 } : SliceSt).switch s1 c0 with enabled := true } s1 R1 ∧ ∀ τ, stepAt ty.off R1 τ = if s1 ≤ τ then c0 else stepAt ty.off R τ := by
      by_cases h0 : c0 = ty.off
      · obtain ⟨rfl, hc⟩ := last_off (fun p hp => hon p (hmA p hp)) (hc0.symm.trans h0)
        have hp := hoffp hc
        subst hp
        have ht : s.t = [a] := by rw [hb.ht, hR]; rfl
        have hx : s.x = [ty.off] := by rw [hb.hx, hR]; rfl
        have hs1 : (({ s with cur := c0 } : SliceSt).switch s1 c0).t = [s1] ∧ (({ s with cur := c0 } : SliceSt).switch s1 c0).x = [c0] ∧ (({ s with cur := c0 } : SliceSt).switch s1 c0).cur = c0 := by
          unfold SliceSt.switch
          by_cases has : a = s1
          · rw [if_pos (by simp only; rw [ht, has]; rfl)]; simp [ht, hx, has]
          · rw [if_neg (by simp only; rw [ht]; simpa using has), if_pos (by simp only; rw [hx, h0]; rfl)]; simp [ht, hx, h0]
        refine ⟨[(s1, c0)], ⟨hs1.1, hs1.2.1, by simp [Asc], ⟨[], s1, ?_, le_rfl⟩, by simpa using hc0a⟩, ?_⟩
        · show _ = [] ++ [(s1, (({ s with cur := c0 } : SliceSt).switch s1 c0).cur)]
          rw [hs1.2.2]; rfl
        · intro τ
          rw [hR]
          show (if s1 ≤ τ then c0 else ty.off) = if s1 ≤ τ then c0 else (if a ≤ τ then ty.off else ty.off)
          rw [ite_self]
      · have has : a ≤ s1 := by
          by_cases hc : s.cur = ty.off
          · cases hA : A with
            | nil => rw [hA] at hc0; exact absurd (hc0.trans hc) h0
            | cons p A' => exact le_trans (haT p (hmA p (by rw [hA]; simp))) (hAt p (by rw [hA]; simp)).le
          · exact hons hc
        obtain ⟨k1, k2, k3, k4⟩ := switch_put (s := { s with cur := c0 }) (by rw [← hR]; exact hb.ht) (by rw [← hR]; exact hb.hx) s1 c0 (Or.inr (Ne.symm h0))
        have hA' : Asc (pre ++ [(a, ty.off)]) := by rw [← hR]; exact hb.asc
        refine ⟨putL (pre ++ [(a, ty.off)]) s1 c0, ⟨k1, k2, asc_putL hA' has, ?_, acc_putL (by rw [← hR]; exact hb.acc) hc0a⟩, ?_⟩
        · obtain ⟨pre', hp⟩ := putL_shape' (pre := pre) (a := a) (t := s1) (c := ty.off) (v := c0)
          refine ⟨pre', s1, ?_, le_rfl⟩
          show _ = pre' ++ [(s1, (({ s with cur := c0 } : SliceSt).switch s1 c0).cur)]
          rw [k3]; exact hp
        · intro τ
          rw [stepAt_putL ty.off pre a s1 τ ty.off c0 has, hR]
    obtain ⟨R1, hR1, hv1⟩ := hstart
    have hBp : (s1 :: B.map (·.1)).Pairwise (· ≤ ·) := by
      rw [List.pairwise_cons]
      constructor
      · intro x hx
        obtain ⟨p, hp, rfl⟩ := List.mem_map.1 hx
        exact (hBt p hp).1
      · rw [List.pairwise_map]
        rw [hpart] at hT
        exact (List.pairwise_append.1 (List.pairwise_append.1 hT).2.1).1
    obtain ⟨g1, R2, g2, g3⟩ := foldl_enabled ty.off B _ rfl hR1 hBp hse.le (fun p hp => (hBt p hp).2.le) (fun p hp => hacc p (hmB p hp))
    obtain ⟨s3, hs3⟩ : ∃ s3, s3 = (B.map (fun p => (p.1, Act.tally p.2 1))).foldl (sliceRound ty.off) { ({ s with cur := c0 } : SliceSt).switch s1 c0 with enabled := true } := ⟨_, rfl⟩
    have e3 : (B.map tal).foldl (sliceRound ty.off) (sliceRound ty.off ((A.map tal).foldl (sliceRound ty.off) s) (s1, .start)) = s3 := by
      rw [fA, hs3, ← hc0]; rfl
    have es' : s' = { s3.switch e ty.off with enabled := false } := by
      show sliceRound ty.off ((B.map tal).foldl (sliceRound ty.off) (sliceRound ty.off ((A.map tal).foldl (sliceRound ty.off) s) (s1, .start))) (e, .stop) = _
      rw [e3]; rfl
    rw [← hs3] at g1 g2
    obtain ⟨pre2, a2, q1, q2⟩ := g2.last
    have hc3 : s3.cur ≠ ty.off := by
      have : s'.cur = s3.cur := by
        rw [es']; show (s3.switch e ty.off).cur = _
        unfold SliceSt.switch; split; rfl; split <;> rfl
      rw [← this, hcur']; exact hall
    obtain ⟨k1, k2, k3, k4⟩ := switch_put (s := s3) (by rw [← q1]; exact g2.ht) (by rw [← q1]; exact g2.hx) e ty.off (Or.inr hc3)
    have hA' : Asc (pre2 ++ [(a2, s3.cur)]) := by rw [← q1]; exact g2.asc
    obtain ⟨pre', hp'⟩ := putL_shape' (pre := pre2) (a := a2) (t := e) (c := s3.cur) (v := ty.off)
    refine ⟨putL (pre2 ++ [(a2, s3.cur)]) e ty.off, ⟨by rw [es'], by rw [es']; exact k1, by rw [es']; exact k2, asc_putL hA' q2, acc_putL (by rw [← q1]; exact g2.acc) (accepts_off ty), ?_, ⟨pre', e, hp', hCt, fun h => absurd h (by rw [hcur']; exact hall), fun _ => he2⟩⟩, hcur', ⟨pre', hp'⟩, ?_⟩
    · rw [es']
      show ty.accepts (s3.switch e ty.off).cur = true
      rw [k3]
      exact g2.acc (a2, s3.cur) (by rw [q1]; simp)
    · intro τ
      rw [stepAt_putL ty.off pre2 a2 e τ s3.cur ty.off q2, ← q1]
      constructor
      · rintro ⟨h1, h2⟩
        rw [if_neg (not_le.2 h2), g3, hv1, if_pos h1, hfold τ h1 h2, hc0]
      · intro hnot
        by_cases h2 : e ≤ τ
        · rw [if_pos h2, hR, stepAt_snoc]
          by_cases hsc : s.cur = ty.off
          · rw [hoffp hsc]
            show _ = if a ≤ τ then ty.off else ty.off
            rw [ite_self]
          · rw [if_pos (le_trans (hons hsc) (le_trans hse.le h2))]
        · have h1 : τ < s1 := by
            by_contra h; exact hnot ⟨not_lt.1 h, not_le.1 h2⟩
          rw [if_neg h2, g3, hv1, if_neg (not_le.2 h1)]
          exact foldl_late B _ τ (fun p hp => lt_of_lt_of_le h1 (hBt p hp).1)

theorem winLevel {ty : XType} {now len modulo : Rat} (hm : 0 < modulo) (hl : 0 < len) (hlm : len < modulo) :
    ∀ (f : Nat) (s1 : Rat) (T R : List (Rat × Val)) (s : SliceSt), Between ty s s1 T R → T.Pairwise (fun a b => a.1 ≤ b.1) →
      (∀ p ∈ T, ty.accepts p.2 = true) → (∀ p ∈ T, p.2 ≠ ty.off) → (∀ p ∈ R, p.1 ≤ now) → (∀ k : Nat, s1 + k * modulo < now → s1 + k * modulo + len ≤ now) →
      let s' := (mergeTwo leAct (moduloActions now len modulo f s1) (T.map (fun p => (p.1, Act.tally p.2 1)))).foldl (sliceRound ty.off) s
      ∃ R', s'.t = R'.map (·.1) ∧ s'.x = R'.map (·.2) ∧ Asc R' ∧ (∀ p ∈ R', ty.accepts p.2 = true) ∧ R' ≠ [] ∧ (∀ p ∈ R', p.1 ≤ now) ∧
        ∀ τ, (Win now len modulo s1 f τ → stepAt ty.off R' τ = T.foldl (fun v p => if p.1 ≤ τ then p.2 else v) s.cur) ∧
          (¬ Win now len modulo s1 f τ → stepAt ty.off R' τ = stepAt ty.off R τ) := by
  have hdone : ∀ (T R : List (Rat × Val)) (s1 : Rat) (s : SliceSt), Between ty s s1 T R → (∀ p ∈ R, p.1 ≤ now) →
      let s' := (T.map (fun p => (p.1, Act.tally p.2 1))).foldl (sliceRound ty.off) s
      s'.t = R.map (·.1) ∧ s'.x = R.map (·.2) ∧ Asc R ∧ (∀ p ∈ R, ty.accepts p.2 = true) ∧ R ≠ [] ∧ (∀ p ∈ R, p.1 ≤ now) := by
    intro T R s1 s hb hp s'
    have hs' : s' = { s with cur := T.foldl (fun _ p => p.2) s.cur } := foldl_disabled ty.off T s hb.off
    obtain ⟨pre, a, hR, _⟩ := hb.last
    rw [hs']
    exact ⟨hb.ht, hb.hx, hb.asc, hb.acc, by rw [hR]; simp, hp⟩
  intro f
  induction f with
  | zero =>
    intro s1 T R s hb hT hacc hon hp hcl
    obtain ⟨d1, d2, d3, d4, d5, d6⟩ := hdone T R s1 s hb hp
    refine ⟨R, d1, d2, d3, d4, d5, d6, fun τ => ⟨?_, fun _ => rfl⟩⟩
    rintro ⟨k, hk, _⟩
    omega
  | succ f ih =>
    intro s1 T R s hb hT hacc hon hp hcl
    unfold moduloActions
    by_cases hn : s1 < now
    · rw [if_pos hn, items_more (Or.inl rfl) _ T (·.1) (·.2) (fun _ => 1) hT]
      have hpart := partition3' (start := s1) (e := s1 + len) (b := .stop) T hT
      obtain ⟨A, hA⟩ : ∃ A, A = T.filter (fun z => decide (z.1 < s1)) := ⟨_, rfl⟩
      obtain ⟨B, hB⟩ : ∃ B, B = T.filter (fun z => !decide (z.1 < s1) && beforeEnd .stop (s1 + len) z.1) := ⟨_, rfl⟩
      obtain ⟨C, hC⟩ : ∃ C, C = T.filter (fun z => !decide (z.1 < s1) && !beforeEnd .stop (s1 + len) z.1) := ⟨_, rfl⟩
      rw [← hA, ← hB, ← hC] at hpart ⊢
      have hAt : ∀ z ∈ A, z.1 < s1 := by
        intro z hz; rw [hA] at hz; simpa using (List.mem_filter.1 hz).2
      have hBt : ∀ z ∈ B, s1 ≤ z.1 ∧ z.1 < s1 + len := by
        intro z hz; rw [hB] at hz; simpa [beforeEnd] using (List.mem_filter.1 hz).2
      have hCt : ∀ z ∈ C, s1 + len ≤ z.1 := by
        intro z hz; rw [hC] at hz
        have := (List.mem_filter.1 hz).2
        simp only [beforeEnd, if_true, Bool.and_eq_true, Bool.not_eq_true', decide_eq_false_iff_not, not_lt] at this
        exact this.2
      have hmC : ∀ p ∈ C, p ∈ T := fun p hp => by rw [hC] at hp; exact List.mem_of_mem_filter hp
      obtain ⟨R1, b1, b2, ⟨pre1, b3⟩, b4⟩ := one_window (e := s1 + len) (by linarith) hb hT hacc hon hpart hAt hBt hCt (s2 := s1 + modulo) (by linarith)
      have hle1 : s1 + len ≤ now := by have := hcl 0 (by simpa using hn); simpa using this
      obtain ⟨R', c1, c2, c3, c4, c5, c6, c7⟩ := ih (s1 + modulo) C R1 _ b1 (by rw [hC]; exact hT.filter _) (fun p hp => hacc p (hmC p hp)) (fun p hp => hon p (hmC p hp))
        (fun p hp => le_trans (asc_append_le b1.asc b3 p hp) hle1)
        (fun k hk => by have := hcl (k + 1) (by push_cast; linarith); push_cast at this; linarith)
      refine ⟨R', ?_, ?_, c3, c4, c5, c6, ?_⟩
      · rw [List.foldl_append, List.foldl_cons, List.foldl_append, List.foldl_cons]; exact c1
      · rw [List.foldl_append, List.foldl_cons, List.foldl_append, List.foldl_cons]; exact c2
      · intro τ
        obtain ⟨w1, w2⟩ := c7 τ
        obtain ⟨v1, v2⟩ := b4 τ
        by_cases hw : Win now len modulo (s1 + modulo) f τ
        · refine ⟨fun _ => ?_, fun hnw => absurd ((win_succ hn).2 (Or.inr hw)) hnw⟩
          have hτ := win_after hm hw
          rw [w1 hw, b2]
          conv_rhs => rw [hpart, ← List.append_assoc, List.foldl_append]
          congr 1
          refine foldl_val_last (A ++ B) s.cur τ ?_
          intro p hp
          rcases List.mem_append.1 hp with hp | hp
          · have := hAt p hp; linarith
          · have := (hBt p hp).2; linarith
        · rw [w2 hw]
          constructor
          · intro hwin
            exact v1 (((win_succ hn).1 hwin).resolve_right hw)
          · intro hnw
            exact v2 (fun h => hnw ((win_succ hn).2 (Or.inl h)))
    · rw [if_neg hn]
      obtain ⟨d1, d2, d3, d4, d5, d6⟩ := hdone T R s1 s hb hp
      refine ⟨R, d1, d2, d3, d4, d5, d6, fun τ => ⟨fun h => absurd h (win_none hm (not_lt.1 hn)), fun _ => rfl⟩⟩

/-- C23, slice(start, stop, modulo) of a level monitor: it has the value of the monitor at each moment in the windows and is off at the other ones. Hypotheses: the
monitor was never off since its first tally, and no window is open now (see the counterexamples). `day` is the last multiple of modulo at or before the first
tally. -/
theorem C23_modulo_level {now : Rat} {ty : XType} {m : Monitor} {L : List (Rat × Val)} (hok : LevelOk now ty m L) (hst : ∀ p ∈ L, m.start ≤ p.1)
    (hon : ∀ p ∈ L, p.2 ≠ ty.off) {p0 : Rat × Val} (hz : L.head? = some p0) (offset : Rat)
    {start stop modulo : Rat} (h1 : start < stop) (h2 : stop - start < modulo) {day : Rat} (hd : ∃ n : Int, day = n * modulo) (hd1 : day ≤ p0.1)
    (hd2 : p0.1 < day + modulo) {fuel : Nat} (hf : now - p0.1 ≤ (fuel - 1) * modulo)
    (hcl : ∀ k : Int, start + k * modulo < now → stop + k * modulo ≤ now) :
    ∃ new, slice fuel now offset m (some start) (some stop) (some modulo) = .ok new ∧ (∃ L', LevelOk now ty new L') ∧
      ∀ τ, τ + offset < now → (InWindow start stop modulo day now (τ + offset) → new.get now offset (some τ) = m.get now offset (some τ)) ∧
        (¬ InWindow start stop modulo day now (τ + offset) → new.get now offset (some τ) = .ok m.off) := by
  obtain ⟨n, hn⟩ := hd
  have hM : 0 < modulo := by linarith
  have hoff : m.off = ty.off := by rw [Monitor.off, hok.type]
  have hday : fmod p0.1 modulo = p0.1 - day := fmod_unique hM (j := n) (by rw [← hn]; ring) (by linarith) (by linarith)
  have hp0 : p0 ∈ L := List.mem_of_mem_head? (by rw [hz]; rfl)
  have ht : ∃ r, m.t = p0.1 :: r := by
    rw [hok.ht]
    cases L with
    | nil => simp at hz
    | cons a Z => simp at hz; subst hz; exact ⟨_, rfl⟩
  obtain ⟨r, ht⟩ := ht
  obtain ⟨r1, r2⟩ := fmod_range hM start
  have hle : L.Pairwise (fun a c => a.1 ≤ c.1) := hok.asc.imp le_of_lt
  have hT : m.t.zip (List.zipWith Act.tally m.x (List.replicate m.x.length 1)) = L.map (fun p => (p.1, Act.tally p.2 1)) := by
    rw [hok.ht, hok.hx]
    clear hok hle hst hz ht hon hp0
    induction L with
    | nil => rfl
    | cons a Z ih => simp only [List.map_cons, List.length_cons, List.replicate_succ, List.zipWith_cons_cons, List.zip_cons_cons, ih]
  have hlen : fmod (fmod stop modulo - fmod start modulo) modulo = stop - start := by
    refine fmod_unique hM (j := (start / modulo).floor - (stop / modulo).floor) ?_ (by linarith) h2
    unfold fmod; push_cast; ring
  have hwin := win_iff (now := now) (t0 := p0.1) h1 h2 (f := fuel) (by rw [hday]; linarith)
  have hms : m.start ≤ now := le_trans (hst p0 hp0) (hok.past p0 hp0)
  obtain ⟨R', c1, c2, c3, c4, c5, c6, c7⟩ := winLevel (ty := ty) (now := now) (len := fmod (fmod stop modulo - fmod start modulo) modulo) hM (by rw [hlen]; linarith) (by rw [hlen]; exact h2)
    fuel (p0.1 - fmod p0.1 modulo + fmod start modulo) L [(m.start, ty.off)] { cur := ty.off, enabled := false, x := [ty.off], t := [m.start] }
    ⟨rfl, rfl, rfl, by simp [Asc], by simpa using accepts_off ty, accepts_off ty, [], m.start, rfl, hst, fun _ => rfl, fun h => absurd rfl h⟩
    hle hok.acc hon (by simpa using hms) (by
      intro k hk
      obtain ⟨n1, hn1⟩ : ∃ n : Int, fmod start modulo = start - n * modulo := ⟨(start / modulo).floor, by unfold fmod; ring⟩
      rw [hlen]
      rw [hday, hn1, hn] at hk ⊢
      have := hcl (n - n1 + k) (by push_cast; linarith)
      push_cast at this
      linarith)
  obtain ⟨q1, q2, q3, q4⟩ := system_ok ty now
  obtain ⟨s', hs'⟩ : ∃ s', s' = (mergeTwo leAct (moduloActions now (fmod (fmod stop modulo - fmod start modulo) modulo) modulo fuel (p0.1 - fmod p0.1 modulo + fmod start modulo))
    (L.map (fun p => (p.1, Act.tally p.2 1)))).foldl (sliceRound ty.off) { cur := ty.off, enabled := false, x := [ty.off], t := [m.start] } := ⟨_, rfl⟩
  rw [← hs'] at c1 c2
  have hnew0 : LevelOk now ty { system true ty now with x := s'.x, t := s'.t } R' := ⟨q1, q2, q4, c1, c2, c3, c5, c6, c4⟩
  obtain ⟨L', hok', htal, hstp⟩ := finish_level hnew0 q3
  refine ⟨_, ?_, ⟨L', hok'⟩, ?_⟩
  · unfold slice
    rw [hok.full]
    simp only [Bool.false_eq_true, if_false]
    rw [if_neg (not_le.2 h1), if_neg (not_le.2 h2), ht]
    simp only
    unfold sliceWith
    simp only [hok.level, if_true, hok.type, hoff]
    rw [hT, ← hs']
  · intro τ hτ
    obtain ⟨w1, w2⟩ := c7 (τ + offset)
    have hw := hwin (τ + offset)
    rw [hday, sub_sub_cancel] at hw
    rw [hday, sub_sub_cancel] at w1 w2
    rw [hok'.get offset τ hτ, hstp, if_neg (not_le.2 hτ), hoff, hok.get offset τ hτ]
    constructor
    · intro h
      rw [w1 (hw.2 h)]; rfl
    · intro h
      rw [w2 (fun h' => h (hw.1 h'))]
      show Except.ok (if m.start ≤ τ + offset then ty.off else ty.off) = _
      rw [ite_self]

/-- tallies at 1, 5, 11 and 14, the slice from 0 to 3 of each 10 -/
example : (slice 5 18 0 ((create false none .any false true 0).1.run [(1, .tally (.num 7) 1), (5, .tally (.num 8) 1), (11, .tally (.num 9) 2), (14, .tally (.num 6) 1)])
    (some 0) (some 3) (some 10)).map (fun n => (n.x, n.t)) = .ok ([.num 7, .num 9], [1, 11]) := by decide +kernel

/-- a level monitor and the slice from 2 to 5 of each 10 -/
example : (slice 5 18 0 ((create true (some (.num 1)) .any false true 0).1.run [(3, .tally (.num 2) 1), (14, .tally (.num 3) 1)]) (some 2) (some 5) (some 10)).map
    (fun n => [1, 2, 4, 5, 11, 13, 14, 16].map (fun t => n.get 18 0 (some t))) =
    .ok [.ok .ninf, .ok (.num 1), .ok (.num 2), .ok .ninf, .ok .ninf, .ok (.num 2), .ok (.num 3), .ok .ninf] := by decide +kernel

/-- windows that pass a multiple of modulo, like from 22 to 6 hours: the first night is lost (here the tally at 1), as the windows start on the day of the first
tally -/
theorem C23_night_counterexample :
    (slice 5 60 0 ((create false none .any false true 0).1.run [(1, .tally (.num 7) 1), (25, .tally (.num 8) 1)]) (some 22) (some 30) (some 24)).map (fun n => n.x) =
      .ok [.num 8] := by decide +kernel

/-- a window that is open now is counted up to its end, even though that is in the future: a level monitor of 5 time units (with value 1 at first, and 3 from 4 on),
sliced from 0 to 8 of each 10, has a duration of 8, and a mean of 2 instead of 1.4 -/
theorem C23_open_counterexample :
    let m := (create true (some (.num 1)) .any false true 0).1.run [(4, .tally (.num 3) 1)]
    m.mean 5 false = some (7 / 5) ∧ (slice 5 5 0 m (some 0) (some 8) (some 10)).map (fun n => (n.mean 5 false, n.sysWeight 5 false)) = .ok (some 2, 8) := by decide +kernel

/-- a level monitor that is off when a window starts shows the last value of the window before up to that start -/
theorem C23_modulo_off_counterexample :
    let m := (create true (some (.num 1)) .any false true 0).1.run [(6, .monitor false)]
    m.get 28 0 (some 8) = .ok .ninf ∧ (slice 5 28 0 m (some 2) (some 5) (some 10)).map (fun n => n.get 28 0 (some 8)) = .ok (.ok (.num 1)) := by decide +kernel

end Mon
end Verif
