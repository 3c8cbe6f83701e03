import Verif.MonRead
import Verif.Props.MonMerge
import Verif.Props.MonTally
import Verif.Props.Bins

/-!
# What is read back from a monitor: xt, tx, x, xweight, xduration (C77), values (C78)
-/

namespace Verif
namespace Mon

/-! ## specification -/

/-- the value at a moment according to two lists with the values and the moments they start at: the last one that started -/
def readAt (xs : List Val) (ts : List Rat) (τ : Rat) : Option Val := (((ts.zip xs).filter (fun p => decide (p.1 ≤ τ))).getLast?).map (·.2)

/-- the rows that are kept: with ex0 no zeros, with exoff no off -/
def keep (ex0 exoff : Bool) (off : Val) (rows : List (Val × Rat)) : List (Val × Rat) :=
  rows.filter (fun p => decide ((ex0 = true → p.1 ≠ .num 0) ∧ (exoff = true → p.1 ≠ off)))

/-- the distances between consecutive moments -/
def steps (ts : List Rat) : List Rat := List.zipWith (fun b a => b - a) ts.tail ts

/-! ## xt, tx and xduration of level monitors -/

theorem stepAt_last (off : Val) (L : List (Rat × Val)) (τ : Rat) : stepAt off L τ = (((L.filter (fun p => decide (p.1 ≤ τ))).getLast?).map (·.2)).getD off := by
  induction L using List.reverseRecOn with
  | nil => rfl
  | append_singleton L a ih =>
    unfold stepAt at ih ⊢
    rw [List.foldl_append, List.filter_append]
    simp only [List.foldl_cons, List.foldl_nil]
    by_cases h : a.1 ≤ τ
    · rw [if_pos h, List.filter_cons_of_pos (by simpa using h)]
      simp
    · rw [if_neg h, List.filter_cons_of_neg (by simpa using h), ih]
      simp

/-- a level monitor has what is stored as rows, and a row for now -/
theorem xt_rep {now now' : Rat} {ty : XType} {m : Monitor} {s : Sig} {L : List (Rat × Val)} (h : Rep ty m s L now') (fn ex0 exoff addNow : Bool) {pre : List (Rat × Val)} {t : Rat}
    {v : Val} (hL : L = pre ++ [(t, v)]) :
    m.xt now ex0 exoff fn addNow =
      (let l := keep ex0 exoff (seen ty fn ty.off) (L.map (fun p => (seen ty fn p.2, p.1)) ++ if addNow then [(seen ty fn v, now)] else []);
      .ok (l.map (·.1), l.map (·.2))) := by
  have hoff : (if ty.coded || !fn then ty.off else Val.ninf) = seen ty fn ty.off := by
    unfold seen
    by_cases hc : (ty.coded || !fn) = true
    · rw [if_pos hc, if_pos hc]
    · rw [if_neg hc, if_neg hc]
      cases ty <;> first | rfl | simp [XType.coded] at hc
  have hz : ∀ (l : List (Rat × Val)) (a : List Val) (b : List Rat), ((l.map (fun p => seen ty fn p.2)) ++ a).zip (l.map (·.1) ++ b) = l.map (fun p => (seen ty fn p.2, p.1)) ++ a.zip b := by
    intro l a b
    induction l with
    | nil => rfl
    | cons c l ih => simp [ih]
  have hk : ∀ off, (fun p : Val × Rat => (!ex0 || p.1 != .num 0) && (!exoff || p.1 != off)) = (fun p => decide ((ex0 = true → p.1 ≠ .num 0) ∧ (exoff = true → p.1 ≠ off))) := by
    intro off
    funext p
    rw [Bool.eq_iff_iff]
    cases ex0 <;> cases exoff <;> simp
  unfold Monitor.xt keep
  simp only [h.full, Bool.false_eq_true, if_false, h.level, Bool.and_true, values_eq, h.hx, h.ht, h.type, Monitor.off, List.map_map, hoff, hk]
  have hlast : (L.map (seen ty fn ∘ fun p => p.2)).getLast? = some (seen ty fn v) := by rw [hL]; simp
  cases addNow with
  | true =>
    rw [hlast]
    simp only [if_true]
    rw [show (List.map (seen ty fn ∘ fun x => x.2) L) = L.map (fun p => seen ty fn p.2) from rfl, hz]
    rfl
  | false =>
    simp only [Bool.false_eq_true, if_false]
    rw [show (List.map (seen ty fn ∘ fun x => x.2) L) = L.map (fun p => seen ty fn p.2) from rfl, hz]
    rfl

theorem keep_all (off : Val) (l : List (Val × Rat)) : keep false false off l = l := by
  unfold keep
  rw [List.filter_eq_self]
  intro a _
  simp

section level
variable {ty : XType} {v : Option Val} {b : Bool} {t0 : Rat} {h : List (Rat × Op)} {now : Rat}

theorem zip_self (l : List (Val × Rat)) : (l.map (·.1)).zip (l.map (·.2)) = l := by
  induction l with
  | nil => rfl
  | cons a l ih => simp [ih]

theorem zip_swap (l : List (Val × Rat)) : (l.map (·.2)).zip (l.map (·.1)) = l.map (fun p => (p.2, p.1)) := by
  induction l with
  | nil => rfl
  | cons a l ih => simp [ih]

theorem durations_steps (now : Rat) : ∀ l : List Rat, steps (l ++ [now]) = durations now l
  | [] => rfl
  | [a] => rfl
  | a :: b :: r => by
    have := durations_steps now (b :: r)
    unfold steps at this ⊢
    simp only [List.cons_append, List.tail_cons, List.zipWith_cons_cons, durations] at this ⊢
    rw [this]

theorem zip_take {α β : Type} : ∀ (a : List α) (x : α) (b : List β), b.length ≤ a.length → (a ++ [x]).zip b = a.zip b
  | a, x, [], _ => by simp
  | [], x, c :: b, hl => by simp at hl
  | y :: a, x, c :: b, hl => by simp only [List.cons_append, List.zip_cons_cons]; rw [zip_take a x b (by simpa using hl)]

theorem length_durations (now : Rat) : ∀ l : List Rat, (durations now l).length = l.length
  | [] => rfl
  | [a] => rfl
  | a :: b :: r => by have := length_durations now (b :: r); simp only [durations, List.length_cons] at this ⊢; omega

/-- C77: xt() of a level monitor tells the signal: it starts at the last reset, ends now, the moments are in order, and at each moment in between the value is the
one of the signal. tx() is the same with the lists the other way round; ex0, exoff and add_now leave out rows with 0 and off, and the row for now;
xduration() has the values other than off with the time to the next row. (For monitors of type any with force_numeric, values are made numbers: `seen`.) -/
theorem C77_level (ha : ty.accepts (v.getD (.num 0)) = true) (hno : v.getD (.num 0) ≠ ty.off) (hc : Chrono t0 h now) (hf : ∀ e ∈ h, Fine ty e.2) (fn : Bool) :
    let m := (create true v ty false b t0).1.run h
    let S := signal (born v b t0) h
    ∃ xs ts, m.xt now false false fn true = .ok (xs, ts) ∧ xs.length = ts.length ∧ ts.head? = some S.start ∧ ts.getLast? = some now ∧ ts.Pairwise (· ≤ ·) ∧
      xs.getLast? = some (seen ty fn (S.val ty.off)) ∧
      (∀ τ, S.start ≤ τ → τ < now → readAt xs ts τ = some (seen ty fn ((signalAt (born v b t0) h τ).val ty.off))) ∧
      (∀ ex0 exoff addNow, let l := keep ex0 exoff (seen ty fn ty.off) (if addNow then xs.zip ts else (xs.zip ts).dropLast);
        m.xt now ex0 exoff fn addNow = .ok (l.map (·.1), l.map (·.2)) ∧ m.tx now ex0 exoff fn addNow = .ok (l.map (·.2), l.map (·.1))) ∧
      ((now, Op.monitor false) ∉ h → ∀ ex0, let l := keep ex0 true ty.off (xs.zip (steps ts)); m.xduration now ex0 fn = .ok (l.map (·.1), l.map (·.2))) := by
  intro m S
  obtain ⟨L, hR, hat, _⟩ := level_run (b := b) ha hno hc hf
  obtain ⟨pre, t, hL, ht⟩ := hR.shape
  have hxt := fun ex0 exoff addNow => xt_rep hR (now := now) fn ex0 exoff addNow hL
  obtain ⟨rows, hrows⟩ : ∃ rows, rows = L.map (fun p => (seen ty fn p.2, p.1)) := ⟨_, rfl⟩
  rw [← hrows] at hxt
  obtain ⟨w, hw⟩ : ∃ w, w = seen ty fn (S.val ty.off) := ⟨_, rfl⟩
  have hpast : ∀ p ∈ L, p.1 ≤ t := by
    have hA := hR.asc
    unfold Asc at hA
    rw [hL] at hA ⊢
    intro p hp
    rcases List.mem_append.1 hp with hp | hp
    · exact le_of_lt ((List.pairwise_append.1 hA).2.2 p hp _ (List.mem_singleton.2 rfl))
    · simp at hp; subst hp; exact le_rfl
  refine ⟨(rows ++ [(w, now)]).map (·.1), (rows ++ [(w, now)]).map (·.2), ?_, by rw [List.length_map, List.length_map], ?_, by rw [List.map_append, List.map_singleton, List.getLast?_concat], ?_, by rw [List.map_append, List.map_singleton, List.getLast?_concat, hw], ?_, ?_, ?_⟩
  · have := hxt false false true
    simp only [if_true, keep_all] at this
    rw [this, hw]
  · have hhd := hR.head
    rw [hrows]
    cases L with
    | nil => simp at hhd
    | cons a r => simpa using hhd
  · rw [List.map_append, hrows, List.map_map]
    refine List.pairwise_append.2 ⟨?_, by simp, ?_⟩
    · have hA := hR.asc
      unfold Asc at hA
      rw [List.pairwise_map]
      exact hA.imp le_of_lt
    · intro a ha c hc
      obtain ⟨p, hp, rfl⟩ := List.mem_map.1 ha
      simp at hc
      subst hc
      exact le_trans (hpast p hp) ht
  · intro τ h1 h2
    unfold readAt
    rw [zip_swap, List.map_append, List.filter_append, List.map_singleton, List.filter_cons_of_neg (by simpa using h2), List.filter_nil, List.append_nil, hrows, List.map_map,
      ← hat τ h1, stepAt_last]
    have hf' : (List.map ((fun p : Val × Rat => (p.2, p.1)) ∘ fun p : Rat × Val => (seen ty fn p.2, p.1)) L).filter (fun p => decide (p.1 ≤ τ)) =
        (L.filter (fun p => decide (p.1 ≤ τ))).map (fun p => (p.1, seen ty fn p.2)) := by
      rw [List.filter_map]; rfl
    rw [hf', List.getLast?_map]
    have hne : ∃ p, (L.filter (fun p => decide (p.1 ≤ τ))).getLast? = some p := by
      have hhd := hR.head
      cases L with
      | nil => simp at hhd
      | cons a r =>
        simp only [List.head?_cons, Option.map_some, Option.some.injEq] at hhd
        rw [List.filter_cons_of_pos (by simp only [decide_eq_true_eq]; rw [hhd]; exact h1)]
        exact ⟨_, List.getLast?_eq_getLast_of_ne_nil (by simp)⟩
    obtain ⟨p, hp⟩ := hne
    rw [hp]
    rfl
  · intro ex0 exoff addNow l
    have hl : m.xt now ex0 exoff fn addNow = .ok (l.map (·.1), l.map (·.2)) := by
      have hl' : l = keep ex0 exoff (seen ty fn ty.off) (rows ++ if addNow then [(w, now)] else []) := by
        simp only [l]
        rw [zip_self]
        cases addNow with
        | true => rfl
        | false => rw [if_neg (by simp), if_neg (by simp), List.dropLast_concat, List.append_nil]
      rw [hl', hw]
      exact hxt ex0 exoff addNow
    refine ⟨hl, ?_⟩
    unfold Monitor.tx
    rw [hl]
    rfl
  · intro hn ex0 l
    have hx := C21_level_partial (b := b) ha hno hc hf hn ex0 fn
    unfold Monitor.xduration
    show (if m.statsOnly = true then _ else _) = _
    rw [hR.full, hR.level]
    simp only [Bool.false_eq_true, if_false, Bool.not_true]
    rw [hx, hR.fresh]
    have hl : l = freshL ty L now ex0 fn := by
      simp only [l]
      unfold keep freshL
      rw [List.map_append, List.map_append, List.map_singleton, List.map_singleton, durations_steps, zip_take _ _ _ (by rw [length_durations]; simp), hrows, List.map_map, List.map_map]
      apply List.filter_congr
      intro p _
      rw [Bool.eq_iff_iff]
      unfold counts
      cases ex0 <;> simp [and_comm]
    rw [hl]

end level

/-! ## non level monitors -/

/-- C77: xt() of a non level monitor has the tallies made since the last reset while the monitor was on, in order, with their moments; ex0 leaves out the zeros, and
exoff and add_now make no difference. x() and xweight() have the values, and the values and the weights, of the same tallies. -/
theorem C77_plain (ty : XType) (b : Bool) (t0 : Rat) {h : List (Rat × Op)} (hf : ∀ e ∈ h, FineN ty e.2) (now : Rat) (ex0 exoff fn addNow : Bool) :
    let m := (create false none ty false b t0).1.run h
    let T := (tallies b h).filter (fun z => decide (ex0 = true → seen ty fn z.2.1 ≠ .num 0))
    m.xt now ex0 exoff fn addNow = .ok (T.map (fun z => seen ty fn z.2.1), T.map (·.1)) ∧
    m.tx now ex0 exoff fn addNow = .ok (T.map (·.1), T.map (fun z => seen ty fn z.2.1)) ∧
    m.xs now ex0 fn = .ok (T.map (fun z => seen ty fn z.2.1)) ∧
    m.xw now ex0 fn = .ok (T.map (fun z => seen ty fn z.2.1), T.map (·.2.2)) := by
  intro m T
  obtain ⟨hL, _, _⟩ := tally_core ty b t0 hf 0
  obtain ⟨b1, b2, _, b4, _, b6, b7, b8⟩ := hL
  have e : (h.foldl Log.step ⟨b, []⟩).l = tallies b h := rfl
  rw [e] at b6 b7 b8
  have hx := C21_plain ty b t0 h now ex0 fn
  change m.level = false at b1
  change m.statsOnly = false at b2
  change m.xtype = ty at b4
  change m.t = _ at b6
  change m.x = _ at b7
  change m.weights = _ at b8
  change (m.xweight now ex0 fn).1 = m.fresh now ex0 fn at hx
  clear_value m
  have hxt : m.xt now ex0 exoff fn addNow = .ok (T.map (fun z => seen ty fn z.2.1), T.map (·.1)) := by
    unfold Monitor.xt
    simp only [b1, b2, Bool.and_false, Bool.false_eq_true, if_false, List.append_nil, values_eq, b4, b7, b6, List.map_map, Bool.not_false, Bool.true_or, Bool.and_true]
    have hz : (List.map (seen ty fn ∘ fun x : Rat × Val × Rat => x.2.1) (tallies b h)).zip (List.map (fun x => x.1) (tallies b h)) =
        (tallies b h).map (fun z => (seen ty fn z.2.1, z.1)) := by
      rw [List.zip_map']; rfl
    rw [hz, List.filter_map, List.map_map, List.map_map]
    have hT : T = (tallies b h).filter ((fun p : Val × Rat => !ex0 || p.1 != .num 0) ∘ fun z => (seen ty fn z.2.1, z.1)) := by
      simp only [T]
      apply List.filter_congr
      intro z _
      rw [Bool.eq_iff_iff]
      cases ex0 <;> simp
    rw [← hT]
    rfl
  have hfresh : m.fresh now ex0 fn = (T.map (fun z => seen ty fn z.2.1), T.map (·.2.2)) := by
    unfold Monitor.fresh
    simp only [b1, Bool.false_eq_true, if_false, values_eq, b4, b7, List.map_map]
    have h0 : ex0 = false → T = tallies b h := by
      intro h0; simp only [T]; rw [List.filter_eq_self]; intro a _; simp [h0]
    have h1 : ex0 = true → T = (tallies b h).filter (fun z => seen ty fn z.2.1 != .num 0) := by
      intro h1; simp only [T]; apply List.filter_congr; intro z _; rw [Bool.eq_iff_iff]; simp [h1]
    have hlen : m.weights.length = m.x.length := by rw [b8, b7]; simp
    unfold Monitor.weights at b8
    split
    · rename_i w ws hws
      rw [hws] at b8
      simp only at b8
      cases ex0 with
      | false => simp only [Bool.false_eq_true, if_false]; rw [h0 rfl, b8]; rfl
      | true =>
        simp only [if_true]
        rw [h1 rfl, b8, List.zip_map', List.filter_map, List.filter_map, List.map_map]
        rfl
    · rename_i hws
      have h8 : List.replicate m.x.length (1 : Rat) = (tallies b h).map (·.2.2) := by
        split at b8
        · rename_i w ws hws'; exact absurd hws' (hws w ws)
        · exact b8
      have hone : ∀ z ∈ tallies b h, z.2.2 = 1 := by
        intro z hz
        have : z.2.2 ∈ (tallies b h).map (·.2.2) := List.mem_map.2 ⟨z, hz, rfl⟩
        rw [← h8] at this
        exact List.eq_of_mem_replicate this
      have hrep : ∀ l : List (Rat × Val × Rat), (∀ z ∈ l, z.2.2 = 1) → l.map (·.2.2) = List.replicate l.length 1 := by
        intro l hl
        rw [List.eq_replicate_iff]
        refine ⟨by simp, ?_⟩
        intro c hc
        obtain ⟨z, hz, rfl⟩ := List.mem_map.1 hc
        exact hl z hz
      cases ex0 with
      | false => simp only [Bool.false_eq_true, if_false]; rw [h0 rfl, hrep _ hone]; simp
      | true =>
        simp only [if_true]
        rw [h1 rfl, List.filter_map, List.length_map, hrep _ (fun z hz => hone z (List.mem_of_mem_filter hz))]
        rfl
  refine ⟨hxt, ?_, ?_, ?_⟩
  · unfold Monitor.tx
    rw [hxt]
    rfl
  · unfold Monitor.xs
    rw [b1, b2, hx, hfresh]
    rfl
  · unfold Monitor.xw
    rw [b1, b2, hx, hfresh]
    rfl

/-- the documentation says of add_now: if now is <= last tallied value, nothing will be added. But there is always a row for now. -/
theorem C77_add_now_counterexample :
    ((create true (some (.num 1)) .any false true 0).1.run [(4, .tally (.num 3) 1)]).xt 4 false false true true = .ok ([.num 1, .num 3, .num 3], [0, 4, 4]) := by decide +kernel

example : ((create true (some (.num 1)) .any false true 0).1.run [(4, .tally (.num 0) 1), (5, .monitor false), (7, .monitor true)]).tx 9 false false false true =
    .ok ([0, 4, 5, 7, 9], [.num 1, .num 0, .ninf, .num 0, .num 0]) := by decide +kernel

example : ((create true (some (.num 1)) .any false true 0).1.run [(4, .tally (.num 0) 1), (5, .monitor false), (7, .monitor true)]).xduration 9 false false =
    .ok ([.num 1, .num 0, .num 0], [4, 1, 2]) := by decide +kernel

example : ((create false none .any false true 0).1.run [(1, .tally (.num 7) 2), (3, .tally (.num 0) 1), (5, .tally (.obj "a" none none) 1)]).xt 9 true false false true =
    .ok ([.num 7, .obj "a" none none], [1, 5]) := by decide +kernel

/-! ## values -/

/-- the order of values(): numbers (and what can be made a number) by size, other things after that in alphabetical order, regardless of case -/
def InOrder (a c : Val) : Prop :=
  match a.toFloat, c.toFloat with
  | some p, some q => p ≤ q
  | some _, none => True
  | none, some _ => False
  | none, none => a.text.toLower ≤ c.text.toLower

theorem key_trans {a b c : Key} (h1 : a.le b = true) (h2 : b.le c = true) : a.le c = true := by
  unfold Key.le at *
  simp only [Bool.or_eq_true, Bool.and_eq_true, decide_eq_true_eq] at *
  rcases h1 with h1 | ⟨h1, h1' | ⟨h1', h1''⟩⟩ <;> rcases h2 with h2 | ⟨h2, h2' | ⟨h2', h2''⟩⟩
  · exact Or.inl (lt_trans h1 h2)
  · exact Or.inl (h2 ▸ h1)
  · exact Or.inl (h2 ▸ h1)
  · exact Or.inl (h1 ▸ h2)
  · exact Or.inr ⟨h1.trans h2, Or.inl (lt_trans h1' h2')⟩
  · exact Or.inr ⟨h1.trans h2, Or.inl (h2' ▸ h1')⟩
  · exact Or.inl (h1 ▸ h2)
  · exact Or.inr ⟨h1.trans h2, Or.inl (h1' ▸ h2')⟩
  · exact Or.inr ⟨h1.trans h2, Or.inr ⟨h1'.trans h2', String.le_trans h1'' h2''⟩⟩

theorem key_total (a b : Key) : a.le b = true ∨ b.le a = true := by
  unfold Key.le
  simp only [Bool.or_eq_true, Bool.and_eq_true, decide_eq_true_eq]
  rcases lt_trichotomy a.weight b.weight with h | h | h
  · exact Or.inl (Or.inl h)
  · rcases lt_trichotomy a.float b.float with h' | h' | h'
    · exact Or.inl (Or.inr ⟨h, Or.inl h'⟩)
    · rcases String.le_total a.lower b.lower with h'' | h''
      · exact Or.inl (Or.inr ⟨h, Or.inr ⟨h', h''⟩⟩)
      · exact Or.inr (Or.inr ⟨h.symm, Or.inr ⟨h'.symm, h''⟩⟩)
    · exact Or.inr (Or.inr ⟨h.symm, Or.inl h'⟩)
  · exact Or.inr (Or.inl h)

/-- what the keys say -/
theorem key_le {f : Val → Rat} {a c : Val} (h : (keyOf f a).le (keyOf f c) = true) : f a < f c ∨ (f a = f c ∧ InOrder a c) := by
  have hw : ∀ v, (keyOf f v).weight = f v := by intro v; unfold keyOf; split <;> rfl
  unfold Key.le at h
  simp only [Bool.or_eq_true, Bool.and_eq_true, decide_eq_true_eq, hw] at h
  rcases h with h | ⟨h, h'⟩
  · exact Or.inl h
  · refine Or.inr ⟨h, ?_⟩
    unfold keyOf at h'
    unfold InOrder
    cases ha : a.toFloat with
    | some p =>
      cases hc : c.toFloat with
      | some q =>
        rw [ha, hc] at h'
        simp only [WithTop.coe_lt_coe, WithTop.coe_eq_coe] at h'
        rcases h' with h' | ⟨h', _⟩
        · exact le_of_lt h'
        · exact le_of_eq h'
      | none => trivial
    | none =>
      cases hc : c.toFloat with
      | some q =>
        rw [ha, hc] at h'
        rcases h' with h' | ⟨h', _⟩
        · exact absurd h' (not_lt_of_ge le_top)
        · exact absurd h' (by simp)
      | none =>
        rw [ha, hc] at h'
        rcases h' with h' | ⟨_, h'⟩
        · exact absurd h' (lt_irrefl _)
        · exact h'

theorem sorted_keys (f : Val → Rat) (l : List Val) :
    (l.insertionSort (fun a c => (keyOf f a).le (keyOf f c))).Pairwise (fun a c => f a < f c ∨ (f a = f c ∧ InOrder a c)) := by
  have : Std.Total (fun a c : Val => ((keyOf f a).le (keyOf f c)) = true) := ⟨fun a c => key_total _ _⟩
  have : IsTrans Val (fun a c : Val => ((keyOf f a).le (keyOf f c)) = true) := ⟨fun a b c h1 h2 => key_trans h1 h2⟩
  exact (List.pairwise_insertionSort (fun a c : Val => ((keyOf f a).le (keyOf f c)) = true) l).imp key_le

/-- C78: values() has each tallied value once (those of x(), for level monitors those of xduration(), with the same ex0 and force_numeric), in ascending order, things
that are not numbers after the numbers in alphabetical order. With sort_on_weight (sort_on_duration for level monitors), values with a higher weight (duration) come first, and
equal ones in the order just said. The other one of the two raises ValueError. -/
theorem C78_values {m : Monitor} (hm : m.statsOnly = false) (now : Rat) (ex0 fn : Bool) :
    (∀ sort : Bool, ∃ l, m.sortedValues now ex0 fn (sort && !m.level) (sort && m.level) = .ok l ∧ l.Nodup ∧
      (∀ X, (m.xs now ex0 fn = .ok X ∨ ∃ D, m.xduration now ex0 fn = .ok (X, D)) → ∀ v, v ∈ l ↔ v ∈ X) ∧
      (sort = false → l.Pairwise InOrder) ∧
      (sort = true → l.Pairwise (fun a c => m.valueWeight now [c] < m.valueWeight now [a] ∨ (m.valueWeight now [a] = m.valueWeight now [c] ∧ InOrder a c)))) ∧
    ∀ other, m.sortedValues now ex0 fn (m.level || other) (!m.level || other) = .error .value := by
  constructor
  · intro sort
    obtain ⟨hu, hmem⟩ := unique_spec (m.xweight now ex0 fn).1.1 [] List.nodup_nil
    have hok : m.sortedValues now ex0 fn (sort && !m.level) (sort && m.level) = .ok ((m.uniqueValues now ex0 fn).insertionSort
        (fun a c => (keyOf (fun v => if sort then - m.valueWeight now [v] else 1) a).le (keyOf (fun v => if sort then - m.valueWeight now [v] else 1) c))) := by
      unfold Monitor.sortedValues
      cases sort <;> cases m.level <;> simp [hm]
    refine ⟨_, hok, (List.perm_insertionSort _ _).nodup_iff.2 hu, ?_, ?_, ?_⟩
    · intro X hX v
      have hX' : X = (m.xweight now ex0 fn).1.1 := by
        unfold Monitor.xs Monitor.xduration at hX
        rw [hm] at hX
        cases hl : m.level with
        | true =>
          rw [hl] at hX
          rcases hX with hX | ⟨D, hX⟩
          · simp at hX
          · simp at hX; rw [hX]
        | false =>
          rw [hl] at hX
          rcases hX with hX | ⟨D, hX⟩
          · simp at hX; rw [hX]
          · simp at hX
      rw [(List.perm_insertionSort _ _).mem_iff, hX']
      unfold Monitor.uniqueValues
      rw [hmem]; simp
    · intro hs
      subst hs
      refine (sorted_keys _ _).imp ?_
      intro a c h
      rcases h with h | h
      · simp at h
      · exact h.2
    · intro hs
      subst hs
      refine (sorted_keys _ _).imp ?_
      intro a c h
      simpa using h
  · intro other
    unfold Monitor.sortedValues
    cases m.level <;> cases other <;> simp [hm]

example : ((create false none .any false true 0).1.run [(1, .tally (.obj "b" none none) 1), (2, .tally (.num 7) 2), (3, .tally (.num 3) 5), (5, .tally (.obj "A" none none) 1),
    (6, .tally (.num 7) 1)]).sortedValues 9 false false false false = .ok [.num 3, .num 7, .obj "A" none none, .obj "b" none none] := by decide +kernel

example : ((create true (some (.num 1)) .any false true 0).1.run [(4, .tally (.num 8) 1), (9, .tally (.num 3) 1)]).sortedValues 13 false false false true =
    .ok [.num 8, .num 1, .num 3] := by decide +kernel

/-- with force_numeric and sort_on_weight the weights are looked up among the values as they were tallied: "8" and "9" are given as 8 and 9, but the weight is that of
numbers 8 and 9, of which there are none, so they aren't sorted on weight -/
theorem C78_force_counterexample :
    let m := (create false none .any false true 0).1.run [(1, .tally (.obj "8" (some 8) (some 8)) 1), (2, .tally (.obj "9" (some 9) (some 9)) 5)]
    m.sortedValues 9 false true true false = .ok [.num 8, .num 9] ∧ m.xw 9 false true = .ok ([.num 8, .num 9], [1, 5]) := by decide +kernel

end Mon
end Verif
