import Verif.Props.MonStats
import Mathlib.Tactic.Linarith
import Mathlib.Data.List.Induction

/-! C22 and C26: merging and mapping monitors. -/

namespace Verif
namespace Mon

/-- a level monitor that stores all, with its moments and values -/
structure LevelOk (now : Rat) (ty : XType) (m : Monitor) (L : List (Rat × Val)) : Prop where
  level : m.level = true
  full : m.statsOnly = false
  type : m.xtype = ty
  ht : m.t = L.map (·.1)
  hx : m.x = L.map (·.2)
  asc : Asc L
  ne : L ≠ []
  past : ∀ p ∈ L, p.1 ≤ now
  acc : ∀ p ∈ L, ty.accepts p.2 = true

theorem stepAt_before {off : Val} {L : List (Rat × Val)} {τ : Rat} (h : ∀ p ∈ L, τ < p.1) : stepAt off L τ = off := by
  induction L with
  | nil => rfl
  | cons a L ih =>
    unfold stepAt
    rw [List.foldl_cons, if_neg (not_le.2 (h a (by simp)))]
    exact ih (fun p hp => h p (by simp [hp]))

/-- reading a level monitor at another moment than now -/
theorem get_step {now : Rat} {ty : XType} {m : Monitor} {L : List (Rat × Val)} (h1 : m.level = true) (h2 : m.statsOnly = false) (h3 : m.xtype = ty)
    (h4 : m.t = L.map (·.1)) (h5 : m.x = L.map (·.2)) (h6 : Asc L) (h7 : L ≠ []) (offset τ : Rat) (ht : τ + offset ≠ now) :
    m.get now offset (some τ) = .ok (stepAt ty.off L (τ + offset)) := by
  have hoff : m.off = ty.off := by rw [Monitor.off, h3]
  unfold Monitor.get
  simp only [h1, Bool.not_true, Bool.false_eq_true, if_false, h2, ht, hoff]
  rw [h4, h5]
  cases hL : L with
  | nil => exact absurd hL h7
  | cons a r =>
    simp only [List.map_cons]
    have hA := h6
    rw [hL] at hA
    split
    · rename_i hlt
      rw [stepAt_before]
      intro p hp
      rcases List.mem_cons.1 hp with rfl | hp
      · exact hlt
      · exact lt_trans hlt ((List.pairwise_cons.1 hA).1 p hp)
    · rename_i hge
      have := bisect_stepAt ty.off (τ := τ + offset) (a :: r) hA ⟨a, by simp, not_lt.1 hge⟩
      simp only [List.map_cons] at this
      rw [this]

/-- reading a level monitor in the past -/
theorem LevelOk.get {now : Rat} {ty : XType} {m : Monitor} {L : List (Rat × Val)} (h : LevelOk now ty m L) (offset τ : Rat) (ht : τ + offset < now) :
    m.get now offset (some τ) = .ok (stepAt ty.off L (τ + offset)) :=
  get_step h.level h.full h.type h.ht h.hx h.asc h.ne offset τ (ne_of_lt ht)

theorem Rep.levelOk {ty : XType} {m : Monitor} {s : Sig} {L : List (Rat × Val)} {now : Rat} (h : Rep ty m s L now) (hacc : ∀ p ∈ L, ty.accepts p.2 = true) :
    LevelOk now ty m L := by
  obtain ⟨pre, t, hL, ht⟩ := h.shape
  refine ⟨h.level, h.full, h.type, h.ht, h.hx, h.asc, by rw [hL]; simp, ?_, hacc⟩
  intro p hp
  have hA := h.asc
  unfold Asc at hA
  rw [hL] at hp hA
  rcases List.mem_append.1 hp with hp | hp
  · exact le_trans (le_of_lt ((List.pairwise_append.1 hA).2.2 p hp (t, s.val ty.off) (by simp))) ht
  · simp at hp; subst hp; exact ht

theorem acc_putL {ty : XType} {L : List (Rat × Val)} {now : Rat} {v : Val} (h : ∀ p ∈ L, ty.accepts p.2 = true) (hv : ty.accepts v = true) :
    ∀ p ∈ putL L now v, ty.accepts p.2 = true := by
  intro p hp
  unfold putL at hp
  split at hp
  · rcases List.mem_append.1 hp with hp | hp
    · exact h p ((List.dropLast_sublist _).subset hp)
    · simp at hp; subst hp; exact hv
  · rcases List.mem_append.1 hp with hp | hp
    · exact h p hp
    · simp at hp; subst hp; exact hv

theorem rep_acc {ty : XType} {h : List (Rat × Op)} : ∀ {m : Monitor} {s : Sig} {L : List (Rat × Val)} {t0 now : Rat}, Rep ty m s L t0 → (∀ p ∈ L, ty.accepts p.2 = true) →
    Chrono t0 h now → (∀ e ∈ h, Fine ty e.2) → ∃ L' s' t', t' ≤ now ∧ Rep ty (m.run h) s' L' t' ∧ ∀ p ∈ L', ty.accepts p.2 = true := by
  induction h with
  | nil =>
    intro m s L t0 now hR ha hc _
    rw [chrono_nil] at hc
    exact ⟨L, s, t0, hc, hR, ha⟩
  | cons e h ih =>
    intro m s L t0 now hR ha hc hf
    have h1 : t0 ≤ e.1 := by
      unfold Chrono at hc
      exact (List.pairwise_cons.1 hc).1 e.1 (by simp)
    have h2 : Chrono e.1 h now := by
      unfold Chrono at hc ⊢
      have := (List.pairwise_cons.1 hc).2
      simpa using this
    obtain ⟨L', hR', hcase⟩ := hR.apply h1 (hf e (by simp))
    have hval : ty.accepts ((s.step e).val ty.off) = true := by
      unfold Sig.val
      split
      · exact hR'.acc
      · exact accepts_off ty
    refine ih hR' ?_ h2 (fun a ha => hf a (by simp [ha]))
    rcases hcase with ⟨rfl, _⟩ | ⟨rfl, _⟩ | ⟨rfl, _⟩
    · exact ha
    · exact acc_putL ha hval
    · intro p hp; simp at hp; subst hp; exact hval

/-- every history of a level monitor gives such a monitor -/
theorem levelOk_run {ty : XType} {v : Option Val} {b : Bool} {t0 : Rat} (ha : ty.accepts (v.getD (.num 0)) = true) (hno : v.getD (.num 0) ≠ ty.off)
    {h : List (Rat × Op)} {now : Rat} (hc : Chrono t0 h now) (hf : ∀ e ∈ h, Fine ty e.2) :
    ∃ L, LevelOk now ty ((create true v ty false b t0).1.run h) L := by
  have h0 := create_rep (b := b) (t0 := t0) ha hno
  obtain ⟨L, s, t', ht, hR, hacc⟩ := rep_acc h0 (by
    intro p hp
    simp at hp; subst hp
    unfold Sig.val
    split
    · exact ha
    · exact accepts_off ty) hc hf
  have := hR.levelOk hacc
  exact ⟨L, { this with past := fun p hp => le_trans (this.past p hp) ht }⟩

/-! ### merging sorted lists -/

theorem merge_nil_left {α : Type} (l : List α) (le : α → α → Bool) : List.merge [] l le = l := by simp
theorem merge_nil_right {α : Type} (l : List α) (le : α → α → Bool) : List.merge l [] le = l := by simp

theorem mergeAll_cons {α : Type} (l : List (Rat × Nat × α)) (r : List (List (Rat × Nat × α))) : mergeAll (l :: r) = l.merge (mergeAll r) leKey := by
  rw [mergeAll, mergeTwo_eq]

/-- merging keeps the order of the items of the first list ... -/
theorem filter_merge_left {α : Type} (le : α → α → Bool) (p : α → Bool) : ∀ (l r : List α), (∀ a ∈ l, p a = true) → (∀ b ∈ r, p b = false) →
    (l.merge r le).filter p = l
  | [], r, _, hr => by rw [merge_nil_left, List.filter_eq_nil_iff.2 (fun a ha => by simp [hr a ha])]
  | a :: l, [], hl, _ => by rw [merge_nil_right, List.filter_eq_self.2 hl]
  | a :: l, b :: r, hl, hr => by
    rw [List.cons_merge_cons]
    split
    · rw [List.filter_cons, if_pos (hl a (by simp)), filter_merge_left le p l (b :: r) (fun x hx => hl x (by simp [hx])) hr]
    · rw [List.filter_cons, if_neg (by simp [hr b (by simp)]), filter_merge_left le p (a :: l) r hl (fun x hx => hr x (by simp [hx]))]
  termination_by l r => l.length + r.length

/-- ... and of the second -/
theorem filter_merge_right {α : Type} (le : α → α → Bool) (p : α → Bool) : ∀ (l r : List α), (∀ a ∈ l, p a = false) →
    (l.merge r le).filter p = r.filter p
  | [], r, _ => by rw [merge_nil_left]
  | a :: l, [], hl => by rw [merge_nil_right, List.filter_eq_nil_iff.2 (fun x hx => by simp [hl x hx])]; rfl
  | a :: l, b :: r, hl => by
    rw [List.cons_merge_cons]
    split
    · rw [List.filter_cons, if_neg (by simp [hl a (by simp)]), filter_merge_right le p l (b :: r) (fun x hx => hl x (by simp [hx]))]
    · rw [List.filter_cons, filter_merge_right le p (a :: l) r hl, List.filter_cons]
  termination_by l r => l.length + r.length

theorem leKey_trans {α : Type} (a b c : Rat × Nat × α) (h1 : leKey a b = true) (h2 : leKey b c = true) : leKey a c = true := by
  simp only [leKey, Bool.or_eq_true, Bool.and_eq_true, decide_eq_true_eq] at *
  rcases h1 with h1 | ⟨h1, h1'⟩ <;> rcases h2 with h2 | ⟨h2, h2'⟩
  · exact Or.inl (lt_trans h1 h2)
  · exact Or.inl (h2 ▸ h1)
  · exact Or.inl (h1 ▸ h2)
  · exact Or.inr ⟨h1.trans h2, le_trans h1' h2'⟩

theorem leKey_total {α : Type} (a b : Rat × Nat × α) : (leKey a b || leKey b a) = true := by
  simp only [leKey, Bool.or_eq_true, Bool.and_eq_true, decide_eq_true_eq]
  rcases lt_trichotomy a.1 b.1 with h | h | h
  · exact Or.inl (Or.inl h)
  · rcases Nat.le_total a.2.1 b.2.1 with h' | h'
    · exact Or.inl (Or.inr ⟨h, h'⟩)
    · exact Or.inr (Or.inr ⟨h.symm, h'⟩)
  · exact Or.inr (Or.inl h)

theorem mem_tagged {α : Type} {ls : List (List (Rat × α))} : ∀ {i : Nat} {l : List (Rat × Nat × α)}, l ∈ tagged i ls → ∀ e ∈ l, i ≤ e.2.1 := by
  induction ls with
  | nil => intro i l h; simp [tagged] at h
  | cons a r ih =>
    intro i l h e he
    rcases List.mem_cons.1 h with rfl | h
    · obtain ⟨p, _, rfl⟩ := List.mem_map.1 he; exact le_rfl
    · exact Nat.le_of_succ_le (ih h e he)

theorem mem_mergeAll {α : Type} {ls : List (List (Rat × Nat × α))} {e : Rat × Nat × α} : e ∈ mergeAll ls ↔ ∃ l ∈ ls, e ∈ l := by
  induction ls with
  | nil => simp [mergeAll]
  | cons a r ih => simp only [mergeAll_cons, List.mem_merge, ih, List.mem_cons, exists_eq_or_imp]

/-- the merged list is sorted on the moment (and then on the index of the monitor) -/
theorem mergeAll_sorted {α : Type} {ls : List (List (Rat × Nat × α))} (h : ∀ l ∈ ls, l.Pairwise (fun a b => leKey a b = true)) :
    (mergeAll ls).Pairwise (fun a b => leKey a b = true) := by
  induction ls with
  | nil => simp [mergeAll]
  | cons a r ih =>
    rw [mergeAll_cons]
    exact List.pairwise_merge (le := leKey) leKey_trans leKey_total _ _ (h a (by simp)) (ih (fun l hl => h l (by simp [hl])))

theorem tagged_sorted {α : Type} {ls : List (List (Rat × α))} (h : ∀ l ∈ ls, l.Pairwise (fun a b => a.1 ≤ b.1)) :
    ∀ i, ∀ l ∈ tagged i ls, l.Pairwise (fun a b => leKey a b = true) := by
  induction ls with
  | nil => intro i l h; simp [tagged] at h
  | cons a r ih =>
    intro i l hl
    rcases List.mem_cons.1 hl with rfl | hl
    · rw [List.pairwise_map]
      refine (h a (by simp)).imp ?_
      intro x y hxy
      simp only [leKey, Bool.or_eq_true, Bool.and_eq_true, decide_eq_true_eq]
      rcases eq_or_lt_of_le hxy with h | h
      · exact Or.inr ⟨h, le_rfl⟩
      · exact Or.inl h
    · exact ih (fun l hl => h l (by simp [hl])) (i + 1) l hl

/-- the items of a monitor in the merged list, in their order -/
theorem filter_mergeAll {α : Type} {ls : List (List (Rat × α))} : ∀ {i k : Nat} (hk : k < ls.length),
    (mergeAll (tagged i ls)).filter (fun e => e.2.1 == i + k) = ls[k].map (fun p => (p.1, i + k, p.2)) := by
  induction ls with
  | nil => intro i k hk; simp at hk
  | cons a r ih =>
    intro i k hk
    simp only [tagged, mergeAll_cons]
    cases k with
    | zero =>
      rw [filter_merge_left]
      · simp
      · intro x hx
        obtain ⟨p, _, rfl⟩ := List.mem_map.1 hx
        simp
      · intro x hx
        obtain ⟨l, hl, hxl⟩ := mem_mergeAll.1 hx
        have := mem_tagged hl x hxl
        simp only [beq_eq_false_iff_ne]
        omega
    | succ k =>
      rw [filter_merge_right]
      · have := ih (i := i + 1) (k := k) (by simpa using hk)
        rw [show i + 1 + k = i + (k + 1) by omega] at this
        rw [this]; simp
      · intro x hx
        obtain ⟨p, _, rfl⟩ := List.mem_map.1 hx
        simp only [beq_eq_false_iff_ne]
        omega

/-! ### the loop for level monitors -/

/-- the current values after some items -/
def curOf (n : Nat) (off : Val) (P : List (Rat × Nat × Val)) : List Val := P.foldl (fun c e => c.set e.2.1 e.2.2) (List.replicate n off)

theorem curOf_length (n : Nat) (off : Val) (P : List (Rat × Nat × Val)) : (curOf n off P).length = n := by
  unfold curOf
  induction P using List.reverseRecOn with
  | nil => simp
  | append_singleton P e ih => rw [List.foldl_append]; simp [ih]

theorem curOf_getElem {n : Nat} {off : Val} (P : List (Rat × Nat × Val)) {i : Nat} (hi : i < n) :
    (curOf n off P)[i]'(by rw [curOf_length]; exact hi) = (P.filter (fun e => e.2.1 == i)).foldl (fun _ e => e.2.2) off := by
  induction P using List.reverseRecOn with
  | nil => simp [curOf]
  | append_singleton P e ih =>
    have : curOf n off (P ++ [e]) = (curOf n off P).set e.2.1 e.2.2 := by unfold curOf; rw [List.foldl_append]; rfl
    simp only [this, List.getElem_set]
    rw [List.filter_append, List.foldl_append]
    by_cases h : e.2.1 = i
    · simp [h]
    · simp only [if_neg h, ih]
      have : ([e].filter (fun e => e.2.1 == i)) = [] := by simp [h]
      rw [this]; rfl

/-- what the loop has made after some items: at each moment, `f` of the current values at that moment -/
theorem levelRound_spec (f : List Val → Val) (off : Val) (n : Nat) (P : List (Rat × Nat × Val)) (hP : P.Pairwise (fun a b => a.1 ≤ b.1)) :
    let r := P.foldl (levelRound f) (List.replicate n off, [], [])
    r.1 = curOf n off P ∧ ∃ R : List (Rat × Val), r.2.1 = R.map (·.2) ∧ r.2.2 = R.map (·.1) ∧ Asc R ∧ R.getLast?.map (·.1) = P.getLast?.map (·.1) ∧
      (∀ q ∈ R, ∃ e ∈ P, q.1 = e.1) ∧ (∀ q ∈ R, ∃ c, c.length = n ∧ q.2 = f c) ∧
      ∀ τ, stepAt off R τ = if P.filter (fun e => decide (e.1 ≤ τ)) = [] then off else f (curOf n off (P.filter (fun e => decide (e.1 ≤ τ)))) := by
  induction P using List.reverseRecOn with
  | nil => exact ⟨rfl, [], rfl, rfl, List.Pairwise.nil, rfl, by simp, by simp, fun τ => rfl⟩
  | append_singleton P e ih =>
    have hP' := List.pairwise_append.1 hP
    obtain ⟨h1, R, h2, h3, h4, h5, h6, h7, h8⟩ := ih hP'.1
    have hle : ∀ a ∈ P, a.1 ≤ e.1 := fun a ha => hP'.2.2 a ha e (by simp)
    have hcur : curOf n off (P ++ [e]) = (curOf n off P).set e.2.1 e.2.2 := by unfold curOf; rw [List.foldl_append]; rfl
    have hRle : ∀ q ∈ R, q.1 ≤ e.1 := by
      intro q hq
      obtain ⟨a, ha, h⟩ := h6 q hq
      rw [h]; exact hle a ha
    have hlen : ((curOf n off P).set e.2.1 e.2.2).length = n := by rw [List.length_set, curOf_length]
    simp only [List.foldl_append, List.foldl_cons, List.foldl_nil]
    generalize hr : P.foldl (levelRound f) (List.replicate n off, [], []) = r at h1 h2 h3
    obtain ⟨c, xs, ts⟩ := r
    simp only at h1 h2 h3
    subst h1 h2 h3
    -- the filter
    have hfil : ∀ τ, (P ++ [e]).filter (fun e => decide (e.1 ≤ τ)) = if e.1 ≤ τ then P ++ [e] else P.filter (fun e => decide (e.1 ≤ τ)) := by
      intro τ
      rw [List.filter_append]
      by_cases h : e.1 ≤ τ
      · rw [if_pos h, List.filter_eq_self.2 (fun a ha => by simpa using le_trans (hle a ha) h)]; simp [h]
      · simp [h]
    unfold levelRound
    simp only [List.getLast?_map]
    rw [h5]
    have hlast : (P ++ [e]).getLast?.map (·.1) = some e.1 := by simp
    by_cases hl : P.getLast?.map (·.1) = some e.1
    · rw [if_pos hl]
      refine ⟨hcur.symm, ?_⟩
      obtain ⟨R0, q, rfl⟩ : ∃ R0 q, R = R0 ++ [q] := by
        rcases List.eq_nil_or_concat R with h | ⟨R0, q, h⟩
        · rw [h] at h5; rw [hl] at h5; simp at h5
        · exact ⟨R0, q, by simpa using h⟩
      have hq : q.1 = e.1 := by
        rw [hl] at h5; simpa using h5
      have hA := List.pairwise_append.1 h4
      refine ⟨R0 ++ [(e.1, f ((curOf n off P).set e.2.1 e.2.2))], by simp, by simp [hq], ?_, by simp, ?_, ?_, ?_⟩
      · unfold Asc
        rw [List.pairwise_append]
        exact ⟨hA.1, by simp, by intro a ha b hb; simp at hb; subst hb; rw [← hq]; exact hA.2.2 a ha q (by simp)⟩
      · intro a ha
        rcases List.mem_append.1 ha with ha | ha
        · obtain ⟨x, hx, h⟩ := h6 a (by simp [ha]); exact ⟨x, by simp [hx], h⟩
        · simp at ha; subst ha; exact ⟨e, by simp, rfl⟩
      · intro a ha
        rcases List.mem_append.1 ha with ha | ha
        · exact h7 a (by simp [ha])
        · simp at ha; subst ha; exact ⟨_, hlen, rfl⟩
      · intro τ
        rw [stepAt_snoc, hfil]
        have h8' := h8 τ
        rw [stepAt_snoc, hq] at h8'
        by_cases h : e.1 ≤ τ
        · rw [if_pos h, if_pos h, if_neg (by simp), hcur]
        · rw [if_neg h, if_neg h]
          rw [if_neg h] at h8'
          exact h8'
    · rw [if_neg hl]
      refine ⟨hcur.symm, R ++ [(e.1, f ((curOf n off P).set e.2.1 e.2.2))], by simp, by simp, ?_, by simp, ?_, ?_, ?_⟩
      · unfold Asc
        rw [List.pairwise_append]
        refine ⟨h4, by simp, ?_⟩
        intro a ha b hb
        simp at hb; subst hb
        refine lt_of_le_of_ne (hRle a ha) ?_
        intro hae
        rcases List.eq_nil_or_concat R with h | ⟨R0, q, h⟩
        · rw [h] at ha; simp at ha
        · have h : R = R0 ++ [q] := by simpa using h
          rw [h] at h4 ha h5
          have hq : q.1 ≠ e.1 := by
            intro hq; apply hl; rw [← h5]; simp [hq]
          have hqle : q.1 ≤ e.1 := hRle q (by rw [h]; simp)
          rcases List.mem_append.1 ha with ha | ha
          · have := (List.pairwise_append.1 h4).2.2 a ha q (by simp)
            rw [hae] at this
            exact absurd this (not_lt.2 hqle)
          · simp at ha; subst ha; exact hq hae
      · intro a ha
        rcases List.mem_append.1 ha with ha | ha
        · obtain ⟨x, hx, h⟩ := h6 a ha; exact ⟨x, by simp [hx], h⟩
        · simp at ha; subst ha; exact ⟨e, by simp, rfl⟩
      · intro a ha
        rcases List.mem_append.1 ha with ha | ha
        · exact h7 a ha
        · simp at ha; subst ha; exact ⟨_, hlen, rfl⟩
      · intro τ
        rw [stepAt_snoc, hfil]
        by_cases h : e.1 ≤ τ
        · rw [if_pos h, if_pos h, if_neg (by simp), hcur]
        · rw [if_neg h, if_neg h, h8 τ]

theorem stepAt_filter (off : Val) (L : List (Rat × Val)) (τ : Rat) : stepAt off L τ = (L.filter (fun p => decide (p.1 ≤ τ))).foldl (fun _ p => p.2) off := by
  unfold stepAt
  rw [List.foldl_filter]
  congr 1
  funext acc p
  by_cases h : p.1 ≤ τ <;> simp [h]

/-- the loop gives at each moment `f` of the values of the monitors at that moment -/
theorem levelLoop_spec (f : List Val → Val) (off : Val) (hoff : ∀ n, 0 < n → f (List.replicate n off) = off) (ms : List (List (Rat × Val))) (hA : ∀ L ∈ ms, Asc L) (hne : ∃ L ∈ ms, L ≠ []) :
    ∃ R : List (Rat × Val), (levelLoop f off ms).1 = R.map (·.2) ∧ (levelLoop f off ms).2 = R.map (·.1) ∧ Asc R ∧ R ≠ [] ∧
      (∀ q ∈ R, ∃ L ∈ ms, ∃ e ∈ L, q.1 = e.1) ∧ ∀ τ, stepAt off R τ = f (ms.map (fun L => stepAt off L τ)) := by
  let E := mergeAll (tagged 0 ms)
  have hle : ∀ L ∈ ms, L.Pairwise (fun a b => a.1 ≤ b.1) := fun L hL => (hA L hL).imp le_of_lt
  have hE : E.Pairwise (fun a b => a.1 ≤ b.1) := by
    refine (mergeAll_sorted (tagged_sorted hle 0)).imp ?_
    intro a b h
    simp only [leKey, Bool.or_eq_true, Bool.and_eq_true, decide_eq_true_eq] at h
    rcases h with h | h
    · exact h.le
    · exact h.1.le
  obtain ⟨_, R, h2, h3, h4, h5, h6, h7, h8⟩ := levelRound_spec f off ms.length E hE
  have hmem : ∀ e ∈ E, ∃ L ∈ ms, ∃ p ∈ L, e.1 = p.1 := by
    intro e he
    obtain ⟨l, hl, hel⟩ := mem_mergeAll.1 he
    have : ∀ (ms : List (List (Rat × Val))) i, l ∈ tagged i ms → ∃ L ∈ ms, ∃ p ∈ L, e.1 = p.1 := by
      intro ms
      induction ms with
      | nil => intro i h; simp [tagged] at h
      | cons a r ih =>
        intro i h
        rcases List.mem_cons.1 h with rfl | h
        · obtain ⟨p, hp, rfl⟩ := List.mem_map.1 hel; exact ⟨a, by simp, p, hp, rfl⟩
        · obtain ⟨L, hL, h⟩ := ih (i + 1) h; exact ⟨L, by simp [hL], h⟩
    exact this ms 0 hl
  have hn : 0 < ms.length := by
    obtain ⟨L, hL, _⟩ := hne
    exact List.length_pos_of_mem hL
  have hcur : ∀ τ, curOf ms.length off (E.filter (fun e => decide (e.1 ≤ τ))) = ms.map (fun L => stepAt off L τ) := by
    intro τ
    apply List.ext_getElem
    · rw [curOf_length, List.length_map]
    · intro i h1 h2
      have hi : i < ms.length := by simpa using h2
      rw [curOf_getElem _ hi, List.getElem_map, stepAt_filter, List.filter_filter]
      have e1 : E.filter (fun a => a.2.1 == i && decide (a.1 ≤ τ)) = (E.filter (fun e => e.2.1 == i)).filter (fun e => decide (e.1 ≤ τ)) := by
        rw [List.filter_filter]
        congr 1
        funext a
        rw [Bool.and_comm]
      have e2 := filter_mergeAll (ls := ms) (i := 0) hi
      simp only [Nat.zero_add] at e2
      rw [e1, e2, List.filter_map, List.foldl_map]
      rfl
  refine ⟨R, h2, h3, h4, ?_, ?_, ?_⟩
  · intro hR
    rw [hR] at h5
    have : E = [] := by
      cases hEE : E with
      | nil => rfl
      | cons a r => rw [hEE] at h5; simp at h5
    obtain ⟨L, hL, hLn⟩ := hne
    obtain ⟨i, hi, rfl⟩ := List.mem_iff_getElem.1 hL
    have e2 := filter_mergeAll (ls := ms) (i := 0) hi
    rw [show mergeAll (tagged 0 ms) = [] from this] at e2
    simp at e2
    exact hLn e2
  · intro q hq
    obtain ⟨e, he, h⟩ := h6 q hq
    obtain ⟨L, hL, p, hp, h'⟩ := hmem e he
    exact ⟨L, hL, p, hp, h.trans h'⟩
  · intro τ
    rw [h8, hcur]
    split
    · rename_i hnil
      have : ms.map (fun L => stepAt off L τ) = List.replicate ms.length off := by
        rw [← hcur τ, hnil]; rfl
      rw [this, hoff _ hn]
    · rfl

/-! ### the end of making a monitor -/

theorem system_ok (ty : XType) (now : Rat) : (system true ty now).level = true ∧ (system true ty now).statsOnly = false ∧ (system true ty now).generated = false ∧
    (system true ty now).xtype = ty := by
  have h := create_rep (ty := ty) (v := none) (b := true) (t0 := now) (by cases ty <;> decide) (by cases ty <;> decide)
  exact ⟨h.level, h.full, h.gen, h.type⟩

/-- the last step: the monitor is switched off now, and stays the same before now -/
theorem finish_level {now : Rat} {ty : XType} {m : Monitor} {L : List (Rat × Val)} (h : LevelOk now ty m L) (hg : m.generated = false) :
    ∃ L', LevelOk now ty (finish m now) L' ∧ (finish m now).tally = m.tally ∧ ∀ τ, stepAt ty.off L' τ = if now ≤ τ then ty.off else stepAt ty.off L τ := by
  obtain ⟨pre, a, hL⟩ : ∃ pre a, L = pre ++ [a] := by
    rcases List.eq_nil_or_concat L with h' | ⟨R0, q, h'⟩
    · exact absurd h' h.ne
    · exact ⟨R0, q, by simpa using h'⟩
  obtain ⟨t, w⟩ := a
  have hoff : m.off = ty.off := by rw [Monitor.off, h.type]
  have hput := put_eq (m := { m with on := false }) (now := now) (v := ty.off) (pre := pre) (t := t) (w := w) (by rw [← hL]; exact h.ht) (by rw [← hL]; exact h.hx)
    (by show m.xtype.accepts _ = true; rw [h.type]; exact accepts_off ty)
  have e : finish m now = { m with on := false, x := (putL L now ty.off).map (·.2), t := (putL L now ty.off).map (·.1), generated := true } := by
    unfold finish
    rw [setMonitor_false h.full hg h.level, hoff, hput, ← hL]
  have ht : t ≤ now := h.past (t, w) (by rw [hL]; simp)
  refine ⟨putL L now ty.off, ?_, by rw [e], ?_⟩
  · rw [e]
    refine ⟨h.level, h.full, h.type, rfl, rfl, ?_, ?_, ?_, acc_putL h.acc (accepts_off ty)⟩
    · rw [hL]; exact asc_putL (by rw [← hL]; exact h.asc) ht
    · unfold putL; split <;> simp
    · intro p hp
      unfold putL at hp
      split at hp
      · rcases List.mem_append.1 hp with hp | hp
        · exact h.past p ((List.dropLast_sublist _).subset hp)
        · simp at hp; subst hp; exact le_rfl
      · rcases List.mem_append.1 hp with hp | hp
        · exact h.past p hp
        · simp at hp; subst hp; exact le_rfl
  · intro τ
    rw [hL, stepAt_putL ty.off pre t now τ w ty.off ht]

/-! ### C22 for level monitors -/

/-- the number of a value in a sum: text that is not a number counts as 0 -/
def numberOf : Val → Rat
  | .num q => q
  | .obj _ _ (some f) => f
  | _ => 0

/-- off if one of the values is off, otherwise the sum -/
def plus (off : Val) (vs : List Val) : Val := if off ∈ vs then off else .num (vs.map numberOf).sum

theorem stepAt_map (g : Val → Val) (off : Val) (hg : g off = off) (L : List (Rat × Val)) (τ : Rat) :
    stepAt off (L.map (fun p => (p.1, g p.2))) τ = g (stepAt off L τ) := by
  induction L using List.reverseRecOn with
  | nil => simp [stepAt, hg]
  | append_singleton L a ih =>
    obtain ⟨t, v⟩ := a
    rw [List.map_append, List.map_singleton, stepAt_snoc, stepAt_snoc, ih]
    split <;> rfl

theorem asc_mapVal (g : Val → Val) {L : List (Rat × Val)} (h : Asc L) : Asc (L.map (fun p => (p.1, g p.2))) := by
  unfold Asc at *
  rw [List.pairwise_map]
  exact h

theorem stepAt_mem (off : Val) (L : List (Rat × Val)) (τ : Rat) : stepAt off L τ = off ∨ ∃ p ∈ L, stepAt off L τ = p.2 := by
  induction L using List.reverseRecOn with
  | nil => exact Or.inl rfl
  | append_singleton L a ih =>
    obtain ⟨t, v⟩ := a
    rw [stepAt_snoc]
    split
    · exact Or.inr ⟨(t, v), by simp, rfl⟩
    · rcases ih with h | ⟨p, hp, h⟩
      · exact Or.inl h
      · exact Or.inr ⟨p, by simp [hp], h⟩

theorem sumOrOff_coded {ty : XType} (hc : ty.coded = true) {vs : List Val} (hv : ∀ v ∈ vs, v = ty.off ∨ ty.accepts v = true) : sumOrOff ty.off vs = plus ty.off vs := by
  unfold sumOrOff plus
  have e : (vs.any (fun v => v == ty.off)) = decide (ty.off ∈ vs) := by
    rw [Bool.eq_iff_iff]; simp [List.any_eq_true]
  rw [e]
  by_cases h : ty.off ∈ vs
  · simp [h]
  · simp only [h, decide_false, Bool.false_eq_true, if_false]
    congr 2
    apply List.map_congr_left
    intro v hvm
    rcases hv v hvm with rfl | hacc
    · exact absurd hvm h
    · cases v with
      | num q => rfl
      | ninf => rfl
      | obj s i f => cases ty <;> simp [XType.accepts, XType.coded] at hacc hc

theorem sumOrOff_any (vs : List Val) : sumOrOff .ninf (vs.map Val.float) = plus .ninf vs := by
  unfold sumOrOff plus
  have e : ((vs.map Val.float).any (fun v => v == .ninf)) = decide (Val.ninf ∈ vs) := by
    rw [Bool.eq_iff_iff]
    simp only [List.any_eq_true, List.mem_map, decide_eq_true_eq, beq_iff_eq]
    constructor
    · rintro ⟨x, ⟨a, ha, rfl⟩, h⟩
      cases a with
      | ninf => exact ha
      | num q => simp [Val.float] at h
      | obj s i f => simp [Val.float] at h
    · intro h; exact ⟨_, ⟨_, h, rfl⟩, rfl⟩
  rw [e]
  by_cases h : Val.ninf ∈ vs
  · simp [h]
  · simp only [h, decide_false, Bool.false_eq_true, if_false]
    congr 2
    rw [List.map_map]
    apply List.map_congr_left
    intro v hvm
    cases v with
    | num q => rfl
    | ninf => rfl
    | obj s i f => cases f <;> rfl

theorem zip_fst_snd (L : List (Rat × Val)) (g : Val → Val) : (L.map (·.1)).zip ((L.map (·.2)).map g) = L.map (fun p => (p.1, g p.2)) := by
  induction L with
  | nil => rfl
  | cons a L ih => simp only [List.map_cons, List.zip_cons_cons, ih]

/-- a list for each monitor -/
theorem lists_of {now : Rat} {l : List Monitor} (h : ∀ k ∈ l, ∃ L, LevelOk now k.xtype k L) :
    ∃ Ls : List (List (Rat × Val)), l.length = Ls.length ∧ ∀ i (h1 : i < l.length) (h2 : i < Ls.length), LevelOk now (l[i]).xtype l[i] Ls[i] := by
  induction l with
  | nil => exact ⟨[], rfl, fun i h1 => by simp at h1⟩
  | cons a l ih =>
    obtain ⟨L, hL⟩ := h a (by simp)
    obtain ⟨Ls, hl, hi⟩ := ih (fun k hk => h k (by simp [hk]))
    refine ⟨L :: Ls, by simp [hl], ?_⟩
    intro i h1 h2
    cases i with
    | zero => exact hL
    | succ i => exact hi i (by simpa using h1) (by simpa using h2)

/-- C22 for level monitors: at each moment in the past the merged monitor has the sum of the values of the monitors, and is off if one of them is off.
The monitors may be of any type and made in any way (also merged or sliced ones), as long as they have the same value for off as the result (always so for
monitors of the same type and for any mix of any, float and double; see the counterexample for other mixes). -/
theorem C22_level {now : Rat} {m : Monitor} {ms : List Monitor} (hok : ∀ k ∈ m :: ms, ∃ L, LevelOk now k.xtype k L)
    (hoff : ∀ k ∈ m :: ms, k.off = (mergedType m.xtype ms).off) {new : Monitor} (h : merge now m ms = .ok new) :
    (∃ L, LevelOk now new.xtype new L) ∧ new.off = (mergedType m.xtype ms).off ∧
    ∀ offset τ, τ + offset < now → ∃ vs, (m :: ms).map (fun k => k.get now offset (some τ)) = vs.map .ok ∧ new.get now offset (some τ) = .ok (plus new.off vs) := by
  obtain ⟨ty, hty⟩ : ∃ ty, ty = mergedType m.xtype ms := ⟨_, rfl⟩
  rw [← hty] at hoff ⊢
  obtain ⟨Ls, hlen, hLs⟩ := lists_of hok
  have hlev : m.level = true := by obtain ⟨L, hL⟩ := hok m (by simp); exact hL.level
  unfold merge at h
  split at h
  · cases h
  split at h
  · cases h
  simp only [hlev, ← hty] at h
  split at h
  · cases h
  rename_i hnot hacc
  let g : Val → Val := if ty.coded then id else Val.float
  have hg : g ty.off = ty.off := by
    simp only [g]
    cases ty <;> simp [XType.coded, XType.off, Val.float]
  have hpts : (m :: ms).map (fun k => k.points ty.coded) = Ls.map (fun L => L.map (fun p => (p.1, g p.2))) := by
    apply List.ext_getElem
    · simp only [List.length_map]; exact hlen
    · intro i h1 h2
      simp only [List.getElem_map]
      have hk := hLs i (by simpa using h1) (by simpa using h2)
      unfold Monitor.points
      rw [hk.ht, hk.hx, ← zip_fst_snd]
      congr 1
      simp only [g]
      split <;> simp
  rw [hpts] at h hacc
  have hall : ∀ L ∈ Ls, Asc L ∧ L ≠ [] ∧ ∀ p ∈ L, p.1 ≤ now := by
    intro L hL
    obtain ⟨i, hi, rfl⟩ := List.mem_iff_getElem.1 hL
    have hk := hLs i (by omega) hi
    exact ⟨hk.asc, hk.ne, hk.past⟩
  have hLne : Ls ≠ [] := by
    intro h0; rw [h0] at hlen; simp at hlen
  obtain ⟨L0, hL0⟩ := List.exists_mem_of_ne_nil _ hLne
  obtain ⟨R, r1, r2, r3, r4, r5, r6⟩ := levelLoop_spec (sumOrOff ty.off) ty.off
    (by intro n hn
        unfold sumOrOff
        rw [if_pos]
        simp [List.any_eq_true, hn.ne'])
    (Ls.map (fun L => L.map (fun p => (p.1, g p.2))))
    (by intro L hL
        obtain ⟨L', hL', rfl⟩ := List.mem_map.1 hL
        exact asc_mapVal g (hall L' hL').1)
    ⟨_, List.mem_map.2 ⟨L0, hL0, rfl⟩, by simpa using (hall L0 hL0).2.1⟩
  obtain ⟨s1, s2, s3, s4⟩ := system_ok ty now
  have hnew0 : LevelOk now ty ({ system true ty now with x := (levelLoop (sumOrOff ty.off) ty.off (Ls.map (fun L => L.map (fun p => (p.1, g p.2))))).1, t := (levelLoop (sumOrOff ty.off) ty.off (Ls.map (fun L => L.map (fun p => (p.1, g p.2))))).2, start := (levelLoop (sumOrOff ty.off) ty.off (Ls.map (fun L => L.map (fun p => (p.1, g p.2))))).2.headD 0 } : Monitor) R := by
    refine ⟨s1, s2, s4, r2, r1, r3, r4, ?_, ?_⟩
    · intro q hq
      obtain ⟨L, hL, e, he, h1⟩ := r5 q hq
      obtain ⟨L', hL', rfl⟩ := List.mem_map.1 hL
      obtain ⟨p, hp, rfl⟩ := List.mem_map.1 he
      rw [h1]
      exact (hall L' hL').2.2 p hp
    · intro q hq
      simp only [Bool.not_eq_true, List.any_eq_false, Bool.not_eq_false'] at hacc
      refine hacc q.2 ?_
      rw [r1]
      exact List.mem_map_of_mem hq
  obtain ⟨L', hok', htal, hst⟩ := finish_level hnew0 s3
  cases h
  refine ⟨⟨L', by rw [hok'.type]; exact hok'⟩, by rw [Monitor.off, hok'.type], ?_⟩
  intro offset τ hτ
  refine ⟨Ls.map (fun L => stepAt ty.off L (τ + offset)), ?_, ?_⟩
  · apply List.ext_getElem
    · simp only [List.length_map]; exact hlen
    · intro i h1 h2
      simp only [List.getElem_map]
      have h1' : i < (m :: ms).length := by simpa using h1
      have hk := hLs i h1' (by simpa using h2)
      rw [hk.get offset τ hτ]
      have : ((m :: ms)[i]'h1').xtype.off = ty.off := hoff _ (List.getElem_mem h1')
      rw [this]
  · rw [hok'.get offset τ hτ, hst, if_neg (not_le.2 hτ), r6]
    have hoff' : (finish ({ system true ty now with x := (levelLoop (sumOrOff ty.off) ty.off (Ls.map (fun L => L.map (fun p => (p.1, g p.2))))).1, t := (levelLoop (sumOrOff ty.off) ty.off (Ls.map (fun L => L.map (fun p => (p.1, g p.2))))).2, start := (levelLoop (sumOrOff ty.off) ty.off (Ls.map (fun L => L.map (fun p => (p.1, g p.2))))).2.headD 0 } : Monitor) now).off = ty.off := by
      rw [Monitor.off, hok'.type]
    rw [hoff']
    congr 1
    rw [List.map_map]
    have e1 : ((fun L => stepAt ty.off L (τ + offset)) ∘ fun L : List (Rat × Val) => L.map (fun p => (p.1, g p.2))) = g ∘ (fun L => stepAt ty.off L (τ + offset)) := by
      funext L
      exact stepAt_map g ty.off hg L _
    rw [e1, ← List.map_map]
    by_cases hc : ty.coded = true
    · have : g = id := by simp only [g]; rw [if_pos hc]
      rw [this, List.map_id]
      refine sumOrOff_coded hc ?_
      intro v hv
      obtain ⟨L, hL, rfl⟩ := List.mem_map.1 hv
      rcases stepAt_mem ty.off L (τ + offset) with h | ⟨p, hp, h⟩
      · exact Or.inl h
      · right
        rw [h]
        obtain ⟨i, hi, rfl⟩ := List.mem_iff_getElem.1 hL
        have h1' : i < (m :: ms).length := by omega
        have hk := hLs i h1' hi
        have hsame : ((m :: ms)[i]'h1').xtype = ty := by
          have : ty = .any ∨ ∀ k ∈ m :: ms, k.xtype = ty := by
            rw [hty]; unfold mergedType
            split
            · rename_i hall'
              right
              intro k hk
              rcases List.mem_cons.1 hk with rfl | hk
              · rfl
              · simpa using (List.all_eq_true.1 hall') k hk
            · exact Or.inl rfl
          rcases this with h | h
          · rw [h] at hc; exact absurd hc (by decide)
          · exact h _ (List.getElem_mem h1')
        rw [← hsame]
        exact hk.acc p hp
    · have hany : ty = .any := by cases ty <;> simp [XType.coded] at hc ⊢
      have : g = Val.float := by simp only [g]; rw [if_neg hc]
      rw [this, hany]
      exact sumOrOff_any _

/-- two monitors of one type: the value of the merged one is the sum, at any moment between the tallies -/
example :
    let a := (create true (some (.num 1)) .any false true 0).1.run [(2, .tally (.num 4) 1), (5, .monitor false)]
    let b := (create true (some (.num 10)) .any false true 1).1.run [(3, .tally (.num 20) 1)]
    (merge 8 a [b]).map (fun n => [n.get 8 0 (some 0), n.get 8 0 (some 1), n.get 8 0 (some (5 / 2)), n.get 8 0 (some 4), n.get 8 0 (some 6)]) =
      .ok [.ok .ninf, .ok (.num 11), .ok (.num 14), .ok (.num 24), .ok .ninf] := by decide +kernel

/-- the merged monitor has not the sum at the present moment: it is 0 then -/
theorem C22_now_counterexample :
    let a := (create true (some (.num 1)) .any false true 0).1
    (merge 8 a [a]).map (fun n => (n.get 8 0 (some 7), n.get 8 0 (some 8), n.get 8 0 none)) = .ok (.ok (.num 2), .ok (.num 0), .ok (.num 0)) ∧
      a.get 8 0 (some 8) = .ok (.num 1) := by decide +kernel

/-- monitors of different types: the off of the typed one is not seen as off, but as the number 255 -/
theorem C22_types_counterexample :
    let a := (create true (some (.num 1)) .uint8 false true 0).1.run [(2, .monitor false)]
    let b := (create true (some (.num 10)) .any false true 0).1
    a.get 8 0 (some 4) = .ok a.off ∧ (merge 8 a [b]).map (fun n => n.get 8 0 (some 4)) = .ok (.ok (.num 265)) := by decide +kernel

end Mon
end Verif
