import Verif.Props.Pdf

/-!
# Which arguments of distributions are refused, and what they mean (C75)
-/

namespace Verif
namespace Distr

/-! ## specification -/

/-- `d` samples from the generator `g` of the module random, and multiplies by the factor of the time unit -/
def Draws (d : Dist) (g : Gen) (f : Rat) : Prop :=
  ∀ s k, d.draw s k = (some (.num ((g s k).1 * f)), (g s k).2)

/-- exactly one of the two is given, and it is positive -/
def OnePositive (a b : Option Rat) : Prop := (∃ x, 0 < x ∧ a = some x ∧ b = none) ∨ ∃ x, 0 < x ∧ a = none ∧ b = some x

/-- values that can have a time unit: numbers; without a time unit any values that are not distributions -/
def Plain (f : Option Rat) (x : Item) : Prop := (∃ q, x = .val (.num q)) ∨ f = none ∧ ∃ v, x = .val v

/-- a way to specify a Pdf that can be understood: at least one pair of value and probability, as many values as probabilities -/
def Readable : PSpec → Prop
  | .pairs l => l ≠ []
  | .odd _ _ => False
  | .lists xs ps => xs.length = ps.length
  | .equal _ => True

/-- the probabilities -/
def PSpec.weights : PSpec → List Rat
  | .pairs l => l.map Prod.snd
  | .odd l _ => l.map Prod.snd
  | .lists _ ps => ps
  | .equal xs => xs.map fun _ => 1

/-- the values -/
def PSpec.values : PSpec → List Item
  | .pairs l => l.map Prod.fst
  | .odd l x => l.map Prod.fst ++ [x]
  | .lists xs _ => xs
  | .equal xs => xs

/-! ## proof -/

theorem scaled_draws (g : Gen) (m f : Rat) : Draws (scaled g m f) g f := fun _ _ => rfl

theorem unzipFlat_eq {α β : Type} (l : List (α × β)) : unzipFlat l = (l.map Prod.fst, l.map Prod.snd) := by
  induction l with
  | nil => rfl
  | cons a l ih => simp [unzipFlat, ih]

theorem read_none {spec : PSpec} : spec.read = none ↔ ¬ Readable spec := by
  cases spec with
  | pairs l => simp [PSpec.read, Readable]
  | odd l x => simp [PSpec.read, Readable]
  | lists xs ps => simp [PSpec.read, Readable]
  | equal xs => simp [PSpec.read, Readable]

theorem read_some {spec : PSpec} (h : Readable spec) : spec.read = some (spec.values, spec.weights) := by
  cases spec with
  | pairs l => simp [PSpec.read, PSpec.values, PSpec.weights, show l ≠ [] from h, unzipFlat_eq]
  | odd l x => exact h.elim
  | lists xs ps => simp [PSpec.read, PSpec.values, PSpec.weights, show xs.length = ps.length from h]
  | equal xs => simp [PSpec.read, PSpec.values, PSpec.weights]

theorem plain_scale {f : Option Rat} {x : Item} (h : Plain f x) : ∃ y m, x.scale f = some y ∧ y.forMean = some m := by
  rcases h with ⟨q, rfl⟩ | ⟨rfl, v, rfl⟩
  · cases f with
    | none => exact ⟨_, _, rfl, rfl⟩
    | some f => exact ⟨_, _, rfl, rfl⟩
  · refine ⟨.val v, ?_⟩
    cases v with
    | num q => exact ⟨_, rfl, rfl⟩
    | other n => exact ⟨_, rfl, rfl⟩
    | pyNone => exact ⟨_, rfl, rfl⟩
    | obj => exact ⟨_, rfl, rfl⟩

theorem pdfRead_plain {f : Option Rat} (l : List (Item × Rat)) (h : ∀ a ∈ l, Plain f a.1) (S : Rat) (m : Mean) :
    ∃ out t, pdfRead f l S m = some (out, t) := by
  induction l generalizing S m with
  | nil => exact ⟨_, _, rfl⟩
  | cons a l ih =>
    obtain ⟨x, p⟩ := a
    obtain ⟨y, n, h1, h2⟩ := plain_scale (h (x, p) (by simp))
    obtain ⟨out, t, h3⟩ := ih (fun a ha => h a (by simp [ha])) (S + p) (addMean m n p)
    exact ⟨(y, S + p) :: out, t, by simp only at h1; simp only [pdfRead, h1, h2, h3]⟩

theorem pairwise_two (S c : Rat) (l : List Rat) : (S :: c :: l).Pairwise (· ≤ ·) ↔ S ≤ c ∧ (c :: l).Pairwise (· ≤ ·) := by
  rw [List.pairwise_cons]
  constructor
  · exact fun h => ⟨h.1 c (by simp), h.2⟩
  · intro h
    refine ⟨fun d hd => ?_, h.2⟩
    rcases List.mem_cons.1 hd with rfl | hd
    · exact h.1
    · exact le_trans h.1 ((List.pairwise_cons.1 h.2).1 d hd)

theorem cumRead_plain {f : Option Rat} (l : List (Item × Rat)) (h : ∀ a ∈ l, Plain f a.1) (S : Rat) (m : Mean) :
    (¬ (S :: l.map Prod.snd).Pairwise (· ≤ ·) → cumRead f l S m = none) ∧
    ((S :: l.map Prod.snd).Pairwise (· ≤ ·) → ∃ out mm, cumRead f l S m = some (out, (l.map Prod.snd).getLastD S, mm)) := by
  induction l generalizing S m with
  | nil => exact ⟨fun hn => absurd (by simp) hn, fun _ => ⟨_, _, rfl⟩⟩
  | cons a l ih =>
    obtain ⟨x, c⟩ := a
    obtain ⟨y, n, h1, h2⟩ := plain_scale (h (x, c) (by simp))
    have h3 := ih (fun a ha => h a (by simp [ha])) c (addMean m n (c - S))
    simp only at h1
    simp only [List.map_cons, pairwise_two, cumRead, h1, h2]
    by_cases hlt : c - S < 0
    · rw [if_pos hlt]
      exact ⟨fun _ => rfl, fun hh => by linarith [hh.1]⟩
    · rw [if_neg hlt, show S + (c - S) = c by ring]
      refine ⟨fun hn => ?_, fun hh => ?_⟩
      · rw [h3.1 (fun hh => hn ⟨by linarith, hh⟩)]
      · obtain ⟨out, mm, h4⟩ := h3.2 hh.2
        rw [h4]
        exact ⟨(y, c) :: out, mm, by rw [List.getLastD_cons]⟩

/-! ## claims -/

/-- C75: Exponential is refused unless either a positive mean or a positive rate is given; Exponential(rate=r) is Exponential(mean=1/r), and a sample is one of expovariate with
rate 1/mean -/
theorem C75_exponential (L : Lib) (mean rate : Option Rat) (f : Rat) :
    (exponential L mean rate f ≠ none ↔ OnePositive mean rate) ∧
    (∀ m, 0 < m → ∃ d, exponential L (some m) none f = some d ∧ exponential L none (some (1 / m)) f = some d ∧ d.mean = .val (m * f) ∧ Draws d (L.expovariate (1 / m)) f) := by
  refine ⟨?_, fun m hm => ⟨scaled (L.expovariate (1 / m)) m f, ?_, ?_, rfl, scaled_draws _ _ _⟩⟩
  · unfold OnePositive
    cases mean <;> cases rate <;> simp [exponential]
  · simp [exponential, not_le.2 hm]
  · simp [exponential, not_le.2 hm]

/-- C75: Normal is refused if both the standard deviation and the coefficient of variation are given, for a coefficient of variation with mean 0, and if the standard deviation
would be negative; Normal(m, coefficient_of_variation=c) is Normal(m, c*m); without both the standard deviation is 0 -/
theorem C75_normal (L : Lib) (mean : Rat) (sd cv : Option Rat) (g : Bool) (f : Rat) :
    (normal L mean sd cv g f = none ↔ (sd ≠ none ∧ cv ≠ none) ∨ (∃ s, sd = some s ∧ s < 0) ∨ ∃ c, cv = some c ∧ (mean = 0 ∨ c * mean < 0)) ∧
    (∀ s, 0 ≤ s → ∃ d, normal L mean (some s) none g f = some d ∧ d.mean = .val (mean * f) ∧ Draws d (if g then L.gauss mean s else L.normalvariate mean s) f) ∧
    (mean ≠ 0 → ∀ c, normal L mean none (some c) g f = normal L mean (some (c * mean)) none g f) ∧
    normal L mean none none g f = normal L mean (some 0) none g f := by
  refine ⟨?_, fun s hs => ⟨_, by simp [normal, not_lt.2 hs], rfl, scaled_draws _ _ _⟩, fun hm c => by simp [normal, hm], by simp [normal]⟩
  cases sd with
  | none =>
    cases cv with
    | none => simp [normal]
    | some c => by_cases hm : mean = 0 <;> simp [normal, hm]
  | some s =>
    cases cv with
    | none => simp [normal]
    | some c => simp [normal]

/-- C75: Uniform and IntUniform are refused exactly if the upper bound is below the lower bound; without an upper bound it is the lower bound -/
theorem C75_uniform (lo : Rat) (hi : Option Rat) (m : Int) (n : Option Int) (f : Rat) :
    (uniform lo hi f = none ↔ ∃ h, hi = some h ∧ h < lo) ∧ (intUniform m n f = none ↔ ∃ h, n = some h ∧ h < m) ∧
    uniform lo none f = uniform lo (some lo) f ∧ intUniform m none f = intUniform m (some m) f := by
  refine ⟨?_, ?_, rfl, rfl⟩
  · cases hi <;> simp [uniform]
  · cases n <;> simp [intUniform]

/-- C75: Triangular is refused unless low ≤ mode ≤ high; the mode is halfway if not given, the high bound is the low bound if not given -/
theorem C75_triangular (L : Lib) (low high mode f : Rat) :
    (triangular L low (some high) (some mode) f ≠ none ↔ low ≤ mode ∧ mode ≤ high) ∧
    (low ≤ mode → mode ≤ high → ∃ d, triangular L low (some high) (some mode) f = some d ∧ d.mean = .val ((low + mode + high) / 3 * f) ∧
      Draws d (L.triangular low high mode) f) ∧
    triangular L low (some high) none f = triangular L low (some high) (some ((low + high) / 2)) f ∧
    triangular L low none (some mode) f = triangular L low (some low) (some mode) f ∧
    triangular L low none none f = triangular L low (some low) (some low) f := by
  refine ⟨?_, fun h1 h2 => ⟨_, ?_, rfl, scaled_draws _ _ _⟩, ?_, rfl, ?_⟩
  · simp only [triangular, Option.getD_some]
    split_ifs with h1 h2 h3
    · simp only [ne_eq, not_true_eq_false, false_iff, not_and, not_le]; intro h; linarith
    · simp only [ne_eq, not_true_eq_false, false_iff, not_and, not_le]; intro h; linarith
    · simp only [ne_eq, not_true_eq_false, false_iff, not_and, not_le]; intro h; linarith
    · simp only [ne_eq, reduceCtorEq, not_false_eq_true, true_iff]; exact ⟨not_lt.1 h2, not_lt.1 h3⟩
  · simp only [triangular, Option.getD_some]
    rw [if_neg (by linarith), if_neg (by linarith), if_neg (by linarith)]
  · simp only [triangular, Option.getD_some, Option.getD_none, add_comm]
  · simp only [triangular, Option.getD_some, Option.getD_none, show (low + low) / 2 = low by ring]

/-- C75: Weibull needs a positive shape, Beta two positive parameters -/
theorem C75_weibull_beta (L : Lib) (a b f : Rat) :
    (weibull L a b f ≠ none ↔ 0 < b) ∧ (beta L a b ≠ none ↔ 0 < a ∧ 0 < b) ∧
    (0 < b → ∃ d, weibull L a b f = some d ∧ d.mean = .val (a * L.gammaFn (1 / b + 1) * f) ∧ Draws d (L.weibullvariate a b) f) ∧
    (0 < a → 0 < b → ∃ d, beta L a b = some d ∧ d.mean = .val (a / (a + b)) ∧ Draws d (L.betavariate a b) 1) := by
  refine ⟨by simp [weibull], ?_, fun h => ⟨_, by simp [weibull, not_le.2 h], rfl, scaled_draws _ _ _⟩,
    fun h1 h2 => ⟨scaled (L.betavariate a b) (a / (a + b)) 1, by simp [beta, not_le.2 h1, not_le.2 h2], by simp [scaled], scaled_draws _ _ _⟩⟩
  simp only [beta]
  split_ifs with h1 h2
  · simp [not_lt.2 h1]
  · simp [not_lt.2 h2]
  · simpa using ⟨not_le.1 h1, not_le.1 h2⟩

/-- C75: Gamma needs a positive shape and either a positive scale or a positive rate; a rate is the scale 1/rate -/
theorem C75_gamma (L : Lib) (shape : Rat) (scale rate : Option Rat) (f : Rat) :
    (gamma L shape scale rate f ≠ none ↔ 0 < shape ∧ OnePositive scale rate) ∧
    (0 < shape → ∀ b, 0 < b → ∃ d, gamma L shape (some b) none f = some d ∧ gamma L shape none (some (1 / b)) f = some d ∧ d.mean = .val (shape * b * f) ∧
      Draws d (L.gammavariate shape b) f) := by
  refine ⟨?_, fun h b hb => ⟨scaled (L.gammavariate shape b) (shape * b) f, ?_, ?_, rfl, scaled_draws _ _ _⟩⟩
  · unfold OnePositive
    by_cases h : shape ≤ 0
    · simp [gamma, h, not_lt.2 h]
    · cases scale <;> cases rate <;> simp [gamma, h, not_le.1 h]
  · simp [gamma, not_le.2 h, not_le.2 hb]
  · simp [gamma, not_le.2 h, not_le.2 hb]

/-- C75: Erlang needs a positive number of stages and either a positive rate or a positive scale; a scale is the rate 1/scale. (Its samples are divided by the factor of the time unit:
`C41_erlang_counterexample`.) -/
theorem C75_erlang (L : Lib) (shape : Nat) (rate scale : Option Rat) (f : Rat) :
    (erlang L shape rate scale f ≠ none ↔ 0 < shape ∧ OnePositive rate scale) ∧
    (0 < shape → ∀ b, 0 < b → ∃ d, erlang L shape none (some b) f = some d ∧ erlang L shape (some (1 / b)) none f = some d ∧
      d.mean = .val (shape * b * (1 / f)) ∧ Draws d (L.gammavariate shape b) (1 / f)) := by
  refine ⟨?_, fun h b hb => ⟨_, by simp [erlang, h.ne', not_le.2 hb]; rfl, by simp [erlang, h.ne', not_le.2 hb], by simp [div_eq_mul_inv], fun s k => by simp [div_eq_mul_inv]⟩⟩
  unfold OnePositive
  by_cases h : shape = 0
  · simp [erlang, h]
  · have h0 : 0 < shape := Nat.pos_of_ne_zero h
    cases rate with
    | none => cases scale with
      | none => simp [erlang, h]
      | some b => by_cases hb : b ≤ 0 <;> simp [erlang, h, h0, hb, not_le.1, not_lt.2]
    | some a => cases scale with
      | none => by_cases hb : a ≤ 0 <;> simp [erlang, h, h0, hb, not_le.1, not_lt.2]
      | some b => simp [erlang, h]

/-- C75: Pdf of values (with a time unit: numbers) is refused exactly if there is nothing, there are not as many probabilities as values, or the probabilities add up to 0 -/
theorem C75_pdf {spec : PSpec} {f : Option Rat} (hp : ∀ x ∈ spec.values, Plain f x) : pdf spec f = none ↔ ¬ Readable spec ∨ spec.weights.sum = 0 := by
  unfold pdf
  rw [Option.map_eq_none_iff]
  by_cases h : Readable spec
  swap
  · simp [pdfNew, read_none.2 h, h]
  simp only [h, not_true_eq_false, false_or]
  have hr := read_some h
  have hlen := PSpec.read_length hr
  obtain ⟨out, t, h1⟩ := pdfRead_plain (f := f) (spec.values.zip spec.weights) (fun a ha => hp a.1 (List.of_mem_zip ha).1) 0 (.val 0)
  obtain ⟨t, mm⟩ := t
  have h2 := (pdfRead_spec h1).2.1
  rw [List.map_snd_zip (by omega), zero_add] at h2
  simp only [pdfNew, hr, h1, h2]
  by_cases h0 : spec.weights.sum = 0 <;> simp [h0]

/-- C75: CumPdf of values is refused exactly if there is nothing, the cumulative probabilities aren't in order from 0 up, or the last one is 0 -/
theorem C75_cum_pdf {spec : List (Item × Rat)} {f : Option Rat} (hp : ∀ a ∈ spec, Plain f a.1) :
    cumPdf spec f = none ↔ spec = [] ∨ ¬ (0 :: spec.map Prod.snd).Pairwise (· ≤ ·) ∨ (spec.map Prod.snd).getLastD 0 = 0 := by
  unfold cumPdf
  rw [Option.map_eq_none_iff]
  by_cases h : spec = []
  · simp [cumNew, h]
  obtain ⟨h1, h2⟩ := cumRead_plain spec hp 0 (.val 0)
  by_cases ho : (0 :: spec.map Prod.snd).Pairwise (· ≤ ·)
  · obtain ⟨out, mm, h3⟩ := h2 ho
    simp only [cumNew, h3, h, ho, not_true_eq_false, false_or]
    by_cases h0 : (spec.map Prod.snd).getLastD 0 = 0 <;> simp [h0]
  · simp only [cumNew, if_neg h, h1 ho, ho, not_false_eq_true, true_or, or_true]

theorem pdfRead_nan {f : Option Rat} : ∀ (l : List (Item × Rat)) {S : Rat} {m : Mean} {out : List (Item × Rat)} {t : Rat} {mm : Mean}, (∀ a ∈ l, ∃ v, a.1 = .val v) →
    (m = .nan ∨ (∃ q, m = .val q) ∧ ∃ a ∈ l, ∀ q, a.1 ≠ .val (.num q)) → pdfRead f l S m = some (out, t, mm) → mm = .nan
  | [], _, _, _, _, _, _, hm, h => by
    rcases hm with rfl | ⟨_, a, ha, _⟩
    · cases h; rfl
    · cases ha
  | (x, p) :: l, S, m, out, t, mm, hv, hm, h => by
    unfold pdfRead at h
    split at h
    · cases h
    rename_i y hy
    split at h
    · cases h
    rename_i k hk
    split at h
    · cases h
    rename_i o r hr
    cases h
    refine pdfRead_nan l (fun a ha => hv a (List.mem_cons_of_mem _ ha)) ?_ hr
    obtain ⟨v, hx⟩ := hv (x, p) (List.mem_cons_self ..)
    simp only at hx
    subst hx
    have hk' : k = .nan ∧ (∀ q, v ≠ .num q) ∨ ∃ q, k = .val q ∧ ∃ q, v = .num q := by
      cases v with
      | num q =>
        right
        cases f with
        | none => cases hy; cases hk; exact ⟨_, rfl, _, rfl⟩
        | some f => cases hy; cases hk; exact ⟨_, rfl, _, rfl⟩
      | other n => left; cases f with
        | none => cases hy; cases hk; exact ⟨rfl, by simp⟩
        | some f => cases hy
      | pyNone => left; cases f with
        | none => cases hy; cases hk; exact ⟨rfl, by simp⟩
        | some f => cases hy
      | obj => left; cases f with
        | none => cases hy; cases hk; exact ⟨rfl, by simp⟩
        | some f => cases hy
    rcases hk' with ⟨rfl, _⟩ | ⟨k, rfl, q, rfl⟩
    · left
      rcases hm with rfl | ⟨⟨z, rfl⟩, _⟩ <;> rfl
    · rcases hm with rfl | ⟨⟨z, rfl⟩, a, ha, hn⟩
      · left; rfl
      · right
        rcases List.mem_cons.mp ha with rfl | ha
        · exact absurd rfl (hn q)
        · exact ⟨⟨_, rfl⟩, a, ha, hn⟩

/-- C75: a Pdf with a value that isn't a number has no mean (nan), whatever the probability of that value -/
theorem C75_no_mean {spec : PSpec} {f : Option Rat} {d : Dist} (hv : ∀ x ∈ spec.values, ∃ v, x = .val v) (hn : ∃ a ∈ spec.values, ∀ q, a ≠ .val (.num q))
    (h : pdf spec f = some d) : d.mean = .nan := by
  unfold pdf at h
  obtain ⟨o, ho, rfl⟩ := Option.map_eq_some_iff.mp h
  unfold pdfNew at ho
  split at ho
  · cases ho
  rename_i xs ps hr
  have hR : Readable spec := by
    by_contra hR
    rw [read_none.2 hR] at hr; cases hr
  have hr' := read_some hR
  rw [hr] at hr'
  cases hr'
  have hlen := PSpec.read_length hr
  split at ho
  · cases ho
  rename_i l sump sumxp he
  split at ho
  · cases ho
  cases ho
  obtain ⟨a, ha, han⟩ := hn
  obtain ⟨i, hi, rfl⟩ := List.mem_iff_getElem.mp ha
  have := pdfRead_nan _ (fun b hb => hv b.1 (List.of_mem_zip hb).1) (.inr ⟨⟨0, rfl⟩, (spec.values[i], spec.weights[i]'(by omega)),
    List.mem_iff_getElem.mpr ⟨i, by simp; omega, by simp⟩, han⟩) he
  show meanDiv sumxp sump = .nan
  rw [this]; rfl

/-! ## examples -/

/-- the values 1 and "other", of which the last never comes -/
example : ∃ d, pdf (.lists [.val (.num 1), .val (.other 3)] [1, 0]) none = some d ∧ d.mean = .nan := by
  have hv : ∀ x ∈ (PSpec.lists [.val (.num 1), .val (.other 3)] [1, 0]).values, ∃ v, x = .val v := by
    intro x hx
    simp only [PSpec.values, List.mem_cons, List.not_mem_nil, or_false] at hx
    rcases hx with rfl | rfl <;> exact ⟨_, rfl⟩
  cases h : pdf (.lists [.val (.num 1), .val (.other 3)] [1, 0]) none with
  | none =>
    rcases (C75_pdf fun x hx => .inr ⟨rfl, hv x hx⟩).1 h with h' | h'
    · exact absurd rfl h'
    · norm_num [PSpec.weights] at h'
  | some d => exact ⟨d, rfl, C75_no_mean hv ⟨.val (.other 3), by simp [PSpec.values], by simp⟩ h⟩

/-- something refused and something accepted -/
example (L : Lib) : exponential L (some 1) (some 1) 1 = none ∧ exponential L none (some 2) 1 ≠ none ∧ gamma L 2 (some 1) none 1 ≠ none ∧
    erlang L 2 (some 0) none 1 = none ∧ normal L (-2) none (some 1) false 1 = none := by
  refine ⟨by rfl, ((C75_exponential L _ _ _).1.2 (.inr ⟨2, by norm_num, rfl, rfl⟩)), (C75_gamma L _ _ _ _).1.2 ⟨by norm_num, .inl ⟨1, by norm_num, rfl, rfl⟩⟩, ?_,
    (C75_normal L _ _ _ _ _).1.2 (.inr (.inr ⟨1, rfl, .inr (by norm_num)⟩))⟩
  by_contra h
  obtain ⟨_, ⟨x, h1, h2, _⟩ | ⟨x, _, h2, _⟩⟩ := (C75_erlang L _ _ _ _).1.1 h
  · cases h2; exact absurd h1 (lt_irrefl _)
  · cases h2

/-- values 1 and "other" with probabilities 0 and 0 -/
example : pdf (.lists [.val (.num 1), .val (.other 3)] [0, 0]) none = none :=
  (C75_pdf (by intro x hx; simp only [PSpec.values, List.mem_cons, List.not_mem_nil, or_false] at hx; rcases hx with rfl | rfl; exacts [.inl ⟨_, rfl⟩, .inr ⟨rfl, _, rfl⟩])).2
    (.inr (by simp [PSpec.weights]))

/-- and with probabilities 1 and 2 -/
example : pdf (.lists [.val (.num 1), .val (.other 3)] [1, 2]) none ≠ none := by
  intro h
  rcases (C75_pdf (by intro x hx; simp only [PSpec.values, List.mem_cons, List.not_mem_nil, or_false] at hx; rcases hx with rfl | rfl; exacts [.inl ⟨_, rfl⟩, .inr ⟨rfl, _, rfl⟩])).1 h with h1 | h1
  · exact h1 rfl
  · norm_num [PSpec.weights] at h1

/-- cumulative probabilities that go down -/
example : cumPdf [(.val (.num 1), 3), (.val (.num 2), 2)] (some 60) = none :=
  (C75_cum_pdf (by intro a ha; simp only [List.mem_cons, List.not_mem_nil, or_false] at ha; rcases ha with rfl | rfl <;> exact .inl ⟨_, rfl⟩)).2
    (.inr (.inl (by norm_num)))

end Distr
end Verif
