import Verif.DistSpec

/-!
# Distribution (C93)
-/

namespace Verif
namespace DistSpec

/-! ## texts -/

theorem split_none {sep : Char} : ∀ {a : Text}, sep ∉ a → split sep a = [a]
  | [], _ => rfl
  | c :: t, h => by
    rw [List.mem_cons, not_or] at h
    unfold split
    rw [if_neg (Ne.symm h.1), split_none h.2]

theorem split_first {sep : Char} {b : Text} : ∀ {a : Text}, sep ∉ a → split sep (a ++ sep :: b) = a :: split sep b
  | [], _ => by show split sep (sep :: b) = _; rw [split, if_pos rfl]
  | c :: t, h => by
    rw [List.mem_cons, not_or] at h
    show split sep (c :: (t ++ sep :: b)) = _
    rw [split, if_neg (Ne.symm h.1), split_first h.2]

theorem split_ne (sep : Char) : ∀ a : Text, split sep a ≠ []
  | [] => by simp [split]
  | c :: t => by
    unfold split
    split
    · simp
    · split <;> simp

theorem join_cons (sep : Char) (a : Text) {l : List Text} (h : l ≠ []) : join sep (a :: l) = a ++ sep :: join sep l := by
  cases l with
  | nil => exact absurd rfl h
  | cons b l => rfl

theorem join_split (sep : Char) : ∀ a : Text, join sep (split sep a) = a
  | [] => rfl
  | c :: t => by
    have ih := join_split sep t
    have hn := split_ne sep t
    unfold split
    split
    · rename_i h
      rw [join_cons sep [] hn, ih, h]; rfl
    · split
      · rename_i h; exact absurd h hn
      · rename_i h r e
        rw [e] at ih
        cases r with
        | nil => simp only [join] at ih ⊢; rw [ih]
        | cons x r =>
          rw [join_cons sep _ (by simp)] at ih ⊢
          rw [List.cons_append, ih]

theorem split_join {sep : Char} : ∀ {l : List Text}, l ≠ [] → (∀ a ∈ l, sep ∉ a) → split sep (join sep l) = l
  | [], h, _ => absurd rfl h
  | [a], _, h => split_none (h a (by simp))
  | a :: b :: l, _, h => by
    rw [join_cons sep a (by simp), split_first (h a (by simp)), split_join (by simp) fun x hx => h x (by simp [hx])]

theorem dropWhile_all {p : Char → Bool} : ∀ {a b : Text}, (∀ c ∈ a, p c = true) → (a ++ b).dropWhile p = b.dropWhile p
  | [], _, _ => rfl
  | c :: t, b, h => by
    rw [List.cons_append, List.dropWhile_cons_of_pos (h c (by simp)), dropWhile_all fun x hx => h x (by simp [hx])]

theorem dropWhile_none {p : Char → Bool} {a b : Text} (ha : a ≠ []) (h : ∀ c ∈ a, p c = false) : (a ++ b).dropWhile p = a ++ b := by
  cases a with
  | nil => exact absurd rfl ha
  | cons c t => rw [List.cons_append, List.dropWhile_cons_of_neg (by simp [h c (by simp)])]

theorem strip_run {a b c : Text} (ha : ∀ x ∈ a, x.isWhitespace = true) (hb : ∀ x ∈ b, x.isWhitespace = false) (hn : b ≠ []) (hc : ∀ x ∈ c, x.isWhitespace = true) :
    strip (a ++ b ++ c) = b := by
  unfold strip
  rw [List.append_assoc, dropWhile_all ha, dropWhile_none hn hb, List.reverse_append, dropWhile_all (by simpa using hc)]
  have := dropWhile_none (a := b.reverse) (b := []) (by simpa using hn) (by simpa using hb)
  rw [List.append_nil] at this
  rw [this, List.reverse_reverse]

theorem upper_white {c : Char} (h : c.isWhitespace = true) : c.toUpper = c := by
  unfold Char.isWhitespace at h
  simp only [Bool.or_eq_true, decide_eq_true_eq] at h
  rcases h with ((h | h) | h) | h <;> subst h <;> decide

/-! ## specification -/

/-- the distributions that have an abbreviation -/
def known : List Text :=
  ["Beta".toList, "Cdf".toList, "Constant".toList, "CumPdf".toList, "Erlang".toList, "Exponential".toList, "External".toList, "Gamma".toList, "IntUniform".toList, "Normal".toList,
    "Pdf".toList, "Poisson".toList, "Triangular".toList, "Uniform".toList, "Weibull".toList]

/-- how many letters of the name are needed at least -/
def needed (name : Text) : Nat :=
  if name = "Erlang".toList ∨ name = "Cdf".toList ∨ name = "CumPdf".toList ∨ name = "Poisson".toList then 2 else if name = "External".toList then 3 else 1

/-- `a` consists of the first letters of the name, in upper or lower case, at least as many as needed -/
def Abbreviates (a name : Text) : Prop := upper a <+: upper name ∧ needed name ≤ a.length

instance (a name : Text) : Decidable (Abbreviates a name) := by unfold Abbreviates; infer_instance

/-- what numbers separated by commas mean -/
def meant : List Text → Option Text
  | [c1] => some ("Constant(".toList ++ c1 ++ ")".toList)
  | [c1, c2] => some ("Uniform(".toList ++ c1 ++ ", ".toList ++ c2 ++ ")".toList)
  | [c1, c2, c3] => some ("Triangular(".toList ++ c1 ++ ", ".toList ++ c2 ++ ", ".toList ++ c3 ++ ")".toList)
  | _ => none

def Blank (a : Text) : Prop := ∀ c ∈ a, c.isWhitespace = true

/-! ## the names -/

theorem letters : ∀ n ∈ names, ∀ c ∈ upper n, 'A' ≤ c ∧ c ≤ 'Z' := by decide +kernel

theorem first_match : ∀ n ∈ names, ∀ k ∈ List.range (n.length + 1), needed n ≤ k →
    names.find? (fun m => (upper n).take k == (upper m).take ((upper n).take k).length) = some n := by decide +kernel

theorem known_names : ∀ n ∈ known, n ∈ names := by decide +kernel

theorem names_known : ∀ n ∈ names, n ∈ known := by decide +kernel

theorem needed_pos (n : Text) : 1 ≤ needed n := by unfold needed; split; omega; split <;> omega

/-- C93: the first letters of a name, in any case, with blanks before and after, stand for the name, provided there are two letters for Erlang, Cdf, CumPdf and Poisson, and three for External -/
theorem C93_names {a name : Text} (hn : name ∈ known) (h : Abbreviates a name) {x y : Text} (hx : Blank x) (hy : Blank y) (args : Text) :
    resolve (x ++ a ++ y ++ '(' :: args) = some (name ++ '(' :: args) := by
  replace hn := known_names name hn
  obtain ⟨hp, hk⟩ := h
  have hlen : a.length = (upper a).length := by simp [upper]
  have htake : upper a = (upper name).take a.length := by rw [hlen]; exact List.prefix_iff_eq_take.1 hp
  have hlet : ∀ c ∈ a, 'A' ≤ c.toUpper ∧ c.toUpper ≤ 'Z' := by
    intro c hc
    exact letters name hn _ (hp.subset (by unfold upper; exact List.mem_map_of_mem hc))
  have hpar : ∀ c ∈ a, c ≠ '(' := by
    rintro c hc rfl
    exact absurd (hlet _ hc).1 (by decide)
  have hws : ∀ c ∈ upper a, c.isWhitespace = false := by
    intro c hc
    obtain ⟨d, hd, rfl⟩ := List.mem_map.1 hc
    by_contra hw
    have hl := (hlet d hd).1
    have hw : (d.toUpper).isWhitespace = true := by simpa using hw
    unfold Char.isWhitespace at hw
    simp only [Bool.or_eq_true, decide_eq_true_eq] at hw
    rcases hw with ((h | h) | h) | h <;> rw [h] at hl <;> exact absurd hl (by decide)
  have hb : ∀ {z : Text}, Blank z → '(' ∉ z ∧ ∀ c ∈ upper z, c.isWhitespace = true := by
    intro z hz
    constructor
    · intro hm; exact absurd (hz _ hm) (by decide)
    · intro c hc
      obtain ⟨d, hd, rfl⟩ := List.mem_map.1 hc
      rw [upper_white (hz d hd)]; exact hz d hd
  have hna : a ≠ [] := by
    rintro rfl
    have := needed_pos name
    simp at hk; omega
  have hna2 : upper a ≠ [] := by simpa [upper] using hna
  have hfree : '(' ∉ x ++ a ++ y := by
    simp only [List.mem_append, not_or]
    exact ⟨⟨(hb hx).1, fun hm => hpar _ hm rfl⟩, (hb hy).1⟩
  have hstrip : strip (upper (x ++ a ++ y)) = upper a := by
    have : upper (x ++ a ++ y) = upper x ++ upper a ++ upper y := by simp [upper]
    rw [this]
    exact strip_run (hb hx).2 hws hna2 (hb hy).2
  unfold resolve
  simp only
  rw [split_first hfree, List.headD_cons, hstrip, if_neg (by simp [hna2]), List.tail_cons]
  have hle : a.length ≤ name.length := by
    have := hp.length_le
    simpa [upper] using this
  have hf := first_match name hn a.length (by simp; omega) hk
  rw [← htake] at hf
  rw [hf]
  simp only
  rw [join_cons _ _ (split_ne _ _), join_split]

/-- C93: one, two or three parts separated by commas, possibly between parentheses, mean Constant, Uniform and Triangular; more are refused -/
theorem C93_plain {l : List Text} (hl : l ≠ []) (h : ∀ a ∈ l, '(' ∉ a ∧ ')' ∉ a ∧ ',' ∉ a) {spec : Text} (hs : spec = join ',' l ∨ spec = '(' :: join ',' l ++ [')']) :
    resolve spec = meant l := by
  have hin : ∀ (l : List Text) (c : Char), c ∈ join ',' l → c = ',' ∨ ∃ a ∈ l, c ∈ a := by
    intro l
    induction l with
    | nil => intro c hc; exact absurd hc (by simp [join])
    | cons a l ih =>
      intro c hc
      cases l with
      | nil => exact .inr ⟨a, by simp, hc⟩
      | cons b l =>
        rw [join_cons _ _ (by simp), List.mem_append, List.mem_cons] at hc
        rcases hc with hc | hc | hc
        · exact .inr ⟨a, by simp, hc⟩
        · exact .inl hc
        · rcases ih c hc with e | ⟨d, hd, e⟩
          · exact .inl e
          · exact .inr ⟨d, by simp [hd], e⟩
  have h1 : '(' ∉ join ',' l := fun hc => by
    rcases hin l _ hc with e | ⟨a, ha, e⟩
    · exact absurd e (by decide)
    · exact (h a ha).1 e
  have h2 : ')' ∉ join ',' l := fun hc => by
    rcases hin l _ hc with e | ⟨a, ha, e⟩
    · exact absurd e (by decide)
    · exact (h a ha).2.1 e
  have hfil : (spec.filter (· ≠ ')')).filter (· ≠ '(') = join ',' l := by
    have e : (join ',' l).filter (· ≠ ')') = join ',' l := List.filter_eq_self.2 fun c hc => by
      simp only [decide_eq_true_eq]; rintro rfl; exact h2 hc
    have e' : (join ',' l).filter (· ≠ '(') = join ',' l := List.filter_eq_self.2 fun c hc => by
      simp only [decide_eq_true_eq]; rintro rfl; exact h1 hc
    rcases hs with rfl | rfl
    · rw [e, e']
    · rw [List.cons_append, List.filter_cons_of_pos (by decide), List.filter_append, e, List.filter_cons_of_neg (by decide), List.filter_cons_of_neg (by decide)]
      simpa using e'
  have hcond : strip (upper ((split '(' spec).headD [])) = [] ∨ '(' ∉ spec := by
    rcases hs with rfl | rfl
    · exact .inr h1
    · left
      rw [List.cons_append, split, if_pos rfl]
      rfl
  unfold resolve
  simp only
  rw [if_pos hcond, hfil, split_join hl fun a ha => (h a ha).2.2]
  rfl

/-- C93: if what comes before the first parenthesis isn't the beginning of one of the names, the text is evaluated as it is -/
theorem C93_other {a : Text} (h : '(' ∉ a) (hn : ∀ n ∈ known, ¬ strip (upper a) <+: upper n) (args : Text) :
    resolve (a ++ '(' :: args) = some (a ++ '(' :: args) := by
  have h0 : strip (upper a) ≠ [] := fun e => hn "Beta".toList (by decide) (by rw [e]; exact List.nil_prefix)
  unfold resolve
  simp only
  rw [split_first h, List.headD_cons, if_neg (by simp [h0])]
  have : names.find? (fun n => strip (upper a) == (upper n).take (strip (upper a)).length) = none := by
    rw [List.find?_eq_none]
    intro n hm e
    exact hn n (names_known n hm) (by rw [beq_iff_eq] at e; rw [e]; exact List.take_prefix _ _)
  rw [this]

/-- C93: a time unit is added as the last argument -/
theorem C93_unit {name args unit y : Text} (hn : name ∈ known) (hy : Blank y) :
    withUnit unit (name ++ '(' :: args ++ ')' :: y) = name ++ '(' :: args ++ ", time_unit=".toList ++ unit ++ ")".toList := by
  have hne : ∀ n ∈ names, (n.head?.any fun c => !c.isWhitespace) = true := by decide +kernel
  obtain ⟨c, t, rfl, hc⟩ : ∃ c t, name = c :: t ∧ c.isWhitespace = false := by
    have := hne name (known_names name hn)
    cases name with
    | nil => simp at this
    | cons c t => exact ⟨c, t, rfl, by simpa using this⟩
  have h1 : strip (c :: t ++ '(' :: args ++ ')' :: y) = c :: t ++ '(' :: args ++ [')'] := by
    unfold strip
    rw [List.cons_append, List.cons_append, List.dropWhile_cons_of_neg (by simp [hc])]
    have e : c :: (t ++ '(' :: args ++ ')' :: y) = (c :: t ++ '(' :: args ++ [')']) ++ y := by simp
    rw [e, List.reverse_append, dropWhile_all (by simpa [Blank] using hy), List.reverse_append]
    show (List.dropWhile Char.isWhitespace (')' :: (c :: t ++ '(' :: args).reverse)).reverse = _
    rw [List.dropWhile_cons_of_neg (by decide)]
    simp
  unfold withUnit
  rw [h1, List.dropLast_concat]
  rfl

/-- C93: fewer letters than needed mean another distribution; for External two are not enough either -/
theorem C93_counterexample : resolve "E(2)".toList = some "Exponential(2)".toList ∧ resolve "C(2)".toList = some "Constant(2)".toList ∧
    resolve "P(2)".toList = some "Pdf(2)".toList ∧ resolve "Ex(2)".toList = some "Exponential(2)".toList := by decide +kernel

/-! the examples of the documentation -/

example : resolve "Uni(12,15)".toList = some "Uniform(12,15)".toList :=
  C93_names (a := "Uni".toList) (name := "Uniform".toList) (x := []) (y := []) (by decide +kernel) (by decide +kernel) (by simp [Blank]) (by simp [Blank]) "12,15)".toList
example : Abbreviates "UNIF".toList "Uniform".toList ∧ Abbreviates "N".toList "Normal".toList ∧ Abbreviates "Er".toList "Erlang".toList ∧ Abbreviates "ext".toList "External".toList := by
  decide +kernel
example : resolve "12,15".toList = some "Uniform(12, 15)".toList ∧ resolve "(12,15)".toList = some "Uniform(12, 15)".toList ∧ resolve "1,2,3,4".toList = none := by decide +kernel
example : resolve "Map(Uniform(1,2))".toList = some "Map(Uniform(1,2))".toList := C93_other (a := "Map".toList) (by decide) (by decide +kernel) _
example : withUnit "'hours'".toList "Exponential(2) ".toList = "Exponential(2, time_unit='hours')".toList := by decide +kernel

end DistSpec
end Verif
