import Verif.ItemValue
import Verif.Props.Util
import Mathlib.Tactic.Cases
import Mathlib.Tactic.Linarith
import Mathlib.Tactic.FieldSimp
import Mathlib.Tactic.Ring
import Mathlib.Tactic.NormNum
import Mathlib.Tactic.IntervalCases
import Mathlib.Data.List.Induction
import Mathlib.Data.List.TakeWhile

/-!
# C103: numbers and truth values in item files
-/

namespace Verif
namespace ItemValue

/-- a row of decimal digits (maybe none) and the number it stands for -/
inductive Digits : Str → Nat → Prop
  | nil : Digits [] 0
  | snoc {s : Str} {v d : Nat} {c : Char} : Digits s v → "0123456789".toList[d]? = some c → Digits (s ++ [c]) (10 * v + d)

/-- a sign, which may be absent, and the factor it stands for -/
def Sign (s : Str) (σ : Int) : Prop := (s = [] ∧ σ = 1) ∨ (s = ['+'] ∧ σ = 1) ∨ (s = ['-'] ∧ σ = -1)

/-- an integer in decimal notation, like `12`, `+12` or `-012` -/
def Integer (s : Str) (n : Int) : Prop := ∃ sg σ ds v, s = sg ++ ds ∧ Sign sg σ ∧ Digits ds v ∧ ds ≠ [] ∧ n = σ * v

/-- a decimal fraction without sign, like `12`, `12.`, `12.50` or `.5` -/
def Mantissa (s : Str) (m : Rat) : Prop :=
  (∃ v, Digits s v ∧ s ≠ [] ∧ m = v) ∨
  (∃ ds fs v f, s = ds ++ '.' :: fs ∧ Digits ds v ∧ Digits fs f ∧ (ds ≠ [] ∨ fs ≠ []) ∧ m = v + f / 10 ^ fs.length)

/-- a power of ten, like `e3` or `E-03`, which may be absent -/
def Exponent (s : Str) (x : Int) : Prop := (s = [] ∧ x = 0) ∨ ∃ e t, s = e :: t ∧ (e = 'e' ∨ e = 'E') ∧ Integer t x

/-- a number in decimal notation -/
def Decimal (s : Str) (q : Rat) : Prop :=
  ∃ sg σ ms m es x, s = sg ++ ms ++ es ∧ Sign sg σ ∧ Mantissa ms m ∧ Exponent es x ∧ q = σ * m * (10 : Rat) ^ x

/-- white space only -/
def Blank (s : Str) : Prop := ∀ c ∈ s, c.toNat ∈ [9, 10, 11, 12, 13, 28, 29, 30, 31, 32]
/-- no white space -/
def Solid (s : Str) : Prop := ∀ c ∈ s, c.toNat ∉ [9, 10, 11, 12, 13, 28, 29, 30, 31, 32]

theorem white_iff (c : Char) : white c = true ↔ c.toNat ∈ [9, 10, 11, 12, 13, 28, 29, 30, 31, 32] := by
  simp only [white, Bool.or_eq_true, Bool.and_eq_true, decide_eq_true_eq, List.mem_cons, List.not_mem_nil, or_false]
  omega

theorem digit_char {c : Char} {d : Nat} (h : "0123456789".toList[d]? = some c) : c.isDigit = true ∧ c.toNat - 48 = d := by
  have hd : d < 10 := by
    by_contra hn
    rw [List.getElem?_eq_none (by simpa using hn)] at h
    cases h
  interval_cases d <;> (simp at h; subst h; decide)

theorem char_digit {c : Char} (h : c.isDigit = true) : "0123456789".toList[c.toNat - 48]? = some c := by
  have h1 : 48 ≤ c.toNat ∧ c.toNat ≤ 57 := by
    simp only [Char.isDigit, Bool.and_eq_true, decide_eq_true_eq] at h
    exact ⟨h.1, h.2⟩
  obtain ⟨h1, h2⟩ := h1
  have hc : c = Char.ofNat c.toNat := (Char.ofNat_toNat c).symm
  generalize c.toNat = k at *
  subst hc
  interval_cases k <;> rfl

theorem nat_snoc (s : Str) (c : Char) : nat (s ++ [c]) = 10 * nat s + (c.toNat - 48) := by simp [nat]

theorem digits_iff (s : Str) (v : Nat) : Digits s v ↔ (∀ c ∈ s, c.isDigit = true) ∧ v = nat s := by
  constructor
  · intro h
    induction h with
    | nil => exact ⟨by simp, rfl⟩
    | snoc _ hd ih =>
      obtain ⟨h1, h2⟩ := digit_char hd
      refine ⟨fun c hc => ?_, by rw [nat_snoc, h2, ih.2]⟩
      rcases List.mem_append.1 hc with hc | hc
      · exact ih.1 c hc
      · rw [List.mem_singleton.1 hc]; exact h1
  · rintro ⟨h, rfl⟩
    induction s using List.reverseRecOn with
    | nil => exact .nil
    | append_singleton s c ih =>
      rw [nat_snoc]
      exact .snoc (ih fun c hc => h c (by simp [hc])) (char_digit (h c (by simp)))

theorem foldl_nat (s : Str) (n : Nat) : s.foldl (fun n c => 10 * n + (c.toNat - 48)) n = n * 10 ^ s.length + nat s := by
  induction s using List.reverseRecOn with
  | nil => simp [nat]
  | append_singleton s c ih => rw [List.foldl_append, ih, nat_snoc, List.length_append]; simp [pow_succ]; ring

theorem nat_append (s t : Str) : nat (s ++ t) = nat s * 10 ^ t.length + nat t := by
  rw [nat, List.foldl_append]; exact foldl_nat t _

theorem split_digits {a b : Str} (ha : ∀ c ∈ a, c.isDigit = true) (hb : ∀ c, b.head? = some c → c.isDigit = false) :
    (a ++ b).takeWhile Char.isDigit = a ∧ (a ++ b).dropWhile Char.isDigit = b := by
  induction a with
  | nil =>
    cases b with
    | nil => simp
    | cons c b => simp [hb c rfl]
  | cons c a ih =>
    have := ih fun x hx => ha x (by simp [hx])
    simp [ha c (by simp), this]

theorem sign_spec {sg r : Str} {σ : Int} (h : Sign sg σ) (hr : ∀ c, r.head? = some c → c ≠ '+' ∧ c ≠ '-') : sign (sg ++ r) = (σ, r) := by
  rcases h with ⟨rfl, rfl⟩ | ⟨rfl, rfl⟩ | ⟨rfl, rfl⟩
  · cases r with
    | nil => rfl
    | cons c r => simp [sign, (hr c rfl).1, (hr c rfl).2]
  · simp [sign]
  · simp [sign]

theorem sign_some (s : Str) : ∃ sg, s = sg ++ (sign s).2 ∧ Sign sg (sign s).1 := by
  cases s with
  | nil => exact ⟨[], rfl, .inl ⟨rfl, rfl⟩⟩
  | cons c s =>
    by_cases h1 : c = '+'
    · subst h1; exact ⟨['+'], by simp [sign], .inr (.inl ⟨rfl, by simp [sign]⟩)⟩
    · by_cases h2 : c = '-'
      · subst h2; exact ⟨['-'], by simp [sign], .inr (.inr ⟨rfl, by simp [sign]⟩)⟩
      · exact ⟨[], by simp [sign, h1, h2], .inl ⟨rfl, by simp [sign, h1, h2]⟩⟩

theorem digit_not_sign {c : Char} (h : c.isDigit = true) : c ≠ '+' ∧ c ≠ '-' := by
  constructor <;> (rintro rfl; exact absurd h (by decide))

/-- what `int` takes for an integer, after the white space and underscores are gone -/
theorem integer_iff (s : Str) (n : Int) :
    Integer s n ↔ ((sign s).2 ≠ [] ∧ (sign s).2.all Char.isDigit = true) ∧ n = (sign s).1 * nat (sign s).2 := by
  constructor
  · rintro ⟨sg, σ, ds, v, rfl, hs, hd, hne, rfl⟩
    obtain ⟨h1, rfl⟩ := (digits_iff _ _).1 hd
    rw [sign_spec hs (by
      intro c hc
      exact digit_not_sign (h1 c (List.mem_of_mem_head? hc)))]
    exact ⟨⟨hne, by simpa using h1⟩, rfl⟩
  · rintro ⟨⟨h1, h2⟩, rfl⟩
    obtain ⟨sg, h3, h4⟩ := sign_some s
    exact ⟨sg, _, _, _, h3, h4, (digits_iff _ _).2 ⟨by simpa using h2, rfl⟩, h1, rfl⟩

theorem exponent_iff (s : Str) (x : Int) : exponent s = some x ↔ Exponent s x := by
  cases s with
  | nil => simp [exponent, Exponent, eq_comm]
  | cons c s =>
    simp only [exponent, Exponent, List.cons.injEq, reduceCtorEq, false_and, false_or]
    constructor
    · intro h
      split at h
      · rename_i hc
        split at h
        · rename_i hd
          cases h
          exact ⟨c, s, ⟨rfl, rfl⟩, hc, (integer_iff _ _).2 ⟨hd, rfl⟩⟩
        · cases h
      · cases h
    · rintro ⟨e, t, ⟨rfl, rfl⟩, hc, hi⟩
      obtain ⟨h1, rfl⟩ := (integer_iff _ _).1 hi
      rw [if_pos hc, if_pos h1]

theorem exponent_head {s : Str} {x : Int} (h : Exponent s x) : ∀ c, s.head? = some c → c.isDigit = false ∧ c ≠ '.' := by
  intro c hc
  rcases h with ⟨rfl, _⟩ | ⟨e, t, rfl, he, _⟩
  · cases hc
  · cases hc
    rcases he with rfl | rfl <;> decide

theorem magnitude_iff (s : Str) (q : Rat) :
    magnitude s = some q ↔ ∃ ms m es x, s = ms ++ es ∧ Mantissa ms m ∧ Exponent es x ∧ q = m * (10 : Rat) ^ x := by
  constructor
  · intro h
    have hs := (List.takeWhile_append_dropWhile (p := Char.isDigit) (l := s)).symm
    have h0 : ∀ c ∈ s.takeWhile Char.isDigit, c.isDigit = true := fun c hc => List.mem_takeWhile_imp hc
    unfold magnitude at h
    generalize s.takeWhile Char.isDigit = ip at *
    generalize s.dropWhile Char.isDigit = r at *
    simp only at h
    split at h
    · cases h
    · rename_i hne
      obtain ⟨x, hx, rfl⟩ := Option.map_eq_some_iff.1 h
      have hx' := (exponent_iff _ _).1 hx
      have ten : (10 : Rat) ≠ 0 := by norm_num
      by_cases hp : ∃ t, r = '.' :: t
      · obtain ⟨t, rfl⟩ := hp
        have hf : fraction ('.' :: t) = t.takeWhile Char.isDigit := by simp [fraction]
        have ht : tail ('.' :: t) = t.dropWhile Char.isDigit := by simp [tail]
        have h1 : ∀ c ∈ t.takeWhile Char.isDigit, c.isDigit = true := fun c hc => List.mem_takeWhile_imp hc
        rw [hf] at hne ⊢
        rw [ht] at hx'
        have e1 := (List.takeWhile_append_dropWhile (p := Char.isDigit) (l := t)).symm
        generalize t.takeWhile Char.isDigit = fs at *
        generalize t.dropWhile Char.isDigit = es at *
        refine ⟨ip ++ '.' :: fs, (nat ip : Rat) + nat fs / 10 ^ fs.length, es, x, by rw [hs, e1]; simp,
          .inr ⟨ip, fs, nat ip, nat fs, rfl, (digits_iff _ _).2 ⟨h0, rfl⟩, (digits_iff _ _).2 ⟨h1, rfl⟩, ?_, rfl⟩, hx', ?_⟩
        · by_contra hn; push Not at hn; exact hne hn
        · rw [nat_append, zpow_sub₀ ten, zpow_natCast]
          push_cast
          have : (10 : Rat) ^ fs.length ≠ 0 := pow_ne_zero _ ten
          field_simp
      · have hf : fraction r = [] := by
          cases r with
          | nil => rfl
          | cons c r => rw [fraction, if_neg]; rintro rfl; exact hp ⟨r, rfl⟩
        have ht : tail r = r := by
          cases r with
          | nil => rfl
          | cons c r => rw [tail, if_neg]; rintro rfl; exact hp ⟨r, rfl⟩
        rw [hf] at hne ⊢
        rw [ht] at hx'
        refine ⟨ip, nat ip, r, x, hs, .inl ⟨_, (digits_iff _ _).2 ⟨h0, rfl⟩, fun h => hne ⟨h, rfl⟩, rfl⟩, hx', ?_⟩
        simp
  · rintro ⟨ms, m, es, x, rfl, hm, hx, rfl⟩
    have hh := exponent_head hx
    have hx' := (exponent_iff _ _).2 hx
    rcases hm with ⟨v, hd, hne, rfl⟩ | ⟨ds, fs, v, f, rfl, hd, hf, hne, rfl⟩
    · obtain ⟨h1, rfl⟩ := (digits_iff _ _).1 hd
      obtain ⟨e1, e2⟩ := split_digits h1 fun c hc => (hh c hc).1
      have hf : fraction es = [] := by
        cases es with
        | nil => rfl
        | cons c r => rw [fraction, if_neg (hh c rfl).2]
      have ht : tail es = es := by
        cases es with
        | nil => rfl
        | cons c r => rw [tail, if_neg (hh c rfl).2]
      simp only [magnitude, e1, e2, hf, ht, hx']
      rw [if_neg (by simp [hne])]
      simp
    · obtain ⟨h1, rfl⟩ := (digits_iff _ _).1 hd
      obtain ⟨h2, rfl⟩ := (digits_iff _ _).1 hf
      obtain ⟨e1, e2⟩ := split_digits (b := '.' :: (fs ++ es)) h1 (by intro c hc; cases hc; decide)
      obtain ⟨e3, e4⟩ := split_digits h2 fun c hc => (hh c hc).1
      have ten : (10 : Rat) ≠ 0 := by norm_num
      have e0 : ds ++ '.' :: fs ++ es = ds ++ '.' :: (fs ++ es) := by simp
      rw [e0]
      simp only [magnitude, e1, e2, fraction, tail, if_true, e3, e4, hx']
      rw [if_neg (by tauto)]
      simp only [Option.map_some, Option.some.injEq]
      rw [nat_append, zpow_sub₀ ten, zpow_natCast]
      push_cast
      have : (10 : Rat) ^ fs.length ≠ 0 := pow_ne_zero _ ten
      field_simp

theorem mantissa_head {s : Str} {m : Rat} (h : Mantissa s m) (t : Str) : ∀ c, (s ++ t).head? = some c → c ≠ '+' ∧ c ≠ '-' := by
  intro c hc
  rcases h with ⟨v, hd, hne, _⟩ | ⟨ds, fs, v, f, rfl, hd, _, _, _⟩
  · cases s with
    | nil => exact absurd rfl hne
    | cons d s => cases hc; exact digit_not_sign (((digits_iff _ _).1 hd).1 _ (List.mem_cons_self))
  · cases ds with
    | nil => cases hc; decide
    | cons d s => cases hc; exact digit_not_sign (((digits_iff _ _).1 hd).1 _ (List.mem_cons_self))

theorem decimal_iff (s : Str) (q : Rat) : Decimal s q ↔ ∃ m, magnitude (sign s).2 = some m ∧ q = (sign s).1 * m := by
  constructor
  · rintro ⟨sg, σ, ms, m, es, x, rfl, hs, hm, hx, rfl⟩
    rw [List.append_assoc, sign_spec hs (mantissa_head hm es)]
    exact ⟨m * 10 ^ x, (magnitude_iff _ _).2 ⟨ms, m, es, x, rfl, hm, hx, rfl⟩, by ring⟩
  · rintro ⟨m, hm, rfl⟩
    obtain ⟨sg, h1, h2⟩ := sign_some s
    obtain ⟨ms, m, es, x, h3, h4, h5, rfl⟩ := (magnitude_iff _ _).1 hm
    exact ⟨sg, _, ms, m, es, x, by rw [h1, h3]; simp, h2, h4, h5, by ring⟩

theorem dropWhile_blank {a s : Str} (ha : Blank a) (hs : ∀ c, s.head? = some c → white c = false) : (a ++ s).dropWhile white = s := by
  induction a with
  | nil =>
    cases s with
    | nil => rfl
    | cons c s => simp [hs c rfl]
  | cons c a ih =>
    rw [List.cons_append, List.dropWhile_cons_of_pos ((white_iff c).2 (ha c (by simp)))]
    exact ih fun x hx => ha x (by simp [hx])

theorem solid_white {s : Str} (h : Solid s) {c : Char} (hc : c ∈ s) : white c = false := by
  rw [← Bool.not_eq_true, white_iff]; exact h c hc

theorem strip_blank {a s b : Str} (ha : Blank a) (hs : Solid s) (hb : Blank b) : strip (a ++ s ++ b) = s := by
  cases s with
  | nil =>
    have : Blank (a ++ b) := fun c hc => (List.mem_append.1 hc).elim (ha c) (hb c)
    have := dropWhile_blank (s := []) this (by simp)
    simp only [List.append_nil] at this ⊢
    simp [strip, this]
  | cons c s =>
    rw [strip, List.append_assoc, dropWhile_blank ha (by intro x hx; cases hx; exact solid_white hs (by simp)), List.reverse_append,
      dropWhile_blank (fun c hc => hb c (List.mem_reverse.1 hc)), List.reverse_reverse]
    intro x hx
    exact solid_white hs (List.mem_reverse.1 (List.mem_of_mem_head? hx))

theorem joined_plain {s : Str} (h : '_' ∉ s) (p : Char) (hp : p ≠ '_') : joined p s = some s := by
  induction s generalizing p with
  | nil => simp [joined, hp]
  | cons c s ih =>
    simp only [List.mem_cons, not_or] at h
    have hc : c ≠ '_' := Ne.symm h.1
    rw [joined, if_neg hc, if_neg (by simp [hp]), ih h.2 c hc]
    rfl

theorem special_not_fin (σ : Int) (s : Str) (q : Rat) : special σ s ≠ some (.fin q) := by
  unfold special
  split
  · split <;> simp
  · split <;> simp

theorem pyFloat_iff {a s b : Str} (ha : Blank a) (hs : Solid s) (hb : Blank b) (hu : '_' ∉ s) (q : Rat) :
    pyFloat (a ++ s ++ b) = some (.fin q) ↔ Decimal s q := by
  rw [pyFloat, strip_blank ha hs hb, joined_plain hu _ (by decide), Option.bind_some, decimal_iff]
  cases hm : magnitude (sign s).2 with
  | none => simp [special_not_fin]
  | some m => simp [eq_comm]

theorem comma_blank {a : Str} (h : Blank a) : comma a = a := by
  unfold comma
  conv_rhs => rw [← List.map_id a]
  refine List.map_congr_left fun c hc => ?_
  rw [if_neg]; · rfl
  rintro rfl
  exact absurd (h _ hc) (by decide)

theorem comma_solid {s : Str} (h : Solid s) : Solid (comma s) := by
  intro c hc
  obtain ⟨d, hd, rfl⟩ := List.mem_map.1 hc
  split
  · decide
  · exact h d hd

theorem comma_underscore {s : Str} (h : '_' ∉ s) : '_' ∉ comma s := by
  intro hc
  obtain ⟨d, hd, he⟩ := List.mem_map.1 hc
  split at he
  · exact absurd he (by decide)
  · subst he; exact h hd

theorem comma_id {s : Str} (h : '.' ∉ comma s ∨ ',' ∉ s) : comma s = s := by
  unfold comma at *
  conv_rhs => rw [← List.map_id s]
  refine List.map_congr_left fun c hc => ?_
  rw [if_neg]; · rfl
  rintro rfl
  rcases h with h | h
  · exact h (List.mem_map.2 ⟨',', hc, by simp⟩)
  · exact h hc

/-- **C103.** `read_item_float` yields the number that the item stands for in decimal notation, where a comma is the same as a point and white space around the number
doesn't matter, and refuses items that aren't a number in decimal notation (but for inf and nan) -/
theorem C103_float {a s b : Str} (ha : Blank a) (hs : Solid s) (hb : Blank b) (hu : '_' ∉ s) (q : Rat) :
    toFloat (a ++ s ++ b) = some (.fin q) ↔ Decimal (s.map fun c => if c = ',' then '.' else c) q := by
  have e : comma (a ++ s ++ b) = a ++ comma s ++ b := by
    rw [comma, List.map_append, List.map_append, ← comma, ← comma, ← comma, comma_blank ha, comma_blank hb]
  rw [toFloat, e, pyFloat_iff ha (comma_solid hs) hb (comma_underscore hu)]
  rfl

theorem integer_chars {s : Str} {n : Int} (h : Integer s n) : ∀ c ∈ s, c = '+' ∨ c = '-' ∨ c.isDigit = true := by
  obtain ⟨sg, σ, ds, v, rfl, hs, hd, _, _⟩ := h
  intro c hc
  rcases List.mem_append.1 hc with hc | hc
  · rcases hs with ⟨rfl, _⟩ | ⟨rfl, _⟩ | ⟨rfl, _⟩ <;> simp at hc
    · exact .inl hc
    · exact .inr (.inl hc)
  · exact .inr (.inr (((digits_iff _ _).1 hd).1 c hc))

/-- C103: `read_item_int` yields the integer that the item stands for, and refuses everything else, in particular items with a point or a comma -/
theorem C103_int {a s b : Str} (ha : Blank a) (hs : Solid s) (hb : Blank b) (hu : '_' ∉ s) (n : Int) :
    toInt (a ++ s ++ b) = some n ↔ Integer s n := by
  have e : comma (a ++ s ++ b) = a ++ comma s ++ b := by
    rw [comma, List.map_append, List.map_append, ← comma, ← comma, ← comma, comma_blank ha, comma_blank hb]
  have key : toInt (a ++ s ++ b) = some n ↔ Integer (comma s) n := by
    rw [toInt, e, pyInt, strip_blank ha (comma_solid hs) hb, joined_plain (comma_underscore hu) _ (by decide), Option.bind_some, integer_iff]
    split
    · rename_i h; simp [h, eq_comm]
    · rename_i h; simp only [reduceCtorEq, false_iff, not_and]; exact fun h' => absurd h' h
  rw [key]
  constructor
  · intro h
    rwa [comma_id (.inl fun hc => by rcases integer_chars h _ hc with h | h | h <;> exact absurd h (by decide))] at h
  · intro h
    rwa [comma_id (.inr fun hc => by rcases integer_chars h _ hc with h | h | h <;> exact absurd h (by decide))]

theorem toLower_cases (c : Char) : c.toLower = c ∨ (97 ≤ c.toLower.toNat ∧ c.toLower.toNat ≤ 122) := by
  by_cases h : 65 ≤ c.toNat ∧ c.toNat ≤ 90
  · right
    obtain ⟨h1, h2⟩ := h
    have hc : c = Char.ofNat c.toNat := (Char.ofNat_toNat c).symm
    generalize c.toNat = k at *
    subst hc
    interval_cases k <;> decide
  · left
    unfold Char.toLower
    split
    · rename_i h'
      exact absurd ⟨h'.1, h'.2⟩ h
    · rfl

theorem lower_underscore {s : Str} (h : '_' ∉ s) : '_' ∉ lower s := by
  intro hc
  obtain ⟨d, hd, he⟩ := List.mem_map.1 hc
  rcases toLower_cases d with h1 | h1
  · rw [h1] at he; subst he; exact h hd
  · rw [he] at h1; exact absurd h1 (by decide)

theorem lower_solid {s : Str} (h : Solid s) : Solid (lower s) := by
  intro c hc
  obtain ⟨d, hd, rfl⟩ := List.mem_map.1 hc
  rcases toLower_cases d with h1 | h1
  · rw [h1]; exact h d hd
  · simp only [List.mem_cons, List.not_mem_nil, or_false]; omega

/-- C103: `read_item_bool` yields False for an empty item, for `false` (in lower or upper case) and for a number (see `read_item_float`, but without decimal comma)
that is 0 or so close to it that it is 0 as a float; for everything else it yields True. It never raises ValueError. -/
theorem C103_bool {a s b : Str} (ha : Blank a) (hs : Solid s) (hb : Blank b) (hu : '_' ∉ s) :
    toBool (a ++ s ++ b) = false ↔
      s = [] ∨ s.map Char.toLower = "false".toList ∨ ∃ q, Decimal (s.map Char.toLower) q ∧ |q| ≤ 1 / 2 ^ 1075 := by
  have key : ∀ q, pyFloat (lower s) = some (.fin q) ↔ Decimal (lower s) q := fun q => by
    simpa using pyFloat_iff (a := []) (b := []) (by simp [Blank]) (lower_solid hs) (by simp [Blank]) (lower_underscore hu) q
  unfold toBool
  rw [strip_blank ha hs hb]
  simp only
  change _ ↔ s = [] ∨ lower s = "false".toList ∨ ∃ q, Decimal (lower s) q ∧ |q| ≤ 1 / 2 ^ 1075
  have he : lower s = [] ↔ s = [] := by simp [lower]
  by_cases h1 : lower s = "false".toList
  · simp only [h1, if_true, true_or, or_true]
  · rw [if_neg h1]
    simp only [h1, false_or]
    cases hf : pyFloat (lower s) with
    | none =>
      have : ¬ ∃ q, Decimal (lower s) q ∧ |q| ≤ 1 / 2 ^ 1075 := by
        rintro ⟨q, hq, _⟩; rw [(key q).2 hq] at hf; cases hf
      rw [or_iff_left this]
      simp [he]
    | some x =>
      cases x with
      | fin q =>
        have hq := (key q).1 hf
        have uniq : (∃ q, Decimal (lower s) q ∧ |q| ≤ 1 / 2 ^ 1075) ↔ |q| ≤ 1 / 2 ^ 1075 := by
          constructor
          · rintro ⟨q', h, h'⟩
            have := (key q').2 h
            rw [hf] at this; cases this; exact h'
          · exact fun h => ⟨q, hq, h⟩
        rw [uniq]
        by_cases hz : |q| ≤ 1 / 2 ^ 1075
        · have : Num.isZero (.fin q) = true := by simp only [Num.isZero, decide_eq_true_eq]; exact hz
          simp only [Option.map_some, this, true_iff]
          exact .inr hz
        · have : Num.isZero (.fin q) = false := by simp only [Num.isZero, decide_eq_false_iff_not]; exact hz
          simp only [Option.map_some, this]
          simp [he]
          intro h; exact absurd h (by simpa using hz)
      | _ =>
        have : ¬ ∃ q, Decimal (lower s) q ∧ |q| ≤ 1 / 2 ^ 1075 := by
          rintro ⟨q, hq, _⟩; rw [(key q).2 hq] at hf; cases hf
        rw [or_iff_left this]
        simp [he, Num.isZero]

/-- inf or nan, in lower or upper case, with or without sign -/
def Special (s : Str) (x : Num) : Prop :=
  ∃ sg σ r, s = sg ++ r ∧ Sign sg σ ∧
    (((r.map Char.toLower = "inf".toList ∨ r.map Char.toLower = "infinity".toList) ∧ x = if σ = 1 then .inf else .ninf) ∨
      (r.map Char.toLower = "nan".toList ∧ x = .nan))

theorem word_head {r : Str} (h : lower r = "inf".toList ∨ lower r = "infinity".toList ∨ lower r = "nan".toList) :
    ∃ c t, r = c :: t ∧ c.isDigit = false ∧ c ≠ '.' ∧ c ≠ '+' ∧ c ≠ '-' := by
  cases r with
  | nil => rcases h with h | h | h <;> cases h
  | cons c t =>
    have h' : c.toLower = 'i' ∨ c.toLower = 'n' := by
      rcases h with h | h | h
      · exact .inl (List.cons.inj h).1
      · exact .inl (List.cons.inj h).1
      · exact .inr (List.cons.inj h).1
    refine ⟨c, t, rfl, ?_, ?_, ?_, ?_⟩
    · by_contra hd
      rw [Bool.not_eq_false] at hd
      have := char_digit hd
      have hl : c ∈ "0123456789".toList := List.mem_of_getElem? this
      simp only [String.reduceToList, List.mem_cons, List.not_mem_nil, or_false] at hl
      rcases hl with rfl | rfl | rfl | rfl | rfl | rfl | rfl | rfl | rfl | rfl <;> exact absurd h' (by decide)
    all_goals (rintro rfl; exact absurd h' (by decide))

theorem word_magnitude {c : Char} {t : Str} (h1 : c.isDigit = false) (h2 : c ≠ '.') : magnitude (c :: t) = none := by
  simp [magnitude, h1, fraction, h2]

theorem pyFloat_special {a s b : Str} (ha : Blank a) (hs : Solid s) (hb : Blank b) (hu : '_' ∉ s) (x : Num) :
    (pyFloat (a ++ s ++ b) = some x ∧ ∀ q, x ≠ .fin q) ↔ Special s x := by
  rw [pyFloat, strip_blank ha hs hb, joined_plain hu _ (by decide), Option.bind_some]
  constructor
  · rintro ⟨h, hx⟩
    obtain ⟨sg, h1, h2⟩ := sign_some s
    refine ⟨sg, _, _, h1, h2, ?_⟩
    split at h
    · cases h; exact absurd rfl (hx _)
    · unfold special at h
      split at h
      · rename_i hw; cases h; exact .inl ⟨hw, rfl⟩
      · split at h
        · rename_i hw; cases h; exact .inr ⟨hw, rfl⟩
        · cases h
  · rintro ⟨sg, σ, r, rfl, hsg, h⟩
    have hw : lower r = "inf".toList ∨ lower r = "infinity".toList ∨ lower r = "nan".toList := by
      rcases h with ⟨h | h, _⟩ | ⟨h, _⟩
      · exact .inl h
      · exact .inr (.inl h)
      · exact .inr (.inr h)
    obtain ⟨c, t, rfl, h1, h2, h3, h4⟩ := word_head hw
    rw [sign_spec hsg (by intro d hd; cases hd; exact ⟨h3, h4⟩)]
    simp only [word_magnitude h1 h2]
    rcases h with ⟨h, rfl⟩ | ⟨h, rfl⟩
    · refine ⟨?_, by intro q; split <;> simp⟩
      change lower (c :: t) = _ ∨ lower (c :: t) = _ at h
      rw [special, if_pos h]
    · refine ⟨?_, by simp⟩
      change lower (c :: t) = _ at h
      rw [special, h, if_neg (by decide), if_pos rfl]

/-- C103: `read_item_float` also accepts inf, infinity and nan, and refuses everything else -/
theorem C103_special {a s b : Str} (ha : Blank a) (hs : Solid s) (hb : Blank b) (hu : '_' ∉ s) (x : Num) :
    ((toFloat (a ++ s ++ b) = some x ∧ ∀ q, x ≠ .fin q) ↔ Special (s.map fun c => if c = ',' then '.' else c) x) := by
  have e : comma (a ++ s ++ b) = a ++ comma s ++ b := by
    rw [comma, List.map_append, List.map_append, ← comma, ← comma, ← comma, comma_blank ha, comma_blank hb]
  rw [toFloat, e, pyFloat_special ha (comma_solid hs) hb (comma_underscore hu)]
  rfl

/-! ## underscores -/

theorem dropWhile_before {c : Char} (hc : white c = false) (a b : Str) : (a ++ c :: b).dropWhile white = a.dropWhile white ++ c :: b := by
  induction a with
  | nil => simp [hc]
  | cons d a ih =>
    by_cases hd : white d = true
    · simp [hd, ih]
    · simp [hd]

/-- the text without the white space at the end -/
def rstrip (b : Str) : Str := (b.reverse.dropWhile white).reverse

theorem strip_mid {c : Char} (hc : white c = false) (a b : Str) : strip (a ++ c :: b) = a.dropWhile white ++ c :: rstrip b := by
  rw [strip, dropWhile_before hc, List.reverse_append, List.reverse_cons, List.append_assoc]
  have : ([c] ++ (a.dropWhile white).reverse) = c :: (a.dropWhile white).reverse := rfl
  rw [this, dropWhile_before hc]
  simp [rstrip]

theorem digit_white {c : Char} (h : c.isDigit = true) : white c = false := by
  have hl : c ∈ "0123456789".toList := List.mem_of_getElem? (char_digit h)
  simp only [String.reduceToList, List.mem_cons, List.not_mem_nil, or_false] at hl
  rcases hl with rfl | rfl | rfl | rfl | rfl | rfl | rfl | rfl | rfl | rfl <;> decide

theorem digit_underscore {c : Char} (h : c.isDigit = true) : c ≠ '_' := by rintro rfl; exact absurd h (by decide)

theorem joined_between {d e : Char} (hd : d.isDigit = true) (he : e.isDigit = true) (a b : Str) (p : Char) :
    joined p (a ++ d :: '_' :: e :: b) = joined p (a ++ d :: e :: b) := by
  induction a generalizing p with
  | nil => simp [joined, hd, he, digit_underscore hd, digit_underscore he]
  | cons c a ih => simp only [List.cons_append, joined, ih]

theorem rstrip_cons {c : Char} (hc : white c = false) (b : Str) : rstrip (c :: b) = c :: rstrip b := by
  rw [rstrip, List.reverse_cons, dropWhile_before hc]; simp [rstrip]

theorem stripped_between {d e : Char} (hd : d.isDigit = true) (he : e.isDigit = true) (a b : Str) (p : Char) :
    joined p (strip (a ++ d :: '_' :: e :: b)) = joined p (strip (a ++ d :: e :: b)) := by
  rw [strip_mid (digit_white hd), strip_mid (digit_white hd), rstrip_cons (by decide), rstrip_cons (digit_white he), joined_between hd he]

theorem comma_append (a b : Str) : comma (a ++ b) = comma a ++ comma b := List.map_append

theorem comma_digit {c : Char} (h : c.isDigit = true) (s : Str) : comma (c :: s) = c :: comma s := by
  rw [comma, List.map_cons, if_neg (by rintro rfl; exact absurd h (by decide))]; rfl

theorem lower_digit {c : Char} (h : c.isDigit = true) : c.toLower = c := by
  have hl : c ∈ "0123456789".toList := List.mem_of_getElem? (char_digit h)
  simp only [String.reduceToList, List.mem_cons, List.not_mem_nil, or_false] at hl
  rcases hl with rfl | rfl | rfl | rfl | rfl | rfl | rfl | rfl | rfl | rfl <;> decide

theorem joined_around {a b : Str} {p : Char} (h : joined p (a ++ '_' :: b) ≠ none) :
    ((a = [] ∧ p.isDigit = true) ∨ ∃ a' d, a = a' ++ [d] ∧ d.isDigit = true) ∧ ∃ e b', b = e :: b' ∧ e.isDigit = true := by
  induction a generalizing p with
  | nil =>
    rw [List.nil_append, joined, if_pos rfl] at h
    split at h
    · rename_i hp
      refine ⟨.inl ⟨rfl, hp⟩, ?_⟩
      cases b with
      | nil => exact absurd rfl h
      | cons e b =>
        refine ⟨e, b, rfl, ?_⟩
        by_contra he
        rw [joined] at h
        by_cases hu : e = '_'
        · rw [if_pos hu, if_neg (by decide)] at h; exact h rfl
        · rw [if_neg hu, if_pos ⟨rfl, he⟩] at h; exact h rfl
    · exact absurd rfl h
  | cons c a ih =>
    have h' : joined c (a ++ '_' :: b) ≠ none := by
      intro hn
      rw [List.cons_append, joined, hn] at h
      simp at h
    obtain ⟨h1, h2⟩ := ih h'
    refine ⟨.inr ?_, h2⟩
    rcases h1 with ⟨rfl, hc⟩ | ⟨a', d, rfl, hd⟩
    · exact ⟨[], c, rfl, hc⟩
    · exact ⟨c :: a', d, rfl, hd⟩

/-- C103: an underscore between two digits makes no difference -/
theorem C103_underscore (a b : Str) {d e : Char} (hd : d ∈ "0123456789".toList) (he : e ∈ "0123456789".toList) :
    toInt (a ++ d :: '_' :: e :: b) = toInt (a ++ d :: e :: b) ∧
    toFloat (a ++ d :: '_' :: e :: b) = toFloat (a ++ d :: e :: b) ∧
    (toBool (a ++ d :: '_' :: e :: b) = false ↔ toBool (a ++ d :: e :: b) = false) := by
  obtain ⟨i, hi⟩ := List.getElem?_of_mem hd
  obtain ⟨j, hj⟩ := List.getElem?_of_mem he
  replace hd := (digit_char hi).1
  replace he := (digit_char hj).1
  have e1 : comma (a ++ d :: '_' :: e :: b) = comma a ++ d :: '_' :: e :: comma b := by
    rw [comma_append, comma_digit hd]
    have : comma ('_' :: e :: b) = '_' :: comma (e :: b) := by simp [comma]
    rw [this, comma_digit he]
  have e2 : comma (a ++ d :: e :: b) = comma a ++ d :: e :: comma b := by rw [comma_append, comma_digit hd, comma_digit he]
  have e3 : lower (strip (a ++ d :: '_' :: e :: b)) = lower (a.dropWhile white) ++ d :: '_' :: e :: lower (rstrip b) := by
    rw [strip_mid (digit_white hd), rstrip_cons (by decide), rstrip_cons (digit_white he)]
    simp [lower, lower_digit hd, lower_digit he]
  have e4 : lower (strip (a ++ d :: e :: b)) = lower (a.dropWhile white) ++ d :: e :: lower (rstrip b) := by
    rw [strip_mid (digit_white hd), rstrip_cons (digit_white he)]
    simp [lower, lower_digit hd, lower_digit he]
  have nf : ∀ x y : Str, x ++ d :: y ≠ "false".toList := by
    intro x y h
    have : d ∈ "false".toList := by rw [← h]; simp
    simp only [String.reduceToList, List.mem_cons, List.not_mem_nil, or_false] at this
    rcases this with rfl | rfl | rfl | rfl | rfl <;> exact absurd hd (by decide)
  refine ⟨by rw [toInt, toInt, pyInt, pyInt, e1, e2, stripped_between hd he], by rw [toFloat, toFloat, pyFloat, pyFloat, e1, e2, stripped_between hd he], ?_⟩
  rw [toBool, toBool, e3, e4]
  simp only [nf, if_false]
  rw [pyFloat, pyFloat, stripped_between hd he]
  simp

/-- C103: underscores anywhere else are refused -/
theorem C103_underscore_refused (a b : Str) (h : toInt (a ++ '_' :: b) ≠ none ∨ toFloat (a ++ '_' :: b) ≠ none) :
    (∃ a' d, a = a' ++ [d] ∧ d ∈ "0123456789".toList) ∧ ∃ e b', b = e :: b' ∧ e ∈ "0123456789".toList := by
  have e1 : comma (a ++ '_' :: b) = comma a ++ '_' :: comma b := by
    rw [comma_append]; simp [comma]
  have h' : joined '\x00' (strip (comma a ++ '_' :: comma b)) ≠ none := by
    intro hn
    rw [toInt, toFloat, pyInt, pyFloat, e1, hn] at h
    simp at h
  rw [strip_mid (by decide)] at h'
  obtain ⟨h1, h2⟩ := joined_around h'
  have back : ∀ c d : Char, (if c = ',' then '.' else c) = d → d.isDigit = true → c = d := by
    intro c d hc hd
    split at hc
    · subst hc; exact absurd hd (by decide)
    · exact hc
  constructor
  · rcases h1 with ⟨_, h1⟩ | ⟨a', d, h1, hd⟩
    · exact absurd h1 (by decide)
    · have hs := (List.takeWhile_append_dropWhile (p := white) (l := comma a)).symm
      rw [h1, ← List.append_assoc, comma] at hs
      obtain ⟨x, y, rfl, hx, hy⟩ := List.map_eq_append_iff.1 hs
      obtain ⟨z, rfl, hz⟩ := List.map_eq_singleton_iff.1 hy
      exact ⟨x, z, rfl, by rw [back z d hz hd]; exact List.mem_of_getElem? (char_digit hd)⟩
  · obtain ⟨e, b', h2, he⟩ := h2
    have hs : comma b = rstrip (comma b) ++ ((comma b).reverse.takeWhile white).reverse := by
      rw [rstrip, ← List.reverse_append, List.takeWhile_append_dropWhile, List.reverse_reverse]
    rw [h2, List.cons_append, comma] at hs
    obtain ⟨z, y, rfl, hz, hy⟩ := List.map_eq_cons_iff.1 hs
    exact ⟨z, y, rfl, by rw [back z e hz he]; exact List.mem_of_getElem? (char_digit he)⟩

/-! ## the three readings of an item -/

theorem joined_filter {p : Char} {s t : Str} (h : joined p s = some t) : t = s.filter (· ≠ '_') := by
  induction s generalizing p t with
  | nil =>
    rw [joined] at h
    split at h
    · cases h
    · cases h; rfl
  | cons c s ih =>
    rw [joined] at h
    split at h
    · rename_i hc
      split at h
      · rw [ih h]; simp [hc]
      · cases h
    · rename_i hc
      split at h
      · cases h
      · obtain ⟨u, hu, rfl⟩ := Option.map_eq_some_iff.1 h
        rw [ih hu]; simp [hc]

theorem integer_decimal {s : Str} {n : Int} (h : Integer s n) : Decimal s n := by
  obtain ⟨sg, σ, ds, v, rfl, hs, hd, hne, rfl⟩ := h
  exact ⟨sg, σ, ds, v, [], 0, by simp, hs, .inl ⟨v, hd, hne, rfl⟩, .inl ⟨rfl, rfl⟩, by push_cast; simp⟩

theorem pyInt_some {s : Str} {n : Int} (h : pyInt s = some n) : ∃ t, joined '\x00' (strip s) = some t ∧ Integer t n := by
  unfold pyInt at h
  obtain ⟨t, ht, h⟩ := Option.bind_eq_some_iff.1 h
  split at h
  · rename_i hd
    cases h
    exact ⟨t, ht, (integer_iff _ _).2 ⟨hd, rfl⟩⟩
  · cases h

theorem mem_strip {c : Char} (hc : white c = false) {s : Str} (h : c ∈ s) : c ∈ strip s := by
  obtain ⟨a, b, rfl⟩ := List.append_of_mem h
  rw [strip_mid hc]; simp

theorem small_int (n : Int) : |(n : Rat)| ≤ 1 / 2 ^ 1075 ↔ n = 0 := by
  constructor
  · intro h
    by_contra hn
    have h1 : (1 : Rat) ≤ |(n : Rat)| := by exact_mod_cast Int.one_le_abs hn
    have h2 : (1 : Rat) / 2 ^ 1075 < 1 := by
      rw [div_lt_one (by positivity)]
      exact one_lt_pow₀ (by norm_num) (by norm_num)
    exact absurd (lt_of_le_of_lt (le_trans h1 h) h2) (lt_irrefl _)
  · rintro rfl; simp

/-- C103: an item that `read_item_int` reads as `n` is also read as `n` by `read_item_float`, and by `read_item_bool` as whether `n` is not 0 -/
theorem C103_agree {s : Str} {n : Int} (h : toInt s = some n) : toFloat s = some (.fin n) ∧ (toBool s = false ↔ n = 0) := by
  obtain ⟨t, ht, hi⟩ := pyInt_some h
  have hf : pyFloat (comma s) = some (.fin n) := by
    rw [pyFloat, ht, Option.bind_some]
    obtain ⟨m, h1, h2⟩ := (decimal_iff _ _).1 (integer_decimal hi)
    rw [h1, h2]
  refine ⟨hf, ?_⟩
  have hjf := joined_filter ht
  have chars : ∀ c ∈ strip (comma s), c = '_' ∨ c = '+' ∨ c = '-' ∨ c.isDigit = true := by
    intro c hc
    by_cases hu : c = '_'
    · exact .inl hu
    · exact .inr (integer_chars hi c (by rw [hjf]; simp [hc, hu]))
  have hcs : comma s = s := comma_id (.inl fun hc => by
    rcases chars _ (mem_strip (by decide) hc) with h | h | h | h <;> exact absurd h (by decide))
  rw [hcs] at hf ht hjf chars
  have hlow : lower (strip s) = strip s := by
    unfold lower
    conv_rhs => rw [← List.map_id (strip s)]
    refine List.map_congr_left fun c hc => ?_
    rcases chars c hc with rfl | rfl | rfl | h
    · decide
    · decide
    · decide
    · exact lower_digit h
  have hsolid : Solid (strip s) := by
    intro c hc
    rw [← white_iff, Bool.not_eq_true]
    rcases chars c hc with rfl | rfl | rfl | h
    · decide
    · decide
    · decide
    · exact digit_white h
  have hss : strip (strip s) = strip s := by
    simpa using strip_blank (a := []) (b := []) (by simp [Blank]) hsolid (by simp [Blank])
  have hf' : pyFloat (strip s) = some (.fin n) := by
    rw [pyFloat, hss, ← pyFloat]; exact hf
  have hne : strip s ≠ [] := by
    intro h0
    rw [h0] at hjf
    obtain ⟨sg, σ, ds, v, h1, _, _, h2, _⟩ := hi
    rw [h1] at hjf
    simp at hjf
    exact h2 hjf.2
  have hnf : strip s ≠ "false".toList := by
    intro h0
    rw [h0] at chars
    rcases chars 'f' (by decide) with h | h | h | h <;> exact absurd h (by decide)
  unfold toBool
  rw [hlow]
  simp only [hnf, if_false, hf', Option.map_some, Num.isZero, hne]
  rw [← small_int]
  by_cases hz : |(n : Rat)| ≤ 1 / 2 ^ 1075
  · simp only [hz, decide_true]
  · simp only [hz, decide_false]
    simp

/-- a natural number in decimal notation, as written by `str` -/
def strNat (n : Nat) : Str := if n < 10 then ["0123456789".toList.getD n '0'] else strNat (n / 10) ++ ["0123456789".toList.getD (n % 10) '0']

/-- an integer in decimal notation, as written by `str` -/
def strInt (n : Int) : Str := if n < 0 then '-' :: strNat n.natAbs else strNat n.natAbs

theorem strNat_digits (n : Nat) : Digits (strNat n) n ∧ strNat n ≠ [] := by
  have one : ∀ d, d < 10 → "0123456789".toList[d]? = some ("0123456789".toList.getD d '0') := by decide
  induction n using Nat.strong_induction_on with
  | _ n ih =>
    rw [strNat]
    split
    · rename_i h
      have := Digits.snoc .nil (one n h)
      exact ⟨by simpa using this, by simp⟩
    · rename_i h
      have := Digits.snoc (ih (n / 10) (by omega)).1 (one (n % 10) (by omega))
      rw [Nat.div_add_mod] at this
      exact ⟨this, by simp⟩

theorem strInt_integer (n : Int) : Integer (strInt n) n := by
  obtain ⟨h1, h2⟩ := strNat_digits n.natAbs
  unfold strInt
  split
  · exact ⟨['-'], -1, _, _, rfl, .inr (.inr ⟨rfl, rfl⟩), h1, h2, by omega⟩
  · exact ⟨[], 1, _, _, rfl, .inl ⟨rfl, rfl⟩, h1, h2, by omega⟩

theorem strInt_chars (n : Int) (c : Char) (hc : c ∈ strInt n) : c ∈ "+-0123456789".toList := by
  rcases integer_chars (strInt_integer n) c hc with rfl | rfl | h
  · decide
  · decide
  · have hl : c ∈ "0123456789".toList := List.mem_of_getElem? (char_digit h)
    simp only [String.reduceToList, List.mem_cons, List.not_mem_nil, or_false] at hl ⊢
    tauto

theorem strInt_read (n : Int) : toInt (strInt n) = some n := by
  have hs : Solid (strInt n) := by
    intro c hc
    have h : ∀ c ∈ "+-0123456789".toList, c.toNat ∉ [9, 10, 11, 12, 13, 28, 29, 30, 31, 32] := by decide
    exact h c (strInt_chars n c hc)
  have hu : '_' ∉ strInt n := fun hc => absurd (strInt_chars n _ hc) (by decide)
  simpa using (C103_int (a := []) (b := []) (by simp [Blank]) hs (by simp [Blank]) hu n).2 (strInt_integer n)

/-- the first `k` readings of an item file -/
def readMany {A : Type} (conv : Str → Option A) : Nat → List Str → List (Except Err A)
  | 0, _ => []
  | k + 1, l => (readAs conv l).1 :: readMany conv k (readAs conv l).2

/-- C103: the readings are those of the items one by one, also after a ValueError; after the last item EOFError is raised every time -/
theorem C103_each {A : Type} (conv : Str → Option A) (l : List Str) (n k : Nat) (hk : k < n) :
    (readMany conv n l)[k]? = some (match l[k]? with
      | none => .error .eof
      | some i => match conv i with
        | none => .error .value
        | some v => .ok v) := by
  induction n generalizing l k with
  | zero => omega
  | succ n ih =>
    rw [readMany]
    cases k with
    | zero =>
      cases l with
      | nil => rfl
      | cons i l => cases h : conv i <;> simp [readAs, Util.readItem, h]
    | succ k =>
      rw [List.getElem?_cons_succ, ih _ _ (by omega)]
      cases l with
      | nil => simp [readAs, Util.readItem]
      | cons i l => simp [readAs, Util.readItem]

theorem readMany_all {A : Type} (conv : Str → Option A) (f : Int → A) (hf : ∀ n, conv (strInt n) = some (f n)) (ns : List Int) :
    readMany conv (ns.length + 1) (ns.map strInt) = ns.map (fun n => .ok (f n)) ++ [.error .eof] := by
  induction ns with
  | nil => rfl
  | cons n ns ih =>
    simp only [List.length_cons, List.map_cons, List.cons_append]
    rw [readMany]
    have : readAs conv (strInt n :: ns.map strInt) = (.ok (f n), ns.map strInt) := by simp [readAs, Util.readItem, hf]
    rw [this]
    simp only
    rw [ih]

/-- C103: integers that were written to an item file, each on a line, are read back, as integers, as floats and as truth values; then EOFError is raised -/
theorem C103_file (ns : List Int) :
    let file := Util.items (ns.flatMap fun n => strInt n ++ ['\n'])
    readMany toInt (ns.length + 1) file = ns.map .ok ++ [.error .eof] ∧
    readMany toFloat (ns.length + 1) file = ns.map (fun n => .ok (.fin n)) ++ [.error .eof] ∧
    readMany (fun s => some (toBool s)) (ns.length + 1) file = ns.map (fun n => .ok (decide (n ≠ 0))) ++ [.error .eof] := by
  have hfile : Util.items (ns.flatMap fun n => strInt n ++ ['\n']) = ns.map strInt := by
    have h := Util.C47_items (ns.map fun n => ⟨[.plain (strInt n)], none, false⟩) ⟨[], none, false⟩ (by
      intro l hl
      obtain ⟨n, _, rfl⟩ := List.mem_map.1 hl
      refine ⟨?_, by simp, by simp⟩
      intro s hs
      rw [List.mem_singleton.1 hs]
      refine ⟨?_, ?_⟩
      · intro h0
        obtain ⟨sg, σ, ds, v, h1, _, _, h2, _⟩ := strInt_integer n
        rw [h0] at h1
        exact h2 (by simpa using (List.append_eq_nil_iff.1 h1.symm).2)
      · intro c hc
        have h : ∀ c ∈ "+-0123456789".toList, c ∉ Util.special := by decide
        exact h c (strInt_chars n c hc)) ⟨by simp, by simp, by simp⟩
    simp only [List.flatMap_map, Util.Line.text, Util.Line.items, Util.Seg.text, Util.Seg.item, List.flatMap_cons, List.flatMap_nil, List.append_nil,
      Bool.false_eq_true, if_false] at h
    rw [h]
    clear h
    induction ns with
    | nil => rfl
    | cons n ns ih => simp [ih]
  simp only [hfile]
  refine ⟨readMany_all toInt id strInt_read ns, readMany_all toFloat (fun n => .fin n) (fun n => (C103_agree (strInt_read n)).1) ns,
    readMany_all _ (fun n => decide (n ≠ 0)) (fun n => ?_) ns⟩
  have := (C103_agree (strInt_read n)).2
  congr 1
  by_cases h : n = 0
  · rw [this.2 h, h]; rfl
  · have : toBool (strInt n) ≠ false := fun hb => h (this.1 hb)
    simpa [h] using this

/-- non-vacuity of C103 -/
example : toInt " -1_000 ".toList = some (-1000) ∧ toFloat "1,25".toList = some (.fin (5 / 4)) ∧ toFloat "-.5E+1".toList = some (.fin (-5)) ∧
    toFloat "1e".toList = none ∧ toFloat "-Inf".toList = some .ninf ∧ toBool "FALSE".toList = false ∧ toBool "-0.0".toList = false ∧
    toBool "no".toList = true ∧ toBool "0x0".toList = true ∧ toInt "1__0".toList = none ∧ toInt "1.0".toList = none := by decide +kernel

/-- `read_item_bool` doesn't know the decimal comma: an item that is 0 for `read_item_float` may be True -/
theorem C103_comma_counterexample : toFloat "0,0".toList = some (.fin 0) ∧ toBool "0,0".toList = true := by decide +kernel

/-- contrary to its documentation, `read_item_bool` yields False for some numbers that aren't 0: those that are too small for a float -/
theorem C103_tiny_counterexample : toBool "1e-400".toList = false ∧ ∃ q, Decimal "1e-400".toList q ∧ q ≠ 0 := by
  refine ⟨by decide +kernel, (10 : Rat) ^ (-400 : Int), ?_, zpow_ne_zero _ (by norm_num)⟩
  refine ⟨[], 1, ['1'], 1, "e-400".toList, -400, rfl, .inl ⟨rfl, rfl⟩, .inl ⟨1, Digits.snoc (d := 1) .nil rfl, by simp, by norm_num⟩,
    .inr ⟨'e', "-400".toList, rfl, .inl rfl, ['-'], -1, "400".toList, 400, rfl, .inr (.inr ⟨rfl, rfl⟩), ?_, by decide, by norm_num⟩, by simp⟩
  exact (digits_iff _ _).2 ⟨by decide, by decide⟩

end ItemValue
end Verif
