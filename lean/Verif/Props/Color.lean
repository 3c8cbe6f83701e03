import Verif.Color
import Mathlib.Tactic.Cases
import Mathlib.Tactic.Linarith
import Mathlib.Tactic.FieldSimp
import Mathlib.Tactic.Ring
import Mathlib.Tactic.NormNum
import Mathlib.Tactic.IntervalCases

/-!
# C101: colours
-/

namespace Verif
namespace Color

/-- all components are between 0 and 255 -/
def Rgba.Byte (v : Rgba) : Prop := (0 ≤ v.r ∧ v.r ≤ 255) ∧ (0 ≤ v.g ∧ v.g ≤ 255) ∧ (0 ≤ v.b ∧ v.b ≤ 255) ∧ 0 ≤ v.a ∧ v.a ≤ 255

/-- the character stands for the number, as a lower case or an upper case hexadecimal digit -/
def Stands (c : Char) (n : Int) : Prop :=
  ∃ i : Nat, i < 16 ∧ n = (i : Int) ∧ (c = "0123456789abcdef".toList.getD i ' ' ∨ c = "0123456789ABCDEF".toList.getD i ' ')

theorem digit_stands {c : Char} {n : Int} (h : Stands c n) : digit c = some n := by
  obtain ⟨i, hi, rfl, h⟩ := h
  have key : ∀ i : Nat, i < 16 → digit ("0123456789abcdef".toList.getD i ' ') = some (i : Int) ∧ digit ("0123456789ABCDEF".toList.getD i ' ') = some (i : Int) := by decide
  rcases h with rfl | rfl
  · exact (key i hi).1
  · exact (key i hi).2

theorem int16_stands {c d : Char} {m n : Int} (hc : Stands c m) (hd : Stands d n) : int16 c d = .ok (16 * m + n) := by
  simp [int16, digit_stands hc, digit_stands hd]

theorem stands_digitChar {n : Nat} (h : n < 16) : Stands (digitChar n) n := by
  have key : ∀ i : Nat, i < 16 → digitChar i = "0123456789abcdef".toList.getD i ' ' := by decide
  exact ⟨n, h, rfl, Or.inl (key n h)⟩

theorem hex2_byte {n : Int} (h0 : 0 ≤ n) (h1 : n ≤ 255) : ∃ c d, hex2 n = [c, d] ∧ int16 c d = .ok n := by
  obtain ⟨k, rfl⟩ : ∃ k : Nat, n = k := ⟨n.toNat, by omega⟩
  unfold hex2
  rw [if_neg (by omega), Int.natAbs_natCast]
  by_cases hk : k < 16
  · refine ⟨'0', digitChar k, ?_, ?_⟩
    · rw [if_pos (by omega)]; unfold hexNat; rw [if_pos hk]; rfl
    · have h00 : Stands '0' 0 := stands_digitChar (n := 0) (by omega)
      simpa using int16_stands h00 (stands_digitChar hk)
  · refine ⟨digitChar (k / 16), digitChar (k % 16), ?_, ?_⟩
    · rw [if_neg (by omega)]; unfold hexNat; rw [if_neg hk]; unfold hexNat; rw [if_pos (by omega)]; rfl
    · have := int16_stands (stands_digitChar (n := k / 16) (by omega)) (stands_digitChar (n := k % 16) (by omega))
      rw [this]
      congr 1
      omega

/-- C101: what colorspec_to_hex writes is read back as the same colour; without the alpha it's the same colour, opaque -/
theorem C101_roundtrip (e : Env) (f : Nat) {v : Rgba} (h : v.Byte) :
    toTuple e (f + 1) (.str (toHex v true)) = some (.ok v) ∧ toTuple e (f + 1) (.str (toHex v false)) = some (.ok { v with a := 255 }) := by
  obtain ⟨⟨r0, r1⟩, ⟨g0, g1⟩, ⟨b0, b1⟩, a0, a1⟩ := h
  obtain ⟨c1, c2, hr, hr'⟩ := hex2_byte r0 r1
  obtain ⟨c3, c4, hg, hg'⟩ := hex2_byte g0 g1
  obtain ⟨c5, c6, hb, hb'⟩ := hex2_byte b0 b1
  obtain ⟨c7, c8, ha, ha'⟩ := hex2_byte a0 a1
  simp [toTuple, toHex, hr, hg, hb, ha, hash, hr', hg', hb', ha', bind, Except.bind, pure, Except.pure]

/-- C101: `#rrggbb` and `#rrggbbaa` are read digit by digit, in lower and upper case -/
theorem C101_hash (e : Env) (f : Nat) {c1 c2 c3 c4 c5 c6 c7 c8 : Char} {n1 n2 n3 n4 n5 n6 n7 n8 : Int}
    (h1 : Stands c1 n1) (h2 : Stands c2 n2) (h3 : Stands c3 n3) (h4 : Stands c4 n4) (h5 : Stands c5 n5) (h6 : Stands c6 n6) (h7 : Stands c7 n7) (h8 : Stands c8 n8) :
    toTuple e (f + 1) (.str ['#', c1, c2, c3, c4, c5, c6]) = some (.ok ⟨16 * n1 + n2, 16 * n3 + n4, 16 * n5 + n6, 255⟩) ∧
    toTuple e (f + 1) (.str ['#', c1, c2, c3, c4, c5, c6, c7, c8]) = some (.ok ⟨16 * n1 + n2, 16 * n3 + n4, 16 * n5 + n6, 16 * n7 + n8⟩) := by
  simp [toTuple, hash, int16_stands h1 h2, int16_stands h3 h4, int16_stands h5 h6, int16_stands h7 h8, bind, Except.bind, pure, Except.pure]

theorem split_none {s : Str} (h : '#' ∉ s) : split s = [s] := by
  induction s with
  | nil => rfl
  | cons c s ih =>
    simp only [List.mem_cons, not_or] at h
    have hc : ¬ c = '#' := fun hc => h.1 hc.symm
    simp [split, ih h.2, hc]

theorem split_one {s t : Str} (hs : '#' ∉ s) (ht : '#' ∉ t) : split (s ++ '#' :: t) = [s, t] := by
  induction s with
  | nil => simp [split, split_none ht]
  | cons c s ih =>
    simp only [List.mem_cons, not_or] at hs
    have hc : ¬ c = '#' := fun hc => hs.1 hc.symm
    simp [split, ih hs.2, hc]

theorem stands_ne_hash {c : Char} {n : Int} (h : Stands c n) : c ≠ '#' := by
  rintro rfl
  have := digit_stands h
  revert this
  simp [digit]

/-- the name `s` is in the table with the colour r, g, b -/
def Named (e : Env) (s : Str) (r g b : Int) : Prop :=
  '#' ∉ s ∧ s ≠ ['f', 'g'] ∧ s ≠ ['b', 'g'] ∧
  ∃ c1 c2 c3 c4 c5 c6 n1 n2 n3 n4 n5 n6, e.names (clean s) = some ['#', c1, c2, c3, c4, c5, c6] ∧ Stands c1 n1 ∧ Stands c2 n2 ∧ Stands c3 n3 ∧ Stands c4 n4 ∧ Stands c5 n5 ∧
    Stands c6 n6 ∧ r = 16 * n1 + n2 ∧ g = 16 * n3 + n4 ∧ b = 16 * n5 + n6

/-- C101: a name gives the colour of the table, opaque; `name#aa` the same with alpha aa; and (name, alpha) the same with that alpha -/
theorem C101_name (e : Env) (f : Nat) {s : Str} {r g b : Int} (h : Named e s r g b) {a1 a2 : Char} {m1 m2 : Int} (h1 : Stands a1 m1) (h2 : Stands a2 m2) (alpha : Int) :
    toTuple e (f + 3) (.str s) = some (.ok ⟨r, g, b, 255⟩) ∧
    toTuple e (f + 3) (.str (s ++ ['#', a1, a2])) = (if s = [] then some (.error .value) else some (.ok ⟨r, g, b, 16 * m1 + m2⟩)) ∧
    toTuple e (f + 3) (.pair (.str s) alpha) = some (.ok ⟨r, g, b, alpha⟩) := by
  obtain ⟨hs, hfg, hbg, c1, c2, c3, c4, c5, c6, n1, n2, n3, n4, n5, n6, hn, k1, k2, k3, k4, k5, k6, rfl, rfl, rfl⟩ := h
  have hF : Stands 'F' 15 := ⟨15, by omega, rfl, Or.inr rfl⟩
  have hh : s.head? ≠ some '#' := by
    intro hh
    exact hs (List.mem_of_mem_head? hh)
  have base : ∀ f, toTuple e (f + 2) (.str s) = some (.ok ⟨16 * n1 + n2, 16 * n3 + n4, 16 * n5 + n6, 255⟩) := by
    intro f
    have := (C101_hash e f k1 k2 k3 k4 k5 k6 hF hF).2
    rw [toTuple]
    simp only [hfg, hbg, hh, if_false, nameAlpha, split_none hs, hn]
    simpa using this
  refine ⟨base (f + 1), ?_, ?_⟩
  · by_cases hnil : s = []
    · subst hnil
      rw [if_pos rfl, toTuple]
      simp [hash]
    · rw [if_neg hnil, toTuple]
      have hsp : split (s ++ ['#', a1, a2]) = [s, [a1, a2]] := split_one hs (by
        simp only [List.mem_cons, List.not_mem_nil, or_false, not_or]
        exact ⟨(stands_ne_hash h1).symm, (stands_ne_hash h2).symm⟩)
      have hlen : (s ++ ['#', a1, a2]).length > 2 := by simp
      have hh' : (s ++ ['#', a1, a2]).head? ≠ some '#' := by
        rw [List.head?_append_of_ne_nil _ hnil]; exact hh
      have e1 : s ++ ['#', a1, a2] ≠ ['f', 'g'] := by intro x; rw [x] at hlen; simp at hlen
      have e2 : s ++ ['#', a1, a2] ≠ ['b', 'g'] := by intro x; rw [x] at hlen; simp at hlen
      simp only [e1, e2, hh', if_false, nameAlpha, hsp, hn]
      simpa using (C101_hash e (f + 1) k1 k2 k3 k4 k5 k6 h1 h2).2
  · rw [toTuple, base f]
    rfl

theorem toTuple_mono (e : Env) : ∀ (f : Nat) (s : Spec) (x : Except Err Rgba), toTuple e f s = some x → toTuple e (f + 1) s = some x
  | 0, s, x, h => by simp [toTuple] at h
  | f + 1, s, x, h => by
    unfold toTuple at h ⊢
    cases s with
    | none =>
      simp only at h ⊢
      cases hn : e.names [] with
      | none => rw [hn] at h; exact h
      | some w => rw [hn] at h; exact toTuple_mono e f _ x h
    | rgba r g b a => exact h
    | rgb r g b => exact h
    | pair c al =>
      simp only at h ⊢
      cases hc : toTuple e f c with
      | none => rw [hc] at h; simp at h
      | some y => rw [hc] at h; rw [toTuple_mono e f c y hc]; exact h
    | str s =>
      simp only at h ⊢
      split_ifs at h ⊢ with q1 q2 q3
      · exact toTuple_mono e f _ x h
      · exact toTuple_mono e f _ x h
      · exact h
      · cases hn : e.names (clean (nameAlpha s).1) with
        | none => rw [hn] at h; exact h
        | some w => rw [hn] at h; exact toTuple_mono e f _ x h

/-- C101: "fg" and "bg" are the foreground and the background colour, and (colour, alpha) is the colour with another alpha -/
theorem C101_fg_bg_pair (e : Env) (f : Nat) :
    (∀ x, toTuple e f e.fg = some x → toTuple e (f + 1) (.str ['f', 'g']) = some x) ∧
    (∀ x, toTuple e f e.bg = some x → toTuple e (f + 1) (.str ['b', 'g']) = some x) ∧
    (∀ c alpha v, toTuple e f c = some (.ok v) → toTuple e (f + 1) (.pair c alpha) = some (.ok ⟨v.r, v.g, v.b, alpha⟩)) := by
  refine ⟨fun x h => by rw [toTuple]; simpa using h, fun x h => by rw [toTuple]; simpa using h, fun c al v h => by rw [toTuple, h]; rfl⟩

/-- C101: tuples are taken as they are, (r, g, b) is opaque -/
theorem C101_tuple (e : Env) (f : Nat) (r g b a : Int) :
    toTuple e (f + 1) (.rgb r g b) = some (.ok ⟨r, g, b, 255⟩) ∧ toTuple e (f + 1) (.rgba r g b a) = some (.ok ⟨r, g, b, a⟩) := by
  constructor <;> rw [toTuple]

/-- the character can be part of a number in Python's `int(s, 16)` of a string of two characters -/
def Numeric (c : Char) : Prop := (∃ n, Stands c n) ∨ c = '+' ∨ c = '-' ∨ c.toNat ∈ [9, 10, 11, 12, 13, 28, 29, 30, 31, 32]

theorem digit_some {c : Char} {n : Int} (h : digit c = some n) : Stands c n := by
  have key : ∀ k : Nat, k < 128 → ∀ n, digit (Char.ofNat k) = some n → ∃ i : Nat, i < 16 ∧ n = (i : Int) ∧
      (Char.ofNat k = "0123456789abcdef".toList.getD i ' ' ∨ Char.ofNat k = "0123456789ABCDEF".toList.getD i ' ') := by
    intro k hk n hn
    have all : ∀ k : Nat, k < 128 → digit (Char.ofNat k) = Option.none ∨ ∃ i : Nat, i < 16 ∧ digit (Char.ofNat k) = some (i : Int) ∧
      (Char.ofNat k = "0123456789abcdef".toList.getD i ' ' ∨ Char.ofNat k = "0123456789ABCDEF".toList.getD i ' ') := by decide +kernel
    rcases all k hk with h | ⟨i, hi, h1, h2⟩
    · rw [h] at hn; cases hn
    · rw [h1] at hn; exact ⟨i, hi, (Option.some.inj hn).symm, h2⟩
  have hlt : c.toNat < 128 := by
    by_contra hc
    have hle : ∀ d : Char, d.toNat < 128 → ¬ c ≤ d := by
      intro d hd hcd
      have : c.toNat ≤ d.toNat := hcd
      omega
    unfold digit at h
    rw [if_neg (fun x => hle '9' (by decide) x.2), if_neg (fun x => hle 'f' (by decide) x.2), if_neg (fun x => hle 'F' (by decide) x.2)] at h
    cases h
  have := key c.toNat hlt n
  rw [Char.ofNat_toNat] at this
  exact this h

theorem white_mem {c : Char} (h : white c = true) : c.toNat ∈ [9, 10, 11, 12, 13, 28, 29, 30, 31, 32] := by
  unfold white at h
  simp only [Bool.or_eq_true, Bool.and_eq_true, decide_eq_true_eq] at h
  simp only [List.mem_cons, List.not_mem_nil, or_false]
  omega

theorem int16_ok {c d : Char} {n : Int} (h : int16 c d = .ok n) : Numeric c ∧ Numeric d := by
  unfold int16 at h
  cases hc : digit c with
  | some m =>
    cases hd : digit d with
    | some k => exact ⟨.inl ⟨_, digit_some hc⟩, .inl ⟨_, digit_some hd⟩⟩
    | none =>
      rw [hc, hd] at h
      simp only at h
      split_ifs at h with hw
      exact ⟨.inl ⟨_, digit_some hc⟩, .inr (.inr (.inr (white_mem hw)))⟩
  | none =>
    cases hd : digit d with
    | some k =>
      rw [hc, hd] at h
      simp only at h
      refine ⟨?_, .inl ⟨_, digit_some hd⟩⟩
      split_ifs at h with h1 h2
      · rcases h1 with h1 | h1
        · exact .inr (.inl h1)
        · exact .inr (.inr (.inr (white_mem h1)))
      · exact .inr (.inr (.inl h2))
    | none => rw [hc, hd] at h; cases h

theorem hash_ok {t : Str} {v : Rgba} (h : hash ('#' :: t) = .ok v) : (t.length = 6 ∨ t.length = 8) ∧ ∀ c ∈ t, Numeric c := by
  unfold hash at h
  split at h
  · rename_i r1 r2 g1 g2 b1 b2 ht
    cases ht
    refine ⟨.inl rfl, ?_⟩
    cases hr : int16 r1 r2 with
    | error => rw [hr] at h; cases h
    | ok r => cases hg : int16 g1 g2 with
      | error => rw [hr, hg] at h; cases h
      | ok g => cases hb : int16 b1 b2 with
        | error => rw [hr, hg, hb] at h; cases h
        | ok b =>
          have x1 := int16_ok hr; have x2 := int16_ok hg; have x3 := int16_ok hb
          intro c hc
          simp only [List.mem_cons, List.not_mem_nil, or_false] at hc
          rcases hc with rfl | rfl | rfl | rfl | rfl | rfl
          exacts [x1.1, x1.2, x2.1, x2.2, x3.1, x3.2]
  · rename_i r1 r2 g1 g2 b1 b2 a1 a2 ht
    cases ht
    refine ⟨.inr rfl, ?_⟩
    cases hr : int16 r1 r2 with
    | error => rw [hr] at h; cases h
    | ok r => cases hg : int16 g1 g2 with
      | error => rw [hr, hg] at h; cases h
      | ok g => cases hb : int16 b1 b2 with
        | error => rw [hr, hg, hb] at h; cases h
        | ok b => cases ha : int16 a1 a2 with
          | error => rw [hr, hg, hb, ha] at h; cases h
          | ok a =>
            have x1 := int16_ok hr; have x2 := int16_ok hg; have x3 := int16_ok hb; have x4 := int16_ok ha
            intro c hc
            simp only [List.mem_cons, List.not_mem_nil, or_false] at hc
            rcases hc with rfl | rfl | rfl | rfl | rfl | rfl | rfl | rfl
            exacts [x1.1, x1.2, x2.1, x2.2, x3.1, x3.2, x4.1, x4.2]
  · cases h

/-- C101: refused with a ValueError are # specifications with another number of characters than 6 or 8 or with a character that can't be part of a number, and names that
aren't in the table -/
theorem C101_refused (e : Env) (f : Nat) (t : Str) :
    (((t.length ≠ 6 ∧ t.length ≠ 8) ∨ ∃ c ∈ t, ¬ Numeric c) → toTuple e (f + 1) (.str ('#' :: t)) = some (.error .value)) ∧
    ('#' ∉ t → t ≠ ['f', 'g'] → t ≠ ['b', 'g'] → e.names ((t.filter (· ≠ ' ')).map Char.toLower) = Option.none → toTuple e (f + 1) (.str t) = some (.error .value)) := by
  constructor
  · intro h
    rw [toTuple, if_neg (by simp), if_neg (by simp), if_pos (by simp)]
    cases hx : hash ('#' :: t) with
    | error x => cases x; rfl
    | ok v =>
      obtain ⟨h1, h2⟩ := hash_ok hx
      rcases h with ⟨h3, h4⟩ | ⟨c, hc, hn⟩
      · rcases h1 with h1 | h1
        · exact absurd h1 h3
        · exact absurd h1 h4
      · exact absurd (h2 c hc) hn
  · intro hs h1 h2 hn
    have hh : t.head? ≠ some '#' := fun hh => hs (List.mem_of_mem_head? hh)
    rw [toTuple]
    simp only [h1, h2, hh, if_false, nameAlpha, split_none hs]
    rw [show e.names (clean t) = Option.none from hn]

/-- C101: blanks in a name don't matter -/
theorem C101_blanks (e : Env) (f : Nat) {s t : Str} (hs : '#' ∉ s) (ht : '#' ∉ t) (h1 : s ++ t ≠ ['f', 'g'] ∧ s ++ t ≠ ['b', 'g'])
    (h2 : s ++ ' ' :: t ≠ ['f', 'g'] ∧ s ++ ' ' :: t ≠ ['b', 'g']) : toTuple e f (.str (s ++ ' ' :: t)) = toTuple e f (.str (s ++ t)) := by
  cases f with
  | zero => rfl
  | succ f =>
    have n1 : '#' ∉ s ++ t := by simp [hs, ht]
    have n2 : '#' ∉ s ++ ' ' :: t := by simp [hs, ht]
    have hh1 : (s ++ t).head? ≠ some '#' := fun hh => n1 (List.mem_of_mem_head? hh)
    have hh2 : (s ++ ' ' :: t).head? ≠ some '#' := fun hh => n2 (List.mem_of_mem_head? hh)
    have hc : clean (s ++ ' ' :: t) = clean (s ++ t) := by simp [clean]
    rw [toTuple, toTuple]
    simp only [h1.1, h1.2, h2.1, h2.2, hh1, hh2, if_false, nameAlpha, split_none n1, split_none n2, hc]

/-! ## interpolation -/

theorem trunc_between {x : Rat} {a b : Int} (ha : 0 ≤ a) (h1 : (a : Rat) ≤ x) (h2 : x ≤ b) : a ≤ trunc x ∧ trunc x ≤ b ∧ (trunc x : Rat) ≤ x ∧ x < trunc x + 1 := by
  have hx : ¬ x < 0 := by
    have : (0 : Rat) ≤ a := by exact_mod_cast ha
    linarith
  unfold trunc
  rw [if_neg hx]
  refine ⟨Int.le_floor.2 h1, ?_, Int.floor_le x, Int.lt_floor_add_one x⟩
  exact_mod_cast (Int.floor_le x).trans h2

/-- a component between `a` at `t0` and `b` at `t1`, rounded down -/
def Part (t t0 t1 : Rat) (a b c : Int) : Prop :=
  (c : Rat) ≤ a + (b - a) * ((t - t0) / (t1 - t0)) ∧ (a : Rat) + (b - a) * ((t - t0) / (t1 - t0)) < c + 1 ∧ min a b ≤ c ∧ c ≤ max a b

theorem mix_part {t t0 t1 : Rat} (h0 : t0 < t) (h1 : t < t1) {a b : Int} (ha : 0 ≤ a) (hb : 0 ≤ b) :
    ∃ x, Util.mix ((t - t0) / (t1 - t0)) (some (a : Rat)) (some (b : Rat)) = some x ∧ Part t t0 t1 a b (trunc x) := by
  have hd : 0 < t1 - t0 := by linarith
  obtain ⟨p, hp⟩ : ∃ p, p = (t - t0) / (t1 - t0) := ⟨_, rfl⟩
  have p0 : 0 ≤ p := by rw [hp]; exact div_nonneg (by linarith) hd.le
  have p1 : p ≤ 1 := by rw [hp, div_le_one hd]; linarith
  refine ⟨(a : Rat) + (b - a) * p, ?_, ?_⟩
  · unfold Util.mix
    rw [← hp]
    split_ifs with hab
    · simp only [Option.some.injEq] at hab
      rw [hab]; simp
    · simp only [Option.some.injEq]; ring
  · unfold Part
    rw [← hp]
    rcases le_total a b with hab | hab
    · have hab' : (a : Rat) ≤ b := by exact_mod_cast hab
      obtain ⟨q1, q2, q3, q4⟩ := trunc_between (x := (a : Rat) + (b - a) * p) ha (by nlinarith) (b := b) (by nlinarith)
      exact ⟨q3, q4, by rw [min_eq_left hab]; exact q1, by rw [max_eq_right hab]; exact q2⟩
    · have hab' : (b : Rat) ≤ a := by exact_mod_cast hab
      obtain ⟨q1, q2, q3, q4⟩ := trunc_between (x := (a : Rat) + (b - a) * p) hb (by nlinarith) (b := a) (by nlinarith)
      exact ⟨q3, q4, by rw [min_eq_right hab]; exact q1, by rw [max_eq_left hab]; exact q2⟩

theorem trunc_int (n : Int) : trunc (n : Rat) = n := by
  unfold trunc; split_ifs <;> simp

/-- a colour as a tuple for `interpolate` -/
def Rgba.list (v : Rgba) : List (Option Rat) := [some (v.r : Rat), some (v.g : Rat), some (v.b : Rat), some (v.a : Rat)]

theorem list_inj {a b : Rgba} (h : a.list = b.list) : a = b := by
  obtain ⟨a1, a2, a3, a4⟩ := a
  obtain ⟨b1, b2, b3, b4⟩ := b
  simpa [Rgba.list] using h

theorem interp_tuple {t t0 t1 : Rat} (h : t0 < t1) {a b : Rgba} (hab : a ≠ b) :
    Util.interpolateT (t : WithTop Rat) (t0 : WithTop Rat) (t1 : WithTop Rat) a.list b.list =
      if t ≤ t0 then a.list else if t1 ≤ t then b.list else List.zipWith (Util.mix ((t - t0) / (t1 - t0))) a.list b.list := by
  unfold Util.interpolateT Util.interpolateWith
  rw [if_neg fun e => hab (list_inj e)]
  have h1 : ¬ ((t0 : WithTop Rat) > (t1 : WithTop Rat)) := by
    rw [gt_iff_lt, WithTop.coe_lt_coe]; exact not_lt.2 h.le
  rw [if_neg h1]
  simp only [WithTop.coe_ne_top, if_false, WithTop.coe_inj, h.ne, ge_iff_le, WithTop.coe_le_coe]

theorem interp_swap {t t0 t1 : Rat} (h : t1 < t0) {a b : Rgba} :
    Util.interpolateT (t : WithTop Rat) (t0 : WithTop Rat) (t1 : WithTop Rat) a.list b.list =
      Util.interpolateT (t : WithTop Rat) (t1 : WithTop Rat) (t0 : WithTop Rat) b.list a.list := by
  by_cases hab : a = b
  · subst hab; unfold Util.interpolateT Util.interpolateWith; simp
  · unfold Util.interpolateT Util.interpolateWith
    have h1 : (t0 : WithTop Rat) > (t1 : WithTop Rat) := by rw [gt_iff_lt, WithTop.coe_lt_coe]; exact h
    have h2 : ¬ ((t1 : WithTop Rat) > (t0 : WithTop Rat)) := by rw [gt_iff_lt, WithTop.coe_lt_coe]; exact not_lt.2 h.le
    rw [if_neg fun e => hab (list_inj e), if_pos h1, if_neg fun e => hab (list_inj e).symm, if_neg h2]

/-- C101: colorinterpolate is the first colour up to the first moment, the second one from the second moment on, and in between every component is on the line between
those of the two colours, rounded down -/
theorem C101_interpolate (e : Env) (f : Nat) {t t0 t1 : Rat} (h : t0 < t1) {v0 v1 : Spec} {a b : Rgba} (h0 : toTuple e (f + 1) v0 = some (.ok a))
    (h1 : toTuple e (f + 1) v1 = some (.ok b)) (ha : a.Byte) (hb : b.Byte) :
    ∃ s c, colorinterpolate e (f + 1) t t0 (some t1) v0 v1 = some (.ok s) ∧ toTuple e (f + 1) s = some (.ok c) ∧
      (t ≤ t0 → c = a) ∧ (t1 ≤ t → c = b) ∧
      (t0 < t → t < t1 → Part t t0 t1 a.r b.r c.r ∧ Part t t0 t1 a.g b.g c.g ∧ Part t t0 t1 a.b b.b c.b ∧ Part t t0 t1 a.a b.a c.a) := by
  have self : ∀ n : Int, Part t t0 t1 n n n := by intro n; simp [Part]
  by_cases hv : v0 = v1
  · subst hv
    rw [h0] at h1
    obtain rfl : a = b := by simpa using h1
    exact ⟨v0, a, by simp [colorinterpolate], h0, fun _ => rfl, fun _ => rfl, fun _ _ => ⟨self _, self _, self _, self _⟩⟩
  · have hshape : colorinterpolate e (f + 1) t t0 (some t1) v0 v1 =
        match Util.interpolateT (t : WithTop Rat) (t0 : WithTop Rat) (t1 : WithTop Rat) a.list b.list with
        | [some r, some g, some b, some a] => some (.ok (.rgba (trunc r) (trunc g) (trunc b) (trunc a)))
        | _ => some (.error .value) := by
      unfold colorinterpolate
      rw [if_neg hv]
      simp only
      rw [if_neg h.ne, h0, h1]
      rfl
    rw [hshape]
    have end1 : ∀ v : Rgba, (match v.list with
        | [some r, some g, some b, some a] => some (Except.ok (Spec.rgba (trunc r) (trunc g) (trunc b) (trunc a)))
        | _ => some (Except.error Err.value)) = some (.ok v.spec) := by
      intro v; simp [Rgba.list, Rgba.spec, trunc_int]
    have back : ∀ v : Rgba, toTuple e (f + 1) v.spec = some (.ok v) := by intro v; simp [Rgba.spec, toTuple]
    by_cases hab : a = b
    · subst hab
      have : Util.interpolateT (t : WithTop Rat) (t0 : WithTop Rat) (t1 : WithTop Rat) a.list a.list = a.list := by
        unfold Util.interpolateT Util.interpolateWith; rw [if_pos rfl]
      rw [this]
      exact ⟨a.spec, a, end1 a, back a, fun _ => rfl, fun _ => rfl, fun _ _ => ⟨self _, self _, self _, self _⟩⟩
    · rw [interp_tuple h hab]
      split_ifs with c0 c1
      · exact ⟨a.spec, a, end1 a, back a, fun _ => rfl, fun hh => absurd (hh.trans c0) (not_le.2 h), fun hh => absurd c0 (not_le.2 hh)⟩
      · exact ⟨b.spec, b, end1 b, back b, fun hh => absurd hh c0, fun _ => rfl, fun _ hh => absurd c1 (not_le.2 hh)⟩
      · push Not at c0 c1
        obtain ⟨xr, er, pr⟩ := mix_part c0 c1 ha.1.1 hb.1.1
        obtain ⟨xg, eg, pg⟩ := mix_part c0 c1 ha.2.1.1 hb.2.1.1
        obtain ⟨xb, eb, pb⟩ := mix_part c0 c1 ha.2.2.1.1 hb.2.2.1.1
        obtain ⟨xa, ea, pa⟩ := mix_part c0 c1 ha.2.2.2.1 hb.2.2.2.1
        refine ⟨.rgba (trunc xr) (trunc xg) (trunc xb) (trunc xa), ⟨trunc xr, trunc xg, trunc xb, trunc xa⟩, ?_, by simp [toTuple], fun hh => absurd hh (not_le.2 c0),
          fun hh => absurd hh (not_le.2 c1), fun _ _ => ⟨pr, pg, pb, pa⟩⟩
        simp only [Rgba.list, List.zipWith_cons_cons, List.zipWith_nil_left, er, eg, eb, ea]

/-- C101: the two moments may be given in any order; with t1 inf it's the first colour -/
theorem C101_interpolate_order (e : Env) (f : Nat) {t t0 t1 : Rat} (h : t0 ≠ t1) {v0 v1 : Spec} {a b : Rgba} (h0 : toTuple e f v0 = some (.ok a))
    (h1 : toTuple e f v1 = some (.ok b)) :
    colorinterpolate e f t t0 (some t1) v0 v1 = colorinterpolate e f t t1 (some t0) v1 v0 ∧ colorinterpolate e f t t0 Option.none v0 v1 = some (.ok v0) := by
  refine ⟨?_, by unfold colorinterpolate; split_ifs <;> rfl⟩
  have swap : Util.interpolateT (t : WithTop Rat) (t0 : WithTop Rat) (t1 : WithTop Rat) a.list b.list =
      Util.interpolateT (t : WithTop Rat) (t1 : WithTop Rat) (t0 : WithTop Rat) b.list a.list := by
    rcases lt_or_gt_of_ne h with hl | hl
    · exact (interp_swap hl).symm
    · exact interp_swap hl
  unfold colorinterpolate
  by_cases hv : v0 = v1
  · rw [if_pos hv, if_pos hv.symm, hv]
  · rw [if_neg hv, if_neg fun x => hv x.symm]
    simp only
    rw [if_neg h, if_neg h.symm, h0, h1]
    simp only
    rw [show [some (a.r : Rat), some (a.g : Rat), some (a.b : Rat), some (a.a : Rat)] = a.list from rfl,
      show [some (b.r : Rat), some (b.g : Rat), some (b.b : Rat), some (b.a : Rat)] = b.list from rfl, swap]

/-- C101: if the moments are the same it's the second colour -/
theorem C101_interpolate_same (e : Env) (f : Nat) (t t0 : Rat) (v0 v1 : Spec) : colorinterpolate e f t t0 (some t0) v0 v1 = some (.ok v1) := by
  unfold colorinterpolate
  by_cases hv : v0 = v1
  · rw [if_pos hv, hv]
  · rw [if_neg hv]; simp

/-! ## dark and light -/

/-- C101: a colour is dark if the weighted sum of its components is not more than half of the maximum; a fully transparent colour is dark if the background colour is -/
theorem C101_dark (e : Env) (f : Nat) {s : Spec} {v : Rgba} (h : toTuple e (f + 2) s = some (.ok v)) :
    (v.a ≠ 0 → isDark e (f + 3) s = some (.ok (decide (2 * (299 * v.r + 587 * v.g + 114 * v.b) ≤ 255000)))) ∧
    (v.a = 0 → ∀ b, toTuple e f e.bg = some (.ok b) → isDark e (f + 3) s = some (.ok (decide (2 * (299 * b.r + 587 * b.g + 114 * b.b) ≤ 255000)))) := by
  have hd : ∀ v : Rgba, dark v = decide (2 * (299 * v.r + 587 * v.g + 114 * v.b) ≤ 255000) := by
    intro v
    unfold dark
    rw [← decide_not]
    refine decide_eq_decide.2 ?_
    rw [gt_iff_lt, not_lt, ← Int.cast_le (R := Rat)]
    push_cast
    constructor <;> intro hh <;> linarith
  constructor
  · intro ha
    rw [isDark, h]
    simp only
    rw [if_neg ha, hd]
  · intro ha b hb
    have t1 : toTuple e (f + 1) (.str ['b', 'g']) = some (.ok b) := (C101_fg_bg_pair e f).2.1 _ hb
    have tp : toTuple e (f + 2) (.pair (.str ['b', 'g']) 255) = some (.ok ⟨b.r, b.g, b.b, 255⟩) := (C101_fg_bg_pair e (f + 1)).2.2 _ _ _ t1
    rw [isDark, h]
    simp only
    rw [if_pos ha, tp]
    simp only
    rw [isDark, show toTuple e (f + 1) (Rgba.spec ⟨b.r, b.g, b.b, 255⟩) = some (.ok ⟨b.r, b.g, b.b, 255⟩) from (C101_tuple e f _ _ _ _).2]
    simp only
    rw [if_neg (by decide), hd]

/-- C101: if the background colour is set and no foreground colour is given, the foreground is white on a dark and black on a light background: one of the two is dark
and the other is not -/
theorem C101_contrast (e : Env) (f : Nat) {b : Spec} {v : Rgba} (hb : b ≠ .str ['f', 'g'] ∧ b ≠ .str ['b', 'g'])
    (hv : ∀ e' : Env, e'.names = e.names → e'.bg = b → toTuple e' (f + 1) b = some (.ok v))
    (hw : e.names ['w', 'h', 'i', 't', 'e'] = some ['#', 'f', 'f', 'f', 'f', 'f', 'f']) (hk : e.names ['b', 'l', 'a', 'c', 'k'] = some ['#', '0', '0', '0', '0', '0', '0']) :
    ∃ e' d, setColors e (f + 5) (some b) Option.none = some (.ok e') ∧ e'.bg = b ∧ isDark e' (f + 5) (.str ['b', 'g']) = some (.ok d) ∧
      isDark e' (f + 5) (.str ['f', 'g']) = some (.ok !d) := by
  have up : ∀ (e : Env) s x, toTuple e (f + 1) s = some x → toTuple e (f + 2) s = some x ∧ toTuple e (f + 3) s = some x ∧ toTuple e (f + 4) s = some x := by
    intro e s x h
    have h1 := toTuple_mono e _ _ _ h
    have h2 := toTuple_mono e _ _ _ h1
    exact ⟨h1, h2, toTuple_mono e _ _ _ h2⟩
  have hdark : ∀ e' : Env, e'.names = e.names → e'.bg = b → isDark e' (f + 5) (.str ['b', 'g']) = some (.ok (dark v)) := by
    intro e' hn hbg
    obtain ⟨u2, u3, u4⟩ := up e' b _ (hv e' hn hbg)
    have t4 : toTuple e' (f + 4) (.str ['b', 'g']) = some (.ok v) := (C101_fg_bg_pair e' (f + 3)).2.1 _ (by rw [hbg]; exact u3)
    have t3 : toTuple e' (f + 3) (.str ['b', 'g']) = some (.ok v) := (C101_fg_bg_pair e' (f + 2)).2.1 _ (by rw [hbg]; exact u2)
    have tp : toTuple e' (f + 4) (.pair (.str ['b', 'g']) 255) = some (.ok ⟨v.r, v.g, v.b, 255⟩) := (C101_fg_bg_pair e' (f + 3)).2.2 _ _ _ t3
    unfold isDark
    rw [t4]
    simp only
    split_ifs with hz
    · rw [tp]
      simp [isDark, Rgba.spec, toTuple, dark]
    · rfl
  have hset : setColors e (f + 5) (some b) Option.none =
      some (.ok { e with bg := b, fg := .str (if dark v then ['w', 'h', 'i', 't', 'e'] else ['b', 'l', 'a', 'c', 'k']) }) := by
    unfold setColors
    simp only
    rw [if_neg (by simp [hb.1, hb.2]), hdark { e with bg := b } rfl rfl]
  refine ⟨_, dark v, hset, rfl, hdark _ rfl rfl, ?_⟩
  cases hd : dark v
  · have hn : Named { e with bg := b, fg := .str ['b', 'l', 'a', 'c', 'k'] } ['b', 'l', 'a', 'c', 'k'] 0 0 0 := by
      have z : Stands '0' 0 := stands_digitChar (n := 0) (by omega)
      exact ⟨by decide, by decide, by decide, '0', '0', '0', '0', '0', '0', 0, 0, 0, 0, 0, 0, hk, z, z, z, z, z, z, rfl, rfl, rfl⟩
    have hF : Stands 'F' 15 := ⟨15, by omega, rfl, Or.inr rfl⟩
    have ht := (C101_name _ f hn hF hF 0).1
    have hfg := (C101_fg_bg_pair { e with bg := b, fg := .str ['b', 'l', 'a', 'c', 'k'] } (f + 3)).1 _ ht
    simp only [Bool.false_eq_true, if_false, Bool.not_false]
    unfold isDark
    rw [hfg]
    simp [dark]
  · have hn : Named { e with bg := b, fg := .str ['w', 'h', 'i', 't', 'e'] } ['w', 'h', 'i', 't', 'e'] 255 255 255 := by
      have z : Stands 'f' 15 := stands_digitChar (n := 15) (by omega)
      exact ⟨by decide, by decide, by decide, 'f', 'f', 'f', 'f', 'f', 'f', 15, 15, 15, 15, 15, 15, hw, z, z, z, z, z, z, rfl, rfl, rfl⟩
    have hF : Stands 'F' 15 := ⟨15, by omega, rfl, Or.inr rfl⟩
    have ht := (C101_name _ f hn hF hF 0).1
    have hfg := (C101_fg_bg_pair { e with bg := b, fg := .str ['w', 'h', 'i', 't', 'e'] } (f + 3)).1 _ ht
    simp only [if_true, Bool.not_true]
    unfold isDark
    rw [hfg]
    simp [dark]
    norm_num

/-- a foreground colour that refers to itself, like ("fg", 100), is accepted; from then on the colour "fg" can't be determined: the recursion doesn't end -/
theorem C101_endless_counterexample (e : Env) (f alpha) :
    ∃ e', setColors e f Option.none (some (.pair (.str ['f', 'g']) alpha)) = some (.ok e') ∧ ∀ n, toTuple e' n (.str ['f', 'g']) = Option.none := by
  refine ⟨{ e with fg := .pair (.str ['f', 'g']) alpha }, by simp [setColors], fun n => ?_⟩
  induction n using Nat.strong_induction_on with
  | _ n ih =>
    rcases n with _ | _ | n
    · rfl
    · simp [toTuple]
    · rw [toTuple, if_pos rfl, toTuple, ih n (by omega)]
      rfl

/-- `#` is also accepted with signs and blanks in it; then a component may be negative -/
theorem C101_sign_counterexample (e : Env) (f : Nat) : toTuple e (f + 1) (.str ['#', '-', 'f', ' ', '1', '+', '2']) = some (.ok ⟨-15, 1, 2, 255⟩) := by
  rw [toTuple, if_neg (by decide), if_neg (by decide), if_pos (by decide)]
  rfl

/-- a table with two names -/
def demo : Env where
  names := fun s => if s = "white".toList then some "#ffffff".toList else if s = "black".toList then some "#000000".toList else if s = "orchid".toList then some "#DA70D6".toList
    else Option.none
  fg := .str "black".toList
  bg := .str "white".toList

/-- non-vacuity of C101 -/
example : toTuple demo 5 (.str "Orch id#7f".toList) = some (.ok ⟨218, 112, 214, 127⟩) ∧ toHex ⟨218, 112, 214, 127⟩ true = "#da70d67f".toList ∧
    toTuple demo 5 (.pair (.str "bg".toList) 9) = some (.ok ⟨255, 255, 255, 9⟩) ∧ toTuple demo 5 (.str "#da70d".toList) = some (.error .value) ∧
    toTuple demo 5 (.str "pink".toList) = some (.error .value) ∧
    colorinterpolate demo 5 3 2 (some 6) (.str "orchid".toList) (.str "fg".toList) = some (.ok (.rgba 163 84 160 255)) ∧
    (setColors demo 6 (some (.rgb 0 0 200)) Option.none).map (·.map (·.fg)) = some (.ok (.str "white".toList)) := by
  refine ⟨?_, ?_, ?_, ?_, ?_, ?_, ?_⟩ <;> first | rfl | decide +kernel

/-- non-vacuity of `C101_refused` and `C101_dark`: no number, a blank in a name, a transparent colour on white -/
example : toTuple demo 5 (.str "#gg0000".toList) = some (.error .value) ∧ toTuple demo 5 (.str "or chid".toList) = some (.ok ⟨218, 112, 214, 255⟩) ∧
    isDark demo 5 (.rgba 0 0 0 0) = some (.ok false) ∧ isDark demo 5 (.rgba 0 0 0 1) = some (.ok true) := by
  refine ⟨?_, ?_, ?_, ?_⟩ <;> first | rfl | decide +kernel

end Color
end Verif
