import Verif.Snapshots
import Mathlib.Data.Nat.Digits.Defs

/-!
# C111: the files of a video of separate images
-/

namespace Verif
namespace Snapshots

theorem accepted_iff (video : List Char) : accepted video = true ↔ video.count '*' = 1 ∧ '?' ∉ video := by
  unfold accepted
  have : '*' ∈ video ↔ 0 < video.count '*' := List.count_pos_iff.symm
  split_ifs with h1 h2 h3
  · simp only [Bool.false_eq_true, false_iff]; omega
  · simp [h3]
  · rw [this] at h1
    simp only [true_iff]; exact ⟨by omega, h3⟩
  · rw [this] at h1
    simp only [Bool.false_eq_true, false_iff]; omega

theorem accepted_split {video : List Char} (h : accepted video = true) : ∃ a b, video = a ++ '*' :: b ∧ '*' ∉ a ∧ '*' ∉ b ∧ '?' ∉ a ∧ '?' ∉ b := by
  obtain ⟨h1, h2⟩ := (accepted_iff _).1 h
  obtain ⟨a, b, rfl⟩ := List.append_of_mem (List.count_pos_iff.1 (by omega : 0 < video.count '*'))
  refine ⟨a, b, rfl, ?_⟩
  rw [List.count_append, List.count_cons_self] at h1
  simp only [List.mem_append, List.mem_cons, not_or] at h2
  exact ⟨List.count_eq_zero.1 (by omega), List.count_eq_zero.1 (by omega), h2.1, h2.2.2⟩

theorem subst_none {a : List Char} (h : '*' ∉ a) (s : List Char) : subst a s = a := by
  induction a with
  | nil => rfl
  | cons c a ih =>
    rw [List.mem_cons, not_or] at h
    have : subst (c :: a) s = (if c = '*' then s else [c]) ++ subst a s := rfl
    rw [this, ih h.2, if_neg (Ne.symm h.1)]; rfl

theorem subst_split {a b : List Char} (ha : '*' ∉ a) (hb : '*' ∉ b) (s : List Char) : subst (a ++ '*' :: b) s = a ++ s ++ b := by
  have : subst (a ++ '*' :: b) s = subst a s ++ (s ++ subst b s) := by simp [subst]
  rw [this, subst_none ha, subst_none hb, List.append_assoc]

theorem zeros (k : Nat) (l : List Char) : Nat.ofDigitChars 10 (List.replicate k '0' ++ l) 0 = Nat.ofDigitChars 10 l 0 := by
  induction k with
  | zero => rfl
  | succ k ih =>
    rw [List.replicate_succ, List.cons_append, ← ih]
    rfl

theorem six_inj {n m : Nat} (h : six n = six m) : n = m := by
  have h1 := Nat.ofDigitChars_toDigits (b := 10) (n := n) (by decide) (by decide)
  have h2 := Nat.ofDigitChars_toDigits (b := 10) (n := m) (by decide) (by decide)
  rw [← h1, ← h2, ← zeros (6 - (Nat.toDigits 10 n).length), ← zeros (6 - (Nat.toDigits 10 m).length) (Nat.toDigits 10 m)]
  exact congrArg (fun l => Nat.ofDigitChars 10 l 0) h

theorem six_length {n : Nat} (h : n < 1000000) : (six n).length = 6 := by
  have := Nat.toDigits_length 10 n 6 (by decide) (by simpa using h)
  unfold six
  rw [List.length_append, List.length_replicate]; omega

theorem fits_literal {a : List Char} (h : '?' ∉ a) (p l : List Char) : fits (a ++ p) l = true ↔ ∃ l', l = a ++ l' ∧ fits p l' = true := by
  induction a generalizing l with
  | nil => simp
  | cons c a ih =>
    rw [List.mem_cons, not_or] at h
    cases l with
    | nil => simp [fits]
    | cons d l =>
      have hc : ¬ c = '?' := Ne.symm h.1
      simp only [List.cons_append, fits, hc, decide_false, Bool.false_or, Bool.and_eq_true, decide_eq_true_eq, ih h.2]
      constructor
      · rintro ⟨rfl, l', rfl, hf⟩; exact ⟨l', rfl, hf⟩
      · rintro ⟨l', e, hf⟩
        obtain ⟨rfl, rfl⟩ := List.cons.inj e
        exact ⟨rfl, l', rfl, hf⟩

theorem fits_any (k : Nat) (p l : List Char) : fits (List.replicate k '?' ++ p) l = true ↔ ∃ s l', s.length = k ∧ l = s ++ l' ∧ fits p l' = true := by
  induction k generalizing l with
  | zero =>
    constructor
    · intro h; exact ⟨[], l, rfl, rfl, h⟩
    · rintro ⟨s, l', hs, rfl, h⟩
      rw [List.length_eq_zero_iff] at hs; subst hs; exact h
  | succ k ih =>
    cases l with
    | nil =>
      simp only [List.replicate_succ, List.cons_append, fits, Bool.false_eq_true, false_iff]
      rintro ⟨s, l', hs, e, _⟩
      rw [eq_comm, List.append_eq_nil_iff] at e
      rw [e.1] at hs; simp at hs
    | cons d l =>
      simp only [List.replicate_succ, List.cons_append, fits, decide_true, Bool.true_or, Bool.true_and, ih]
      constructor
      · rintro ⟨s, l', hs, rfl, hf⟩; exact ⟨d :: s, l', by simp [hs], rfl, hf⟩
      · rintro ⟨s, l', hs, e, hf⟩
        cases s with
        | nil => simp at hs
        | cons x s =>
          rw [List.cons_append] at e
          obtain ⟨rfl, rfl⟩ := List.cons.inj e
          exact ⟨s, l', by simpa using hs, rfl, hf⟩

theorem fits_nil (l : List Char) : fits [] l = true ↔ l = [] := by cases l <;> simp [fits]

/-- **C111.** A name is accepted exactly if it has one star and no question mark. -/
theorem C111_accepted (video : List Char) : accepted video = true ↔ video.count '*' = 1 ∧ '?' ∉ video := accepted_iff video

/-- C111: different frames get different files: the number, with at least six digits, in the place of the star -/
theorem C111_distinct {video : List Char} (h : accepted video = true) {n m : Nat} (e : file video n = file video m) : n = m := by
  obtain ⟨a, b, rfl, ha, hb, _⟩ := accepted_split h
  unfold file at e
  rw [subst_split ha hb, subst_split ha hb, List.append_left_inj, List.append_right_inj] at e
  exact six_inj e

/-- C111: the number can be read off the name -/
theorem C111_number {video a b : List Char} (h : accepted video = true) (e : video = a ++ '*' :: b) (n : Nat) :
    ∃ d, file video n = a ++ d ++ b ∧ 6 ≤ d.length ∧ (n < 1000000 → d.length = 6) ∧ (∀ c ∈ d, c.isDigit = true) ∧ Nat.ofDigitChars 10 d 0 = n := by
  obtain ⟨h1, _⟩ := (accepted_iff _).1 h
  subst e
  rw [List.count_append, List.count_cons_self] at h1
  refine ⟨six n, subst_split (List.count_eq_zero.1 (by omega)) (List.count_eq_zero.1 (by omega)) _, ?_, six_length, ?_, ?_⟩
  · unfold six; rw [List.length_append, List.length_replicate]; omega
  · intro c hc
    unfold six at hc
    rcases List.mem_append.1 hc with hc | hc
    · rw [(List.mem_replicate.1 hc).2]; decide
    · exact Nat.isDigit_of_mem_toDigits (by decide) (by decide) hc
  · unfold six; rw [zeros]; exact Nat.ofDigitChars_toDigits (by decide) (by decide)

/-- C111: what is removed when recording starts: all files with six characters in the place of the star, and no others -/
theorem C111_removed {video a b : List Char} (h : accepted video = true) (e : video = a ++ '*' :: b) (name : List Char) :
    removed video name = true ↔ ∃ s, s.length = 6 ∧ name = a ++ s ++ b := by
  obtain ⟨h1, h2⟩ := (accepted_iff _).1 h
  subst e
  rw [List.count_append, List.count_cons_self] at h1
  simp only [List.mem_append, List.mem_cons, not_or] at h2
  unfold removed
  rw [subst_split (List.count_eq_zero.1 (by omega)) (List.count_eq_zero.1 (by omega)), List.append_assoc, fits_literal h2.1]
  simp only [fits_any]
  constructor
  · rintro ⟨l', rfl, s, l2, hs, rfl, hf⟩
    rw [← List.append_nil b, fits_literal h2.2.2] at hf
    obtain ⟨l3, rfl, hf⟩ := hf
    rw [fits_nil] at hf
    subst hf
    exact ⟨s, hs, by simp⟩
  · rintro ⟨s, hs, rfl⟩
    refine ⟨s ++ b, by simp, s, b, hs, rfl, ?_⟩
    have := (fits_literal h2.2.2 [] b).2 ⟨[], by simp, rfl⟩
    simpa using this

/-- C111: so no frames of an earlier video with the same name remain, if it has at most a million numbers -/
theorem C111_fresh {video : List Char} (h : accepted video = true) {n : Nat} (hn : n < 1000000) : removed video (file video n) = true := by
  obtain ⟨a, b, rfl, ha, hb, _⟩ := accepted_split h
  rw [C111_removed h rfl]
  exact ⟨six n, six_length hn, subst_split ha hb _⟩

/-- non-vacuity -/
example : accepted "video*.png".toList = true ∧ file "video*.png".toList 12 = "video000012.png".toList ∧ file "video*.png".toList 1234567 = "video1234567.png".toList ∧
    removed "video*.png".toList "video1.png".toList = false := by decide +kernel

/-- files that aren't frames are removed as well, and frames with a number of seven digits remain -/
theorem C111_removed_counterexample : removed "video_*.png".toList "video_backup.png".toList = true ∧
    removed "video_*.png".toList (file "video_*.png".toList 1000000) = false := by decide +kernel

end Snapshots
end Verif
