import Verif.QueueView
import Verif.ChainSets

/-!
# Slices of queues, `del` and `pop`
-/

namespace Verif
namespace Chain

/-- `slice(a, b, k).indices(n)` of Python for a step that is not 0 (CPython, Objects/sliceobject.c, `_PySlice_GetLongIndices`), called in
salabim.py:5153 -/
def indices (n : Nat) (a b : Option Int) (k : Int) : Int × Int :=
  let lower : Int := if k < 0 then -1 else 0
  let upper : Int := if k < 0 then (n : Int) - 1 else n
  let clip (i : Int) : Int := if i < 0 then max (i + n) lower else min i upper
  (match a with | none => if k < 0 then upper else lower | some i => clip i,
   match b with | none => if k < 0 then lower else upper | some i => clip i)

/-- the loop for a positive step (salabim.py:5159-5166), over the components found on the way from the head to the tail (the loop doesn't change
the chain) -/
def pickUp {α : Type} (endval inc : Int) : List α → Int → Int → List α
  | [], _, _ => []
  | c :: cs, target, count =>
    if target ≥ endval then [] else
    if target = count then c :: pickUp endval inc cs (target + inc) (count + 1) else pickUp endval inc cs target (count + 1)

/-- the loop for a negative step (salabim.py:5172-5179), over the components found on the way from the tail to the head -/
def pickDown {α : Type} (endval inc : Int) : List α → Int → Int → List α
  | [], _, _ => []
  | c :: cs, target, count =>
    if target ≤ endval then [] else
    if target = count then c :: pickDown endval inc cs (target + inc) (count - 1) else pickDown endval inc cs target (count - 1)

/-- `q[a:b:k]` (salabim.py:5151-5181); a step 0 is refused by `indices` (ValueError) -/
def getSlice (q : QId) (a b k : Option Int) (s : PS) : Except Err (List (Option CId)) :=
  let inc := k.getD 1
  if inc = 0 then .error .value else
  let n := (s.queues q).length.toNat
  let (startval, endval) := indices n a b inc
  if inc > 0 then
    match members q s with
    | none => .error .attribute
    | some ns => .ok (pickUp endval inc (ns.map fun m => (s.nodes m).comp) startval 0)
  else
    match membersRev q s with
    | none => .error .attribute
    | some ns => .ok (pickDown endval inc (ns.map fun m => (s.nodes m).comp) startval ((s.queues q).length - 1))

/-- `remove` for each of a list of components (salabim.py:5201-5202); `remove` is `leave`, and `clear` for None (salabim.py:5056-5059) -/
def removeAll (q : QId) : List (Option CId) → PS → PR
  | [], s => .ok s
  | some c :: cs, s => (leave c q s).andThen (removeAll q cs)
  | none :: cs, s => (clear q s).andThen (removeAll q cs)

/-- `del q[a:b:k]` (salabim.py:5200-5202) -/
def delSlice (q : QId) (a b k : Option Int) (s : PS) : PR :=
  match getSlice q a b k s with
  | .error e => .err e s
  | .ok cs => removeAll q cs s

/-- `del q[i]` (salabim.py:5203-5204) -/
def delItem (q : QId) (i : Int) (s : PS) : PR :=
  match getItem q i s with
  | .error e => .err e s
  | .ok c => removeAll q [c] s

/-- the component meant in `pop` (salabim.py:5102-5105) -/
def popItem (q : QId) (i : Option Int) (s : PS) : Except Err (Option CId) :=
  match i with
  | none => .ok (headC q s)
  | some i => getItem q i s

/-- `pop` (salabim.py:5086-5108): what is returned, and the state afterwards -/
def pop (q : QId) (i : Option Int) (s : PS) : Option CId × PR :=
  match popItem q i s with
  | .error e => (none, .err e s)
  | .ok none => (none, .ok s)
  | .ok (some c) => (some c, leave c q s)

/-! ## proofs -/

theorem pickDown_up {α : Type} (endval inc : Int) (cs : List α) (t c : Int) : pickDown endval inc cs t c = pickUp (-endval) (-inc) cs (-t) (-c) := by
  induction cs generalizing t c with
  | nil => rfl
  | cons a cs ih =>
    unfold pickDown pickUp
    by_cases h1 : t ≤ endval
    · rw [if_pos h1, if_pos (show -t ≥ -endval by omega)]
    · rw [if_neg h1, if_neg (show ¬ -t ≥ -endval by omega)]
      by_cases h2 : t = c
      · rw [if_pos h2, if_pos (show -t = -c by omega), ih, show -(t + inc) = -t + -inc by omega, show -(c - 1) = -c + 1 by omega]
      · rw [if_neg h2, if_neg (show ¬ -t = -c by omega), ih, show -(c - 1) = -c + 1 by omega]

theorem pickUp_spec {α : Type} {endval inc : Int} (hi : 0 < inc) (cs : List α) (target count : Int) (ht : count ≤ target) :
    ∃ ps : List Nat, (pickUp endval inc cs target count).map some = ps.map (fun p => cs[p]?) ∧ ps.Pairwise (· < ·) ∧
      ∀ p : Nat, p ∈ ps ↔ p < cs.length ∧ count + p < endval ∧ ∃ m : Nat, count + (p : Int) = target + m * inc := by
  induction cs generalizing target count with
  | nil => exact ⟨[], rfl, .nil, fun p => by simp⟩
  | cons a cs ih =>
    unfold pickUp
    by_cases h1 : target ≥ endval
    · refine ⟨[], by rw [if_pos h1]; rfl, .nil, fun p => ⟨fun h => by simp at h, fun ⟨_, h2, m, h3⟩ => ?_⟩⟩
      have : 0 ≤ (m : Int) * inc := by positivity
      omega
    · rw [if_neg h1]
      by_cases h2 : target = count
      · rw [if_pos h2]
        obtain ⟨ps, e1, e2, e3⟩ := ih (target + inc) (count + 1) (by omega)
        refine ⟨0 :: ps.map (· + 1), ?_, ?_, fun p => ?_⟩
        · simp only [List.map_cons, List.map_map, e1]
          rfl
        · rw [List.pairwise_cons]
          refine ⟨by simp, ?_⟩
          rw [List.pairwise_map]
          exact e2.imp (by intro a b h; omega)
        · cases p with
          | zero => simp only [List.mem_cons, true_or, true_iff]; exact ⟨by simp, by omega, 0, by simp; omega⟩
          | succ p =>
            simp only [List.mem_cons, List.mem_map, Nat.add_right_cancel_iff, exists_eq_right, e3, List.length_cons, Nat.succ_ne_zero, false_or,
              Nat.cast_add, Nat.cast_one]
            constructor
            · rintro ⟨g1, g2, m, g3⟩
              refine ⟨by omega, by omega, m + 1, ?_⟩
              push_cast; rw [add_mul]; omega
            · rintro ⟨g1, g2, m, g3⟩
              cases m with
              | zero => simp at g3; omega
              | succ m =>
                refine ⟨by omega, by omega, m, ?_⟩
                push_cast at g3; rw [add_mul] at g3; omega
      · rw [if_neg h2]
        obtain ⟨ps, e1, e2, e3⟩ := ih target (count + 1) (by omega)
        refine ⟨ps.map (· + 1), ?_, ?_, fun p => ?_⟩
        · rw [e1, List.map_map]; rfl
        · rw [List.pairwise_map]
          exact e2.imp (by intro a b h; omega)
        · cases p with
          | zero =>
            constructor
            · intro h; simp at h
            · rintro ⟨_, _, m, g⟩
              have : 0 ≤ (m : Int) * inc := by positivity
              simp only [Nat.cast_zero] at g; omega
          | succ p =>
            simp only [List.mem_map, Nat.add_right_cancel_iff, exists_eq_right, e3, List.length_cons, Nat.cast_add, Nat.cast_one]
            constructor
            · rintro ⟨g1, g2, m, g3⟩; exact ⟨by omega, by omega, m, by omega⟩
            · rintro ⟨g1, g2, m, g3⟩; exact ⟨by omega, by omega, m, by omega⟩

end Chain
end Verif
