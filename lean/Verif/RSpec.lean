import Verif.RWalk
import Verif.QueueInv

/-!
# Resources: specification

The bookkeeping of resources as an abstract machine: who claims what, who waits for what. The steps of the machine are described
by what they change; `Verif.RRefine` shows that every call is a sequence of these steps.
-/

namespace Verif
open World

/-! ## insertion ordered dictionaries -/

theorem mem_keys {l : List (RId × Rat)} {r : RId} : r ∈ keys l ↔ ∃ q, (r, q) ∈ l := by
  simp [keys]

theorem lookup_none {l : List (RId × Rat)} {r : RId} : lookup l r = none ↔ r ∉ keys l := by
  simp only [lookup, Option.map_eq_none_iff, List.find?_eq_none, mem_keys, not_exists]
  constructor
  · intro h q hq; exact h _ hq (by simp)
  · rintro h ⟨a, b⟩ hp ha
    simp only [beq_iff_eq] at ha
    subst ha; exact h b hp

theorem lookup_some {l : List (RId × Rat)} {r : RId} {q : Rat} (h : lookup l r = some q) : (r, q) ∈ l := by
  simp only [lookup, Option.map_eq_some_iff] at h
  obtain ⟨⟨a, b⟩, h1, h2⟩ := h
  have h3 := List.mem_of_find?_eq_some h1
  have h4 := List.find?_some h1
  simp only [beq_iff_eq] at h4
  subst h4; subst h2; exact h3

theorem lookup_isSome {l : List (RId × Rat)} {r : RId} : (∃ q, lookup l r = some q) ↔ r ∈ keys l := by
  cases h : lookup l r with
  | none => simp [lookup_none.1 h]
  | some q => simp [mem_keys]; exact ⟨q, lookup_some h⟩

theorem lookup_cons (p : RId × Rat) (l : List (RId × Rat)) (r : RId) : lookup (p :: l) r = if p.1 = r then some p.2 else lookup l r := by
  simp only [lookup, List.find?_cons]
  by_cases h : p.1 = r
  · simp [h]
  · have : (p.1 == r) = false := by simp [h]
    simp [h, this]

theorem lookup_mem {l : List (RId × Rat)} (hn : (keys l).Nodup) {r : RId} {q : Rat} (h : (r, q) ∈ l) : lookup l r = some q := by
  induction l with
  | nil => cases h
  | cons p t ih =>
    rw [lookup_cons]
    rcases List.mem_cons.1 h with rfl | h
    · simp
    · simp only [keys, List.map_cons, List.nodup_cons] at hn
      rw [if_neg, ih hn.2 h]
      intro hp
      exact hn.1 (by rw [hp]; exact mem_keys.2 ⟨q, h⟩)

theorem keys_addTo (l : List (RId × Rat)) (r : RId) (q : Rat) : keys (addTo l r q) = if r ∈ keys l then keys l else keys l ++ [r] := by
  unfold addTo
  have : (l.any (fun p => p.1 == r) = true) ↔ r ∈ keys l := by
    simp [keys]
  by_cases h : r ∈ keys l
  · rw [if_pos (this.2 h), if_pos h]
    simp only [keys, List.map_map]
    apply List.map_congr_left
    intro p _
    simp only [Function.comp]
    split <;> rfl
  · rw [if_neg (fun hh => h (this.1 hh)), if_neg h]
    simp [keys]

theorem lookup_append_single (l : List (RId × Rat)) (r x : RId) (q : Rat) (h : r ∉ keys l) :
    lookup (l ++ [(r, q)]) x = if x = r then some q else lookup l x := by
  induction l with
  | nil => simp only [List.nil_append, lookup_cons]; by_cases hx : x = r <;> simp [hx, lookup]; exact fun hh => hx hh.symm
  | cons p t ih =>
    simp only [keys, List.map_cons, List.mem_cons, not_or] at h
    rw [List.cons_append, lookup_cons, lookup_cons, ih h.2]
    by_cases hp : p.1 = x
    · simp only [hp, if_true]
      rw [if_neg]; intro hx; exact h.1 (hx.symm.trans hp.symm)
    · simp [hp]

theorem lookup_map (l : List (RId × Rat)) (r x : RId) (q : Rat) :
    lookup (l.map (fun p => if p.1 = r then (p.1, p.2 + q) else p)) x = if x = r then (lookup l x).map (· + q) else lookup l x := by
  induction l with
  | nil => simp [lookup]
  | cons p t ih =>
    rw [List.map_cons, lookup_cons, lookup_cons, ih]
    by_cases hp : p.1 = r
    · simp only [hp, if_true]
      by_cases hx : r = x
      · simp [hx]
      · simp [hx, Ne.symm hx]
    · simp only [hp, if_false]
      by_cases hx : p.1 = x
      · subst hx; simp [hp]
      · simp [hx]

theorem lookup_addTo (l : List (RId × Rat)) (r x : RId) (q : Rat) :
    lookup (addTo l r q) x = if x = r then some ((lookup l r).getD 0 + q) else lookup l x := by
  have : (l.any (fun p => p.1 == r) = true) ↔ r ∈ keys l := by
    simp [keys]
  unfold addTo
  by_cases h : r ∈ keys l
  · rw [if_pos (this.2 h), lookup_map]
    obtain ⟨y, hy⟩ := lookup_isSome.2 h
    by_cases hx : x = r
    · subst hx; simp [hy]
    · simp [hx]
  · rw [if_neg (fun hh => h (this.1 hh)), lookup_append_single _ _ _ _ h, lookup_none.2 h]
    simp

theorem keys_delKey (l : List (RId × Rat)) (r : RId) : keys (delKey l r) = (keys l).filter (fun x => x != r) := by
  simp only [keys, delKey, List.filter_map]; rfl

theorem lookup_delKey (l : List (RId × Rat)) (r x : RId) : lookup (delKey l r) x = if x = r then none else lookup l x := by
  induction l with
  | nil => simp [delKey, lookup]
  | cons p t ih =>
    unfold delKey at ih ⊢
    rw [List.filter_cons]
    by_cases hp : p.1 = r
    · rw [if_neg (by simp [hp]), ih, lookup_cons]
      by_cases hx : x = r
      · simp [hx]
      · simp only [hx, if_false]; rw [if_neg]; rw [hp]; exact fun h => hx h.symm
    · rw [if_pos (by simp [hp]), lookup_cons, lookup_cons, ih]
      by_cases hx : p.1 = x
      · subst hx; simp [hp]
      · simp [hx]

/-! ## the abstract machine -/

namespace RView

/-- what `c` claims of `r` (`c.claimed_quantity(r)`, salabim.py:8933-8950) -/
def claim (v : RView) (c : CId) (r : RId) : Rat := (lookup (v.comps c).claims r).getD 0
/-- what `c` waits for -/
def wants (v : RView) (c : CId) (r : RId) : Option Rat := lookup (v.comps c).requests r
/-- the components waiting for `r` in order -/
def reqQ (v : RView) (r : RId) : List CId := (v.reqs r).1.map QMem.c
/-- the components claiming from `r` -/
def clmQ (v : RView) (r : RId) : List CId := (v.clms r).1.map QMem.c
/-- the sum of what the claimers of `r` claim -/
def total (v : RView) (r : RId) : Rat := ((v.clmQ r).map (fun c => v.claim c r)).sum

/-- coherence: dictionaries have one entry for each key, the members of a queue are different, the queues are in accordance with the
components, there are no claims from anonymous resources -/
structure Coh (v : RView) : Prop where
  capq : ∀ r, (v.reqs r).2 = ⊤ ∧ (v.clms r).2 = ⊤
  rnd : ∀ r, (v.reqQ r).Nodup
  cnd : ∀ r, (v.clmQ r).Nodup
  rq : ∀ c r, c ∈ v.reqQ r ↔ r ∈ keys (v.comps c).requests
  cq : ∀ c r, c ∈ v.clmQ r ↔ r ∈ keys (v.comps c).claims
  rk : ∀ c, (keys (v.comps c).requests).Nodup
  ck : ∀ c, (keys (v.comps c).claims).Nodup
  pos : ∀ c r q, v.wants c r = some q → q < 0 → (v.res r).anonymous = true
  nneg : ∀ c r, 0 ≤ v.claim c r
  anon : ∀ r, (v.res r).anonymous = true → (v.clms r).1 = []

/-- a member gets a place in a queue: behind those of the same priority -/
def Inserted (l l' : List QMem) (x : QMem) : Prop := ∃ l1 l2, l = l1 ++ l2 ∧ l' = l1 ++ x :: l2 ∧
  (Queue.Sorted l → (∀ m ∈ l1, m.prio ≤ x.prio) ∧ ∀ m ∈ l2, x.prio < m.prio)

/-- `c` starts waiting for `q` of `r` -/
structure Ask (c : CId) (r : RId) (q prio : Rat) (v v' : RView) : Prop where
  other : ∀ d, d ≠ c → v'.comps d = v.comps d
  claims : (v'.comps c).claims = (v.comps c).claims
  oneof : (v'.comps c).oneof = (v.comps c).oneof
  requests : (v'.comps c).requests = addTo (v.comps c).requests r q
  ok : q < 0 → (v.res r).anonymous = true
  res : v'.res = v.res
  clms : v'.clms = v.clms
  oreq : ∀ s, s ≠ r → v'.reqs s = v.reqs s
  reqs : (v'.reqs r).2 = (v.reqs r).2 ∧ if r ∈ keys (v.comps c).requests then (v'.reqs r).1 = (v.reqs r).1 else
    ∃ x, x.c = c ∧ x.prio = prio ∧ Inserted (v.reqs r).1 (v'.reqs r).1 x

/-- `c` doesn't wait any longer -/
structure Fail (c : CId) (v v' : RView) : Prop where
  other : ∀ d, d ≠ c → v'.comps d = v.comps d
  comp : v'.comps c = { v.comps c with requests := [] }
  res : v'.res = v.res
  clms : v'.clms = v.clms
  reqs : ∀ r, v'.reqs r = ((v.reqs r).1.filter (fun m => m.c != c), (v.reqs r).2)

/-- nothing stands in the way of granting `q` of `r` to `c`: it's the turn of `c`, and there is enough (if something is put back: there
is that much claimed) -/
structure Could (c : CId) (r : RId) (q : Rat) (v : RView) : Prop where
  first : (v.res r).honorFirst = true → (v.reqQ r).head? = some c
  highest : (v.res r).honorHighest = true → ∃ m ∈ (v.reqs r).1, m.c = c ∧ ∃ h, (v.reqs r).1.head? = some h ∧ m.prio = h.prio
  fits : (0 < q → (((v.res r).claimed + q : Rat) : ETime) ≤ (v.res r).cap + (eps : ETime)) ∧ (q ≤ 0 → 0 ≤ (v.res r).claimed + q + eps)

/-- the requests for the resources `hon` are granted to `c`; it doesn't wait any longer -/
structure Honor (c : CId) (hon : List RId) (v v' : RView) : Prop where
  ne : hon ≠ []
  sub : ∀ r ∈ hon, r ∈ keys (v.comps c).requests
  all : (v.comps c).oneof = false → ∀ r ∈ keys (v.comps c).requests, r ∈ hon
  one : (v.comps c).oneof = true → ∃ r, hon = [r]
  order : (v.comps c).oneof = true → ∃ l1 p l2, (v.comps c).requests = l1 ++ p :: l2 ∧ hon = [p.1] ∧ ∀ x ∈ l1, ¬ Could c x.1 x.2 v
  fits : ∀ r q, r ∈ hon → v.wants c r = some q →
    (0 < q → (((v.res r).claimed + q : Rat) : ETime) ≤ (v.res r).cap + (eps : ETime)) ∧ (q ≤ 0 → 0 ≤ (v.res r).claimed + q + eps)
  first : ∀ r ∈ hon, (v.res r).honorFirst = true → (v.reqQ r).head? = some c
  highest : ∀ r ∈ hon, (v.res r).honorHighest = true → ∃ m ∈ (v.reqs r).1, m.c = c ∧ ∃ h, (v.reqs r).1.head? = some h ∧ m.prio = h.prio
  other : ∀ d, d ≠ c → v'.comps d = v.comps d
  requests : (v'.comps c).requests = []
  oneof : (v'.comps c).oneof = (v.comps c).oneof
  ck : (keys (v'.comps c).claims).Nodup
  keys : ∀ r, r ∈ Verif.keys (v'.comps c).claims ↔ r ∈ Verif.keys (v.comps c).claims ∨ (r ∈ hon ∧ (v.res r).anonymous = false)
  claim : ∀ r, v'.claim c r = v.claim c r + (if r ∈ hon ∧ (v.res r).anonymous = false then (v.wants c r).getD 0 else 0)
  res : ∀ r, v'.res r = { v.res r with claimed := (v.res r).claimed + (if r ∈ hon then (v.wants c r).getD 0 else 0) }
  reqs : ∀ r, v'.reqs r = ((v.reqs r).1.filter (fun m => m.c != c), (v.reqs r).2)
  ccap : ∀ r, (v'.clms r).2 = (v.clms r).2
  clms : ∀ r, if r ∈ hon ∧ (v.res r).anonymous = false ∧ c ∉ v.clmQ r then
      ∃ x m, x.c = c ∧ m ∈ (v.reqs r).1 ∧ m.c = c ∧ x.prio = m.prio ∧ Inserted (v.clms r).1 (v'.clms r).1 x
    else (v'.clms r).1 = (v.clms r).1

/-- `c`, which claims `cl` of `r`, gives back `q`; if there is (almost) nothing left the claim is gone -/
structure Release (c : CId) (r : RId) (cl q : Rat) (v v' : RView) : Prop where
  has : lookup (v.comps c).claims r = some cl
  le : q ≤ cl
  other : ∀ d, d ≠ c → v'.comps d = v.comps d
  requests : (v'.comps c).requests = (v.comps c).requests
  oneof : (v'.comps c).oneof = (v.comps c).oneof
  ck : (keys (v'.comps c).claims).Nodup
  claims : ∀ s, lookup (v'.comps c).claims s = if s = r then (if cl - q < eps then none else some (cl - q)) else lookup (v.comps c).claims s
  reqs : v'.reqs = v.reqs
  ores : ∀ s, s ≠ r → v'.res s = v.res s
  res : v'.res r = { v.res r with claimed := (if cl - q < eps ∧ (v'.clms r).1 = [] then 0 else (v.res r).claimed - q) }
  oclms : ∀ s, s ≠ r → v'.clms s = v.clms s
  clms : v'.clms r = (if cl - q < eps then (v.clms r).1.filter (fun m => m.c != c) else (v.clms r).1, (v.clms r).2)

/-- what is given back of a claim `cl`: all of it, or a given quantity but not more than there is -/
def amount (a : Option Rat) (cl : Rat) : Rat :=
  match a with
  | none => cl
  | some x => min x cl

/-- the steps -/
inductive Step (L : Lic) : RView → RView → Prop
  | oneof {v v'} (c b) : L.who c → v' = { v with comps := fun d => if d = c then { v.comps d with oneof := b } else v.comps d } → Step L v v'
  | ask {v v'} (c r q prio) : L.who c → L.ask r q prio → Ask c r q prio v v' → Step L v v'
  | fail {v v'} (c) : Fail c v v' → Step L v v'
  | honor {v v'} (c hon) : Honor c hon v v' → Step L v v'
  /-- all of it, or a given quantity -/
  | release {v v'} (c r cl) (a : Option Rat) : (∀ x, a = some x → L.rel r x) →
      Release c r cl (amount a cl) v v' → Step L v v'
  /-- a release from an anonymous resource -/
  | anon {v v'} (r) (a : Option Rat) : L.anon v r a → (v.res r).anonymous = true →
      v' = { v with res := fun s => if s = r then { v.res r with claimed := (if (v.res r).claimed - a.getD (v.res r).claimed < eps then 0
        else (v.res r).claimed - a.getD (v.res r).claimed) } else v.res s } →
      Step L v v'
  | cap {v v'} (r k) : L.cap v r k → v' = { v with res := fun s => if s = r then { v.res s with cap := k } else v.res s } →
      Step L v v'

end RView
end Verif
