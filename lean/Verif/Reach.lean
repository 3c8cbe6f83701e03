import Verif.Frame

/-!
# Histories

A history is a sequence of calls (`Op`), made by whatever component or by the main program, in any order, with the steps of the
scheduler in between. A call that raises has had its effect up to that point and the history goes on (as if the program caught
the exception). `ok` restricts the calls.
-/

namespace Verif
open World

/-- the queues that belong to resources, states and stores: their capacity is inf -/
def QRef.inner : QRef → Bool
  | .user _ | .store _ => false
  | _ => true

/-- A new environment (salabim.py:10560-10574) with resources, states, queues and stores already made: nothing has happened
yet, main is current. Capacities, kinds of resources, values of states and the clock are arbitrary; the monitors of the resources start at this moment. Components are made by
`Op.create`, or are data components from the start. -/
structure Fresh (w : World) : Prop where
  events : w.events = []
  standby : w.standby = []
  pending : w.pending = []
  main : w.current = w.main
  comps : ∀ c, ∃ b, w.comps c = { status := if c = w.main then .current else .data, hasProcess := b }
  queues : ∀ q, ∃ k, w.queues q = { cap := k }
  inner : ∀ q, q.inner = true → (w.queues q).cap = ⊤
  res : ∀ r, (w.res r).minq = ⊤ ∧ (w.res r).trying = false ∧ 0 ≤ (w.res r).claimed ∧ ((w.res r).claimed : ETime) ≤ (w.res r).cap ∧
    ((w.res r).anonymous = false → (w.res r).claimed = 0)
  log : ∀ r, (w.res r).log = .start w.now (w.res r).cap (w.res r).claimed
  slog : ∀ s, w.slog s = [(w.now, w.states s)]

/-- the states that can be reached by calls that satisfy `ok` -/
inductive Reach (ok : Nat → World → Op → Prop) : World → Prop
  | init {w} : Fresh w → Reach ok w
  | op {w} (fuel : Nat) (o : Op) : Reach ok w → ok fuel w o → Reach ok (exec fuel o w).world

/-- `w'` can be reached from `w` -/
inductive After (ok : Nat → World → Op → Prop) (w : World) : World → Prop
  | refl : After ok w w
  | op {w'} (fuel : Nat) (o : Op) : After ok w w' → ok fuel w' o → After ok w (exec fuel o w').world

/-- no restriction at all -/
def Any : Nat → World → Op → Prop := fun _ _ _ => True
/-- see `OpOK` -/
def Sane : Nat → World → Op → Prop := fun _ w o => OpOK w o

theorem Reach.after {ok} {w w' : World} (h : Reach ok w) (h' : After ok w w') : Reach ok w' := by
  induction h' with
  | refl => exact h
  | op fuel o _ ho ih => exact .op fuel o ih ho

theorem Reach.any {ok} {w : World} (h : Reach ok w) : Reach Any w := by
  induction h with
  | init hf => exact .init hf
  | op fuel o _ _ ih => exact .op fuel o ih trivial

theorem Fresh.inv0 {w : World} (h : Fresh w) : Inv0 w := by
  refine ⟨?_, ?_, ?_, ?_⟩
  · rw [h.events]; intro i hi; simp at hi
  · simp [h.events]
  · simp [h.events]
  · simp [h.events]

theorem Fresh.inv {w : World} (h : Fresh w) : w.Inv := by
  refine ⟨h.inv0.heap, h.inv0.ge, ?_, ?_, ?_, ?_, h.inv0.seqle, h.inv0.seqnd⟩
  · show (w.events.map Ev.c).Nodup; simp [h.events]
  · intro c
    obtain ⟨b, hb⟩ := h.comps c
    simp [World.ev, Comp.cv, hb, h.events]
  · intro x hx
    simp [World.ev, h.events] at hx
  · intro c
    obtain ⟨b, hb⟩ := h.comps c
    simp [World.ev, Comp.cv, hb]

theorem EventKind.inv0 {w w' : World} (h : Inv0 w) (hk : EventKind w w') : Inv0 w' := by
  cases hk with
  | empty l s _ _ _ hs => exact St.inv0 (w := { w with pending := l, standby := s }) ⟨h.heap, h.ge, h.seqle, h.seqnd⟩ hs
  | event p s e es _ hp _ hs =>
    have hspec := Heapq.heappop_spec evLaw h.heap
    rw [hp] at hspec
    obtain ⟨hperm, hheap, hmin⟩ := hspec
    refine hs.inv0 ⟨hheap, ?_, ?_, ?_⟩
    · intro x hx
      exact Ev.lt_false (hmin x (hperm.mem_iff.2 (by simp [hx])))
    · intro x hx
      exact h.seqle x (hperm.mem_iff.2 (by simp [hx]))
    · have := ((hperm.map (fun x => x.seq.natAbs)).nodup_iff).1 h.seqnd
      simp only [List.map_cons, List.nodup_cons] at this
      exact this.2

theorem exec_inv0 {w : World} (h : Inv0 w) (fuel o) : Inv0 (exec fuel o w).world := by
  by_cases hp : o.plain
  · exact (exec_st fuel hp w).inv0 h
  · cases o <;> simp [Op.plain] at hp
    · rename_i c n i
      rcases exec_insertAt fuel c n i w with he | ⟨q', _, he⟩
      · rw [he]; exact h
      · rw [he]; exact ⟨h.heap, h.ge, h.seqle, h.seqnd⟩
    · exact ⟨h.heap, h.ge, h.seqle, h.seqnd⟩
    · have := step_kind w h.heap
      simp only [exec]
      generalize (step w).world = w' at this
      cases this with
      | turn c _ _ _ _ hs => exact hs.inv0 h
      | ev _ hk => exact hk.inv0 h

theorem Reach.inv0 {ok} {w : World} (h : Reach ok w) : Inv0 w := by
  induction h with
  | init hf => exact hf.inv0
  | op fuel o _ _ ih => exact exec_inv0 ih fuel o

theorem Reach.inv {w : World} (h : Reach Sane w) : w.Inv := by
  induction h with
  | init hf => exact hf.inv
  | op fuel o _ ho ih => exact exec_inv ih fuel o ho

theorem exec_now {w : World} (h : Inv0 w) (fuel o) : w.now ≤ (exec fuel o w).world.now := by
  by_cases hp : o.plain
  · rw [(exec_st fuel hp w).now]
  · cases o <;> simp [Op.plain] at hp
    · rename_i c n i
      rcases exec_insertAt fuel c n i w with he | ⟨q', _, he⟩
      · rw [he]
      · rw [he]; exact le_refl _
    · exact le_refl _
    · have := step_kind w h.heap
      simp only [exec]
      generalize (step w).world = w' at this
      cases this with
      | turn c _ _ _ _ hs => rw [hs.now]
      | ev _ hk =>
        cases hk with
        | empty _ _ _ _ _ hs => rw [hs.now]
        | event p s e es _ hp _ hs =>
          rw [hs.now]
          have hspec := Heapq.heappop_spec evLaw h.heap
          rw [hp] at hspec
          exact h.ge e (hspec.1.mem_iff.2 (by simp))

end Verif
