import Verif.Props.Resources
import Verif.Props.Requests

/-!
# Claim C89: who claims and who requests what
-/

namespace Verif
open World

/-- `c.claimed_quantity(r)` (salabim.py:9287-9299) -/
def claimedQuantity (w : World) (c : CId) (r : RId) : Rat := (lookup (w.comps c).claims r).getD 0
/-- `c.claimed_resources()` (salabim.py:9301-9307) -/
def claimedResources (w : World) (c : CId) : List RId := keys (w.comps c).claims
/-- `c.requested_quantity(r)` (salabim.py:9317-9329) -/
def requestedQuantity (w : World) (c : CId) (r : RId) : Rat := (lookup (w.comps c).requests r).getD 0
/-- `c.requested_resources()` (salabim.py:9309-9315) -/
def requestedResources (w : World) (c : CId) : List RId := keys (w.comps c).requests
/-- `c.isclaiming(r)`, or `c.isclaiming()` (salabim.py:8697-8703): the queues that `c` is in are those with `c` as a member (C15) -/
def IsClaiming (w : World) (c : CId) : Option RId → Prop
  | some r => c ∈ w.inQ (.claimers r)
  | none => ∃ r, c ∈ w.inQ (.claimers r)
/-- `c.isbumped(r)` (salabim.py:8680) -/
def IsBumped (w : World) (c : CId) (r : Option RId) : Prop := ¬ IsClaiming w c r

theorem lookup_none_getD {l : List (RId × Rat)} {r : RId} (h : r ∉ keys l) : (lookup l r).getD 0 = 0 := by
  cases hl : lookup l r with
  | none => rfl
  | some q => exact absurd (lookup_isSome.1 ⟨q, hl⟩) h

/-- C89: what a component says about its claims fits what the resource says: `isclaiming(r)` (and the opposite of `isbumped(r)`) exactly if `r` is in `claimed_resources()`, once;
`isclaiming()` exactly if there are any; then and only then it may have a claimed quantity other than 0, which is never negative. Nobody claims anonymous resources. -/
theorem C89_claims {w : World} (h : Reach Any w) (c : CId) :
    (∀ r, IsClaiming w c (some r) ↔ r ∈ claimedResources w c) ∧ (∀ r, IsBumped w c (some r) ↔ r ∉ claimedResources w c) ∧
    (IsClaiming w c none ↔ claimedResources w c ≠ []) ∧ (claimedResources w c).Nodup ∧
    ∀ r, 0 ≤ claimedQuantity w c r ∧ (¬ IsClaiming w c (some r) → claimedQuantity w c r = 0) ∧ ((w.res r).anonymous = true → ¬ IsClaiming w c (some r)) := by
  have hc := h.coh
  have h1 : ∀ r, c ∈ w.inQ (.claimers r) ↔ r ∈ keys (w.comps c).claims := hc.cq c
  refine ⟨h1, fun r => not_congr (h1 r), ?_, hc.ck c, fun r => ⟨hc.nneg c r, fun hn => lookup_none_getD (fun hx => hn ((h1 r).2 hx)), fun ha hx => ?_⟩⟩
  · constructor
    · rintro ⟨r, hr⟩ he
      have := (h1 r).1 hr
      rw [show keys (w.comps c).claims = [] from he] at this
      cases this
    · intro hne
      obtain ⟨r, hr⟩ := List.exists_mem_of_ne_nil _ hne
      exact ⟨r, (h1 r).2 hr⟩
  · have h2 : (w.queues (.claimers r)).mem = [] := hc.anon r ha
    have h3 : c ∈ w.inQ (.claimers r) := hx
    simp [World.inQ, h2] at h3

/-- C89: the same for requests: `c in r.requesters()` exactly if `r` is in `requested_resources()`, once; if not, `requested_quantity(r)` is 0; only of anonymous
resources a negative quantity may be requested -/
theorem C89_requests {w : World} (h : Reach Any w) (c : CId) :
    (∀ r, c ∈ w.inQ (.requesters r) ↔ r ∈ requestedResources w c) ∧ (requestedResources w c).Nodup ∧ (∀ r, (w.inQ (.requesters r)).Nodup) ∧
    ∀ r, (r ∉ requestedResources w c → requestedQuantity w c r = 0) ∧ (requestedQuantity w c r < 0 → (w.res r).anonymous = true) := by
  have hc := h.coh
  refine ⟨hc.rq c, hc.rk c, hc.rnd, fun r => ⟨lookup_none_getD, fun hq => ?_⟩⟩
  unfold requestedQuantity at hq
  cases hl : lookup (w.comps c).requests r with
  | none => rw [hl] at hq; exact absurd hq (lt_irrefl _)
  | some q => exact hc.pos c r q hl (by rw [hl] at hq; exact hq)

/-- what a data component or the current component says: it requests nothing (in all histories of C03) -/
theorem C89_idle {w : World} (h : Reach Calm w) (c : CId) (hs : w.status c = .data ∨ w.status c = .current ∨ w.status c = .passive) :
    requestedResources w c = [] ∧ ∀ r, c ∉ w.inQ (.requesters r) := by
  have hn : NoWait (w.comps c) := h.good.idle c (by simp) (by rcases hs with hs | hs | hs <;> simp [hs, Status.idle])
  have h1 : requestedResources w c = [] := by simp [requestedResources, hn.req, keys]
  refine ⟨h1, fun r hr => ?_⟩
  have := ((C89_requests h.any c).1 r).1 hr
  rw [h1] at this; cases this

/-- `isclaiming(r)` doesn't tell that something is claimed: who requested a quantity of 0 (which is always granted) is a claimer -/
theorem C89_zero_counterexample : ∃ w : World, Reach Calm w ∧ IsClaiming w 1 (some 0) ∧ claimedQuantity w 1 0 = 0 := by
  refine ⟨execAll 20 [.create 1 none (0 : Rat) (0 : Rat) false false false, .step, .request 1 [{ r := 0, q := 0 }] false false none none (0 : Rat) false false]
    World.init, reach_calm _ (.init fresh_init) _ (by decide +kernel), ?_, by decide +kernel⟩
  simp only [IsClaiming]; decide +kernel

/-- component 1 claims 1/2 of resource 0 and requests 1 of resource 1, which component 2 has claimed -/
example : ∃ w : World, Reach Calm w ∧ claimedResources w 1 = [0] ∧ claimedQuantity w 1 0 = 1 / 2 ∧ requestedResources w 1 = [1] ∧ requestedQuantity w 1 1 = 1 ∧
    IsClaiming w 1 (some 0) ∧ IsBumped w 1 (some 1) ∧ IsClaiming w 2 none := by
  refine ⟨execAll 20 [.create 2 none (0 : Rat) (0 : Rat) false false false, .create 1 none (0 : Rat) (0 : Rat) false false false, .step,
      .request 2 [{ r := 1, q := 1 }] false false none none (0 : Rat) false false, .step, .request 1 [{ r := 0, q := 1 / 2 }] false false none none (0 : Rat) false false, .step,
      .passivate 2, .step, .request 1 [{ r := 1, q := 1 }] false false none none (0 : Rat) false false] World.init, reach_calm _ (.init fresh_init) _ ?_, ?_, ?_, ?_, ?_, ?_, ?_, 1, ?_⟩
  · decide +kernel
  · decide +kernel
  · decide +kernel
  · decide +kernel
  · decide +kernel
  · simp only [IsClaiming]; decide +kernel
  · simp only [IsBumped, IsClaiming]; decide +kernel
  · decide +kernel

end Verif
