import Verif.RRefine
import Verif.CalmTry

/-!
# Trying to honor requests, and giving back all claims

`_tryrequest` only honors requests: it never takes anything away from anybody. And what happens to the resources when a component
gives back everything it claims.
-/

namespace Verif
open World RView

/-- kept by honoring a request, and independent of everything but the bookkeeping of resources -/
structure Stable0 (P : World → Prop) : Prop where
  frame : ∀ {w w' : World}, P w → w'.rv = w.rv → P w'
  honor : ∀ {w : World} (c), P w → w.status c ≠ .interrupted → honored w c ≠ [] →
    P (forR (w.comps c).requests (claimOne c (honored w c)) w ⊳ fun w => .ok (w.modC c (fun x => { x with requests := [] }))).world

variable {P : World → Prop}

theorem rv_push (w : World) (c) (t : ETime) (p u ret) : (push c t p u ret w).rv = w.rv := by
  unfold Verif.push
  split
  · rfl
  · exact rv_modC w c (f := fun x => { x with onList := true }) (by intro _; rfl)

theorem rv_remove (w : World) (c) : (remove c w).world.rv = w.rv := by
  unfold Verif.remove
  split
  · split
    · exact rv_modC w c (f := fun x => { x with onList := false }) (by intro _; rfl)
    · rfl
  · split <;> rfl

theorem rv_reschedule (w : World) (c t p u k ret) : (reschedule c t p u k ret w).world.rv = w.rv := by
  unfold reschedule
  split
  · split
    · exact (rv_push (w.modC c (fun x => { x with schedTime := (w.now : ETime) })) c w.now p u ret).trans (rv_modC w c (by intro _; rfl))
    · rfl
  · exact (rv_push (w.modC c (fun x => { x with schedTime := t })) c t p u ret).trans (rv_modC w c (by intro _; rfl))

theorem rv_wake (w : World) (c ret) : (wake c ret w).world.rv = w.rv := by
  unfold wake
  have h := rv_remove w c
  generalize remove c w = r at h
  cases r with
  | ok w1 => exact (rv_reschedule _ _ _ _ _ _ _).trans ((rv_modC w1 c (by intro _; rfl)).trans h)
  | err e w1 => exact h

theorem rs0_honorNow (S : Stable0 P) {w : World} (h : P w) {c r} (he : honorNow c w = some r) : Pr P r := by
  unfold honorNow at he
  split at he
  · cases he
  · rename_i hn
    cases he
    have h1 := S.honor c h (fun hh => hn (.inl hh)) (fun hh => hn (.inr hh))
    generalize forR (w.comps c).requests (claimOne c (honored w c)) w = r at h1 ⊢
    cases r with
    | ok w1 => exact S.frame h1 (rv_wake _ _ _)
    | err e w1 => exact h1

theorem rs0_try (S : Stable0 P) (fuel : Nat) : (∀ c w, P w → Pr P (tryReqC fuel c w)) ∧ (∀ rs w, P w → Pr P (tryReqList fuel rs w)) ∧
    (∀ r w, P w → Pr P (tryReqR fuel r w)) ∧ (∀ r mx f w, P w → Pr P (loopR fuel r mx f w)) := by
  have hR : ∀ {w : World} (r : RId) (b : Bool), P w → P (w.modR r (fun x => { x with trying := b })) := fun r b h =>
    S.frame h (rv_modR _ r (by intro _; rfl))
  induction fuel with
  | zero =>
    refine ⟨fun c w h => ?_, fun rs w h => ?_, fun r w h => ?_, fun r mx f w h => ?_⟩
    · rw [tryReqC]; exact h
    · rw [tryReqList]; exact h
    · rw [tryReqR]; exact h
    · rw [loopR]; exact h
  | succ n ih =>
    obtain ⟨i1, i2, i3, i4⟩ := ih
    refine ⟨fun c w h => ?_, fun rs w h => ?_, fun r w h => ?_, fun r mx f w h => ?_⟩
    · rw [tryReqC]
      split
      · exact h
      · rename_i res hres
        exact Pr.andThen (rs0_honorNow S h hres) (i2 _)
    · rw [tryReqList.eq_def]
      simp only
      split
      · exact h
      · exact Pr.andThen (i3 _ _ h) (i2 _)
    · rw [tryReqR]
      split
      · split
        · exact h
        · exact Pr.andThen (i4 _ _ _ _ (hR _ _ h)) fun w' h' => Pr.ok (hR _ _ h')
      · exact i4 _ _ _ _ h
    · rw [loopR.eq_def]
      simp only
      repeat' split
      all_goals first
        | exact h
        | (refine Pr.andThen (i1 _ _ h) fun w' h' => ?_
           split <;> exact i4 _ _ _ _ h')

/-! ## grants -/

namespace RView

/-- some requests are honored, nothing else happens -/
def Grants : RView → RView → Prop := Relation.ReflTransGen fun v v' => ∃ d hon, Honor d hon v v'

theorem Grants.coh {v v' : RView} (h : v.Coh) (g : Grants v v') : v'.Coh := by
  induction g with
  | refl => exact h
  | tail _ s ih => obtain ⟨d, hon, s⟩ := s; exact ih.honor s

/-- who doesn't wait gets nothing -/
theorem Honor.not_mine {v v' : RView} {d c : CId} {hon} (s : Honor d hon v v') (hc : (v.comps c).requests = []) : v'.comps c = v.comps c := by
  refine s.other c fun hdc => ?_
  subst hdc
  obtain ⟨r, hr⟩ := List.exists_mem_of_ne_nil _ s.ne
  have := s.sub r hr
  rw [hc] at this; cases this

theorem Grants.not_mine {v v' : RView} {c : CId} (g : Grants v v') (hc : (v.comps c).requests = []) : v'.comps c = v.comps c := by
  induction g with
  | refl => rfl
  | tail _ s ih =>
    obtain ⟨d, hon, s⟩ := s
    rw [s.not_mine (by rw [ih]; exact hc), ih]

end RView

def GrantsFrom (v0 : RView) (w : World) : Prop := w.rv.Coh ∧ Grants v0 w.rv

theorem grants_stable (v0 : RView) : Stable0 (GrantsFrom v0) where
  frame h hv := by unfold GrantsFrom at *; rw [hv]; exact h
  honor {w} c h _ hne := by
    obtain ⟨w', h1, h2⟩ := honor_step h.1 c hne
    rw [h1]
    exact ⟨h.1.honor h2, h.2.tail ⟨c, _, h2⟩⟩

theorem tryReqR_grants {w : World} (h : w.rv.Coh) (fuel r) : Grants w.rv (tryReqR fuel r w).world.rv :=
  ((rs0_try (grants_stable w.rv) fuel).2.2.1 r w ⟨h, .refl⟩).2

theorem tryReqC_grants {w : World} (h : w.rv.Coh) (fuel c) : Grants w.rv (tryReqC fuel c w).world.rv :=
  ((rs0_try (grants_stable w.rv) fuel).1 c w ⟨h, .refl⟩).2

/-! ## giving back everything -/

namespace RView

/-- `c` gives back all it claims of the resources in the list, one after another; others may be served in between -/
def GivesBack (c : CId) : List RId → RView → RView → Prop
  | [], v, v' => v' = v
  | r :: l, v, v' => ∃ v1 v2 cl, Release c r cl cl v v1 ∧ Grants v1 v2 ∧ GivesBack c l v2 v'

end RView

theorem releaseAll_givesBack {c : CId} {fuel : Nat} (l : List RId) : ∀ {w w' : World}, w.rv.Coh →
    forR l (fun r => release1 fuel c r none) w = .ok w' → GivesBack c l w.rv w'.rv := by
  induction l with
  | nil => intro w w' _ h; cases h; rfl
  | cons r l ih =>
    intro w w' hcoh h
    obtain ⟨w2, h1, h2⟩ := andThen_ok h
    obtain ⟨w1, h0, h1⟩ := andThen_ok h1
    rcases release_step hcoh c r none with hs | ⟨cl, _, hs⟩
    · rw [hs] at h0; cases h0
    · rw [h0] at hs
      have g := tryReqR_grants (w := w1) (hcoh.release hs) fuel r
      rw [h1] at g
      exact ⟨_, _, cl, hs, g, ih (g.coh (hcoh.release hs)) h2⟩

end Verif
