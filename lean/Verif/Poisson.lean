import Mathlib.Analysis.SpecialFunctions.Log.Basic
import Mathlib.Analysis.SpecialFunctions.Exp

/-!
# Poisson

The sampler of the Poisson distribution, which is salabim's own (without numpy). The numbers are exact reals; the random numbers are given.
-/

namespace Verif
namespace Poisson

/-- how a sampling ends: a value, an exception, or it isn't finished yet after the given number of rounds -/
inductive Out where
  | value (k : Nat)
  | error
  | more
  deriving DecidableEq

/-- `Poisson.__init__` (salabim.py:21901-21903): a mean that isn't positive is refused -/
noncomputable def make (mean : ℝ) : Option ℝ := if mean ≤ 0 then none else some mean

/-- `Poisson.sample_fallback` (salabim.py:21941-21951), from the top of the loop, with `n` and `t`; round `n` takes the random number `r n`. `math.log` raises
for 0. -/
noncomputable def fallback (lam : ℝ) (r : Nat → ℝ) : Nat → Nat → ℝ → Out
  | 0, _, _ => .more
  | f + 1, n, t =>
    if r n ≤ 0 then .error
    else if t + -Real.log (r n) / lam > 1 then .value n
    else fallback lam r f (n + 1) (t + -Real.log (r n) / lam)

/-- the loop of `Poisson.sample` (salabim.py:21969-21975), from the top with `k`, `t`, `s` and `last_s` (`none` for inf) -/
noncomputable def loop (lam u : ℝ) (other : Out) : Nat → Nat → ℝ → ℝ → Option ℝ → Out
  | 0, _, _, _, _ => .more
  | f + 1, k, t, s, last =>
    open Classical in
    if s < u then
      if last = some (s + t * (lam / (k + 1 : Nat))) then other
      else loop lam u other f (k + 1) (t * (lam / (k + 1 : Nat))) (s + t * (lam / (k + 1 : Nat))) (some (s + t * (lam / (k + 1 : Nat))))
    else .value k

/-- `Poisson.sample` (salabim.py:21959-21975), with the random numbers `r` -/
noncomputable def sample (fuel : Nat) (lam : ℝ) (r : Nat → ℝ) : Out :=
  loop lam (r 0) (fallback lam (fun i => r (i + 1)) fuel 0 0) fuel 0 (Real.exp (-lam)) (Real.exp (-lam)) none

/-- `Poisson.mean` (salabim.py:21977-21983) -/
def mean (lam : ℝ) : ℝ := lam

end Poisson
end Verif
