import Verif.Model.Basic

/-!
# Loops without an evident bound

`while True` loops of the code are iterations of a step function that either fails, continues with a new state or returns.
`runLoop` is the result of the loop; a loop that never stops has the result `.error .diverge`.
-/

namespace Verif

/-- At most `n` iterations; `none` if the loop has not stopped by then.  See `/repo/utlvce/score.py:362,531,611,1229`. -/
def iterLoop {σ ρ : Type} (step : σ → Except Err (σ ⊕ ρ)) : Nat → σ → Option (Except Err ρ)
  | 0, _ => none
  | n + 1, s =>
    match step s with
    | .error err => some (.error err)
    | .ok (.inr r) => some (.ok r)
    | .ok (.inl s') => iterLoop step n s'

/-- The result of the loop.  See `/repo/utlvce/score.py:362,531,611,1229`. -/
noncomputable def runLoop {σ ρ : Type} (step : σ → Except Err (σ ⊕ ρ)) (s : σ) : Except Err ρ :=
  open Classical in
  if h : ∃ n r, iterLoop step n s = some r then h.choose_spec.choose else .error .diverge

end Verif
