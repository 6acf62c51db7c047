import Verif.Model.LModel
import Verif.Model.Loop
import Mathlib.Data.EReal.Basic

/-!
# `_is_within_bounds` and `_gradient_descent` (`/repo/utlvce/score.py:1140-1287`)

The argument `X`, a list of `nArr` arrays, is a function `ι → ℝ` on the set `ι` of all entries of all arrays; `blk i` is the
number of the array that entry `i` belongs to.  Arithmetic is exact; the loss can be `nan` (`none`).
-/

namespace Verif

variable {ι : Type}

/-- The loop of `_is_within_bounds` over the pairs of `zip(X, Bounds)`, `/repo/utlvce/score.py:1157-1163`. -/
noncomputable def withinLoop (blk : ι → Nat) (X : ι → ℝ) : List (Nat × EReal × EReal) → Except Err Bool
  | [] => .ok true
  | (k, lo, hi) :: rest =>
    open Classical in
    if hi < lo then .error .valueError
    else if (∃ i, blk i = k ∧ (X i : EReal) ≤ lo) ∨ (∃ i, blk i = k ∧ hi ≤ (X i : EReal)) then .ok false
    else withinLoop blk X rest

/-- `_is_within_bounds(X, Bounds)`, `/repo/utlvce/score.py:1140-1163`. -/
noncomputable def isWithinBounds (nArr : Nat) (blk : ι → Nat) (X : ι → ℝ) (bounds : List (EReal × EReal)) : Except Err Bool :=
  withinLoop blk X ((List.range nArr).zip bounds)

/-- `a < b` on floats, false if one is `nan`.  See `/repo/utlvce/score.py:1265,1271`. -/
def Flt.lt (a b : Flt) : Prop :=
  match a, b with
  | some x, some y => x < y
  | _, _ => False

/-- `abs(a - b) < t` on floats, false if one is `nan`.  See `/repo/utlvce/score.py:1265`. -/
def Flt.absSubLt (a b : Flt) (t : ℝ) : Prop :=
  match a, b with
  | some x, some y => |x - y| < t
  | _, _ => False

/-- Local variables of the loop of `_gradient_descent`: `current_X`, `current_loss`, `kappa`, and `gradients` if `moved` is
false (when `moved` is true the gradients are computed again, so the old ones do not matter).  See `/repo/utlvce/score.py:1220-1228`. -/
structure GDState (ι : Type) where
  X : ι → ℝ
  loss : Flt
  kappa : ℝ
  grad : Option (ι → ℝ)

/-- `bounds is not None and not _is_within_bounds(X, bounds)`, negated, `/repo/utlvce/score.py:1216,1251`. -/
noncomputable def checkBounds (nArr : Nat) (blk : ι → Nat) (X : ι → ℝ) : Option (List (EReal × EReal)) → Except Err Bool
  | none => .ok true
  | some b => isWithinBounds nArr blk X b

/-- The gradients used in an iteration, `/repo/utlvce/score.py:1232-1233`. -/
def GDState.gradients (gradFun : (ι → ℝ) → Except Err (ι → ℝ)) (s : GDState ι) : Except Err (ι → ℝ) :=
  match s.grad with
  | none => gradFun s.X
  | some g => .ok g

/-- One iteration of the loop of `_gradient_descent`, `/repo/utlvce/score.py:1229-1287`. -/
noncomputable def gdStep (nArr : Nat) (blk : ι → Nat) (lossFun : (ι → ℝ) → Except Err Flt)
    (gradFun : (ι → ℝ) → Except Err (ι → ℝ)) (threshold learningRate : ℝ) (bounds : Option (List (EReal × EReal)))
    (kappaZero : ℝ) (s : GDState ι) : Except Err (GDState ι ⊕ ((ι → ℝ) × Flt)) :=
  match s.gradients gradFun with
  | .error err => .error err
  | .ok g =>
    let newX : ι → ℝ := fun i => s.X i - s.kappa * learningRate * g i
    match checkBounds nArr blk newX bounds with
    | .error err => .error err
    | .ok false => .ok (.inl { s with kappa := s.kappa / 2, grad := some g })
    | .ok true =>
      match lossFun newX with
      | .error err => .error err
      | .ok newLoss =>
        open Classical in
        if newLoss.lt s.loss ∧ newLoss.absSubLt s.loss threshold then .ok (.inr (newX, newLoss))
        else if newLoss.lt s.loss then .ok (.inl { s with X := newX, loss := newLoss, grad := none })
        else if s.kappa * learningRate ≤ kappaZero then .ok (.inr (s.X, s.loss))
        else .ok (.inl { s with kappa := s.kappa / 2, grad := some g })

/-- `_gradient_descent(loss_fun, gradient_fun, X_init, threshold_loss, learning_rate, bounds, kappa_zero_point)`,
`/repo/utlvce/score.py:1166-1287`. -/
noncomputable def gradientDescent (nArr : Nat) (blk : ι → Nat) (lossFun : (ι → ℝ) → Except Err Flt)
    (gradFun : (ι → ℝ) → Except Err (ι → ℝ)) (Xinit : ι → ℝ) (threshold learningRate : ℝ)
    (bounds : Option (List (EReal × EReal))) (kappaZero : ℝ) : Except Err ((ι → ℝ) × Flt) :=
  match checkBounds nArr blk Xinit bounds with
  | .error err => .error err
  | .ok false => .error .valueError
  | .ok true =>
    match lossFun Xinit with
    | .error err => .error err
    | .ok loss =>
      runLoop (gdStep nArr blk lossFun gradFun threshold learningRate bounds kappaZero)
        { X := Xinit, loss := loss, kappa := 1, grad := none }

end Verif
