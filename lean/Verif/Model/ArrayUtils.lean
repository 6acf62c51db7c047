import Verif.Model.Main

/-!
# Array functions of `/repo/utlvce/utils.py`

Arrays of any number of dimensions are nested functions; `NdVal.flat` is the order in which numpy numbers their elements.
-/

namespace Verif

/-- An array with the given `shape`.  See `/repo/utlvce/utils.py:54-77`. -/
def NdVal (α : Type) : List Nat → Type
  | [] => α
  | n :: s => Fin n → NdVal α s

/-- `array.flatten()`: row-major order.  See `/repo/utlvce/utils.py:64,77`. -/
def NdVal.flat {α : Type} : (s : List Nat) → NdVal α s → List α
  | [], x => [x]
  | n :: s, f => (List.finRange n).flatMap (fun i => NdVal.flat s (f i))

/-- `np.unravel_index(k, shape)`.  See `/repo/utlvce/utils.py:64,77,1160`. -/
def unravelIndex : List Nat → Nat → List Nat
  | [], _ => []
  | _ :: s, k => k / s.prod :: unravelIndex s (k % s.prod)

/-- `argmin(array)`, `/repo/utlvce/utils.py:54-64`. -/
noncomputable def argmin {s : List Nat} (a : NdVal Flt s) : Except Err (List Nat) :=
  match npArgmin Flt.better (NdVal.flat s a) with
  | .error err => .error err
  | .ok k => .ok (unravelIndex s k)

/-- `argmax(array)`, `/repo/utlvce/utils.py:67-77`. -/
noncomputable def argmax {s : List Nat} (a : NdVal Flt s) : Except Err (List Nat) :=
  match npArgmin Flt.larger (NdVal.flat s a) with
  | .error err => .error err
  | .ok k => .ok (unravelIndex s k)

/-- `normalized_var(x)` of a vector, `/repo/utlvce/utils.py:47-51`; with an axis it is applied to each slice.  `nan` (`none`) where the
divisor is zero: for the empty vector and the zero vector. -/
noncomputable def normalizedVar {n : Nat} (x : Fin n → ℝ) : Flt :=
  let mean := (∑ i, x i) / (n : ℝ)
  let var := (∑ i, (x i - mean) ^ 2) / (n : ℝ)
  let sq := (∑ i, x i ^ 2) / (n : ℝ)
  open Classical in if sq = 0 then none else some (var / sq)

/-- `np.delete(array, idx)` along one axis, for indices that are not negative.  See `/repo/utlvce/utils.py:1341`. -/
def npDeleteIdx {α : Type} (a : List α) (idx : List Nat) : Except Err (List α) :=
  if idx.any (fun k => a.length ≤ k) then .error .indexError
  else .ok ((a.zipIdx.filter (fun x => ! idx.contains x.2)).map Prod.fst)

/-- `np.delete(array, mask)` along one axis.  With `masks` (numpy 1.19 and later) a boolean array is a mask, which must have the length of the
axis; before, its elements were converted to the indices 0 and 1.  See `/repo/utlvce/utils.py:1343`. -/
def npDeleteMask {α : Type} (masks : Bool) (a : List α) (mask : List Bool) : Except Err (List α) :=
  if masks then
    if mask.length ≠ a.length then .error .valueError
    else .ok ((a.zip mask).filterMap (fun x => if x.2 then none else some x.1))
  else npDeleteIdx a (mask.map (fun b => if b then 1 else 0))

/-- `np.where(mask)[0]`.  See `/repo/utlvce/utils.py:1340`. -/
def whereMask (mask : List Bool) : List Nat := (mask.zipIdx.filter (fun x => x.1)).map Prod.snd

/-- `delete(array, mask, axis)`, `/repo/utlvce/utils.py:1320-1343`: `version` is `np.version.version`, compared as a string. -/
def delete {α : Type} (version : String) (masks : Bool) (a : List α) (mask : List Bool) : Except Err (List α) :=
  if version < "1.19.0" then npDeleteIdx a (whereMask mask) else npDeleteMask masks a mask

end Verif
