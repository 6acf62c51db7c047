import Verif.Model.Basic

/-!
# Arrays and `Model` objects as references

The other model files treat a `Model` as a value.  Here arrays and objects live in a heap, so that sharing between the
arguments of `Model(...)`, the object and its copies is visible.  `V` is the type of array contents.
-/

namespace Verif

/-- The attributes of a `Model` object that hold arrays, `/repo/utlvce/model.py:231-242` (the integer attributes `l`, `p`, `e`
are immutable values). -/
inductive Attr where
  | A | B | gamma | omegas | psis | IB
  deriving DecidableEq

/-- The heap: arrays are addressed by their index, and so are objects, which map attributes to array addresses.
See `/repo/utlvce/model.py:231-242`. -/
structure Heap (V : Type) where
  arrays : List V
  objects : List (Attr → Nat)

/-- Allocate a fresh array.  See `/repo/utlvce/model.py:232-242`. -/
def Heap.newArray {V : Type} (h : Heap V) (v : V) : Heap V × Nat :=
  ({ h with arrays := h.arrays ++ [v] }, h.arrays.length)

/-- `x.copy()` for the array at an address.  See `/repo/utlvce/model.py:232-236,270-274`. -/
def Heap.copyArray {V : Type} (h : Heap V) (a : Nat) : Except Err (Heap V × Nat) :=
  match h.arrays[a]? with
  | none => .error .nameError
  | some v => .ok (h.newArray v)

/-- `Model.__init__(A, B, gamma, omegas, psis)`, `/repo/utlvce/model.py:198-242`, on array references: `check` is the validation
(`initModel` in `LModel.lean` says what it is), the arrays are copied and `I_B` is a new array computed from `B`. -/
def Heap.newModel {V : Type} (check : V → V → V → V → V → Bool) (mkIB : V → V) (h : Heap V) (A B gamma omegas psis : Nat) :
    Except Err (Heap V × Nat) :=
  match h.arrays[A]?, h.arrays[B]?, h.arrays[gamma]?, h.arrays[omegas]?, h.arrays[psis]? with
  | some vA, some vB, some vg, some vo, some vp =>
    if ! check vA vB vg vo vp then .error .valueError
    else
      let (h, a) := h.newArray vA
      let (h, b) := h.newArray vB
      let (h, g) := h.newArray vg
      let (h, o) := h.newArray vo
      let (h, s) := h.newArray vp
      let (h, i) := h.newArray (mkIB vB)
      .ok ({ h with objects := h.objects ++ [fun | .A => a | .B => b | .gamma => g | .omegas => o | .psis => s | .IB => i] },
        h.objects.length)
  | _, _, _, _, _ => .error .nameError

/-- `Model.copy()`, `/repo/utlvce/model.py:244-275`: the five arrays are copied and given to the constructor. -/
def Heap.copyModel {V : Type} (check : V → V → V → V → V → Bool) (mkIB : V → V) (h : Heap V) (m : Nat) :
    Except Err (Heap V × Nat) :=
  match h.objects[m]? with
  | none => .error .nameError
  | some o =>
    match h.copyArray (o .A) with
    | .error err => .error err
    | .ok (h, a) =>
      match h.copyArray (o .B) with
      | .error err => .error err
      | .ok (h, b) =>
        match h.copyArray (o .gamma) with
        | .error err => .error err
        | .ok (h, g) =>
          match h.copyArray (o .omegas) with
          | .error err => .error err
          | .ok (h, w) =>
            match h.copyArray (o .psis) with
            | .error err => .error err
            | .ok (h, s) => h.newModel check mkIB a b g w s

/-- What a program can do later: overwrite an array in place, assign an attribute, create arrays.  See `/repo/utlvce/score.py:363-393`. -/
inductive HeapOp (V : Type) where
  | write (addr : Nat) (v : V)
  | setAttr (obj : Nat) (attr : Attr) (addr : Nat)
  | newArray (v : V)

/-- Effect of an operation (unknown addresses have no effect).  See `/repo/utlvce/score.py:363-393`. -/
def Heap.step {V : Type} (h : Heap V) : HeapOp V → Heap V
  | .write a v => { h with arrays := h.arrays.set a v }
  | .setAttr m attr a =>
    { h with objects := match h.objects[m]? with
        | none => h.objects
        | some o => h.objects.set m (Function.update o attr a) }
  | .newArray v => (h.newArray v).1

/-- Run a list of operations.  See `/repo/utlvce/score.py:362-413`. -/
def Heap.run {V : Type} (h : Heap V) (ops : List (HeapOp V)) : Heap V := ops.foldl Heap.step h

/-- The contents of an attribute of an object.  See `/repo/utlvce/model.py:231-242`. -/
def Heap.attr {V : Type} (h : Heap V) (m : Nat) (a : Attr) : Option V :=
  (h.objects[m]?).bind (fun o => h.arrays[o a]?)

end Verif
