import Verif.Model.Graph

/-!
# PDAG to DAG, DAG to CPDAG (`/repo/utlvce/utils.py:955-1184`)
-/

namespace Verif

variable {p : Nat}

/-- Conditions 1 and 2 of the Dor–Tarsi selection, `/repo/utlvce/utils.py:1047-1057`: `i` has no children and each
undirected neighbour `y` of `i` is adjacent to all other nodes adjacent to `i`. -/
def isCandidate {n : Nat} (P : Adj n) (i : Fin n) : Bool :=
  decide ((ch i P).card = 0) && decide (∀ y ∈ neighbors i P, adj i P \ {y} ⊆ adj y P)

/-- Inner loop `while not found and i < len(P)`, `/repo/utlvce/utils.py:1044-1076`: the first candidate. -/
def findCandidate {n : Nat} (P : Adj n) : Option (Fin n) := (List.finRange n).find? (isCandidate P)

/-- `for j in real_neighbors: G[j, real_i] = 1`, `/repo/utlvce/utils.py:1064-1067`.  The writes are constant and to
distinct cells, so the loop over the set is given by its effect. -/
def orientInto {n : Nat} (G : Adj p) (P : Adj n) (idx : Fin n → Fin p) (i : Fin n) : Adj p := fun a b =>
  if b = idx i ∧ ∃ j ∈ neighbors i P, idx j = a then 1 else G a b

/-- Outer loop `while P.size > 0` of `pdag_to_dag`, `/repo/utlvce/utils.py:1037-1078`.  `P` shrinks by one node per
round: `list(set(range(len(P))) - {i})` is the increasing enumeration (CPython iterates over a set of small
non-negative ints in increasing order), i.e. `i.succAbove`; `indexes` is injective, so `indexes.remove(real_i)`
removes position `i`. -/
def pdagToDagLoop : (n : Nat) → Adj n → (Fin n → Fin p) → Adj p → Except Err (Adj p)
  | 0, _, _, G => .ok G
  | n + 1, P, idx, G =>
    match findCandidate P with
    | none => .error .valueError
    | some i =>
      pdagToDagLoop n (fun a b => P (i.succAbove a) (i.succAbove b)) (fun a => idx (i.succAbove a))
        (orientInto G P idx i)

/-- `pdag_to_dag(P)`, `/repo/utlvce/utils.py:1012-1079`. -/
def pdagToDag (P : Adj p) : Except Err (Adj p) := pdagToDagLoop p P id (onlyDirected P)

/-- `pos = zeros; pos[order] = range(len(order))` of `sort`, `/repo/utlvce/utils.py:1268-1269`: for repeated indices
the last assignment wins, nodes that do not occur keep 0. -/
def posAssign : List (Fin p) → Nat → (Fin p → Nat) → Fin p → Nat
  | [], _, pos => pos
  | o :: os, k, pos => posAssign os (k + 1) (fun l => if l = o then k else pos l)

/-- Comparison of the pairs `(position, element)` used by `sorted(zip(positions, L))`, `utils.py:1271`. -/
def pairLe (a b : Nat × Fin p) : Bool := decide (a.1 < b.1 ∨ (a.1 = b.1 ∧ a.2 ≤ b.2))

/-- `sort(L, order)` with an order given, `/repo/utlvce/utils.py:1242-1271`.  `pos` has `len(order)` entries, so an
element of `order` or `L` that is not smaller than `len(order)` raises `IndexError`. -/
def sortBy (L order : List (Fin p)) : Except Err (List (Fin p)) :=
  if (∃ o ∈ order, order.length ≤ o.val) ∨ (∃ l ∈ L, order.length ≤ l.val) then .error .indexError
  else
    let pos := posAssign order 0 (fun _ => 0)
    .ok ((pySorted pairLe (L.map (fun l => (pos l, l)))).map Prod.snd)

/-- `sort(L, order)[0]`.  See `/repo/utlvce/utils.py:1113,1117,1258-1271`. -/
def sortHead (L order : List (Fin p)) : Except Err (Fin p) :=
  match sortBy L order with
  | .error e => .error e
  | .ok [] => .error .indexError
  | .ok (y :: _) => .ok y

/-- One iteration of the loop of `order_edges`, `/repo/utlvce/utils.py:1107-1118`: the edge that gets the next
label.  `np.unique(np.hstack((froms, tos)))` is the increasing list of nodes touched by an unlabelled edge. -/
def nextEdge (order : List (Fin p)) (O : Adj p) : Except Err (Fin p × Fin p) :=
  match sortHead (whereVec (fun k => decide (∃ j, O k j = -1 ∨ O j k = -1))) order.reverse with
  | .error e => .error e
  | .ok y =>
    match sortHead (whereVec (fun x => decide (O x y = -1))) order with
    | .error e => .error e
    | .ok x => .ok (x, y)

/-- `while (ordered == -1).any()` loop of `order_edges`, `/repo/utlvce/utils.py:1106-1119`. -/
def orderEdgesLoop (order : List (Fin p)) : Nat → Int → Adj p → Except Err (Adj p)
  | n, i, O =>
    if ∃ a b, O a b = -1 then
      match n with
      | 0 => .error .diverge
      | n + 1 =>
        match nextEdge order O with
        | .error e => .error e
        | .ok (x, y) => orderEdgesLoop order n (i + 1) (setEntry O x y i)
    else .ok O

/-- `order_edges(G)`, `/repo/utlvce/utils.py:1082-1120`. -/
def orderEdges (it : SetIter p) (G : Adj p) : Except Err (Adj p) :=
  if ! isDag it G then .error .valueError
  else
    match topologicalOrdering it G with
    | .error e => .error e
    | .ok order => orderEdgesLoop order (p * p) 1 (fun a b => if G a b ≠ 0 then -1 else 0)

/-- `ordered[ordered != 0]` (row-major), `/repo/utlvce/utils.py:1145`. -/
def nonzeroEntries (O : Adj p) : List Int := ((allPairs p).map (fun e => O e.1 e.2)).filter (fun v => v ≠ 0)

/-- strict comparison of float entries, `none` is `-inf`.  See `/repo/utlvce/utils.py:1158-1160`. -/
def floatGt : Option Int → Option Int → Bool
  | some a, some b => decide (b < a)
  | some _, none => true
  | none, _ => false

/-- `np.unravel_index(np.argmax(f), f.shape)`: the first maximum in row-major order.  See `/repo/utlvce/utils.py:1160`. -/
def argmaxPair (f : Fin p → Fin p → Option Int) : Option (Fin p × Fin p) :=
  (allPairs p).foldl (fun best e =>
    match best with
    | none => some e
    | some b => if floatGt (f e.1 e.2) (f b.1 b.2) then some e else some b) none

/-- `for w in Ws` loop of `label_edges`, `/repo/utlvce/utils.py:1164-1173`; the flag is `end`. -/
def labelW (y : Fin p) : List (Fin p) → Adj p → Adj p × Bool
  | [], L => (L, false)
  | w :: ws, L =>
    if L w y = 0 then ((fun a b => if b = y ∧ a ∈ pa y L then 1 else L a b), true)
    else labelW y ws (setEntry L w y 1)

/-- one pass of the `while` loop of `label_edges`, `/repo/utlvce/utils.py:1152-1183` (`COM, REV, UNK = 1, -1, -2`). -/
def labelPass (O L : Adj p) : Except Err (Adj p) :=
  let unknown : Fin p → Fin p → Option Int := fun a b =>
    let v := O a b * (if L a b = -2 then 1 else 0)
    if v = 0 then none else some v
  match argmaxPair unknown with
  | none => .error .valueError
  | some (x, y) =>
    match labelW y (whereVec (fun w => decide (L w x = 1))) L with
    | (L', true) => .ok L'
    | (L', false) =>
      let zExists := decide (((pa y L' \ {x}) \ pa x L').card > 0)
      if L' x y = -2 then
        .ok (fun a b => if b = y ∧ L' a b = -2 then (if zExists then 1 else -1) else L' a b)
      else .error .assertionError

/-- `while (labelled == UNK).any()` loop of `label_edges`, `/repo/utlvce/utils.py:1152-1183`. -/
def labelLoop (O : Adj p) : Nat → Adj p → Except Err (Adj p)
  | n, L =>
    if ∃ a b, L a b = -2 then
      match n with
      | 0 => .error .diverge
      | n + 1 =>
        match labelPass O L with
        | .error e => .error e
        | .ok L' => labelLoop O n L'
    else .ok L

/-- `label_edges(ordered)`, `/repo/utlvce/utils.py:1123-1184`. -/
def labelEdges (it : SetIter p) (O : Adj p) : Except Err (Adj p) :=
  if ! isDag it O then .error .valueError
  else if pySorted (fun a b => decide (a ≤ b)) (nonzeroEntries O) ≠ (List.range (nnz O)).map (fun k : Nat => (k : Int) + 1) then
    .error .valueError
  else labelLoop O p (fun a b => if O a b ≠ 0 then -2 else 0)

/-- `dag_to_cpdag(G)`, `/repo/utlvce/utils.py:980-1009`.  The loop over the reversible edges writes the constant 1
into `cpdag[x, y]` and `cpdag[y, x]`, so it is given by its effect. -/
def dagToCpdag (it : SetIter p) (G : Adj p) : Except Err (Adj p) :=
  match orderEdges it G with
  | .error e => .error e
  | .ok O =>
    match labelEdges it O with
    | .error e => .error e
    | .ok L => .ok (fun a b => if L a b = -1 ∨ L b a = -1 then 1 else if L a b = 1 then L a b else 0)

/-- `pdag_to_cpdag(pdag)`, `/repo/utlvce/utils.py:955-975`. -/
def pdagToCpdag (it : SetIter p) (P : Adj p) : Except Err (Adj p) :=
  match pdagToDag P with
  | .error e => .error e
  | .ok G => dagToCpdag it G

end Verif
