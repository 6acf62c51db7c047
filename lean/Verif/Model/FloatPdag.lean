import Verif.Model.FloatGraph

/-!
# The functions for PDAGs on matrices of floating-point numbers

`pdag_to_dag`, `pdag_to_cpdag`, `maximally_orient`, `pdag_to_icpdag` and `all_dags` for a PDAG whose entries are doubles, as the ones that a
user gives to `/repo/utlvce/utils.py` or that `ges.fit` returns to `/repo/utlvce/main.py:735-741`.
-/

namespace Verif

variable {p : Nat}

/-- Conditions 1 and 2, `/repo/utlvce/utils.py:1047-1057`. -/
def fisCandidate {n : Nat} (P : FAdj n) (i : Fin n) : Bool :=
  decide ((fch i P).card = 0) && decide (∀ y ∈ fneighbors i P, fadj i P \ {y} ⊆ fadj y P)

/-- `while not found and i < len(P)`, `/repo/utlvce/utils.py:1044-1076`. -/
def ffindCandidate {n : Nat} (P : FAdj n) : Option (Fin n) := (List.finRange n).find? (fisCandidate P)

/-- `for j in real_neighbors: G[j, real_i] = 1`, `/repo/utlvce/utils.py:1064-1067`. -/
def forientInto {n : Nat} (G : FAdj p) (P : FAdj n) (idx : Fin n → Fin p) (i : Fin n) : FAdj p := fun a b =>
  if b = idx i ∧ ∃ j ∈ fneighbors i P, idx j = a then .fin 1 else G a b

/-- `while P.size > 0` of `pdag_to_dag`, `/repo/utlvce/utils.py:1037-1078`, as `pdagToDagLoop`. -/
def fpdagToDagLoop : (n : Nat) → FAdj n → (Fin n → Fin p) → FAdj p → Except Err (FAdj p)
  | 0, _, _, G => .ok G
  | n + 1, P, idx, G =>
    match ffindCandidate P with
    | none => .error .valueError
    | some i =>
      fpdagToDagLoop n (fun a b => P (i.succAbove a) (i.succAbove b)) (fun a => idx (i.succAbove a)) (forientInto G P idx i)

/-- `pdag_to_dag(P)`, `/repo/utlvce/utils.py:1012-1079`. -/
def fpdagToDag (P : FAdj p) : Except Err (FAdj p) := fpdagToDagLoop p P id (fonlyDirected P)

/-- `pdag_to_cpdag(pdag)`, `/repo/utlvce/utils.py:955-975`. -/
def fpdagToCpdag (S : Summer) (it : SetIter p) (P : FAdj p) : Except Err (Adj p) :=
  match fpdagToDag P with
  | .error e => .error e
  | .ok G => fdagToCpdag S it G

/-- `pdag_to_icpdag(P, I)`, `/repo/utlvce/utils.py:1503-1510`. -/
def fpdagToIcpdag (S : Summer) (it : SetIter p) (P : FAdj p) (I : List (Fin p)) : Except Err (Adj p) :=
  if ∃ i ∈ I, (fneighbors i P).card > 0 then .error .valueError
  else
    match fpdagToDag P with
    | .error e => .error e
    | .ok G => fdagToIcpdag S it G I

/-- `rule_1(i, j, A)`, `/repo/utlvce/utils.py:1413-1418`. -/
def frule1 (i j : Fin p) (A : FAdj p) : Bool := decide ((fpa i A).card > 0) && ! decide (fpa i A ⊆ fadj j A)

/-- `rule_2(i, j, A)`, `/repo/utlvce/utils.py:1421-1423`. -/
def frule2 (i j : Fin p) (A : FAdj p) : Bool := decide ((fch i A ∩ fpa j A).card > 0)

/-- `rule_3(i, j, A)`, `/repo/utlvce/utils.py:1426-1436`. -/
def frule3 (i j : Fin p) (A : FAdj p) : Bool :=
  let inter := fneighbors i A ∩ fpa j A
  decide (inter.card ≥ 2) && decide (∃ k ∈ inter, ∃ l ∈ inter \ {k}, k ∉ fadj l A)

/-- `rule_4(i, j, A)`, `/repo/utlvce/utils.py:1439-1453`. -/
def frule4 (i j : Fin p) (A : FAdj p) : Bool :=
  let Ks := fpa j A ∩ fneighbors i A
  if Ks.card > 0 then
    let Hs := fneighbors i A ∩ Ks.biUnion (fun k => fpa k A)
    if Hs.card > 0 then decide (∃ h ∈ Hs, h ∉ fadj j A) else false
  else false

/-- The disjunction at `/repo/utlvce/utils.py:1483,1491`. -/
def fanyRule (i j : Fin p) (A : FAdj p) : Bool := frule1 i j A || frule2 i j A || frule3 i j A || frule4 i j A

/-- `undirected_edges(P)`, `/repo/utlvce/utils.py:693-711`; also the list at `/repo/utlvce/utils.py:1544-1546`. -/
def fundirectedEdges (P : FAdj p) : List (Fin p × Fin p) :=
  (wherePairs (fun i j => ! (fonlyUndirected P i j).isZero)).filter (fun e => e.1 > e.2)

/-- The loop over the undirected edges, `/repo/utlvce/utils.py:1482-1499`. -/
def forientPass : List (Fin p × Fin p) → FAdj p → Bool → FAdj p × Bool
  | [], P, flag => (P, flag)
  | (i, j) :: es, P, flag =>
    if fanyRule i j P then forientPass es (fsetEntry P j i (.fin 0)) true
    else if fanyRule j i P then forientPass es (fsetEntry P i j (.fin 0)) true
    else forientPass es P flag

/-- `while oriented_edges`, `/repo/utlvce/utils.py:1480-1499`. -/
def forientLoop : Nat → FAdj p → Except Err (FAdj p)
  | 0, _ => .error .diverge
  | n + 1, P =>
    match forientPass (fundirectedEdges P) P false with
    | (P', true) => forientLoop n P'
    | (P', false) => .ok P'

/-- `maximally_orient(P)`, `/repo/utlvce/utils.py:1456-1500`. -/
def fmaximallyOrient (P : FAdj p) : Except Err (FAdj p) :=
  match fpdagToDag P with
  | .error e => .error e
  | .ok _ => forientLoop (p * p + 1) P

/-- `is_consistent_extension(G, P)`, `/repo/utlvce/utils.py:793-836`, for two graphs of doubles. -/
def fisConsistentExtension₂ (S : Summer) (it : SetIter p) (G P : FAdj p) : Except Err Bool :=
  if ! fisDag S it G then .error .valueError
  else
    let sameV := decide (fvstructures it P = fvstructures it G)
    let sameSkel := decide (∀ i j, fskeleton P i j = fskeleton G i j)
    let sameOri := decide (∀ i j, (fonlyDirected P i j).isZero = false → (G i j).isZero = false)
    .ok (sameV && sameOri && sameSkel)

/-- One iteration of the loop of `all_dags`, `/repo/utlvce/utils.py:1556-1562`. -/
def forientAll (P : FAdj p) (es : List (Fin p × Fin p)) (flipped : List Bool) : FAdj p :=
  (List.zip es flipped).foldl (fun A ef =>
    let oriented := if ef.2 then (ef.1.2, ef.1.1) else (ef.1.1, ef.1.2)
    fsetEntry A oriented.2 oriented.1 (.fin 0)) P

/-- The filter at `/repo/utlvce/utils.py:1567`. -/
def fkeepDags (S : Summer) (it : SetIter p) (P : FAdj p) : List (FAdj p) → Except Err (List (FAdj p))
  | [] => .ok []
  | A :: As =>
    match (if fisDag S it A then fisConsistentExtension₂ S it A P else .ok false) with
    | .error e => .error e
    | .ok b =>
      match fkeepDags S it P As with
      | .error e => .error e
      | .ok l => .ok (if b then A :: l else l)

/-- `x / 2`, `/repo/utlvce/utils.py:1547,1553`. -/
def Dbl.half : Dbl → Dbl
  | .fin x => Dbl.round (x / 2)
  | x => x

/-- `all_dags(pdag)`, `/repo/utlvce/utils.py:1529-1568`.  Both assertions before the loop compare with doubles; when the second one is reached
the exponent is the number of undirected edges, and the power overflows to infinity for 1024 and more (apart from memory).  Arrays are
distinct for `np.unique` if they differ in an entry; it also takes NaN to differ from NaN, but arrays here that differ do so by a zero. -/
def fallDags (S : Summer) (it : SetIter p) (P : FAdj p) : Except Err (List (FAdj p)) :=
  let es := fundirectedEdges P
  if ¬ ((fsumAll S (fonlyUndirected P)).half = .fin (es.length : ℚ)) then .error .assertionError
  else if es.length = 0 then .ok [P]
  else
    match cartesian id (List.replicate es.length [true, false]) with
    | .error e => .error e
    | .ok combinations =>
      if ¬ (Dbl.round ((2 : ℚ) ^ es.length) = .fin (combinations.length : ℚ)) then .error .assertionError
      else
        let dags := combinations.map (forientAll P es)
        if ¬ (dags.toFinset.card = combinations.length) then .error .assertionError
        else fkeepDags S it P dags

end Verif
