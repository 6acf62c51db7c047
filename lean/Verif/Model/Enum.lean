import Verif.Model.Meek

/-!
# Enumeration of equivalence classes (`/repo/utlvce/utils.py:254-369, 1193-1239, 1529-1568`)
-/

namespace Verif

variable {p : Nat}

/-- `cartesian(arrays)`, `/repo/utlvce/utils.py:1193-1239`.  `cast` is the conversion to `dtype` on assignment into `out`.
The first column is `np.repeat(arrays[0], m)`, the remaining columns are the recursive result copied `arrays[0].size`
times below each other.  An empty list of arrays fails at `np.zeros([1.0, 0])` (`TypeError`), an empty array at `int(nan)`
(`ValueError`; the recursion reaches every array).  Row numbers are unbounded integers: the float division in
`int(n / size)` is exact below `2^53` rows. -/
def cartesian {α β : Type} (cast : α → β) : List (List α) → Except Err (List (List β))
  | [] => .error .typeError
  | [a] => if a.length = 0 then .error .valueError else .ok (a.map (fun x => [cast x]))
  | a :: b :: rest =>
    if a.length = 0 then .error .valueError
    else
      match cartesian cast (b :: rest) with
      | .error e => .error e
      | .ok sub =>
        let m := sub.length
        .ok (List.zipWith (fun x row => cast x :: row) (a.flatMap (fun x => List.replicate m x))
          (List.replicate a.length sub).flatten)

/-- One iteration of the loop at `/repo/utlvce/utils.py:1556-1562`: an edge `(a, b)` is `flipped` into `(b, a)` or kept, and
the entry opposite to the chosen orientation is set to zero. -/
def orientAll (P : Adj p) (es : List (Fin p × Fin p)) (flipped : List Bool) : Adj p :=
  (List.zip es flipped).foldl (fun A ef =>
    let oriented := if ef.2 then (ef.1.2, ef.1.1) else (ef.1.1, ef.1.2)
    setEntry A oriented.2 oriented.1 0) P

/-- The filter at `/repo/utlvce/utils.py:1567`. -/
def keepDags (it : SetIter p) (P : Adj p) : List (Adj p) → Except Err (List (Adj p))
  | [] => .ok []
  | A :: As =>
    match (if isDag it A then isConsistentExtension it A P else .ok false) with
    | .error e => .error e
    | .ok b =>
      match keepDags it P As with
      | .error e => .error e
      | .ok l => .ok (if b then A :: l else l)

/-- `all_dags(pdag)`, `/repo/utlvce/utils.py:1529-1568`. -/
def allDags (it : SetIter p) (P : Adj p) : Except Err (List (Adj p)) :=
  let es := undirectedEdges P
  if ¬ (2 * (es.length : Int) = sumAll (onlyUndirected P)) then .error .assertionError
  else if es.length = 0 then .ok [P]
  else
    match cartesian id (List.replicate es.length [true, false]) with
    | .error e => .error e
    | .ok combinations =>
      if ¬ (combinations.length = 2 ^ es.length) then .error .assertionError
      else
        let dags := combinations.map (orientAll P es)
        if ¬ (dags.toFinset.card = combinations.length) then .error .assertionError
        else keepDags it P dags

/-- One member of `chain_graph_MEC(p)`, `/repo/utlvce/utils.py:337-344`: edges `j → j-1` for `j = i, …, 1` and `j → j+1` for
`j = i, …, p-2`. -/
def chainMember (p i : Nat) : Adj p := fun a b =>
  if (1 ≤ a.val ∧ a.val ≤ i ∧ b.val = a.val - 1) ∨ (i ≤ a.val ∧ a.val < p - 1 ∧ b.val = a.val + 1) then 1 else 0

/-- `chain_graph_MEC(p)`, `/repo/utlvce/utils.py:332-346`. -/
def chainGraphMEC (p : Nat) : List (Adj p) := (List.range p).map (chainMember p)

/-- `chain_graph_IMEC(A, I)`, `/repo/utlvce/utils.py:349-369`. -/
def chainGraphIMEC (A : Adj p) (I : List (Fin p)) : Except Err (List (Adj p)) :=
  if ! isChainGraph A then .error .valueError
  else .ok ((chainGraphMEC p).filter (fun me => decide (∀ k, ∀ i ∈ I, me k i = A k i)))

/-- `mec(A, check_chain)`, `/repo/utlvce/utils.py:254-287`. -/
def mec (it : SetIter p) (A : Adj p) (checkChain : Bool) : Except Err (List (Adj p)) :=
  if ! isDag it A then .error .valueError
  else if checkChain && isChainGraph A then .ok (chainGraphMEC p)
  else
    match dagToCpdag it A with
    | .error e => .error e
    | .ok C => allDags it C

/-- `imec(A, I, check_chain)`, `/repo/utlvce/utils.py:290-329`.  The set `I` contains arbitrary integers; after the check the
targets are visited in the order `it`. -/
def imec (it : SetIter p) (A : Adj p) (I : Finset Int) (checkChain : Bool) : Except Err (List (Adj p)) :=
  if ! isDag it A then .error .valueError
  else if ¬ (∀ i ∈ I, 0 ≤ i ∧ i < (p : Int)) then .error .valueError
  else
    let targets := it.toList (Finset.univ.filter (fun i : Fin p => (i.val : Int) ∈ I))
    if checkChain && isChainGraph A then chainGraphIMEC A targets
    else
      match dagToIcpdag it A targets with
      | .error e => .error e
      | .ok C => allDags it C

end Verif
