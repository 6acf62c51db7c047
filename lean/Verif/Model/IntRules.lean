import Verif.Model.IntNodes
import Verif.Model.Enum

/-!
# The Meek rules and `chain_graph_IMEC` for nodes given as Python integers
-/

namespace Verif
variable {p : Nat}

/-- `rule_1(i, j, A)`, `/repo/utlvce/utils.py:1413-1418`; `adj(j, A)` is only evaluated if `i` has parents. -/
def zrule1 (i j : Int) (A : Adj p) : Except Err Bool :=
  match zpa i A with
  | .error e => .error e
  | .ok Pi =>
    if Pi.card > 0 then
      match zadj j A with
      | .error e => .error e
      | .ok Nj => .ok (! decide (Pi ⊆ Nj))
    else .ok false

/-- `rule_2(i, j, A)`, `/repo/utlvce/utils.py:1421-1423`. -/
def zrule2 (i j : Int) (A : Adj p) : Except Err Bool :=
  match zch i A with
  | .error e => .error e
  | .ok Ci =>
    match zpa j A with
    | .error e => .error e
    | .ok Pj => .ok (decide ((Ci ∩ Pj).card > 0))

/-- `rule_3(i, j, A)`, `/repo/utlvce/utils.py:1426-1436`; `k` and `l` are elements of results of `np.where`, so they are non-negative. -/
def zrule3 (i j : Int) (A : Adj p) : Except Err Bool :=
  match zneighbors i A with
  | .error e => .error e
  | .ok Ni =>
    match zpa j A with
    | .error e => .error e
    | .ok Pj => .ok (decide ((Ni ∩ Pj).card ≥ 2) && decide (∃ k ∈ Ni ∩ Pj, ∃ l ∈ (Ni ∩ Pj) \ {k}, k ∉ adj l A))

/-- `rule_4(i, j, A)`, `/repo/utlvce/utils.py:1439-1453`. -/
def zrule4 (i j : Int) (A : Adj p) : Except Err Bool :=
  match zpa j A with
  | .error e => .error e
  | .ok Pj =>
    match zneighbors i A with
    | .error e => .error e
    | .ok Ni =>
      if (Pj ∩ Ni).card > 0 then
        if (Ni ∩ (Pj ∩ Ni).biUnion (fun k => pa k A)).card > 0 then
          match zadj j A with
          | .error e => .error e
          | .ok Nj => .ok (decide (∃ h ∈ Ni ∩ (Pj ∩ Ni).biUnion (fun k => pa k A), h ∉ Nj))
        else .ok false
      else .ok false

/-- The loop over the members in `chain_graph_IMEC`, `/repo/utlvce/utils.py:365-368`. -/
def zchainLoop (A : Adj p) (I : List Int) : List (Adj p) → Except Err (List (Adj p))
  | [] => .ok []
  | me :: rest =>
    match nodesOf p I with
    | .error e => .error e
    | .ok ks =>
      match zchainLoop A I rest with
      | .error e => .error e
      | .ok l => .ok (if ∀ k, ∀ i ∈ ks, me k i = A k i then me :: l else l)

/-- `chain_graph_IMEC(A, I)`, `/repo/utlvce/utils.py:349-369`, for any integers. -/
def zchainGraphIMEC (A : Adj p) (I : List Int) : Except Err (List (Adj p)) :=
  if ! isChainGraph A then .error .valueError else zchainLoop A I (chainGraphMEC p)

end Verif
