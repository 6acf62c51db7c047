import Verif.Model.Gen

/-!
# The arguments of the generators, `/repo/utlvce/generators.py:44-524`

All integers as sizes and seeds, the ends of the intervals, and numpy's checks of them.  The draws are those of the unit interval, which numpy scales.
-/

namespace Verif

variable {p l e : Nat}

/-- The ends of the intervals, `/repo/utlvce/generators.py:284-301`. -/
structure Bounds where
  (varLo varHi intVarLo intVarHi psiLo psiHi intPsiLo intPsiHi bLo bHi : ℝ)

/-- `rng.uniform(low, high)` from a draw `u` of the unit interval.  See `/repo/utlvce/generators.py:409,422-444`. -/
noncomputable def scaleU (low high u : ℝ) : ℝ := low + (high - low) * u

/-- The draws of `sample_parameters`, scaled to the intervals, `/repo/utlvce/generators.py:408-444`. -/
noncomputable def Draws.scale (b : Bounds) (U : Draws p l e) : Draws p l e where
  weights i j := scaleU b.bLo b.bHi (U.weights i j)
  sparse := U.sparse
  dense := U.dense
  base j := scaleU b.varLo b.varHi (U.base j)
  interventions j k := scaleU b.intVarLo b.intVarHi (U.interventions j k)
  omegas k j := scaleU b.varLo b.varHi (U.omegas k j)
  psiBase i := scaleU b.psiLo b.psiHi (U.psiBase i)
  psiInterventions n k i := scaleU b.intPsiLo b.intPsiHi (U.psiInterventions n k i)
  psis k i := scaleU b.psiLo b.psiHi (U.psis k i)

/-- `np.random.default_rng(seed)` raises `ValueError`: for negative seeds.  See `/repo/utlvce/generators.py:407,519`. -/
def badSeed : Option Int → Bool
  | none => false
  | some s => s < 0

/-- `np.random.seed(seed)` raises `ValueError`: for seeds outside of 32 bits.  See `/repo/utlvce/generators.py:581`. -/
def badSeed32 : Option Int → Bool
  | none => false
  | some s => s < 0 || 2 ^ 32 ≤ s

/-- `rng.uniform(low, high, size)` raises `ValueError`: in newer versions of numpy (`checked`) for `high < low`.
See `/repo/utlvce/generators.py:409,422-444`. -/
def BadRange (checked : Bool) (low high : ℝ) : Prop := checked = true ∧ high < low

open Classical in
/-- `sample_parameters(A, I, num_latent, e, ..., random_state)`, `/repo/utlvce/generators.py:284-455`, with the checks of numpy in the order of the
calls.  `np.zeros`, `rng.normal` and `rng.uniform` raise `ValueError` for negative sizes. -/
noncomputable def sampleParametersZ (checked : Bool) (it : SetIter p) (b : Bounds) (A : Adj p) (I : Finset Int) (numLatent e : Int) (sparse obs : Bool)
    (seed : Option Int) (U : Option Int → (l e : Nat) → Draws p l e) : Except Err ((l : Nat) × (e : Nat) × LModel p l e) :=
  if ! isDag it A then .error .valueError
  else if ¬ (I ⊆ (Finset.range p).image (fun (i : Nat) => (i : Int))) then .error .valueError
  else if badSeed seed then .error .valueError -- line 407
  else if BadRange checked b.bLo b.bHi then .error .valueError -- line 409
  else if numLatent < 0 then .error .valueError -- lines 413, 419
  else if BadRange checked b.varLo b.varHi then .error .valueError -- lines 422, 429
  else if obs = true ∧ 1 < e ∧ I.Nonempty ∧ BadRange checked b.intVarLo b.intVarHi then .error .valueError -- line 425
  else if e < 0 then .error .valueError -- line 429
  else if BadRange checked b.psiLo b.psiHi then .error .valueError -- lines 436, 444
  else if obs = true ∧ 1 < e ∧ 0 < numLatent ∧ BadRange checked b.intPsiLo b.intPsiHi then .error .valueError -- line 439
  else
    match sampleParameters it A I sparse obs ((U seed numLatent.toNat e.toNat).scale b) with
    | .error err => .error err
    | .ok m => .ok ⟨_, _, m⟩

/-- `chain_graph_model(p, ...)`, `/repo/utlvce/generators.py:44-159`: `np.zeros` raises `ValueError` for negative sizes. -/
noncomputable def chainGraphModelZ (checked : Bool) (it : (p : Nat) → SetIter p) (b : Bounds) (p : Int) (I : Finset Int) (numLatent e : Int)
    (sparse _obs : Bool) (_seed : Option Int) (U : (p : Nat) → Option Int → (l e : Nat) → Draws p l e) :
    Except Err ((p : Nat) × (l : Nat) × (e : Nat) × LModel p l e) :=
  if p < 0 then .error .valueError
  else
    match sampleParametersZ checked (it p.toNat) b (chainGraph p.toNat) I numLatent e sparse true (some 42) (U p.toNat) with
    | .error err => .error err
    | .ok m => .ok ⟨_, m⟩

/-- `random_graph_model(p, k, ...)`, `/repo/utlvce/generators.py:162-281`: the seed is set first, then `k` is divided by `p - 1`, then arrays are drawn. -/
noncomputable def randomGraphModelZ (checked : Bool) (it : (p : Nat) → SetIter p) (b : Bounds) (p : Int) (k : ℝ) (I : Finset Int) (numLatent e : Int)
    (sparse obs : Bool) (seed : Option Int) (G : (p : Nat) → Option Int → GraphDraws p) (U : (p : Nat) → Option Int → (l e : Nat) → Draws p l e) :
    Except Err ((p : Nat) × (l : Nat) × (e : Nat) × LModel p l e) :=
  open Classical in
  if badSeed32 seed then .error .valueError -- line 581
  else if p = 1 then .error .zeroDivisionError -- line 583
  else if p < 0 then .error .valueError -- line 585
  else
    match dagAvgDeg k (G p.toNat seed) with
    | .error err => .error err
    | .ok (W, _) =>
      match sampleParametersZ checked (it p.toNat) b (fun i j => if W i j = 1 then 1 else 0) I numLatent e sparse obs (some 42) (U p.toNat) with
      | .error err => .error err
      | .ok m => .ok ⟨_, m⟩

/-- `intervention_targets(p, num_targets, random_state)`, `/repo/utlvce/generators.py:458-524`: `range(p)` is empty for negative `p`. -/
def interventionTargetsZ (rng : Option Int → Rng) (draw : Option Int → Int → Int → Int) (p : Int) (n : NumTargets) (seed : Option Int) :
    Except Err (Finset (Fin p.toNat)) :=
  if (match n with
    | .int n => decide (p < n)
    | .tuple [lo, hi] => decide (p < max lo hi)
    | .tuple _ => true) then .error .valueError
  else if badSeed seed then .error .valueError -- line 519
  else
    match (match n with
      | .int n => .ok n
      | .tuple [lo, hi] => if hi ≤ lo then .error .valueError else .ok (draw seed lo hi)
      | .tuple _ => .error .valueError : Except Err Int) with
    | .error err => .error err
    | .ok n =>
      match choiceTargets (rng seed) p.toNat n with
      | .error err => .error err
      | .ok ts => .ok ts.toFinset

end Verif
