import Verif.Model.GenArgs
import Verif.Props.Gen
import Verif.Props.Text

/-!
# C148: the generators for all sizes, seeds and intervals
-/

namespace Verif

open Spec

variable {p l e : Nat}

/-- The seeds that `np.random.default_rng` takes. -/
def Spec.GoodSeed (seed : Option Int) : Prop := ∀ s, seed = some s → 0 ≤ s

/-- The ends of the intervals that are used are in order. -/
def Spec.Ordered (b : Bounds) (I : Finset Int) (numLatent e : Int) (obs : Bool) : Prop :=
  b.bLo ≤ b.bHi ∧ b.varLo ≤ b.varHi ∧ b.psiLo ≤ b.psiHi ∧
    (obs = true → 1 < e → (I ≠ ∅ → b.intVarLo ≤ b.intVarHi) ∧ (numLatent ≠ 0 → b.intPsiLo ≤ b.intPsiHi))

/-- Arguments for which a model is returned. -/
structure Spec.GoodArgs (checked : Bool) (b : Bounds) (p : Nat) (I : Finset Int) (numLatent e : Int) (obs : Bool) (seed : Option Int) : Prop where
  targets : ValidTargets p I
  seed : GoodSeed seed
  latents : 0 ≤ numLatent
  envs : 0 ≤ e
  ordered : checked = true → Ordered b I numLatent e obs

/-- Draws of the unit interval; for sparse effects as many as the code asks for (`round(p / 5)`). -/
structure Spec.UnitDraws (U : Draws p l e) : Prop where
  weights : ∀ i j, 0 ≤ U.weights i j ∧ U.weights i j ≤ 1
  base : ∀ j, 0 ≤ U.base j ∧ U.base j ≤ 1
  interventions : ∀ j k, 0 ≤ U.interventions j k ∧ U.interventions j k ≤ 1
  omegas : ∀ k j, 0 ≤ U.omegas k j ∧ U.omegas k j ≤ 1
  psiBase : ∀ i, 0 ≤ U.psiBase i ∧ U.psiBase i ≤ 1
  psiInterventions : ∀ n k i, 0 ≤ U.psiInterventions n k i ∧ U.psiInterventions n k i ≤ 1
  psis : ∀ k i, 0 ≤ U.psis k i ∧ U.psis k i ≤ 1
  sparse : ∀ i, 2 * |((U.sparse i).length : ℝ) - p / 5| < 1

theorem badSeed_iff (seed : Option Int) : badSeed seed = true ↔ ¬ GoodSeed seed := by
  cases seed <;> simp [badSeed, GoodSeed]

theorem sampleParametersZ_ok {checked : Bool} (it : SetIter p) {b : Bounds} {A : Adj p} (hA : Nonneg A) (hac : Acyclic A) {I : Finset Int} {numLatent e : Int}
    (sparse : Bool) {obs : Bool} {seed : Option Int} (U : Option Int → (l e : Nat) → Draws p l e) (h : GoodArgs checked b p I numLatent e obs seed) :
    ∃ m, sampleParameters it A I sparse obs ((U seed numLatent.toNat e.toNat).scale b) = .ok m ∧
      sampleParametersZ checked it b A I numLatent e sparse obs seed U = .ok ⟨_, _, m⟩ := by
  refine ⟨_, sampleParameters_ok it hA sparse obs _ hac h.targets, ?_⟩
  unfold sampleParametersZ
  have ho : ∀ {lo hi : ℝ}, (checked = true → lo ≤ hi) → ¬ BadRange checked lo hi := fun h1 ⟨h2, h3⟩ => absurd (h1 h2) (not_le.2 h3)
  rw [if_neg (by simpa using (isDag_iff it hA).2 hac), if_neg (by rw [not_not, subset_range_iff]; exact h.targets),
    if_neg (by rw [badSeed_iff, not_not]; exact h.seed), if_neg (ho fun hc => (h.ordered hc).1), if_neg (not_lt.2 h.latents),
    if_neg (ho fun hc => (h.ordered hc).2.1), if_neg, if_neg (not_lt.2 h.envs), if_neg (ho fun hc => (h.ordered hc).2.2.1), if_neg,
    sampleParameters_ok it hA sparse obs _ hac h.targets]
  · rintro ⟨h1, h2, h3, h4⟩
    exact ho (fun hc => ((h.ordered hc).2.2.2 h1 h2).2 h3.ne') h4
  · rintro ⟨h1, h2, h3, h4⟩
    exact ho (fun hc => ((h.ordered hc).2.2.2 h1 h2).1 h3.ne_empty) h4

/-- C148: for all integers as sizes and seeds and all ends of intervals `sample_parameters` raises nothing but `ValueError`, and it does so iff the graph
has a cycle, the targets are not variables, the seed or a size is negative, or (if numpy checks this) the ends of an interval that is used are exchanged. -/
theorem C148_exact (checked : Bool) (it : SetIter p) (b : Bounds) (A : Adj p) (hA : Nonneg A) (I : Finset Int) (numLatent e : Int) (sparse obs : Bool)
    (seed : Option Int) (U : Option Int → (l e : Nat) → Draws p l e) (err : Err) :
    sampleParametersZ checked it b A I numLatent e sparse obs seed U = .error err ↔
      err = .valueError ∧ ¬ (Acyclic A ∧ GoodArgs checked b p I numLatent e obs seed) := by
  by_cases h : Acyclic A ∧ GoodArgs checked b p I numLatent e obs seed
  · obtain ⟨m, -, h2⟩ := sampleParametersZ_ok it hA h.1 sparse U h.2
    rw [h2]
    simp [h]
  · suffices hs : sampleParametersZ checked it b A I numLatent e sparse obs seed U = .error .valueError by
      rw [hs]
      simp [h, eq_comm]
    unfold sampleParametersZ
    split_ifs with h1 h2 h3 h4 h5 h6 h7 h8 h9 h10 <;> try rfl
    exfalso
    apply h
    have hb : ∀ {lo hi : ℝ}, ¬ BadRange checked lo hi → checked = true → lo ≤ hi := fun h1 h2 => not_lt.1 fun h3 => h1 ⟨h2, h3⟩
    refine ⟨(isDag_iff it hA).1 (by simpa using h1), (subset_range_iff I).1 h2, ?_, by omega, by omega, fun hc => ⟨hb h4 hc, hb h6 hc, hb h9 hc, ?_⟩⟩
    · rw [badSeed_iff, not_not] at h3
      exact h3
    · intro ho he
      refine ⟨fun hI => hb (fun hn => h7 ⟨ho, he, Finset.nonempty_iff_ne_empty.2 hI, hn⟩) hc, fun hl => hb (fun hn => h10 ⟨ho, he, by omega, hn⟩) hc⟩

theorem scaleU_mem {lo hi u : ℝ} (h : lo ≤ hi) (hu : 0 ≤ u ∧ u ≤ 1) : lo ≤ scaleU lo hi u ∧ scaleU lo hi u ≤ hi := by
  unfold scaleU
  constructor <;> nlinarith [hu.1, hu.2]

/-- C148: for a graph with entries zero and one the model that is returned has the sizes that were asked for, the graph, and weights on its edges in the
interval for weights. -/
theorem C148_value (checked : Bool) (it : SetIter p) (b : Bounds) (A : Adj p) (hA : ZeroOne A) (I : Finset Int) (numLatent e : Int) (sparse obs : Bool)
    (seed : Option Int) (U : Option Int → (l e : Nat) → Draws p l e) (hU : ∀ s l e, UnitDraws (U s l e)) (hb : b.bLo ≤ b.bHi)
    (r : (l : Nat) × (e : Nat) × LModel p l e) (h : sampleParametersZ checked it b A I numLatent e sparse obs seed U = .ok r) :
    (r.1 : Int) = numLatent ∧ (r.2.1 : Int) = e ∧ r.2.2.A = A ∧ (∀ i j, ¬ Edge A i j → r.2.2.B i j = 0) ∧
      ∀ i j, Edge A i j → b.bLo ≤ r.2.2.B i j ∧ r.2.2.B i j ≤ b.bHi := by
  have hn : Nonneg A := fun i j => by rcases hA i j with h | h <;> simp [h]
  have hg : Acyclic A ∧ GoodArgs checked b p I numLatent e obs seed := by
    by_contra hc
    rw [(C148_exact checked it b A hn I numLatent e sparse obs seed U .valueError).2 ⟨rfl, hc⟩] at h
    cases h
  obtain ⟨m, h1, h2⟩ := sampleParametersZ_ok it hn hg.1 sparse U hg.2
  rw [h2] at h
  cases h
  obtain ⟨m', h3, h4, h5, h6, -⟩ := C62_valid it A hA hg.1 I hg.2.targets sparse obs ((U seed numLatent.toNat e.toNat).scale b) b.bLo b.bHi
    fun i j => scaleU_mem hb ((hU _ _ _).weights i j)
  rw [h1] at h3
  cases h3
  exact ⟨Int.toNat_of_nonneg hg.2.latents, Int.toNat_of_nonneg hg.2.envs, h4, h5, fun i j hij => (h6 i j hij).2⟩

/-- C148: with positive lower ends for the variances and lower ends for the interventions that are not negative, all in order, every model that is returned
has positive variances and positive definite covariances, and it can be printed if there are variables and environments. -/
theorem C148_proper (checked : Bool) (it : SetIter p) (b : Bounds) (A : Adj p) (hA : Nonneg A) (I : Finset Int) (numLatent e : Int) (sparse obs : Bool)
    (seed : Option Int) (U : Option Int → (l e : Nat) → Draws p l e) (hU : ∀ s l e, UnitDraws (U s l e))
    (h1 : 0 < b.varLo ∧ b.varLo ≤ b.varHi) (h2 : 0 ≤ b.intVarLo ∧ b.intVarLo ≤ b.intVarHi) (h3 : 0 < b.psiLo ∧ b.psiLo ≤ b.psiHi)
    (h4 : 0 ≤ b.intPsiLo ∧ b.intPsiLo ≤ b.intPsiHi) (r : (l : Nat) × (e : Nat) × LModel p l e)
    (h : sampleParametersZ checked it b A I numLatent e sparse obs seed U = .ok r) :
    (∀ k j, 0 < r.2.2.omegas k j) ∧ (∀ k i, 0 < r.2.2.psis k i) ∧ (∃ C, r.2.2.covariances = .ok C ∧ ∀ k, (C k).PosDef) ∧
      (p ≠ 0 → e ≠ 0 → ∀ it' svdU T, ∃ t, r.2.2.str it' svdU T = .ok t) := by
  have hg : Acyclic A ∧ GoodArgs checked b p I numLatent e obs seed := by
    by_contra hc
    rw [(C148_exact checked it b A hA I numLatent e sparse obs seed U .valueError).2 ⟨rfl, hc⟩] at h
    cases h
  obtain ⟨m, h5, h6⟩ := sampleParametersZ_ok it hA hg.1 sparse U hg.2
  rw [h6] at h
  cases h
  obtain ⟨U', hU'⟩ : ∃ U', U' = U seed numLatent.toNat e.toNat := ⟨_, rfl⟩
  have hu := hU seed numLatent.toNat e.toNat
  obtain ⟨a1, a2, a3⟩ := C63_positive it A hA I sparse obs _ (fun j => lt_of_lt_of_le h1.1 (scaleU_mem h1.2 (hu.base j)).1)
    (fun j k => h2.1.trans (scaleU_mem h2.2 (hu.interventions j k)).1) (fun k j => lt_of_lt_of_le h1.1 (scaleU_mem h1.2 (hu.omegas k j)).1)
    (fun i => lt_of_lt_of_le h3.1 (scaleU_mem h3.2 (hu.psiBase i)).1) (fun n k i => h4.1.trans (scaleU_mem h4.2 (hu.psiInterventions n k i)).1)
    (fun k i => lt_of_lt_of_le h3.1 (scaleU_mem h3.2 (hu.psis k i)).1) m h5
  refine ⟨a1, a2, a3, fun hp he it' svdU T => ?_⟩
  cases ht : m.str it' svdU T with
  | ok t => exact ⟨t, rfl⟩
  | error err =>
    have := ((C130_raises it' svdU T m (fun k j => (a1 k j).ne') err).1 ht).2
    have he' := hg.2.envs
    omega

/-- C148: with `sparse_latents` each latent variable affects at most `(p + 2) / 5` variables, and none at all if there are one or two. -/
theorem C148_sparse (checked : Bool) (it : SetIter p) (b : Bounds) (A : Adj p) (hA : Nonneg A) (I : Finset Int) (numLatent e : Int) (obs : Bool)
    (seed : Option Int) (U : Option Int → (l e : Nat) → Draws p l e) (hU : ∀ s l e, UnitDraws (U s l e))
    (r : (l : Nat) × (e : Nat) × LModel p l e) (h : sampleParametersZ checked it b A I numLatent e true obs seed U = .ok r) :
    (∀ i, (Finset.univ.filter (fun j => r.2.2.gamma i j ≠ 0)).card ≤ (p + 2) / 5) ∧ (p ≤ 2 → r.2.2.gamma = 0) := by
  have hg : Acyclic A ∧ GoodArgs checked b p I numLatent e obs seed := by
    by_contra hc
    rw [(C148_exact checked it b A hA I numLatent e true obs seed U .valueError).2 ⟨rfl, hc⟩] at h
    cases h
  obtain ⟨m, h5, h6⟩ := sampleParametersZ_ok it hA hg.1 true U hg.2
  rw [h6] at h
  cases h
  have hc : ∀ i, (Finset.univ.filter (fun j => m.gamma i j ≠ 0)).card ≤ (p + 2) / 5 := fun i => by
    refine ((C62_sparse it A hA I obs _ m h5 i).2.2).trans ?_
    have := (hU seed numLatent.toNat e.toNat).sparse i
    have h7 : 2 * (((U seed numLatent.toNat e.toNat).sparse i).length : ℝ) - 2 * (p / 5) < 1 := by
      have := le_abs_self ((((U seed numLatent.toNat e.toNat).sparse i).length : ℝ) - p / 5)
      linarith
    have h8 : 10 * ((U seed numLatent.toNat e.toNat).sparse i).length < 2 * p + 5 := by
      have : (10 * ((U seed numLatent.toNat e.toNat).sparse i).length : ℝ) < 2 * p + 5 := by linarith
      exact_mod_cast this
    show ((U seed numLatent.toNat e.toNat).sparse i).length ≤ (p + 2) / 5
    omega
  refine ⟨hc, fun hp => ?_⟩
  ext i j
  by_contra hn
  have h9 := hc i
  have : (p + 2) / 5 = 0 := by omega
  rw [this, Nat.le_zero, Finset.card_eq_zero] at h9
  have : j ∈ (∅ : Finset (Fin p)) := h9 ▸ Finset.mem_filter.2 ⟨Finset.mem_univ _, hn⟩
  simp at this

/-- C148: `chain_graph_model` for any integer `p`: `ValueError` iff `p` is negative or the other arguments are bad; the seed is never looked at. -/
theorem C148_chain (checked : Bool) (it : (p : Nat) → SetIter p) (b : Bounds) (p : Int) (I : Finset Int) (numLatent e : Int) (sparse obs : Bool)
    (seed : Option Int) (U : (p : Nat) → Option Int → (l e : Nat) → Draws p l e) (err : Err) :
    chainGraphModelZ checked it b p I numLatent e sparse obs seed U = .error err ↔
      err = .valueError ∧ (p < 0 ∨ ¬ GoodArgs checked b p.toNat I numLatent e true none) := by
  have hn : Nonneg (chainGraph p.toNat) := by
    intro i j
    unfold chainGraph
    split_ifs <;> simp
  have hs : GoodArgs checked b p.toNat I numLatent e true (some 42) ↔ GoodArgs checked b p.toNat I numLatent e true none :=
    ⟨fun h => ⟨h.1, fun s hs => (by cases hs), h.3, h.4, h.5⟩, fun h => ⟨h.1, fun s hs => (by cases hs; norm_num), h.3, h.4, h.5⟩⟩
  have key := C148_exact checked (it p.toNat) b _ hn I numLatent e sparse true (some 42) (U p.toNat) err
  unfold chainGraphModelZ
  split_ifs with hp
  · simp [hp, eq_comm]
  · rw [hs] at key
    cases hr : sampleParametersZ checked (it p.toNat) b (chainGraph p.toNat) I numLatent e sparse true (some 42) (U p.toNat) with
    | error err' =>
      rw [hr] at key
      simp only [Except.error.injEq] at key ⊢
      rw [key]
      simp [chainGraph_acyclic, hp]
    | ok m =>
      rw [hr] at key
      simp only [reduceCtorEq, false_iff] at key ⊢
      simpa [chainGraph_acyclic, hp] using key

/-- C148: `random_graph_model` for any integer `p`: `ValueError` for a seed outside of 32 bits, else `ZeroDivisionError` for one node, else `ValueError` iff `p`
is negative or the other arguments are bad. -/
theorem C148_random (checked : Bool) (it : (p : Nat) → SetIter p) (b : Bounds) (p : Int) (k : ℝ) (I : Finset Int) (numLatent e : Int) (sparse obs : Bool)
    (seed : Option Int) (G : (p : Nat) → Option Int → GraphDraws p) (hG : ∀ p s i j, (G p s).weights i j = 1)
    (U : (p : Nat) → Option Int → (l e : Nat) → Draws p l e) (err : Err) :
    randomGraphModelZ checked it b p k I numLatent e sparse obs seed G U = .error err ↔
      if ∃ s, seed = some s ∧ (s < 0 ∨ 2 ^ 32 ≤ s) then err = .valueError else if p = 1 then err = .zeroDivisionError
      else err = .valueError ∧ (p < 0 ∨ ¬ GoodArgs checked b p.toNat I numLatent e obs none) := by
  have hs32 : badSeed32 seed = true ↔ ∃ s, seed = some s ∧ (s < 0 ∨ 2 ^ 32 ≤ s) := by
    cases seed <;> simp [badSeed32]
  have hs : GoodArgs checked b p.toNat I numLatent e obs (some 42) ↔ GoodArgs checked b p.toNat I numLatent e obs none :=
    ⟨fun h => ⟨h.1, fun s hs => (by cases hs), h.3, h.4, h.5⟩, fun h => ⟨h.1, fun s hs => (by cases hs; norm_num), h.3, h.4, h.5⟩⟩
  unfold randomGraphModelZ
  by_cases h1 : ∃ s, seed = some s ∧ (s < 0 ∨ 2 ^ 32 ≤ s)
  · rw [if_pos (hs32.2 h1), if_pos h1]
    simp [eq_comm]
  rw [if_neg (mt hs32.1 h1), if_neg h1]
  by_cases h2 : p = 1
  · rw [if_pos h2, if_pos h2]
    simp [eq_comm]
  rw [if_neg h2, if_neg h2]
  by_cases h3 : p < 0
  · rw [if_pos h3]
    simp [h3, eq_comm]
  rw [if_neg h3]
  obtain ⟨W, order, h, hac, -⟩ := C65_dag k (G p.toNat seed) (by omega)
  have h01 : ∀ i j, W i j = 0 ∨ W i j = 1 := by
    intro i j
    by_cases h0 : W i j = 0
    · exact Or.inl h0
    · obtain ⟨h1, h2⟩ := (C65_edges k (G p.toNat seed) W order h 1 1 one_pos (fun i j => by rw [hG]; simp) i j).2 h0
      exact Or.inr (le_antisymm h2 h1)
  obtain ⟨A, hA⟩ : ∃ A : Adj p.toNat, A = fun i j => open Classical in if W i j = 1 then (1 : Int) else 0 := ⟨_, rfl⟩
  have hn : Nonneg A := by
    intro i j
    rw [hA]
    simp only
    split_ifs <;> simp
  have hac' : Acyclic A := by
    refine Spec.Acyclic.mono hac ?_
    intro i j hij
    have hw : W i j = 1 := by
      by_contra hc
      exact hij (by rw [hA]; simp [hc])
    show supportGraph W i j ≠ 0
    simp [supportGraph, hw]
  simp only [h, ← hA]
  have key := C148_exact checked (it p.toNat) b A hn I numLatent e sparse obs (some 42) (U p.toNat) err
  rw [hs] at key
  cases hr : sampleParametersZ checked (it p.toNat) b A I numLatent e sparse obs (some 42) (U p.toNat) with
  | error err' =>
    rw [hr] at key
    simp only [Except.error.injEq] at key ⊢
    rw [key]
    simp [hac', h3]
  | ok m =>
    rw [hr] at key
    simp only [reduceCtorEq, false_iff] at key ⊢
    simpa [hac', h3] using key

/-- C148: `intervention_targets` for any integer `p` and seed: `ValueError` for negative `p` or a negative seed, whatever is drawn, and otherwise the function
of C64. -/
theorem C148_targets (rng : Option Int → Rng) (draw : Option Int → Int → Int → Int) (hd : ∀ s a b, a < b → a ≤ draw s a b ∧ draw s a b < b) (p : Int)
    (n : NumTargets) (seed : Option Int) :
    (p < 0 ∨ ¬ GoodSeed seed → interventionTargetsZ rng draw p n seed = .error .valueError) ∧
    (0 ≤ p → GoodSeed seed → interventionTargetsZ rng draw p n seed = interventionTargets (rng seed) (draw seed) p.toNat n) := by
  constructor
  · intro h
    unfold interventionTargetsZ
    split_ifs with h1 h2
    · rfl
    · rfl
    · rw [badSeed_iff, not_not] at h2
      have hp : p < 0 := h.resolve_right (not_not.2 h2)
      match n, h1 with
      | .int n, h1 =>
        have : n < 0 := by simp at h1; omega
        simp [choiceTargets, this]
      | .tuple [lo, hi], h1 =>
        simp only [decide_eq_true_eq, not_lt, max_le_iff] at h1
        by_cases hl : hi ≤ lo
        · simp [hl]
        · have : draw seed lo hi < 0 := by have := (hd seed lo hi (by omega)).2; omega
          simp [hl, choiceTargets, this]
      | .tuple [], h1 => simp at h1
      | .tuple [_], h1 => simp at h1
      | .tuple (_ :: _ :: _ :: _), h1 => simp at h1
  · intro hp hs
    have hb : ¬ badSeed seed = true := by rw [badSeed_iff, not_not]; exact hs
    have hpn : ((p.toNat : Nat) : Int) = p := Int.toNat_of_nonneg hp
    unfold interventionTargetsZ interventionTargets
    rw [if_neg hb]
    match n with
    | .int n =>
      simp only [hpn, decide_eq_true_eq]
      split_ifs
      · rfl
      · cases choiceTargets (rng seed) p.toNat n <;> rfl
    | .tuple [lo, hi] =>
      simp only [hpn, decide_eq_true_eq]
      split_ifs
      · rfl
      · rfl
      · simp only
        cases choiceTargets (rng seed) p.toNat (draw seed lo hi) <;> rfl
    | .tuple [] => simp
    | .tuple [_] => simp
    | .tuple (_ :: _ :: _ :: _) => simp

namespace GenArgsEx

/-- The intervals of the documentation's example. -/
noncomputable def bounds : Bounds := ⟨1 / 2, 3 / 5, 3, 6, 1 / 5, 2 / 5, 1, 5, 7 / 10, 4 / 5⟩

/-- Draws that are all 1/2, and as many latent effects as asked for. -/
noncomputable def half (p : Nat) (l e : Nat) : Draws p l e where
  weights _ _ := 1 / 2
  sparse _ := if h : 0 < p then List.replicate ((p + 2) / 5) (⟨0, h⟩, 1) else []
  dense _ _ := 0
  base _ := 1 / 2
  interventions _ _ := 1 / 2
  omegas _ _ := 1 / 2
  psiBase _ := 1 / 2
  psiInterventions _ _ _ := 1 / 2
  psis _ _ := 1 / 2

theorem half_unit (p l e : Nat) : UnitDraws (half p l e) := by
  have h : (0 : ℝ) ≤ 1 / 2 ∧ (1 / 2 : ℝ) ≤ 1 := by norm_num
  refine ⟨fun _ _ => h, fun _ => h, fun _ _ => h, fun _ _ => h, fun _ => h, fun _ _ _ => h, fun _ _ => h, fun i => ?_⟩
  have hl : ((half p l e).sparse i).length = (p + 2) / 5 := by
    unfold half
    simp only
    split_ifs with hp
    · simp
    · simp only [List.length_nil]; omega
  rw [hl]
  have h1 : (5 * ((p + 2) / 5 : Nat) : ℝ) ≤ p + 2 := by exact_mod_cast Nat.mul_div_le (p + 2) 5
  have h2 : (p + 2 : ℝ) < 5 * ((p + 2) / 5 : Nat) + 5 := by
    have : p + 2 < 5 * ((p + 2) / 5) + 5 := by omega
    exact_mod_cast this
  have h2' : (p + 2 : ℝ) ≤ 5 * ((p + 2) / 5 : Nat) + 4 := by
    have : p + 2 ≤ 5 * ((p + 2) / 5) + 4 := by omega
    exact_mod_cast this
  have h3 : |(((p + 2) / 5 : Nat) : ℝ) - p / 5| ≤ 2 / 5 := by
    rw [abs_le]
    constructor <;> linarith
  linarith

/-- The call of the documentation, `sample_parameters(A, {2}, 2, 5, ...)`, returns a model with the sizes asked for. -/
example (checked : Bool) (it : SetIter 3) : ∃ r, sampleParametersZ checked it bounds ![![0, 0, 1], ![0, 0, 1], ![0, 0, 0]] {2} 2 5 false true (some 42)
    (fun _ l e => half 3 l e) = .ok r ∧ r.1 = 2 ∧ r.2.1 = 5 ∧ ∀ k j, 0 < r.2.2.omegas k j := by
  have h01 : ZeroOne (![![0, 0, 1], ![0, 0, 1], ![0, 0, 0]] : Adj 3) := by unfold ZeroOne; decide
  have hn : Nonneg (![![0, 0, 1], ![0, 0, 1], ![0, 0, 0]] : Adj 3) := by unfold Nonneg; decide
  have hac := (isDag_iff (SetIter.incr 3) hn).1 (by decide +kernel)
  have ho : Ordered bounds {2} 2 5 true := by
    unfold Ordered bounds
    norm_num
  obtain ⟨m, -, h⟩ := sampleParametersZ_ok (checked := checked) it (b := bounds) hn hac (I := {2}) (numLatent := 2) (e := 5) false (obs := true) (seed := some 42)
    (fun _ l e => half 3 l e) ⟨by simp [ValidTargets], fun s hs => by cases hs; norm_num, by norm_num, by norm_num, fun _ => ho⟩
  have h1 := C148_value checked it bounds _ h01 {2} 2 5 false true (some 42) _ (fun s l e => half_unit 3 l e) ho.1 _ h
  refine ⟨_, h, by have := h1.1; omega, by have := h1.2.1; omega, ?_⟩
  refine (C148_proper checked it bounds _ hn {2} 2 5 false true (some 42) _ (fun s l e => half_unit 3 l e) ?_ ?_ ?_ ?_ _ h).1 <;> norm_num [bounds]

/-- A negative number of latents, a negative seed. -/
example (checked : Bool) (it : SetIter 2) : sampleParametersZ checked it bounds 0 ∅ (-1) 5 false true none (fun _ l e => half 2 l e) = .error .valueError ∧
    sampleParametersZ checked it bounds 0 ∅ 1 5 false true (some (-1)) (fun _ l e => half 2 l e) = .error .valueError := by
  have hn : Nonneg (0 : Adj 2) := fun _ _ => le_refl _
  constructor
  · exact (C148_exact _ _ _ _ hn _ _ _ _ _ _ _ _).2 ⟨rfl, fun h => absurd h.2.latents (by norm_num)⟩
  · exact (C148_exact _ _ _ _ hn _ _ _ _ _ _ _ _).2 ⟨rfl, fun h => absurd (h.2.seed _ rfl) (by norm_num)⟩

/-- The seed `2 ** 32` is accepted by `sample_parameters` and `chain_graph_model` but not by `random_graph_model`. -/
example (checked : Bool) (it : (p : Nat) → SetIter p) (k : ℝ) (G : (p : Nat) → Option Int → GraphDraws p) (hG : ∀ p s i j, (G p s).weights i j = 1) :
    randomGraphModelZ checked it bounds 3 k ∅ 1 2 false true (some (2 ^ 32)) G (fun p _ l e => half p l e) = .error .valueError ∧
    ∀ err, chainGraphModelZ checked it bounds 3 ∅ 1 2 false true (some (2 ^ 32)) (fun p _ l e => half p l e) ≠ .error err := by
  constructor
  · rw [C148_random checked it bounds 3 k ∅ 1 2 false true _ G hG, if_pos ⟨_, rfl, Or.inr le_rfl⟩]
  · intro err h
    obtain ⟨-, h | h⟩ := (C148_chain _ _ _ _ _ _ _ _ _ _ _ _).1 h
    · norm_num at h
    · refine h ⟨by simp [ValidTargets], fun s hs => (by cases hs), by norm_num, by norm_num, fun _ => ?_⟩
      unfold Ordered bounds
      norm_num

end GenArgsEx

end Verif
