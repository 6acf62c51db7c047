import Verif.Proof.DSep
import Verif.Props.Enum
import Verif.Props.Pdag
import Verif.Props.Meek

/-!
# C115: the equivalence classes are those of the conditional independence statements

The code calls two DAGs equivalent if they have the same skeleton and the same v-structures.  Here this is related to what it stands for:
the two graphs have the same d-separations (Verma and Pearl).
-/

namespace Verif

open Spec

variable {p : Nat}

/-- C115: DAGs have the same skeleton and v-structures iff they have the same d-separations. -/
theorem C115_markov_equiv_iff (G H : Adj p) (hG : Acyclic G) (hH : Acyclic H) : MarkovEquiv G H ↔ SameDSep G H :=
  ⟨sameDSep_of_markovEquiv hG hH, markovEquiv_of_sameDSep hG hH⟩

/-- C115: two variables are adjacent in a DAG iff no set of other variables d-separates them. -/
theorem C115_adjacent_iff (G : Adj p) (hG : Acyclic G) (a b : Fin p) (hab : a ≠ b) :
    Adjacent G a b ↔ ∀ Z : Finset (Fin p), a ∉ Z → b ∉ Z → DConnected (Edge G) Z a b := by
  constructor
  · exact fun h Z _ _ => dconnected_of_adjacent hab h
  · intro h
    by_contra hc
    obtain ⟨Z, ha, hb, hs⟩ := exists_dseparated hG hab hc
    exact hs (h Z ha hb)

/-- C115: `mec(A)` consists of the DAGs with the d-separations of `A`. -/
theorem C115_mec (it : SetIter p) (A : Adj p) (hA : Nonneg A) (hac : Acyclic A) (c : Bool) (hp : 0 < p ∨ c = false) :
    ∃ l, mec it A c = .ok l ∧ l.Nodup ∧ ∀ H, H ∈ l ↔ ZeroOne H ∧ Acyclic H ∧ SameDSep A H := by
  obtain ⟨l, h1, h2, h3⟩ := C24_mec it A hA hac c hp
  refine ⟨l, h1, h2, fun H => (h3 H).trans (and_congr_right fun _ => and_congr_right fun h => C115_markov_equiv_iff A H hac h)⟩

/-- C115: two DAGs have the same CPDAG iff they have the same d-separations. -/
theorem C115_cpdag (it it' : SetIter p) (G H : Adj p) (hG : Nonneg G) (hacG : Acyclic G) (hH : Nonneg H) (hacH : Acyclic H) :
    dagToCpdag it G = dagToCpdag it' H ↔ SameDSep G H :=
  (C18_cpdag_eq_iff it it' G H hG hacG hH hacH).trans (C115_markov_equiv_iff G H hacG hacH)

/-- C115: an edge of the CPDAG is directed iff it has this direction in all DAGs with the same d-separations. -/
theorem C115_cpdag_directed (it : SetIter p) (G C : Adj p) (hG : Nonneg G) (hac : Acyclic G) (h : dagToCpdag it G = .ok C)
    (i j : Fin p) : DirEdge C i j ↔ Adjacent G i j ∧ ∀ H, Acyclic H → SameDSep G H → Edge H i j := by
  obtain ⟨C', h1, h2⟩ := C17_essential_graph it G hG hac
  rw [h] at h1
  cases h1
  constructor
  · rintro ⟨e1, e2⟩
    have e3 := (h2 j i).2.1 e2
    obtain ⟨H, hH, hm, he⟩ : ∃ H, Acyclic H ∧ MarkovEquiv G H ∧ Edge H i j := by
      by_contra hc
      exact e1 ((h2 i j).2.2 hc)
    have hadj : Adjacent G i j := (hm.1 i j).2 (Or.inl he)
    refine ⟨hadj, fun H' hH' hs => ?_⟩
    have hm' := (C115_markov_equiv_iff G H' hac hH').2 hs
    rcases (hm'.1 i j).1 hadj with h4 | h4
    · exact h4
    · exact absurd ⟨H', hH', hm', h4⟩ e3
  · rintro ⟨hadj, hall⟩
    have hij := hall G hac (fun _ _ _ _ _ _ => Iff.rfl)
    refine ⟨?_, (h2 j i).2.2 ?_⟩
    · rw [(h2 i j).1.2 ⟨G, hac, ⟨fun _ _ => Iff.rfl, fun _ _ _ => Iff.rfl⟩, hij⟩]
      exact one_ne_zero
    · rintro ⟨H, hH, hm, he⟩
      have := hall H hH ((C115_markov_equiv_iff G H hac hH).1 hm)
      exact hH i ((Relation.TransGen.single this).trans (Relation.TransGen.single he))

/-- C115: all DAGs that `all_dags(P)` returns have the same d-separations, and so has the DAG of `pdag_to_dag(P)`. -/
theorem C115_extensions (P G H : Adj p) (hG : IsExtension G P) (hH : IsExtension H P) : SameDSep G H :=
  (C115_markov_equiv_iff G H hG.1 hH.1).1 (C19_extensions_equivalent P G H hG hH)

/-! ### Targets -/

section

variable {I : Finset (Fin p)} {G H : Adj p}

@[simp] theorem withRoots_ll (i j : Fin p) : WithRoots I G (Fin.castAdd p i) (Fin.castAdd p j) = G i j := by
  simp [WithRoots, -Fin.natAdd_eq_addNat]

@[simp] theorem withRoots_rl (i j : Fin p) : WithRoots I G (Fin.natAdd p i) (Fin.castAdd p j) = if i = j ∧ i ∈ I then 1 else 0 := by
  simp [WithRoots, -Fin.natAdd_eq_addNat]

@[simp] theorem withRoots_r (u : Fin (p + p)) (j : Fin p) : WithRoots I G u (Fin.natAdd p j) = 0 := by
  refine Fin.addCases (fun i => ?_) (fun i => ?_) u <;> simp [WithRoots, -Fin.natAdd_eq_addNat]

theorem withRoots_acyclic (hG : Acyclic G) : Acyclic (WithRoots I G) := by
  have key : ∀ u v, Relation.TransGen (Edge (WithRoots I G)) u v →
      ∃ j, v = Fin.castAdd p j ∧ ∀ i, u = Fin.castAdd p i → Relation.TransGen (Edge G) i j := by
    intro u v h
    induction h with
    | @single v h =>
      revert h
      refine Fin.addCases (fun j => ?_) (fun j => ?_) v
      · intro h
        refine ⟨j, rfl, ?_⟩
        rintro i rfl
        exact Relation.TransGen.single (by simpa [Edge] using h)
      · intro h
        exact absurd (withRoots_r u j) h
    | @tail v w _ h ih =>
      obtain ⟨j, rfl, ih⟩ := ih
      revert h
      refine Fin.addCases (fun k => ?_) (fun k => ?_) w
      · intro h
        exact ⟨k, rfl, fun i hi => (ih i hi).tail (by simpa [Edge] using h)⟩
      · intro h
        exact absurd (withRoots_r _ k) h
  intro u h
  obtain ⟨j, rfl, h1⟩ := key u u h
  exact hG j (h1 j rfl)

theorem withRoots_markovEquiv (hG : Acyclic G) (hH : Acyclic H) :
    MarkovEquiv (WithRoots I G) (WithRoots I H) ↔ IEquiv I G H := by
  have loop : ∀ {K : Adj p}, Acyclic K → ∀ i, K i i = 0 := fun hK i => by
    by_contra h
    exact hK i (Relation.TransGen.single h)
  have vl : ∀ (K : Adj p) (a c b : Fin p), VStructure (WithRoots I K) (Fin.castAdd p a) (Fin.castAdd p c) (Fin.castAdd p b) ↔
      VStructure K a c b := by
    intro K a c b
    simp [VStructure, DirEdge, Adjacent]
  have vr : ∀ {K : Adj p}, Acyclic K → ∀ (i c b : Fin p), VStructure (WithRoots I K) (Fin.natAdd p i) (Fin.castAdd p c) (Fin.castAdd p b) ↔
      i = c ∧ i ∈ I ∧ Edge K b i := by
    intro K hK i c b
    simp only [VStructure, DirEdge, Adjacent, withRoots_rl, withRoots_r, withRoots_ll, Edge]
    constructor
    · rintro ⟨⟨h1, _⟩, ⟨h2, _⟩, _⟩
      have h3 : i = c ∧ i ∈ I := by
        by_contra hc
        simp [hc] at h1
      obtain ⟨rfl, h3⟩ := h3
      exact ⟨rfl, h3, h2⟩
    · rintro ⟨rfl, h1, h2⟩
      have hne : i ≠ b := by
        rintro rfl
        exact h2 (loop hK i)
      refine ⟨⟨by simp [h1], trivial⟩, ⟨h2, hK.no_two h2⟩, ?_, ?_⟩
      · intro hc
        have := congrArg Fin.val hc
        simp at this
        omega
      · simp [hne]
  have vrr : ∀ (K : Adj p) (i c j : Fin p), ¬ VStructure (WithRoots I K) (Fin.natAdd p i) (Fin.castAdd p c) (Fin.natAdd p j) := by
    rintro K i c j ⟨⟨h1, _⟩, ⟨h2, _⟩, h3, _⟩
    simp [-Fin.natAdd_eq_addNat] at h1 h2
    exact h3 (by rw [h1.1, h2.1])
  have vsymm : ∀ (K : Adj (p + p)) (a c b), VStructure K a c b → VStructure K b c a :=
    fun K a c b ⟨h1, h2, h3, h4⟩ => ⟨h2, h1, h3.symm, fun h => h4 h.symm⟩
  constructor
  · rintro ⟨hs, hv⟩
    refine ⟨⟨fun i j => ?_, fun a c b => ?_⟩, fun i hi k => ?_⟩
    · have := hs (Fin.castAdd p i) (Fin.castAdd p j)
      simpa [Adjacent, -Fin.natAdd_eq_addNat] using this
    · rw [← vl G, ← vl H]
      exact hv _ _ _
    · have := hv (Fin.natAdd p i) (Fin.castAdd p i) (Fin.castAdd p k)
      rw [vr hG, vr hH] at this
      simpa [hi] using this
  · rintro ⟨⟨hs, hv⟩, hI⟩
    have hrl : ∀ i c b, VStructure (WithRoots I G) (Fin.natAdd p i) (Fin.castAdd p c) (Fin.castAdd p b) ↔
        VStructure (WithRoots I H) (Fin.natAdd p i) (Fin.castAdd p c) (Fin.castAdd p b) := by
      intro i c b
      rw [vr hG, vr hH]
      constructor
      · rintro ⟨h1, h2, h3⟩
        exact ⟨h1, h2, (hI i h2 b).1 h3⟩
      · rintro ⟨h1, h2, h3⟩
        exact ⟨h1, h2, (hI i h2 b).2 h3⟩
    constructor
    · intro u v
      refine Fin.addCases (fun i => ?_) (fun i => ?_) u <;> refine Fin.addCases (fun j => ?_) (fun j => ?_) v
      · simpa [Adjacent, -Fin.natAdd_eq_addNat] using hs i j
      · simp [Adjacent, -Fin.natAdd_eq_addNat]
      · simp [Adjacent, -Fin.natAdd_eq_addNat]
      · simp [Adjacent, -Fin.natAdd_eq_addNat]
    · intro u w v
      refine Fin.addCases (fun c => ?_) (fun c => ?_) w
      · refine Fin.addCases (fun i => ?_) (fun i => ?_) u <;> refine Fin.addCases (fun j => ?_) (fun j => ?_) v
        · rw [vl, vl]
          exact hv i c j
        · exact ⟨fun h => vsymm _ _ _ _ ((hrl j c i).1 (vsymm _ _ _ _ h)), fun h => vsymm _ _ _ _ ((hrl j c i).2 (vsymm _ _ _ _ h))⟩
        · exact hrl i c j
        · exact ⟨fun h => absurd h (vrr G i c j), fun h => absurd h (vrr H i c j)⟩
      · exact ⟨fun h => absurd (withRoots_r u c) h.1.1, fun h => absurd (withRoots_r u c) h.1.1⟩

end

/-- C115: DAGs are equivalent for the targets `I` iff they have the same d-separations also after adding a root for every target. -/
theorem C115_targets_iff (I : Finset (Fin p)) (G H : Adj p) (hG : Acyclic G) (hH : Acyclic H) :
    IEquiv I G H ↔ SameDSep (WithRoots I G) (WithRoots I H) := by
  rw [← withRoots_markovEquiv hG hH]
  exact C115_markov_equiv_iff _ _ (withRoots_acyclic hG) (withRoots_acyclic hH)

/-- C115: `imec(A, I)` consists of the DAGs that have the d-separations of `A` when a root is added for every target. -/
theorem C115_imec (it : SetIter p) (A : Adj p) (hA : Nonneg A) (hac : Acyclic A) (I : Finset (Fin p)) (c : Bool)
    (hp : 0 < p ∨ c = false) :
    ∃ l, imec it A (I.image (fun i : Fin p => (i.val : Int))) c = .ok l ∧ l.Nodup ∧
      ∀ H, H ∈ l ↔ ZeroOne H ∧ Acyclic H ∧ SameDSep (WithRoots I A) (WithRoots I H) := by
  obtain ⟨l, h1, h2, h3⟩ := C26_imec it A hA hac I c hp
  refine ⟨l, h1, h2, fun H => (h3 H).trans (and_congr_right fun _ => and_congr_right fun h => C115_targets_iff I A H hac h)⟩

/-! ### Examples -/

/-- The chain `0 → 1 → 2`. -/
def exChain : Adj 3 := ![![0, 1, 0], ![0, 0, 1], ![0, 0, 0]]

/-- The collider `0 → 1 ← 2`. -/
def exCollider : Adj 3 := ![![0, 1, 0], ![0, 0, 0], ![0, 1, 0]]

theorem exChain_acyclic : Acyclic exChain := (isDag_iff (SetIter.incr 3) (by unfold Nonneg; decide +kernel : Nonneg exChain)).1 (by decide +kernel)

theorem exCollider_acyclic : Acyclic exCollider :=
  (isDag_iff (SetIter.incr 3) (by unfold Nonneg; decide +kernel : Nonneg exCollider)).1 (by decide +kernel)

/-- 0 and 2 are separated by {1} in the chain. -/
theorem exChain_separated : DSeparated (Edge exChain) {1} 0 2 := by
  have h := dseparated_parents exChain_acyclic (a := 0) (b := 2) (by decide) (by decide +kernel) (by
    intro h
    have : ∀ u v, Relation.TransGen (Edge exChain) u v → u < v := by
      intro u v h
      induction h with
      | single h => revert h; exact (by decide +kernel : ∀ u v, Edge exChain u v → u < v) _ _
      | tail _ h ih => exact ih.trans ((by decide +kernel : ∀ u v, Edge exChain u v → u < v) _ _ h)
    exact absurd (this _ _ h) (by decide))
  have he : (Finset.univ.filter (fun z => Edge exChain z 2)) = ({1} : Finset (Fin 3)) := by decide +kernel
  rwa [he] at h

-- and connected by {1} in the collider: the two graphs, with the same skeleton, differ in their d-separations
example : DConnected (Edge exCollider) {1} 0 2 ∧ ¬ SameDSep exChain exCollider := by
  refine ⟨(dconnected_iff exCollider_acyclic (by decide)).2 ⟨false, ?_⟩, fun h => ?_⟩
  · exact ((Reach.start).out (by decide) (by decide +kernel : Edge exCollider 0 1)).coll (by decide)
      (by decide +kernel : Edge exCollider 2 1)
  · have := (C115_markov_equiv_iff _ _ exChain_acyclic exCollider_acyclic).2 h
    exact absurd ((this.2 0 1 2).2 (by unfold VStructure; decide +kernel)) (by unfold VStructure; decide +kernel)

-- 0 → 1 and 1 → 0 have the same d-separations, but not once there is a root for target 1
example : SameDSep (![![0, 1], ![0, 0]] : Adj 2) ![![0, 0], ![1, 0]] ∧
    ¬ SameDSep (WithRoots {1} (![![0, 1], ![0, 0]] : Adj 2)) (WithRoots {1} ![![0, 0], ![1, 0]]) := by
  have h1 : Acyclic (![![0, 1], ![0, 0]] : Adj 2) :=
    (isDag_iff (SetIter.incr 2) (by unfold Nonneg; decide +kernel : Nonneg (![![0, 1], ![0, 0]] : Adj 2))).1 (by decide +kernel)
  have h2 : Acyclic (![![0, 0], ![1, 0]] : Adj 2) :=
    (isDag_iff (SetIter.incr 2) (by unfold Nonneg; decide +kernel : Nonneg (![![0, 0], ![1, 0]] : Adj 2))).1 (by decide +kernel)
  rw [← C115_markov_equiv_iff _ _ h1 h2, ← C115_targets_iff _ _ _ h1 h2]
  unfold IEquiv MarkovEquiv SameSkeleton SameVStructures SameParentsAt VStructure
  decide +kernel

end Verif
