import Verif.Props.Trace
import Verif.Props.Threshold
import Verif.Props.MainFolds

/-!
# C135: the lines printed with thresholds and with the scree plot
-/

namespace Verif

open Spec

variable {p e : Nat}

/-- Edges of `G` that are missing in `H`. -/
def Spec.missing (G H : Adj p) : Finset (Fin p × Fin p) := Finset.univ.filter fun x => G x.1 x.2 ≠ 0 ∧ H x.1 x.2 = 0

theorem nnz_sub {G H : Adj p} (h : ∀ i j, Edge H i j → Edge G i j) : (nnz G : Int) - nnz H = (missing G H).card := by
  have h1 : nnz G = nnz H + (missing G H).card := by
    unfold nnz missing
    rw [← Finset.card_union_of_disjoint]
    · congr 1
      ext ⟨a, b⟩
      simp only [Finset.mem_filter, Finset.mem_univ, true_and, Finset.mem_union]
      have := h a b
      unfold Edge at this
      tauto
    · rw [Finset.disjoint_filter]
      rintro ⟨a, b⟩ - h1 ⟨-, h2⟩
      exact h1 h2
  omega

/-- C135: with a threshold there are two lines about a candidate: its number of edges with the score of the model fitted to it, and the
number of its edges that the returned model no longer has, with the score of this model. -/
theorem C135_threshold (it : SetIter p) (fit : Fitter p e) (hg : GoodFit fit) (v : Int) (hv : v ≠ 0) (t : ℝ)
    (obj obj' : ScoreObj p e) (ho : obj.Ok it fit) (i : Nat) (G : Adj p) (hG : ZeroOne G) (ms : List (AnyModel p e)) (out : List (Line p))
    (h : pruneGraphV it fit v true (some t) obj i G = .ok ((ms, obj'), out)) :
    ∃ (m0 : AnyModel p e) (s0 : Flt) (m : AnyModel p e) (s : Flt), ms = [m] ∧ FittedTo it fit G Finset.univ m0 s0 ∧
      FittedTo it fit m.A Finset.univ m s ∧ Thresholded m0.B t m.A ∧
      out = [.graph i (nnz G) s0, .thresholded (missing G m.A).card s] := by
  have hnn : Nonneg G := fun a b => by rcases hG a b with h | h <;> omega
  unfold pruneGraphV at h
  split at h
  · simp at h
  · rename_i m0 s0 obj1 h1
    simp only [Bool.not_true, Bool.false_eq_true, if_false] at h
    split_ifs at h with hp
    split at h
    · simp at h
    · rename_i m s obj2 h2
      simp only [printed, if_neg hv] at h
      obtain ⟨k1, k2, -⟩ := scoreObj_spec ho h1
      obtain ⟨k3, k4, -⟩ := scoreObj_spec k1 h2
      have hA := (k4.good hg).1
      have hT : Thresholded m0.B t m.A := by
        refine ⟨fun i j => ?_, maxAbs m0.B, maxAbs_greatest hp _, fun i j => ?_⟩
        · simp only [hA]
          split_ifs <;> simp
        · unfold Edge
          simp only [hA]
          split_ifs with hc <;> simp [hc]
      rw [← hA] at h k4
      cases h
      have hsub : ∀ i j, Edge m.A i j → Edge G i j := by
        rcases le_or_gt 0 t with ht | ht
        · exact (C107_subgraph it fit hg ht k2 k4 hT).2
        · exact fun i j hij => absurd hij ((C107_negative it fit hg ht k4 hT).2 i j)
      have hz : ZeroOne m.A := hT.binary
      refine ⟨m0, s0, m, s, rfl, k2, k4, hT, ?_⟩
      rw [(sumAll_eq_nnz_iff hnn).2 hG, (sumAll_eq_nnz_iff (fun a b => by rcases hz a b with h | h <;> omega)).2 hz, nnz_sub hsub]
      rfl

/-- C135: with a threshold there is one line about the targets: those whose noise variances vary enough, with the score of the model fitted
with them. -/
theorem C135_threshold_targets (it : SetIter p) (argsort : (Fin p → ℝ) → List (Fin p)) (fit : Fitter p e) (v : Int) (hv : v ≠ 0) (t : ℝ)
    (graph : Adj p) (obj obj' : ScoreObj p e) (ho : obj.Ok it fit) (ms : List (AnyModel p e × Finset (Fin p))) (out : List (Line p))
    (h : pruneIV it argsort fit v (some t) graph obj = .ok ((ms, obj'), out)) :
    ∃ (m0 : AnyModel p e) (s0 : Flt) (m : AnyModel p e) (I : Finset (Fin p)) (s : Flt), ms = [(m, I)] ∧
      FittedTo it fit graph Finset.univ m0 s0 ∧ FittedTo it fit graph I m s ∧ TargetsAbove m0.omegas t I ∧ out = [.thresholdedI I s] := by
  unfold pruneIV at h
  split at h
  · simp at h
  · rename_i m0 s0 obj1 h1
    simp only at h
    split_ifs at h with hp
    split at h
    · simp at h
    · rename_i m s obj2 h2
      simp only [printed, if_neg hv] at h
      obtain ⟨k1, k2, -⟩ := scoreObj_spec ho h1
      obtain ⟨k3, k4, -⟩ := scoreObj_spec k1 h2
      cases h
      refine ⟨m0, s0, m, _, s, rfl, k2, k4, ⟨⨆ i, varEnv m0.omegas i, ?_, ?_⟩, rfl⟩
      · have : Nonempty (Fin p) := ⟨⟨0, Nat.pos_of_ne_zero hp⟩⟩
        have hfun : (fun j => popVar (fun k => m0.omegas k j)) = varEnv m0.omegas := by
          funext j; rw [varEnv_eq]
        rw [hfun]
        obtain ⟨j, hj⟩ := exists_eq_ciSup_of_finite (f := varEnv m0.omegas)
        refine ⟨⟨j, hj⟩, ?_⟩
        rintro _ ⟨i, rfl⟩
        exact le_ciSup (Set.finite_range _).bddAbove i
      · intro j
        simp only [Finset.mem_filter, Finset.mem_univ, true_and]
        rw [varEnv_eq]

/-- C135: with `nums_latent=None` exactly one line shows the numbers of latents selected via the scree plot, and these are the numbers for
which best test scores are printed: all numbers from one to the one at which the plot of the singular values splits best. -/
theorem C135_scree (E : FitEnv p e) (hsv : ∀ M, (E.svals M).length = p) (hp : 3 ≤ p) (data : Fin e → Sample p) (solverKnown : Bool) (prune : Bool)
    (folds : List Rat) (tG tI : Option ℝ) (initial : Option (List (Adj p))) (rs v : Int) (hv : v ≠ 0)
    (r : AnyModel p e × Finset (Fin p) × Flt) (out : List (Line p))
    (h : fitMainV E data solverKnown none prune folds tG tI initial rs v = .ok (r, out)) :
    ∃ first others testG testI k, splitData (E.rng rs) (List.ofFn data) folds = .ok [first :: others, testG, testI] ∧
      1 ≤ k ∧ k ≤ p - 1 ∧ (∀ j, 1 ≤ j → j ≤ p - 1 → within (E.svals (E.cov first)) k ≤ within (E.svals (E.cov first)) j) ∧
      (∀ j, 1 ≤ j → j < k → within (E.svals (E.cov first)) k < within (E.svals (E.cov first)) j) ∧
      (∀ ns, Line.scree ns ∈ out ↔ ns = List.range' 1 k) ∧ (readScores none out).map Prod.fst = List.range' 1 k := by
  obtain ⟨m, I, s⟩ := r
  obtain ⟨training, testG, testI, graphs, ns, results, out1, sc, n, graph, obj, rest, models, obj', out2, scores, h1, h2, h3, h4, h5, h6,
    h7, h8, rfl⟩ := fitMainV_ok h
  cases training with
  | nil => simp [latentNumbers] at h3
  | cons first others =>
    obtain ⟨k, s1, s2, s3, s4, s5⟩ := C66_selection (E.svals (E.cov first)) (by rw [hsv]; exact hp)
    rw [hsv] at s3 s4
    simp only [latentNumbers, s1, Except.ok.injEq] at h3
    subst h3
    obtain ⟨k0, k0', L, k1, k2, k3⟩ := latentLoopV_scores hv _ _ _ _ h4
    have q2 := pruneIV_quiet h6
    have hges : Quiet (gesLines (p := p) v initial) := by
      intro x hx
      unfold gesLines at hx
      cases initial with
      | some gs => simp at hx
      | none =>
        simp only at hx
        split at hx
        · rw [List.mem_singleton.1 hx]; simp
        · simp at hx
    refine ⟨first, others, testG, testI, k, h1, s2, s3, s4, s5, ?_, ?_⟩
    · intro l
      have e1 : Line.scree l ∉ gesLines (p := p) v initial := fun hk => (hges _ hk).2.2.2 l rfl
      have e2 : Line.scree l ∉ out2 := fun hk => (q2 _ hk).2.2.2 l rfl
      simp [printed, hv, screeLines, e1, e2, k0']
    · have e1 : gesLines v initial ++ printed v [Line.initial graphs.length (graphs.map sumAll)] ++
          screeLines v none (List.range' 1 k) ++ printed v [Line.graphPhase] ++ out1 ++
          printed v [Line.bestLatents n, .targetPhase] ++ out2 ++ printed v [Line.bestTargets s, .final n (sumAll m.A) I] =
          (gesLines v initial ++ [Line.initial graphs.length (graphs.map sumAll), .scree (List.range' 1 k), .graphPhase]) ++
            (out1 ++ ([Line.bestLatents n, .targetPhase] ++ out2 ++ [Line.bestTargets s, .final n (sumAll m.A) I])) := by
        simp [printed, hv, screeLines]
      rw [e1, readScores_muted, k3, k1]
      · refine Muted.append (Muted.append ?_ q2.muted) ?_
        · intro x hx
          simp only [List.mem_cons, List.not_mem_nil, or_false] at hx
          rcases hx with rfl | rfl <;> simp
        · intro x hx
          simp only [List.mem_cons, List.not_mem_nil, or_false] at hx
          rcases hx with rfl | rfl <;> simp
      · refine Muted.append hges.muted ?_
        intro x hx
        simp only [List.mem_cons, List.not_mem_nil, or_false] at hx
        rcases hx with rfl | rfl | rfl <;> simp

namespace Example

/-- The hypotheses of `C135_scree` can be met: three variables with singular values `10, 10, 9`, printing. -/
example : ∃ E : FitEnv 3 1, (∀ M, (E.svals M).length = 3) ∧
    ∃ r out, fitMainV E (fun _ => List.replicate 8 0) true none true [1 / 2, 1 / 4, 1 / 4] none none
      (some [![![0, 1, 1], ![0, 0, 1], ![0, 0, 0]]]) 42 1 = .ok (r, out) := by
  have hn : Nonneg (![![0, 1, 1], ![0, 0, 1], ![0, 0, 0]] : Adj 3) := by unfold Nonneg; decide
  obtain ⟨k, h1, h2, -⟩ := C66_selection [10, 10, 9] (by simp)
  obtain ⟨r, hr⟩ := exEnv_returns [(![![0, 1, 1], ![0, 0, 1], ![0, 0, 0]] : Adj 3)] (by simp) (by
    intro G hG
    rw [List.mem_singleton] at hG
    subst hG
    exact ⟨hn, (isDag_iff (SetIter.incr 3) hn).1 (by decide +kernel)⟩) (List.replicate 8 0) (by simp) true (List.range' 1 k) (by
      simp only [ne_eq, List.range'_eq_nil_iff]
      omega) 42
  refine ⟨{ exEnv 3 with svals := fun _ => [10, 10, 9] }, fun _ => rfl, r, fitMainV_returns 1 ?_⟩
  rw [← hr]
  have hsp := exSplit ((exEnv 3).rng 42) (List.replicate 8 (0 : Fin 3 → ℝ)) (by simp)
  unfold fitMain
  rw [show splitData (({ exEnv 3 with svals := fun _ => [10, 10, 9] } : FitEnv 3 1).rng 42) (List.ofFn fun _ => List.replicate 8 (0 : Fin 3 → ℝ))
    [1 / 2, 1 / 4, 1 / 4] = _ from hsp]
  simp only [initialGraphs, latentNumbers, h1]
  rfl

/-- The hypotheses of `C135_threshold` can be met: with threshold one all three edges are lost, and the second line says so. -/
example : ∃ ms obj' s0 s, pruneGraphV (SetIter.incr 3) (varFit (e := 1) (SetIter.incr 3) ⟨fun _ => 1, fun _ => 4⟩ 1) 1 true (some 1) ⟨0, []⟩ 0
      ![![0, 1, 1], ![0, 0, 1], ![0, 0, 0]] = .ok ((ms, obj'), [.graph 0 3 s0, .thresholded 3 s]) := by
  have hn : Nonneg (![![0, 1, 1], ![0, 0, 1], ![0, 0, 0]] : Adj 3) := by unfold Nonneg; decide
  have hz : ZeroOne (![![0, 1, 1], ![0, 0, 1], ![0, 0, 0]] : Adj 3) := by unfold ZeroOne; decide
  have hac : Acyclic (![![0, 1, 1], ![0, 0, 1], ![0, 0, 0]] : Adj 3) := (isDag_iff (SetIter.incr 3) hn).1 (by decide)
  have hg := varFit_good (e := 1) (SetIter.incr 3) ⟨fun _ => 1, fun _ => 4⟩ 1
  have ho := ScoreObj.ok_new (SetIter.incr 3) (varFit (e := 1) (SetIter.incr 3) ⟨fun _ => 1, fun _ => 4⟩ 1) 0
  have hf := exFit_returns (p := 3) _ hac
  obtain ⟨⟨m0, s0⟩, obj1, h1⟩ := scoreObj_returns (I := Finset.univ) ho (fun n => hf n _ hn (fun _ _ => Or.inl rfl))
  obtain ⟨k1, k2, -⟩ := scoreObj_spec ho h1
  have hzero : (fun i j => if maxAbs m0.B * 1 < |m0.B i j| then 1 else 0 : Adj 3) = 0 := by
    funext i j
    rw [if_neg]
    · rfl
    · rw [mul_one, not_lt]
      exact (maxAbs_greatest (by norm_num) m0.B).2 ⟨i, j, rfl⟩
  obtain ⟨⟨m, s⟩, obj2, h2⟩ := scoreObj_returns (A := 0) (I := Finset.univ) k1 (fun n => hf n 0 (fun _ _ => le_refl _) (fun _ _ => Or.inr rfl))
  have hr : pruneGraphV (SetIter.incr 3) (varFit (e := 1) (SetIter.incr 3) ⟨fun _ => 1, fun _ => 4⟩ 1) 1 true (some 1) ⟨0, []⟩ 0
      ![![0, 1, 1], ![0, 0, 1], ![0, 0, 0]] = .ok (([m], obj2), [.graph 0 (sumAll ![![0, 1, 1], ![0, 0, 1], ![0, 0, 0]]) s0,
        .thresholded (sumAll ![![0, 1, 1], ![0, 0, 1], ![0, 0, 0]] - sumAll (0 : Adj 3)) s]) := by
    unfold pruneGraphV
    rw [h1]
    simp only [Bool.not_true, Bool.false_eq_true, if_false, hzero]
    rw [if_neg (by norm_num), h2]
    rfl
  refine ⟨[m], obj2, s0, s, ?_⟩
  rw [hr]
  have e1 : sumAll (![![0, 1, 1], ![0, 0, 1], ![0, 0, 0]] : Adj 3) = 3 := by decide
  have e2 : sumAll (0 : Adj 3) = 0 := by decide
  rw [e1, e2]
  rfl

end Example

end Verif
