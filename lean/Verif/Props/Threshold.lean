import Verif.Props.PopulationCode

/-!
# C107: pruning by thresholding

`_fit` takes the arguments `threshold_graph` and `threshold_I`.  The first is documented as a bound on the absolute weights of the edges that
are kept; the code uses it as a fraction of the largest one.
-/

namespace Verif

open Matrix Spec

variable {p l e : Nat}

/-- The graph that remains of weights `B` with the threshold `t`: `M` is the largest absolute weight. -/
structure Spec.Thresholded (B : Matrix (Fin p) (Fin p) ℝ) (t : ℝ) (A : Adj p) : Prop where
  binary : ∀ i j, A i j = 0 ∨ A i j = 1
  kept : ∃ M, IsGreatest {x | ∃ i j, x = |B i j|} M ∧ ∀ i j, Edge A i j ↔ M * t < |B i j|

/-- The variables that are targets according to variances `w` with the threshold `t`: `M` is the largest variance of a column. -/
def Spec.TargetsAbove (w : Matrix (Fin e) (Fin p) ℝ) (t : ℝ) (I : Finset (Fin p)) : Prop :=
  ∃ M, IsGreatest (Set.range (fun j => popVar (fun k => w k j))) M ∧ ∀ j, j ∈ I ↔ M * t < popVar (fun k => w k j)

theorem maxAbs_greatest (hp : p ≠ 0) (B : Matrix (Fin p) (Fin p) ℝ) : IsGreatest {x | ∃ i j, x = |B i j|} (maxAbs B) := by
  have : Nonempty (Fin p × Fin p) := ⟨⟨⟨0, Nat.pos_of_ne_zero hp⟩, ⟨0, Nat.pos_of_ne_zero hp⟩⟩⟩
  obtain ⟨x, hx⟩ := exists_eq_ciSup_of_finite (f := fun x : Fin p × Fin p => |B x.1 x.2|)
  refine ⟨⟨x.1, x.2, hx.symm⟩, ?_⟩
  rintro _ ⟨i, j, rfl⟩
  exact le_ciSup (f := fun x : Fin p × Fin p => |B x.1 x.2|) (Set.finite_range _).bddAbove (i, j)

/-- C107: when pruning a candidate with a threshold returns, there is exactly one model, fitted to the edges whose absolute weight in a fit
of the candidate exceeds the given fraction of the largest absolute weight. -/
theorem C107_graph (it : SetIter p) (fit : Fitter p e) (hg : GoodFit fit) (t : ℝ) (obj obj' : ScoreObj p e) (ho : obj.Ok it fit)
    (G : Adj p) (ms : List (AnyModel p e)) (h : pruneGraph it fit true (some t) obj G = .ok (ms, obj')) :
    obj'.Ok it fit ∧ ∃ (m0 : AnyModel p e) (s0 : Flt) (m : AnyModel p e) (s : Flt), FittedTo it fit G Finset.univ m0 s0 ∧ ms = [m] ∧
      Thresholded m0.B t m.A ∧ FittedTo it fit m.A Finset.univ m s := by
  unfold pruneGraph at h
  split at h
  · simp at h
  · rename_i m0 s0 obj1 h1
    simp only [Bool.not_true, Bool.false_eq_true, if_false] at h
    split_ifs at h with hp
    split at h
    · simp at h
    · rename_i m s obj2 h2
      cases h
      obtain ⟨k1, k2, -⟩ := scoreObj_spec ho h1
      obtain ⟨k3, k4, -⟩ := scoreObj_spec k1 h2
      have hA := (k4.good hg).1
      refine ⟨k3, m0, s0, m, s, k2, rfl, ⟨fun i j => ?_, maxAbs m0.B, maxAbs_greatest hp _, fun i j => ?_⟩, by rw [hA]; exact k4⟩
      · simp only [hA]
        split_ifs <;> simp
      · unfold Edge
        simp only [hA]
        split_ifs with hc <;> simp [hc]

/-- C107: a threshold that is not negative only removes edges: what remains is a DAG and a subgraph of the candidate. -/
theorem C107_subgraph (it : SetIter p) (fit : Fitter p e) (hg : GoodFit fit) {t : ℝ} (ht : 0 ≤ t) {G : Adj p} {m0 m : AnyModel p e} {s0 s : Flt}
    (h0 : FittedTo it fit G Finset.univ m0 s0) (hm : FittedTo it fit m.A Finset.univ m s) (hT : Thresholded m0.B t m.A) :
    Acyclic m.A ∧ ∀ i j, Edge m.A i j → Edge G i j := by
  obtain ⟨M, hM, hk⟩ := hT.kept
  constructor
  · refine (hm.good hg).2.1 (fun i j => ?_)
    rcases hT.binary i j with h | h <;> simp [h]
  · intro i j hij hc
    have h1 := (hk i j).1 hij
    rw [(h0.good hg).2.2 i j hc, abs_zero] at h1
    obtain ⟨⟨a, b, rfl⟩, -⟩ := hM
    nlinarith [abs_nonneg (m0.B a b)]

/-- C107: with a threshold of at least one nothing remains; below one an edge of largest absolute weight always remains. -/
theorem C107_extremes {B : Matrix (Fin p) (Fin p) ℝ} {t : ℝ} {A : Adj p} (hT : Thresholded B t A) :
    (1 ≤ t → ∀ i j, ¬ Edge A i j) ∧ (t < 1 → ∀ i j, B i j ≠ 0 → (∀ a b, |B a b| ≤ |B i j|) → Edge A i j) := by
  obtain ⟨M, ⟨⟨a, b, rfl⟩, hub⟩, hk⟩ := hT.kept
  constructor
  · intro ht i j hij
    have h1 := (hk i j).1 hij
    have h2 : |B i j| ≤ |B a b| := hub ⟨i, j, rfl⟩
    nlinarith [abs_nonneg (B a b)]
  · intro ht i j hne hmax
    rw [hk, le_antisymm (hmax a b) (hub ⟨i, j, rfl⟩)]
    have := abs_pos.2 hne
    nlinarith

/-- C107: a negative threshold: the pruning only returns if all weights of the fit are zero (otherwise the graph that remains has a loop at
every variable and the fit raises). -/
theorem C107_negative (it : SetIter p) (fit : Fitter p e) (hg : GoodFit fit) {t : ℝ} (ht : t < 0) {m0 m : AnyModel p e} {s : Flt}
    (hm : FittedTo it fit m.A Finset.univ m s) (hT : Thresholded m0.B t m.A) : m0.B = 0 ∧ ∀ i j, ¬ Edge m.A i j := by
  obtain ⟨M, ⟨⟨a, b, hab⟩, hub⟩, hk⟩ := hT.kept
  have hac : Acyclic m.A := (hm.good hg).2.1 (fun i j => by rcases hT.binary i j with h | h <;> simp [h])
  have hM : M = 0 := by
    by_contra hc
    have hpos : 0 < M := lt_of_le_of_ne (by rw [hab]; exact abs_nonneg _) (Ne.symm hc)
    have : Edge m.A a a := (hk a a).2 (by nlinarith [abs_nonneg (m0.B a a)])
    exact acyclic_ne hac this rfl
  have hB : m0.B = 0 := by
    ext i j
    have : |m0.B i j| ≤ M := hub ⟨i, j, rfl⟩
    rw [hM] at this
    exact abs_nonpos_iff.1 this
  refine ⟨hB, fun i j hij => ?_⟩
  have := (hk i j).1 hij
  rw [hM, hB] at this
  simp at this

theorem pruneGraphsLoop_threshold {it : SetIter p} {fit : Fitter p e} (hg : GoodFit fit) {t : ℝ} (graphs : List (Adj p)) :
    ∀ (obj obj' : ScoreObj p e) (ms : List (AnyModel p e)), obj.Ok it fit → pruneGraphsLoop it fit true (some t) graphs obj = .ok (ms, obj') →
      obj'.Ok it fit ∧ List.Forall₂ (fun G m => ∃ m0 s0 s, FittedTo it fit G Finset.univ m0 s0 ∧ Thresholded m0.B t m.A ∧
        FittedTo it fit m.A Finset.univ m s) graphs ms := by
  induction graphs with
  | nil =>
    intro obj obj' ms ho h
    simp only [pruneGraphsLoop, Except.ok.injEq, Prod.mk.injEq] at h
    obtain ⟨rfl, rfl⟩ := h
    exact ⟨ho, List.Forall₂.nil⟩
  | cons G graphs ih =>
    intro obj obj' ms ho h
    rw [pruneGraphsLoop] at h
    split at h
    · simp at h
    · rename_i b obj1 h1
      split at h
      · simp at h
      · rename_i b' obj2 h2
        cases h
        obtain ⟨k1, m0, s0, m, s, k2, rfl, k3, k4⟩ := C107_graph it fit hg t obj obj1 ho G b h1
        obtain ⟨k5, k6⟩ := ih obj1 obj' b' k1 h2
        exact ⟨k5, List.Forall₂.cons ⟨m0, s0, s, k2, k3, k4⟩ k6⟩

/-- C107, all candidates: one model per candidate, in the same order. -/
theorem C107_all (it : SetIter p) (fit : Fitter p e) (hg : GoodFit fit) (t : ℝ) (graphs : List (Adj p)) (obj obj' : ScoreObj p e)
    (ho : obj.Ok it fit) (ms : List (AnyModel p e)) (h : pruneGraphs it fit true (some t) graphs obj = .ok (ms, obj')) :
    obj'.Ok it fit ∧ graphs ≠ [] ∧ List.Forall₂ (fun G m => ∃ m0 s0 s, FittedTo it fit G Finset.univ m0 s0 ∧ Thresholded m0.B t m.A ∧
      FittedTo it fit m.A Finset.univ m s) graphs ms := by
  unfold pruneGraphs at h
  split_ifs at h with h0
  obtain ⟨h1, h2⟩ := pruneGraphsLoop_threshold hg graphs obj obj' ms ho h
  exact ⟨h1, fun hc => h0 (by simp [hc]), h2⟩

/-- C107, a whole run of `_fit` with both thresholds: the number of latents is one of the given ones, the graph is what remains of a fit of
one of the candidates, the targets are the variables whose variances in a fit of this graph vary more than the given fraction of the largest
variation, and the returned model was fitted to this graph and these targets. -/
theorem C107_fit (E : FitEnv p e) (hfit : ∀ d h, GoodFit (E.fit d h))
    (hlat : ∀ d h n A I m s, E.fit d h n A I = .ok (m, s) → m.1 = h) (data : Fin e → Sample p) (solverKnown : Bool) (ns : List Nat)
    (folds : List Rat) (tG tI : ℝ) (graphs : List (Adj p)) (rs : Int) (m : AnyModel p e) (I : Finset (Fin p)) (s : Flt)
    (h : fitMain E data solverKnown (some ns) true folds (some tG) (some tI) (some graphs) rs = .ok (m, I, s)) :
    ∃ training testG testI, splitData (E.rng rs) (List.ofFn data) folds = .ok [training, testG, testI] ∧ m.1 ∈ ns ∧
      (∃ G ∈ graphs, ∃ m0 s0, FittedTo E.it (E.fit (foldData E.cov training e) m.1) G Finset.univ m0 s0 ∧ Thresholded m0.B tG m.A) ∧
      (∃ m0 s0, FittedTo E.it (E.fit (foldData E.cov training e) m.1) m.A Finset.univ m0 s0 ∧ TargetsAbove m0.omegas tI I) ∧
      (∃ sf, FittedTo E.it (E.fit (foldData E.cov training e) m.1) m.A I m sf) ∧ m.scoreOn (foldData E.cov testI e) = .ok s := by
  obtain ⟨training, testG, testI, graphs', ns', results, sc, n, graph, obj, rest, h1, h2, h3, h4, h5, h6⟩ := fitMain_ok h
  cases h2
  cases h3
  refine ⟨training, testG, testI, h1, ?_⟩
  obtain ⟨k1, k2, k3⟩ := latentLoop_spec ns [] results (by simp) (by simp) h4
  obtain ⟨r, k4, k5, k6⟩ := sortedM_ok (results.map (fun r => (r.2.1, r.1, r.2.2.1, r.2.2.2))) (by rw [List.map_map]; exact k1)
  rw [h5] at k4
  cases k4
  have hmem : (n, (sc, graph, obj)) ∈ results := by
    have := k5.mem_iff.1 (List.mem_cons_self (a := (sc, n, graph, obj)) (l := rest))
    obtain ⟨r, hr, hre⟩ := List.mem_map.1 this
    simp only [Prod.mk.injEq] at hre
    obtain ⟨e1, e2, e3, e4⟩ := hre
    rw [← e1, ← e2, ← e3, ← e4]
    exact hr
  obtain ⟨models, scores, g1, g2, g3⟩ := k2 _ hmem
  simp only at g1 g2 g3
  obtain ⟨o1, o2, o3⟩ := C107_all E.it _ (hfit _ n) tG graphs _ _ (ScoreObj.ok_new E.it _ 0) models g1
  have hgm : ∃ mm ∈ models, mm.A = graph := by
    have := bestScoring_mem g3
    obtain ⟨t, ht, hte⟩ := List.mem_map.1 this
    simp only [Prod.mk.injEq] at hte
    refine ⟨t.2, ?_, hte.2⟩
    rw [← (testScores_spec models g2).1]
    exact List.mem_map_of_mem ht
  obtain ⟨mm, hmm, rfl⟩ := hgm
  obtain ⟨pm, obj', ps, t1, t2, t3⟩ := targetPhase_ok h6
  obtain ⟨m1, s1, M, m2, I2, s2, c1, c2, rfl, c4, c5⟩ := C57_threshold E.it E.argsort _ tI mm.A obj obj' o1 pm t1
  obtain ⟨q1, q2⟩ := testScores_spec _ t2
  have hin := bestScoring_mem t3
  have hinpm : (m, I) ∈ [(m2, I2)] := by rw [← q1]; exact List.mem_map_of_mem hin
  simp only [List.mem_singleton, Prod.mk.injEq] at hinpm
  obtain ⟨rfl, rfl⟩ := hinpm
  have hmA : m.A = mm.A := (c5.good (hfit _ n)).1
  have hm1 : m.1 = n := by
    obtain ⟨j, mm, f1, f2, -⟩ := c5.fields
    rw [f2]
    exact hlat _ _ _ _ _ _ _ f1
  rw [hmA, hm1]
  refine ⟨?_, ?_, ⟨m1, s1, c1, M, c2, c4⟩, ⟨s2, c5⟩, q2 _ hin⟩
  · simpa using (k3 n).1 (List.mem_map_of_mem (f := Prod.fst) hmem)
  · obtain ⟨i, hi⟩ := List.getElem?_of_mem hmm
    obtain ⟨hil, rfl⟩ := List.getElem?_eq_some_iff.1 hi
    have hil' : i < graphs.length := by rw [o3.length_eq]; exact hil
    obtain ⟨m0, s0, -, b1, b2, -⟩ := o3.get hil' hil
    exact ⟨graphs[i], List.getElem_mem hil', m0, s0, b1, b2⟩

/-! ## Exact covariances -/

section Exact

/-- The model of the truth `(B, w)` over the graph `A`. -/
def truthOver (B : Matrix (Fin p) (Fin p) ℝ) (w : Matrix (Fin e) (Fin p) ℝ) (A : Adj p) : AnyModel p e := ⟨0, ⟨A, B, 0, w, 0, 1 - Bᵀ⟩⟩

/-- The edges with non-zero weight. -/
noncomputable def Spec.weightSupport (B : Matrix (Fin p) (Fin p) ℝ) : Adj p := open Classical in fun i j => if B i j ≠ 0 then 1 else 0

/-- The variables whose noise variance is not the same in all environments. -/
noncomputable def Spec.changing (w : Matrix (Fin e) (Fin p) ℝ) : Finset (Fin p) :=
  open Classical in Finset.univ.filter (fun i => ∃ k k', w k i ≠ w k' i)

variable {it : SetIter p} {fit : Fitter p e} {B : Matrix (Fin p) (Fin p) ℝ} {w : Matrix (Fin e) (Fin p) ℝ}

/-- What exact fits do: for all graphs that contain the support and targets that contain the changing variables they return the truth. -/
def Spec.FitsTruth (it : SetIter p) (fit : Fitter p e) (B : Matrix (Fin p) (Fin p) ℝ) (w : Matrix (Fin e) (Fin p) ℝ) : Prop :=
  ∀ n A I, Nonneg A → Acyclic A → Respects A B → changing w ⊆ I → ∃ s, fit n A I = .ok (truthOver B w A, s) ∧
    (truthOver B w A).copy it = .ok (truthOver B w A)

theorem codeFit_fitsTruth (it : SetIter p) (svd : Matrix (Fin p) (Fin p) ℝ → Matrix (Fin p) (Fin p) ℝ × (Fin p → ℝ)) (num : NumLib p e)
    (hs : GoodSqrt num.sqrtm) (cfg : ScoreCfg) (hcvx : cfg.solver = .cvx)
    (hthr : 0 < cfg.thresholdScore) (hpsi : ∀ x, cfg.psiMax = some x → 0 ≤ x) (hit : 0 < cfg.stop.maxIter)
    (hfl : 0 < cfg.stop.maxFluctuations) (hdist : 0 ≤ cfg.stop.thresholdDistB) (hp0 : p ≠ 0) (d : Data p e) (he : 0 < e)
    (hn : ∀ k, 0 < d.nObs k) (u v : Nat → Nat → Nat → Fin (p * p) → ℝ) (hopt : ∀ A Ms, CvxOptimal num A Ms d 0) (hw : ∀ k i, 0 < w k i)
    (hd : ∀ k, Entails B (Matrix.diagonal (w k)) (d.covs k)) : FitsTruth it (codeFit it svd num cfg u v d 0) B w := by
  intro n A I hA hac hB hI
  have hmk := mkModel_eq_ok (it := it) (l := 0) hA (0 : Matrix (Fin 0) (Fin p) ℝ) w (0 : Matrix (Fin e) (Fin 0) ℝ) hac hB
  have hcov : (⟨A, B, 0, w, 0, 1 - Bᵀ⟩ : LModel p 0 e).covariances = .ok d.covs := by
    obtain ⟨-, C', hC', hent'⟩ := C35_covariances it A hA _ _ w _ _ hmk
    rw [hC']
    congr 1
    funext k
    refine ((hent' k).2 _ ?_).symm
    rw [noiseCov_zero]
    exact hd k
  obtain ⟨m', s', h1, h2, h3, h4, h5, h6⟩ := C103_recovers it svd num hs cfg hcvx hthr hpsi hit hfl hdist hp0 he d.nObs hn (u 0 n) (v 0 n)
    I A hA B w _ hmk hw (fun i hi k k' => by
      by_contra hc
      exact hi (hI (by simp only [changing, Finset.mem_filter, Finset.mem_univ, true_and]; exact ⟨k, k', hc⟩))) d.covs hcov A hA hac
    (fun _ _ h => h) (hopt _ _)
  rw [hmk] at h6
  cases h6
  refine ⟨some s', ?_, ?_⟩
  · unfold codeFit
    rw [show fitDag it svd (fun I => codeSolvers it num cfg d (u 0 n) (v 0 n) I) cfg.stop d A I none = .ok (_, some s') from h1]
    rfl
  · unfold AnyModel.copy truthOver
    simp only
    rw [proper_copy ⟨A, B, 0, w, 0, hA, hmk, hw, fun _ i => i.elim0⟩]

theorem scoreObj_truth (hf : FitsTruth it fit B w) {obj : ScoreObj p e} (ho : obj.Ok it fit) {A : Adj p} {I : Finset (Fin p)} (hA : Nonneg A)
    (hac : Acyclic A) (hB : Respects A B) (hI : changing w ⊆ I) :
    ∃ s obj', obj.scoreDag it fit A I = .ok ((truthOver B w A, s), obj') ∧ obj'.Ok it fit := by
  obtain ⟨⟨m, s⟩, obj', h⟩ := scoreObj_returns (A := A) (I := I) ho (fun n => by
    obtain ⟨s, h1, h2⟩ := hf n A I hA hac hB hI
    exact ⟨_, s, _, h1, h2⟩)
  obtain ⟨k1, ⟨n, m0, k2, k3⟩, -⟩ := scoreObj_spec ho h
  obtain ⟨s', h1, h2⟩ := hf n A I hA hac hB hI
  rw [h1] at k2
  cases k2
  have : m = truthOver B w A := by
    rcases k3 with k3 | k3
    · exact k3
    · rw [h2] at k3
      cases k3
      rfl
  subst this
  exact ⟨s, obj', h, k1⟩

theorem weightSupport_nonneg (B : Matrix (Fin p) (Fin p) ℝ) : Nonneg (weightSupport B) := by
  intro i j
  unfold weightSupport
  split_ifs <;> norm_num

theorem weightSupport_respects (B : Matrix (Fin p) (Fin p) ℝ) : Respects (weightSupport B) B := by
  intro i j h
  by_contra hc
  simp [weightSupport, hc] at h

theorem weightSupport_acyclic {G : Adj p} (hac : Acyclic G) (hB : Respects G B) : Acyclic (weightSupport B) := by
  intro i hi
  refine hac i (Relation.TransGen.mono (r := Edge (weightSupport B)) (p := Edge G) (fun a b hab hc => ?_) _ _ hi)
  apply hab
  have hz : G a b = 0 := hc
  simp [weightSupport, hB a b hz]

theorem pruneGraph_truth (hf : FitsTruth it fit B w) (hp : p ≠ 0) {t : ℝ} (ht : 0 ≤ t) (hsmall : ∀ i j, B i j ≠ 0 → maxAbs B * t < |B i j|)
    {obj : ScoreObj p e} (ho : obj.Ok it fit) {G : Adj p} (hG : Nonneg G) (hac : Acyclic G) (hB : Respects G B) :
    ∃ obj', pruneGraph it fit true (some t) obj G = .ok ([truthOver B w (weightSupport B)], obj') ∧ obj'.Ok it fit := by
  obtain ⟨s, obj1, h1, k1⟩ := scoreObj_truth hf ho hG hac hB (Finset.subset_univ _)
  obtain ⟨s', obj2, h2, k2⟩ := scoreObj_truth hf k1 (weightSupport_nonneg B) (weightSupport_acyclic hac hB) (weightSupport_respects B) (Finset.subset_univ _)
  refine ⟨obj2, ?_, k2⟩
  have hmax : 0 ≤ maxAbs B := by
    obtain ⟨⟨a, b, h⟩, -⟩ := maxAbs_greatest hp B
    rw [h]
    exact abs_nonneg _
  have heq : (open Classical in (fun i j => if maxAbs B * t < |B i j| then 1 else 0 : Adj p)) = weightSupport B := by
    funext i j
    unfold weightSupport
    by_cases hb : B i j = 0
    · have h3 : ¬ maxAbs B * t < |B i j| := by rw [hb, abs_zero, not_lt]; exact mul_nonneg hmax ht
      rw [if_neg h3, if_neg (not_not.2 hb)]
    · rw [if_pos hb, if_pos (hsmall i j hb)]
  unfold pruneGraph
  rw [h1]
  have hBe : (truthOver B w G).B = B := rfl
  simp only [Bool.not_true, Bool.false_eq_true, if_false, hp, hBe, heq, h2]

theorem pruneGraphsLoop_truth (hf : FitsTruth it fit B w) (hp : p ≠ 0) {t : ℝ} (ht : 0 ≤ t)
    (hsmall : ∀ i j, B i j ≠ 0 → maxAbs B * t < |B i j|) (graphs : List (Adj p)) :
    ∀ obj : ScoreObj p e, obj.Ok it fit → (∀ G ∈ graphs, Nonneg G ∧ Acyclic G ∧ Respects G B) →
      ∃ obj', pruneGraphsLoop it fit true (some t) graphs obj = .ok (List.replicate graphs.length (truthOver B w (weightSupport B)), obj') ∧
        obj'.Ok it fit := by
  induction graphs with
  | nil => intro obj ho _; exact ⟨obj, rfl, ho⟩
  | cons G graphs ih =>
    intro obj ho hG
    obtain ⟨g1, g2, g3⟩ := hG G (by simp)
    obtain ⟨obj1, h1, k1⟩ := pruneGraph_truth hf hp ht hsmall ho g1 g2 g3
    obtain ⟨obj2, h2, k2⟩ := ih obj1 k1 (fun H hH => hG H (by simp [hH]))
    refine ⟨obj2, ?_, k2⟩
    rw [pruneGraphsLoop, h1]
    simp only [h2, List.length_cons, List.replicate_succ, List.singleton_append]

theorem varEnv_pos_iff (w : Matrix (Fin e) (Fin p) ℝ) (j : Fin p) : (0 < varEnv w j ↔ j ∈ changing w) ∧ 0 ≤ varEnv w j := by
  have h0 : 0 ≤ varEnv w j := div_nonneg (Finset.sum_nonneg fun k _ => sq_nonneg _) (by positivity)
  refine ⟨⟨fun h => ?_, fun h => lt_of_le_of_ne h0 (fun hz => ?_)⟩, h0⟩
  · by_contra hc
    simp only [changing, Finset.mem_filter, Finset.mem_univ, true_and, not_exists, ne_eq, not_not] at hc
    have he : (e : ℝ) ≠ 0 := by
      intro he
      rw [varEnv, he, div_zero] at h
      exact lt_irrefl _ h
    have : varEnv w j = 0 := by
      unfold varEnv
      rw [Finset.sum_eq_zero, zero_div]
      intro k _
      have : ∑ k', w k' j = e * w k j := by
        rw [Finset.sum_congr rfl (fun k' _ => hc k' k)]
        simp
      rw [this, mul_div_assoc, mul_div_cancel₀ _ he]
      ring
    linarith
  · simp only [changing, Finset.mem_filter, Finset.mem_univ, true_and] at h
    obtain ⟨k, k', hk⟩ := h
    have he : (e : ℝ) ≠ 0 := by
      have := k.2
      exact_mod_cast (by omega : e ≠ 0)
    unfold varEnv at hz
    have h1 := (div_eq_zero_iff.1 hz.symm).resolve_right he
    rw [Finset.sum_eq_zero_iff_of_nonneg (fun _ _ => sq_nonneg _)] at h1
    have h2 := pow_eq_zero_iff (two_ne_zero) |>.1 (h1 k (Finset.mem_univ _))
    have h3 := pow_eq_zero_iff (two_ne_zero) |>.1 (h1 k' (Finset.mem_univ _))
    exact hk (by linarith)

theorem pruneI_truth (hf : FitsTruth it fit B w) (hp : p ≠ 0) (argsort : (Fin p → ℝ) → List (Fin p)) {t : ℝ} (ht : 0 ≤ t)
    (hsmall : ∀ j ∈ changing w, ∀ i, varEnv w i * t < varEnv w j)
    {obj : ScoreObj p e} (ho : obj.Ok it fit) {G : Adj p} (hG : Nonneg G) (hac : Acyclic G) (hB : Respects G B) :
    ∃ obj', pruneI it argsort fit (some t) G obj = .ok ([(truthOver B w G, changing w)], obj') := by
  obtain ⟨s, obj1, h1, k1⟩ := scoreObj_truth hf ho hG hac hB (Finset.subset_univ _)
  obtain ⟨s', obj2, h2, k2⟩ := scoreObj_truth hf k1 hG hac hB (Finset.Subset.refl _)
  refine ⟨obj2, ?_⟩
  have : Nonempty (Fin p) := ⟨⟨0, Nat.pos_of_ne_zero hp⟩⟩
  obtain ⟨i0, hi0⟩ := exists_eq_ciSup_of_finite (f := varEnv w)
  have heq : (open Classical in Finset.univ.filter (fun j => (⨆ i, varEnv w i) * t < varEnv w j)) = changing w := by
    ext j
    rw [Finset.mem_filter, ← hi0, ← (varEnv_pos_iff w j).1]
    constructor
    · rintro ⟨-, h⟩
      exact lt_of_le_of_lt (mul_nonneg (varEnv_pos_iff w i0).2 ht) h
    · intro h
      exact ⟨Finset.mem_univ _, hsmall j ((varEnv_pos_iff w j).1.1 h) i0⟩
  unfold pruneI
  rw [h1]
  have hwe : (truthOver B w G).omegas = w := rfl
  simp only [hp, if_false, hwe, heq, h2]

/-- C107, exact covariances without latents: if every candidate has all edges of the true graph and the thresholds lie below the ratios of the
smallest to the largest weight and variation (zero always does), `_fit` with thresholds returns the true graph, the true targets and the true
parameters.  Without thresholds it returns all variables as targets (C104). -/
theorem C107_population (E : FitEnv p e) (svd : Matrix (Fin p) (Fin p) ℝ → Matrix (Fin p) (Fin p) ℝ × (Fin p → ℝ)) (num : NumLib p e)
    (hs : GoodSqrt num.sqrtm) (cfg : ScoreCfg) (u v : Nat → Nat → Nat → Fin (p * p) → ℝ) (hE : E.fit = codeFit E.it svd num cfg u v)
    (hp0 : p ≠ 0) (he : 0 < e) (hcvx : cfg.solver = .cvx) (hthr : 0 < cfg.thresholdScore) (hpsi : ∀ x, cfg.psiMax = some x → 0 ≤ x)
    (hit : 0 < cfg.stop.maxIter) (hfl : 0 < cfg.stop.maxFluctuations) (hdist : 0 ≤ cfg.stop.thresholdDistB)
    (B : Matrix (Fin p) (Fin p) ℝ) (w : Matrix (Fin e) (Fin p) ℝ) (hw : ∀ k i, 0 < w k i)
    (candidates : List (Adj p)) (hne : candidates ≠ []) (hG : ∀ G ∈ candidates, Nonneg G ∧ Acyclic G ∧ ∀ i j, B i j ≠ 0 → Edge G i j)
    (tG tI : ℝ) (htG : 0 ≤ tG) (htI : 0 ≤ tI) (hsG : ∀ i j a b, B i j ≠ 0 → |B a b| * tG < |B i j|)
    (hsI : ∀ j, (∃ k k', w k j ≠ w k' j) → ∀ i, popVar (fun k => w k i) * tI < popVar (fun k => w k j))
    (data : Fin e → Sample p) (folds : List Rat) (rs : Int)
    (training testG testI : List (Sample p)) (hsplit : splitData (E.rng rs) (List.ofFn data) folds = .ok [training, testG, testI])
    (hsize : ∀ s ∈ training, s.length ≠ 1)
    (hpop : ∀ f ∈ [training, testG, testI], ∀ k : Fin e, Entails B (Matrix.diagonal (w k)) (E.cov (f.getD k [])) ∧ f.getD k [] ≠ [])
    (hopt : ∀ A Ms, CvxOptimal num A Ms (foldData E.cov training e) 0) :
    ∃ (m : LModel p 0 e) (I : Finset (Fin p)) (s : Flt),
      fitMain E data true (some [0]) true folds (some tG) (some tI) (some candidates) rs = .ok (⟨0, m⟩, I, s) ∧
      (∀ i j, m.A i j = if B i j = 0 then 0 else 1) ∧ (∀ i, i ∈ I ↔ ∃ k k', w k i ≠ w k' i) ∧ m.B = B ∧ m.omegas = w := by
  have hf : FitsTruth E.it (E.fit (foldData E.cov training e) 0) B w := by
    rw [hE]
    exact codeFit_fitsTruth E.it svd num hs cfg hcvx hthr hpsi hit hfl hdist hp0 _ he
      (fun k => List.length_pos_of_ne_nil (hpop training (by simp) k).2) u v hopt hw (fun k => (hpop training (by simp) k).1)
  have hG' : ∀ G ∈ candidates, Nonneg G ∧ Acyclic G ∧ Respects G B := fun G hGm =>
    ⟨(hG G hGm).1, (hG G hGm).2.1, fun i j hij => by
      by_contra hc
      exact (hG G hGm).2.2 i j hc hij⟩
  obtain ⟨G0, hG0⟩ := List.exists_mem_of_ne_nil _ hne
  have hacS : Acyclic (weightSupport B) := weightSupport_acyclic (hG' G0 hG0).2.1 (hG' G0 hG0).2.2
  obtain ⟨obj, h1, ho⟩ := pruneGraphsLoop_truth hf hp0 htG (fun i j hb => by
    obtain ⟨⟨a, b, hab⟩, -⟩ := maxAbs_greatest hp0 B
    rw [hab]
    exact hsG i j a b hb) candidates ⟨0, []⟩ (ScoreObj.ok_new _ _ _) hG'
  have hlen : candidates.length ≠ 0 := by simpa using hne
  have hscore : ∀ f ∈ [training, testG, testI], ∃ s, (truthOver B w (weightSupport B)).scoreOn (foldData E.cov f e) = .ok s := by
    intro f hfm
    have hpd : ∀ k, ((foldData E.cov f e).covs k).PosDef := by
      have hmk := mkModel_eq_ok (it := E.it) (l := 0) (weightSupport_nonneg B) (0 : Matrix (Fin 0) (Fin p) ℝ) w (0 : Matrix (Fin e) (Fin 0) ℝ)
        hacS (weightSupport_respects B)
      obtain ⟨-, ⟨C', hC', hpd⟩, -⟩ := C36_posDef E.it _ (weightSupport_nonneg B) B _ w _ _ hmk hw (fun _ i => i.elim0)
      obtain ⟨-, C'', hC'', hent'⟩ := C35_covariances E.it _ (weightSupport_nonneg B) B _ w _ _ hmk
      rw [hC'] at hC''
      cases hC''
      intro k
      have : (foldData E.cov f e).covs k = C' k := by
        refine (hent' k).2 _ ?_
        rw [noiseCov_zero]
        exact (hpop f hfm k).1
      rw [this]
      exact (hpd k).1
    exact ⟨_, scoreOn_ok (foldData E.cov f e) ⟨hpd, fun k => List.length_pos_of_ne_nil (hpop f hfm k).2, he⟩
      (truthOver B w (weightSupport B)).2 hw (fun _ i => i.elim0)⟩
  obtain ⟨sG, hsG'⟩ := hscore testG (by simp)
  obtain ⟨sI, hsI'⟩ := hscore testI (by simp)
  have h2 : ∀ n, testScores (foldData E.cov testG e) id (List.replicate n (truthOver B w (weightSupport B))) =
      .ok (List.replicate n (sG, truthOver B w (weightSupport B))) := by
    intro n
    induction n with
    | zero => rfl
    | succ n ih => simp only [List.replicate_succ, testScores, id, hsG', ih]
  obtain ⟨t, h3⟩ : ∃ t, bestScoring ((List.replicate candidates.length (sG, truthOver B w (weightSupport B))).map (fun x => (x.1, x.2.A))) = .ok t := by
    obtain ⟨i, t, h3, -⟩ := bestScoring_spec
      (tuples := (List.replicate candidates.length (sG, truthOver B w (weightSupport B))).map (fun x => (x.1, x.2.A))) (by simpa using hne)
    exact ⟨t, h3⟩
  have ht : t = (sG, weightSupport B) := by
    have := bestScoring_mem h3
    rw [List.map_replicate] at this
    exact (List.mem_replicate.1 this).2
  subst ht
  obtain ⟨obj', h4⟩ := pruneI_truth hf hp0 E.argsort htI (fun j hj i => by
    simp only [changing, Finset.mem_filter, Finset.mem_univ, true_and] at hj
    rw [varEnv_eq, varEnv_eq]
    exact hsI j hj i) ho (weightSupport_nonneg B) hacS (weightSupport_respects B)
  refine ⟨(truthOver B w (weightSupport B)).2, changing w, sI, ?_, ?_, ?_, rfl, rfl⟩
  · unfold fitMain
    simp only [hsplit, initialGraphs, latentNumbers, latentLoop, scoreCtor_ok hsize, pruneGraphs, hlen, if_false, h1, h2, h3, dictSet,
      List.any_nil, Bool.false_eq_true, List.nil_append, List.map_cons, List.map_nil, sortedM, countRun, insertAll, targetPhase, h4, testScores]
    simp only [hsI', bestScoring, npArgmin, argminLoop, List.map_cons, List.map_nil, List.getElem?_cons_zero]
    rfl
  · intro i j
    change weightSupport B i j = _
    unfold weightSupport
    by_cases h : B i j = 0 <;> simp [h]
  · intro i
    simp [changing]

/-- C107, exact covariances without latents, any threshold that is not negative: pruning a DAG that has all edges of the true graph keeps
exactly the edges whose absolute true weight exceeds the given fraction of the largest one. -/
theorem C107_exact (it : SetIter p) (svd : Matrix (Fin p) (Fin p) ℝ → Matrix (Fin p) (Fin p) ℝ × (Fin p → ℝ)) (num : NumLib p e)
    (hs : GoodSqrt num.sqrtm) (cfg : ScoreCfg) (hcvx : cfg.solver = .cvx)
    (hthr : 0 < cfg.thresholdScore) (hpsi : ∀ x, cfg.psiMax = some x → 1 < x) (hit : 0 < cfg.stop.maxIter)
    (hfl : 0 < cfg.stop.maxFluctuations) (hdist : 0 ≤ cfg.stop.thresholdDistB) (hp0 : p ≠ 0) (d : Data p e) (he : 0 < e)
    (hn : ∀ k, 0 < d.nObs k) (u v : Nat → Nat → Nat → Fin (p * p) → ℝ) (hopt : ∀ A Ms, CvxOptimal num A Ms d 0)
    (B : Matrix (Fin p) (Fin p) ℝ) (w : Matrix (Fin e) (Fin p) ℝ) (hw : ∀ k i, 0 < w k i)
    (hd : ∀ k, Entails B (Matrix.diagonal (w k)) (d.covs k)) (G : Adj p) (hG : Nonneg G) (hac : Acyclic G)
    (hGB : ∀ i j, B i j ≠ 0 → Edge G i j) (t : ℝ) (ht : 0 ≤ t) (n : Nat) :
    ∃ m obj', pruneGraph it (codeFit it svd num cfg u v d 0) true (some t) ⟨n, []⟩ G = .ok ([m], obj') ∧ Thresholded B t m.A := by
  have hf : FitsTruth it (codeFit it svd num cfg u v d 0) B w :=
    codeFit_fitsTruth it svd num hs cfg hcvx hthr (fun x hx => (zero_lt_one.trans (hpsi x hx)).le) hit hfl hdist hp0 d he hn u v hopt hw hd
  have hB : Respects G B := fun i j hij => by
    by_contra hc
    exact hGB i j hc hij
  have hgood : GoodData d := by
    have hmk := mkModel_eq_ok (it := it) (l := 0) hG (0 : Matrix (Fin 0) (Fin p) ℝ) w (0 : Matrix (Fin e) (Fin 0) ℝ) hac hB
    obtain ⟨-, ⟨C', hC', hpd⟩, -⟩ := C36_posDef it _ hG B _ w _ _ hmk hw (fun _ i => i.elim0)
    obtain ⟨-, C'', hC'', hent'⟩ := C35_covariances it _ hG B _ w _ _ hmk
    rw [hC'] at hC''
    cases hC''
    refine ⟨fun k => ?_, hn, he⟩
    have : d.covs k = C' k := by
      refine (hent' k).2 _ ?_
      rw [noiseCov_zero]
      exact hd k
    rw [this]
    exact (hpd k).1
  obtain ⟨s, obj1, h1, k1⟩ := scoreObj_truth hf (ScoreObj.ok_new it _ n) hG hac hB (Finset.subset_univ _)
  obtain ⟨T, hT⟩ : ∃ T : Adj p, (open Classical in (fun i j => if maxAbs B * t < |B i j| then 1 else 0 : Adj p)) = T := ⟨_, rfl⟩
  have hTv : ∀ i j, (T i j = 0 ∨ T i j = 1) ∧ (Edge T i j ↔ maxAbs B * t < |B i j|) := by
    intro i j
    rw [← hT]
    unfold Edge
    by_cases hc : maxAbs B * t < |B i j| <;> simp [hc]
  have hmax : 0 ≤ maxAbs B := by
    obtain ⟨⟨a, b, h⟩, -⟩ := maxAbs_greatest hp0 B
    rw [h]
    exact abs_nonneg _
  have hTn : Nonneg T := fun i j => by rcases (hTv i j).1 with h | h <;> simp [h]
  have hTac : Acyclic T := by
    intro i hi
    refine hac i (Relation.TransGen.mono (r := Edge T) (p := Edge G) (fun a b hab => ?_) _ _ hi)
    refine hGB a b (fun hc => ?_)
    have := (hTv a b).2.1 hab
    rw [hc, abs_zero] at this
    exact absurd (mul_nonneg hmax ht) (not_le.2 this)
  have hfs := codeFit_fits it svd num cfg u v d hgood 0 (Nat.zero_le _) hp0 hcvx (fun A => cvxFeasible_of_optimal (hopt A)) hthr hpsi hit hfl
    [] (by simp) T hTac
  obtain ⟨⟨m, s'⟩, obj2, h2⟩ := scoreObj_returns (A := T) (I := Finset.univ) k1 (fun n => by
    obtain ⟨m, s, m', q1, q2, -⟩ := hfs n T Finset.univ hTn (fun a b => Or.inl rfl)
    exact ⟨m, s, m', q1, q2⟩)
  have hmA : m.A = T := ((scoreObj_spec k1 h2).2.1.good (codeFit_good it svd num cfg u v d 0 (fun hc => by rw [hcvx] at hc; simp at hc))).1
  refine ⟨m, obj2, ?_, fun i j => ?_, maxAbs B, maxAbs_greatest hp0 B, fun i j => ?_⟩
  · unfold pruneGraph
    rw [h1]
    have hBe : (truthOver B w G).B = B := rfl
    simp only [Bool.not_true, Bool.false_eq_true, if_false, hp0, hBe, hT, h2]
  · rw [hmA]
    exact (hTv i j).1
  · rw [hmA]
    exact (hTv i j).2

/-- C107, the documented meaning of `threshold_graph` (edges with absolute weight below the threshold are removed) is violated in both
directions, for every threshold between zero and one: with exact covariances of three variables the edges of weight `t / 2` are kept if they
are the strongest ones, and an edge of weight `2 * t` is removed beside one of weight `3`. -/
theorem C107_documented_violated (it : SetIter 3) (svd : Matrix (Fin 3) (Fin 3) ℝ → Matrix (Fin 3) (Fin 3) ℝ × (Fin 3 → ℝ)) (num : NumLib 3 1)
    (hs : GoodSqrt num.sqrtm) (cfg : ScoreCfg) (hcvx : cfg.solver = .cvx)
    (hthr : 0 < cfg.thresholdScore) (hpsi : ∀ x, cfg.psiMax = some x → 1 < x) (hit : 0 < cfg.stop.maxIter)
    (hfl : 0 < cfg.stop.maxFluctuations) (hdist : 0 ≤ cfg.stop.thresholdDistB) (u v : Nat → Nat → Nat → Fin (3 * 3) → ℝ)
    (hopt : ∀ A Ms d, CvxOptimal num A Ms d 0) (nObs : Fin 1 → Nat) (hn : ∀ k, 0 < nObs k) (n : Nat) (t : ℝ) (h0 : 0 < t) (h1 : t < 1) :
    (∃ C : Matrix (Fin 3) (Fin 3) ℝ, Entails !![0, t / 2, t / 2; 0, 0, 0; 0, 0, 0] 1 C ∧
      ∃ m obj', pruneGraph it (codeFit it svd num cfg u v ⟨fun _ => C, nObs⟩ 0) true (some t) ⟨n, []⟩ ![![0, 1, 1], ![0, 0, 0], ![0, 0, 0]] =
        .ok ([m], obj') ∧ Edge m.A 0 1 ∧ Edge m.A 0 2) ∧
    (∃ C : Matrix (Fin 3) (Fin 3) ℝ, Entails !![0, 3, 2 * t; 0, 0, 0; 0, 0, 0] 1 C ∧
      ∃ m obj', pruneGraph it (codeFit it svd num cfg u v ⟨fun _ => C, nObs⟩ 0) true (some t) ⟨n, []⟩ ![![0, 1, 1], ![0, 0, 0], ![0, 0, 0]] =
        .ok ([m], obj') ∧ Edge m.A 0 1 ∧ ¬ Edge m.A 0 2) := by
  have hG : Nonneg (![![0, 1, 1], ![0, 0, 0], ![0, 0, 0]] : Adj 3) := by unfold Nonneg; decide
  have hac : Acyclic (![![0, 1, 1], ![0, 0, 0], ![0, 0, 0]] : Adj 3) := (isDag_iff (SetIter.incr 3) hG).1 (by decide +kernel)
  have key : ∀ x y : ℝ, ∃ C : Matrix (Fin 3) (Fin 3) ℝ, Entails !![0, x, y; 0, 0, 0; 0, 0, 0] 1 C ∧
      ∃ m obj', pruneGraph it (codeFit it svd num cfg u v ⟨fun _ => C, nObs⟩ 0) true (some t) ⟨n, []⟩ ![![0, 1, 1], ![0, 0, 0], ![0, 0, 0]] =
        .ok ([m], obj') ∧ Thresholded !![0, x, y; 0, 0, 0; 0, 0, 0] t m.A := by
    intro x y
    have hB : Respects (![![0, 1, 1], ![0, 0, 0], ![0, 0, 0]] : Adj 3) !![0, x, y; 0, 0, 0; 0, 0, 0] := by
      intro i j h
      fin_cases i <;> fin_cases j <;> simp at h ⊢
    obtain ⟨C, hC⟩ := entails_exists (det_one_sub_transpose hac hB) (1 : Matrix (Fin 3) (Fin 3) ℝ)
    refine ⟨C, hC, ?_⟩
    exact C107_exact it svd num hs cfg hcvx hthr hpsi hit hfl hdist (by norm_num) ⟨fun _ => C, nObs⟩ (by norm_num) hn u v (fun A Ms => hopt A Ms _)
      _ (fun _ _ => 1) (fun _ _ => one_pos) (fun k => by
        have : Matrix.diagonal (fun _ : Fin 3 => (1 : ℝ)) = 1 := Matrix.diagonal_one
        rw [this]
        exact hC) _ hG hac (fun i j hb hc => hb (hB i j hc)) t h0.le n
  constructor
  · obtain ⟨C, hC, m, obj', h2, h3⟩ := key (t / 2) (t / 2)
    have hb : ∀ a b : Fin 3, |(!![0, t / 2, t / 2; 0, 0, 0; 0, 0, 0] : Matrix (Fin 3) (Fin 3) ℝ) a b| ≤ t / 2 := by
      intro a b
      fin_cases a <;> fin_cases b <;> simp [abs_of_pos (half_pos h0)] <;> linarith
    refine ⟨C, hC, m, obj', h2, (C107_extremes h3).2 h1 0 1 ?_ ?_, (C107_extremes h3).2 h1 0 2 ?_ ?_⟩
    · simp [h0.ne']
    · intro a b
      refine (hb a b).trans ?_
      simp [abs_of_pos (half_pos h0)]
    · simp [h0.ne']
    · intro a b
      refine (hb a b).trans ?_
      simp [abs_of_pos (half_pos h0)]
  · obtain ⟨C, hC, m, obj', h2, h3⟩ := key 3 (2 * t)
    refine ⟨C, hC, m, obj', h2, (C107_extremes h3).2 h1 0 1 (by simp) ?_, ?_⟩
    · intro a b
      have h4 : |2 * t| ≤ 3 := by rw [abs_of_pos (by linarith)]; linarith
      fin_cases a <;> fin_cases b <;> simp <;> simpa using h4
    · intro hc
      obtain ⟨M, ⟨-, hub⟩, hk⟩ := h3.kept
      have h5 : (3 : ℝ) ≤ M := hub ⟨0, 1, by simp⟩
      have h6 := (hk 0 2).1 hc
      have h7 : |(!![0, 3, 2 * t; 0, 0, 0; 0, 0, 0] : Matrix (Fin 3) (Fin 3) ℝ) 0 2| = 2 * t := by simp [abs_of_pos h0]
      rw [h7] at h6
      nlinarith

/-- The hypotheses about the libraries can be met. -/
example : ∃ num : NumLib 3 1, GoodSqrt num.sqrtm ∧ ∀ A Ms d, CvxOptimal num A Ms d 0 := cvxOptimal_zero_exists

end Exact

/-- The hypotheses of C107_population can be met: in the example of C104 the only target is variable 0, and `_fit` finds it with thresholds
zero (without them it returns both variables). -/
example (svd : Matrix (Fin 2) (Fin 2) ℝ → Matrix (Fin 2) (Fin 2) ℝ × (Fin 2 → ℝ)) (u v : Nat → Nat → Nat → Fin (2 * 2) → ℝ) :
    ∃ (num : NumLib 2 2) (m : LModel 2 0 2) (I : Finset (Fin 2)) (s : Flt),
      fitMain ⟨SetIter.incr 2, fun _ _ => Rng.front, npCov, insArgsort, fun _ => [], fun _ => fun i j => if i = j then 0 else 1,
        codeFit (SetIter.incr 2) svd num ⟨.cvx, none, false, ⟨1000, 1 / 1000, 1 / 100000, 5⟩, 1 / 100000, 1⟩ u v⟩
        ![exBlock 1 ++ exBlock 1 ++ exBlock 1, exBlock 2 ++ exBlock 2 ++ exBlock 2] true (some [0]) true [1 / 3, 1 / 3, 1 / 3] (some 0) (some 0)
        (some [![![0, 1], ![0, 0]]]) 42 = .ok (⟨0, m⟩, I, s) ∧ 0 ∈ I ∧ 1 ∉ I := by
  obtain ⟨num, hs, hopt⟩ := cvxOptimal_zero_exists (p := 2) (e := 2)
  have hn2 : Nonneg (![![0, 1], ![0, 0]] : Adj 2) := by unfold Nonneg; decide
  have ha2 : Acyclic (![![0, 1], ![0, 0]] : Adj 2) := (isDag_iff (SetIter.incr 2) hn2).1 (by decide)
  obtain ⟨m, I, s, h1, -, h3, -⟩ := C107_population
    ⟨SetIter.incr 2, fun _ _ => Rng.front, npCov, insArgsort, fun _ => [], fun _ => fun i j => if i = j then 0 else 1,
      codeFit (SetIter.incr 2) svd num ⟨.cvx, none, false, ⟨1000, 1 / 1000, 1 / 100000, 5⟩, 1 / 100000, 1⟩ u v⟩
    svd num hs ⟨.cvx, none, false, ⟨1000, 1 / 1000, 1 / 100000, 5⟩, 1 / 100000, 1⟩ u v rfl (by norm_num) (by norm_num) rfl (by norm_num) (by simp)
    (by norm_num) (by norm_num) (by norm_num) !![0, 1; 0, 0] ![![2 / 3, 2 / 3], ![8 / 3, 2 / 3]]
    (by
      intro k i
      fin_cases k <;> fin_cases i <;> norm_num)
    [![![0, 1], ![0, 0]]] (by simp)
    (by
      intro G hG
      obtain rfl : G = ![![0, 1], ![0, 0]] := by simpa using hG
      refine ⟨hn2, ha2, fun i j hb => ?_⟩
      fin_cases i <;> fin_cases j <;> simp [Edge] at hb ⊢)
    0 0 le_rfl le_rfl (by intro i j a b hb; simpa using hb)
    (by
      intro j hj i
      rw [mul_zero]
      fin_cases j
      · simp [popVar, Fin.sum_univ_two]
        norm_num
      · obtain ⟨k, k', hk⟩ := hj
        exfalso
        apply hk
        fin_cases k <;> fin_cases k' <;> simp)
    ![exBlock 1 ++ exBlock 1 ++ exBlock 1, exBlock 2 ++ exBlock 2 ++ exBlock 2] [1 / 3, 1 / 3, 1 / 3] 42 _ _ _ exBlock_split (by simp [exBlock])
    (by
      intro f hf k
      have : f = [exBlock 1, exBlock 2] := by simpa using hf
      subst this
      refine ⟨?_, by fin_cases k <;> simp [exBlock]⟩
      unfold Entails
      fin_cases k <;> simp only [exBlock_cov] <;> ext i j <;> fin_cases i <;> fin_cases j <;>
        simp [Matrix.mul_apply, Fin.sum_univ_two, exBlock_cov] <;> norm_num)
    (fun A Ms => hopt A Ms _)
  refine ⟨num, m, I, s, h1, (h3 0).2 ⟨0, 1, by norm_num⟩, fun hc => ?_⟩
  obtain ⟨k, k', hk⟩ := (h3 1).1 hc
  apply hk
  fin_cases k <;> fin_cases k' <;> simp

end Verif
