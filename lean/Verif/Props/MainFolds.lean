import Verif.Props.MainFit
import Verif.Props.Scree
import Verif.Props.MainTotal

/-!
# C81: the default numbers of latents, and which folds matter for what
-/

namespace Verif

open Spec

variable {p e : Nat}

/-- C81: with `nums_latent=None` the candidates are `1, ..., h`, where `h` is the scree cutoff of the singular values of the sample
covariance of the first training sample: the number of latents of the result is one of them, and if no validation score is `nan`, it has the
smallest score of them all, and is the smallest number with this score. -/
theorem C81_default_candidates (E : FitEnv p e) (hsv : ∀ M, (E.svals M).length = p) (hp : 3 ≤ p) (hfit : ∀ d h, GoodFit (E.fit d h))
    (hlat : ∀ d h n A I m s, E.fit d h n A I = .ok (m, s) → m.1 = h) (harg : ∀ f, IsArgsort f (E.argsort f))
    (data : Fin e → Sample p) (solverKnown : Bool) (prune : Bool) (folds : List Rat) (graphs : List (Adj p))
    (hG : ∀ G ∈ graphs, Nonneg G) (rs : Int) (m : AnyModel p e) (I : Finset (Fin p)) (s : Flt)
    (h : fitMain E data solverKnown none prune folds none none (some graphs) rs = .ok (m, I, s)) :
    ∃ first others testG testI k, splitData (E.rng rs) (List.ofFn data) folds = .ok [first :: others, testG, testI] ∧
      1 ≤ k ∧ k ≤ p - 1 ∧ (∀ j, 1 ≤ j → j ≤ p - 1 → within (E.svals (E.cov first)) k ≤ within (E.svals (E.cov first)) j) ∧
      (∀ j, 1 ≤ j → j < k → within (E.svals (E.cov first)) k < within (E.svals (E.cov first)) j) ∧ 1 ≤ m.1 ∧ m.1 ≤ k ∧
      ∃ sc, Validation E.it (E.fit (foldData E.cov (first :: others) e) m.1) prune graphs (foldData E.cov testG e) sc m.A ∧
        ((∀ n, 1 ≤ n → n ≤ k → ∀ sc A,
            Validation E.it (E.fit (foldData E.cov (first :: others) e) n) prune graphs (foldData E.cov testG e) sc A → sc ≠ none) →
          ∀ n, 1 ≤ n → n ≤ k → ∃ (x y : ℝ) (A : Adj p), sc = some x ∧
            Validation E.it (E.fit (foldData E.cov (first :: others) e) n) prune graphs (foldData E.cov testG e) (some y) A ∧
            (x < y ∨ (x = y ∧ m.1 ≤ n))) := by
  obtain ⟨training, testG, testI, graphs', ns, h1, h2, h3, h4⟩ := fitMain_spec hfit hlat harg h
  cases h2
  obtain ⟨k1, -, -, -, ⟨sc, k5, k6⟩, -⟩ := h4 hG
  cases training with
  | nil => simp [latentNumbers] at h3
  | cons first others =>
    obtain ⟨k, s1, s2, s3, s4, s5⟩ := C66_selection (E.svals (E.cov first)) (by rw [hsv]; exact hp)
    rw [hsv] at s3 s4
    simp only [latentNumbers, s1, Except.ok.injEq] at h3
    subst h3
    have hmem : ∀ n, n ∈ List.range' 1 k ↔ 1 ≤ n ∧ n ≤ k := by
      intro n
      rw [List.mem_range'_1]
      omega
    obtain ⟨b1, b2⟩ := (hmem _).1 k1
    exact ⟨first, others, testG, testI, k, h1, s2, s3, s4, s5, b1, b2, sc, k5, fun hn n n1 n2 =>
      k6 (fun n' hn' => hn n' ((hmem _).1 hn').1 ((hmem _).1 hn').2) n ((hmem n).2 ⟨n1, n2⟩)⟩

/-- C81: with two variables and `nums_latent=None` the algorithm never returns: once the data are split and the initial graphs are known,
it raises `ZeroDivisionError`. -/
theorem C81_two_variables (E : FitEnv 2 e) (hsv : ∀ M, (E.svals M).length = 2) (data : Fin e → Sample 2) (solverKnown : Bool) (prune : Bool)
    (folds : List Rat) (tG tI : Option ℝ) (initial : Option (List (Adj 2))) (rs : Int) (first : Sample 2)
    (others testG testI : List (Sample 2)) (graphs : List (Adj 2))
    (h1 : splitData (E.rng rs) (List.ofFn data) folds = .ok [first :: others, testG, testI])
    (h2 : initialGraphs E initial (first :: others) = .ok graphs) :
    fitMain E data solverKnown none prune folds tG tI initial rs = .error .zeroDivisionError := by
  unfold fitMain
  rw [h1]
  simp only [h2, latentNumbers, (C66_raises (E.svals (E.cov first))).1 (hsv _)]

/-- The graph and the number of latents of the result are those at the head of the sorted list. -/
theorem fitMain_head {E : FitEnv p e} (hfit : ∀ d h, GoodFit (E.fit d h))
    (hlat : ∀ d h n A I m s, E.fit d h n A I = .ok (m, s) → m.1 = h) (harg : ∀ f, IsArgsort f (E.argsort f))
    {prune ctor} {training testG : List (Sample p)} {graphs : List (Adj p)} (hG : ∀ G ∈ graphs, Nonneg G) {ns results sc n graph obj rest}
    (h4 : latentLoop E.it (E.fit (foldData E.cov training e)) ctor prune none graphs (foldData E.cov testG e) ns [] = .ok results)
    (h5 : sortedM tupleLt (results.map (fun r => (r.2.1, r.1, r.2.2.1, r.2.2.2))) = .ok ((sc, n, graph, obj) :: rest))
    {testI : Data p e} {m I s} (h6 : targetPhase E (E.fit (foldData E.cov training e) n) none testI graph obj = .ok (m, I, s)) :
    m.1 = n ∧ m.A = graph := by
  obtain ⟨k1, k2, -⟩ := latentLoop_spec ns [] results (by simp) (by simp) h4
  obtain ⟨r, k4, k5, -⟩ := sortedM_ok (results.map (fun r => (r.2.1, r.1, r.2.2.1, r.2.2.2))) (by rw [List.map_map]; exact k1)
  rw [h5] at k4
  cases k4
  have hmem : (n, (sc, graph, obj)) ∈ results := by
    have := k5.mem_iff.1 (List.mem_cons_self (a := (sc, n, graph, obj)) (l := rest))
    obtain ⟨r, hr, hre⟩ := List.mem_map.1 this
    simp only [Prod.mk.injEq] at hre
    obtain ⟨e1, e2, e3, e4⟩ := hre
    rw [← e1, ← e2, ← e3, ← e4]
    exact hr
  obtain ⟨models, scores, g1, -, -⟩ := k2 _ hmem
  simp only at g1
  obtain ⟨o1, -, -, -⟩ := pruneGraphs_spec (hfit _ n) hG (ScoreObj.ok_new E.it _ 0) g1
  obtain ⟨pm, obj', ps, t1, t2, t3⟩ := targetPhase_ok h6
  obtain ⟨m0, s0, order, -, -, -, -, c5, c6⟩ := C57_nested E.it E.argsort harg _ graph obj obj' o1 pm t1
  obtain ⟨q1, -⟩ := testScores_spec pm t2
  have hinpm : (m, I) ∈ pm := by rw [← q1]; exact List.mem_map_of_mem (bestScoring_mem t3)
  obtain ⟨i, hi⟩ := List.getElem?_of_mem hinpm
  have hip : i ≤ p := by
    have := (List.getElem?_eq_some_iff.1 hi).1
    omega
  obtain ⟨mi, sf, c7, c8⟩ := c6 i hip
  rw [hi] at c7
  simp only [Option.some.injEq, Prod.mk.injEq] at c7
  rw [← c7.1] at c8
  refine ⟨?_, (c8.good (hfit _ n)).1⟩
  obtain ⟨j, mm, f1, f2, -⟩ := c8.fields
  rw [f2]
  exact hlat _ _ _ _ _ _ _ f1

/-- C81: no leakage from the third fold.  For data sets that agree on the training fold and on the second fold, the number of latents and the
graph of the results agree, whatever the third folds are. -/
theorem C81_third_fold (E : FitEnv p e) (hfit : ∀ d h, GoodFit (E.fit d h))
    (hlat : ∀ d h n A I m s, E.fit d h n A I = .ok (m, s) → m.1 = h) (harg : ∀ f, IsArgsort f (E.argsort f))
    (data data' : Fin e → Sample p) (solverKnown : Bool) (numsLatent : Option (List Nat)) (prune : Bool) (folds folds' : List Rat)
    (initial : Option (List (Adj p))) (rs rs' : Int) (training testG testI testI' : List (Sample p))
    (hG : ∀ gs, initialGraphs E initial training = .ok gs → ∀ G ∈ gs, Nonneg G)
    (h1 : splitData (E.rng rs) (List.ofFn data) folds = .ok [training, testG, testI])
    (h1' : splitData (E.rng rs') (List.ofFn data') folds' = .ok [training, testG, testI'])
    (m m' : AnyModel p e) (I I' : Finset (Fin p)) (s s' : Flt)
    (h : fitMain E data solverKnown numsLatent prune folds none none initial rs = .ok (m, I, s))
    (h' : fitMain E data' solverKnown numsLatent prune folds' none none initial rs' = .ok (m', I', s')) : m.1 = m'.1 ∧ m.A = m'.A := by
  obtain ⟨_, _, _, graphs, ns, results, sc, n, graph, obj, rest, a1, a2, a3, a4, a5, a6⟩ := fitMain_ok h
  obtain ⟨_, _, _, graphs', ns', results', sc', n', graph', obj', rest', b1, b2, b3, b4, b5, b6⟩ := fitMain_ok h'
  rw [h1] at a1
  rw [h1'] at b1
  cases a1
  cases b1
  rw [a2] at b2
  cases b2
  rw [a3] at b3
  cases b3
  rw [a4] at b4
  cases b4
  rw [a5] at b5
  cases b5
  obtain ⟨c1, c2⟩ := fitMain_head hfit hlat harg (hG _ a2) a4 a5 a6
  obtain ⟨d1, d2⟩ := fitMain_head hfit hlat harg (hG _ a2) a4 a5 b6
  exact ⟨c1.trans d1.symm, c2.trans d2.symm⟩

namespace Example

/-- The hypotheses of `C81_default_candidates` can be met: three variables, the scree cutoff is computed from the singular values `10, 10, 9`. -/
example : ∃ E : FitEnv 3 1, (∀ M, (E.svals M).length = 3) ∧ (∀ d h, GoodFit (E.fit d h)) ∧
    (∀ d h n A I m s, E.fit d h n A I = .ok (m, s) → m.1 = h) ∧ (∀ f, IsArgsort f (E.argsort f)) ∧
    ∃ r, fitMain E (fun _ => List.replicate 8 0) true none true [1 / 2, 1 / 4, 1 / 4] none none
      (some [![![0, 1, 1], ![0, 0, 1], ![0, 0, 0]]]) 42 = .ok r := by
  have hn : Nonneg (![![0, 1, 1], ![0, 0, 1], ![0, 0, 0]] : Adj 3) := by unfold Nonneg; decide
  obtain ⟨k, h1, h2, -⟩ := C66_selection [10, 10, 9] (by simp)
  obtain ⟨r, hr⟩ := exEnv_returns [(![![0, 1, 1], ![0, 0, 1], ![0, 0, 0]] : Adj 3)] (by simp) (by
    intro G hG
    rw [List.mem_singleton] at hG
    subst hG
    exact ⟨hn, (isDag_iff (SetIter.incr 3) hn).1 (by decide +kernel)⟩) (List.replicate 8 0) (by simp) true (List.range' 1 k) (by
      simp only [ne_eq, List.range'_eq_nil_iff]
      omega) 42
  refine ⟨{ exEnv 3 with svals := fun _ => [10, 10, 9] }, fun _ => rfl, fun d h => varFit_good _ d h,
    fun d h n A I m s hm => (varFit_fields (n := n) (I := I) hm).2.1, insArgsort_spec, r, ?_⟩
  rw [← hr]
  have hsp := exSplit ((exEnv 3).rng 42) (List.replicate 8 (0 : Fin 3 → ℝ)) (by simp)
  unfold fitMain
  rw [show splitData (({ exEnv 3 with svals := fun _ => [10, 10, 9] } : FitEnv 3 1).rng 42) (List.ofFn fun _ => List.replicate 8 (0 : Fin 3 → ℝ))
    [1 / 2, 1 / 4, 1 / 4] = _ from hsp]
  simp only [initialGraphs, latentNumbers, h1]
  rfl

/-- The hypotheses of `C81_two_variables` can be met. -/
example : fitMain ({ exEnv 2 with svals := fun _ => [2, 1] } : FitEnv 2 1) (fun _ => List.replicate 8 0) true none true [1 / 2, 1 / 4, 1 / 4]
    none none (some [![![0, 1], ![0, 0]]]) 42 = .error .zeroDivisionError :=
  C81_two_variables _ (fun _ => rfl) _ _ _ _ _ _ _ _ _ _ _ _ _ (exSplit ((exEnv 2).rng 42) (List.replicate 8 (0 : Fin 2 → ℝ)) (by simp)) rfl

/-- The hypotheses of `C81_third_fold` on the folds can be met with different third folds. -/
example : ∃ training testG testI testI', testI ≠ testI' ∧
    splitData ((exEnv 2).rng 42) (List.ofFn fun _ : Fin 1 => List.replicate 8 (0 : Fin 2 → ℝ)) [1 / 2, 1 / 4, 1 / 4] = .ok [training, testG, testI] ∧
    splitData ((exEnv 2).rng 42) (List.ofFn fun _ : Fin 1 => List.replicate 6 (0 : Fin 2 → ℝ) ++ [1, 1]) [1 / 2, 1 / 4, 1 / 4] =
      .ok [training, testG, testI'] := by
  refine ⟨_, _, _, [[1, 1]], ?_, exSplit _ _ (by simp), ?_⟩
  · simp [exEnv, Rng.front]
  · rw [exSplit _ _ (by simp)]
    simp [exEnv, Rng.front]

end Example

end Verif
