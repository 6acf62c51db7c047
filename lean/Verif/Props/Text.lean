import Verif.Model.Text
import Verif.Props.Metrics
import Verif.Props.MainFit
import Verif.Props.MainPrune
import Verif.Props.ScoreTotal
import Verif.Props.MainTotal

/-!
# C130: printing a model
-/

namespace Verif

open Spec Matrix

variable {p l e : Nat}

/-- A line of 70 hyphens. -/
def Spec.hyphens : String := "----------------------------------------------------------------------"

/-- The text of a model, line by line. -/
def Spec.modelLines (T : Texts) (m : LModel p l e) (x : ℝ) (s : Fin p → ℝ) : List String :=
  [hyphens, "Model - p:" ++ toString p ++ " - l:" ++ toString l ++ " - e:" ++ toString e, "",
    "A:", T.ints m.A, "", "B:", T.floats m.B, "", "gamma:", T.floats m.gamma, "", "omegas:", T.floats m.omegas, "", "psis:", T.floats m.psis, "",
    "Assumption deviation metrics", "  latent incoherence x max. degree of moral graph: " ++ T.float x, "  strength of interventions:"] ++
  List.ofFn (fun i : Fin p => "    X_" ++ toString i.val ++ ": " ++ T.float (s i)) ++ ["", hyphens]

/-- A text of lines, each ended by a line break. -/
def Spec.unlines : List String → String
  | [] => ""
  | x :: xs => x ++ "\n" ++ unlines xs

theorem rule70_eq : rule70 = hyphens := by decide

theorem unlines_append (a b : List String) : unlines (a ++ b) = unlines a ++ unlines b := by
  induction a with
  | nil => simp [unlines]
  | cons x xs ih => simp [unlines, ih, String.append_assoc]

theorem strengthLines_eq (T : Texts) (L : List (Nat × ℝ)) (string : String) :
    strengthLines T string L = string ++ unlines (L.map fun x => "    X_" ++ toString x.1 ++ ": " ++ T.float x.2) := by
  induction L generalizing string with
  | nil => simp [strengthLines, unlines]
  | cons x xs ih =>
    obtain ⟨i, s⟩ := x
    rw [strengthLines, ih]
    simp [unlines, String.append_assoc]

/-- C130: the text of a model with variables and environments: the sizes, the parameters, the scaled latent incoherence (the largest degree `d` of the
moral graph times the largest leverage `c`), and one line for each variable, in order, with the strength of the interventions on it. -/
theorem C130_text (it : SetIter p) (svdU : Matrix (Fin p) (Fin l) ℝ → Matrix (Fin p) (Fin (min p l)) ℝ) (T : Texts) (m : LModel p l e)
    (ho : ∀ k j, m.omegas k j ≠ 0) (hA : Nonneg m.A) (hac : Acyclic m.A) (hp : p ≠ 0) (he : e ≠ 0) : ∃ (c : ℝ) (d : Nat) (s : Fin p → ℝ),
    m.str it svdU T = .ok (unlines (modelLines T m (c * d) s)) ∧ IsGreatest (Set.range (moralDegree m.A)) d ∧
    IsGreatest (Set.range (fun r : Fin e × Fin p => (svdU (m.latentEffects r.1) * (svdU (m.latentEffects r.1))ᵀ) r.2 r.2)) c ∧
    ∀ j, ∃ M, IsGreatest (Set.range (fun k => m.omegas k j)) M ∧
      s j = (meanOf (fun k => m.omegas k j ^ 2) - meanOf (fun k => m.omegas k j) ^ 2) / M := by
  obtain ⟨c, d, h1, h2, h3⟩ := C75_value it svdU m ho hA hac hp he
  obtain ⟨s, h4, h5⟩ := C74_value m he
  refine ⟨c, d, s, ?_, h2, h3, h5⟩
  unfold LModel.str
  simp only [h1, h4, strengthLines_eq, modelLines, unlines_append, rule70_eq]
  rw [List.map_ofFn]
  simp only [unlines, Function.comp_def]
  refine congrArg Except.ok (String.toList_injective ?_)
  simp only [String.toList_append, List.append_assoc]
  simp

/-- C130: `str(model)` raises `ValueError` iff there are no variables or no environments, and nothing else. -/
theorem C130_raises (it : SetIter p) (svdU : Matrix (Fin p) (Fin l) ℝ → Matrix (Fin p) (Fin (min p l)) ℝ) (T : Texts) (m : LModel p l e)
    (ho : ∀ k j, m.omegas k j ≠ 0) (err : Err) : m.str it svdU T = .error err ↔ err = .valueError ∧ (p = 0 ∨ e = 0) := by
  rw [← C75_raises it svdU m ho err]
  unfold LModel.str
  cases h : m.scaledLatentIncoherence it svdU with
  | error err' => simp
  | ok x =>
    cases h' : m.interventionStrength with
    | error err' =>
      have h1 := ((C74_raises m err').1 h').2.1
      rw [(C75_raises it svdU m ho .valueError).2 ⟨rfl, Or.inr h1⟩] at h
      cases h
    | ok s => simp

/-- C130: `print(estimated_model)` returns for every model returned by `equivalence_class`, and the strength it shows for a variable that is not in the
returned set of targets is zero. -/
theorem C130_returned (E : FitEnv p e) (svd : Matrix (Fin p) (Fin p) ℝ → Matrix (Fin p) (Fin p) ℝ × (Fin p → ℝ)) (num : NumLib p e) (cfg : ScoreCfg)
    (u v : Nat → Nat → Nat → Fin (p * p) → ℝ) (hu : cfg.solver = .grad → ∀ h n, GoodDraws p (u h n)) (hE : E.fit = codeFit E.it svd num cfg u v)
    (harg : ∀ f, IsArgsort f (E.argsort f)) (candidates : List (Adj p)) (hG : ∀ G ∈ candidates, Nonneg G) (data : Fin e → Sample p)
    (solverKnown pruneEdges : Bool) (ns : List Nat) (folds : List Rat) (rs : Int) (P : Adj p) (I : Finset (Fin p)) (m : AnyModel p e)
    (h : equivalenceClass E candidates data solverKnown pruneEdges (some ns) folds rs = .ok (P, I, m)) (hp : p ≠ 0) (he : e ≠ 0) (it : SetIter p)
    (svdU : Matrix (Fin p) (Fin m.1) ℝ → Matrix (Fin p) (Fin (min p m.1)) ℝ) (T : Texts) :
    ∃ x s, m.2.str it svdU T = .ok (unlines (modelLines T m.2 x s)) ∧ ∀ j ∉ I, s j = 0 := by
  have hfit : ∀ d h, GoodFit (E.fit d h) := fun d h => by
    rw [hE]
    exact codeFit_good _ _ _ _ _ _ _ _ fun hc => hu hc h
  have hlat : ∀ d h n A I m s, E.fit d h n A I = .ok (m, s) → m.1 = h := fun d h n A I m s hm => by
    rw [hE] at hm
    exact codeFit_latents hm
  obtain ⟨⟨G, c1, c2, -⟩, c3, -, -, -, -, -, -⟩ := C59_coherent E hfit hlat harg candidates hG _ _ _ _ _ _ _ _ _ h
  obtain ⟨training, testG, testI, s, -, m0, s0, order, -, -, -, -, ⟨sf, t1⟩, -⟩ := C59_targets E hfit hlat harg candidates hG _ _ _ _ _ _ _ _ _ h
  obtain ⟨n, m1, f1, f2, f3, f4, f5⟩ := t1.fields
  rw [hE] at f1
  unfold codeFit at f1
  split at f1
  · simp at f1
  rename_i m2 s2 f6
  cases f1
  have hpos : ∀ k j, 0 < m.omegas k j := fun k j => by
    rw [f5]
    exact (C47_within_bounds none _ _ f6).1 k j
  have hnn : Nonneg m.2.A := fun a b => by
    rcases c2 a b with hc | hc
    · exact (hG G c1 a b).trans_eq hc.symm
    · exact hc.ge
  obtain ⟨c, d, s, h1, -, -, h4⟩ := C130_text it svdU T m.2 (fun k j => (hpos k j).ne') hnn c3 hp he
  refine ⟨c * d, s, h1, fun j hj => ?_⟩
  obtain ⟨M, -, hs⟩ := h4 j
  have hc : ∀ k, m.2.omegas k j = m.2.omegas ⟨0, Nat.pos_of_ne_zero he⟩ j := fun k => by
    have := C46_non_targets_constant _ _ f6 j hj k ⟨0, Nat.pos_of_ne_zero he⟩
    rw [show m.2.omegas = m.omegas from rfl, f5]
    exact this
  have he' : (e : ℝ) ≠ 0 := Nat.cast_ne_zero.2 he
  rw [hs]
  simp only [hc, meanOf, Finset.sum_const, Finset.card_univ, Fintype.card_fin, nsmul_eq_mul, mul_div_cancel_left₀ _ he', sub_self, zero_div]

/-- C130: with `verbose` `score_dag` returns or raises what it returns or raises without, if there are variables (for data with positive definite
covariances and an initial model, if one is given, without zero variances). -/
theorem C130_verbose (it : SetIter p) (svd : Matrix (Fin p) (Fin p) ℝ → Matrix (Fin p) (Fin p) ℝ × (Fin p → ℝ))
    (svdU : Matrix (Fin p) (Fin l) ℝ → Matrix (Fin p) (Fin (min p l)) ℝ) (T : Texts) (sv : Finset (Fin p) → Solvers p l e) (cfg : StopCfg) (d : Data p e)
    (hd : GoodData d) (A : Adj p) (hA : Nonneg A) (I : Finset (Fin p)) (init : Option (LModel p l e)) (hp : p ≠ 0)
    (hinit : ∀ m, init = some m → ∀ k j, m.omegas k j ≠ 0) :
    fitDagVerbose it svd svdU T sv cfg d A I init = fitDag it svd sv cfg d A I init := by
  have h : ∀ m : LModel p l e, (∀ k j, m.omegas k j ≠ 0) → ∃ t, m.str it svdU T = .ok t := by
    intro m ho
    cases h : m.str it svdU T with
    | ok t => exact ⟨t, rfl⟩
    | error err => exact absurd ((C130_raises it svdU T m ho err).1 h).2 (by simp [hp, hd.some.ne'])
  unfold fitDagVerbose fitDag
  split_ifs with hdag
  · rfl
  cases init with
  | some m =>
    obtain ⟨t, ht⟩ := h m (hinit m rfl)
    by_cases hA : m.A ≠ A <;> simp [hA, ht]
  | none =>
    have hac : Acyclic A := (isDag_iff it hA).1 (by simpa using hdag)
    cases hm : (initialModel it svd d A I : Except Err (LModel p l e)) with
    | error err => simp
    | ok m =>
      have hl : l ≤ p := by
        unfold initialModel at hm
        split at hm
        · simp at hm
        split at hm
        · simp at hm
        split at hm
        · simp at hm
        split at hm
        · omega
        · simp at hm
      obtain ⟨m', hm', hg⟩ := initialModel_returns (it := it) hA hac svd d hd I hl (psiMax := none) (by simp)
      obtain rfl : m' = m := by rw [hm'] at hm; exact Except.ok.inj hm
      obtain ⟨t, ht⟩ := h m' fun k j => (hg.omegas k j).ne'
      simp [ht]

namespace TextEx

/-- Texts for the examples. -/
def texts : Texts := ⟨fun _ => "[[0]]", fun _ => "[[...]]", fun _ => "0.0"⟩

/-- One variable, no latents, two environments. -/
noncomputable def one : LModel 1 0 2 := ⟨0, 0, 0, !![1; 3], 0, 1⟩

/-- The text of this model. -/
example (it : SetIter 1) (svdU : Matrix (Fin 1) (Fin 0) ℝ → Matrix (Fin 1) (Fin (min 1 0)) ℝ) : one.str it svdU texts = .ok
    (unlines [hyphens, "Model - p:1 - l:0 - e:2", "", "A:", "[[0]]", "", "B:", "[[...]]", "", "gamma:", "[[...]]", "", "omegas:", "[[...]]", "", "psis:", "[[...]]", "",
      "Assumption deviation metrics", "  latent incoherence x max. degree of moral graph: 0.0", "  strength of interventions:", "    X_0: 0.0", "", hyphens]) := by
  have hn : Nonneg one.A := fun _ _ => le_refl _
  obtain ⟨c, d, s, h, -⟩ := C130_text it svdU texts one (fun k j => by fin_cases k <;> fin_cases j <;> simp [one]) hn
    ((isDag_iff (SetIter.incr 1) hn).1 (by decide)) (by norm_num) (by norm_num)
  rw [h]
  refine congrArg (fun L => Except.ok (unlines L)) ?_
  simp [modelLines, texts]
  decide

/-- A model without environments cannot be printed. -/
example (it : SetIter 1) (svdU : Matrix (Fin 1) (Fin 0) ℝ → Matrix (Fin 1) (Fin (min 1 0)) ℝ) :
    (⟨0, 0, 0, 0, 0, 1⟩ : LModel 1 0 0).str it svdU texts = .error .valueError :=
  (C130_raises it svdU texts _ (fun k => k.elim0) _).2 ⟨rfl, Or.inr rfl⟩

/-- A run that returns, and the text of the model. -/
example (svd : Matrix (Fin 2) (Fin 2) ℝ → Matrix (Fin 2) (Fin 2) ℝ × (Fin 2 → ℝ)) (u v : Nat → Nat → Nat → Fin (2 * 2) → ℝ) :
    ∃ (E : FitEnv 2 1) (P : Adj 2) (I : Finset (Fin 2)) (m : AnyModel 2 1),
      equivalenceClass E [![![0, 1], ![0, 0]]] (fun _ => List.replicate 8 0) true false (some [0, 1, 2]) [1 / 2, 1 / 4, 1 / 4] 0 = .ok (P, I, m) ∧
      ∀ it svdU, ∃ x s, m.2.str it svdU texts = .ok (unlines (modelLines texts m.2 x s)) := by
  obtain ⟨num, hnum⟩ : ∃ num : NumLib 2 1, ∀ A Ms d, num.cvx A Ms d = some 0 := ⟨⟨id, fun _ => true, fun x => x / 2, fun _ _ _ => some 0⟩, fun _ _ _ => rfl⟩
  obtain ⟨cfg, hc⟩ : ∃ cfg : ScoreCfg, cfg = ⟨.cvx, none, false, ⟨1000, 1 / 1000, 1 / 100000, 10⟩, 1 / 100000, 10⟩ := ⟨_, rfl⟩
  have hn : Nonneg (![![0, 1], ![0, 0]] : Adj 2) := by unfold Nonneg; decide
  obtain ⟨⟨P, I, m⟩, hr⟩ : ∃ r, equivalenceClass { exEnv 2 with fit := codeFit (exEnv 2).it svd num cfg u v } [![![0, 1], ![0, 0]]]
      (fun _ => List.replicate 8 0) true false (some [0, 1, 2]) [1 / 2, 1 / 4, 1 / 4] 0 = .ok r := by
    refine C72_cvx { exEnv 2 with fit := codeFit (exEnv 2).it svd num cfg u v } svd num cfg u v rfl (by norm_num) _ (by simp) ?_ _ false
      [0, 1, 2] (by simp) (by simp) _ 0 _ _ _ (exSplit _ (List.replicate 8 (0 : Fin 2 → ℝ)) (by simp)) ?_ ?_ insArgsort_spec (by rw [hc]) ?_ (by rw [hc]; norm_num)
      (by rw [hc]; simp) (by rw [hc]; simp) (by rw [hc]; simp) (by simp)
    · intro G hG
      rw [List.mem_singleton] at hG
      subst hG
      exact ⟨hn, (isDag_iff (SetIter.incr 2) hn).1 (by decide)⟩
    · simp [exEnv, Rng.front]
    · intro f hf
      simp only [List.mem_cons, List.not_mem_nil, or_false] at hf
      rcases hf with rfl | rfl | rfl <;> exact exEnv_data _ _ rfl (by simp [exEnv, Rng.front])
    · intro A Ms
      exact ⟨0, hnum _ _ _, by intro i j _; norm_num⟩
  refine ⟨_, P, I, m, hr, fun it svdU => ?_⟩
  obtain ⟨x, s, h, -⟩ := C130_returned _ svd num cfg u v (fun h => by rw [hc] at h; cases h) rfl insArgsort_spec _ (fun G hG => by
    rw [List.mem_singleton] at hG
    exact hG ▸ hn) _ _ _ _ _ _ _ _ _ hr (by norm_num) (by norm_num) it svdU texts
  exact ⟨x, s, h⟩

end TextEx

end Verif
