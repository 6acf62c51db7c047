import Verif.Model.Ges
import Verif.Props.MainTotal

/-!
# C139: the arguments of `_fit` for GES, and more candidates
-/

namespace Verif

open Spec

variable {p e : Nat}

/-! ## `_fit` with arguments for GES -/

theorem fitMainWith_eq (E : FitEnv p e) (ges : GesFun p) (args : GesArgs) (data : Fin e → Sample p) (solverKnown : Bool)
    (ns : Option (List Nat)) (prune : Bool) (folds : List Rat) (tG tI : Option ℝ) (initial : Option (List (Adj p))) (rs : Int)
    {training testG testI : List (Sample p)} (hs : splitData (E.rng rs) (List.ofFn data) folds = .ok [training, testG, testI])
    {gs : List (Adj p)} (hg : initialGraphsWith E.it ges args initial training = .ok gs) :
    fitMainWith E ges args data solverKnown ns prune folds tG tI initial rs = fitMain E data solverKnown ns prune folds tG tI (some gs) rs := by
  unfold fitMainWith fitMain
  rw [hs]
  simp only [hg, initialGraphs]
  rfl

/-- C139: for given graphs the arguments of GES do not matter. -/
theorem C139_given (E : FitEnv p e) (ges : GesFun p) (args : GesArgs) (data : Fin e → Sample p) (solverKnown : Bool)
    (ns : Option (List Nat)) (prune : Bool) (folds : List Rat) (tG tI : Option ℝ) (gs : List (Adj p)) (rs : Int) :
    fitMainWith E ges args data solverKnown ns prune folds tG tI (some gs) rs = fitMain E data solverKnown ns prune folds tG tI (some gs) rs := by
  unfold fitMainWith fitMain initialGraphsWith initialGraphs
  rfl

/-- C139: without the arguments, `_fit` runs the three phases of GES on the pooled training data with the penalty `log N`. -/
theorem C139_default (E : FitEnv p e) (ges : GesFun p)
    (hges : ∀ s, ges ["forward", "backward", "turning"] (Real.log s.length) s = .ok (E.gesFit s)) (data : Fin e → Sample p) (solverKnown : Bool)
    (ns : Option (List Nat)) (prune : Bool) (folds : List Rat) (tG tI : Option ℝ) (rs : Int) :
    fitMainWith E ges {} data solverKnown ns prune folds tG tI none rs = fitMain E data solverKnown ns prune folds tG tI none rs := by
  have h : ∀ training, initialGraphsWith E.it ges {} none training = initialGraphs E none training := by
    intro training
    unfold initialGraphsWith initialGraphs fitGesWith fitGes
    simp only [Option.getD_none]
    split
    · rfl
    · unfold gesLoop
      rw [show (2 : ℝ) * (1 / 2) * Real.log training.flatten.length = Real.log training.flatten.length by ring]
      simp only [hges]
      cases allDags E.it (E.gesFit training.flatten) with
      | error err => rfl
      | ok ds => simp [gesLoop]
  unfold fitMainWith fitMain
  simp only [h]
  rfl

theorem gesLoop_spec {it : SetIter p} {ges : GesFun p} {phases : List String} {pooled : Sample p} {cpdag : ℝ → Adj p} (lambdas : List ℝ)
    (hges : ∀ pen ∈ lambdas, ges phases (pen / 2 * Real.log pooled.length) pooled = .ok (cpdag pen))
    (hP : ∀ pen ∈ lambdas, ZeroOne (cpdag pen) ∧ NoLoops (cpdag pen) ∧ ((∃ i j, UndEdge (cpdag pen) i j) ∨ Acyclic (cpdag pen)))
    (graphs : List (Adj p)) :
    ∃ blocks : List (List (Adj p)), gesLoop it ges phases pooled lambdas graphs = .ok (graphs ++ blocks.flatten) ∧
      List.Forall₂ (fun pen b => b.Nodup ∧ ∀ H, H ∈ b ↔ ZeroOne H ∧ IsExtension H (cpdag pen)) lambdas blocks := by
  induction lambdas generalizing graphs with
  | nil => exact ⟨[], by simp [gesLoop], .nil⟩
  | cons pen lambdas ih =>
    obtain ⟨h1, h2, h3⟩ := hP pen (by simp)
    obtain ⟨b, hb, hn, hm⟩ := C23_all_dags it (cpdag pen) h1 h2 h3
    obtain ⟨blocks, hl, hf⟩ := ih (fun q hq => hges q (by simp [hq])) (fun q hq => hP q (by simp [hq])) (graphs ++ b)
    refine ⟨b :: blocks, ?_, .cons ⟨hn, hm⟩ hf⟩
    unfold gesLoop
    rw [show pen * (1 / 2) * Real.log pooled.length = pen / 2 * Real.log pooled.length by ring]
    simp only [hges pen (by simp), hb, hl]
    simp

theorem count_blocks {cpdag : ℝ → Adj p} {lambdas : List ℝ} {blocks : List (List (Adj p))}
    (h : List.Forall₂ (fun pen b => b.Nodup ∧ ∀ H, H ∈ b ↔ ZeroOne H ∧ IsExtension H (cpdag pen)) lambdas blocks) (H : Adj p) :
    blocks.flatten.count H = (open Classical in lambdas.countP (fun pen => decide (ZeroOne H ∧ IsExtension H (cpdag pen)))) := by
  classical
  induction h with
  | nil => rfl
  | @cons pen b ls bs hb _ ih =>
    rw [List.flatten_cons, List.count_append, ih, List.countP_cons, add_comm]
    congr 1
    by_cases hH : ZeroOne H ∧ IsExtension H (cpdag pen)
    · rw [List.count_eq_one_of_mem hb.1 ((hb.2 H).2 hH)]
      simp [hH]
    · rw [List.count_eq_zero_of_not_mem (fun hc => hH ((hb.2 H).1 hc))]
      simp [hH]

/-- The samples on which GES runs: all of the training data, or those of one environment, counted from the end if the number is negative. -/
def Spec.GesData (training : List (Sample p)) : Option Int → List (Sample p) → Prop
  | none, used => used = training
  | some k, used => ∃ (i : Nat) (s : Sample p), training[i]? = some s ∧ ((i : Int) = k ∨ (i : Int) = k + training.length) ∧ used = [s]

/-- C139: with any arguments for GES, `_fit` is `_fit` for the candidates that GES finds: for each penalty, in the given order, all consistent
extensions of the CPDAG found with this penalty in the environment `ges_env`.  A graph occurs among the candidates once for each penalty that leads to
it. -/
theorem C139_penalties (E : FitEnv p e) (ges : GesFun p) (args : GesArgs) (data : Fin e → Sample p) (solverKnown : Bool)
    (ns : Option (List Nat)) (prune : Bool) (folds : List Rat) (tG tI : Option ℝ) (rs : Int) {training testG testI : List (Sample p)}
    (hs : splitData (E.rng rs) (List.ofFn data) folds = .ok [training, testG, testI]) (hne : training ≠ []) {used : List (Sample p)}
    (hu : GesData training args.env used) {cpdag : ℝ → Adj p}
    (hges : ∀ pen ∈ args.lambdas.getD [2], ges (args.phases.getD ["forward", "backward", "turning"])
      (pen / 2 * Real.log used.flatten.length) used.flatten = .ok (cpdag pen))
    (hP : ∀ pen ∈ args.lambdas.getD [2], ZeroOne (cpdag pen) ∧ NoLoops (cpdag pen) ∧ ((∃ i j, UndEdge (cpdag pen) i j) ∨ Acyclic (cpdag pen))) :
    ∃ D : List (Adj p), fitMainWith E ges args data solverKnown ns prune folds tG tI none rs =
        fitMain E data solverKnown ns prune folds tG tI (some D) rs ∧
      (∃ blocks : List (List (Adj p)), D = blocks.flatten ∧
        List.Forall₂ (fun pen b => b.Nodup ∧ ∀ H, H ∈ b ↔ ZeroOne H ∧ IsExtension H (cpdag pen)) (args.lambdas.getD [2]) blocks) ∧
      ∀ H, D.count H = (open Classical in (args.lambdas.getD [2]).countP (fun pen => decide (ZeroOne H ∧ IsExtension H (cpdag pen)))) := by
  obtain ⟨blocks, h1, h2⟩ := gesLoop_spec (it := E.it) (args.lambdas.getD [2]) hges hP []
  refine ⟨blocks.flatten, fitMainWith_eq E ges args data solverKnown ns prune folds tG tI none rs hs ?_, ⟨blocks, rfl, h2⟩, fun H => count_blocks h2 H⟩
  rw [List.nil_append] at h1
  unfold initialGraphsWith
  simp only
  unfold GesData at hu
  split at hu
  · rename_i henv
    simp only [henv]
    subst hu
    unfold fitGesWith
    rw [if_neg (by simpa using hne)]
    exact h1
  · rename_i k henv
    simp only [henv]
    obtain ⟨i, s, hi, hk, rfl⟩ := hu
    have hlt : i < training.length := (List.getElem?_eq_some_iff.1 hi).1
    have hget : pyGet training k = .ok s := by
      have hj : (if k < 0 then k + training.length else k) = (i : Int) := by split <;> omega
      unfold pyGet
      simp only [hj]
      rw [if_neg (by omega), Int.toNat_natCast, hi]
    rw [hget]
    simp only
    unfold fitGesWith
    rw [if_neg (by simp)]
    exact h1

/-- C139: a number `ges_env` that is not that of an environment raises `IndexError`, if no graphs are given. -/
theorem C139_no_environment (E : FitEnv p e) (ges : GesFun p) (args : GesArgs) (data : Fin e → Sample p) (solverKnown : Bool)
    (ns : Option (List Nat)) (prune : Bool) (folds : List Rat) (tG tI : Option ℝ) (rs : Int) {training testG testI : List (Sample p)}
    (hs : splitData (E.rng rs) (List.ofFn data) folds = .ok [training, testG, testI]) {k : Int} (hk : args.env = some k)
    (hr : k < - (training.length : Int) ∨ (training.length : Int) ≤ k) :
    fitMainWith E ges args data solverKnown ns prune folds tG tI none rs = .error .indexError := by
  have hget : pyGet training k = .error .indexError := by
    unfold pyGet
    rcases hr with hr | hr
    · simp only [if_pos (show k < 0 by omega)]
      rw [if_pos (by omega)]
    · simp only [if_neg (show ¬ k < 0 by omega)]
      rw [List.getElem?_eq_none (by omega)]
  unfold fitMainWith
  rw [hs]
  simp only [initialGraphsWith, hk, hget]

/-- C139: an empty list of penalties leads to an `IndexError` when the candidates are pruned (for data that the constructor accepts and at least one
number of latents). -/
theorem C139_no_penalties (E : FitEnv p e) (ges : GesFun p) (args : GesArgs) (data : Fin e → Sample p) (solverKnown : Bool)
    (n : Nat) (ns : List Nat) (prune : Bool) (folds : List Rat) (tG tI : Option ℝ) (rs : Int) {training testG testI : List (Sample p)}
    (hs : splitData (E.rng rs) (List.ofFn data) folds = .ok [training, testG, testI]) (hne : training ≠ [])
    {used : List (Sample p)} (hu : GesData training args.env used) (hl : args.lambdas = some []) (hc : scoreCtor training solverKnown = .ok ()) :
    fitMainWith E ges args data solverKnown (some (n :: ns)) prune folds tG tI none rs = .error .indexError := by
  obtain ⟨D, h1, ⟨blocks, rfl, h2⟩, -⟩ := C139_penalties E ges args data solverKnown (some (n :: ns)) prune folds tG tI rs hs hne hu
    (cpdag := fun _ _ _ => 0) (by simp [hl]) (by simp [hl])
  rw [h1]
  rw [hl] at h2
  cases h2
  unfold fitMain
  rw [hs]
  simp only [initialGraphs, latentNumbers, latentLoop, hc, pruneGraphs]
  rfl

/-! ## More candidates -/

theorem pruneGraphsLoop_append {it : SetIter p} {fit : Fitter p e} {prune : Bool} {threshold : Option ℝ} (more : List (Adj p)) :
    ∀ (graphs : List (Adj p)) (obj obj2 : ScoreObj p e) (ms2 : List (AnyModel p e)),
      pruneGraphsLoop it fit prune threshold (graphs ++ more) obj = .ok (ms2, obj2) →
      ∃ ms1 obj1 ms, pruneGraphsLoop it fit prune threshold graphs obj = .ok (ms1, obj1) ∧ ms2 = ms1 ++ ms := by
  intro graphs
  induction graphs with
  | nil =>
    intro obj obj2 ms2 h
    exact ⟨[], obj, ms2, rfl, rfl⟩
  | cons G graphs ih =>
    intro obj obj2 ms2 h
    rw [List.cons_append, pruneGraphsLoop] at h
    split at h
    · simp at h
    rename_i ms obj' hG
    split at h
    · simp at h
    rename_i ms' obj'' hrest
    simp only [Except.ok.injEq, Prod.mk.injEq] at h
    obtain ⟨ms1, obj1, ms0, h1, h2⟩ := ih obj' obj'' ms' hrest
    refine ⟨ms ++ ms1, obj1, ms0, ?_, ?_⟩
    · rw [pruneGraphsLoop, hG]
      simp only [h1]
    · rw [← h.1, h2, List.append_assoc]

/-- C139: further candidates after the given ones never make the best score on the validation data worse, for every number of latents. -/
theorem C139_more_candidates {it : SetIter p} {fit : Fitter p e} {prune : Bool} {graphs more : List (Adj p)} (hne : graphs ≠ []) {test : Data p e}
    {s s' : Flt} {A A' : Adj p} (h : Validation it fit prune graphs test s A) (h' : Validation it fit prune (graphs ++ more) test s' A') :
    AtMost s' s := by
  obtain ⟨ms, obj, h1, ⟨m, hm, -, hs⟩, -⟩ := h
  obtain ⟨ms', obj', h1', -, h3'⟩ := h'
  unfold pruneGraphs at h1 h1'
  rw [if_neg (by simpa using hne)] at h1
  rw [if_neg (by simp [hne])] at h1'
  obtain ⟨ms1, obj1, ms0, h4, h5⟩ := pruneGraphsLoop_append more graphs _ _ _ h1'
  rw [h1] at h4
  simp only [Except.ok.injEq, Prod.mk.injEq] at h4
  obtain ⟨sc, h6, h7⟩ := h3' m (by rw [h5, ← h4.1]; simp [hm])
  rw [hs] at h6
  cases h6
  exact h7

/-- C139: neither further candidates after the given ones nor further numbers of latents make the validation score of the selected graph and number of
latents worse, if no score is `nan`. -/
theorem C139_more_choices (E : FitEnv p e) (hfit : ∀ d h, GoodFit (E.fit d h)) (hlat : ∀ d h n A I m s, E.fit d h n A I = .ok (m, s) → m.1 = h)
    (harg : ∀ f, IsArgsort f (E.argsort f)) (data : Fin e → Sample p) (solverKnown : Bool) (ns ns' : List Nat) (hns : ns ⊆ ns') (prune : Bool)
    (folds : List Rat) (graphs more : List (Adj p)) (hne : graphs ≠ []) (hG : ∀ G ∈ graphs ++ more, Nonneg G) (rs : Int)
    {m m' : AnyModel p e} {I I' : Finset (Fin p)} {s s' : Flt} {training testG testI : List (Sample p)}
    (hs : splitData (E.rng rs) (List.ofFn data) folds = .ok [training, testG, testI])
    (hnan : ∀ n ∈ ns', ∀ sc A, Validation E.it (E.fit (foldData E.cov training e) n) prune (graphs ++ more) (foldData E.cov testG e) sc A → sc ≠ none)
    (hr : fitMain E data solverKnown (some ns) prune folds none none (some graphs) rs = .ok (m, I, s))
    (hr' : fitMain E data solverKnown (some ns') prune folds none none (some (graphs ++ more)) rs = .ok (m', I', s')) :
    ∃ x x' : Flt, Validation E.it (E.fit (foldData E.cov training e) m.1) prune graphs (foldData E.cov testG e) x m.A ∧
      Validation E.it (E.fit (foldData E.cov training e) m'.1) prune (graphs ++ more) (foldData E.cov testG e) x' m'.A ∧ AtMost x' x := by
  obtain ⟨tr, tg, ti, h1, h2, x, h3, -⟩ := C58_selection E hfit hlat harg data solverKnown ns prune folds graphs
    (fun G hG' => hG G (by simp [hG'])) rs m I s hr
  rw [hs] at h1
  simp only [Except.ok.injEq, List.cons.injEq, and_true] at h1
  obtain ⟨rfl, rfl, rfl⟩ := h1
  obtain ⟨tr, tg, ti, h1, h2', x', h3', h4'⟩ := C58_selection E hfit hlat harg data solverKnown ns' prune folds (graphs ++ more) hG rs m' I' s' hr'
  rw [hs] at h1
  simp only [Except.ok.injEq, List.cons.injEq, and_true] at h1
  obtain ⟨rfl, rfl, rfl⟩ := h1
  refine ⟨x, x', h3, h3', ?_⟩
  obtain ⟨a, b, A, ha, hb, hab⟩ := h4' hnan m.1 (hns h2)
  rcases C139_more_candidates hne h3 hb with h5 | ⟨b', y, h5, h6, h7⟩
  · simp at h5
  · cases h5
    refine Or.inr ⟨a, y, ha, h6, ?_⟩
    rcases hab with hab | hab
    · linarith
    · linarith [hab.1]

/-! ## Examples -/

section Example

/-- GES that finds the complete undirected graph if the penalty is at most that of BIC, and no edges otherwise. -/
noncomputable def exGes (p : Nat) : GesFun p := fun _ lmbda s =>
  open Classical in .ok (if lmbda ≤ Real.log s.length then fun i j => if i = j then 0 else 1 else fun _ _ => 0)

noncomputable def exCpdag (p : Nat) (pen : ℝ) : Adj p := open Classical in if pen ≤ 2 then fun i j => if i = j then 0 else 1 else fun _ _ => 0

theorem exGes_eq (phases : List String) (pen : ℝ) (s : Sample p) (hs : s.length = 4) :
    exGes p phases (pen / 2 * Real.log s.length) s = .ok (exCpdag p pen) := by
  have hl : 0 < Real.log (s.length : ℝ) := by rw [hs]; exact Real.log_pos (by norm_num)
  unfold exGes exCpdag
  congr 1
  refine if_congr ⟨fun h => ?_, fun h => ?_⟩ rfl rfl
  · by_contra hc
    nlinarith
  · nlinarith

theorem exCpdag_ok (pen : ℝ) : ZeroOne (exCpdag 3 pen) ∧ NoLoops (exCpdag 3 pen) ∧ ((∃ i j, UndEdge (exCpdag 3 pen) i j) ∨ Acyclic (exCpdag 3 pen)) := by
  unfold exCpdag
  split
  · refine ⟨fun i j => by beta_reduce; split <;> simp, fun i => by simp, Or.inl ⟨0, 1, by simp [UndEdge]⟩⟩
  · refine ⟨fun i j => by simp, fun i => by simp, Or.inr ((isDag_iff (SetIter.incr 3) (fun i j => le_refl _)).1 (by decide +kernel))⟩

/-- The hypotheses of `C139_penalties` can be met with two penalties and the last environment, and the algorithm returns: each DAG with all edges and
the graph without edges are candidates once. -/
example : ∃ (args : GesArgs) (D : List (Adj 3)) (r : AnyModel 3 1 × Finset (Fin 3) × Flt), args.env = some (-1) ∧ args.lambdas = some [2, 10] ∧
    fitMainWith (exEnv 3) (exGes 3) args (fun _ => List.replicate 8 0) true (some [1]) true [1 / 2, 1 / 4, 1 / 4] none none none 42 = .ok r ∧
    D.count ![![0, 1, 1], ![0, 0, 1], ![0, 0, 0]] = 1 ∧ D.count (fun _ _ => 0) = 1 := by
  have hsp := exSplit ((exEnv 3).rng 42) (List.replicate 8 (0 : Fin 3 → ℝ)) (by simp)
  have hlen : ((((exEnv 3).rng 42 0).shuffle (List.replicate 8 (0 : Fin 3 → ℝ))).take 4).length = 4 := by
    rw [List.length_take, (((exEnv 3).rng 42 0).shuffle_perm _).length_eq]
    simp
  obtain ⟨D, h1, -, h3⟩ := C139_penalties (exEnv 3) (exGes 3) ⟨some (-1), none, some [2, 10]⟩ (fun _ => List.replicate 8 0) true (some [1]) true
    [1 / 2, 1 / 4, 1 / 4] none none 42 hsp (by simp) (used := [_]) ⟨0, _, rfl, Or.inr (by simp), rfl⟩ (cpdag := exCpdag 3)
    (fun pen _ => exGes_eq _ pen _ (by simpa using hlen)) (fun pen _ => exCpdag_ok pen)
  have e1 : exCpdag 3 2 = fun i j => if i = j then 0 else 1 := if_pos (le_refl _)
  have e2 : exCpdag 3 10 = fun _ _ => 0 := if_neg (by norm_num)
  have f1 : ZeroOne (![![0, 1, 1], ![0, 0, 1], ![0, 0, 0]] : Adj 3) ∧ IsExtension ![![0, 1, 1], ![0, 0, 1], ![0, 0, 0]] (exCpdag 3 2) := by
    rw [e1]
    refine ⟨by unfold ZeroOne; decide, (isDag_iff (SetIter.incr 3) (by unfold Nonneg; decide)).1 (by decide +kernel), ?_, ?_, ?_⟩
    · unfold SameSkeleton Adjacent; decide
    · unfold SameVStructures VStructure Adjacent DirEdge; decide
    · unfold DirEdge; decide
  have f2 : ¬ IsExtension ![![0, 1, 1], ![0, 0, 1], ![0, 0, 0]] (exCpdag 3 10) := by
    rw [e2]
    intro h
    have := (h.2.1 0 1).1
    revert this
    unfold Adjacent
    decide
  have f3 : ¬ IsExtension (fun _ _ => 0) (exCpdag 3 2) := by
    rw [e1]
    intro h
    have := (h.2.1 0 1).2
    revert this
    unfold Adjacent
    decide
  have f4 : ZeroOne (fun _ _ => 0 : Adj 3) ∧ IsExtension (fun _ _ => 0) (exCpdag 3 10) := by
    rw [e2]
    refine ⟨fun i j => Or.inl rfl, (isDag_iff (SetIter.incr 3) (fun i j => le_refl _)).1 (by decide +kernel), ?_, ?_, ?_⟩
    · exact fun i j => Iff.rfl
    · exact fun i j k => Iff.rfl
    · exact fun i j h => absurd rfl h.1
  have hc1 : D.count ![![0, 1, 1], ![0, 0, 1], ![0, 0, 0]] = 1 := by
    rw [h3]
    simp [f1, f2]
  have hc2 : D.count (fun _ _ => 0) = 1 := by
    rw [h3]
    simp [f3, f4]
  obtain ⟨r, hr⟩ := exEnv_returns D (List.ne_nil_of_mem (List.count_pos_iff.1 (by rw [hc2]; norm_num))) (by
    intro G hG
    have := List.count_pos_iff.2 hG
    rw [h3] at this
    obtain ⟨pen, -, hp⟩ := List.countP_pos_iff.1 this
    have := (open Classical in of_decide_eq_true hp)
    exact ⟨fun i j => by rcases this.1 i j with h | h <;> simp [h], this.2.1⟩) (List.replicate 8 (0 : Fin 3 → ℝ)) (by simp) true [1] (by simp) 42
  exact ⟨_, D, r, rfl, rfl, h1.trans hr, hc1, hc2⟩

theorem exEnv_no_nan {candidates : List (Adj p)} (hG : ∀ G ∈ candidates, Nonneg G) {d t : Data p 1} (hd : GoodData d) (ht : GoodData t) {n : Nat} {b : Bool}
    {sc : Flt} {A : Adj p} (h : Validation (exEnv p).it ((exEnv p).fit d n) b candidates t sc A) : sc ≠ none := by
  obtain ⟨ms, obj, h1, ⟨m, hm, -, hs⟩, -⟩ := h
  obtain ⟨s, k, m0, h2, h3⟩ := (pruneGraphs_fitted (varFit_good _ d n) hG (ScoreObj.ok_new _ _ 0) h1).2 m hm
  have key : ∀ m : AnyModel p 1, m.omegas = Matrix.of (fun k i => d.covs k i i) → m.2.psis = 0 → m.scoreOn t = .ok sc → sc ≠ none := by
    intro m ho hp hs
    have := scoreOn_ok t ht m.2 (fun k i => by
      rw [show m.2.omegas = _ from ho]; exact (hd.posDef k).diag_pos) (fun k i => by rw [hp]; exact le_refl _)
    rw [show m.scoreOn t = m.2.scoreOn t from rfl, this] at hs
    cases hs
    simp
  have h0 : m0.omegas = Matrix.of (fun k i => d.covs k i i) ∧ m0.2.psis = 0 := by
    unfold varFit at h2
    split at h2
    · simp at h2
    · rename_i m1 hm1
      cases h2
      obtain ⟨-, -, rfl⟩ := mkModel_fields hm1
      exact ⟨rfl, rfl⟩
  rcases h3 with rfl | h3
  · exact key _ h0.1 h0.2 hs
  · obtain ⟨l, m0⟩ := m0
    unfold AnyModel.copy at h3
    split at h3
    · simp at h3
    · rename_i m2 hm2
      cases h3
      obtain ⟨-, -, rfl⟩ := mkModel_fields hm2
      refine key _ ?_ ?_ hs
      · exact h0.1
      · exact h0.2

/-- The hypotheses of `C139_more_candidates` and `C139_more_choices` can be met: one candidate and one number of latents, then two. -/
example : ∃ x x' : Flt, ∃ m m' : AnyModel 2 1, ∃ I I' s s',
    fitMain (exEnv 2) (fun _ => List.replicate 8 0) true (some [1]) true [1 / 2, 1 / 4, 1 / 4] none none (some [![![0, 1], ![0, 0]]]) 42 = .ok (m, I, s) ∧
    fitMain (exEnv 2) (fun _ => List.replicate 8 0) true (some [1, 2]) true [1 / 2, 1 / 4, 1 / 4] none none
      (some ([![![0, 1], ![0, 0]]] ++ [![![0, 0], ![1, 0]]])) 42 = .ok (m', I', s') ∧ AtMost x' x := by
  have hn : ∀ G ∈ [(![![0, 1], ![0, 0]] : Adj 2)] ++ [![![0, 0], ![1, 0]]], Nonneg G ∧ Acyclic G := by
    intro G hG
    simp only [List.cons_append, List.nil_append, List.mem_cons, List.not_mem_nil, or_false] at hG
    rcases hG with rfl | rfl
    · have : Nonneg (![![0, 1], ![0, 0]] : Adj 2) := by unfold Nonneg; decide
      exact ⟨this, (isDag_iff (SetIter.incr 2) this).1 (by decide)⟩
    · have : Nonneg (![![0, 0], ![1, 0]] : Adj 2) := by unfold Nonneg; decide
      exact ⟨this, (isDag_iff (SetIter.incr 2) this).1 (by decide)⟩
  obtain ⟨⟨m, I, s⟩, h⟩ := exEnv_returns [(![![0, 1], ![0, 0]] : Adj 2)] (by simp) (fun G hG => hn G (by simp at hG; simp [hG]))
    (List.replicate 8 (0 : Fin 2 → ℝ)) (by simp) true [1] (by simp) 42
  obtain ⟨⟨m', I', s'⟩, h'⟩ := exEnv_returns _ (by simp) hn (List.replicate 8 (0 : Fin 2 → ℝ)) (by simp) true [1, 2] (by simp) 42
  have hsh : ((exEnv 2).rng 42 0).shuffle (List.replicate 8 (0 : Fin 2 → ℝ)) = List.replicate 8 0 := by simp [exEnv, Rng.front]
  obtain ⟨x, x', -, -, hx⟩ := C139_more_choices (exEnv 2) (fun d h => varFit_good _ d h)
    (fun d h n A I m s hm => (varFit_fields (n := n) (I := I) hm).2.1) insArgsort_spec _ true [1] [1, 2] (by simp) true _ _ _ (by simp)
    (fun G hG => (hn G hG).1) 42 (exSplit ((exEnv 2).rng 42) (List.replicate 8 (0 : Fin 2 → ℝ)) (by simp))
    (fun n _ sc A hv => exEnv_no_nan (fun G hG => (hn G hG).1) (exEnv_data _ _ rfl (by rw [hsh]; simp)) (exEnv_data _ _ rfl (by rw [hsh]; simp)) hv) h h'
  exact ⟨x, x', m, m', I, I', s, s', h, h', hx⟩

end Example

end Verif
