import Verif.Model.FitNan
import Verif.Props.MainFolds
import Verif.Props.MainTotal

/-!
# C98: cross-validation with a fold of fewer than two observations
-/

namespace Verif

open Spec Matrix

variable {p l e : Nat}

/-- All environments have at least two observations in the fold. -/
def Spec.Enough (fold : List (Sample p)) (e : Nat) : Prop := ∀ k < e, 2 ≤ (fold.getD k []).length

theorem scoreLoopF_matrix (IB : Matrix (Fin p) (Fin p) ℝ) (Ms : Fin e → Matrix (Fin p) (Fin p) ℝ) (nObs : List Nat)
    (covs : List (Matrix (Fin p) (Fin p) ℝ)) : ∀ i s, scoreLoopF IB Ms nObs i (covs.map .matrix) s = scoreLoop IB Ms nObs i covs s := by
  induction covs with
  | nil => intro i s; rfl
  | cons c covs ih =>
    intro i s
    simp only [List.map_cons, scoreLoopF, scoreLoop, ih]
    rfl

theorem scoreFold_eq {fold : List (Sample p)} (h : Enough fold e) (m : AnyModel p e) :
    m.scoreFold fold = m.scoreOn (foldData npCov fold e) := by
  unfold AnyModel.scoreFold AnyModel.scoreOn LModel.score
  have : (List.ofFn fun k : Fin e => npCovF (fold.getD k.val [])) = (List.ofFn (foldData npCov fold e).covs).map .matrix := by
    rw [List.map_ofFn]
    congr 1
    funext k
    unfold npCovF
    rw [if_neg (by have := h k k.isLt; omega), if_neg (by have := h k k.isLt; omega)]
    rfl
  rw [this]
  cases m.2.invNoise with
  | error err => rfl
  | ok Ms => exact scoreLoopF_matrix _ _ _ _ _ _

theorem foldScores_eq {β : Type} {fold : List (Sample p)} (h : Enough fold e) (model : β → AnyModel p e) (l : List β) :
    foldScores fold model l = testScores (foldData npCov fold e) model l := by
  induction l with
  | nil => rfl
  | cons x l ih =>
    simp only [foldScores, testScores, scoreFold_eq h, ih]
    rfl

theorem latentLoopF_eq {it : SetIter p} {fit : Nat → Fitter p e} {ctor : Except Err Unit} {prune : Bool} {threshold : Option ℝ}
    {graphs : List (Adj p)} {test : List (Sample p)} (h : Enough test e) (ns : List Nat) :
    ∀ results, latentLoopF it fit ctor prune threshold graphs test ns results =
      latentLoop it fit ctor prune threshold graphs (foldData npCov test e) ns results := by
  induction ns with
  | nil => intro results; rfl
  | cons n ns ih =>
    intro results
    simp only [latentLoopF, latentLoop, foldScores_eq h, ih]
    rfl

/-- C98: if every environment has at least two observations in the second and in the third fold, `_fit` is the function of the other
theorems. -/
theorem C98_enough (E : FitEnv p e) (hcov : E.cov = npCov) (data : Fin e → Sample p) (solverKnown : Bool) (numsLatent : Option (List Nat))
    (prune : Bool) (folds : List Rat) (tG tI : Option ℝ) (initial : Option (List (Adj p))) (rs : Int)
    (h : ∀ training testG testI, splitData (E.rng rs) (List.ofFn data) folds = .ok [training, testG, testI] →
      Enough testG e ∧ Enough testI e) :
    fitMainF E data solverKnown numsLatent prune folds tG tI initial rs = fitMain E data solverKnown numsLatent prune folds tG tI initial rs := by
  unfold fitMainF fitMain
  cases hs : splitData (E.rng rs) (List.ofFn data) folds with
  | error err => rfl
  | ok fs =>
    match fs with
    | [] => rfl
    | [_] => rfl
    | [_, _] => rfl
    | _ :: _ :: _ :: _ :: _ => rfl
    | [training, testG, testI] =>
      obtain ⟨h1, h2⟩ := h _ _ _ hs
      simp only [latentLoopF_eq h1, hcov, targetPhaseF, targetPhase, foldScores_eq h2]
      rfl

/-! ## Too few observations -/

theorem scoreLoopF_none {IB : Matrix (Fin p) (Fin p) ℝ} {Ms : Fin e → Matrix (Fin p) (Fin p) ℝ} {nObs : List Nat}
    (covs : List (CovArray p)) : ∀ i s t, (s = none ∨ .nans ∈ covs) → scoreLoopF IB Ms nObs i covs s = .ok t → t = none := by
  induction covs with
  | nil =>
    intro i s t hn h
    simp only [List.not_mem_nil, or_false] at hn
    simp only [scoreLoopF, Except.ok.injEq] at h
    rw [← h, hn]
  | cons c covs ih =>
    intro i s t hn h
    simp only [scoreLoopF] at h
    split at h
    · simp at h
    · split_ifs at h
      cases c with
      | scalar => simp at h
      | nans =>
        refine ih _ _ _ (Or.inl ?_) h
        cases s <;> simp [Flt.divNat, Flt.add, Flt.smul]
      | matrix S =>
        refine ih _ _ _ ?_ h
        rcases hn with rfl | hn
        · left
          simp [Flt.divNat, Flt.add]
        · exact Or.inr (by simpa using hn)

theorem scoreLoopF_scalar {IB : Matrix (Fin p) (Fin p) ℝ} {Ms : Fin e → Matrix (Fin p) (Fin p) ℝ} {nObs : List Nat}
    (covs : List (CovArray p)) : ∀ i s t, .scalar ∈ covs → scoreLoopF IB Ms nObs i covs s ≠ .ok t := by
  induction covs with
  | nil => intro i s t hn; simp at hn
  | cons c covs ih =>
    intro i s t hn h
    simp only [scoreLoopF] at h
    split at h
    · simp at h
    · split_ifs at h
      cases c with
      | scalar => simp at h
      | nans => exact ih _ _ _ (by simpa using hn) h
      | matrix S => exact ih _ _ _ (by simpa using hn) h

/-- Some environment has a single observation in the fold. -/
def Spec.Single (fold : List (Sample p)) (e : Nat) : Prop := ∃ k < e, (fold.getD k []).length = 1

theorem scoreFold_single {fold : List (Sample p)} (h : Single fold e) (m : AnyModel p e) (s : Flt) : m.scoreFold fold ≠ .ok s := by
  intro hs
  unfold AnyModel.scoreFold at hs
  split at hs
  · simp at hs
  · obtain ⟨k, hk, h1⟩ := h
    refine scoreLoopF_scalar _ _ _ _ ?_ hs
    rw [List.mem_ofFn]
    exact ⟨⟨k, hk⟩, by unfold npCovF; rw [if_neg (by simp only; omega), if_pos h1]⟩

theorem scoreFold_none {fold : List (Sample p)} (h : ¬ Enough fold e) {m : AnyModel p e} {s : Flt} (hs : m.scoreFold fold = .ok s) : s = none := by
  unfold Enough at h
  push Not at h
  obtain ⟨k, hk, hlt⟩ := h
  by_cases h1 : (fold.getD k []).length = 1
  · exact absurd hs (scoreFold_single ⟨k, hk, h1⟩ m s)
  unfold AnyModel.scoreFold at hs
  split at hs
  · simp at hs
  · refine scoreLoopF_none _ _ _ _ (Or.inr ?_) hs
    rw [List.mem_ofFn]
    exact ⟨⟨k, hk⟩, by unfold npCovF; rw [if_pos (by simp only; omega)]⟩

theorem foldScores_none {β : Type} {fold : List (Sample p)} (h : ¬ Enough fold e) {model : β → AnyModel p e} (l : List β) :
    ∀ r, foldScores fold model l = .ok r → r = l.map (fun x => (none, x)) := by
  induction l with
  | nil =>
    intro r hr
    simp only [foldScores, Except.ok.injEq] at hr
    exact hr.symm
  | cons x l ih =>
    intro r hr
    simp only [foldScores] at hr
    split at hr
    · simp at hr
    · rename_i s hs
      split at hr
      · simp at hr
      · rename_i r' hr'
        cases hr
        rw [scoreFold_none h hs, ih _ hr', List.map_cons]

theorem bestScoring_none {β : Type} {l : List β} {t : Flt × β} (h : bestScoring (l.map (fun x => ((none : Flt), x))) = .ok t) :
    ∃ x, l.head? = some x ∧ t = (none, x) := by
  cases l with
  | nil => simp [bestScoring, npArgmin] at h
  | cons x l =>
    obtain ⟨i, t', h1, h2, h3, h4⟩ := bestScoring_spec (tuples := (x :: l).map (fun x => ((none : Flt), x))) (by simp)
    rw [h] at h1
    cases h1
    have ht : t.1 = none := by
      have := List.mem_of_getElem? h2
      obtain ⟨y, -, rfl⟩ := List.mem_map.1 this
      rfl
    have hi : i = 0 := by
      by_contra hi
      have := h4 0 (by omega) (none, x) (by simp)
      rw [ht] at this
      exact lt_irrefl _ this
    subst hi
    simp only [List.map_cons, List.getElem?_cons_zero, Option.some.injEq] at h2
    exact ⟨x, rfl, h2.symm⟩

/-- If no element is smaller than the one before, the list is returned as it is. -/
theorem sortedM_run {α : Type} (lt : α → α → Except Err Bool) (l : List α) (h : l.IsChain fun a b => lt b a = .ok false) :
    sortedM lt l = .ok l := by
  have key : ∀ (x : α) (l : List α), (x :: l).IsChain (fun a b => lt b a = .ok false) → takeRun lt false x l = .ok (l, []) := by
    intro x l
    induction l generalizing x with
    | nil => intro _; rfl
    | cons y l ih =>
      intro h
      rw [List.isChain_cons_cons] at h
      simp only [takeRun, h.1, ih y h.2, if_true]
  match l, h with
  | [], _ => rfl
  | [x], _ => rfl
  | x :: y :: l, h =>
    rw [List.isChain_cons_cons] at h
    simp [sortedM, countRun, h.1, key y l h.2, insertAll]

theorem sortedM_none {β : Type} (l : List (Flt × Nat × β)) (h : ∀ x ∈ l, x.1 = none) : sortedM tupleLt l = .ok l := by
  apply sortedM_run
  rw [List.isChain_iff_getElem]
  intro i hi
  simp [tupleLt, h _ (List.getElem_mem (by omega : i + 1 < l.length))]

/-- C58, boundary: a score that is not a number hides the order of the others.  If every score is larger than the one
directly before it whenever both are numbers, the entries stay as they are and the first number of latents is selected. -/
theorem C58_nan_hides {β : Type} (l : List (Flt × Nat × β)) (h : l.IsChain fun a b => ∀ x y : ℝ, a.1 = some x → b.1 = some y → x < y) :
    sortedM tupleLt l = .ok l := by
  refine sortedM_run _ _ (h.imp fun a b hab => ?_)
  unfold tupleLt
  split
  · rename_i y x hy hx
    have := hab x y hx hy
    rw [if_pos this.ne']
    simp [this.le]
  · rfl

/-- C58, boundary: for the scores 2, nan, 1 of three numbers of latents the first is selected, although the last has the smallest score. -/
example : sortedM tupleLt [((some 2 : Flt), 0, ()), (none, 1, ()), (some 1, 2, ())] = .ok [((some 2 : Flt), 0, ()), (none, 1, ()), (some 1, 2, ())] :=
  C58_nan_hides _ (by simp)

theorem dictSet_head {β : Type} (d : List (Nat × β)) (n : Nat) (v : β) :
    ∃ w, (dictSet d n v).head? = some ((d.map Prod.fst).head?.getD n, w) ∧ (w = v ∨ ∃ k, (k, w) ∈ d) := by
  unfold dictSet
  cases d with
  | nil => exact ⟨v, by simp, Or.inl rfl⟩
  | cons x d =>
    split_ifs with h
    · by_cases hx : x.1 = n
      · exact ⟨v, by simp [hx], Or.inl rfl⟩
      · exact ⟨x.2, by simp [hx], Or.inr ⟨x.1, by simp⟩⟩
    · exact ⟨x.2, by simp, Or.inr ⟨x.1, by simp⟩⟩

theorem pruneGraphs_head {it : SetIter p} {fit : Fitter p e} (hg : GoodFit fit) {prune : Bool} {graphs : List (Adj p)}
    (hG : ∀ G ∈ graphs, Nonneg G) {obj obj' : ScoreObj p e} (ho : obj.Ok it fit) {ms : List (AnyModel p e)}
    (h : pruneGraphs it fit prune none graphs obj = .ok (ms, obj')) : ∃ m, ms.head? = some m ∧ graphs.head? = some m.A := by
  cases prune with
  | false =>
    obtain ⟨-, h2, h3, -, -⟩ := C55_all_candidates it fit hg graphs hG obj obj' ho ms h
    cases ms with
    | nil => exact absurd h3.symm (by simpa using h2)
    | cons m ms => exact ⟨m, rfl, by rw [← h3]; rfl⟩
  | true =>
    obtain ⟨-, h2, blocks, rfl, h4⟩ := C55_all_chains it fit hg graphs hG obj obj' ho ms h
    cases h4 with
    | nil => exact absurd rfl h2
    | cons hb _ =>
      obtain ⟨m, k1, k2⟩ := hb.first
      rename_i G b gs bs _
      cases b with
      | nil => simp at k1
      | cons m' b =>
        simp only [List.head?_cons, Option.some.injEq] at k1
        subst k1
        exact ⟨m', rfl, by rw [k2]; rfl⟩

theorem latentLoopF_none {it : SetIter p} {fit : Nat → Fitter p e} (hg : ∀ h, GoodFit (fit h)) {ctor : Except Err Unit} {prune : Bool}
    {graphs : List (Adj p)} (hG : ∀ G ∈ graphs, Nonneg G) {test : List (Sample p)} (ht : ¬ Enough test e) (ns : List Nat) :
    ∀ results results' : List (Nat × (Flt × Adj p × ScoreObj p e)),
      (∀ r ∈ results, r.2.1 = none ∧ graphs.head? = some r.2.2.1 ∧ r.2.2.2.Ok it (fit r.1)) →
      latentLoopF it fit ctor prune none graphs test ns results = .ok results' →
      (∀ r ∈ results', r.2.1 = none ∧ graphs.head? = some r.2.2.1 ∧ r.2.2.2.Ok it (fit r.1)) ∧
      (results'.map Prod.fst).head? = (results.map Prod.fst ++ ns).head? := by
  induction ns with
  | nil =>
    intro results results' h1 h
    simp only [latentLoopF, Except.ok.injEq] at h
    subst h
    exact ⟨h1, by simp⟩
  | cons n ns ih =>
    intro results results' h1 h
    simp only [latentLoopF] at h
    split at h
    · simp at h
    · split at h
      · simp at h
      · rename_i models obj hm
        split at h
        · simp at h
        · rename_i scores hs
          split at h
          · simp at h
          · rename_i s A hb
            have hsc := foldScores_none ht _ _ hs
            rw [hsc, List.map_map] at hb
            have hb' : bestScoring ((models.map (fun m => m.A)).map (fun x => ((none : Flt), x))) = .ok (s, A) := by
              rw [List.map_map]
              exact hb
            obtain ⟨x, hx1, hx2⟩ := bestScoring_none hb'
            obtain ⟨m, hm1, hm2⟩ := pruneGraphs_head (hg n) hG (ScoreObj.ok_new it _ 0) hm
            rw [List.head?_map, hm1] at hx1
            simp only [Option.map_some, Option.some.injEq] at hx1
            simp only [Prod.mk.injEq] at hx2
            obtain ⟨rfl, rfl⟩ := hx2
            subst hx1
            have hobj := (pruneGraphs_spec (hg n) hG (ScoreObj.ok_new it _ 0) hm).1
            obtain ⟨k1, k2⟩ := ih _ _ (fun r hr => by
              rcases mem_dictSet hr with rfl | ⟨hr, -⟩
              · exact ⟨rfl, hm2, hobj⟩
              · exact h1 r hr) h
            refine ⟨k1, k2.trans ?_⟩
            obtain ⟨w, hw, -⟩ := dictSet_head results n ((none : Flt), m.A, obj)
            cases hd : dictSet results n ((none : Flt), m.A, obj) with
            | nil => rw [hd] at hw; simp at hw
            | cons y ys =>
              rw [hd] at hw
              simp only [List.head?_cons, Option.some.injEq] at hw
              subst hw
              cases results <;> simp

/-- The models compared in the target phase belong to the given graph and the given fit. -/
theorem pruneI_fitted {it : SetIter p} {argsort : (Fin p → ℝ) → List (Fin p)} (harg : ∀ f, IsArgsort f (argsort f)) {fit : Fitter p e}
    {graph : Adj p} {obj obj' : ScoreObj p e} (ho : obj.Ok it fit) {ms : List (AnyModel p e × Finset (Fin p))}
    (h : pruneI it argsort fit none graph obj = .ok (ms, obj')) :
    (∃ m0, ms.head? = some (m0, Finset.univ)) ∧ ∀ x ∈ ms, ∃ s, FittedTo it fit graph x.2 x.1 s := by
  obtain ⟨m0, s0, order, -, c2, -, -, c5, c6⟩ := C57_nested it argsort harg _ graph obj obj' ho ms h
  refine ⟨⟨m0, c2⟩, fun x hx => ?_⟩
  obtain ⟨i, hi⟩ := List.getElem?_of_mem hx
  have hip : i ≤ p := by
    have := (List.getElem?_eq_some_iff.1 hi).1
    omega
  obtain ⟨mi, sf, c7, c8⟩ := c6 i hip
  rw [hi] at c7
  cases c7
  exact ⟨sf, c8⟩

/-- C98: if the second fold of some environment has fewer than two observations and a result is returned, nothing has been selected by
cross-validation: whatever the data are, the returned model has the graph of the first candidate (unpruned) and the first number of latents.
If the third fold of some environment has fewer than two observations as well, all variables are returned as targets and the score is
`nan`. -/
theorem C98_too_few (E : FitEnv p e) (hfit : ∀ d h, GoodFit (E.fit d h)) (hlat : ∀ d h n A I m s, E.fit d h n A I = .ok (m, s) → m.1 = h)
    (harg : ∀ f, IsArgsort f (E.argsort f)) (data : Fin e → Sample p) (solverKnown : Bool) (numsLatent : Option (List Nat)) (prune : Bool)
    (folds : List Rat) (initial : Option (List (Adj p))) (rs : Int) (training testG testI : List (Sample p)) (graphs : List (Adj p)) (ns : List Nat)
    (hsplit : splitData (E.rng rs) (List.ofFn data) folds = .ok [training, testG, testI])
    (hgr : initialGraphs E initial training = .ok graphs) (hG : ∀ G ∈ graphs, Nonneg G) (hns : latentNumbers E numsLatent training = .ok ns)
    (m : AnyModel p e) (I : Finset (Fin p)) (s : Flt)
    (h : fitMainF E data solverKnown numsLatent prune folds none none initial rs = .ok (m, I, s)) (hfew : ¬ Enough testG e) :
    graphs.head? = some m.A ∧ ns.head? = some m.1 ∧
      (¬ Enough testI e → I = Finset.univ ∧ s = none ∧ ∃ sf, FittedTo E.it (E.fit (foldData E.cov training e) m.1) m.A Finset.univ m sf) := by
  unfold fitMainF at h
  rw [hsplit] at h
  simp only [hgr, hns] at h
  split at h
  · simp at h
  · rename_i results hl
    obtain ⟨k1, k2⟩ := latentLoopF_none (fun n => hfit _ n) hG hfew ns [] results (by simp) hl
    have hsort := sortedM_none (results.map (fun r => (r.2.1, r.1, r.2.2.1, r.2.2.2))) (by
      intro x hx
      obtain ⟨r, hr, rfl⟩ := List.mem_map.1 hx
      exact (k1 r hr).1)
    rw [hsort] at h
    cases results with
    | nil => simp at h
    | cons r results =>
      simp only [List.map_cons] at h
      obtain ⟨a1, a2, a3⟩ := k1 r (by simp)
      simp only [List.map_cons, List.head?_cons, List.map_nil, List.nil_append] at k2
      unfold targetPhaseF at h
      split at h
      · simp at h
      · rename_i models obj' hp
        split at h
        · simp at h
        · rename_i scores hs
          split at h
          · simp at h
          · rename_i s' m' I' hb
            cases h
            obtain ⟨⟨m0, f1⟩, f2⟩ := pruneI_fitted harg a3 hp
            have hmem : (m, I) ∈ models := by
              have hr : ∀ (l : List (AnyModel p e × Finset (Fin p))) r, foldScores testI Prod.fst l = .ok r → r.map Prod.snd = l := by
                intro l
                induction l with
                | nil =>
                  intro r hr
                  simp only [foldScores, Except.ok.injEq] at hr
                  rw [← hr]
                  rfl
                | cons x l ih =>
                  intro r hr
                  simp only [foldScores] at hr
                  split at hr
                  · simp at hr
                  · split at hr
                    · simp at hr
                    · rename_i r' hr'
                      cases hr
                      rw [List.map_cons, ih _ hr']
              rw [← hr _ _ hs]
              exact List.mem_map_of_mem (f := Prod.snd) (bestScoring_mem hb)
            obtain ⟨sf, f3⟩ := f2 _ hmem
            have hA : m.A = r.2.2.1 := (f3.good (hfit _ _)).1
            have hl : m.1 = r.1 := by
              obtain ⟨j, mm, g1, g2, -⟩ := f3.fields
              rw [g2]
              exact hlat _ _ _ _ _ _ _ g1
            refine ⟨by rw [hA]; exact a2, by rw [hl]; exact k2.symm, fun hfewI => ?_⟩
            rw [foldScores_none hfewI _ _ hs] at hb
            obtain ⟨x, hx1, hx2⟩ := bestScoring_none hb
            rw [f1] at hx1
            cases hx1
            simp only [Prod.mk.injEq] at hx2
            obtain ⟨rfl, rfl, rfl⟩ := hx2
            refine ⟨rfl, rfl, sf, ?_⟩
            rw [hA, hl]
            exact f3

/-- C98: if the third fold of some environment has fewer than two observations, then in every run that returns (with the default threshold
for the targets) all variables are returned as targets and the score is `nan`, whatever the second fold, the data and the fits are. -/
theorem C98_no_third (E : FitEnv p e) (data : Fin e → Sample p) (solverKnown : Bool) (numsLatent : Option (List Nat)) (prune : Bool)
    (folds : List Rat) (tG : Option ℝ) (initial : Option (List (Adj p))) (rs : Int) (training testG testI : List (Sample p))
    (hsplit : splitData (E.rng rs) (List.ofFn data) folds = .ok [training, testG, testI]) (m : AnyModel p e) (I : Finset (Fin p)) (s : Flt)
    (h : fitMainF E data solverKnown numsLatent prune folds tG none initial rs = .ok (m, I, s)) (hfew : ¬ Enough testI e) :
    I = Finset.univ ∧ s = none := by
  have key : ∀ fit graph obj, targetPhaseF E fit none testI graph obj = .ok (m, I, s) → I = Finset.univ ∧ s = none := by
    intro fit graph obj h
    unfold targetPhaseF at h
    split at h
    · simp at h
    · rename_i models obj' hp
      split at h
      · simp at h
      · rename_i scores hs
        split at h
        · simp at h
        · rename_i s' m' I' hb
          cases h
          rw [foldScores_none hfew _ _ hs] at hb
          obtain ⟨x, hx1, hx2⟩ := bestScoring_none hb
          simp only [Prod.mk.injEq] at hx2
          obtain ⟨rfl, rfl⟩ := hx2
          refine ⟨?_, rfl⟩
          unfold pruneI at hp
          split at hp
          · simp at hp
          · simp only at hp
            split at hp
            · simp at hp
            · simp only [Except.ok.injEq, Prod.mk.injEq] at hp
              rw [← hp.1] at hx1
              simp only [List.head?_cons, Option.some.injEq, Prod.mk.injEq] at hx1
              exact hx1.2.symm
  unfold fitMainF at h
  rw [hsplit] at h
  simp only at h
  split at h
  · simp at h
  · split at h
    · simp at h
    · split at h
      · simp at h
      · split at h
        · simp at h
        · simp at h
        · exact key _ _ _ h

theorem foldScores_single {β : Type} {fold : List (Sample p)} (h : Single fold e) {model : β → AnyModel p e} {l : List β} (hl : l ≠ [])
    (r : List (Flt × β)) : foldScores fold model l ≠ .ok r := by
  intro hr
  cases l with
  | nil => exact hl rfl
  | cons x l =>
    simp only [foldScores] at hr
    split at hr
    · simp at hr
    · rename_i s hs
      exact scoreFold_single h _ _ hs

/-- C98: if some environment has exactly one observation in the second or in the third fold, no result is returned. -/
theorem C98_single (E : FitEnv p e) (hfit : ∀ d h, GoodFit (E.fit d h)) (data : Fin e → Sample p)
    (solverKnown : Bool) (numsLatent : Option (List Nat)) (prune : Bool) (folds : List Rat) (initial : Option (List (Adj p))) (tI : Option ℝ) (rs : Int)
    (training testG testI : List (Sample p)) (hsplit : splitData (E.rng rs) (List.ofFn data) folds = .ok [training, testG, testI])
    (hG : ∀ graphs, initialGraphs E initial training = .ok graphs → ∀ G ∈ graphs, Nonneg G)
    (hone : Single testG e ∨ Single testI e) (r : AnyModel p e × Finset (Fin p) × Flt) :
    fitMainF E data solverKnown numsLatent prune folds none tI initial rs ≠ .ok r := by
  intro h
  unfold fitMainF at h
  rw [hsplit] at h
  simp only at h
  split at h
  · simp at h
  · rename_i graphs hgr
    have hG' := hG _ hgr
    split at h
    · simp at h
    · rename_i ns hns
      split at h
      · simp at h
      · rename_i results hl
        split at h
        · simp at h
        · simp at h
        · rename_i s0 n graph obj tl hsort
          rcases hone with hone | hone
          · cases ns with
            | nil =>
              simp only [latentLoopF, Except.ok.injEq] at hl
              subst hl
              simp [sortedM, countRun, insertAll] at hsort
            | cons n ns =>
              simp only [latentLoopF] at hl
              split at hl
              · simp at hl
              · split at hl
                · simp at hl
                · rename_i models obj hm
                  obtain ⟨m, hm1, -⟩ := pruneGraphs_head (hfit _ n) hG' (ScoreObj.ok_new E.it _ 0) hm
                  split at hl
                  · simp at hl
                  · rename_i scores hs
                    exact foldScores_single hone (by rintro rfl; simp at hm1) _ hs
          · unfold targetPhaseF at h
            split at h
            · simp at h
            · rename_i models obj' hm
              split at h
              · simp at h
              · rename_i scores hs
                have hne : models ≠ [] := by
                  rintro rfl
                  unfold pruneI at hm
                  split at hm
                  · simp at hm
                  · simp only at hm
                    split at hm
                    · split_ifs at hm
                      split at hm <;> simp at hm
                    · split at hm <;> simp at hm
                exact foldScores_single hone hne _ hs

/-! ## No error is raised -/

theorem scoreLoopF_ok {IB : Matrix (Fin p) (Fin p) ℝ} {Ms : Fin e → Matrix (Fin p) (Fin p) ℝ} {nObs : List Nat} (hn : nObs.length = e)
    (covs : List (CovArray p)) (hc : .scalar ∉ covs) : ∀ i s, i + covs.length ≤ e → ∃ t, scoreLoopF IB Ms nObs i covs s = .ok t := by
  induction covs with
  | nil => intro i s _; exact ⟨s, rfl⟩
  | cons c covs ih =>
    intro i s h
    simp only [List.length_cons] at h
    simp only [scoreLoopF, List.getElem?_eq_getElem (show i < nObs.length by omega), dif_pos (show i < e by omega)]
    have ih' := ih (fun h => hc (List.mem_cons_of_mem _ h))
    cases c with
    | scalar => simp at hc
    | nans => exact ih' _ _ (by omega)
    | matrix S => exact ih' _ _ (by omega)

/-- A model that has a score on some data has one on every fold in which no environment has exactly one observation. -/
theorem scoreFold_ok {d : Data p e} {m : AnyModel p e} (h : ∃ t, m.scoreOn d = .ok t) {fold : List (Sample p)} (hf : ¬ Single fold e) :
    ∃ t, m.scoreFold fold = .ok t := by
  obtain ⟨t, ht⟩ := h
  unfold AnyModel.scoreOn LModel.score at ht
  unfold AnyModel.scoreFold
  split at ht
  · simp at ht
  · rename_i Ms hM
    simp only [hM]
    refine scoreLoopF_ok (by simp) _ ?_ _ _ (by simp)
    intro hmem
    obtain ⟨k, hk⟩ := List.mem_ofFn.1 hmem
    unfold npCovF at hk
    split_ifs at hk with h0 h1
    exact hf ⟨k, k.isLt, h1⟩

theorem foldScores_ok {β : Type} {fold : List (Sample p)} {model : β → AnyModel p e} (l : List β)
    (h : ∀ x ∈ l, ∃ s, (model x).scoreFold fold = .ok s) : ∃ r, foldScores fold model l = .ok r := by
  induction l with
  | nil => exact ⟨[], rfl⟩
  | cons x l ih =>
    obtain ⟨s, hs⟩ := h x (by simp)
    obtain ⟨r, hr⟩ := ih (fun y hy => h y (by simp [hy]))
    simp only [foldScores, hs, hr]
    exact ⟨_, rfl⟩

theorem latentLoopF_returns {it : SetIter p} {fit : Nat → Fitter p e} {prune : Bool} {graphs : List (Adj p)} {d : Data p e}
    {test : List (Sample p)} (ht : ¬ Enough test e) (ht1 : ¬ Single test e)
    (hne : graphs ≠ []) (hG : ∀ G ∈ graphs, Nonneg G) (ns : List Nat) (hg : ∀ n, GoodFit (fit n))
    (hf : ∀ n ∈ ns, ∀ G ∈ graphs, FitsAndScores it (fit n) [d] G)
    (hB : prune = true → ∀ h ∈ ns, ∀ G ∈ graphs, KeepsWeights (fit h) G) :
    ∀ results, ∃ r, latentLoopF it fit (.ok ()) prune none graphs test ns results = .ok r := by
  induction ns with
  | nil => intro results; exact ⟨_, rfl⟩
  | cons n ns ih =>
    intro results
    have hgn := hg n
    obtain ⟨⟨ms, obj⟩, h1⟩ := pruneGraphsLoop_returns (it := it) hgn (prune := prune) graphs ⟨0, []⟩ (ScoreObj.ok_new it _ 0)
      (fun G hm => ⟨hG G hm, fun k H hH hs => by
        obtain ⟨m, s, m', k1, k2, -⟩ := hf n (by simp) G hm k H Finset.univ hH hs
        exact ⟨m, s, m', k1, k2⟩⟩) (fun hp => hB hp n (by simp))
    have h1' : pruneGraphs it (fit n) prune none graphs ⟨0, []⟩ = .ok (ms, obj) := by
      unfold pruneGraphs
      rw [if_neg (by simpa using hne), h1]
    obtain ⟨g1, g2⟩ := pruneGraphs_fitted hgn hG (ScoreObj.ok_new it _ 0) h1'
    obtain ⟨-, -, -, g4⟩ := pruneGraphs_spec hgn hG (ScoreObj.ok_new it _ 0) h1'
    obtain ⟨scores, h2⟩ := foldScores_ok (fold := test) (model := id) ms (fun m hm => by
      obtain ⟨s, hs⟩ := g2 m hm
      obtain ⟨-, G, hGm, hsub, -⟩ := g4 m hm
      refine scoreFold_ok (fitted_scores (d := d) (hf n (by simp) G hGm) ?_ hsub hs (by simp)) ht1
      intro a b
      rcases hsub a b with hc | hc
      · rw [hc]; exact hG G hGm a b
      · rw [hc])
    have hsc := foldScores_none ht _ _ h2
    obtain ⟨i, t, h3, -⟩ := bestScoring_spec (tuples := scores.map (fun x => (x.1, x.2.A))) (by rw [hsc]; simpa using g1)
    obtain ⟨s, A⟩ := t
    rw [latentLoopF]
    simp only [h1', h2, h3]
    exact ih (fun k hk => hf k (by simp [hk])) (fun hp k hk => hB hp k (by simp [hk])) _

/-- C98: no error is raised: under the conditions of C72 on the candidates and on the fits to the training data (in particular, the training
fold has no environment with a single observation), `_fit` returns if the second fold of some environment is empty and no environment has
exactly one observation in the second or third fold; so the result is the one described by `C98_too_few`. -/
theorem C98_silent (E : FitEnv p e) (candidates : List (Adj p)) (hne : candidates ≠ []) (hG : ∀ G ∈ candidates, Nonneg G)
    (data : Fin e → Sample p) (pruneEdges : Bool) (ns : List Nat) (hns : ns ≠ []) (folds : List Rat) (rs : Int)
    (training testG testI : List (Sample p)) (hsplit : splitData (E.rng rs) (List.ofFn data) folds = .ok [training, testG, testI])
    (htr : ∀ s ∈ training, s.length ≠ 1) (hfit : ∀ d h, GoodFit (E.fit d h)) (harg : ∀ f, IsArgsort f (E.argsort f)) (d : Data p e)
    (hf : ∀ n ∈ ns, ∀ G ∈ candidates, FitsAndScores E.it (E.fit (foldData E.cov training e) n) [d] G)
    (hB : pruneEdges = true → ∀ h ∈ ns, ∀ G ∈ candidates, KeepsWeights (E.fit (foldData E.cov training e) h) G)
    (hfew : ¬ Enough testG e) (honeG : ¬ Single testG e) (honeI : ¬ Single testI e) :
    ∃ r, fitMainF E data true (some ns) pruneEdges folds none none (some candidates) rs = .ok r := by
  have hctor := scoreCtor_ok htr
  obtain ⟨results, h1⟩ := latentLoopF_returns (it := E.it) (fit := E.fit (foldData E.cov training e)) (prune := pruneEdges) hfew honeG hne hG ns
    (fun n => hfit _ n) hf hB []
  obtain ⟨k1, k2⟩ := latentLoopF_none (fun n => hfit _ n) hG hfew ns [] results (by simp) h1
  have hsort := sortedM_none (results.map (fun r => (r.2.1, r.1, r.2.2.1, r.2.2.2))) (by
    intro x hx
    obtain ⟨r, hr, rfl⟩ := List.mem_map.1 hx
    exact (k1 r hr).1)
  cases results with
  | nil =>
    cases ns with
    | nil => exact absurd rfl hns
    | cons n ns => simp at k2
  | cons r results =>
    obtain ⟨n, sc, graph, obj⟩ := r
    simp only [List.map_cons, List.head?_cons, List.map_nil, List.nil_append] at k2
    have hn : n ∈ ns := List.mem_of_mem_head? k2.symm
    obtain ⟨-, a2, a3⟩ := k1 (n, sc, graph, obj) (by simp)
    have hGm : graph ∈ candidates := List.mem_of_mem_head? a2
    obtain ⟨⟨pm, obj'⟩, t1⟩ := C57_returns E.it E.argsort (E.fit (foldData E.cov training e) n) graph obj a3 (fun k I => by
      obtain ⟨m, s, m', k1, k2, -⟩ := hf n hn graph hGm k graph I (hG _ hGm) (fun a b => Or.inl rfl)
      exact ⟨m, s, m', k1, k2⟩)
    obtain ⟨⟨m0, f1⟩, f2⟩ := pruneI_fitted harg a3 t1
    obtain ⟨ts, t2⟩ := foldScores_ok (fold := testI) (model := Prod.fst) pm (fun x hx => by
      obtain ⟨sf, hs⟩ := f2 x hx
      exact scoreFold_ok (fitted_scores (d := d) (hf n hn graph hGm) (hG _ hGm) (fun a b => Or.inl rfl) hs (by simp)) honeI)
    have htne : ts ≠ [] := by
      rintro rfl
      cases pm with
      | nil => simp at f1
      | cons x pm =>
        simp only [foldScores] at t2
        split at t2
        · simp at t2
        · split at t2 <;> simp at t2
    obtain ⟨i, t, t3, -⟩ := bestScoring_spec htne
    obtain ⟨s, m, I⟩ := t
    refine ⟨(m, I, s), ?_⟩
    unfold fitMainF
    rw [List.map_cons] at hsort
    simp only [hsplit, initialGraphs, latentNumbers, hctor, h1, List.map_cons]
    simp only [hsort, targetPhaseF, t1, t2, t3]

theorem exSplit1 {α : Type} (rng : Nat → Rng) (l : List α) :
    splitData rng (List.ofFn (fun _ : Fin 1 => l)) [1, 0, 0] = .ok [[(rng 0).shuffle l], [[]], [[]]] := by
  have hs : ((rng 0).shuffle l).length = l.length := ((rng 0).shuffle_perm l).length_eq
  have r1 : pyRound ((l.length : Int) : Rat) = l.length := pyRound_int l.length
  have r2 : pyRound (0 : Rat) = 0 := pyRound_int 0
  have hr : List.range 3 = [0, 1, 2] := by decide
  push_cast at r1
  have b0 : sliceBound l.length 0 = 0 := by simp [sliceBound]
  have b1 : sliceBound l.length l.length = l.length := by simp [sliceBound]
  unfold splitData
  rw [if_neg (by norm_num)]
  simp [splitSample, hs, pySlice, List.zipIdx]
  norm_num [r1, r2, b0, b1, hr]
  exact hs.le

/-- An example for C98: with the folds `[1, 0, 0]`, every list of candidate DAGs and every list of numbers of latents, the run returns with the
first candidate, the first number of latents and all variables as targets. -/
theorem exEnv_noTest (candidates : List (Adj p)) (hne : candidates ≠ []) (hG : ∀ G ∈ candidates, Nonneg G ∧ Acyclic G)
    (l : Sample p) (hl : 2 ≤ l.length) (pruneEdges : Bool) (ns : List Nat) (hns : ns ≠ []) (rs : Int) :
    ∃ m, fitMainF (exEnv p) (fun _ => l) true (some ns) pruneEdges [1, 0, 0] none none (some candidates) rs =
      .ok (m, Finset.univ, none) ∧ candidates.head? = some m.A ∧ ns.head? = some m.1 := by
  have hs : (((exEnv p).rng rs 0).shuffle l).length = l.length := (((exEnv p).rng rs 0).shuffle_perm l).length_eq
  have g1 := exEnv_data [((exEnv p).rng rs 0).shuffle l] _ rfl (by omega)
  have few : ¬ Enough [([] : Sample p)] 1 := by
    intro h
    have := h 0 (by norm_num)
    simp at this
  have one : ¬ Single [([] : Sample p)] 1 := by
    rintro ⟨k, hk, h⟩
    obtain rfl : k = 0 := by omega
    simp at h
  have hsplit := exSplit1 ((exEnv p).rng rs) l
  obtain ⟨⟨m, I, s⟩, h⟩ := C98_silent (exEnv p) candidates hne (fun G h => (hG G h).1) (fun _ => l) pruneEdges ns hns _ rs _ _ _ hsplit
    (by simp [hs]; omega) (fun d h => varFit_good _ d h) insArgsort_spec _ (fun n _ G hGm => varFit_fits _ _ g1 n [_] (by
      intro t ht
      rw [List.mem_singleton] at ht
      rw [ht]
      exact g1) G (hG G hGm).2) (by
      rintro - h _ G _ n H m s - - hm ⟨a, b, hab⟩ h0
      rw [(varFit_fields (n := n) (I := Finset.univ) hm).2.2.2.1] at h0
      have := congrFun (congrFun h0 a) b
      simp at this
      exact hab this) few one one
  obtain ⟨q1, q2, q3⟩ := C98_too_few (exEnv p) (fun d h => varFit_good _ d h)
    (fun d h n A I m s hm => (varFit_fields (n := n) (I := I) hm).2.1) insArgsort_spec _ true _ pruneEdges _ _ rs _ _ _ candidates ns hsplit rfl
    (fun G h => (hG G h).1) rfl m I s h few
  obtain ⟨rfl, rfl, -⟩ := q3 few
  exact ⟨m, h, q1, q2⟩

example : ∃ m, fitMainF (exEnv 2) (fun _ => List.replicate 4 0) true (some [2, 1]) true [1, 0, 0] none none
    (some [![![0, 1], ![0, 0]], ![![0, 0], ![0, 0]]]) 42 = .ok (m, Finset.univ, none) ∧ m.A = ![![0, 1], ![0, 0]] ∧ m.1 = 2 := by
  have hn : ∀ G ∈ [(![![0, 1], ![0, 0]] : Adj 2), ![![0, 0], ![0, 0]]], Nonneg G ∧ Acyclic G := by
    intro G hG
    simp only [List.mem_cons, List.not_mem_nil, or_false] at hG
    rcases hG with rfl | rfl
    · have : Nonneg (![![0, 1], ![0, 0]] : Adj 2) := by unfold Nonneg; decide
      exact ⟨this, (isDag_iff (SetIter.incr 2) this).1 (by decide)⟩
    · have : Nonneg (![![0, 0], ![0, 0]] : Adj 2) := by unfold Nonneg; decide
      exact ⟨this, (isDag_iff (SetIter.incr 2) this).1 (by decide)⟩
  obtain ⟨m, h1, h2, h3⟩ := exEnv_noTest _ (by simp) hn (List.replicate 4 (0 : Fin 2 → ℝ)) (by simp) true [2, 1] (by simp) 42
  simp only [List.head?_cons, Option.some.injEq] at h2 h3
  exact ⟨m, h1, h2.symm, h3.symm⟩

-- one observation in the third fold: 3 observations with the folds [2/3, 0, 1/3]
example : Single [([![1, 2]] : Sample 2)] 1 := ⟨0, by norm_num, rfl⟩

end Verif
