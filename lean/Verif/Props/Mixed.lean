import Verif.Props.History
import Verif.Props.ScoreStale

/-!
# C90: which objects are compared on the validation folds
-/

namespace Verif

open Spec Matrix

variable {p e : Nat}

/-- The object that the fitting procedure itself returned. -/
def Spec.Direct (fit : Fitter p e) (A : Adj p) (I : Finset (Fin p)) (m : AnyModel p e) : Prop := ∃ n s, fit n A I = .ok (m, s)

/-- An object built by the constructor from the parameters of a fitted model, so that its matrix `I - B^T` belongs to its weights. -/
def Spec.Rebuilt (it : SetIter p) (fit : Fitter p e) (A : Adj p) (I : Finset (Fin p)) (m : AnyModel p e) : Prop :=
  m.2.IB = 1 - m.2.Bᵀ ∧ ∃ n s m0, fit n A I = .ok (m0, s) ∧ m0.copy it = .ok m

theorem copy_IB {it : SetIter p} {m m' : AnyModel p e} (h : m.copy it = .ok m') : m'.2.IB = 1 - m'.2.Bᵀ := by
  unfold AnyModel.copy at h
  split at h
  · simp at h
  · rename_i m1 h1
    cases h
    obtain ⟨-, -, rfl⟩ := mkModel_fields h1
    rfl

/-- A call either finds the pair in the cache and returns the stored object, or fits a model and returns that object. -/
theorem scoreObj_cases {it : SetIter p} {fit : Fitter p e} {obj obj' : ScoreObj p e} (ho : obj.Ok it fit) {A : Adj p}
    {I : Finset (Fin p)} {m : AnyModel p e} {s : Flt} (h : obj.scoreDag it fit A I = .ok ((m, s), obj')) :
    ((∃ en ∈ obj.cache, IsKey A I en) ∧ Rebuilt it fit A I m ∧ obj'.cache = obj.cache) ∨
      ((∀ en ∈ obj.cache, ¬ IsKey A I en) ∧ Direct fit A I m ∧ ∃ m', obj'.cache = obj.cache ++ [⟨A, I, s, m'⟩]) := by
  obtain ⟨hu, he⟩ := ho
  unfold ScoreObj.scoreDag at h
  split at h
  · simp at h
  · rename_i r c hr
    simp only [Except.ok.injEq, Prod.mk.injEq] at h
    obtain ⟨rfl, rfl⟩ := h
    unfold Verif.scoreDag at hr
    simp only [cacheRead_spec _ hu] at hr
    cases hf : obj.cache.find? (fun en => decide (IsKey A I en)) with
    | some en =>
      rw [hf] at hr
      simp only [Option.map_some, Except.ok.injEq, Prod.mk.injEq] at hr
      obtain ⟨⟨rfl, rfl⟩, rfl⟩ := hr
      have hmem := List.mem_of_find?_eq_some hf
      have hk : IsKey A I en := by simpa using List.find?_some hf
      obtain ⟨n, m0, h1, h2⟩ := he en hmem
      refine Or.inl ⟨⟨en, hmem, hk⟩, ⟨copy_IB h2, n, en.score, m0, ?_, h2⟩, rfl⟩
      rw [← hk.1, ← hk.2]
      exact h1
    | none =>
      rw [hf] at hr
      simp only [Option.map_none] at hr
      have hno : ∀ en ∈ obj.cache, ¬ IsKey A I en := by simpa using List.find?_eq_none.1 hf
      cases hfit : fit obj.calls A I with
      | error err => rw [hfit] at hr; simp at hr
      | ok r =>
        obtain ⟨m0, s0⟩ := r
        rw [hfit] at hr
        simp only [] at hr
        rw [(cacheWrite_spec (AnyModel.copy it) obj.cache hu A I m0 s0).2 hno] at hr
        cases hc : m0.copy it with
        | error err => rw [hc] at hr; simp at hr
        | ok m1 =>
          rw [hc] at hr
          simp only [Except.ok.injEq, Prod.mk.injEq] at hr
          obtain ⟨⟨rfl, rfl⟩, rfl⟩ := hr
          exact Or.inr ⟨hno, ⟨_, _, hfit⟩, m1, rfl⟩

theorem scoreObj_miss {it : SetIter p} {fit : Fitter p e} {obj : ScoreObj p e} (ho : obj.Ok it fit) {A : Adj p} {I : Finset (Fin p)}
    {m m' : AnyModel p e} {s : Flt} (hk : ∀ en ∈ obj.cache, ¬ IsKey A I en) (h1 : fit obj.calls A I = .ok (m, s)) (h2 : m.copy it = .ok m') :
    obj.scoreDag it fit A I = .ok ((m, s), ⟨obj.calls + 1, obj.cache ++ [⟨A, I, s, m'⟩]⟩) := by
  have hf : obj.cache.find? (fun en => decide (IsKey A I en)) = none := by
    rw [List.find?_eq_none]
    intro en hen
    simp [hk en hen]
  unfold ScoreObj.scoreDag Verif.scoreDag
  simp only [cacheRead_spec _ ho.1, hf, Option.map_none, h1, (cacheWrite_spec (AnyModel.copy it) obj.cache ho.1 A I m s).2 hk, h2]
  rfl

/-! ## The graph phase -/

/-- Every entry has all variables as targets, and every graph in the list has an entry. -/
def AllTargets (obj : ScoreObj p e) (ms : List (AnyModel p e)) : Prop :=
  (∀ en ∈ obj.cache, en.I = Finset.univ) ∧ ∀ m ∈ ms, ∃ en ∈ obj.cache, IsKey m.A Finset.univ en

theorem allTargets_step {it : SetIter p} {fit : Fitter p e} (hg : GoodFit fit) {obj obj' : ScoreObj p e} (ho : obj.Ok it fit)
    {ms : List (AnyModel p e)} (ha : AllTargets obj ms) {A : Adj p} {m : AnyModel p e} {s : Flt}
    (h : obj.scoreDag it fit A Finset.univ = .ok ((m, s), obj')) : AllTargets obj' (ms ++ [m]) := by
  obtain ⟨-, h2, en, h3, h4, -⟩ := scoreObj_spec ho h
  have hm := scoreObj_mono ho h
  refine ⟨fun x hx => ?_, fun x hx => ?_⟩
  · rcases scoreObj_cases ho h with ⟨-, -, hc⟩ | ⟨-, -, m', hc⟩
    · rw [hc] at hx
      exact ha.1 x hx
    · rw [hc, List.mem_append, List.mem_singleton] at hx
      rcases hx with hx | rfl
      · exact ha.1 x hx
      · rfl
  · rw [List.mem_append, List.mem_singleton] at hx
    rcases hx with hx | rfl
    · obtain ⟨en', k1, k2⟩ := ha.2 x hx
      exact ⟨en', hm k1, k2⟩
    · rw [(h2.good hg).1]
      exact ⟨en, h3, h4⟩

theorem pruneLoop_allTargets {it : SetIter p} {fit : Fitter p e} (hg : GoodFit fit) {pre : List (AnyModel p e)} {s r : PruneState p e}
    (ho : s.obj.Ok it fit) (ha : AllTargets s.obj (pre ++ s.models)) (hr : runLoop (pruneStep it fit) s = .ok r) :
    r.obj.Ok it fit ∧ AllTargets r.obj (pre ++ r.models) := by
  refine runLoop_ok (P := fun s : PruneState p e => s.obj.Ok it fit ∧ AllTargets s.obj (pre ++ s.models))
    (Q := fun r => r.obj.Ok it fit ∧ AllTargets r.obj (pre ++ r.models)) ?_ ?_ ⟨ho, ha⟩ hr
  · rintro s s' ⟨h1, h2⟩ hs
    unfold pruneStep at hs
    split_ifs at hs
    · split at hs
      · simp at hs
      · simp only at hs
        split at hs
        · simp at hs
        · rename_i m sc obj hsc
          cases hs
          refine ⟨(scoreObj_spec h1 hsc).1, ?_⟩
          have := allTargets_step hg h1 h2 hsc
          rwa [List.append_assoc] at this
    · simp at hs
  · rintro s r ⟨h1, h2⟩ hs
    unfold pruneStep at hs
    split_ifs at hs
    · split at hs
      · simp at hs
      · simp only at hs
        split at hs
        · simp at hs
        · simp at hs
    · cases hs
      exact ⟨h1, h2⟩

theorem pruneGraph_allTargets {it : SetIter p} {fit : Fitter p e} (hg : GoodFit fit) {prune : Bool} {t : Option ℝ}
    {pre ms : List (AnyModel p e)} {obj obj' : ScoreObj p e} {G : Adj p} (ho : obj.Ok it fit) (ha : AllTargets obj pre)
    (h : pruneGraph it fit prune t obj G = .ok (ms, obj')) : obj'.Ok it fit ∧ AllTargets obj' (pre ++ ms) := by
  unfold pruneGraph at h
  split at h
  · simp at h
  · rename_i m sc obj1 h1
    have k1 := (scoreObj_spec ho h1).1
    have k2 := allTargets_step hg ho ha h1
    cases prune with
    | false =>
      simp only [Bool.not_false, if_true] at h
      cases h
      exact ⟨k1, k2⟩
    | true =>
      simp only [Bool.not_true, Bool.false_eq_true, if_false] at h
      cases t with
      | none =>
        simp only at h
        split at h
        · simp at h
        · rename_i r hr
          cases h
          exact pruneLoop_allTargets hg k1 k2 hr
      | some t =>
        simp only at h
        split_ifs at h
        split at h
        · simp at h
        · rename_i m' sc' obj2 h2
          cases h
          refine ⟨(scoreObj_spec k1 h2).1, ?_⟩
          have h3 := allTargets_step hg k1 k2 h2
          exact ⟨h3.1, fun x hx => h3.2 x (by
            simp only [List.mem_append, List.mem_singleton] at hx ⊢
            tauto)⟩

theorem pruneGraphsLoop_allTargets {it : SetIter p} {fit : Fitter p e} (hg : GoodFit fit) {prune : Bool} {t : Option ℝ}
    (graphs : List (Adj p)) : ∀ (pre ms : List (AnyModel p e)) (obj obj' : ScoreObj p e), obj.Ok it fit → AllTargets obj pre →
      pruneGraphsLoop it fit prune t graphs obj = .ok (ms, obj') → obj'.Ok it fit ∧ AllTargets obj' (pre ++ ms) := by
  induction graphs with
  | nil =>
    intro pre ms obj obj' ho ha h
    simp only [pruneGraphsLoop, Except.ok.injEq, Prod.mk.injEq] at h
    obtain ⟨rfl, rfl⟩ := h
    rw [List.append_nil]
    exact ⟨ho, ha⟩
  | cons G graphs ih =>
    intro pre ms obj obj' ho ha h
    simp only [pruneGraphsLoop] at h
    split at h
    · simp at h
    · rename_i ms1 obj1 h1
      split at h
      · simp at h
      · rename_i ms2 obj2 h2
        cases h
        obtain ⟨k1, k2⟩ := pruneGraph_allTargets hg ho ha h1
        obtain ⟨k3, k4⟩ := ih _ _ _ _ k1 k2 h2
        rw [List.append_assoc] at k4
        exact ⟨k3, k4⟩

/-- C90, graph phase without pruning: the model of a candidate is the object returned by the fitting procedure if the candidate was not
listed before, and otherwise an object rebuilt by the constructor. -/
theorem C90_graph_phase (it : SetIter p) (fit : Fitter p e) (t : Option ℝ) (graphs : List (Adj p)) (ms : List (AnyModel p e))
    (obj' : ScoreObj p e) (h : pruneGraphs it fit false t graphs ⟨0, []⟩ = .ok (ms, obj')) :
    ms.length = graphs.length ∧ ∀ i G, graphs[i]? = some G → ∃ m, ms[i]? = some m ∧
      (G ∉ graphs.take i → Direct fit G Finset.univ m) ∧ (G ∈ graphs.take i → Rebuilt it fit G Finset.univ m) := by
  unfold pruneGraphs at h
  split_ifs at h
  have key : ∀ (gs seen : List (Adj p)) (obj obj' : ScoreObj p e) (ms : List (AnyModel p e)), obj.Ok it fit →
      (∀ en ∈ obj.cache, en.I = Finset.univ ∧ en.A ∈ seen) → (∀ G ∈ seen, ∃ en ∈ obj.cache, IsKey G Finset.univ en) →
      pruneGraphsLoop it fit false t gs obj = .ok (ms, obj') →
      ms.length = gs.length ∧ ∀ i G, gs[i]? = some G → ∃ m, ms[i]? = some m ∧
        (G ∉ seen ++ gs.take i → Direct fit G Finset.univ m) ∧ (G ∈ seen ++ gs.take i → Rebuilt it fit G Finset.univ m) := by
    intro gs
    induction gs with
    | nil =>
      intro seen obj obj' ms _ _ _ h
      simp only [pruneGraphsLoop, Except.ok.injEq, Prod.mk.injEq] at h
      obtain ⟨rfl, rfl⟩ := h
      simp
    | cons G gs ih =>
      intro seen obj obj' ms ho h1 h2 h
      simp only [pruneGraphsLoop] at h
      split at h
      · simp at h
      · rename_i ms1 obj1 h3
        split at h
        · simp at h
        · rename_i ms2 obj2 h4
          cases h
          unfold pruneGraph at h3
          split at h3
          · simp at h3
          · rename_i m sc obj3 h5
            simp only [Bool.not_false, if_true] at h3
            cases h3
            obtain ⟨k1, -, en, k2, k3, -⟩ := scoreObj_spec ho h5
            have hc := scoreObj_cases ho h5
            obtain ⟨k4, k5⟩ := ih (seen ++ [G]) _ _ ms2 k1 (fun x hx => by
                rcases hc with ⟨-, -, hc⟩ | ⟨-, -, m', hc⟩
                · rw [hc] at hx
                  exact ⟨(h1 x hx).1, List.mem_append_left _ (h1 x hx).2⟩
                · rw [hc, List.mem_append, List.mem_singleton] at hx
                  rcases hx with hx | rfl
                  · exact ⟨(h1 x hx).1, List.mem_append_left _ (h1 x hx).2⟩
                  · simp)
              (fun x hx => by
                rw [List.mem_append, List.mem_singleton] at hx
                rcases hx with hx | rfl
                · obtain ⟨en', a1, a2⟩ := h2 x hx
                  exact ⟨en', scoreObj_mono ho h5 a1, a2⟩
                · exact ⟨en, k2, k3⟩) h4
            refine ⟨by simp [k4], fun i x hx => ?_⟩
            cases i with
            | zero =>
              simp only [List.getElem?_cons_zero, Option.some.injEq] at hx
              subst hx
              refine ⟨m, rfl, fun hn => ?_, fun hn => ?_⟩
              · simp only [List.take_zero, List.append_nil] at hn
                rcases hc with ⟨⟨en', a1, a2⟩, -⟩ | ⟨-, hd, -⟩
                · exact absurd (a2.1 ▸ (h1 en' a1).2) hn
                · exact hd
              · simp only [List.take_zero, List.append_nil] at hn
                rcases hc with ⟨-, hd, -⟩ | ⟨hno, -⟩
                · exact hd
                · obtain ⟨en', a1, a2⟩ := h2 G hn
                  exact absurd a2 (hno en' a1)
            | succ i =>
              simp only [List.getElem?_cons_succ] at hx
              obtain ⟨m', b1, b2, b3⟩ := k5 i x hx
              rw [List.append_assoc, List.singleton_append] at b2 b3
              exact ⟨m', by simpa using b1, by simpa using b2, by simpa using b3⟩
  have := key graphs [] ⟨0, []⟩ obj' ms (ScoreObj.ok_new it fit 0) (by simp) (by simp) h
  simpa using this

/-! ## The target phase -/

theorem pruneILoop_direct {it : SetIter p} {fit : Fitter p e} {graph : Adj p} (order : List (Fin p)) :
    ∀ (I : Finset (Fin p)) (obj obj' : ScoreObj p e) (ms : List (AnyModel p e × Finset (Fin p))), obj.Ok it fit →
      (∀ en ∈ obj.cache, I ⊆ en.I) → order.Nodup → (∀ j ∈ order, j ∈ I) →
      pruneILoop it fit graph order I obj = .ok (ms, obj') → ∀ x ∈ ms, x.2 ≠ I ∧ Direct fit graph x.2 x.1 := by
  induction order with
  | nil =>
    intro I obj obj' ms _ _ _ _ h
    simp only [pruneILoop, Except.ok.injEq, Prod.mk.injEq] at h
    obtain ⟨rfl, rfl⟩ := h
    simp
  | cons j order ih =>
    intro I obj obj' ms ho h1 h2 h3 h
    simp only [pruneILoop] at h
    split at h
    · simp at h
    · rename_i m sc obj1 h4
      split at h
      · simp at h
      · rename_i ms1 obj2 h5
        cases h
        have hj : j ∈ I := h3 j (by simp)
        have hno : ∀ en ∈ obj.cache, ¬ IsKey graph (I.erase j) en := by
          rintro en hen ⟨-, hk⟩
          have := h1 en hen hj
          rw [hk] at this
          simp at this
        rcases scoreObj_cases ho h4 with ⟨⟨en, a1, a2⟩, -⟩ | ⟨-, hd, m', hc⟩
        · exact absurd a2 (hno en a1)
        · obtain ⟨hj', hn⟩ := List.nodup_cons.1 h2
          have hih := ih (I.erase j) _ _ ms1 (scoreObj_spec ho h4).1 (fun en hen => by
              rw [hc, List.mem_append, List.mem_singleton] at hen
              rcases hen with hen | rfl
              · exact (Finset.erase_subset _ _).trans (h1 en hen)
              · exact Finset.Subset.refl _) hn
            (fun k hk => Finset.mem_erase.2 ⟨fun hkj => hj' (hkj ▸ hk), h3 k (by simp [hk])⟩) h5
          have hsub := (pruneILoop_spec _ _ _ _ _ (scoreObj_spec ho h4).1 h5)
          intro x hx
          rcases List.mem_cons.1 hx with rfl | hx
          · exact ⟨fun hc => by have := hc ▸ hj; simp at this, hd⟩
          · refine ⟨fun hc => ?_, (hih x hx).2⟩
            obtain ⟨i, hi⟩ := List.getElem?_of_mem hx
            have hlt : i < order.length := by
              rw [← hsub.2.1]
              exact (List.getElem?_eq_some_iff.1 hi).1
            obtain ⟨m1, s1, b1, -⟩ := hsub.2.2 i hlt
            rw [hi] at b1
            simp only [Option.some.injEq] at b1
            rw [b1] at hc
            have := hc.symm ▸ hj
            simp at this

/-- C90: in every run of `_fit` that returns (with the default thresholds), the target phase compares the objects in a list: the one with all
variables as targets was rebuilt by the constructor (it comes from the cache), and all others are the objects that the fitting procedure
returned.  The result is one of them with the best score. -/
theorem C90_target_phase (E : FitEnv p e) (hfit : ∀ d h, GoodFit (E.fit d h)) (harg : ∀ f, IsArgsort f (E.argsort f))
    (data : Fin e → Sample p) (solverKnown : Bool) (numsLatent : Option (List Nat)) (prune : Bool) (folds : List Rat) (tG : Option ℝ)
    (initial : Option (List (Adj p))) (rs : Int) (m : AnyModel p e) (I : Finset (Fin p)) (s : Flt)
    (h : fitMain E data solverKnown numsLatent prune folds tG none initial rs = .ok (m, I, s)) :
    ∃ (training testG testI : List (Sample p)) (n : Nat) (graph : Adj p) (m0 : AnyModel p e) (ms : List (AnyModel p e × Finset (Fin p))),
      splitData (E.rng rs) (List.ofFn data) folds = .ok [training, testG, testI] ∧ ms.length = p ∧
      Rebuilt E.it (E.fit (foldData E.cov training e) n) graph Finset.univ m0 ∧
      (∀ x ∈ ms, x.2 ≠ Finset.univ ∧ Direct (E.fit (foldData E.cov training e) n) graph x.2 x.1) ∧
      (m, I) ∈ (m0, Finset.univ) :: ms ∧ m.scoreOn (foldData E.cov testI e) = .ok s ∧
      ∀ x ∈ (m0, Finset.univ) :: ms, ∃ sx, x.1.scoreOn (foldData E.cov testI e) = .ok sx ∧ AtMost s sx := by
  obtain ⟨training, testG, testI, graphs, ns, results, sc, n, graph, obj, rest, h1, -, -, h4, h5, h6⟩ := fitMain_ok h
  obtain ⟨k1, k2, -⟩ := latentLoop_spec ns [] results (by simp) (by simp) h4
  obtain ⟨r, k4, k5, -⟩ := sortedM_ok (results.map (fun r => (r.2.1, r.1, r.2.2.1, r.2.2.2))) (by rw [List.map_map]; exact k1)
  rw [h5] at k4
  cases k4
  have hmem : (n, (sc, graph, obj)) ∈ results := by
    have := k5.mem_iff.1 (List.mem_cons_self (a := (sc, n, graph, obj)) (l := rest))
    obtain ⟨⟨a, b, c, d⟩, h7, h8⟩ := List.mem_map.1 this
    simp only [Prod.mk.injEq] at h8
    obtain ⟨rfl, rfl, rfl, rfl⟩ := h8
    exact h7
  obtain ⟨gm, gs, g1, g2, g3⟩ := k2 _ hmem
  simp only at g1 g2 g3
  unfold pruneGraphs at g1
  split_ifs at g1
  obtain ⟨o1, o2⟩ := pruneGraphsLoop_allTargets (hfit _ n) graphs [] gm ⟨0, []⟩ obj (ScoreObj.ok_new E.it _ 0)
    ⟨by simp, by simp⟩ g1
  rw [List.nil_append] at o2
  have hgraph : ∃ x ∈ gm, x.A = graph := by
    obtain ⟨x, hx, hxe⟩ := List.mem_map.1 (bestScoring_mem g3)
    simp only [Prod.mk.injEq] at hxe
    refine ⟨x.2, ?_, hxe.2⟩
    rw [← (testScores_spec gm g2).1]
    exact List.mem_map_of_mem hx
  obtain ⟨x, hx, rfl⟩ := hgraph
  obtain ⟨en, c1, c2⟩ := o2.2 x hx
  obtain ⟨models, obj', scores, t1, t2, t3⟩ := targetPhase_ok h6
  obtain ⟨q1, q2⟩ := testScores_spec models t2
  have hin := bestScoring_mem t3
  have hbest : ∀ t ∈ scores, AtMost s t.1 := by
    intro t ht
    obtain ⟨i', t', z1, -, z3, -⟩ := bestScoring_spec (List.ne_nil_of_mem ht)
    rw [t3] at z1
    cases z1
    exact atMost_iff.1 (z3 t ht)
  unfold pruneI at t1
  rw [scoreObj_hit o1 c1 c2] at t1
  simp only at t1
  split at t1
  · simp at t1
  · rename_i ms obj2 t4
    cases t1
    obtain ⟨n0, mf, f1, f2⟩ := o1.2 en c1
    have hok : ScoreObj.Ok E.it (E.fit (foldData E.cov training e) n) ⟨obj.calls + 1, obj.cache⟩ := o1
    obtain ⟨hp, -⟩ := harg (varEnv en.model.omegas)
    have hn : (E.argsort (varEnv en.model.omegas)).Nodup := hp.nodup_iff.2 (List.nodup_finRange p)
    have hlen := (pruneILoop_spec _ _ _ _ _ hok t4).2.1
    refine ⟨training, testG, testI, n, x.A, en.model, ms, h1, ?_, ⟨copy_IB f2, n0, en.score, mf, ?_, f2⟩, ?_, ?_, ?_, ?_⟩
    · rw [hlen, hp.length_eq, List.length_finRange]
    · rw [← c2.1, ← c2.2]
      exact f1
    · exact pruneILoop_direct _ _ _ _ _ hok (fun y hy => by rw [o2.1 y hy]) hn (by simp) t4
    · rw [← q1]
      exact List.mem_map_of_mem (f := Prod.snd) hin
    · exact q2 _ hin
    · intro y hy
      rw [← q1] at hy
      obtain ⟨t, ht, rfl⟩ := List.mem_map.1 hy
      exact ⟨t.1, q2 t ht, hbest t ht⟩

/-- C90, with the fitting procedure of the code: an object returned by it does not score its own weights but those from before the last
iteration (C52). -/
theorem C90_direct_stale (it : SetIter p) (svd : Matrix (Fin p) (Fin p) ℝ → Matrix (Fin p) (Fin p) ℝ × (Fin p → ℝ)) (num : NumLib p e)
    (cfg : ScoreCfg) (u v : Nat → Nat → Nat → Fin (p * p) → ℝ) (d : Data p e) (n : Nat) (A : Adj p) (I : Finset (Fin p))
    (m : AnyModel p e) (h : Direct (codeFit it svd num cfg u v d n) A I m) :
    ∃ (k j : Nat) (m0 prev cur : LModel p n e), m = ⟨n, cur⟩ ∧
      iterates (altBody it (codeSolvers it num cfg d (u n j) (v n j) I)) m0 k = .ok prev ∧
      iterates (altBody it (codeSolvers it num cfg d (u n j) (v n j) I)) m0 (k + 1) = .ok cur ∧ cur.IB = 1 - prev.Bᵀ := by
  obtain ⟨j, s, h⟩ := h
  unfold codeFit at h
  split at h
  · simp at h
  · rename_i cur sc h0
    cases h
    obtain ⟨-, m0, h1, -⟩ := fitDag_ok h0
    obtain ⟨k, hk, h2, -⟩ := C44_run h1
    obtain ⟨i, rfl⟩ : ∃ i, k = i + 1 := ⟨k - 1, by omega⟩
    have h3 := h2
    rw [iterates] at h3
    split at h3
    · simp at h3
    · rename_i prev hprev
      exact ⟨i, j, m0, prev, cur, rfl, hprev, h2, (altBody_ok h3).2.2.1⟩

/-! ## The objects really score differently -/

section Violated

variable (it : SetIter 2) (svd : Matrix (Fin 2) (Fin 2) ℝ → Matrix (Fin 2) (Fin 2) ℝ × (Fin 2 → ℝ))
  (u v : Nat → Nat → Nat → Fin (2 * 2) → ℝ)

/-- The fitting procedure of the code with the solver and settings of the example of C52, without latents. -/
noncomputable def staleFit : Fitter 2 2 := codeFit it svd StaleEx.num StaleEx.cfg u v StaleEx.data 0

theorem staleFit_ok (n : Nat) (I : Finset (Fin 2)) (hI : 1 ∈ I) : ∃ (m : LModel 2 0 2) (s : Flt),
    staleFit it svd u v n StaleEx.graph I = .ok (⟨0, m⟩, s) ∧ m.A = StaleEx.graph ∧ m.B = StaleEx.B1 ∧ m.omegas = StaleEx.om ∧
      m.IB = 1 - StaleEx.B0ᵀ := by
  obtain ⟨m, s, h1, h2⟩ := StaleEx.run_targets it svd (u 0 n) (v 0 n) I hI
  refine ⟨m, some s, ?_, h2⟩
  unfold staleFit codeFit
  unfold fitCode at h1
  rw [h1]

theorem stale_copy {m : LModel 2 0 2} (hA : m.A = StaleEx.graph) (hB : m.B = StaleEx.B1) :
    AnyModel.copy (e := 2) it ⟨0, m⟩ = .ok ⟨0, ⟨StaleEx.graph, m.B, m.gamma, m.omegas, m.psis, 1 - m.Bᵀ⟩⟩ := by
  have hresp : Respects StaleEx.graph m.B := by
    rw [hB]
    intro i j hij
    fin_cases i <;> fin_cases j <;> simp_all [StaleEx.graph, StaleEx.B1]
  have h1 : m.copy it = .ok ⟨StaleEx.graph, m.B, m.gamma, m.omegas, m.psis, 1 - m.Bᵀ⟩ := by
    unfold LModel.copy
    rw [hA]
    exact mkModel_eq_ok StaleEx.nonneg _ _ _ StaleEx.acyclic hresp
  unfold AnyModel.copy
  rw [h1]

/-- C90 is violated in the graph phase: if a candidate DAG is listed twice, its two models have the same parameters but different scores. -/
theorem C90_violated_duplicate : ∃ (m m' : LModel 2 0 2) (obj : ScoreObj 2 2) (s s' : ℝ),
    pruneGraphs it (staleFit it svd u v) false none [StaleEx.graph, StaleEx.graph] ⟨0, []⟩ = .ok ([⟨0, m⟩, ⟨0, m'⟩], obj) ∧
      m'.A = m.A ∧ m'.B = m.B ∧ m'.gamma = m.gamma ∧ m'.omegas = m.omegas ∧ m'.psis = m.psis ∧
      m.scoreOn StaleEx.data = .ok (some s) ∧ m'.scoreOn StaleEx.data = .ok (some s') ∧ s < s' := by
  obtain ⟨m, sf, h1, hA, hB, hO, hI⟩ := staleFit_ok it svd u v 0 Finset.univ (Finset.mem_univ _)
  obtain ⟨s, s', e1, e2, hlt⟩ := StaleEx.scores m hB hO hI
  have hc := stale_copy it hA hB
  have c1 : (⟨0, []⟩ : ScoreObj 2 2).scoreDag it (staleFit it svd u v) StaleEx.graph Finset.univ =
      .ok ((⟨0, m⟩, sf), ⟨1, [⟨StaleEx.graph, Finset.univ, sf, ⟨0, ⟨StaleEx.graph, m.B, m.gamma, m.omegas, m.psis, 1 - m.Bᵀ⟩⟩⟩]⟩) := by
    unfold ScoreObj.scoreDag Verif.scoreDag
    simp [cacheRead, cacheFind, h1, cacheWrite, hc]
  have c2 := scoreObj_hit (scoreObj_spec (ScoreObj.ok_new it (staleFit it svd u v) 0) c1).1 (List.mem_singleton.2 rfl)
    (show IsKey StaleEx.graph Finset.univ _ from ⟨rfl, rfl⟩)
  refine ⟨m, ⟨StaleEx.graph, m.B, m.gamma, m.omegas, m.psis, 1 - m.Bᵀ⟩,
    ⟨2, [⟨StaleEx.graph, Finset.univ, sf, ⟨0, ⟨StaleEx.graph, m.B, m.gamma, m.omegas, m.psis, 1 - m.Bᵀ⟩⟩⟩]⟩,
    s, s', ?_, hA.symm, rfl, rfl, rfl, rfl, e1, e2, hlt⟩
  simp only [pruneGraphs, List.length_cons, pruneGraphsLoop, pruneGraph, c1]
  simp [c2]

theorem staleFit_returns (n : Nat) (I : Finset (Fin 2)) : ∃ (m : AnyModel 2 2) (s : Flt) (m' : AnyModel 2 2),
    staleFit it svd u v n StaleEx.graph I = .ok (m, s) ∧ m.copy it = .ok m' ∧ ∃ t, m.scoreOn StaleEx.data = .ok t := by
  obtain ⟨m, s, h1⟩ := C71_score_dag_returns (l := 0) it svd StaleEx.num StaleEx.cfg StaleEx.data StaleEx.good (u 0 n) (v 0 n) StaleEx.graph
    StaleEx.nonneg StaleEx.acyclic I (by norm_num) (by norm_num) rfl StaleEx.feasible (by norm_num [StaleEx.cfg]) (by simp [StaleEx.cfg])
    (by simp [StaleEx.cfg]) (by simp [StaleEx.cfg])
  obtain ⟨b1, b2, -⟩ := C47_within_bounds none m _ h1
  obtain ⟨-, -, m', hm'⟩ := C45_fitted_model (fun hc => by simp [StaleEx.cfg] at hc) none m _ h1
  refine ⟨⟨0, m⟩, some s, ⟨0, m'⟩, ?_, ?_, ⟨_, C52_score_of_object none m _ h1⟩⟩
  · unfold staleFit codeFit
    unfold fitCode at h1
    rw [h1]
  · unfold AnyModel.copy
    rw [hm']

/-- C90 is violated in the target phase: after the graph phase for one candidate, the models for the targets `{0, 1}` and `{1}` have the same
parameters but different scores, and because of this the set of all variables, which comes first in the list, is not
selected. -/
theorem C90_violated_targets (E : FitEnv 2 2) (harg : ∀ f, IsArgsort f (E.argsort f)) :
    ∃ (obj : ScoreObj 2 2) (ms : List (AnyModel 2 2)) (m0 m1 : LModel 2 0 2) (m2 : AnyModel 2 2) (obj' : ScoreObj 2 2) (s0 s1 : ℝ)
      (m : AnyModel 2 2) (I : Finset (Fin 2)) (s : Flt),
      pruneGraphs E.it (staleFit E.it svd u v) false none [StaleEx.graph] ⟨0, []⟩ = .ok (ms, obj) ∧
      pruneI E.it E.argsort (staleFit E.it svd u v) none StaleEx.graph obj =
        .ok ([(⟨0, m0⟩, Finset.univ), (⟨0, m1⟩, {1}), (m2, ∅)], obj') ∧
      m0.A = m1.A ∧ m0.B = m1.B ∧ m0.gamma = m1.gamma ∧ m0.omegas = m1.omegas ∧ m0.psis = m1.psis ∧
      m0.scoreOn StaleEx.data = .ok (some s0) ∧ m1.scoreOn StaleEx.data = .ok (some s1) ∧ s1 < s0 ∧
      targetPhase E (staleFit E.it svd u v) none StaleEx.data StaleEx.graph obj = .ok (m, I, s) ∧ I ≠ Finset.univ := by
  obtain ⟨m, sf, h1, hA, hB, hO, hI⟩ := staleFit_ok E.it svd u v 0 Finset.univ (Finset.mem_univ _)
  obtain ⟨m1, sf1, h2, hA1, hB1, hO1, hI1⟩ := staleFit_ok E.it svd u v 2 {1} (Finset.mem_singleton_self _)
  obtain ⟨s1, s0, e1, e2, hlt⟩ := StaleEx.scores m1 hB1 hO1 hI1
  have hm : (⟨StaleEx.graph, m.B, m.gamma, m.omegas, m.psis, 1 - m.Bᵀ⟩ : LModel 2 0 2) =
      ⟨StaleEx.graph, m1.B, m1.gamma, m1.omegas, m1.psis, 1 - m1.Bᵀ⟩ := by
    rw [hB, hB1, hO, hO1]
    congr 1
    · ext i; exact i.elim0
    · ext k i; exact i.elim0
  obtain ⟨m2, sf2, m2', h3, hc2, t2, ht2⟩ := staleFit_returns E.it svd u v 3 ∅
  have hc := stale_copy E.it hA hB
  have hc1 := stale_copy E.it hA1 hB1
  rw [hm] at hc
  obtain ⟨mr, hmr⟩ : ∃ mr : LModel 2 0 2, mr = ⟨StaleEx.graph, m1.B, m1.gamma, m1.omegas, m1.psis, 1 - m1.Bᵀ⟩ := ⟨_, rfl⟩
  rw [← hmr] at hc hc1 e2
  have c1 : (⟨0, []⟩ : ScoreObj 2 2).scoreDag E.it (staleFit E.it svd u v) StaleEx.graph Finset.univ =
      .ok ((⟨0, m⟩, sf), ⟨1, [⟨StaleEx.graph, Finset.univ, sf, ⟨0, mr⟩⟩]⟩) := by
    unfold ScoreObj.scoreDag Verif.scoreDag
    simp [cacheRead, cacheFind, h1, cacheWrite, hc]
  have o1 := (scoreObj_spec (ScoreObj.ok_new E.it (staleFit E.it svd u v) 0) c1).1
  have c2 := scoreObj_hit o1 (List.mem_singleton.2 rfl) (show IsKey StaleEx.graph Finset.univ _ from ⟨rfl, rfl⟩)
  simp only at c2
  have o2 := (scoreObj_spec o1 c2).1
  have n1 : ¬ (Finset.univ : Finset (Fin 2)) = {1} := by decide
  have n2 : ¬ (Finset.univ : Finset (Fin 2)) = ∅ := by decide
  have n3 : ¬ ({1} : Finset (Fin 2)) = ∅ := by decide
  have c3 : (⟨1 + 1, [⟨StaleEx.graph, Finset.univ, sf, ⟨0, mr⟩⟩]⟩ : ScoreObj 2 2).scoreDag E.it (staleFit E.it svd u v) StaleEx.graph {1} =
      .ok ((⟨0, m1⟩, sf1), ⟨3, [⟨StaleEx.graph, Finset.univ, sf, ⟨0, mr⟩⟩, ⟨StaleEx.graph, {1}, sf1, ⟨0, mr⟩⟩]⟩) := by
    exact scoreObj_miss o2 (by simp [IsKey, n1]) h2 hc1
  have c4 : (⟨3, [⟨StaleEx.graph, Finset.univ, sf, ⟨0, mr⟩⟩, ⟨StaleEx.graph, {1}, sf1, ⟨0, mr⟩⟩]⟩ : ScoreObj 2 2).scoreDag E.it
      (staleFit E.it svd u v) StaleEx.graph ∅ = .ok ((m2, sf2), ⟨4, [⟨StaleEx.graph, Finset.univ, sf, ⟨0, mr⟩⟩,
        ⟨StaleEx.graph, {1}, sf1, ⟨0, mr⟩⟩, ⟨StaleEx.graph, ∅, sf2, m2'⟩]⟩) := by
    exact scoreObj_miss (scoreObj_spec o2 c3).1 (by simp [IsKey, n2, n3]) h3 hc2
  have hmo : AnyModel.omegas (⟨0, mr⟩ : AnyModel 2 2) = StaleEx.om := by
    rw [hmr]
    exact hO1
  have hord : E.argsort (varEnv StaleEx.om) = [0, 1] := by
    obtain ⟨a1, a2⟩ := harg (varEnv StaleEx.om)
    have v0 : varEnv StaleEx.om 0 = 0 := by simp [varEnv, StaleEx.om, Fin.sum_univ_two]
    have v1 : varEnv StaleEx.om 1 = 1 := by simp [varEnv, StaleEx.om, Fin.sum_univ_two]; norm_num
    have hl : (E.argsort (varEnv StaleEx.om)).length = 2 := by rw [a1.length_eq, List.length_finRange]
    have hn : (E.argsort (varEnv StaleEx.om)).Nodup := a1.nodup_iff.2 (List.nodup_finRange 2)
    generalize E.argsort (varEnv StaleEx.om) = l at a2 hl hn
    match l, hl with
    | [a, b], _ =>
      have hab : a ≠ b := by simpa using hn
      have hle : varEnv StaleEx.om a ≤ varEnv StaleEx.om b := by simpa using a2
      fin_cases a <;> fin_cases b
      · exact absurd rfl hab
      · rfl
      · exfalso
        simp only [Fin.mk_one, Fin.zero_eta, v0, v1] at hle
        linarith
      · exact absurd rfl hab
  have hpr : pruneI E.it E.argsort (staleFit E.it svd u v) none StaleEx.graph ⟨1, [⟨StaleEx.graph, Finset.univ, sf, ⟨0, mr⟩⟩]⟩ =
      .ok ([(⟨0, mr⟩, Finset.univ), (⟨0, m1⟩, {1}), (m2, ∅)], ⟨4, [⟨StaleEx.graph, Finset.univ, sf, ⟨0, mr⟩⟩,
        ⟨StaleEx.graph, {1}, sf1, ⟨0, mr⟩⟩, ⟨StaleEx.graph, ∅, sf2, m2'⟩]⟩) := by
    have i1 : (Finset.univ : Finset (Fin 2)).erase 0 = {1} := by decide
    have i2 : ({1} : Finset (Fin 2)).erase 1 = ∅ := by decide
    unfold pruneI
    simp only [c2, hmo, hord, pruneILoop, i1, i2, c3, c4]
  have e2' : AnyModel.scoreOn StaleEx.data (⟨0, mr⟩ : AnyModel 2 2) = .ok (some s0) := e2
  have e1' : AnyModel.scoreOn StaleEx.data (⟨0, m1⟩ : AnyModel 2 2) = .ok (some s1) := e1
  obtain ⟨i, ⟨s, m', I'⟩, z1, z2, z3, -⟩ := bestScoring_spec
    (tuples := [((some s0 : Flt), (⟨0, mr⟩ : AnyModel 2 2), (Finset.univ : Finset (Fin 2))), (some s1, ⟨0, m1⟩, {1}), (t2, m2, ∅)]) (by simp)
  refine ⟨⟨1, [⟨StaleEx.graph, Finset.univ, sf, ⟨0, mr⟩⟩]⟩, [⟨0, m⟩], mr, m1, m2, _, s0, s1, m', I', s, ?_, hpr, ?_, ?_, ?_, ?_, ?_, e2, e1,
    hlt, ?_, ?_⟩
  · simp only [pruneGraphs, List.length_cons, pruneGraphsLoop, pruneGraph, c1]
    rfl
  · rw [hmr, hA1]
  · rw [hmr]
  · rw [hmr]
  · rw [hmr]
  · rw [hmr]
  · unfold targetPhase
    simp only [hpr, testScores, e2', e1', ht2, z1]
  · rintro rfl
    have h0 := z3 (some s1, ⟨0, m1⟩, {1}) (by simp)
    have h00 := List.mem_of_getElem? z2
    simp only [List.mem_cons, Prod.mk.injEq, List.not_mem_nil, or_false] at h00
    rcases h00 with ⟨rfl, -⟩ | ⟨-, -, hx⟩ | ⟨-, -, hx⟩
    · have := fltKey_le_some.1 h0
      linarith
    · exact n1 hx
    · exact n2 hx

end Violated

/-- The hypotheses of `C90_target_phase` are met: one candidate DAG, two numbers of latents, pruning. -/
example : ∃ m I s, fitMain (exEnv 2) (fun _ => List.replicate 8 0) true (some [1, 2]) true [1 / 2, 1 / 4, 1 / 4] none none
    (some [![![0, 1], ![0, 0]]]) 42 = .ok (m, I, s) ∧ (I = Finset.univ → m.2.IB = 1 - m.2.Bᵀ) := by
  have hn : ∀ G ∈ [(![![0, 1], ![0, 0]] : Adj 2)], Nonneg G ∧ Acyclic G := by
    intro G hG
    rw [List.mem_singleton] at hG
    subst hG
    have : Nonneg (![![0, 1], ![0, 0]] : Adj 2) := by unfold Nonneg; decide
    exact ⟨this, (isDag_iff (SetIter.incr 2) this).1 (by decide)⟩
  obtain ⟨⟨m, I, s⟩, h⟩ := exEnv_returns _ (by simp) hn (List.replicate 8 (0 : Fin 2 → ℝ)) (by simp) true [1, 2] (by simp) 42
  obtain ⟨tr, tG, tI, n, graph, m0, ms, -, -, h3, h4, h5, -⟩ := C90_target_phase (exEnv 2) (fun d h => varFit_good _ d h) insArgsort_spec
    _ _ _ _ _ _ _ _ _ _ _ h
  refine ⟨m, I, s, h, fun hI => ?_⟩
  rcases List.mem_cons.1 h5 with h6 | h6
  · cases h6
    exact h3.1
  · exact absurd hI (h4 _ h6).1

end Verif
