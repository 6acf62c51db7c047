import Verif.Model.History
import Verif.Proof.MainFit

/-! # The history of `_fit` -/

namespace Verif

open Spec

variable {p e : Nat}

/-! ### Forgetting the stored scores -/

/-- Forget the list of scores of a result. -/
def eraseRow (r : Nat × (Flt × Adj p × List (Flt × Adj p) × ScoreObj p e)) : Nat × (Flt × Adj p × ScoreObj p e) :=
  (r.1, (r.2.1, r.2.2.1, r.2.2.2.2))

theorem dictSet_map {β γ : Type} (f : β → γ) (dict : List (Nat × β)) (h : Nat) (v : β) :
    (dictSet dict h v).map (fun r => (r.1, f r.2)) = dictSet (dict.map (fun r => (r.1, f r.2))) h (f v) := by
  unfold dictSet
  have hany : (dict.map (fun r => (r.1, f r.2))).any (fun x => x.1 == h) = dict.any (fun x => x.1 == h) := by
    rw [List.any_map]
    rfl
  rw [hany]
  split
  · rw [List.map_map, List.map_map]
    apply List.map_congr_left
    intro x _
    simp only [Function.comp]
    split <;> rfl
  · simp

theorem latentLoopH_erase (it : SetIter p) (fit : Nat → Fitter p e) (ctor : Except Err Unit) (prune : Bool) (threshold : Option ℝ)
    (graphs : List (Adj p)) (test : Data p e) (ns : List Nat) : ∀ results,
    (latentLoopH it fit ctor prune threshold graphs test ns results).map (List.map eraseRow) =
      latentLoop it fit ctor prune threshold graphs test ns (results.map eraseRow) := by
  induction ns with
  | nil => intro results; rfl
  | cons n ns ih =>
    intro results
    simp only [latentLoopH, latentLoop]
    cases ctor with
    | error err => rfl
    | ok u =>
      cases pruneGraphs it (fit n) prune threshold graphs { calls := 0, cache := [] } with
      | error err => rfl
      | ok r =>
        obtain ⟨models, obj⟩ := r
        simp only
        cases testScores test id models with
        | error err => rfl
        | ok scores =>
          simp only
          cases bestScoring (scores.map (fun x => (x.1, x.2.A))) with
          | error err => rfl
          | ok b =>
            obtain ⟨s, A⟩ := b
            simp only
            rw [ih]
            congr 1
            exact dictSet_map (fun v : Flt × Adj p × List (Flt × Adj p) × ScoreObj p e => (v.1, v.2.1, v.2.2.2)) results n _

theorem tupleLt_map {β γ : Type} (f : β → γ) (a b : Flt × Nat × β) :
    tupleLt (a.1, a.2.1, f a.2.2) (b.1, b.2.1, f b.2.2) = tupleLt a b := rfl

theorem takeRun_map {β γ : Type} (f : β → γ) (desc : Bool) (x : Flt × Nat × β) (l : List (Flt × Nat × β)) :
    (takeRun tupleLt desc x l).map (Prod.map (List.map fun a => (a.1, a.2.1, f a.2.2)) (List.map fun a => (a.1, a.2.1, f a.2.2))) =
      takeRun tupleLt desc (x.1, x.2.1, f x.2.2) (l.map (fun a => (a.1, a.2.1, f a.2.2))) := by
  induction l generalizing x with
  | nil => rfl
  | cons y l ih =>
    simp only [takeRun, List.map_cons, tupleLt_map f y x]
    cases tupleLt y x with
    | error err => rfl
    | ok b =>
      simp only
      split
      · rw [← ih]
        cases takeRun tupleLt desc y l <;> rfl
      · rfl

theorem countRun_map {β γ : Type} (f : β → γ) (l : List (Flt × Nat × β)) :
    (countRun tupleLt l).map (Prod.map (List.map fun a => (a.1, a.2.1, f a.2.2)) (List.map fun a => (a.1, a.2.1, f a.2.2))) =
      countRun tupleLt (l.map (fun a => (a.1, a.2.1, f a.2.2))) := by
  match l with
  | [] => rfl
  | [x] => rfl
  | x :: y :: l =>
    simp only [countRun, List.map_cons, tupleLt_map f y x]
    cases tupleLt y x with
    | error err => rfl
    | ok b =>
      simp only
      rw [← takeRun_map]
      cases takeRun tupleLt b y l with
      | error err => rfl
      | ok r => cases b <;> simp [Except.map]

theorem binInsert_nil {α : Type} (lt : α → α → Except Err Bool) (x : α) (a : List α) (h : a.drop (a.length / 2) = []) :
    binInsert lt x a = .ok [x] := by
  rw [binInsert]
  split
  · rfl
  · rename_i h'
    rw [h] at h'
    simp at h'

theorem binInsert_cons {α : Type} (lt : α → α → Except Err Bool) (x : α) (a : List α) {y : α} {ys : List α}
    (h : a.drop (a.length / 2) = y :: ys) :
    binInsert lt x a = match lt x y with
      | .error err => .error err
      | .ok true => (binInsert lt x (a.take (a.length / 2))).map (· ++ y :: ys)
      | .ok false => (binInsert lt x ys).map (a.take (a.length / 2) ++ y :: ·) := by
  conv_lhs => rw [binInsert]
  split
  · rename_i h'
    rw [h] at h'
    simp at h'
  · rename_i y' ys' h'
    rw [h, List.cons.injEq] at h'
    obtain ⟨rfl, rfl⟩ := h'
    cases lt x y with
    | error err => rfl
    | ok b =>
      cases b with
      | true =>
        simp only
        cases binInsert lt x (a.take (a.length / 2)) <;> rfl
      | false =>
        simp only
        cases binInsert lt x ys <;> rfl

theorem binInsert_map {β γ : Type} (f : β → γ) (x : Flt × Nat × β) (a : List (Flt × Nat × β)) :
    (binInsert tupleLt x a).map (List.map (fun a => (a.1, a.2.1, f a.2.2))) =
      binInsert tupleLt (x.1, x.2.1, f x.2.2) (a.map (fun a => (a.1, a.2.1, f a.2.2))) := by
  induction hn : a.length using Nat.strong_induction_on generalizing a with
  | _ n ih =>
    rcases h : a.drop (a.length / 2) with _ | ⟨y, ys⟩
    · rw [binInsert_nil _ _ _ h, binInsert_nil _ _ _ (by rw [List.length_map, ← List.map_drop, h, List.map_nil])]
      rfl
    · have h1 := congrArg List.length h
      simp only [List.length_drop, List.length_cons] at h1
      have h2 : (a.map (fun a => (a.1, a.2.1, f a.2.2))).drop ((a.map (fun a => (a.1, a.2.1, f a.2.2))).length / 2) =
          (y.1, y.2.1, f y.2.2) :: ys.map (fun a => (a.1, a.2.1, f a.2.2)) := by
        rw [List.length_map, ← List.map_drop, h, List.map_cons]
      rw [binInsert_cons _ _ _ h, binInsert_cons _ _ _ h2, tupleLt_map f x y]
      cases tupleLt x y with
      | error err => rfl
      | ok b =>
        cases b with
        | true =>
          simp only
          rw [List.length_map, ← List.map_take, ← ih _ (by rw [List.length_take]; omega) (a.take (a.length / 2)) rfl]
          cases binInsert tupleLt x (a.take (a.length / 2)) <;> simp [Except.map]
        | false =>
          simp only
          rw [List.length_map, ← List.map_take, ← ih _ (by omega) ys rfl]
          cases binInsert tupleLt x ys <;> simp [Except.map]

theorem insertAll_map {β γ : Type} (f : β → γ) (a l : List (Flt × Nat × β)) :
    (insertAll tupleLt a l).map (List.map (fun a => (a.1, a.2.1, f a.2.2))) =
      insertAll tupleLt (a.map (fun a => (a.1, a.2.1, f a.2.2))) (l.map (fun a => (a.1, a.2.1, f a.2.2))) := by
  induction l generalizing a with
  | nil => rfl
  | cons x l ih =>
    simp only [insertAll, List.map_cons]
    rw [← binInsert_map]
    cases binInsert tupleLt x a with
    | error err => rfl
    | ok r => exact ih r

theorem sortedM_map {β γ : Type} (f : β → γ) (l : List (Flt × Nat × β)) :
    (sortedM tupleLt l).map (List.map (fun a => (a.1, a.2.1, f a.2.2))) = sortedM tupleLt (l.map (fun a => (a.1, a.2.1, f a.2.2))) := by
  unfold sortedM
  rw [← countRun_map]
  cases countRun tupleLt l with
  | error err => rfl
  | ok r => exact insertAll_map f r.1 r.2

/-! ### The stored scores -/

/-- The run of the graph phase for one number of latents. -/
def GraphRunH (it : SetIter p) (fit : Nat → Fitter p e) (prune : Bool) (threshold : Option ℝ) (graphs : List (Adj p)) (test : Data p e)
    (h : Nat) (v : Flt × Adj p × List (Flt × Adj p) × ScoreObj p e) : Prop :=
  ∃ models scores, pruneGraphs it (fit h) prune threshold graphs { calls := 0, cache := [] } = .ok (models, v.2.2.2) ∧
    testScores test id models = .ok scores ∧ v.2.2.1 = scores.map (fun x => (x.1, x.2.A)) ∧ bestScoring v.2.2.1 = .ok (v.1, v.2.1)

theorem latentLoopH_spec {it : SetIter p} {fit : Nat → Fitter p e} {ctor : Except Err Unit} {prune : Bool} {threshold : Option ℝ}
    {graphs : List (Adj p)} {test : Data p e} (ns : List Nat) :
    ∀ (results results' : List (Nat × (Flt × Adj p × List (Flt × Adj p) × ScoreObj p e))), (results.map Prod.fst).Nodup →
      (∀ r ∈ results, GraphRunH it fit prune threshold graphs test r.1 r.2) →
      latentLoopH it fit ctor prune threshold graphs test ns results = .ok results' →
      (results'.map Prod.fst).Nodup ∧ (∀ r ∈ results', GraphRunH it fit prune threshold graphs test r.1 r.2) := by
  induction ns with
  | nil =>
    intro results results' h1 h2 h
    simp only [latentLoopH, Except.ok.injEq] at h
    subst h
    exact ⟨h1, h2⟩
  | cons n ns ih =>
    intro results results' h1 h2 h
    simp only [latentLoopH] at h
    split at h
    · simp at h
    · split at h
      · simp at h
      · rename_i models obj hm
        split at h
        · simp at h
        · rename_i scores hs
          split at h
          · simp at h
          · rename_i s A hb
            refine ih _ _ (dictSet_keys results n _ h1).1 (fun r hr => ?_) h
            rcases mem_dictSet hr with rfl | ⟨hr, -⟩
            · exact ⟨models, scores, hm, hs, rfl, hb⟩
            · exact h2 r hr

/-- The parts of a run of `_fit` that returns. -/
theorem fitMainH_ok {E : FitEnv p e} {data : Fin e → Sample p} {solverKnown : Bool} {numsLatent : Option (List Nat)} {prune : Bool}
    {folds : List Rat} {tG tI : Option ℝ} {initial : Option (List (Adj p))} {rs : Int} {store : Option Int} {m : AnyModel p e}
    {I : Finset (Fin p)} {s : Flt} {hist : Option (History p e)}
    (h : fitMainH E data solverKnown numsLatent prune folds tG tI initial rs store = .ok ((m, I, s), hist)) :
    ∃ training testG testI graphs sc n graph pg obj models obj' scores,
      splitData (E.rng rs) (List.ofFn data) folds = .ok [training, testG, testI] ∧ initialGraphs E initial training = .ok graphs ∧
      GraphRunH E.it (E.fit (foldData E.cov training e)) prune tG graphs (foldData E.cov testG e) n (sc, graph, pg, obj) ∧
      pruneI E.it E.argsort (E.fit (foldData E.cov training e) n) tI graph obj = .ok (models, obj') ∧
      testScores (foldData E.cov testI e) Prod.fst models = .ok scores ∧ bestScoring scores = .ok (s, m, I) ∧
      makeHistory store n graphs pg scores obj' = .ok hist := by
  unfold fitMainH at h
  split at h
  · simp at h
  · rename_i training testG testI h1
    split at h
    · simp at h
    · rename_i graphs h2
      split at h
      · simp at h
      · rename_i ns h3
        split at h
        · simp at h
        · rename_i results h4
          split at h
          · simp at h
          · simp at h
          · rename_i sc n graph pg obj rest h5
            split at h
            · simp at h
            · rename_i models obj' h6
              split at h
              · simp at h
              · rename_i scores h7
                split at h
                · simp at h
                · rename_i s' m' I' h8
                  split at h
                  · simp at h
                  · rename_i hist' h9
                    simp only [Except.ok.injEq, Prod.mk.injEq] at h
                    obtain ⟨⟨rfl, rfl, rfl⟩, rfl⟩ := h
                    obtain ⟨k1, k2⟩ := latentLoopH_spec ns [] results (by simp) (by simp) h4
                    obtain ⟨r, k3, k4, -⟩ := sortedM_ok (results.map (fun r => (r.2.1, r.1, r.2.2.1, r.2.2.2.1, r.2.2.2.2)))
                      (by rw [List.map_map]; exact k1)
                    rw [h5] at k3
                    cases k3
                    have := k4.mem_iff.1 (List.mem_cons_self (a := (sc, n, graph, pg, obj)) (l := rest))
                    obtain ⟨r, hr, hre⟩ := List.mem_map.1 this
                    have hk := k2 r hr
                    obtain ⟨r1, r2, r3, r4, r5⟩ := r
                    simp only [Prod.mk.injEq] at hre
                    obtain ⟨rfl, rfl, rfl, rfl, rfl⟩ := hre
                    exact ⟨training, testG, testI, graphs, _, _, _, _, _, models, obj', scores, h1, h2, hk, h6, h7, h8, h9⟩
  · simp at h

/-! ### The cache only grows -/

theorem scoreObj_mono {it : SetIter p} {fit : Fitter p e} {obj obj' : ScoreObj p e} (ho : obj.Ok it fit) {A : Adj p}
    {I : Finset (Fin p)} {r : AnyModel p e × Flt} (h : obj.scoreDag it fit A I = .ok (r, obj')) : obj.cache ⊆ obj'.cache := by
  obtain ⟨hu, -⟩ := ho
  unfold ScoreObj.scoreDag at h
  split at h
  · simp at h
  · rename_i r' c hr
    simp only [Except.ok.injEq, Prod.mk.injEq] at h
    obtain ⟨rfl, rfl⟩ := h
    unfold Verif.scoreDag at hr
    simp only [cacheRead_spec _ hu] at hr
    cases hf : obj.cache.find? (fun en => decide (IsKey A I en)) with
    | some en =>
      rw [hf] at hr
      simp only [Option.map_some, Except.ok.injEq, Prod.mk.injEq] at hr
      obtain ⟨-, rfl⟩ := hr
      exact fun _ hx => hx
    | none =>
      rw [hf] at hr
      simp only [Option.map_none] at hr
      have hno : ∀ en ∈ obj.cache, ¬ IsKey A I en := by simpa using List.find?_eq_none.1 hf
      cases hfit : fit obj.calls A I with
      | error err => rw [hfit] at hr; simp at hr
      | ok r =>
        obtain ⟨m0, s0⟩ := r
        rw [hfit] at hr
        simp only [] at hr
        rw [(cacheWrite_spec (AnyModel.copy it) obj.cache hu A I m0 s0).2 hno] at hr
        cases hc : m0.copy it with
        | error err => rw [hc] at hr; simp at hr
        | ok m1 =>
          rw [hc] at hr
          simp only [Except.ok.injEq, Prod.mk.injEq] at hr
          obtain ⟨-, rfl⟩ := hr
          simp

/-- Every model in the list is in the cache with its graph, targets and weights. -/
def Cached (graph : Adj p) (ms : List (AnyModel p e × Finset (Fin p))) (obj : ScoreObj p e) : Prop :=
  ∀ x ∈ ms, ∃ en ∈ obj.cache, IsKey graph x.2 en ∧ en.model.B = x.1.B

theorem pruneILoop_cached {it : SetIter p} {fit : Fitter p e} {graph : Adj p} (order : List (Fin p)) :
    ∀ (I : Finset (Fin p)) (obj obj' : ScoreObj p e) (ms : List (AnyModel p e × Finset (Fin p))), obj.Ok it fit →
      pruneILoop it fit graph order I obj = .ok (ms, obj') → obj'.Ok it fit ∧ obj.cache ⊆ obj'.cache ∧ Cached graph ms obj' := by
  induction order with
  | nil =>
    intro I obj obj' ms ho h
    simp only [pruneILoop, Except.ok.injEq, Prod.mk.injEq] at h
    obtain ⟨rfl, rfl⟩ := h
    exact ⟨ho, fun _ hx => hx, by simp [Cached]⟩
  | cons j order ih =>
    intro I obj obj' ms ho h
    simp only [pruneILoop] at h
    split at h
    · simp at h
    · rename_i m s obj1 h1
      split at h
      · simp at h
      · rename_i ms' obj2 h2
        cases h
        obtain ⟨k1, -, en, k2, k3, k4⟩ := scoreObj_spec ho h1
        obtain ⟨k5, k6, k7⟩ := ih _ _ _ _ k1 h2
        refine ⟨k5, fun x hx => k6 (scoreObj_mono ho h1 hx), fun x hx => ?_⟩
        rcases List.mem_cons.1 hx with rfl | hx
        · exact ⟨en, k6 k2, k3, k4⟩
        · exact k7 x hx

theorem pruneI_cached {it : SetIter p} {argsort : (Fin p → ℝ) → List (Fin p)} {fit : Fitter p e} {graph : Adj p} {obj obj' : ScoreObj p e}
    (ho : obj.Ok it fit) {ms : List (AnyModel p e × Finset (Fin p))} (h : pruneI it argsort fit none graph obj = .ok (ms, obj')) :
    obj'.Ok it fit ∧ obj.cache ⊆ obj'.cache ∧ Cached graph ms obj' := by
  unfold pruneI at h
  split at h
  · simp at h
  · rename_i m0 s0 obj1 h1
    simp only at h
    split at h
    · simp at h
    · rename_i ms' obj2 h2
      cases h
      obtain ⟨k1, -, en, k2, k3, k4⟩ := scoreObj_spec ho h1
      obtain ⟨k5, k6, k7⟩ := pruneILoop_cached _ _ _ _ _ k1 h2
      refine ⟨k5, fun x hx => k6 (scoreObj_mono ho h1 hx), fun x hx => ?_⟩
      rcases List.mem_cons.1 hx with rfl | hx
      · exact ⟨en, k6 k2, k3, k4⟩
      · exact k7 x hx

end Verif
