import Verif.Proof.MainPrune

/-! # `_fit` -/

namespace Verif

open Spec

variable {p e : Nat}

/-! ### Sorting tuples -/

section Sorting

variable {β : Type}

/-- Lexicographic order of `(score, number)`. -/
def LexLt (a b : Flt × Nat × β) : Prop := ∃ x y, a.1 = some x ∧ b.1 = some y ∧ (x < y ∨ (x = y ∧ a.2.1 < b.2.1))

theorem tupleLt_ne {a b : Flt × Nat × β} (h : a.2.1 ≠ b.2.1) : ∃ r, tupleLt a b = .ok r := by
  unfold tupleLt
  split
  · split_ifs
    · exact ⟨_, rfl⟩
    · exact ⟨_, rfl⟩
  · exact ⟨_, rfl⟩

theorem tupleLt_true {a b : Flt × Nat × β} (h : tupleLt a b = .ok true) : LexLt a b := by
  unfold tupleLt at h
  split at h
  · rename_i x y hx hy
    split_ifs at h with h1 h2
    · simp only [Except.ok.injEq, decide_eq_true_eq] at h
      exact ⟨x, y, hx, hy, Or.inl h⟩
    · simp only [Except.ok.injEq, decide_eq_true_eq] at h
      exact ⟨x, y, hx, hy, Or.inr ⟨not_not.1 h1, h⟩⟩
  · simp at h

theorem tupleLt_false {a b : Flt × Nat × β} (ha : a.1 ≠ none) (hb : b.1 ≠ none) (h : tupleLt a b = .ok false) : LexLt b a := by
  unfold tupleLt at h
  split at h
  · rename_i x y hx hy
    split_ifs at h with h1 h2
    · simp only [Except.ok.injEq, decide_eq_false_iff_not, not_lt] at h
      exact ⟨y, x, hy, hx, Or.inl (lt_of_le_of_ne h (Ne.symm h1))⟩
    · simp only [Except.ok.injEq, decide_eq_false_iff_not, not_lt] at h
      exact ⟨y, x, hy, hx, Or.inr ⟨(not_not.1 h1).symm, by omega⟩⟩
  · rename_i hno
    exfalso
    obtain ⟨x, hx⟩ := Option.ne_none_iff_exists'.1 ha
    obtain ⟨y, hy⟩ := Option.ne_none_iff_exists'.1 hb
    exact hno x y hx hy

theorem lexLt_trans {a b c : Flt × Nat × β} (h : LexLt a b) (h' : LexLt b c) : LexLt a c := by
  obtain ⟨x, y, h1, h2, h3⟩ := h
  obtain ⟨y', z, h4, h5, h6⟩ := h'
  rw [h2] at h4
  cases h4
  refine ⟨x, z, h1, h5, ?_⟩
  rcases h3 with h3 | ⟨rfl, h3⟩
  · rcases h6 with h6 | ⟨rfl, h6⟩
    · exact Or.inl (h3.trans h6)
    · exact Or.inl h3
  · rcases h6 with h6 | ⟨rfl, h6⟩
    · exact Or.inl h6
    · exact Or.inr ⟨rfl, by omega⟩

theorem takeRun_ok (desc : Bool) (x : Flt × Nat × β) (l : List (Flt × Nat × β)) (hl : ((x :: l).map (fun x => x.2.1)).Nodup) :
    ∃ run rest, takeRun tupleLt desc x l = .ok (run, rest) ∧ run ++ rest = l ∧
      ((∀ y ∈ x :: l, y.1 ≠ none) → (x :: run).Pairwise fun a b => if desc then LexLt b a else LexLt a b) := by
  induction l generalizing x with
  | nil => exact ⟨[], [], rfl, rfl, fun _ => by simp⟩
  | cons y l ih =>
    rw [List.map_cons, List.nodup_cons] at hl
    have hne : y.2.1 ≠ x.2.1 := fun hc => hl.1 (by simp [hc])
    obtain ⟨b, hb⟩ := tupleLt_ne hne
    obtain ⟨run, rest, h1, h2, h3⟩ := ih y hl.2
    rw [takeRun, hb]
    by_cases hbd : b = desc
    · simp only [hbd, if_true, h1]
      refine ⟨_, _, rfl, by simp [h2], fun hn => ?_⟩
      have h4 := h3 (fun z hz => hn z (List.mem_cons_of_mem _ hz))
      have hxy : if desc then LexLt y x else LexLt x y := by
        subst hbd
        cases b with
        | true => exact tupleLt_true hb
        | false => exact tupleLt_false (hn y (by simp)) (hn x (by simp)) hb
      refine List.Pairwise.cons (fun z hz => ?_) h4
      rcases List.mem_cons.1 hz with rfl | hz
      · exact hxy
      · have h5 := List.rel_of_pairwise_cons h4 hz
        cases desc with
        | true => exact lexLt_trans h5 hxy
        | false => exact lexLt_trans hxy h5
    · simp only [hbd, if_false]
      exact ⟨[], y :: l, rfl, rfl, fun _ => by simp⟩

theorem countRun_ok (l : List (Flt × Nat × β)) (hl : (l.map (fun x => x.2.1)).Nodup) :
    ∃ run rest, countRun tupleLt l = .ok (run, rest) ∧ (run ++ rest).Perm l ∧ ((∀ y ∈ l, y.1 ≠ none) → run.Pairwise LexLt) := by
  match l, hl with
  | [], _ => exact ⟨[], [], rfl, List.Perm.refl _, fun _ => List.Pairwise.nil⟩
  | [x], _ => exact ⟨[x], [], rfl, List.Perm.refl _, fun _ => by simp⟩
  | x :: y :: l, hl =>
    rw [List.map_cons, List.nodup_cons] at hl
    have hne : y.2.1 ≠ x.2.1 := fun hc => hl.1 (by simp [hc])
    obtain ⟨desc, hb⟩ := tupleLt_ne hne
    obtain ⟨run, rest, h1, h2, h3⟩ := takeRun_ok desc y l hl.2
    simp only [countRun, hb, h1]
    have hxy : (∀ z ∈ x :: y :: l, z.1 ≠ none) → (x :: y :: run).Pairwise fun a b => if desc then LexLt b a else LexLt a b := by
      intro hn
      have h4 := h3 (fun z hz => hn z (List.mem_cons_of_mem _ hz))
      have hxy : if desc then LexLt y x else LexLt x y := by
        cases desc with
        | true => exact tupleLt_true hb
        | false => exact tupleLt_false (hn y (by simp)) (hn x (by simp)) hb
      refine List.Pairwise.cons (fun z hz => ?_) h4
      rcases List.mem_cons.1 hz with rfl | hz
      · exact hxy
      · have h5 := List.rel_of_pairwise_cons h4 hz
        cases desc with
        | true => exact lexLt_trans h5 hxy
        | false => exact lexLt_trans hxy h5
    refine ⟨_, _, rfl, ?_, fun hn => ?_⟩
    · subst h2
      cases desc with
      | true => exact (List.reverse_perm (x :: y :: run)).append_right rest
      | false => exact List.Perm.refl _
    · cases desc with
      | true => exact List.pairwise_reverse.2 (hxy hn)
      | false => exact hxy hn

theorem binInsert_ok (x : Flt × Nat × β) (a : List (Flt × Nat × β)) (hx : ∀ y ∈ a, y.2.1 ≠ x.2.1) :
    ∃ r, binInsert tupleLt x a = .ok r ∧ r.Perm (x :: a) ∧
      (x.1 ≠ none → (∀ y ∈ a, y.1 ≠ none) → a.Pairwise LexLt → r.Pairwise LexLt) := by
  induction hn : a.length using Nat.strong_induction_on generalizing a with
  | _ n ih =>
    rw [binInsert]
    split
    · rename_i h
      have h1 := congrArg List.length h
      simp only [List.length_drop, List.length_nil] at h1
      have : a = [] := List.length_eq_zero_iff.1 (by omega)
      subst this
      exact ⟨[x], rfl, List.Perm.refl _, fun _ _ _ => by simp⟩
    · rename_i y ys h
      have h1 := congrArg List.length h
      simp only [List.length_drop, List.length_cons] at h1
      have hsplit : a.take (a.length / 2) ++ y :: ys = a := by rw [← h]; exact List.take_append_drop _ _
      have hya : y ∈ a := by rw [← hsplit]; simp
      obtain ⟨b, hb⟩ := tupleLt_ne (fun hc => hx y hya hc.symm : x.2.1 ≠ y.2.1)
      rw [hb]
      cases b with
      | true =>
        obtain ⟨r, k1, k2, k3⟩ := ih _ (by rw [List.length_take]; omega) (a.take (a.length / 2))
          (fun z hz => hx z (List.mem_of_mem_take hz)) rfl
        simp only [k1]
        refine ⟨_, rfl, ?_, fun q1 q2 q3 => ?_⟩
        · calc (r ++ y :: ys).Perm (x :: a.take (a.length / 2) ++ y :: ys) := k2.append_right _
            _ = x :: a := by rw [List.cons_append, hsplit]
        · rw [← hsplit, List.pairwise_append] at q3
          obtain ⟨q4, q5, q6⟩ := q3
          have hxy := tupleLt_true hb
          rw [List.pairwise_append]
          refine ⟨k3 q1 (fun z hz => q2 z (List.mem_of_mem_take hz)) q4, q5, fun z hz w hw => ?_⟩
          rcases List.mem_cons.1 (k2.mem_iff.1 hz) with rfl | hz
          · rcases List.mem_cons.1 hw with rfl | hw
            · exact hxy
            · exact lexLt_trans hxy (List.rel_of_pairwise_cons q5 hw)
          · exact q6 z hz w hw
      | false =>
        have hys : ∀ z ∈ ys, z ∈ a := fun z hz => by rw [← hsplit]; simp [hz]
        obtain ⟨r, k1, k2, k3⟩ := ih _ (by omega) ys (fun z hz => hx z (hys z hz)) rfl
        simp only [k1]
        refine ⟨_, rfl, ?_, fun q1 q2 q3 => ?_⟩
        · calc (a.take (a.length / 2) ++ y :: r).Perm (a.take (a.length / 2) ++ y :: x :: ys) := (k2.cons y).append_left _
            _ = (a.take (a.length / 2) ++ [y]) ++ x :: ys := by simp
            _ |>.Perm (x :: ((a.take (a.length / 2) ++ [y]) ++ ys)) := List.perm_middle
            _ = x :: a := by congr 1; rw [List.append_assoc]; exact hsplit
        · rw [← hsplit, List.pairwise_append] at q3
          obtain ⟨q4, q5, q6⟩ := q3
          have hyx := tupleLt_false q1 (q2 y hya) hb
          rw [List.pairwise_append]
          have hr : ∀ w ∈ r, LexLt y w := by
            intro w hw
            rcases List.mem_cons.1 (k2.mem_iff.1 hw) with rfl | hw
            · exact hyx
            · exact List.rel_of_pairwise_cons q5 hw
          refine ⟨q4, List.Pairwise.cons hr (k3 q1 (fun z hz => q2 z (hys z hz)) q5.tail), fun z hz w hw => ?_⟩
          have hzy := q6 z hz y (by simp)
          rcases List.mem_cons.1 hw with rfl | hw
          · exact hzy
          · exact lexLt_trans hzy (hr w hw)

theorem insertAll_ok (a l : List (Flt × Nat × β)) (hl : ((a ++ l).map (fun x => x.2.1)).Nodup) :
    ∃ r, insertAll tupleLt a l = .ok r ∧ r.Perm (a ++ l) ∧ ((∀ y ∈ a ++ l, y.1 ≠ none) → a.Pairwise LexLt → r.Pairwise LexLt) := by
  induction l generalizing a with
  | nil => exact ⟨a, rfl, by simp, fun _ h => h⟩
  | cons x l ih =>
    have hp : (x :: a ++ l).Perm (a ++ x :: l) := List.perm_middle.symm
    have hx : ∀ y ∈ a, y.2.1 ≠ x.2.1 := by
      intro y hy hc
      have h1 := (hp.map (fun x => x.2.1)).nodup_iff.2 hl
      rw [List.cons_append, List.map_cons, List.nodup_cons] at h1
      exact h1.1 (by rw [← hc]; exact List.mem_map_of_mem (f := fun x : Flt × Nat × β => x.2.1) (List.mem_append_left _ hy))
    obtain ⟨r, k1, k2, k3⟩ := binInsert_ok x a hx
    have hp' : (r ++ l).Perm (a ++ x :: l) := (k2.append_right l).trans hp
    obtain ⟨r', q1, q2, q3⟩ := ih r ((hp'.map (fun x => x.2.1)).nodup_iff.2 hl)
    rw [insertAll, k1]
    refine ⟨r', q1, q2.trans hp', fun hn ha => ?_⟩
    exact q3 (fun y hy => hn y (hp'.mem_iff.1 hy)) (k3 (hn x (by simp)) (fun y hy => hn y (by simp [hy])) ha)

theorem sortedM_ok (l : List (Flt × Nat × β)) (hl : (l.map (fun x => x.2.1)).Nodup) :
    ∃ r, sortedM tupleLt l = .ok r ∧ r.Perm l ∧ ((∀ y ∈ l, y.1 ≠ none) → r.Pairwise LexLt) := by
  obtain ⟨run, rest, h1, h2, h3⟩ := countRun_ok l hl
  obtain ⟨r, k1, k2, k3⟩ := insertAll_ok run rest ((h2.map (fun x => x.2.1)).nodup_iff.2 hl)
  refine ⟨r, by rw [sortedM, h1]; exact k1, k2.trans h2, fun hn => k3 (fun y hy => hn y (h2.mem_iff.1 hy)) (h3 hn)⟩

end Sorting

/-! ### The dictionary of results -/

theorem mem_dictSet {β : Type} {dict : List (Nat × β)} {h : Nat} {v : β} {x : Nat × β} (hx : x ∈ dictSet dict h v) :
    (x = (h, v)) ∨ (x ∈ dict ∧ x.1 ≠ h) := by
  unfold dictSet at hx
  split at hx
  · obtain ⟨y, hy, rfl⟩ := List.mem_map.1 hx
    split
    · exact Or.inl rfl
    · exact Or.inr ⟨hy, by assumption⟩
  · rename_i hno
    rcases List.mem_append.1 hx with hx | hx
    · refine Or.inr ⟨hx, fun hc => hno ?_⟩
      rw [List.any_eq_true]
      exact ⟨x, hx, by simp [hc]⟩
    · exact Or.inl (by simpa using hx)

theorem dictSet_keys {β : Type} (dict : List (Nat × β)) (h : Nat) (v : β) (hd : (dict.map Prod.fst).Nodup) :
    ((dictSet dict h v).map Prod.fst).Nodup ∧ ∀ k, k ∈ (dictSet dict h v).map Prod.fst ↔ k = h ∨ k ∈ dict.map Prod.fst := by
  unfold dictSet
  split
  · rename_i hany
    have hmap : (dict.map (fun x => if x.1 = h then (h, v) else x)).map Prod.fst = dict.map Prod.fst := by
      rw [List.map_map]
      apply List.map_congr_left
      intro x _
      simp only [Function.comp]
      split
      · rename_i hh; exact hh.symm
      · rfl
    rw [hmap]
    refine ⟨hd, fun k => ⟨Or.inr, ?_⟩⟩
    rintro (rfl | hk)
    · obtain ⟨x, hx, hxh⟩ := List.any_eq_true.1 hany
      have hxh : x.1 = k := by simpa using hxh
      rw [← hxh]
      exact List.mem_map_of_mem hx
    · exact hk
  · rename_i hno
    have hnot : h ∉ dict.map Prod.fst := by
      intro hc
      obtain ⟨x, hx, hxh⟩ := List.mem_map.1 hc
      exact hno (List.any_eq_true.2 ⟨x, hx, by simp [hxh]⟩)
    rw [List.map_append]
    refine ⟨?_, fun k => ?_⟩
    · rw [List.nodup_append]
      refine ⟨hd, by simp, ?_⟩
      intro a ha b hb
      simp at hb
      subst hb
      exact fun hc => hnot (hc ▸ ha)
    · simp [or_comm]

/-! ### Test scores -/

theorem testScores_spec {β : Type} {d : Data p e} {model : β → AnyModel p e} (l : List β) :
    ∀ {r : List (Flt × β)}, testScores d model l = .ok r →
      r.map Prod.snd = l ∧ ∀ t ∈ r, (model t.2).scoreOn d = .ok t.1 := by
  induction l with
  | nil =>
    intro r h
    simp only [testScores, Except.ok.injEq] at h
    subst h
    simp
  | cons x l ih =>
    intro r h
    simp only [testScores] at h
    split at h
    · simp at h
    · rename_i s hs
      split at h
      · simp at h
      · rename_i r' hr'
        cases h
        obtain ⟨h1, h2⟩ := ih hr'
        refine ⟨by simp [h1], fun t ht => ?_⟩
        rcases List.mem_cons.1 ht with rfl | ht
        · exact hs
        · exact h2 t ht

theorem testScores_returns {β : Type} {d : Data p e} {model : β → AnyModel p e} (l : List β)
    (h : ∀ x ∈ l, ∃ s, (model x).scoreOn d = .ok s) : ∃ r, testScores d model l = .ok r := by
  induction l with
  | nil => exact ⟨[], rfl⟩
  | cons x l ih =>
    obtain ⟨s, hs⟩ := h x (by simp)
    obtain ⟨r, hr⟩ := ih (fun y hy => h y (by simp [hy]))
    simp only [testScores, hs, hr]
    exact ⟨_, rfl⟩

/-! ### The loop over the numbers of latents -/

/-- The run of the graph phase for one number of latents. -/
def GraphRun (it : SetIter p) (fit : Nat → Fitter p e) (prune : Bool) (threshold : Option ℝ) (graphs : List (Adj p)) (test : Data p e)
    (h : Nat) (v : Flt × Adj p × ScoreObj p e) : Prop :=
  ∃ models scores, pruneGraphs it (fit h) prune threshold graphs { calls := 0, cache := [] } = .ok (models, v.2.2) ∧
    testScores test id models = .ok scores ∧ bestScoring (scores.map (fun x => (x.1, x.2.A))) = .ok (v.1, v.2.1)

theorem latentLoop_spec {it : SetIter p} {fit : Nat → Fitter p e} {ctor : Except Err Unit} {prune : Bool} {threshold : Option ℝ}
    {graphs : List (Adj p)} {test : Data p e} (ns : List Nat) :
    ∀ (results results' : List (Nat × (Flt × Adj p × ScoreObj p e))), (results.map Prod.fst).Nodup →
      (∀ r ∈ results, GraphRun it fit prune threshold graphs test r.1 r.2) →
      latentLoop it fit ctor prune threshold graphs test ns results = .ok results' →
      (results'.map Prod.fst).Nodup ∧ (∀ r ∈ results', GraphRun it fit prune threshold graphs test r.1 r.2) ∧
      ∀ k, k ∈ results'.map Prod.fst ↔ k ∈ ns ∨ k ∈ results.map Prod.fst := by
  induction ns with
  | nil =>
    intro results results' h1 h2 h
    simp only [latentLoop, Except.ok.injEq] at h
    subst h
    exact ⟨h1, h2, fun k => by simp⟩
  | cons n ns ih =>
    intro results results' h1 h2 h
    simp only [latentLoop] at h
    split at h
    · simp at h
    · split at h
      · simp at h
      · rename_i models obj hm
        split at h
        · simp at h
        · rename_i scores hs
          split at h
          · simp at h
          · rename_i s A hb
            obtain ⟨k1, k2⟩ := dictSet_keys results n (s, A, obj) h1
            obtain ⟨k3, k4, k5⟩ := ih _ _ k1 (fun r hr => by
              rcases mem_dictSet hr with rfl | ⟨hr, -⟩
              · exact ⟨models, scores, hm, hs, hb⟩
              · exact h2 r hr) h
            refine ⟨k3, k4, fun k => ?_⟩
            rw [k5, k2]
            simp only [List.mem_cons]
            tauto

/-- The parts of a run of `_fit` that returns. -/
theorem fitMain_ok {E : FitEnv p e} {data : Fin e → Sample p} {solverKnown : Bool} {numsLatent : Option (List Nat)} {prune : Bool}
    {folds : List Rat} {tG tI : Option ℝ} {initial : Option (List (Adj p))} {rs : Int} {m : AnyModel p e} {I : Finset (Fin p)} {s : Flt}
    (h : fitMain E data solverKnown numsLatent prune folds tG tI initial rs = .ok (m, I, s)) :
    ∃ training testG testI graphs ns results sc n graph obj rest,
      splitData (E.rng rs) (List.ofFn data) folds = .ok [training, testG, testI] ∧ initialGraphs E initial training = .ok graphs ∧
      latentNumbers E numsLatent training = .ok ns ∧
      latentLoop E.it (E.fit (foldData E.cov training e)) (scoreCtor training solverKnown) prune tG graphs (foldData E.cov testG e)
        ns [] = .ok results ∧
      sortedM tupleLt (results.map (fun r => (r.2.1, r.1, r.2.2.1, r.2.2.2))) = .ok ((sc, n, graph, obj) :: rest) ∧
      targetPhase E (E.fit (foldData E.cov training e) n) tI (foldData E.cov testI e) graph obj = .ok (m, I, s) := by
  unfold fitMain at h
  split at h
  · simp at h
  · rename_i training testG testI h1
    split at h
    · simp at h
    · rename_i graphs h2
      split at h
      · simp at h
      · rename_i ns h3
        split at h
        · simp at h
        · rename_i results h4
          split at h
          · simp at h
          · simp at h
          · rename_i sc n graph obj rest h5
            exact ⟨training, testG, testI, graphs, ns, results, sc, n, graph, obj, rest, h1, h2, h3, h4, h5, h⟩
  · simp at h

theorem targetPhase_ok {E : FitEnv p e} {fit : Fitter p e} {tI : Option ℝ} {test : Data p e} {graph : Adj p} {obj : ScoreObj p e}
    {m : AnyModel p e} {I : Finset (Fin p)} {s : Flt} (h : targetPhase E fit tI test graph obj = .ok (m, I, s)) :
    ∃ models obj' scores, pruneI E.it E.argsort fit tI graph obj = .ok (models, obj') ∧
      testScores test Prod.fst models = .ok scores ∧ bestScoring scores = .ok (s, m, I) := by
  unfold targetPhase at h
  split at h
  · simp at h
  · rename_i models obj' h1
    split at h
    · simp at h
    · rename_i scores h2
      split at h
      · simp at h
      · rename_i s' m' I' h3
        cases h
        exact ⟨models, obj', scores, h1, h2, h3⟩

end Verif
