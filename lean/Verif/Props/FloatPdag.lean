import Verif.Model.FloatPdag
import Verif.Props.FloatGraph
import Verif.Props.Meek

/-!
# C144: the functions for PDAGs on matrices of doubles
-/

namespace Verif

open Spec

variable {p : Nat}

/-! ## pdag_to_dag -/

theorem fisCandidate_eq {n : Nat} (P : FAdj n) : fisCandidate P = isCandidate (graphOf P) := by
  funext i
  unfold fisCandidate isCandidate
  simp only [fch_eq, fneighbors_eq, fadj_eq]

theorem ffindCandidate_eq {n : Nat} (P : FAdj n) : ffindCandidate P = findCandidate (graphOf P) := by
  unfold ffindCandidate findCandidate
  rw [fisCandidate_eq]

theorem graphOf_forientInto {n : Nat} (G : FAdj p) (P : FAdj n) (idx : Fin n → Fin p) (i : Fin n) :
    graphOf (forientInto G P idx i) = orientInto (graphOf G) (graphOf P) idx i := by
  funext a b
  unfold forientInto orientInto
  simp only [graphOf, fneighbors_eq]
  by_cases h : b = idx i ∧ ∃ j ∈ neighbors i (graphOf P), idx j = a
  · rw [if_pos h, if_neg (by simp)]
    exact (if_pos h).symm
  · rw [if_neg h]
    exact (if_neg h).symm

theorem fpdagToDagLoop_graph : ∀ (n : Nat) (P : FAdj n) (idx : Fin n → Fin p) (G : FAdj p),
    (fpdagToDagLoop n P idx G).map graphOf = pdagToDagLoop n (graphOf P) idx (graphOf G) := by
  intro n
  induction n with
  | zero => intro P idx G; rfl
  | succ n ih =>
    intro P idx G
    rw [fpdagToDagLoop, pdagToDagLoop, ffindCandidate_eq]
    cases findCandidate (graphOf P) with
    | none => rfl
    | some i =>
      simp only
      rw [ih, graphOf_forientInto]
      rfl

theorem fpdagToDag_graph (P : FAdj p) : (fpdagToDag P).map graphOf = pdagToDag (graphOf P) := by
  unfold fpdagToDag pdagToDag
  rw [fpdagToDagLoop_graph, graphOf_fonlyDirected]

theorem fpdagToDagLoop_entries : ∀ (n : Nat) (P : FAdj n) (idx : Fin n → Fin p) (G R : FAdj p), fpdagToDagLoop n P idx G = .ok R →
    ∀ a b, R a b = G a b ∨ R a b = .fin 1 ∧ ∃ i j, idx i = a ∧ idx j = b ∧ UndEdge (graphOf P) i j := by
  intro n
  induction n with
  | zero =>
    intro P idx G R h a b
    simp only [fpdagToDagLoop, Except.ok.injEq] at h
    exact .inl (by rw [h])
  | succ n ih =>
    intro P idx G R h a b
    rw [fpdagToDagLoop] at h
    cases hf : ffindCandidate P with
    | none => simp [hf] at h
    | some i =>
      simp only [hf] at h
      rcases ih _ _ _ R h a b with h1 | ⟨h1, x, y, rfl, rfl, h2⟩
      · rw [h1]
        unfold forientInto
        split_ifs with hc
        · obtain ⟨rfl, j, hj, rfl⟩ := hc
          refine .inr ⟨rfl, j, i, rfl, rfl, ?_⟩
          rw [fneighbors_eq, mem_neighbors] at hj
          exact ⟨hj.2, hj.1⟩
        · exact .inl rfl
      · exact .inr ⟨h1, _, _, rfl, rfl, h2⟩

theorem fpdagToDag_weights {P G : FAdj p} (h : fpdagToDag P = .ok G) (i j : Fin p) :
    (DirEdge (graphOf P) i j → G i j = P i j) ∧ (¬ DirEdge (graphOf P) i j → G i j = .fin 0 ∨ G i j = .fin 1) := by
  obtain ⟨k1, k2, -, -⟩ := C141_parts P i j
  rcases fpdagToDagLoop_entries p P id _ G h i j with h1 | ⟨h1, a, b, rfl, rfl, h2⟩
  · exact ⟨fun hd => h1.trans (k1 hd), fun hd => .inl (h1.trans (k2 hd))⟩
  · refine ⟨fun hd => absurd hd.2 h2.2, fun _ => .inr h1⟩

/-- The diagonal is zero. -/
def Spec.NoLoopsF (P : FAdj p) : Prop := ∀ i, P i i = .fin 0

theorem noLoops_graphOf {P : FAdj p} (hl : NoLoopsF P) : NoLoops (graphOf P) := fun i => by
  rw [graphOf_eq]
  exact hl i

/-- C144: for every matrix of doubles with zero diagonal, negative weights, infinities and NaN included, `pdag_to_dag` returns iff the graph of
the non-zero entries has a consistent extension, and raises `ValueError` otherwise.  What it returns is a consistent extension that keeps the
weights of the directed edges; an edge that was undirected has weight 1, whatever its weights were. -/
theorem C144_pdag_to_dag (P : FAdj p) (hl : NoLoopsF P) :
    (fpdagToDag P = .error .valueError ∧ ¬ ∃ D, IsExtension D (graphOf P)) ∨
    ∃ G, fpdagToDag P = .ok G ∧ IsExtension (graphOf G) (graphOf P) ∧ ∀ i j,
      (DirEdge (graphOf P) i j → G i j = P i j) ∧ (¬ DirEdge (graphOf P) i j → G i j = .fin 0 ∨ G i j = .fin 1) := by
  have hg := fpdagToDag_graph P
  obtain ⟨c1, -⟩ := C14_pdag_to_dag_complete (graphOf P) (noLoops_graphOf hl)
  cases h : fpdagToDag P with
  | error e =>
    rw [h] at hg
    have he : e = .valueError := by
      cases h' : pdagToDag (graphOf P) with
      | ok G => rw [h'] at hg; cases hg
      | error e' =>
        rw [h'] at hg
        cases hg
        rcases (pdagToDagLoop_spec p (graphOf P) id (onlyDirected (graphOf P)) (noLoops_graphOf hl) Function.injective_id).2.2 with ⟨G', hG'⟩ | hE
        · rw [pdagToDag, hG'] at h'; cases h'
        · rw [pdagToDag, hE] at h'
          cases h'
          rfl
    subst he
    exact .inl ⟨rfl, c1.1 hg.symm⟩
  | ok G =>
    rw [h] at hg
    exact .inr ⟨G, rfl, C13_pdag_to_dag_sound _ _ (noLoops_graphOf hl) hg.symm, fun i j => fpdagToDag_weights h i j⟩

/-! ## maximally_orient -/

theorem fanyRule_eq (i j : Fin p) (A : FAdj p) : fanyRule i j A = anyRule i j (graphOf A) := by
  unfold fanyRule anyRule frule1 frule2 frule3 frule4 rule1 rule2 rule3 rule4
  simp only [fch_eq, fneighbors_eq, fadj_eq, fpa_eq]

theorem fundirectedEdges_eq (A : FAdj p) : fundirectedEdges A = undirectedEdges (graphOf A) := by
  unfold fundirectedEdges undirectedEdges
  congr 2
  funext i j
  rw [isZero_graphOf, graphOf_fonlyUndirected]
  simp

theorem forientPass_eq {A : FAdj p} : ∀ (es : List (Fin p × Fin p)) (M : Adj p) (flag : Bool), Within01 A M →
    forientPass es (masked A M) flag = (masked A (orientPass es M flag).1, (orientPass es M flag).2) ∧ Within01 A (orientPass es M flag).1 := by
  intro es
  induction es with
  | nil => intro M flag h; exact ⟨rfl, h⟩
  | cons e es ih =>
    intro M flag h
    obtain ⟨i, j⟩ := e
    simp only [forientPass, orientPass, fanyRule_eq, graphOf_masked h, fsetEntry_masked]
    split_ifs
    · exact ih _ _ (h.set j i)
    · exact ih _ _ (h.set i j)
    · exact ih _ _ h

theorem forientLoop_eq {A : FAdj p} : ∀ (n : Nat) (M : Adj p), Within01 A M →
    forientLoop n (masked A M) = (orientLoop n M).map (masked A) := by
  intro n
  induction n with
  | zero => intro M h; rfl
  | succ n ih =>
    intro M h
    rw [forientLoop, orientLoop, fundirectedEdges_eq, graphOf_masked h]
    obtain ⟨h1, h2⟩ := forientPass_eq (undirectedEdges M) M false h
    rw [h1]
    generalize orientPass (undirectedEdges M) M false = r at h2 ⊢
    obtain ⟨M', b⟩ := r
    cases b with
    | true => exact ih _ h2
    | false => rfl

theorem fmaximallyOrient_eq (P : FAdj p) : fmaximallyOrient P = (maximallyOrient (graphOf P)).map (masked P) := by
  unfold fmaximallyOrient maximallyOrient
  have hg := fpdagToDag_graph P
  rw [← hg]
  cases fpdagToDag P with
  | error e => rfl
  | ok G =>
    simp only [Except.map]
    have := forientLoop_eq (p * p + 1) (graphOf P) (graphOf_within P)
    rw [masked_self] at this
    exact this

/-- C144: for every matrix of doubles whose graph has a consistent extension, `maximally_orient` returns; the entries are those of the matrix
or zero, and an entry is kept iff some consistent extension has the edge. -/
theorem C144_maximally_orient (P : FAdj p) (hD : ∃ D, IsExtension D (graphOf P)) : ∃ P', fmaximallyOrient P = .ok P' ∧
    ∀ i j, ((∃ H, IsExtension H (graphOf P) ∧ Edge H i j) → P i j ≠ .fin 0 ∧ P' i j = P i j) ∧
      ((¬ ∃ H, IsExtension H (graphOf P) ∧ Edge H i j) → P' i j = .fin 0) := by
  obtain ⟨M, h1, -, -, -⟩ := maximallyOrient_spec hD
  refine ⟨masked P M, by rw [fmaximallyOrient_eq, h1]; rfl, fun i j => ?_⟩
  have h2 := C20_maximal (graphOf P) M hD h1 i j
  have h3 := (C20_only_orients (graphOf P) M hD h1).2.2 i j
  rw [← h2]
  unfold masked
  refine ⟨fun h => ⟨?_, if_pos h⟩, fun h => if_neg h⟩
  rw [← graphOf_ne]
  rcases h3 with h3 | h3
  · exact absurd h3 h
  · rwa [← h3]

/-! ## pdag_to_cpdag, pdag_to_icpdag -/

theorem nonneg_one : NonnegDbl (.fin 1) := .inr ⟨1, rfl, by norm_num, 1, 0, by norm_num, by norm_num, by norm_num, by norm_num⟩

theorem nonneg_zero : NonnegDbl (.fin 0) := .inr ⟨0, rfl, le_refl _, 0, 0, by norm_num, by norm_num, by norm_num, by norm_num⟩

theorem fpdagToDag_nonneg {P G : FAdj p} (hP : ∀ i j, DirEdge (graphOf P) i j → NonnegDbl (P i j)) (h : fpdagToDag P = .ok G) (i j : Fin p) :
    NonnegDbl (G i j) := by
  obtain ⟨h1, h2⟩ := fpdagToDag_weights h i j
  by_cases hd : DirEdge (graphOf P) i j
  · rw [h1 hd]
    exact hP i j hd
  · rcases h2 hd with h | h <;> rw [h]
    · exact nonneg_zero
    · exact nonneg_one

theorem fpdagToCpdag_eq (S : Summer) (it : SetIter p) {P : FAdj p} (hP : ∀ i j, DirEdge (graphOf P) i j → NonnegDbl (P i j)) :
    fpdagToCpdag S it P = pdagToCpdag it (graphOf P) := by
  unfold fpdagToCpdag pdagToCpdag
  have hg := fpdagToDag_graph P
  rw [← hg]
  cases h : fpdagToDag P with
  | error e => rfl
  | ok G => exact fdagToCpdag_eq S it (fpdagToDag_nonneg hP h)

theorem fpdagToIcpdag_eq (S : Summer) (it : SetIter p) {P : FAdj p} (hP : ∀ i j, DirEdge (graphOf P) i j → NonnegDbl (P i j))
    (I : List (Fin p)) : fpdagToIcpdag S it P I = pdagToIcpdag it (graphOf P) I := by
  unfold fpdagToIcpdag pdagToIcpdag
  simp only [fneighbors_eq]
  have hg := fpdagToDag_graph P
  rw [← hg]
  cases h : fpdagToDag P with
  | error e => rfl
  | ok G =>
    simp only [Except.map]
    rw [fdagToIcpdag_eq S it (fpdagToDag_nonneg hP h)]

/-- C144: for a zero diagonal and directed edges whose weights are not negative (the weights of undirected edges are arbitrary), `pdag_to_cpdag`
and `pdag_to_icpdag` return the essential graph and the interventional essential graph of every consistent extension; they raise `ValueError`
if there is none, and `pdag_to_icpdag` also if a target has an undirected edge. -/
theorem C144_essential (S : Summer) (it : SetIter p) (P : FAdj p) (hl : NoLoopsF P)
    (hP : ∀ i j, DirEdge (graphOf P) i j → NonnegDbl (P i j)) :
    ((¬ ∃ D, IsExtension D (graphOf P)) → fpdagToCpdag S it P = .error .valueError ∧ ∀ I, fpdagToIcpdag S it P I = .error .valueError) ∧
    (∀ I, (∃ i ∈ I, ∃ j, UndEdge (graphOf P) i j) → fpdagToIcpdag S it P I = .error .valueError) ∧
    ∀ D, Nonneg D → IsExtension D (graphOf P) →
      (∃ C, fpdagToCpdag S it P = .ok C ∧ ∀ i j, (C i j = 1 ↔ ∃ H, Acyclic H ∧ MarkovEquiv D H ∧ Edge H i j) ∧ (C i j = 0 ∨ C i j = 1)) ∧
      ∀ I : List (Fin p), (∀ i ∈ I, ∀ j, ¬ UndEdge (graphOf P) i j) → ∃ C, fpdagToIcpdag S it P I = .ok C ∧
        ∀ i j, (C i j = 1 ↔ ∃ H, Acyclic H ∧ IEquiv I.toFinset D H ∧ Edge H i j) ∧ (C i j = 0 ∨ C i j = 1) := by
  have hl' := noLoops_graphOf hl
  obtain ⟨c1, c2⟩ := C19_pdag_to_cpdag it (graphOf P) (graphOf_nonneg P) hl'
  have i1 := fun I => C27_pdag_to_icpdag it (graphOf P) (graphOf_nonneg P) hl' I
  refine ⟨fun h => ⟨?_, fun I => ?_⟩, fun I h => ?_, fun D hD0 hD => ⟨?_, fun I hI => ?_⟩⟩
  · rw [fpdagToCpdag_eq S it hP, c1]
    exact h
  · rw [fpdagToIcpdag_eq S it hP, (i1 I).1]
    exact .inr h
  · rw [fpdagToIcpdag_eq S it hP, (i1 I).1]
    exact .inl h
  · obtain ⟨C, hC, h⟩ := C17_essential_graph it D hD0 hD.1
    refine ⟨C, by rw [fpdagToCpdag_eq S it hP, c2 D hD0 hD it, hC], fun i j => ⟨(h i j).1, ?_⟩⟩
    rw [(h i j).1, (h i j).2]
    exact (em _).symm
  · obtain ⟨C, hC, h⟩ := C21_interventional_essential_graph it D hD0 hD.1 I
    refine ⟨C, by rw [fpdagToIcpdag_eq S it hP, (i1 I).2 hI D hD0 hD it, hC], fun i j => ⟨(h i j).1, ?_⟩⟩
    rw [(h i j).1, (h i j).2]
    exact (em _).symm

/-! ## all_dags -/

theorem round_between {x lo hi : ℚ} (h1 : lo ≤ x) (h2 : x ≤ hi) (hlo : IsBinary64 lo) (hhi : IsBinary64 hi) :
    ∃ y, Dbl.round x = .fin y ∧ lo ≤ y ∧ y ≤ hi := by
  by_cases hx : x = 0
  · subst hx
    exact ⟨0, by simp [Dbl.round], h1, h2⟩
  obtain ⟨e, r, he, hr, h⟩ := round_ne hx
  have a1 := round_nearest hx he hlo
  have a2 := round_nearest hx he hhi
  rw [← hr] at a1 a2
  rw [abs_of_nonneg (by linarith : 0 ≤ x - lo)] at a1
  rw [abs_of_nonpos (by linarith : x - hi ≤ 0)] at a2
  have b1 : lo ≤ r := by linarith [le_abs_self (x - r)]
  have b2 : r ≤ hi := by linarith [neg_abs_le (x - r)]
  refine ⟨r, ?_, b1, b2⟩
  rw [h, if_pos]
  have c1 := abs_lt.1 hlo.lt
  have c2 := abs_lt.1 hhi.lt
  exact abs_lt.2 ⟨by linarith [c1.1], by linarith [c2.2]⟩

/-- A sum of numbers between `lo` and `hi` and zeros, in any order, if the multiples of `lo` and `hi` are doubles. -/
theorem SumOf.between {lo hi : ℚ} {N : Nat} (hN : ∀ c : Nat, c ≤ N → IsBinary64 (lo * c) ∧ IsBinary64 (hi * c)) {l : List Dbl} {x : Dbl}
    (h : SumOf l x) : (∀ y ∈ l, y = .fin 0 ∨ ∃ q, y = .fin q ∧ lo ≤ q ∧ q ≤ hi) → l.countP (fun y => ! y.isZero) ≤ N →
      ∃ s, x = .fin s ∧ lo * (l.countP (fun y => ! y.isZero) : Nat) ≤ s ∧ s ≤ hi * (l.countP (fun y => ! y.isZero) : Nat) := by
  induction h with
  | nil => intro _ _; exact ⟨0, rfl, by simp, by simp⟩
  | single y =>
    intro hl _
    by_cases hy : y = .fin 0
    · exact ⟨0, hy, by simp [hy, Dbl.isZero], by simp [hy, Dbl.isZero]⟩
    · obtain ⟨q, rfl, h1, h2⟩ := (hl y (by simp)).resolve_left hy
      have : [Dbl.fin q].countP (fun y => ! y.isZero) = 1 := by
        have hz : (Dbl.fin q).isZero = false := by rw [← Bool.not_eq_true, isZero_iff]; exact hy
        simp [hz]
      rw [this]
      exact ⟨q, rfl, by simpa using h1, by simpa using h2⟩
  | add hperm hs1 hs2 ih1 ih2 =>
    intro hl hc
    rw [hperm.countP_eq, List.countP_append] at hc ⊢
    obtain ⟨s, rfl, a1, a2⟩ := ih1 (fun y hy => hl y (hperm.mem_iff.2 (List.mem_append_left _ hy))) (by omega)
    obtain ⟨t, rfl, b1, b2⟩ := ih2 (fun y hy => hl y (hperm.mem_iff.2 (List.mem_append_right _ hy))) (by omega)
    obtain ⟨k1, k2⟩ := hN _ hc
    obtain ⟨r, r1, r2, r3⟩ := round_between (x := s + t) (by push_cast; linarith) (by push_cast; linarith) k1 k2
    exact ⟨r, r1, r2, r3⟩

theorem binary64_nat {k : Nat} (hk : k < 2 ^ 53) : IsBinary64 (k : ℚ) :=
  ⟨k, 0, by rw [abs_of_nonneg (by positivity)]; exact_mod_cast hk, by norm_num, by norm_num, by simp⟩

theorem binary64_frac {k : Nat} (hk : k < 2 ^ 53) (e : ℤ) (h1 : -1074 ≤ e) (h2 : e ≤ 971) : IsBinary64 ((k : ℚ) * 2 ^ e) :=
  ⟨k, e, by rw [abs_of_nonneg (by positivity)]; exact_mod_cast hk, h1, h2, by simp⟩

theorem countP_und {P : FAdj p} (hl : NoLoopsF P) :
    ((allPairs p).map fun e => fonlyUndirected P e.1 e.2).countP (fun y => ! y.isZero) = 2 * (fundirectedEdges P).length := by
  have hsum := sumAll_onlyUndirected (graphOf_zeroOne P)
  rw [Finset.filter_false_of_mem (fun i _ => by simp [noLoops_graphOf hl i]), Finset.card_empty] at hsum
  rw [fundirectedEdges_eq]
  rw [List.countP_map, List.countP_eq_length_filter, ← List.toFinset_card_of_nodup (nodup_allPairs.filter _)]
  have h1 : ((((allPairs p).filter ((fun y : Dbl => ! y.isZero) ∘ fun e => fonlyUndirected P e.1 e.2)).toFinset.card : Nat) : Int) =
      sumAll (onlyUndirected (graphOf P)) := by
    have h2 : ((allPairs p).filter ((fun y : Dbl => ! y.isZero) ∘ fun e => fonlyUndirected P e.1 e.2)).toFinset =
        Finset.univ.filter fun e : Fin p × Fin p => onlyUndirected (graphOf P) e.1 e.2 ≠ 0 := by
      ext e
      simp [isZero_graphOf, graphOf_fonlyUndirected]
    rw [h2, Finset.card_filter]
    unfold sumAll
    rw [← Fintype.sum_prod_type' (f := fun i j => onlyUndirected (graphOf P) i j)]
    push_cast
    refine Finset.sum_congr rfl fun e _ => ?_
    unfold onlyUndirected
    by_cases h3 : graphOf P e.1 e.2 ≠ 0 ∧ graphOf P e.2 e.1 ≠ 0
    · rw [if_pos h3, if_pos h3.1]
      rcases graphOf_zeroOne P e.1 e.2 with h | h
      · exact absurd h h3.1
      · exact h.symm
    · simp only [if_neg h3]
      simp
  rw [hsum] at h1
  omega

theorem fisConsistentExtension₂_eq (S : Summer) (it : SetIter p) {G P : FAdj p} (hG : ∀ i j, NonnegDbl (G i j)) (hP : ∀ i j, NonnegDbl (P i j)) :
    fisConsistentExtension₂ S it G P = isConsistentExtension it (graphOf G) (graphOf P) := by
  unfold fisConsistentExtension₂ isConsistentExtension
  rw [fisDag_eq S it hG, fvstructures_eq, fvstructures_eq, fskeleton_eq hG, fskeleton_eq hP]
  simp only [isZero_graphOf, graphOf_fonlyDirected, decide_eq_false_iff_not, ne_eq]

theorem forientAll_eq {P : FAdj p} (es : List (Fin p × Fin p)) (fl : List Bool) : 
    forientAll P es fl = masked P (orientAll (graphOf P) es fl) ∧ Within01 P (orientAll (graphOf P) es fl) := by
  unfold forientAll orientAll
  generalize List.zip es fl = z
  have key : ∀ (z : List ((Fin p × Fin p) × Bool)) (M : Adj p), Within01 P M →
      z.foldl (fun A ef => let oriented := if ef.2 then (ef.1.2, ef.1.1) else (ef.1.1, ef.1.2); fsetEntry A oriented.2 oriented.1 (.fin 0)) (masked P M) =
        masked P (z.foldl (fun A ef => let oriented := if ef.2 then (ef.1.2, ef.1.1) else (ef.1.1, ef.1.2); setEntry A oriented.2 oriented.1 0) M) ∧
      Within01 P (z.foldl (fun A ef => let oriented := if ef.2 then (ef.1.2, ef.1.1) else (ef.1.1, ef.1.2); setEntry A oriented.2 oriented.1 0) M) := by
    intro z
    induction z with
    | nil => intro M h; exact ⟨rfl, h⟩
    | cons ef z ih =>
      intro M h
      simp only [List.foldl_cons, fsetEntry_masked]
      exact ih _ (h.set _ _)
  have := key z (graphOf P) (graphOf_within P)
  rwa [masked_self] at this

theorem masked_nonnegDbl {P : FAdj p} (hP : ∀ i j, NonnegDbl (P i j)) (M : Adj p) (i j : Fin p) : NonnegDbl (masked P M i j) := by
  unfold masked
  split
  · exact hP i j
  · exact nonneg_zero

theorem fkeepDags_eq (S : Summer) (it : SetIter p) {P : FAdj p} (hP : ∀ i j, NonnegDbl (P i j)) : ∀ Ms : List (Adj p), (∀ M ∈ Ms, Within01 P M) →
    fkeepDags S it P (Ms.map (masked P)) = (keepDags it (graphOf P) Ms).map (List.map (masked P)) := by
  intro Ms
  induction Ms with
  | nil => intro _; rfl
  | cons M Ms ih =>
    intro h
    have hM := h M (by simp)
    rw [List.map_cons, fkeepDags, keepDags, ih fun N hN => h N (List.mem_cons_of_mem _ hN),
      fisDag_eq S it (masked_nonnegDbl hP M), fisConsistentExtension₂_eq S it (masked_nonnegDbl hP M) hP, graphOf_masked hM]
    generalize (if isDag it M then isConsistentExtension it M (graphOf P) else .ok false) = r
    cases r with
    | error e => rfl
    | ok b =>
      cases keepDags it (graphOf P) Ms with
      | error e => rfl
      | ok l => cases b <;> rfl

theorem fallDags_eq (S : Summer) (it : SetIter p) {P : FAdj p} (hP : ∀ i j, NonnegDbl (P i j)) (hl : NoLoopsF P)
    (hsum : (fsumAll S (fonlyUndirected P)).half = .fin ((fundirectedEdges P).length : ℚ)) (hlt : (fundirectedEdges P).length < 1024) :
    fallDags S it P = (allDags it (graphOf P)).map (List.map (masked P)) := by
  have hs := sumAll_onlyUndirected (graphOf_zeroOne P)
  rw [Finset.filter_false_of_mem (fun i _ => by simp [noLoops_graphOf hl i]), Finset.card_empty] at hs
  unfold fallDags allDags
  simp only
  rw [if_neg (by rw [hsum]; simp)]
  have hs' : ¬ ¬ 2 * ((undirectedEdges (graphOf P)).length : Int) = sumAll (onlyUndirected (graphOf P)) := by rw [hs]; simp
  simp only [if_neg hs']
  rw [fundirectedEdges_eq] at hlt ⊢
  by_cases h0 : (undirectedEdges (graphOf P)).length = 0
  · rw [if_pos h0, if_pos h0]
    simp [Except.map, masked_self]
  rw [if_neg h0, if_neg h0]
  cases hc : cartesian (id : Bool → Bool) (List.replicate (undirectedEdges (graphOf P)).length [true, false]) with
  | error e => rfl
  | ok combos =>
    simp only
    have hpow : Dbl.round ((2 : ℚ) ^ (undirectedEdges (graphOf P)).length) = .fin (2 ^ (undirectedEdges (graphOf P)).length) := by
      refine (C141_round _).2 ?_
      generalize (undirectedEdges (graphOf P)).length = n at hlt
      by_cases hn : n ≤ 971
      · exact ⟨1, n, by norm_num, by omega, by exact_mod_cast hn, by simp⟩
      · refine ⟨2 ^ 52, n - 52, by norm_num, by omega, by omega, ?_⟩
        rw [show ((2 ^ 52 : ℤ) : ℚ) = (2 : ℚ) ^ (52 : ℤ) by norm_num, ← zpow_natCast, ← zpow_add₀ (by norm_num)]
        congr 1
        omega
    have hcond : (Dbl.round ((2 : ℚ) ^ (undirectedEdges (graphOf P)).length) = .fin (combos.length : ℚ)) ↔
        combos.length = 2 ^ (undirectedEdges (graphOf P)).length := by
      rw [hpow]
      constructor
      · intro h
        have := Dbl.fin.inj h
        exact_mod_cast this.symm
      · intro h
        rw [h]
        push_cast
        rfl
    simp only [hcond]
    have hmap : combos.map (forientAll P (undirectedEdges (graphOf P))) =
        (combos.map (orientAll (graphOf P) (undirectedEdges (graphOf P)))).map (masked P) := by
      rw [List.map_map]
      exact List.map_congr_left fun fl _ => (forientAll_eq _ fl).1
    have hw : ∀ M ∈ combos.map (orientAll (graphOf P) (undirectedEdges (graphOf P))), Within01 P M := by
      intro M hM
      obtain ⟨fl, -, rfl⟩ := List.mem_map.1 hM
      exact (forientAll_eq _ fl).2
    have hcard : ((combos.map (orientAll (graphOf P) (undirectedEdges (graphOf P)))).map (masked P)).toFinset.card =
        (combos.map (orientAll (graphOf P) (undirectedEdges (graphOf P)))).toFinset.card := by
      rw [show ((combos.map (orientAll (graphOf P) (undirectedEdges (graphOf P)))).map (masked P)).toFinset =
        (combos.map (orientAll (graphOf P) (undirectedEdges (graphOf P)))).toFinset.image (masked P) by ext; simp]
      refine Finset.card_image_of_injOn ?_
      intro M hM N hN h
      rw [← graphOf_masked (hw M (List.mem_toFinset.1 hM)), ← graphOf_masked (hw N (List.mem_toFinset.1 hN)), h]
    rw [hmap, hcard, fkeepDags_eq S it hP _ hw]
    split_ifs <;> rfl

/-- The number of undirected edges of a graph. -/
noncomputable def Spec.undirectedCount (P : Adj p) : Nat :=
  open Classical in (Finset.univ.filter fun e : Fin p × Fin p => UndEdge P e.1 e.2 ∧ e.2 < e.1).card

theorem fundirected_count (P : FAdj p) : (fundirectedEdges P).length = undirectedCount (graphOf P) := by
  classical
  rw [fundirectedEdges_eq, length_undirectedEdges]
  unfold undirectedCount
  congr!

theorem mem_und {P : FAdj p} {y : Dbl} (hy : y ∈ (allPairs p).map fun e => fonlyUndirected P e.1 e.2) :
    y = .fin 0 ∨ ∃ i j, UndEdge (graphOf P) i j ∧ y = P i j := by
  obtain ⟨e, -, rfl⟩ := List.mem_map.1 hy
  obtain ⟨-, -, h1, h2⟩ := C141_parts P e.1 e.2
  by_cases h : UndEdge (graphOf P) e.1 e.2
  · exact .inr ⟨_, _, h, h1 h⟩
  · exact .inl (h2 h)

/-- C144: if all undirected entries are 1, the weights of the directed edges are not negative and less than 1024 edges are undirected, `all_dags`
returns the consistent extensions of the graph with the weights of the matrix, each one once, in whatever order numpy adds. -/
theorem C144_all_dags (S : Summer) (it : SetIter p) (P : FAdj p) (hl : NoLoopsF P) (hdir : ∀ i j, DirEdge (graphOf P) i j → NonnegDbl (P i j))
    (hund : ∀ i j, UndEdge (graphOf P) i j → P i j = .fin 1) (hu : (∃ i j, UndEdge (graphOf P) i j) ∨ Acyclic (graphOf P))
    (hlt : undirectedCount (graphOf P) < 1024) :
    ∃ l, fallDags S it P = .ok l ∧ l.Nodup ∧
      ∀ D, D ∈ l ↔ (∀ i j, D i j = .fin 0 ∨ D i j = P i j) ∧ IsExtension (graphOf D) (graphOf P) := by
  have hP : ∀ i j, NonnegDbl (P i j) := by
    intro i j
    by_cases h0 : P i j = .fin 0
    · rw [h0]; exact nonneg_zero
    by_cases h1 : P j i = .fin 0
    · exact hdir i j ⟨graphOf_ne.2 h0, graphOf_eq.2 h1⟩
    · rw [hund i j ⟨graphOf_ne.2 h0, graphOf_ne.2 h1⟩]; exact nonneg_one
  rw [← fundirected_count] at hlt
  have hcount := countP_und hl
  have hsum : (fsumAll S (fonlyUndirected P)).half = .fin ((fundirectedEdges P).length : ℚ) := by
    obtain ⟨s, h1, h2, h3⟩ := (S.isSum ((allPairs p).map fun e => fonlyUndirected P e.1 e.2)).between (lo := 1) (hi := 1) (N := 2048)
      (fun c hc => by
        have := binary64_nat (k := c) (by omega)
        rw [one_mul]
        exact ⟨this, this⟩)
      (fun y hy => by
        rcases mem_und hy with h | ⟨i, j, h, rfl⟩
        · exact .inl h
        · exact .inr ⟨1, hund i j h, le_refl _, le_refl _⟩) (by omega)
    rw [hcount] at h2 h3
    have h4 : s = 2 * ((fundirectedEdges P).length : ℚ) := by push_cast at h2 h3; linarith
    unfold fsumAll
    rw [h1, Dbl.half, h4, mul_div_cancel_left₀ _ (by norm_num)]
    exact (C141_round _).2 (binary64_nat (by omega))
  obtain ⟨l, k1, k2, k3⟩ := C23_all_dags it (graphOf P) (graphOf_zeroOne P) (noLoops_graphOf hl) hu
  have hw : ∀ M ∈ l, Within01 P M := by
    intro M hM i j
    obtain ⟨h01, hE⟩ := (k3 M).1 hM
    rcases h01 i j with h | h
    · exact .inl h
    · refine .inr ⟨h, ?_⟩
      rw [← graphOf_ne]
      intro h0
      have hne : M i j ≠ 0 := by rw [h]; decide
      rcases (hE.2.1 i j).1 (.inl hne) with h' | h'
      · exact h' h0
      · have := hE.2.2.2 j i ⟨h', h0⟩
        exact absurd (Relation.TransGen.tail (Relation.TransGen.single this) hne) (hE.1 j)
  refine ⟨l.map (masked P), by rw [fallDags_eq S it hP hl hsum hlt, k1]; rfl, ?_, fun D => ?_⟩
  · refine k2.map_on fun M hM N hN h => ?_
    rw [← graphOf_masked (hw M hM), ← graphOf_masked (hw N hN), h]
  · constructor
    · intro hD
      obtain ⟨M, hM, rfl⟩ := List.mem_map.1 hD
      rw [graphOf_masked (hw M hM)]
      refine ⟨fun i j => ?_, ((k3 M).1 hM).2⟩
      unfold masked
      split
      · exact .inr rfl
      · exact .inl rfl
    · rintro ⟨hD, hE⟩
      refine List.mem_map.2 ⟨graphOf D, (k3 _).2 ⟨graphOf_zeroOne D, hE⟩, ?_⟩
      funext i j
      unfold masked
      split
      · rename_i h
        exact ((hD i j).resolve_left (graphOf_ne.1 h)).symm
      · rename_i h
        rw [graphOf_ne, not_not] at h
        exact h.symm

/-- C144: but a weighted PDAG is rejected with `AssertionError` if some edge is undirected and all undirected entries are at most one half (or
in general their sum is not the number of these entries, see the example below), for at most `2^53` entries. -/
theorem C144_small_weights (S : Summer) (it : SetIter p) (P : FAdj p) (hl : NoLoopsF P) (hu : ∃ i j, UndEdge (graphOf P) i j)
    (hund : ∀ i j, UndEdge (graphOf P) i j → ∃ q : ℚ, P i j = .fin q ∧ 0 ≤ q ∧ q ≤ 1 / 2) (hp : p * p < 2 ^ 53) :
    fallDags S it P = .error .assertionError := by
  have hcount := countP_und hl
  have hpos : 0 < (fundirectedEdges P).length := by
    rw [fundirectedEdges_eq]
    exact Nat.pos_of_ne_zero fun h => (undirectedEdges_length_eq_zero (noLoops_graphOf hl)).1 h hu
  have hle : ((allPairs p).map fun e => fonlyUndirected P e.1 e.2).countP (fun y => ! y.isZero) < 2 ^ 53 := by
    refine lt_of_le_of_lt List.countP_le_length ?_
    rw [List.length_map]
    have : (allPairs p).length = p * p := by
      rw [← List.toFinset_card_of_nodup nodup_allPairs, show (allPairs p).toFinset = Finset.univ by ext e; simp]
      simp
    rw [this]
    exact hp
  obtain ⟨s, h1, h2, h3⟩ := (S.isSum ((allPairs p).map fun e => fonlyUndirected P e.1 e.2)).between (lo := 0) (hi := 1 / 2) (N := 2 ^ 53 - 1)
    (fun c hc => by
      refine ⟨by simpa using binary64_nat (k := 0) (by norm_num), ?_⟩
      have := binary64_frac (k := c) (by omega) (-1) (by norm_num) (by norm_num)
      rwa [show (c : ℚ) * 2 ^ (-1 : ℤ) = 1 / 2 * c by norm_num; ring] at this)
    (fun y hy => by
      rcases mem_und hy with h | ⟨i, j, h, rfl⟩
      · exact .inl h
      · exact .inr (hund i j h)) (by omega)
  rw [hcount] at h2 h3 hle
  obtain ⟨r, r1, r2, r3⟩ := round_between (x := s / 2) (lo := 0) (hi := ((2 * (fundirectedEdges P).length : Nat) : ℚ) * 2 ^ (-2 : ℤ))
    (by simp at h2; linarith) (by norm_num at h3 ⊢; linarith) (by simpa using binary64_nat (k := 0) (by norm_num))
    (binary64_frac hle (-2) (by norm_num) (by norm_num))
  unfold fallDags
  simp only
  rw [if_pos]
  unfold fsumAll
  rw [h1, Dbl.half, r1]
  intro h
  have := Dbl.fin.inj h
  have hq : (0 : ℚ) < ((fundirectedEdges P).length : ℚ) := by exact_mod_cast hpos
  rw [this] at r3
  push_cast at r3
  norm_num at r3
  linarith

/-! ## Examples -/

/-- `0 - 1 → 2`, `0 → 2` with the weights `x` and `y` for the undirected edge. -/
def weightedP (x y : Dbl) : FAdj 3 := ![![.fin 0, x, .fin (1 / 4)], ![y, .fin 0, .pinf], ![.fin 0, .fin 0, .fin 0]]

/-- An example for `C144_all_dags`: the weights 1/4 and infinity are kept. -/
example (S : Summer) (it : SetIter 3) : ∃ l, fallDags S it (weightedP (.fin 1) (.fin 1)) = .ok l ∧ l.Nodup ∧
    ∀ D, D ∈ l ↔ (∀ i j, D i j = .fin 0 ∨ D i j = weightedP (.fin 1) (.fin 1) i j) ∧
      IsExtension (graphOf D) (graphOf (weightedP (.fin 1) (.fin 1))) := by
  refine C144_all_dags S it _ (fun i => ?_) (fun i j h => ?_) (fun i j h => ?_) (.inl ⟨0, 1, ?_⟩) ?_
  · fin_cases i <;> rfl
  · fin_cases i <;> fin_cases j <;> first | exact absurd h (by unfold DirEdge; decide +kernel) | skip
    · exact .inr ⟨1 / 4, rfl, by norm_num, 1, -2, by norm_num, by norm_num, by norm_num, by norm_num⟩
    · exact .inl rfl
  · fin_cases i <;> fin_cases j <;> first | exact absurd h (by unfold UndEdge; decide +kernel) | rfl
  · unfold UndEdge; decide +kernel
  · rw [← fundirected_count]
    decide +kernel

/-- An example for `C144_small_weights`: weights 1/4 and 1/2 of one undirected edge. -/
example (S : Summer) (it : SetIter 3) : fallDags S it (weightedP (.fin (1 / 4)) (.fin (1 / 2))) = .error .assertionError := by
  refine C144_small_weights S it _ (fun i => ?_) ⟨0, 1, by unfold UndEdge; decide +kernel⟩ (fun i j h => ?_) (by norm_num)
  · fin_cases i <;> rfl
  · fin_cases i <;> fin_cases j <;> first | exact absurd h (by unfold UndEdge; decide +kernel) | skip
    · exact ⟨1 / 4, rfl, by norm_num, by norm_num⟩
    · exact ⟨1 / 2, rfl, by norm_num, by norm_num⟩

/-- The weights 1/2 and 3/2 of one undirected edge pass the assertions, and the two extensions have one of them each. -/
example : (match fallDags leftSum (SetIter.incr 3) (weightedP (.fin (1 / 2)) (.fin (3 / 2))) with
    | .ok l => decide (l.map (fun D => (D 0 1, D 1 0)) = [(.fin (1 / 2), .fin 0), (.fin 0, .fin (3 / 2))])
    | .error _ => false) = true := by decide +kernel

/-- An example for `C144_pdag_to_dag` and `C144_maximally_orient`: a negative weight and NaN. -/
example : (match fpdagToDag (weightedP .nan (.fin (-2))) with
    | .ok G => decide ((G 0 1, G 1 0) = (.fin 0, .fin 1) ∧ G 0 2 = .fin (1 / 4)) || decide ((G 0 1, G 1 0) = (.fin 1, .fin 0) ∧ G 0 2 = .fin (1 / 4))
    | .error _ => false) = true := by decide +kernel

end Verif
