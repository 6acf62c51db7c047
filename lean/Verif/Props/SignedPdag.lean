import Verif.Props.OrderAny
import Verif.Props.FloatMore
import Mathlib.Algebra.BigOperators.Fin

/-!
# C151: `pdag_to_cpdag`, `pdag_to_icpdag`, `to_factorization` and `all_dags` for weights of any sign

The documentation of these functions says that `P[i, j] != 0` is an edge; nothing is assumed about the signs of the weights of directed edges.
-/

namespace Verif
open Spec
variable {p : Nat}

theorem fisDag_congr_any {S : Summer} {it : SetIter p} {G : FAdj p} (hac : Acyclic (graphOf G)) : fisDag S it G = true :=
  (C146_float_dag S it G hac).1

/-- C151: whatever the signs of the weights, `to_factorization` returns the parents of every node of a DAG. -/
theorem C151_to_factorization (S : Summer) (it : SetIter p) (G : FAdj p) (hac : Acyclic (graphOf G)) :
    ∃ f, ftoFactorization S it G = .ok f ∧ f.length = p ∧ ∀ j : Fin p, ∃ l, f[j.val]? = some l ∧
      l.Pairwise (· < ·) ∧ ∀ k, k ∈ l ↔ Edge (graphOf G) k j := by
  have h : ftoFactorization S it G = toFactorization it (graphOf G) := by
    unfold ftoFactorization toFactorization
    rw [fisDag_congr_any hac, (isDag_iff it (graphOf_nonneg G)).2 hac]
    simp only [fpa_eq]
  rw [h]
  exact (C70_to_factorization it (graphOf G) (graphOf_nonneg G)).2 hac

theorem fpdagToDag_doubles {P G : FAdj p} (hP : AllDoubles P) (hl : NoLoopsF P) (h : fpdagToDag P = .ok G) :
    AllDoubles G ∧ IsExtension (graphOf G) (graphOf P) := by
  rcases C144_pdag_to_dag P hl with ⟨h1, -⟩ | ⟨G', h1, h2, h3⟩
  · rw [h] at h1
    cases h1
  · rw [h] at h1
    cases h1
    refine ⟨fun i j q hq => ?_, h2⟩
    by_cases hd : DirEdge (graphOf P) i j
    · rw [(h3 i j).1 hd] at hq
      exact hP i j q hq
    · rcases (h3 i j).2 hd with h0 | h0 <;> rw [h0] at hq <;> injection hq with hq <;> subst hq
      · exact ⟨0, 0, by norm_num, by norm_num, by norm_num, by norm_num⟩
      · exact ⟨1, 0, by norm_num, by norm_num, by norm_num, by norm_num⟩

theorem markov_of_extensions {P D E : Adj p} (hD : IsExtension D P) (hE : IsExtension E P) : MarkovEquiv D E :=
  ⟨fun i j => (hD.2.1 i j).trans (hE.2.1 i j).symm, fun i c j => (hD.2.2.1 i c j).trans (hE.2.2.1 i c j).symm⟩

theorem parents_of_extensions {P D E : Adj p} (hD : IsExtension D P) (hE : IsExtension E P) {i : Fin p} (hi : ∀ j, ¬ UndEdge P i j) (k : Fin p) :
    Edge D k i ↔ Edge E k i := by
  have key : ∀ {D E : Adj p}, IsExtension D P → IsExtension E P → Edge D k i → Edge E k i := by
    intro D E hD hE h
    have hadj := (hD.2.1 k i).1 (.inl h)
    by_cases h1 : P i k = 0
    · have : P k i ≠ 0 := by
        rcases hadj with h' | h'
        · exact h'
        · exact absurd h1 h'
      exact hE.2.2.2 k i ⟨this, h1⟩
    · by_cases h2 : P k i = 0
      · exact absurd (hD.1.no_two (hD.2.2.2 i k ⟨h1, h2⟩)) h
      · exact absurd ⟨h1, h2⟩ (hi k)
  exact ⟨key hD hE, key hE hD⟩

/-- C151: `pdag_to_cpdag` and `pdag_to_icpdag` for PDAGs of doubles, whatever the signs of the weights.  If there is no consistent extension they
raise a `ValueError`, and `pdag_to_icpdag` also if a target has an undirected edge.  Otherwise let `G` be the extension that `pdag_to_dag` finds and
`order` what `topological_ordering` returns for it.  If every edge of `G` goes forward in this list by first and by last occurrences, they return
the essential graphs of all consistent extensions; if some edge goes backward by first occurrences, they raise an `IndexError`. -/
theorem C151_essential (S : Summer) (it : SetIter p) (P : FAdj p) (hP : AllDoubles P) (hl : NoLoopsF P) :
    ((¬ ∃ D, IsExtension D (graphOf P)) → fpdagToCpdag S it P = .error .valueError ∧ ∀ I, fpdagToIcpdag S it P I = .error .valueError) ∧
    (∀ I, (∃ i ∈ I, ∃ j, UndEdge (graphOf P) i j) → fpdagToIcpdag S it P I = .error .valueError) ∧
    ∀ D, IsExtension D (graphOf P) → ∃ G order, fpdagToDag P = .ok G ∧ IsExtension (graphOf G) (graphOf P) ∧
      ftopologicalOrdering S it G = .ok order ∧ (∀ v, v ∈ order) ∧
      ((∃ a b, Edge (graphOf G) a b ∧ order.idxOf b < order.idxOf a) → fpdagToCpdag S it P = .error .indexError ∧
        ∀ I, (∀ i ∈ I, ∀ j, ¬ UndEdge (graphOf P) i j) → fpdagToIcpdag S it P I = .error .indexError) ∧
      ((∀ a b, Edge (graphOf G) a b → order.idxOf a < order.idxOf b ∧ order.reverse.idxOf b < order.reverse.idxOf a) →
        (∃ C, fpdagToCpdag S it P = .ok C ∧ ZeroOne C ∧ ∀ i j, Edge C i j ↔ ∃ H, Acyclic H ∧ MarkovEquiv D H ∧ Edge H i j) ∧
        ∀ I : List (Fin p), (∀ i ∈ I, ∀ j, ¬ UndEdge (graphOf P) i j) → ∃ C, fpdagToIcpdag S it P I = .ok C ∧ ZeroOne C ∧
          ∀ i j, Edge C i j ↔ ∃ H, Acyclic H ∧ IEquiv I.toFinset D H ∧ Edge H i j) := by
  have hn : ∀ I : List (Fin p), (∃ i ∈ I, (fneighbors i P).card > 0) ↔ ∃ i ∈ I, ∃ j, UndEdge (graphOf P) i j := by
    intro I
    refine exists_congr fun i => and_congr_right fun _ => ?_
    rw [fneighbors_eq, gt_iff_lt, Finset.card_pos]
    exact exists_congr fun j => mem_neighbors
  have hno : (¬ ∃ D, IsExtension D (graphOf P)) → fpdagToDag P = .error .valueError := by
    intro h
    rcases C144_pdag_to_dag P hl with ⟨h1, -⟩ | ⟨G, -, h2, -⟩
    · exact h1
    · exact absurd ⟨_, h2⟩ h
  refine ⟨fun h => ⟨?_, fun I => ?_⟩, fun I h => ?_, fun D hD => ?_⟩
  · unfold fpdagToCpdag
    rw [hno h]
  · unfold fpdagToIcpdag
    rw [hno h]
    split_ifs <;> rfl
  · unfold fpdagToIcpdag
    rw [if_pos ((hn I).2 h)]
  · rcases C144_pdag_to_dag P hl with ⟨-, h1⟩ | ⟨G, hG, hE, -⟩
    · exact absurd ⟨D, hD⟩ h1
    obtain ⟨hGd, -⟩ := fpdagToDag_doubles hP hl hG
    obtain ⟨-, order, ho, hall, -⟩ := C146_float_dag S it G hE.1
    have e1 : fpdagToCpdag S it P = fdagToCpdag S it G := by
      unfold fpdagToCpdag
      rw [hG]
    have e2 : ∀ I : List (Fin p), (∀ i ∈ I, ∀ j, ¬ UndEdge (graphOf P) i j) → fpdagToIcpdag S it P I = fdagToIcpdag S it G I := by
      intro I hI
      unfold fpdagToIcpdag
      rw [if_neg, hG]
      rw [hn]
      rintro ⟨i, hi, j, hij⟩
      exact hI i hi j hij
    have hme := markov_of_extensions hD hE
    refine ⟨G, order, hG, hE, ho, hall, fun hb => ?_, fun hf => ?_⟩
    · obtain ⟨-, h1, h2, -⟩ := (C149_float_returns_iff S it G hE.1 order ho).2 hb
      exact ⟨e1.trans h1, fun I hI => (e2 I hI).trans (h2 I)⟩
    · obtain ⟨-, h1, ⟨C, h2, h3, h4⟩, -⟩ := C149_float_correct S it G hGd hE.1 order ho (fun a b h => (hf a b h).1) (fun a b h => (hf a b h).2)
        false (.inr rfl)
      refine ⟨⟨C, e1.trans h2, h3, fun i j => ?_⟩, fun I hI => ?_⟩
      · rw [h4]
        exact exists_congr fun H => and_congr_right fun _ => and_congr_left fun _ => ⟨hme.trans, hme.symm.trans⟩
      · obtain ⟨C, h5, h6⟩ := C21_interventional_essential_graph it (graphOf G) (graphOf_nonneg G) hE.1 I
        refine ⟨C, (e2 I hI).trans ((h1 I).trans h5), fun i j => ?_, fun i j => ?_⟩
        · rw [(h6 i j).1, (h6 i j).2]
          exact (em _).symm
        · have hp : ∀ H, IEquiv I.toFinset (graphOf G) H ↔ IEquiv I.toFinset D H := by
            intro H
            have hpar : ∀ i ∈ I.toFinset, ∀ k, Edge D k i ↔ Edge (graphOf G) k i := fun i hi k =>
              parents_of_extensions hD hE (hI i (List.mem_toFinset.1 hi)) k
            exact ⟨fun h => ⟨hme.trans h.1, fun i hi k => (hpar i hi k).trans (h.2 i hi k)⟩,
              fun h => ⟨hme.symm.trans h.1, fun i hi k => (hpar i hi k).symm.trans (h.2 i hi k)⟩⟩
          have h7 : Edge C i j ↔ C i j = 1 := by
            unfold Edge
            constructor
            · intro h
              by_contra hc
              rw [(h6 i j).1] at hc
              exact h ((h6 i j).2.2 hc)
            · intro h
              rw [h]
              decide
          rw [h7, (h6 i j).1]
          simp only [hp]

/-! ## all_dags -/

/-- `D` has the edges of `P` with their weights, and of every undirected edge one of the two directions. -/
def Spec.Orientation (P D : FAdj p) : Prop :=
  (∀ i j, D i j = .fin 0 ∨ D i j = P i j) ∧ SameSkeleton (graphOf D) (graphOf P) ∧ ∀ i j, ¬ UndEdge (graphOf D) i j

theorem fkeepDags_any (S : Summer) (it : SetIter p) (P : FAdj p) (L : List (FAdj p)) :
    ∃ l, fkeepDags S it P L = .ok l ∧ l.Sublist L ∧ ∀ A, A ∈ l ↔ A ∈ L ∧ fisDag S it A = true ∧ fisConsistentExtension₂ S it A P = .ok true := by
  induction L with
  | nil => exact ⟨[], rfl, List.Sublist.refl _, by simp⟩
  | cons A As ih =>
    obtain ⟨l, h1, h2, h3⟩ := ih
    have hb : ∃ b, (if fisDag S it A then fisConsistentExtension₂ S it A P else .ok false) = .ok b ∧
        (b = true ↔ fisDag S it A = true ∧ fisConsistentExtension₂ S it A P = .ok true) := by
      cases hd : fisDag S it A with
      | false => exact ⟨false, by simp, by simp⟩
      | true =>
        unfold fisConsistentExtension₂
        rw [hd]
        refine ⟨_, rfl, ?_⟩
        simp
    obtain ⟨b, hb1, hb2⟩ := hb
    refine ⟨if b then A :: l else l, ?_, ?_, fun B => ?_⟩
    · rw [fkeepDags, hb1]
      simp only [h1]
    · cases b
      · exact h2.trans (List.sublist_cons_self _ _)
      · exact h2.cons_cons _
    · cases b
      · simp only [Bool.false_eq_true, if_false, h3, List.mem_cons]
        constructor
        · rintro ⟨h, h'⟩; exact ⟨.inr h, h'⟩
        · rintro ⟨rfl | h, h'⟩
          · exact absurd (hb2.2 h') (by simp)
          · exact ⟨h, h'⟩
      · simp only [if_true, List.mem_cons, h3]
        constructor
        · rintro (rfl | h)
          · exact ⟨.inl rfl, hb2.1 rfl⟩
          · exact ⟨.inr h.1, h.2⟩
        · rintro ⟨rfl | h, h'⟩
          · exact .inl rfl
          · exact .inr ⟨h, h'⟩

theorem orientAll_no_two {P H : Adj p} (hP : ZeroOne P) (hH : ZeroOne H) (hsk : SameSkeleton H P) (hsub : ∀ i j, Edge H i j → Edge P i j)
    (htwo : ∀ x y, H x y ≠ 0 → H y x = 0) :
    orientAll P (undirectedEdges P) ((undirectedEdges P).map (fun e => decide (H e.1 e.2 = 0))) = H := by
  refine zeroOne_ext (orientAll_zeroOne hP _ _) hH (fun x y => ?_)
  unfold Edge
  rw [orientAll_apply]
  simp only [mem_zip_map, mem_undirectedEdges]
  have hadj := hsk x y
  unfold Adjacent at hadj
  have hs := hsub x y
  have hs' := hsub y x
  unfold Edge at hs hs'
  by_cases hxy : P x y = 0
  · have : H x y = 0 := by tauto
    simp [hxy, this]
  · by_cases hyx : P y x = 0
    · have hH : H x y ≠ 0 := by tauto
      have : ¬ UndEdge P x y := fun h => h.2 hyx
      have : ¬ UndEdge P y x := fun h => h.1 hyx
      simp [*]
    · have hu : UndEdge P x y := ⟨hxy, hyx⟩
      have hu' : UndEdge P y x := ⟨hyx, hxy⟩
      have hor := hadj.2 (Or.inl hxy)
      rcases lt_trichotomy x y with h | h | h
      · simp only [hu', h, hu, not_lt_of_gt h, true_and, false_and, and_false, false_or, and_true]
        by_cases h0 : H y x = 0
        · have : H x y ≠ 0 := by tauto
          simp [h0, this, hxy]
        · have : H x y = 0 := htwo _ _ h0
          simp [h0, this]
      · subst h
        rcases hor with h' | h' <;> exact absurd (htwo _ _ h') h'
      · simp only [hu', h, hu, not_lt_of_gt h, true_and, false_and, and_false, or_false]
        by_cases h0 : H x y = 0 <;> simp [h0, hxy]

theorem orientAll_entries {P : Adj p} {fl : List Bool} (hlen : fl.length = (undirectedEdges P).length) :
    (∀ x y, ¬ UndEdge P x y → orientAll P (undirectedEdges P) fl x y = P x y) ∧
    ∀ x y, UndEdge P x y → y < x → (orientAll P (undirectedEdges P) fl x y = 0 ∧ orientAll P (undirectedEdges P) fl y x = P y x) ∨
      (orientAll P (undirectedEdges P) fl x y = P x y ∧ orientAll P (undirectedEdges P) fl y x = 0) := by
  constructor
  · intro x y h
    rw [orientAll_apply, if_neg]
    rintro (hc | hc)
    · exact h (mem_undirectedEdges.1 (List.of_mem_zip hc).1).1
    · have := (mem_undirectedEdges.1 (List.of_mem_zip hc).1).1
      exact h ⟨this.2, this.1⟩
  · intro x y h hlt
    have hmem : (x, y) ∈ undirectedEdges P := mem_undirectedEdges.2 ⟨h, hlt⟩
    have hno : ∀ b, ((y, x), b) ∉ List.zip (undirectedEdges P) fl := fun b hb =>
      absurd (mem_undirectedEdges.1 (List.of_mem_zip hb).1).2 (not_lt_of_gt hlt)
    obtain ⟨n, hn, hxy⟩ := List.getElem_of_mem hmem
    have hz : ((x, y), fl[n]'(by omega)) ∈ List.zip (undirectedEdges P) fl := by
      rw [List.mem_iff_getElem]
      exact ⟨n, by simp; omega, by simp [hxy]⟩
    generalize fl[n]'(by omega) = b at hz
    rw [orientAll_apply, orientAll_apply]
    cases b with
    | true =>
      left
      rw [if_pos (.inl hz), if_neg]
      · exact ⟨rfl, rfl⟩
      · rintro (hc | hc)
        · exact hno _ hc
        · exact absurd (zip_functional nodup_undirectedEdges hz hc) (by simp)
    | false =>
      right
      refine ⟨if_neg ?_, if_pos (.inr hz)⟩
      rintro (hc | hc)
      · exact absurd (zip_functional nodup_undirectedEdges hz hc) (by simp)
      · exact hno _ hc

theorem orientAll_skel {P : Adj p} (hl : NoLoops P) {fl : List Bool} (hlen : fl.length = (undirectedEdges P).length) :
    SameSkeleton (orientAll P (undirectedEdges P) fl) P ∧ ∀ i j, ¬ UndEdge (orientAll P (undirectedEdges P) fl) i j := by
  obtain ⟨h1, h2⟩ := orientAll_entries hlen
  generalize orientAll P (undirectedEdges P) fl = M at h1 h2
  have key : ∀ i j, j ≤ i → (Adjacent M i j ↔ Adjacent P i j) ∧ ¬ UndEdge M i j := by
    intro i j hij
    by_cases hu : UndEdge P i j
    · rcases hij.eq_or_lt with rfl | hlt
      · exact absurd (hl j) hu.1
      · unfold Adjacent UndEdge
        rcases h2 i j hu hlt with ⟨e1, e2⟩ | ⟨e1, e2⟩ <;> rw [e1, e2] <;> simp [hu.1, hu.2]
    · have hu' : ¬ UndEdge P j i := fun h => hu ⟨h.2, h.1⟩
      unfold Adjacent
      rw [h1 i j hu, h1 j i hu']
      refine ⟨Iff.rfl, fun hc => hu ?_⟩
      unfold UndEdge at hc
      rw [h1 i j hu, h1 j i hu'] at hc
      exact hc
  constructor
  · intro i j
    rcases le_total j i with h | h
    · exact (key i j h).1
    · have := (key j i h).1
      unfold Adjacent at this ⊢
      tauto
  · intro i j hc
    rcases le_total j i with h | h
    · exact (key i j h).2 hc
    · exact (key j i h).2 ⟨hc.2, hc.1⟩

theorem fconsistent_iff {S : Summer} {it : SetIter p} {P D : FAdj p} (hP : AllDoubles P) (hund : ∀ i j, UndEdge (graphOf P) i j → P i j = .fin 1)
    (hD : Orientation P D) (hd : fisDag S it D = true) :
    fisConsistentExtension₂ S it D P = .ok true ↔ SameVStructures (graphOf D) (graphOf P) := by
  obtain ⟨hw, hsk, hno⟩ := hD
  have hDd : AllDoubles D := by
    intro i j q hq
    rcases hw i j with h | h
    · rw [h] at hq
      injection hq with hq
      subst hq
      exact ⟨0, 0, by norm_num, by norm_num, by norm_num, by norm_num⟩
    · rw [h] at hq
      exact hP i j q hq
  have one_side : ∀ (A : FAdj p) i j, Adjacent (graphOf A) i j → ¬ UndEdge (graphOf A) i j → ¬ Cancelling A i j := by
    rintro A i j - hu ⟨q, hq, h1, h2⟩
    refine hu ⟨graphOf_ne.2 ?_, graphOf_ne.2 ?_⟩
    · rw [h1]
      exact fun hc => hq (Dbl.fin.inj hc)
    · rw [h2]
      exact fun hc => hq (neg_eq_zero.1 (Dbl.fin.inj hc))
  have cP : ∀ i j, Adjacent (graphOf P) i j → ¬ Cancelling P i j := by
    intro i j h
    by_cases hu : UndEdge (graphOf P) i j
    · rintro ⟨q, -, h1, h2⟩
      rw [hund i j hu] at h1
      rw [hund j i ⟨hu.2, hu.1⟩, ← Dbl.fin.inj h1] at h2
      have := Dbl.fin.inj h2
      norm_num at this
    · exact one_side P i j h hu
  have cD : ∀ i j, Adjacent (graphOf D) i j → ¬ Cancelling D i j := fun i j h => one_side D i j h (hno i j)
  have hskel : ∀ i j, fskeleton P i j = fskeleton D i j := by
    intro i j
    have h1 := fskeleton_one hP i j
    have h2 := fskeleton_one hDd i j
    have h3 : fskeleton P i j = 1 ↔ fskeleton D i j = 1 := by
      rw [h1.1, h2.1, ← hsk i j]
      exact ⟨fun h => ⟨h.1, cD i j h.1⟩, fun h => ⟨h.1, cP i j ((hsk i j).1 h.1)⟩⟩
    have g1 := h1.2
    have g2 := h2.2
    clear h1 h2
    omega
  have hori : ∀ i j, (fonlyDirected P i j).isZero = false → (D i j).isZero = false := by
    intro i j h
    rw [isZero_graphOf, graphOf_fonlyDirected] at h
    rw [isZero_graphOf]
    simp only [decide_eq_false_iff_not] at h ⊢
    have hdir : DirEdge (graphOf P) i j := onlyDirected_ne.1 h
    have hji : graphOf D j i = 0 := by
      rcases hw j i with h | h
      · rw [graphOf_eq, h]
      · rw [graphOf_eq, h, ← graphOf_eq]
        exact hdir.2
    rcases (hsk i j).2 (.inl hdir.1) with h' | h'
    · exact h'
    · exact absurd hji h'
  unfold fisConsistentExtension₂
  rw [hd]
  simp only [Bool.not_true, Bool.false_eq_true, if_false, Except.ok.injEq, Bool.and_eq_true, decide_eq_true_eq, fvstructures_eq, vstructures_eq_iff]
  exact ⟨fun h i c j => (h.1.1 i c j).symm, fun h => ⟨⟨fun i c j => (h i c j).symm, hori⟩, hskel⟩⟩

theorem fallDags_orient (S : Summer) (it : SetIter p) {P : FAdj p} (hl : NoLoopsF P) (hu : ∃ i j, UndEdge (graphOf P) i j)
    (hund : ∀ i j, UndEdge (graphOf P) i j → P i j = .fin 1) (hlt : undirectedCount (graphOf P) < 1024) :
    ∃ L : List (FAdj p), fallDags S it P = fkeepDags S it P L ∧ L.Nodup ∧ ∀ D, D ∈ L ↔ Orientation P D := by
  classical
  rw [← fundirected_count] at hlt
  have hcount := countP_und hl
  have hsum : (fsumAll S (fonlyUndirected P)).half = .fin ((fundirectedEdges P).length : ℚ) := by
    obtain ⟨s, h1, h2, h3⟩ := (S.isSum ((allPairs p).map fun e => fonlyUndirected P e.1 e.2)).between (lo := 1) (hi := 1) (N := 2048)
      (fun c hc => by
        have := binary64_nat (k := c) (by omega)
        rw [one_mul]
        exact ⟨this, this⟩)
      (fun y hy => by
        rcases mem_und hy with h | ⟨i, j, h, rfl⟩
        · exact .inl h
        · exact .inr ⟨1, hund i j h, le_refl _, le_refl _⟩) (by omega)
    rw [hcount] at h2 h3
    have h4 : s = 2 * ((fundirectedEdges P).length : ℚ) := by push_cast at h2 h3; linarith
    unfold fsumAll
    rw [h1, Dbl.half, h4, mul_div_cancel_left₀ _ (by norm_num)]
    exact (C141_round _).2 (binary64_nat (by omega))
  rw [fundirectedEdges_eq] at hlt hsum
  have hne : (undirectedEdges (graphOf P)).length ≠ 0 := fun h => (undirectedEdges_length_eq_zero (noLoops_graphOf hl)).1 h hu
  have hcart : cartesian (id : Bool → Bool) (List.replicate (undirectedEdges (graphOf P)).length [true, false]) =
      .ok (prodList (List.replicate (undirectedEdges (graphOf P)).length [true, false])) := by
    rw [cartesian_ok]
    · simp
    · intro h; exact hne (by simpa using congrArg List.length h)
    · intro a ha; rw [List.eq_of_mem_replicate ha]; simp
  have hlen : (prodList (List.replicate (undirectedEdges (graphOf P)).length [true, false])).length =
      2 ^ (undirectedEdges (graphOf P)).length := by
    rw [length_prodList]; simp
  have hnd : (prodList (List.replicate (undirectedEdges (graphOf P)).length [true, false])).Nodup :=
    nodup_prodList _ (fun a ha => by rw [List.eq_of_mem_replicate ha]; simp)
  set combos := prodList (List.replicate (undirectedEdges (graphOf P)).length [true, false]) with hcombos
  have hg : ∀ fl, graphOf (forientAll P (undirectedEdges (graphOf P)) fl) = orientAll (graphOf P) (undirectedEdges (graphOf P)) fl := by
    intro fl
    rw [(forientAll_eq _ fl).1, graphOf_masked (forientAll_eq _ fl).2]
  have hnd' : (combos.map (forientAll P (undirectedEdges (graphOf P)))).Nodup := by
    refine List.Nodup.map_on ?_ hnd
    intro x hx y hy hxy
    rw [hcombos, mem_bools] at hx hy
    rw [orientAll_inv hx, orientAll_inv hy, ← hg, ← hg, hxy]
  have hpow : Dbl.round ((2 : ℚ) ^ (undirectedEdges (graphOf P)).length) = .fin (combos.length : ℚ) := by
    rw [hlen]
    push_cast
    refine (C141_round _).2 ?_
    generalize (undirectedEdges (graphOf P)).length = n at hlt
    by_cases hn : n ≤ 971
    · exact ⟨1, n, by norm_num, by omega, by exact_mod_cast hn, by simp⟩
    · refine ⟨2 ^ 52, n - 52, by norm_num, by omega, by omega, ?_⟩
      rw [show ((2 ^ 52 : ℤ) : ℚ) = (2 : ℚ) ^ (52 : ℤ) by norm_num, ← zpow_natCast, ← zpow_add₀ (by norm_num)]
      congr 1
      omega
  refine ⟨combos.map (forientAll P (undirectedEdges (graphOf P))), ?_, hnd', fun D => ?_⟩
  · unfold fallDags
    simp only [fundirectedEdges_eq, hcart]
    rw [if_neg (by rw [hsum]; simp), if_neg hne, if_neg (by rw [hpow]; simp),
      if_neg (by rw [List.toFinset_card_of_nodup hnd']; simp)]
  · rw [List.mem_map]
    constructor
    · rintro ⟨fl, hfl, rfl⟩
      rw [hcombos, mem_bools] at hfl
      obtain ⟨h1, h2⟩ := orientAll_skel (noLoops_graphOf hl) hfl
      refine ⟨fun i j => ?_, by rw [hg]; exact h1, by rw [hg]; exact h2⟩
      rw [(forientAll_eq _ fl).1]
      unfold masked
      split
      · exact .inr rfl
      · exact .inl rfl
    · rintro ⟨h1, h2, h3⟩
      refine ⟨(undirectedEdges (graphOf P)).map fun e => decide (graphOf D e.1 e.2 = 0), by rw [hcombos, mem_bools, List.length_map], ?_⟩
      · rw [(forientAll_eq _ _).1, orientAll_no_two (graphOf_zeroOne P) (graphOf_zeroOne D) h2 (fun i j h => ?_) (fun x y h => ?_)]
        · funext i j
          unfold masked
          split
          · rename_i h
            exact ((h1 i j).resolve_left (graphOf_ne.1 h)).symm
          · rename_i h
            rw [graphOf_ne, not_not] at h
            exact h.symm
        · unfold Edge at h ⊢
          rw [graphOf_ne] at h ⊢
          rcases h1 i j with h0 | h0
          · exact absurd h0 h
          · rwa [← h0]
        · by_contra hc
          exact h3 x y ⟨h, hc⟩

/-- C151: if some edge is undirected, all undirected entries are 1 and less than 1024 edges are undirected, `all_dags` returns, for directed edges
with weights of any sign, exactly the orientations with the v-structures of the PDAG that pass `is_dag`, each one once.  Every consistent extension
is among them, and those that are acyclic are consistent extensions. -/
theorem C151_all_dags (S : Summer) (it : SetIter p) (P : FAdj p) (hP : AllDoubles P) (hl : NoLoopsF P) (hu : ∃ i j, UndEdge (graphOf P) i j)
    (hund : ∀ i j, UndEdge (graphOf P) i j → P i j = .fin 1) (hlt : undirectedCount (graphOf P) < 1024) :
    ∃ l, fallDags S it P = .ok l ∧ l.Nodup ∧
      (∀ D, D ∈ l ↔ Orientation P D ∧ SameVStructures (graphOf D) (graphOf P) ∧ fisDag S it D = true) ∧
      (∀ D, (∀ i j, D i j = .fin 0 ∨ D i j = P i j) → IsExtension (graphOf D) (graphOf P) → D ∈ l) ∧
      ∀ D ∈ l, Acyclic (graphOf D) → IsExtension (graphOf D) (graphOf P) := by
  obtain ⟨L, h1, h2, h3⟩ := fallDags_orient S it hl hu hund hlt
  obtain ⟨l, k1, k2, k3⟩ := fkeepDags_any S it P L
  have key : ∀ D, D ∈ l ↔ Orientation P D ∧ SameVStructures (graphOf D) (graphOf P) ∧ fisDag S it D = true := by
    intro D
    rw [k3, h3]
    constructor
    · rintro ⟨g1, g2, g3⟩
      exact ⟨g1, (fconsistent_iff hP hund g1 g2).1 g3, g2⟩
    · rintro ⟨g1, g2, g3⟩
      exact ⟨g1, g3, (fconsistent_iff hP hund g1 g3).2 g2⟩
  refine ⟨l, h1.trans k1, k2.nodup h2, key, fun D hD hE => ?_, fun D hD hac => ?_⟩
  · exact (key D).2 ⟨⟨hD, hE.2.1, fun i j h => h.2 (hE.1.no_two h.1)⟩, hE.2.2.1, (C146_float_dag S it D hE.1).1⟩
  · obtain ⟨⟨g1, g2, g3⟩, g4, -⟩ := (key D).1 hD
    refine ⟨hac, g2, g4, fun i j h => ?_⟩
    have hji : graphOf D j i = 0 := by
      rcases g1 j i with h' | h'
      · rw [graphOf_eq, h']
      · rw [graphOf_eq, h', ← graphOf_eq]
        exact h.2
    rcases (g2 i j).2 (.inl h.1) with h' | h'
    · exact h'
    · exact absurd hji h'

/-! ## integers held as doubles -/

/-- The array of integers `A` as an array of doubles (`A.astype(float)`). -/
def Spec.asDoubles (A : Adj p) : FAdj p := fun i j => .fin (A i j : ℚ)

/-- The integer of a double that is one. -/
def intOf : Dbl → Int
  | .fin x => x.num
  | _ => 0

theorem sumOf_int {l : List Dbl} {x : Dbl} (h : SumOf l x) (hl : ∀ y ∈ l, y = .fin (intOf y : ℚ)) (hb : (l.map fun y => |intOf y|).sum < 2 ^ 53) :
    x = .fin ((l.map intOf).sum : ℚ) ∧ |(l.map intOf).sum| ≤ (l.map fun y => |intOf y|).sum := by
  induction h with
  | nil => simp
  | single x =>
    have := hl x (by simp)
    constructor
    · simpa using this
    · simp
  | @add l l₁ l₂ x y hp h1 h2 ih1 ih2 =>
    have e1 : (l.map fun y => |intOf y|).sum = (l₁.map fun y => |intOf y|).sum + (l₂.map fun y => |intOf y|).sum := by
      rw [(hp.map _).sum_eq, List.map_append, List.sum_append]
    have e2 : (l.map intOf).sum = (l₁.map intOf).sum + (l₂.map intOf).sum := by
      rw [(hp.map _).sum_eq, List.map_append, List.sum_append]
    have n1 : 0 ≤ (l₁.map fun y => |intOf y|).sum := List.sum_nonneg (by simp)
    have n2 : 0 ≤ (l₂.map fun y => |intOf y|).sum := List.sum_nonneg (by simp)
    obtain ⟨f1, g1⟩ := ih1 (fun y hy => hl y (hp.mem_iff.2 (List.mem_append_left _ hy))) (by omega)
    obtain ⟨f2, g2⟩ := ih2 (fun y hy => hl y (hp.mem_iff.2 (List.mem_append_right _ hy))) (by omega)
    have hle : |(l.map intOf).sum| ≤ (l.map fun y => |intOf y|).sum := by
      rw [e1, e2]
      exact (abs_add_le _ _).trans (add_le_add g1 g2)
    refine ⟨?_, hle⟩
    rw [f1, f2, Dbl.add, e2]
    push_cast
    refine (C141_round _).2 ⟨(l₁.map intOf).sum + (l₂.map intOf).sum, 0, ?_, by norm_num, by norm_num, by push_cast; simp⟩
    rw [← e2]
    omega

theorem sum_asDoubles (S : Summer) {ι : Type} (L : List ι) (f : ι → Int) (hb : (L.map fun i => |f i|).sum < 2 ^ 53) :
    S.sum (L.map fun i => .fin (f i : ℚ)) = .fin ((L.map f).sum : ℚ) := by
  have := (sumOf_int (S.isSum (L.map fun i => .fin (f i : ℚ))) (by
    intro y hy
    obtain ⟨i, -, rfl⟩ := List.mem_map.1 hy
    simp [intOf]) (by
    rw [List.map_map]
    simpa [Function.comp_def, intOf] using hb)).1
  rw [this, List.map_map]
  simp [Function.comp_def, intOf]

/-- Sum of the absolute values. -/
def Spec.absSum (A : Adj p) : Int := ∑ i, ∑ j, |A i j|

theorem sum_allPairs (f : Fin p → Fin p → Int) : ((allPairs p).map fun e => f e.1 e.2).sum = ∑ i, ∑ j, f i j := by
  unfold allPairs
  rw [List.map_flatMap, List.flatMap_def, List.sum_flatten]
  simp only [List.map_map, Function.comp_def, Fin.sum_univ_def]

theorem fsumAll_asDoubles (S : Summer) {A : Adj p} (hb : absSum A < 2 ^ 53) : fsumAll S (asDoubles A) = .fin (sumAll A : ℚ) := by
  unfold fsumAll asDoubles
  rw [sum_asDoubles S (allPairs p) (fun e => A e.1 e.2) (by rw [sum_allPairs fun i j => |A i j|]; exact hb), sum_allPairs]
  rfl

theorem fcolSum_asDoubles (S : Summer) {A : Adj p} (hb : absSum A < 2 ^ 53) (j : Fin p) : fcolSum S (asDoubles A) j = .fin (colSum A j : ℚ) := by
  unfold fcolSum asDoubles
  rw [sum_asDoubles S (List.finRange p) (fun i => A i j)]
  · unfold colSum
    rw [Fin.sum_univ_def]
  · refine lt_of_le_of_lt ?_ hb
    rw [← Fin.sum_univ_def fun i => |A i j|]
    exact Finset.sum_le_sum fun i _ => Finset.single_le_sum (f := fun j => |A i j|) (fun _ _ => abs_nonneg _) (Finset.mem_univ j)

theorem isZero_asDoubles (A : Adj p) (i j : Fin p) : (asDoubles A i j).isZero = decide (A i j = 0) := by
  unfold asDoubles Dbl.isZero
  simp

theorem fpa_asDoubles (i : Fin p) (A : Adj p) : fpa i (asDoubles A) = pa i A := by
  unfold fpa pa
  ext j
  simp [isZero_asDoubles]

theorem fch_asDoubles (i : Fin p) (A : Adj p) : fch i (asDoubles A) = ch i A := by
  unfold fch ch
  ext j
  simp [isZero_asDoubles]

theorem fsetEntry_asDoubles (A : Adj p) (i j : Fin p) : fsetEntry (asDoubles A) i j (.fin 0) = asDoubles (setEntry A i j 0) := by
  funext a b
  unfold fsetEntry setEntry asDoubles
  dsimp only
  by_cases h : a = i ∧ b = j
  · rw [if_pos h, if_pos h]
    simp
  · rw [if_neg h, if_neg h]

theorem ftopoInner_asDoubles (i : Fin p) (js : List (Fin p)) (A : Adj p) (sinks : List (Fin p)) :
    ftopoInner i js (asDoubles A) sinks = (asDoubles (topoInner i js A sinks).1, (topoInner i js A sinks).2) := by
  induction js generalizing A sinks with
  | nil => rfl
  | cons j js ih =>
    unfold ftopoInner topoInner
    simp only [fsetEntry_asDoubles, fpa_asDoubles]
    exact ih _ _

theorem ftopoLoop_asDoubles (it : SetIter p) (n : Nat) (A : Adj p) (sinks o : List (Fin p)) :
    ftopoLoop it n (asDoubles A) sinks o = (topoLoop it n A sinks o).map fun r => (asDoubles r.1, r.2) := by
  induction n generalizing A sinks o with
  | zero => cases sinks <;> rfl
  | succ n ih =>
    cases sinks with
    | nil => rfl
    | cons i sinks =>
      unfold ftopoLoop topoLoop
      simp only [fch_asDoubles, ftopoInner_asDoubles]
      exact ih _ _ _

theorem absSum_mono {A B : Adj p} (h : ∀ i j, B i j = 0 ∨ B i j = A i j) : absSum B ≤ absSum A := by
  refine Finset.sum_le_sum fun i _ => Finset.sum_le_sum fun j _ => ?_
  rcases h i j with h | h <;> rw [h]
  simp

theorem topoInner_entries (i : Fin p) (js : List (Fin p)) (A : Adj p) (sinks : List (Fin p)) (a b : Fin p) :
    (topoInner i js A sinks).1 a b = 0 ∨ (topoInner i js A sinks).1 a b = A a b := by
  induction js generalizing A sinks with
  | nil => exact .inr rfl
  | cons j js ih =>
    unfold topoInner
    rcases ih (setEntry A i j 0) (if (pa j (setEntry A i j 0)).card = 0 then j :: sinks else sinks) with h | h
    · exact .inl h
    · simp only [h]
      unfold setEntry
      split
      · exact .inl rfl
      · exact .inr rfl

theorem topoLoop_entries (it : SetIter p) (n : Nat) (A : Adj p) (sinks o : List (Fin p)) {r} (h : topoLoop it n A sinks o = .ok r) (a b : Fin p) :
    r.1 a b = 0 ∨ r.1 a b = A a b := by
  induction n generalizing A sinks o with
  | zero =>
    cases sinks with
    | nil => cases h; exact .inr rfl
    | cons i s => cases h
  | succ n ih =>
    cases sinks with
    | nil => cases h; exact .inr rfl
    | cons i sinks =>
      unfold topoLoop at h
      rcases ih _ _ _ h with h | h
      · exact .inl h
      · rw [h]
        exact topoInner_entries _ _ _ _ _ _

/-- C151: for an array of integers held as doubles, whatever their signs, the functions do what they do for the array of integers, in whatever
order numpy adds, if the absolute values add up to less than 2^53. -/
theorem C151_integers (S : Summer) (it : SetIter p) (A : Adj p) (hb : absSum A < 2 ^ 53) :
    ftopologicalOrdering S it (asDoubles A) = topologicalOrdering it A ∧ fisDag S it (asDoubles A) = isDag it A ∧
    forderEdges S it (asDoubles A) = orderEdges it A ∧ fdagToCpdag S it (asDoubles A) = dagToCpdag it A := by
  have hu : fonlyUndirected (asDoubles A) = asDoubles (onlyUndirected A) := by
    funext i j
    unfold fonlyUndirected onlyUndirected
    simp only [isZero_asDoubles]
    unfold asDoubles
    by_cases h1 : A i j = 0 <;> by_cases h2 : A j i = 0 <;> simp [h1, h2]
  have h1 : ftopologicalOrdering S it (asDoubles A) = topologicalOrdering it A := by
    unfold ftopologicalOrdering topologicalOrdering
    have hub : absSum (onlyUndirected A) < 2 ^ 53 := by
      refine lt_of_le_of_lt (absSum_mono fun i j => ?_) hb
      unfold onlyUndirected
      split
      · exact .inr rfl
      · exact .inl rfl
    rw [hu, fsumAll_asDoubles S hub, ftopoLoop_asDoubles]
    have hw : (whereVec fun j => (fcolSum S (asDoubles A) j).isZero) = whereVec fun j => decide (colSum A j = 0) := by
      congr 1
      funext j
      rw [fcolSum_asDoubles S hb]
      simp [Dbl.isZero]
    rw [hw]
    have hg : ∀ n : Int, (Dbl.fin (n : ℚ)).gtZero = decide (n > 0) := by
      intro n
      simp [Dbl.gtZero]
    rw [hg]
    simp only [decide_eq_true_eq]
    split
    · rfl
    · cases h : topoLoop it (p * p + p) A (whereVec fun j => decide (colSum A j = 0)).reverse [] with
      | error e => rfl
      | ok r =>
        have hr : absSum r.1 < 2 ^ 53 := lt_of_le_of_lt (absSum_mono (topoLoop_entries it _ _ _ _ h)) hb
        simp only [Except.map, fsumAll_asDoubles S hr, hg, decide_eq_true_eq]
  have h2 : fisDag S it (asDoubles A) = isDag it A := by
    unfold fisDag isDag
    rw [h1]
    cases topologicalOrdering it A <;> rfl
  have h3 : forderEdges S it (asDoubles A) = orderEdges it A := by
    unfold forderEdges orderEdges
    rw [h1, h2]
    simp only [isZero_asDoubles]
    congr 1
    cases topologicalOrdering it A with
    | error e => rfl
    | ok l =>
      simp only
      congr 1
      funext a b
      by_cases h : A a b = 0 <;> simp [h]
  refine ⟨h1, h2, h3, ?_⟩
  unfold fdagToCpdag dagToCpdag
  rw [h3]
  cases orderEdges it A with
  | error e => rfl
  | ok O =>
    simp only
    cases labelEdges it O <;> rfl

theorem asDoubles_allDoubles {A : Adj p} (hb : ∀ i j, |A i j| < 2 ^ 53) : AllDoubles (asDoubles A) := by
  intro i j q hq
  injection hq with hq
  exact ⟨A i j, 0, hb i j, by norm_num, by norm_num, by rw [← hq]; simp⟩

theorem eq_of_okAdj {r : Except Err (FAdj p)} {G : FAdj p} (h : (match r with | .ok G' => decide (∀ i j, G' i j = G i j) | .error _ => false) = true) :
    r = .ok G := by
  cases r with
  | error e => simp at h
  | ok G' =>
    simp only [decide_eq_true_eq] at h
    rw [show G' = G from funext fun i => funext fun j => h i j]

theorem topoLoop_prefix (it : SetIter p) (n : Nat) (A : Adj p) (sinks o : List (Fin p)) {r} (h : topoLoop it n A sinks o = .ok r) : o <+: r.2 := by
  induction n generalizing A sinks o with
  | zero =>
    cases sinks with
    | nil => cases h; exact List.prefix_refl _
    | cons i s => cases h
  | succ n ih =>
    cases sinks with
    | nil => cases h; exact List.prefix_refl _
    | cons i sinks =>
      unfold topoLoop at h
      exact (List.prefix_append _ _).trans (ih _ _ _ h)

/-! ## Examples -/

/-- `0 → 1` and `0 → 2` with weight -1, and `1 - 2`. -/
def minusP : Adj 3 := ![![0, -1, -1], ![0, 0, 1], ![0, 1, 0]]

/-- The extension of `minusP` that `pdag_to_dag` finds. -/
def minusG : Adj 3 := ![![0, -1, -1], ![0, 0, 0], ![0, 1, 0]]

theorem minusG_dag : fpdagToDag (asDoubles minusP) = .ok (asDoubles minusG) := eq_of_okAdj (by decide +kernel)

/-- C151: `pdag_to_cpdag` and `pdag_to_icpdag` raise an `IndexError` for a PDAG with a consistent extension, in any order of the sets and of the
additions: the weight 1 that `pdag_to_dag` gives the edge `2 → 1` and the weight -1 of `0 → 1` add up to zero. -/
theorem C151_index_error (S : Summer) (it : SetIter 3) : IsExtension (graphOf (asDoubles minusG)) (graphOf (asDoubles minusP)) ∧
    fpdagToCpdag S it (asDoubles minusP) = .error .indexError ∧ fpdagToIcpdag S it (asDoubles minusP) [0] = .error .indexError := by
  have hl : NoLoopsF (asDoubles minusP) := by
    intro i
    fin_cases i <;> rfl
  have hd : AllDoubles (asDoubles minusP) := asDoubles_allDoubles (by decide +kernel)
  have hE := (fpdagToDag_doubles hd hl minusG_dag).2
  obtain ⟨-, -, h⟩ := C151_essential S it (asDoubles minusP) hd hl
  obtain ⟨G, order, hG, -, ho, hall, hi, -⟩ := h _ hE
  rw [minusG_dag] at hG
  injection hG with hG
  subst hG
  rw [(C151_integers S it minusG (by decide +kernel)).1] at ho
  have hfirst : [1] <+: order := by
    unfold topologicalOrdering at ho
    rw [if_neg (by decide +kernel), show (whereVec fun j : Fin 3 => decide (colSum minusG j = 0)).reverse = [1, 0] by decide +kernel] at ho
    cases h : topoLoop it (3 * 3 + 3) minusG [1, 0] [] with
    | error e => rw [h] at ho; cases ho
    | ok r =>
      rw [h] at ho
      simp only at ho
      split at ho
      · cases ho
      · injection ho with ho
        rw [← ho]
        rw [show 3 * 3 + 3 = 11 + 1 from rfl, topoLoop] at h
        exact topoLoop_prefix it _ _ _ _ h
  obtain ⟨t, rfl⟩ := hfirst
  obtain ⟨h1, h2⟩ := hi ⟨0, 1, by decide +kernel, by
    rw [List.singleton_append, List.idxOf_cons_self, List.idxOf_cons_ne _ (by decide)]
    omega⟩
  exact ⟨hE, h1, h2 [0] (by unfold UndEdge; decide +kernel)⟩

/-- An example for the last part of `C151_essential`: `0 → 1` with weight -2 and `1 - 2`. -/
example (S : Summer) (it : SetIter 3) : ∃ C, fpdagToCpdag S it (asDoubles ![![0, -2, 0], ![0, 0, 1], ![0, 1, 0]]) = .ok C ∧ ZeroOne C := by
  set P : Adj 3 := ![![0, -2, 0], ![0, 0, 1], ![0, 1, 0]] with hPdef
  set G0 : Adj 3 := ![![0, -2, 0], ![0, 0, 1], ![0, 0, 0]] with hGdef
  have hl : NoLoopsF (asDoubles P) := by
    intro i
    fin_cases i <;> rfl
  have hd : AllDoubles (asDoubles P) := asDoubles_allDoubles (by decide +kernel)
  have hg : fpdagToDag (asDoubles P) = .ok (asDoubles G0) := eq_of_okAdj (by decide +kernel)
  obtain ⟨G, order, hG, -, ho, hall, -, hi⟩ := (C151_essential S it (asDoubles P) hd hl).2.2 _ (fpdagToDag_doubles hd hl hg).2
  rw [hg] at hG
  injection hG with hG
  subst hG
  rw [(C151_integers S it G0 (by decide +kernel)).1] at ho
  have h0 : topologicalOrdering it G0 = .ok [0, 1, 2] := by
    unfold topologicalOrdering
    rw [if_neg (by decide +kernel)]
    have h0 : (whereVec (fun j : Fin 3 => decide (colSum G0 j = 0))).reverse = [0] := by decide +kernel
    have h1 : ch 0 G0 = {1} := by decide +kernel
    have h2 : pa 1 (setEntry G0 0 1 0) = ∅ := by decide +kernel
    have h3 : ch 1 (setEntry G0 0 1 0) = {2} := by decide +kernel
    have h4 : pa 2 (setEntry (setEntry G0 0 1 0) 1 2 0) = ∅ := by decide +kernel
    have h5 : ch 2 (setEntry (setEntry G0 0 1 0) 1 2 0) = ∅ := by decide +kernel
    have h6 : ¬ sumAll (setEntry (setEntry G0 0 1 0) 1 2 0) > 0 := by decide +kernel
    rw [h0, show 3 * 3 + 3 = 8 + 1 + 1 + 1 + 1 from rfl, topoLoop, h1, toList_singleton]
    simp only [topoInner, topoLoop, h2, h3, h4, h5, toList_empty, toList_singleton, Finset.card_empty, if_true, List.nil_append, List.cons_append, h6,
      if_false]
  rw [h0] at ho
  injection ho with ho
  subst ho
  obtain ⟨C, h1, h2, -⟩ := (hi (by unfold Edge; decide +kernel)).1
  exact ⟨C, h1, h2⟩

/-- The directed cycle `0 → 1 → 2 → 0` with weights -1, and `3 - 4` with the weights `x` and `y`. -/
def cycleP (x y : Int) : Adj 5 := ![![0, -1, 0, 0, 0], ![0, 0, -1, 0, 0], ![-1, 0, 0, 0, 0], ![0, 0, 0, 0, x], ![0, 0, 0, y, 0]]

theorem cycleP_passes (it : SetIter 5) : isDag it (cycleP 1 0) = true ∧ isDag it (cycleP 0 1) = true := by
  constructor
  · rw [C146_is_dag_exact]
    refine ⟨Finset.sum_nonpos fun i _ => Finset.sum_nonpos fun j _ => ?_, Finset.sum_nonpos fun i _ => Finset.sum_nonpos fun j _ => ?_⟩
    · rw [if_neg]
      revert i j
      unfold UndEdge
      decide +kernel
    · by_cases h : i = 3 ∧ j = 4
      · rw [if_pos]
        refine ⟨by rw [h.1, h.2]; unfold DirEdge; decide +kernel, Freed.zero ?_⟩
        rw [h.1]
        unfold ZeroColumn
        decide +kernel
      · split
        · exact le_refl _
        · clear * - h
          revert i j
          decide +kernel
  · rw [C146_is_dag_exact]
    refine ⟨Finset.sum_nonpos fun i _ => Finset.sum_nonpos fun j _ => ?_, Finset.sum_nonpos fun i _ => Finset.sum_nonpos fun j _ => ?_⟩
    · rw [if_neg]
      revert i j
      unfold UndEdge
      decide +kernel
    · by_cases h : i = 4 ∧ j = 3
      · rw [if_pos]
        refine ⟨by rw [h.1, h.2]; unfold DirEdge; decide +kernel, Freed.zero ?_⟩
        rw [h.1]
        unfold ZeroColumn
        decide +kernel
      · split
        · exact le_refl _
        · clear * - h
          revert i j
          decide +kernel

/-- C151: a PDAG with a directed cycle of negative weights has no consistent extension, but `all_dags` returns graphs for it, which are cyclic. -/
theorem C151_accepts_cycles (S : Summer) (it : SetIter 5) : (¬ ∃ D, IsExtension D (graphOf (asDoubles (cycleP 1 1)))) ∧
    ∃ l, fallDags S it (asDoubles (cycleP 1 1)) = .ok l ∧ asDoubles (cycleP 1 0) ∈ l ∧ asDoubles (cycleP 0 1) ∈ l ∧
      ∀ D ∈ l, ¬ Acyclic (graphOf D) := by
  have hno : ¬ ∃ D, IsExtension D (graphOf (asDoubles (cycleP 1 1))) := by
    rintro ⟨D, hac, -, -, hdir⟩
    have h1 := hdir 0 1 (by unfold DirEdge; decide +kernel)
    have h2 := hdir 1 2 (by unfold DirEdge; decide +kernel)
    have h3 := hdir 2 0 (by unfold DirEdge; decide +kernel)
    exact hac 0 (((Relation.TransGen.single h1).tail h2).tail h3)
  obtain ⟨l, h1, -, h3, -, h5⟩ := C151_all_dags S it (asDoubles (cycleP 1 1)) (asDoubles_allDoubles (by decide +kernel))
    (fun i => by fin_cases i <;> rfl) ⟨3, 4, by unfold UndEdge; decide +kernel⟩
    (by unfold UndEdge; decide +kernel)
    (by rw [← fundirected_count]; decide +kernel)
  refine ⟨hno, l, h1, ?_, ?_, fun D hD hac => hno ⟨_, h5 D hD hac⟩⟩
  · rw [h3, (C151_integers S it (cycleP 1 0) (by decide +kernel)).2.1]
    refine ⟨⟨by decide +kernel, by unfold SameSkeleton Adjacent; decide +kernel, by unfold UndEdge; decide +kernel⟩, ?_, (cycleP_passes it).1⟩
    unfold SameVStructures VStructure DirEdge Adjacent
    decide +kernel
  · rw [h3, (C151_integers S it (cycleP 0 1) (by decide +kernel)).2.1]
    refine ⟨⟨by decide +kernel, by unfold SameSkeleton Adjacent; decide +kernel, by unfold UndEdge; decide +kernel⟩, ?_, (cycleP_passes it).2⟩
    unfold SameVStructures VStructure DirEdge Adjacent
    decide +kernel

/-- An example for `C151_to_factorization` and `C151_integers`: the collider with opposite weights. -/
example (S : Summer) (it : SetIter 3) : Acyclic (graphOf (asDoubles colliderA)) ∧ absSum colliderA < 2 ^ 53 ∧
    ftopologicalOrdering S it (asDoubles colliderA) = .ok [2, 1, 0, 2] := by
  refine ⟨?_, by decide +kernel, by rw [(C151_integers S it colliderA (by decide +kernel)).1, colliderA_ordering it]⟩
  refine acyclic_of_rank (fun v : Fin 3 => v.val) ?_
  unfold Edge
  decide +kernel

end Verif
