import Verif.Props.FoldRows
import Verif.Props.Prob
import Verif.Props.GraphEdit
import Verif.Props.Gen
import Mathlib.Data.Fintype.CardEmbedding

/-!
# C128: fair draws give fair folds, subgraphs and targets
-/

namespace Verif

open Spec Matrix MeasureTheory ProbabilityTheory

variable {p : Nat} {Ω : Type} [MeasurableSpace Ω] {μ : Measure Ω}

/-- All orders of `N` elements are equally likely results of `shuffle`. -/
structure Spec.FairShuffle (μ : Measure Ω) (r : Ω → Rng) (N : ℕ) : Prop where
  blind : ∀ ω, Blind (r ω)
  meas : ∀ l, MeasurableSet {ω | (r ω).shuffle (List.finRange N) = l}
  unif : ∀ s : Equiv.Perm (Fin N), μ {ω | (r ω).shuffle (List.finRange N) = (List.finRange N).map s} = (N.factorial : ENNReal)⁻¹

theorem shuffle_is_perm {N : ℕ} {l : List (Fin N)} (h : l.Perm (List.finRange N)) : ∃ s : Equiv.Perm (Fin N), l = (List.finRange N).map s := by
  have hl : l.length = N := by rw [h.length_eq, List.length_finRange]
  have hnd : l.Nodup := h.nodup_iff.2 (List.nodup_finRange N)
  let f : Fin N → Fin N := fun i => l[i.val]'(by omega)
  have hf : Function.Injective f := fun i j hij => Fin.ext ((hnd.getElem_inj_iff).1 hij)
  refine ⟨Equiv.ofBijective f (Finite.injective_iff_bijective.1 hf), ?_⟩
  refine List.ext_getElem (by simp [hl]) fun n h1 h2 => ?_
  simp [f]

theorem finRange_map_inj {N : ℕ} {s t : Equiv.Perm (Fin N)} (h : (List.finRange N).map s = (List.finRange N).map t) : s = t := by
  ext i
  have := List.map_inj_left.1 h i (List.mem_finRange i)
  rw [this]

/-- The expectation of a function of the order. -/
theorem integral_shuffle [IsProbabilityMeasure μ] {r : Ω → Rng} {N : ℕ} (h : FairShuffle μ r N) (f : List (Fin N) → ℝ) :
    ∫ ω, f ((r ω).shuffle (List.finRange N)) ∂μ = (∑ s : Equiv.Perm (Fin N), f ((List.finRange N).map s)) / N.factorial := by
  classical
  have he : (fun ω => f ((r ω).shuffle (List.finRange N))) = fun ω => ∑ s : Equiv.Perm (Fin N),
      ({ω | (r ω).shuffle (List.finRange N) = (List.finRange N).map s}).indicator (fun _ => f ((List.finRange N).map s)) ω := by
    funext ω
    obtain ⟨s, hs⟩ := shuffle_is_perm ((r ω).shuffle_perm (List.finRange N))
    rw [Finset.sum_eq_single s]
    · rw [Set.indicator_of_mem (by exact hs), hs]
    · intro t _ ht
      refine Set.indicator_of_notMem (fun hc => ht ?_) _
      exact finRange_map_inj ((Eq.symm hc).trans hs)
    · simp
  rw [he, integral_finsetSum _ fun s _ => (integrable_const _).indicator (h.meas _), Finset.sum_div]
  refine Finset.sum_congr rfl fun s _ => ?_
  rw [integral_indicator_const _ (h.meas _), measureReal_def, h.unif]
  simp [div_eq_inv_mul]

/-- The average over all permutations of a function of two elements. -/
theorem sum_perm_pairs {N : ℕ} (g : Fin N → Fin N → ℝ) {a b : Fin N} (hab : a ≠ b) :
    (N : ℝ) * (N - 1) * ∑ s : Equiv.Perm (Fin N), g (s a) (s b) = N.factorial * ∑ x, ∑ y, if x = y then 0 else g x y := by
  classical
  have hsame : ∀ a' b' : Fin N, a' ≠ b' → ∑ s : Equiv.Perm (Fin N), g (s a') (s b') = ∑ s : Equiv.Perm (Fin N), g (s a) (s b) := by
    intro a' b' hab'
    obtain ⟨t, ht1, ht2⟩ : ∃ t : Equiv.Perm (Fin N), t a' = a ∧ t b' = b := by
      refine ⟨Equiv.swap (Equiv.swap a' a b') b * Equiv.swap a' a, ?_, ?_⟩
      · have h1 : a ≠ Equiv.swap a' a b' := fun hc => by
          rw [← Equiv.swap_apply_left a' a] at hc
          exact hab' ((Equiv.swap a' a).injective (by simpa using hc))
        simp [Equiv.swap_apply_of_ne_of_ne h1 hab]
      · simp
    refine Fintype.sum_equiv (Equiv.mulRight t⁻¹) _ _ fun s => ?_
    have e1 : t.symm a = a' := by rw [← ht1]; simp
    have e2 : t.symm b = b' := by rw [← ht2]; simp
    simp [e1, e2]
  have h1 : ∑ s : Equiv.Perm (Fin N), ∑ x, ∑ y, (if x = y then 0 else g (s x) (s y)) = N.factorial * ∑ x, ∑ y, if x = y then 0 else g x y := by
    have : ∀ s : Equiv.Perm (Fin N), ∑ x, ∑ y, (if x = y then 0 else g (s x) (s y)) = ∑ x, ∑ y, if x = y then 0 else g x y := by
      intro s
      refine Fintype.sum_equiv s _ _ fun x => Fintype.sum_equiv s _ _ fun y => ?_
      simp
    rw [Finset.sum_congr rfl fun s _ => this s]
    simp [Fintype.card_perm]
  have h2 : ∑ s : Equiv.Perm (Fin N), ∑ x, ∑ y, (if x = y then 0 else g (s x) (s y)) = (N : ℝ) * (N - 1) * ∑ s : Equiv.Perm (Fin N), g (s a) (s b) := by
    rw [Finset.sum_comm]
    have : ∀ x : Fin N, ∑ s : Equiv.Perm (Fin N), ∑ y, (if x = y then 0 else g (s x) (s y)) = ((N : ℝ) - 1) * ∑ s : Equiv.Perm (Fin N), g (s a) (s b) := by
      intro x
      rw [Finset.sum_comm]
      have hy : ∀ y : Fin N, ∑ s : Equiv.Perm (Fin N), (if x = y then 0 else g (s x) (s y)) = if x = y then 0 else ∑ s : Equiv.Perm (Fin N), g (s a) (s b) := by
        intro y
        split_ifs with hxy
        · simp
        · exact hsame x y hxy
      rw [Finset.sum_congr rfl fun y _ => hy y]
      rw [Finset.sum_ite]
      simp only [Finset.sum_const_zero, zero_add, Finset.sum_const, nsmul_eq_mul]
      congr 1
      have : (Finset.univ.filter fun y : Fin N => ¬ x = y) = Finset.univ.erase x := by
        ext y
        simp [eq_comm]
      rw [this, Finset.card_erase_of_mem (Finset.mem_univ _), Finset.card_univ, Fintype.card_fin, Nat.cast_sub (by have := x.2; omega)]
      simp
    rw [Finset.sum_congr rfl fun x _ => this x]
    simp [mul_assoc]
  rw [← h1, h2]

/-- Sample covariances are averages over pairs of observations. -/
theorem npCov_pairs {n : Nat} (x : Fin n → Fin p → ℝ) (i j : Fin p) :
    npCov (List.ofFn x) i j = (∑ a, ∑ b, if a = b then 0 else (x a i - x b i) * (x a j - x b j)) / (2 * n * ((n : ℝ) - 1)) := by
  have hz : ∀ a b, (if a = b then 0 else (x a i - x b i) * (x a j - x b j)) = (x a i - x b i) * (x a j - x b j) := by
    intro a b
    split_ifs with h
    · simp [h]
    · rfl
  simp only [hz]
  rw [npCov_ofFn]
  rcases Nat.eq_zero_or_pos n with rfl | hn
  · simp
  have hn' : (n : ℝ) ≠ 0 := by positivity
  have e : ∑ a, ∑ b, (x a i - x b i) * (x a j - x b j) = 2 * n * (∑ a, x a i * x a j) - 2 * (∑ a, x a i) * ∑ b, x b j := by
    simp only [sub_mul, mul_sub, Finset.sum_sub_distrib, ← Finset.sum_mul, ← Finset.mul_sum, Finset.sum_const, Finset.card_univ, Fintype.card_fin,
      nsmul_eq_mul, mul_assoc]
    ring
  have e2 : ∑ a, ∑ b, x a i * x b j = (∑ a, x a i) * ∑ b, x b j := by
    rw [Finset.sum_mul]
    exact Finset.sum_congr rfl fun a _ => (Finset.mul_sum _ _ _).symm
  rw [e, e2]
  rcases eq_or_ne ((n : ℝ) - 1) 0 with h1 | h1
  · simp [h1]
  field_simp

/-- The covariance of a fold, averaged over all orders, is that of the sample. -/
theorem average_npCov {N : ℕ} (x : Fin N → Fin p → ℝ) {J : List (Fin N)} (hJ : J.Nodup) (h2 : 2 ≤ J.length) (i j : Fin p) :
    (∑ s : Equiv.Perm (Fin N), npCov (J.map fun a => x (s a)) i j) / N.factorial = npCov (List.ofFn x) i j := by
  have hNle : J.length ≤ N := by simpa using hJ.length_le_card
  have hN : (2 : ℝ) ≤ N := by exact_mod_cast h2.trans hNle
  have hn : (2 : ℝ) ≤ (J.length : ℝ) := by exact_mod_cast h2
  have hfac : (N.factorial : ℝ) ≠ 0 := by exact_mod_cast N.factorial_ne_zero
  have hlist : ∀ s : Equiv.Perm (Fin N), J.map (fun a => x (s a)) = List.ofFn fun t : Fin J.length => x (s (J.get t)) := by
    intro s
    refine List.ext_getElem (by simp) fun n h1 h2 => by simp
  simp only [hlist, npCov_pairs]
  rw [← Finset.sum_div, Finset.sum_comm]
  set g : Fin N → Fin N → ℝ := fun a b => (x a i - x b i) * (x a j - x b j) with hg
  set V : ℝ := ∑ a, ∑ b, if a = b then 0 else g a b with hV
  have hpair : ∀ t t' : Fin J.length, ∑ s : Equiv.Perm (Fin N), (if t = t' then 0 else (x (s (J.get t)) i - x (s (J.get t')) i) *
      (x (s (J.get t)) j - x (s (J.get t')) j)) = if t = t' then 0 else N.factorial * V / (N * (N - 1)) := by
    intro t t'
    split_ifs with htt
    · simp
    · have hne : J.get t ≠ J.get t' := fun hc => htt ((List.nodup_iff_injective_get.1 hJ) hc)
      rw [eq_div_iff (by nlinarith), ← sum_perm_pairs g hne]
      ring
  have hsum : ∑ t : Fin J.length, ∑ s : Equiv.Perm (Fin N), ∑ t' : Fin J.length, (if t = t' then 0 else (x (s (J.get t)) i - x (s (J.get t')) i) *
      (x (s (J.get t)) j - x (s (J.get t')) j)) = J.length * ((J.length : ℝ) - 1) * (N.factorial * V / (N * (N - 1))) := by
    have : ∀ t : Fin J.length, ∑ s : Equiv.Perm (Fin N), ∑ t' : Fin J.length, (if t = t' then 0 else (x (s (J.get t)) i - x (s (J.get t')) i) *
      (x (s (J.get t)) j - x (s (J.get t')) j)) = ((J.length : ℝ) - 1) * (N.factorial * V / (N * (N - 1))) := by
      intro t
      rw [Finset.sum_comm, Finset.sum_congr rfl fun t' _ => hpair t t', Finset.sum_ite]
      simp only [Finset.sum_const_zero, zero_add, Finset.sum_const, nsmul_eq_mul]
      congr 1
      have : (Finset.univ.filter fun t' : Fin J.length => ¬ t = t') = Finset.univ.erase t := by
        ext y
        simp [eq_comm]
      rw [this, Finset.card_erase_of_mem (Finset.mem_univ _), Finset.card_univ, Fintype.card_fin, Nat.cast_sub (by omega)]
      simp
    rw [Finset.sum_congr rfl fun t _ => this t]
    simp [mul_assoc]
  rw [hsum]
  have h1 : (N : ℝ) - 1 ≠ 0 := by linarith
  have h3 : (J.length : ℝ) - 1 ≠ 0 := by linarith
  have h4 : (N : ℝ) ≠ 0 := by linarith
  have h5 : (J.length : ℝ) ≠ 0 := by linarith
  field_simp

theorem pieces_sublist {α : Type} (ks : List Nat) : ∀ (l : List α) (i : Nat), List.Sublist ((pieces l ks).getD i []) l := by
  induction ks with
  | nil => intro l i; simp [pieces]
  | cons k ks ih =>
    intro l i
    cases i with
    | zero => simpa [pieces] using List.take_sublist k l
    | succ i => simpa [pieces] using (ih (l.drop k) i).trans (List.drop_sublist k l)

/-- C128: if all orders of the observations of an environment are equally likely, the expected covariance of each of its folds with at least two
observations (their number does not depend on the order) is the covariance of all its observations. -/
theorem C128_folds_unbiased [IsProbabilityMeasure μ] (R : Ω → Nat → Rng) (data : List (Sample p)) (ratios : List Rat) (hs : ratios.sum = 1)
    (hr : ∀ r ∈ ratios, 0 ≤ r) (k : Nat) (sample : Sample p) (hk : data[k]? = some sample) (hfair : FairShuffle μ (fun ω => R ω k) sample.length) :
    ∃ folds : Ω → List (List (Sample p)), (∀ ω, splitData (R ω) data ratios = .ok (folds ω)) ∧
      ∀ (f : Nat) (ω₀ : Ω), 2 ≤ (((folds ω₀).getD f []).getD k []).length →
        ∀ i j, ∫ ω, npCov (((folds ω).getD f []).getD k []) i j ∂μ = npCov sample i j := by
  have h := fun ω => splitData_ok (R ω) data ratios hs hr
  choose folds h1 h2 h3 h4 using h
  refine ⟨folds, h1, fun f ω₀ hlen i j => ?_⟩
  set ks := ratios.map fun r : Rat => (pyRound (sample.length * r)).toNat with hks
  have hsample : sample = (List.finRange sample.length).map sample.get := by simp
  have hfold : ∀ ω, ((folds ω).getD f []).getD k [] = ((pieces ((R ω k).shuffle (List.finRange sample.length)) ks).getD f []).map sample.get := by
    intro ω
    have e1 := h4 ω k sample hk
    have e2 : (R ω k).shuffle sample = ((R ω k).shuffle (List.finRange sample.length)).map sample.get := by
      conv_lhs => rw [hsample]
      exact hfair.blind ω _ _
    rw [e2, pieces_map] at e1
    have e3 : ((folds ω).getD f []).getD k [] = (foldsOf (folds ω) k).getD f [] := by
      unfold foldsOf
      simp only [List.getD_eq_getElem?_getD, List.getElem?_map]
      cases (folds ω)[f]? <;> simp
    rw [e3, e1]
    simp only [List.getD_eq_getElem?_getD, List.getElem?_map]
    cases (pieces ((R ω k).shuffle (List.finRange sample.length)) ks)[f]? <;> simp
  simp only [hfold]
  rw [integral_shuffle hfair fun l => npCov (((pieces l ks).getD f []).map sample.get) i j]
  set J := (pieces (List.finRange sample.length) ks).getD f [] with hJ
  have hmap : ∀ s : Equiv.Perm (Fin sample.length), ((pieces ((List.finRange sample.length).map s) ks).getD f []).map sample.get = J.map fun a => sample.get (s a) := by
    intro s
    rw [pieces_map]
    simp only [hJ, List.getD_eq_getElem?_getD, List.getElem?_map]
    cases (pieces (List.finRange sample.length) ks)[f]? <;> simp
  simp only [hmap]
  have hJlen : 2 ≤ J.length := by
    have := hlen
    rw [hfold ω₀] at this
    obtain ⟨s, hs'⟩ := shuffle_is_perm ((R ω₀ k).shuffle_perm (List.finRange sample.length))
    rw [hs', hmap] at this
    simpa using this
  rw [average_npCov sample.get ((List.nodup_finRange _).sublist (pieces_sublist _ _ _)) hJlen i j]
  simp


/-! ### Drawing without replacement -/

/-- All sequences of `n` different elements out of `N` are equally likely results of `choice`, which does not look at the elements. -/
structure Spec.FairChoice (μ : Measure Ω) (r : Ω → Rng) (N n : ℕ) : Prop where
  blind : ∀ ω {α β : Type} (f : α → β) (l : List α), (r ω).choice (l.map f) n = ((r ω).choice l n).map f
  meas : ∀ l, MeasurableSet {ω | (r ω).choice (List.finRange N) n = l}
  unif : ∀ l : List (Fin N), l.Nodup → l.length = n → μ {ω | (r ω).choice (List.finRange N) n = l} = (N.descFactorial n : ENNReal)⁻¹

theorem choice_nodup (r : Rng) {α : Type} {l : List α} (hl : l.Nodup) {n : Nat} (hn : n ≤ l.length) : (r.choice l n).Nodup := by
  obtain ⟨l', h1, h2⟩ := r.choice_subperm l n hn
  exact h1.nodup_iff.1 (h2.nodup hl)

/-- Every set of `n` elements is equally likely. -/
theorem choice_set {r : Ω → Rng} {N n : ℕ} (h : FairChoice μ r N n) (T : Finset (Fin N)) (hT : T.card = n) :
    μ {ω | ((r ω).choice (List.finRange N) n).toFinset = T} = (N.choose n : ENNReal)⁻¹ := by
  classical
  have hn : n ≤ N := by rw [← hT]; simpa using Finset.card_le_univ T
  have hset : {ω | ((r ω).choice (List.finRange N) n).toFinset = T} =
      ⋃ l ∈ T.toList.permutations.toFinset, {ω | (r ω).choice (List.finRange N) n = l} := by
    ext ω
    simp only [Set.mem_iUnion, List.mem_toFinset, List.mem_permutations, exists_prop, Set.mem_ofPred_eq]
    constructor
    · intro hω
      refine ⟨_, ?_, rfl⟩
      refine List.perm_of_nodup_nodup_toFinset_eq (choice_nodup _ (List.nodup_finRange N) (by simpa using hn)) (Finset.nodup_toList T) ?_
      rw [hω, Finset.toList_toFinset]
    · rintro ⟨l, hl, hω⟩
      rw [hω, List.toFinset_eq_of_perm _ _ hl, Finset.toList_toFinset]
  rw [hset, measure_biUnion_finset]
  · have hall : ∀ l ∈ T.toList.permutations.toFinset, μ {ω | (r ω).choice (List.finRange N) n = l} = (N.descFactorial n : ENNReal)⁻¹ := by
      intro l hl
      rw [List.mem_toFinset, List.mem_permutations] at hl
      exact h.unif l (hl.nodup_iff.2 (Finset.nodup_toList T)) (by rw [hl.length_eq, Finset.length_toList, hT])
    rw [Finset.sum_congr rfl hall, Finset.sum_const, List.toFinset_card_of_nodup (List.nodup_permutations _ (Finset.nodup_toList T)),
      List.length_permutations, Finset.length_toList, hT, Nat.descFactorial_eq_factorial_mul_choose, nsmul_eq_mul, Nat.cast_mul,
      ENNReal.mul_inv (Or.inl (by exact_mod_cast n.factorial_ne_zero)) (Or.inl (by simp)), ← mul_assoc,
      ENNReal.mul_inv_cancel (by exact_mod_cast n.factorial_ne_zero) (by simp), one_mul]
  · intro l _ l' _ hne
    refine Set.disjoint_left.2 fun ω h1 h2 => hne ?_
    exact (Eq.symm h1).trans h2
  · exact fun l _ => h.meas l

/-- C128: with a fair draw every set of `n` of the `p` variables is equally likely to be the result of `intervention_targets`, and no other set is
a result. -/
theorem C128_targets_fair (r : Ω → Rng) (draw : Int → Int → Int) (n : Nat) (hn : n ≤ p) (h : FairChoice μ r p n) :
    (∀ T : Finset (Fin p), T.card = n → μ {ω | interventionTargets (r ω) draw p (.int n) = .ok T} = (p.choose n : ENNReal)⁻¹) ∧
      ∀ T : Finset (Fin p), T.card ≠ n → {ω | interventionTargets (r ω) draw p (.int n) = .ok T} = ∅ := by
  have hform : ∀ ω, interventionTargets (r ω) draw p (.int n) = .ok ((r ω).choice (List.finRange p) n).toFinset := by
    intro ω
    unfold interventionTargets choiceTargets
    have h1 : ¬ ((p : Int) < (n : Int)) := by omega
    have h2 : ¬ ((n : Int) < 0) := by omega
    simp only [h1, h2, or_self, if_false, Int.toNat_natCast]
  simp only [hform, Except.ok.injEq]
  refine ⟨fun T hT => choice_set h T hT, fun T hT => ?_⟩
  ext ω
  simp only [Set.mem_ofPred_eq, Set.mem_empty_iff_false, iff_false]
  rintro rfl
  exact hT (by rw [List.toFinset_card_of_nodup (choice_nodup _ (List.nodup_finRange p) (by simpa using hn)), Rng.choice_length _ _ _ (by simpa using hn)])

/-- C128: with a tuple, given the drawn number, every set of so many variables is equally likely. -/
theorem C128_targets_fair_tuple (r : Ω → Rng) (draw : Int → Int → Int) (lo hi : Nat) (hhi : hi ≤ p) (hlo : lo < hi) (n : Nat) (hn : n ≤ p)
    (hdraw : draw lo hi = n) (h : FairChoice μ r p n) (T : Finset (Fin p)) (hT : T.card = n) :
    μ {ω | interventionTargets (r ω) draw p (.tuple [(lo : Int), (hi : Int)]) = .ok T} = (p.choose n : ENNReal)⁻¹ := by
  have hform : ∀ ω, interventionTargets (r ω) draw p (.tuple [(lo : Int), (hi : Int)]) = .ok ((r ω).choice (List.finRange p) n).toFinset := by
    intro ω
    unfold interventionTargets choiceTargets
    have h1 : ¬ ((p : Int) < max (lo : Int) (hi : Int)) := by omega
    have h2 : ¬ ((hi : Int) ≤ (lo : Int)) := by omega
    have h3 : ¬ ((n : Int) < 0 ∨ (p : Int) < (n : Int)) := by omega
    simp only [h1, h2, if_false, hdraw, h3, Int.toNat_natCast]
  simp only [hform, Except.ok.injEq]
  exact choice_set h T hT

open Classical in
/-- The directed edges of a graph. -/
noncomputable def Spec.dirEdges (A : Adj p) : Finset (Fin p × Fin p) := Finset.univ.filter fun e => DirEdge A e.1 e.2

theorem directedEdges_toFinset (A : Adj p) : (directedEdges (asBinary A)).toFinset = Spec.dirEdges A := by
  classical
  ext e
  rw [List.mem_toFinset, mem_directedEdges]
  unfold Spec.dirEdges
  simp only [Finset.mem_filter, Finset.mem_univ, true_and]
  unfold DirEdge
  rw [asBinary_ne]
  have := asBinary_ne (A := A) (i := e.2) (j := e.1)
  tauto

theorem directedEdges_length (A : Adj p) : (directedEdges (asBinary A)).length = (Spec.dirEdges A).card := by
  rw [← directedEdges_toFinset, List.toFinset_card_of_nodup (show (directedEdges (asBinary A)).Nodup from nodup_wherePairs)]

/-- C128: with a fair draw `remove_edges` returns the graph without the edges of any set of `n` directed edges with the same probability. -/
theorem C128_subgraphs_fair (r : Ω → Rng) (A : Adj p) (n : Nat) (h : FairChoice μ r (Spec.dirEdges A).card n)
    (D : Finset (Fin p × Fin p)) (hD : D ⊆ Spec.dirEdges A) (hcard : D.card = n) :
    μ {ω | ∃ R, removeEdges (r ω) A n = .ok R ∧ ∀ i j, Edge R i j ↔ Edge A i j ∧ (i, j) ∉ D} = ((Spec.dirEdges A).card.choose n : ENNReal)⁻¹ := by
  classical
  set E := directedEdges (asBinary A) with hE
  have hlen : E.length = (Spec.dirEdges A).card := directedEdges_length A
  have hnd : E.Nodup := nodup_wherePairs
  have hn : n ≤ E.length := by rw [hlen, ← hcard]; exact Finset.card_le_card hD
  rw [← hlen] at h ⊢
  set T : Finset (Fin E.length) := Finset.univ.filter fun t => E.get t ∈ D with hTdef
  have hinj : Function.Injective E.get := List.nodup_iff_injective_get.1 hnd
  have hmemE : ∀ e, e ∈ E ↔ e ∈ Spec.dirEdges A := fun e => by rw [← directedEdges_toFinset, List.mem_toFinset]
  have hTimg : T.image E.get = D := by
    ext e
    simp only [hTdef, Finset.mem_image, Finset.mem_filter, Finset.mem_univ, true_and]
    constructor
    · rintro ⟨t, ht, rfl⟩; exact ht
    · intro he
      obtain ⟨t, ht⟩ := List.mem_iff_get.1 ((hmemE e).2 (hD he))
      exact ⟨t, by rwa [ht], ht⟩
  have hTcard : T.card = n := by rw [← hcard, ← hTimg, Finset.card_image_of_injective _ hinj]
  rw [← choice_set h T hTcard]
  congr 1
  ext ω
  simp only [Set.mem_ofPred_eq]
  have hchoice : (r ω).choice E n = ((r ω).choice (List.finRange E.length) n).map E.get := by
    conv_lhs => rw [show E = (List.finRange E.length).map E.get by simp]
    exact h.blind ω _ _
  have hform : removeEdges (r ω) A n = .ok (((r ω).choice E n).foldl (fun pruned e => setEntry pruned e.1 e.2 0) (asBinary A)) := by
    unfold removeEdges
    simp only [← hE]
    rw [if_neg (by omega)]
  have hsub : ∀ e ∈ (r ω).choice E n, e ∈ E := fun e he => ((r ω).choice_subperm E n hn).subset he
  have hiff : (∃ R, removeEdges (r ω) A n = .ok R ∧ ∀ i j, Edge R i j ↔ Edge A i j ∧ (i, j) ∉ D) ↔ ∀ e, e ∈ (r ω).choice E n ↔ e ∈ D := by
    rw [hform]
    simp only [Except.ok.injEq, exists_eq_left']
    have hentry : ∀ i j, Edge (((r ω).choice E n).foldl (fun pruned e => setEntry pruned e.1 e.2 0) (asBinary A)) i j ↔
        Edge A i j ∧ (i, j) ∉ (r ω).choice E n := by
      intro i j
      unfold Edge
      rw [foldl_setEntry_zero]
      split_ifs with hc
      · simp [hc]
      · rw [asBinary_ne]; simp [hc]
    simp only [hentry]
    constructor
    · intro hc e
      have hedge : (e ∈ E ∨ e ∈ D) → Edge A e.1 e.2 := by
        intro he
        have : e ∈ Spec.dirEdges A := he.elim (fun h => (hmemE e).1 h) (fun h => hD h)
        unfold Spec.dirEdges at this
        exact (Finset.mem_filter.1 this).2.1
      have := hc e.1 e.2
      constructor
      · intro h1
        have h2 := hedge (Or.inl (hsub e h1))
        by_contra h3
        exact (this.2 ⟨h2, h3⟩).2 h1
      · intro h1
        have h2 := hedge (Or.inr h1)
        by_contra h3
        exact (this.1 ⟨h2, h3⟩).2 h1
    · intro hc i j
      rw [hc]
  rw [hiff, hchoice, ← hTimg]
  simp only [List.mem_map, Finset.mem_image]
  constructor
  · intro hc
    ext t
    rw [List.mem_toFinset]
    have := hc (E.get t)
    constructor
    · intro ht
      obtain ⟨t', h1, h2⟩ := this.1 ⟨t, ht, rfl⟩
      rwa [← hinj h2]
    · intro ht
      obtain ⟨t', h1, h2⟩ := this.2 ⟨t, ht, rfl⟩
      rwa [← hinj h2]
  · intro hc e
    rw [← hc]
    simp only [List.mem_toFinset]

end Verif
