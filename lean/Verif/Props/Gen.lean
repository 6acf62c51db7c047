import Verif.Model.Gen
import Verif.Props.LModel

/-!
# C62–C65, C73: generation of random models
-/

namespace Verif

open Spec

variable {p l e : Nat}

/-! ## C62 -/

/-- The targets are variable indices. -/
def Spec.ValidTargets (p : Nat) (I : Finset Int) : Prop := ∀ i ∈ I, 0 ≤ i ∧ i < p

theorem subset_range_iff (I : Finset Int) : I ⊆ (Finset.range p).image (fun (i : Nat) => (i : Int)) ↔ ValidTargets p I := by
  constructor
  · intro h i hi
    obtain ⟨n, hn, rfl⟩ := Finset.mem_image.1 (h hi)
    rw [Finset.mem_range] at hn
    omega
  · intro h i hi
    obtain ⟨h1, h2⟩ := h i hi
    exact Finset.mem_image.2 ⟨i.toNat, by rw [Finset.mem_range]; omega, by omega⟩

theorem sampleParameters_ok (it : SetIter p) {A : Adj p} (hA : Nonneg A) {I : Finset Int} (sparse obs : Bool) (dr : Draws p l e)
    (hac : Acyclic A) (hI : ValidTargets p I) : sampleParameters it A I sparse obs dr =
      .ok ⟨A, Matrix.of (fun i j => (A i j : ℝ) * dr.weights i j), genGamma sparse dr, genOmegas it (targetsOf p I) obs dr,
        genPsis obs dr, 1 - (Matrix.of (fun i j => (A i j : ℝ) * dr.weights i j)).transpose⟩ := by
  unfold sampleParameters
  rw [if_neg (by simpa using (isDag_iff it hA).2 hac), if_neg (by rw [not_not, subset_range_iff]; exact hI)]
  exact mkModel_eq_ok hA _ _ _ hac (by intro a b hab; simp [hab])

theorem sampleParameters_fields {it : SetIter p} {A : Adj p} (hA : Nonneg A) {I : Finset Int} {sparse obs : Bool} {dr : Draws p l e}
    {m : LModel p l e} (h : sampleParameters it A I sparse obs dr = .ok m) :
    m = ⟨A, Matrix.of (fun i j => (A i j : ℝ) * dr.weights i j), genGamma sparse dr, genOmegas it (targetsOf p I) obs dr,
        genPsis obs dr, 1 - (Matrix.of (fun i j => (A i j : ℝ) * dr.weights i j)).transpose⟩ ∧ Acyclic A ∧ ValidTargets p I := by
  by_cases h1 : Acyclic A
  · by_cases h2 : ValidTargets p I
    · rw [sampleParameters_ok it hA sparse obs dr h1 h2] at h
      cases h
      exact ⟨rfl, h1, h2⟩
    · unfold sampleParameters at h
      rw [if_neg (by simpa using (isDag_iff it hA).2 h1), if_pos (by rw [subset_range_iff]; exact h2)] at h
      simp at h
  · unfold sampleParameters at h
    rw [if_pos (by
      have := mt (isDag_iff it hA).1 h1
      simpa using this)] at h
    simp at h

/-- C62: `sample_parameters` raises `ValueError` iff the graph is not a DAG or the targets are not variable indices, for all random
outcomes; it raises nothing else. -/
theorem C62_raises (it : SetIter p) (A : Adj p) (hA : Nonneg A) (I : Finset Int) (sparse obs : Bool) (dr : Draws p l e) (err : Err) :
    sampleParameters it A I sparse obs dr = .error err ↔ err = .valueError ∧ (¬ Acyclic A ∨ ¬ ValidTargets p I) := by
  by_cases h1 : Acyclic A
  · by_cases h2 : ValidTargets p I
    · rw [sampleParameters_ok it hA sparse obs dr h1 h2]
      simp [h1, h2]
    · unfold sampleParameters
      rw [if_neg (by simpa using (isDag_iff it hA).2 h1), if_pos (by rw [subset_range_iff]; exact h2)]
      simp [h2, eq_comm]
  · unfold sampleParameters
    rw [if_pos (by
      have := mt (isDag_iff it hA).1 h1
      simpa using this)]
    simp [h1, eq_comm]

/-- C62: the returned model has the given graph, and its weights are the drawn ones on the edges and zero elsewhere (for a graph with
entries zero and one), so they lie in the given interval. -/
theorem C62_valid (it : SetIter p) (A : Adj p) (hA : ZeroOne A) (hac : Acyclic A) (I : Finset Int) (hI : ValidTargets p I)
    (sparse obs : Bool) (dr : Draws p l e) (lo hi : ℝ) (hw : ∀ i j, lo ≤ dr.weights i j ∧ dr.weights i j ≤ hi) :
    ∃ m, sampleParameters it A I sparse obs dr = .ok m ∧ m.A = A ∧ (∀ i j, ¬ Edge A i j → m.B i j = 0) ∧
      (∀ i j, Edge A i j → m.B i j = dr.weights i j ∧ lo ≤ m.B i j ∧ m.B i j ≤ hi) ∧ m.IB = 1 - m.B.transpose := by
  have hn : Nonneg A := fun i j => by rcases hA i j with h | h <;> simp [h]
  refine ⟨_, sampleParameters_ok it hn sparse obs dr hac hI, rfl, ?_, ?_, rfl⟩
  · intro i j h
    unfold Edge at h
    rw [not_not] at h
    simp [h]
  · intro i j h
    have : A i j = 1 := (hA i j).resolve_left h
    simpa [this] using hw i j

example (dr : Draws 3 2 5) : ∃ m, sampleParameters (SetIter.incr 3) ![![0, 0, 1], ![0, 0, 1], ![0, 0, 0]] {2} true true dr = .ok m := by
  have hn : Nonneg (![![0, 0, 1], ![0, 0, 1], ![0, 0, 0]] : Adj 3) := by unfold Nonneg; decide
  exact ⟨_, sampleParameters_ok _ hn _ _ dr ((isDag_iff (SetIter.incr 3) hn).1 (by decide)) (by intro i hi; simp at hi; omega)⟩

example (dr : Draws 3 2 5) : sampleParameters (SetIter.incr 3) ![![0, 0, 1], ![0, 0, 1], ![0, 0, 0]] {3} true true dr =
    .error .valueError := by
  have hn : Nonneg (![![0, 0, 1], ![0, 0, 1], ![0, 0, 0]] : Adj 3) := by unfold Nonneg; decide
  refine (C62_raises _ _ hn _ _ _ dr _).2 ⟨rfl, Or.inr (fun h => ?_)⟩
  have := (h 3 (by simp)).2
  omega

/-! ### Sparse latent effects -/

theorem scatterRow_spec (vals : List (Fin p × ℝ)) : ∀ (row : Fin p → ℝ) (j : Fin p),
    (j ∉ vals.map Prod.fst → scatterRow row vals j = row j) ∧ (j ∈ vals.map Prod.fst → (j, scatterRow row vals j) ∈ vals) := by
  induction vals with
  | nil => intro row j; simp [scatterRow]
  | cons v vals ih =>
    intro row j
    obtain ⟨i, x⟩ := v
    obtain ⟨h1, h2⟩ := ih (Function.update row i x) j
    rw [scatterRow]
    constructor
    · intro hj
      simp only [List.map_cons, List.mem_cons, not_or] at hj
      rw [h1 hj.2, Function.update_of_ne hj.1]
    · intro hj
      by_cases hm : j ∈ vals.map Prod.fst
      · exact List.mem_cons_of_mem _ (h2 hm)
      · simp only [List.map_cons, List.mem_cons, hm, or_false] at hj
        subst hj
        rw [h1 hm, Function.update_self]
        exact List.mem_cons_self

/-- C62: with sparse latent effects, latent `i` only affects the drawn variables (so at most as many as were drawn), each with one of
the values drawn for it; the variables are drawn with replacement, so there may be fewer. -/
theorem C62_sparse (it : SetIter p) (A : Adj p) (hA : Nonneg A) (I : Finset Int) (obs : Bool) (dr : Draws p l e) (m : LModel p l e)
    (h : sampleParameters it A I true obs dr = .ok m) (i : Fin l) :
    (∀ j, j ∉ (dr.sparse i).map Prod.fst → m.gamma i j = 0) ∧ (∀ j, j ∈ (dr.sparse i).map Prod.fst → (j, m.gamma i j) ∈ dr.sparse i) ∧
      (Finset.univ.filter (fun j => m.gamma i j ≠ 0)).card ≤ (dr.sparse i).length := by
  obtain ⟨rfl, -, -⟩ := sampleParameters_fields hA h
  have hs := scatterRow_spec (dr.sparse i) (fun _ => 0)
  simp only [genGamma, if_true, Matrix.of_apply]
  refine ⟨fun j => (hs j).1, fun j => (hs j).2, ?_⟩
  have hsub : Finset.univ.filter (fun j => scatterRow (fun _ => 0) (dr.sparse i) j ≠ 0) ⊆ ((dr.sparse i).map Prod.fst).toFinset := by
    intro j hj
    rw [Finset.mem_filter] at hj
    rw [List.mem_toFinset]
    by_contra hc
    exact hj.2 ((hs j).1 hc)
  refine (Finset.card_le_card hsub).trans ((List.toFinset_card_le _).trans ?_)
  rw [List.length_map]

/-! ## C63 -/

/-- How often the intervention on target `j` is added. -/
theorem omegaLoop_spec (dr : Draws p l e) : ∀ (js : List (Fin p)) (ints om : Matrix (Fin e) (Fin p) ℝ), js.Nodup →
    ∀ k j, omegaLoop dr js ints om k j = om k j +
      if k.val ≠ 0 ∧ j ∈ js then ints k j * (js.idxOf j : ℝ) + dr.interventions j k * ((js.length : ℝ) - js.idxOf j)
      else ints k j * (js.length : ℝ) := by
  intro js
  induction js with
  | nil => intro ints om _ k j; simp [omegaLoop]
  | cons i js ih =>
    intro ints om hnd k j
    rw [List.nodup_cons] at hnd
    simp only [omegaLoop]
    rw [ih _ _ hnd.2 k j]
    simp only [Matrix.add_apply, Matrix.of_apply, List.mem_cons, List.length_cons]
    push_cast
    by_cases hk : k.val = 0
    · simp only [hk, ne_eq, not_true_eq_false, and_false, false_and, if_false]
      ring
    · by_cases hij : j = i
      · subst hij
        simp only [hk, ne_eq, not_false_eq_true, and_self, if_true, hnd.1, or_false, true_and, if_false, List.idxOf_cons_self]
        push_cast
        ring
      · by_cases hj : j ∈ js
        · simp only [hk, ne_eq, not_false_eq_true, hij, false_and, if_false, hj, or_true, and_self, if_true,
            List.idxOf_cons_ne js (Ne.symm hij)]
          push_cast
          ring
        · simp only [hk, ne_eq, not_false_eq_true, hij, false_and, if_false, hj, or_self, and_false]
          ring

theorem genOmegas_obs (it : SetIter p) (I : Finset (Fin p)) (dr : Draws p l e) (he : 1 < e) (k : Fin e) (j : Fin p) :
    genOmegas it I true dr k j = dr.base j +
      if k.val ≠ 0 ∧ j ∈ I then dr.interventions j k * ((I.card : ℝ) - (it.toList I).idxOf j) else 0 := by
  unfold genOmegas
  rw [if_pos ⟨rfl, he⟩, omegaLoop_spec dr _ _ _ (it.nodup I)]
  have hlen : (it.toList I).length = I.card := by
    rw [← List.toFinset_card_of_nodup (it.nodup I)]
    congr 1
    ext x
    rw [List.mem_toFinset, it.mem]
  simp only [Matrix.of_apply, Matrix.zero_apply, zero_mul, zero_add, hlen, it.mem]

theorem mem_targetsOf {I : Finset Int} {j : Fin p} : j ∈ targetsOf p I ↔ (j.val : Int) ∈ I := by
  simp [targetsOf]

/-- C63: in every generated model the variables that are not targets have the same variance in all environments. -/
theorem C63_non_targets (it : SetIter p) (A : Adj p) (hA : Nonneg A) (I : Finset Int) (sparse obs : Bool) (dr : Draws p l e)
    (m : LModel p l e) (h : sampleParameters it A I sparse obs dr = .ok m) (j : Fin p) (hj : (j.val : Int) ∉ I) (k k' : Fin e) :
    m.omegas k j = m.omegas k' j := by
  obtain ⟨rfl, -, -⟩ := sampleParameters_fields hA h
  have hj' : j ∉ targetsOf p I := by rw [mem_targetsOf]; exact hj
  by_cases hc : obs = true ∧ 1 < e
  · obtain ⟨rfl, he⟩ := hc
    simp only [genOmegas_obs it _ dr he, hj', and_false, if_false]
  · simp only [genOmegas, if_neg hc, Matrix.of_apply, if_pos hj']

/-- C63: with `obs=True` and several environments, the variances of the first environment are those drawn from `[var_lo, var_hi]`, and so
are the variances of the variables that are not targets in all environments. -/
theorem C63_observational (it : SetIter p) (A : Adj p) (hA : Nonneg A) (I : Finset Int) (sparse : Bool) (dr : Draws p l e) (he : 1 < e)
    (lo hi : ℝ) (hb : ∀ j, lo ≤ dr.base j ∧ dr.base j ≤ hi) (m : LModel p l e) (h : sampleParameters it A I sparse true dr = .ok m)
    (k : Fin e) (j : Fin p) (hkj : k.val = 0 ∨ (j.val : Int) ∉ I) : lo ≤ m.omegas k j ∧ m.omegas k j ≤ hi := by
  obtain ⟨rfl, -, -⟩ := sampleParameters_fields hA h
  simp only [genOmegas_obs it _ dr he, mem_targetsOf]
  rw [if_neg (by tauto), add_zero]
  exact hb j

/-- C63: the documented interval of the variances after an intervention holds if there is one target. -/
theorem C63_single_target (it : SetIter p) (A : Adj p) (hA : Nonneg A) (t : Int) (sparse : Bool) (dr : Draws p l e) (he : 1 < e)
    (lo hi ilo ihi : ℝ) (hb : ∀ j, lo ≤ dr.base j ∧ dr.base j ≤ hi)
    (hi' : ∀ j k, ilo ≤ dr.interventions j k ∧ dr.interventions j k ≤ ihi) (m : LModel p l e)
    (h : sampleParameters it A {t} sparse true dr = .ok m) (k : Fin e) (hk : k.val ≠ 0) (j : Fin p) (hj : (j.val : Int) = t) :
    lo + ilo ≤ m.omegas k j ∧ m.omegas k j ≤ hi + ihi := by
  obtain ⟨rfl, -, -⟩ := sampleParameters_fields hA h
  simp only [genOmegas_obs it _ dr he]
  have ht : ∀ s : Finset (Fin p), s = {j} → (s.card : ℝ) - ((it.toList s).idxOf j : ℝ) = 1 := by
    rintro s rfl
    have hlt := List.idxOf_lt_length_of_mem ((it.mem {j} j).2 (by simp))
    have hlen : (it.toList {j}).length = 1 := by
      rw [← List.toFinset_card_of_nodup (it.nodup {j})]
      have : (it.toList {j}).toFinset = {j} := by ext x; rw [List.mem_toFinset, it.mem]
      rw [this, Finset.card_singleton]
    rw [hlen] at hlt
    have : (it.toList {j}).idxOf j = 0 := by omega
    rw [this]
    simp
  have hs : targetsOf p {t} = {j} := by
    ext x
    rw [mem_targetsOf, Finset.mem_singleton, Finset.mem_singleton, ← hj]
    constructor
    · intro hx; exact Fin.ext (by omega)
    · rintro rfl; rfl
  rw [if_pos ⟨hk, by rw [hs]; simp⟩, ht _ hs, mul_one]
  exact ⟨add_le_add (hb j).1 (hi' j k).1, add_le_add (hb j).2 (hi' j k).2⟩

/-- C63: in general, the intervention on the `n`-th of the targets (in the iteration order of the set) is added `|I| - n` times,
because `omegas += interventions` is inside the loop over the targets. -/
theorem C63_accumulates (it : SetIter p) (A : Adj p) (hA : Nonneg A) (I : Finset Int) (sparse : Bool) (dr : Draws p l e) (he : 1 < e)
    (m : LModel p l e) (h : sampleParameters it A I sparse true dr = .ok m) :
    ∃ order : List (Fin p), order.Nodup ∧ (∀ j, j ∈ order ↔ (j.val : Int) ∈ I) ∧ order.length = I.card ∧
      ∀ (n : Nat) (j : Fin p), order[n]? = some j → ∀ k : Fin e, k.val ≠ 0 →
        m.omegas k j = dr.base j + ((I.card : ℝ) - n) * dr.interventions j k := by
  obtain ⟨rfl, -, hI⟩ := sampleParameters_fields hA h
  have hcard : (targetsOf p I).card = I.card := by
    refine Finset.card_bij (fun j _ => (j.val : Int)) (fun j hj => mem_targetsOf.1 hj) (fun a _ b _ hab => Fin.ext (by omega)) ?_
    intro i hi
    obtain ⟨h1, h2⟩ := hI i hi
    refine ⟨⟨i.toNat, by omega⟩, ?_, by simp; omega⟩
    rw [mem_targetsOf]
    simp only [Int.toNat_of_nonneg h1]
    exact hi
  refine ⟨it.toList (targetsOf p I), it.nodup _, fun j => by rw [it.mem, mem_targetsOf], ?_, ?_⟩
  · rw [← List.toFinset_card_of_nodup (it.nodup _), ← hcard]
    congr 1
    ext x
    rw [List.mem_toFinset, it.mem]
  · intro n j hn k hk
    have hj := List.mem_of_getElem? hn
    obtain ⟨hlt, hget⟩ := List.getElem?_eq_some_iff.1 hn
    have hidx : (it.toList (targetsOf p I)).idxOf j = n := by
      rw [← hget]
      exact (it.nodup _).idxOf_getElem n hlt
    simp only [genOmegas_obs it _ dr he]
    rw [if_pos ⟨hk, (it.mem _ _).1 hj⟩, hidx, hcard, mul_comm]

/-- C63 (violation of the documentation): with several targets some variance is outside the documented interval
`[var_lo + int_var_lo, var_hi + int_var_hi]` in every environment but the first, whatever the draws, as soon as
`|I| * int_var_lo` exceeds `var_hi - var_lo + int_var_hi`. -/
theorem C63_violated (it : SetIter p) (A : Adj p) (hA : Nonneg A) (I : Finset Int) (hne : I.Nonempty) (sparse : Bool) (dr : Draws p l e)
    (he : 1 < e) (lo hi ilo ihi : ℝ) (hb : ∀ j, lo ≤ dr.base j ∧ dr.base j ≤ hi)
    (hi' : ∀ j k, ilo ≤ dr.interventions j k ∧ dr.interventions j k ≤ ihi) (hbig : hi - lo + ihi < I.card * ilo)
    (m : LModel p l e) (h : sampleParameters it A I sparse true dr = .ok m) :
    ∃ j : Fin p, (j.val : Int) ∈ I ∧ ∀ k : Fin e, k.val ≠ 0 → hi + ihi < m.omegas k j := by
  obtain ⟨order, -, h2, h3, h4⟩ := C63_accumulates it A hA I sparse dr he m h
  cases order with
  | nil => exact absurd h3.symm (Finset.card_pos.2 hne).ne'
  | cons j rest =>
    refine ⟨j, (h2 j).1 (by simp), fun k hk => ?_⟩
    rw [h4 0 j rfl k hk]
    have := mul_le_mul_of_nonneg_left (hi' j k).1 (Nat.cast_nonneg (α := ℝ) I.card)
    have := (hb j).1
    push_cast
    linarith

/-- The example of the documentation of `chain_graph_model`, `var = [0.5, 0.6]` and `int_var = [3, 6]`, with three targets. -/
example (it : SetIter 20) (dr : Draws 20 2 5) (hb : ∀ j, 1 / 2 ≤ dr.base j ∧ dr.base j ≤ 3 / 5)
    (hi : ∀ j k, 3 ≤ dr.interventions j k ∧ dr.interventions j k ≤ 6) (A : Adj 20) (hA : Nonneg A) (m : LModel 20 2 5)
    (h : sampleParameters it A {2, 3, 4} false true dr = .ok m) : ∃ j : Fin 20, ∀ k : Fin 5, k.val ≠ 0 → 3 / 5 + 6 < m.omegas k j := by
  obtain ⟨j, -, hj⟩ := C63_violated it A hA {2, 3, 4} (by simp) false dr (by norm_num) _ _ _ _ hb hi (by
    have : ({2, 3, 4} : Finset Int).card = 3 := by decide
    rw [this]; norm_num) m h
  exact ⟨j, hj⟩

/-- C63 (violation of the documentation): with `obs=False` (or one environment) the intervals of the interventions are not used: all
variances lie in `[var_lo, var_hi]` and those of the latents in `[psi_lo, psi_hi]`. -/
theorem C63_no_observational (it : SetIter p) (A : Adj p) (hA : Nonneg A) (I : Finset Int) (sparse obs : Bool) (dr : Draws p l e)
    (hobs : obs = false ∨ e ≤ 1) (lo hi plo phi : ℝ) (hb : ∀ k j, lo ≤ dr.omegas k j ∧ dr.omegas k j ≤ hi)
    (hp : ∀ k i, plo ≤ dr.psis k i ∧ dr.psis k i ≤ phi) (m : LModel p l e) (h : sampleParameters it A I sparse obs dr = .ok m) :
    (∀ k j, lo ≤ m.omegas k j ∧ m.omegas k j ≤ hi) ∧ ∀ k i, plo ≤ m.psis k i ∧ m.psis k i ≤ phi := by
  obtain ⟨rfl, -, -⟩ := sampleParameters_fields hA h
  have hc : ¬ (obs = true ∧ 1 < e) := by
    rintro ⟨h1, h2⟩
    rcases hobs with h | h
    · simp [h] at h1
    · omega
  constructor
  · intro k j
    simp only [genOmegas, if_neg hc, Matrix.of_apply]
    by_cases hj : j ∈ targetsOf p I
    · rw [if_neg (not_not.2 hj)]
      exact hb k j
    · rw [if_pos hj]
      have he : (0 : ℝ) < e := by exact_mod_cast (show 0 < e from k.pos)
      have h1 : ∑ _h : Fin e, lo ≤ ∑ h, dr.omegas h j := Finset.sum_le_sum (fun h _ => (hb h j).1)
      have h2 : ∑ h, dr.omegas h j ≤ ∑ _h : Fin e, hi := Finset.sum_le_sum (fun h _ => (hb h j).2)
      simp only [Finset.sum_const, Finset.card_univ, Fintype.card_fin, nsmul_eq_mul] at h1 h2
      rw [le_div_iff₀ he, div_le_iff₀ he]
      constructor <;> linarith
  · intro k i
    simp only [genPsis]
    rw [if_neg (by tauto)]
    exact hp k i

/-! ### The variances of the latents -/

theorem psiLoop_spec (dr : Draws p l e) (he : 0 < e) : ∀ (n s : Nat) (ps : Matrix (Fin e) (Fin l) ℝ), 1 ≤ s →
    ∀ (h : Fin e) (i : Fin l), psiLoop dr (List.range' s n) ps h i =
      if h.val = 0 then ps h i
      else if s ≤ h.val ∧ h.val < s + n then ps ⟨0, he⟩ i + ∑ k ∈ Finset.Ico h.val (s + n), dr.psiInterventions k h i
      else ps h i + ∑ k ∈ Finset.Ico s (s + n), dr.psiInterventions k h i := by
  intro n
  induction n with
  | zero =>
    intro s ps hs h i
    simp [psiLoop]
  | succ n ih =>
    intro s ps hs h i
    rw [List.range'_succ]
    unfold psiLoop
    rw [ih (s + 1) _ (by omega) h i]
    have h0s : ¬ (0 = s) := by omega
    simp only [Matrix.add_apply, Matrix.of_apply, he, dif_pos, if_neg h0s, if_true, add_zero]
    have e1 : s + 1 + n = s + (n + 1) := by ring
    rw [e1]
    by_cases hh : h.val = 0
    · have : ¬ (h.val = s) := by omega
      simp [hh, h0s]
    · simp only [hh, if_false]
      by_cases hs' : h.val = s
      · rw [if_neg (by omega), if_pos hs', if_pos (by omega)]
        rw [hs', Finset.sum_eq_sum_Ico_succ_bot (by omega : s < s + (n + 1))]
        ring
      · rw [if_neg hs']
        by_cases hin : s + 1 ≤ h.val ∧ h.val < s + (n + 1)
        · rw [if_pos hin, if_pos (by omega)]
        · rw [if_neg hin, if_neg (by omega), Finset.sum_eq_sum_Ico_succ_bot (by omega : s < s + (n + 1))]
          ring

/-- C63: the variances of the latents with `obs=True`: those of the first environment are drawn from `[psi_lo, psi_hi]`, and environment
`k` gets `e - k` intervention draws added (those of all iterations from `k` on), because `psis += psi_interventions` changes all
environments in each iteration. -/
theorem C63_latents_accumulate (it : SetIter p) (A : Adj p) (hA : Nonneg A) (I : Finset Int) (sparse : Bool) (dr : Draws p l e)
    (he : 1 < e) (m : LModel p l e) (h : sampleParameters it A I sparse true dr = .ok m) (k : Fin e) (i : Fin l) :
    m.psis k i = dr.psiBase i + if k.val = 0 then 0 else ∑ n ∈ Finset.Ico k.val e, dr.psiInterventions n k i := by
  obtain ⟨rfl, -, -⟩ := sampleParameters_fields hA h
  simp only [genPsis]
  rw [if_pos ⟨trivial, he, i.pos⟩, psiLoop_spec dr (by omega) _ _ _ le_rfl]
  have : 1 + (e - 1) = e := by omega
  rw [this]
  by_cases hk : k.val = 0
  · simp [hk]
  · rw [if_neg hk, if_neg hk, if_pos ⟨by omega, k.isLt⟩]
    simp

/-- C63: so the documented interval for the latents holds for the last environment ... -/
theorem C63_latents_last (it : SetIter p) (A : Adj p) (hA : Nonneg A) (I : Finset Int) (sparse : Bool) (dr : Draws p l e)
    (he : 1 < e) (lo hi ilo ihi : ℝ) (hb : ∀ i, lo ≤ dr.psiBase i ∧ dr.psiBase i ≤ hi)
    (hi' : ∀ n k i, ilo ≤ dr.psiInterventions n k i ∧ dr.psiInterventions n k i ≤ ihi) (m : LModel p l e)
    (h : sampleParameters it A I sparse true dr = .ok m) (k : Fin e) (hk : k.val = e - 1) (i : Fin l) :
    lo + ilo ≤ m.psis k i ∧ m.psis k i ≤ hi + ihi := by
  rw [C63_latents_accumulate it A hA I sparse dr he m h k i, if_neg (by omega)]
  have : Finset.Ico k.val e = {k.val} := by
    ext x; rw [Finset.mem_Ico, Finset.mem_singleton]; omega
  rw [this, Finset.sum_singleton]
  exact ⟨add_le_add (hb i).1 (hi' _ _ i).1, add_le_add (hb i).2 (hi' _ _ i).2⟩

/-- C63 (violation of the documentation): ... and fails for all environments `k` (but the first) for which
`(e - k) * int_psi_lo` exceeds `psi_hi - psi_lo + int_psi_hi`, whatever the draws. -/
theorem C63_latents_violated (it : SetIter p) (A : Adj p) (hA : Nonneg A) (I : Finset Int) (sparse : Bool) (dr : Draws p l e)
    (he : 1 < e) (lo hi ilo ihi : ℝ) (hb : ∀ i, lo ≤ dr.psiBase i ∧ dr.psiBase i ≤ hi)
    (hi' : ∀ n k i, ilo ≤ dr.psiInterventions n k i ∧ dr.psiInterventions n k i ≤ ihi) (m : LModel p l e)
    (h : sampleParameters it A I sparse true dr = .ok m) (k : Fin e) (hk : k.val ≠ 0)
    (hbig : hi - lo + ihi < ((e : ℝ) - k.val) * ilo) (i : Fin l) : hi + ihi < m.psis k i := by
  rw [C63_latents_accumulate it A hA I sparse dr he m h k i, if_neg hk]
  have h1 : ∑ _n ∈ Finset.Ico k.val e, ilo ≤ ∑ n ∈ Finset.Ico k.val e, dr.psiInterventions n k i :=
    Finset.sum_le_sum (fun n _ => (hi' n k i).1)
  rw [Finset.sum_const, Nat.card_Ico, nsmul_eq_mul, Nat.cast_sub k.isLt.le] at h1
  have := (hb i).1
  linarith

/-- C63: all variances of generated models are positive, and the covariances of the model are positive definite, if the lower ends of the
intervals of variances are positive and those of interventions not negative. -/
theorem C63_positive (it : SetIter p) (A : Adj p) (hA : Nonneg A) (I : Finset Int) (sparse obs : Bool) (dr : Draws p l e)
    (h1 : ∀ j, 0 < dr.base j) (h2 : ∀ j k, 0 ≤ dr.interventions j k) (h3 : ∀ k j, 0 < dr.omegas k j) (h4 : ∀ i, 0 < dr.psiBase i)
    (h5 : ∀ n k i, 0 ≤ dr.psiInterventions n k i) (h6 : ∀ k i, 0 < dr.psis k i) (m : LModel p l e)
    (h : sampleParameters it A I sparse obs dr = .ok m) :
    (∀ k j, 0 < m.omegas k j) ∧ (∀ k i, 0 < m.psis k i) ∧
      ∃ C, m.covariances = .ok C ∧ ∀ k, (C k).PosDef := by
  suffices hpos : (∀ k j, 0 < m.omegas k j) ∧ (∀ k i, 0 < m.psis k i) by
    refine ⟨hpos.1, hpos.2, ?_⟩
    obtain ⟨rfl, hac, hI⟩ := sampleParameters_fields hA h
    obtain ⟨-, ⟨C, h7, h8⟩, -⟩ := C36_posDef it A hA _ _ _ _ _ (mkModel_eq_ok hA (genGamma sparse dr) (genOmegas it (targetsOf p I) obs dr)
      (genPsis obs dr) hac (B := Matrix.of (fun i j => (A i j : ℝ) * dr.weights i j)) (by intro a b hab; simp [hab])) hpos.1
      (fun k i => (hpos.2 k i).le)
    exact ⟨C, h7, fun k => (h8 k).1⟩
  constructor
  · intro k j
    by_cases hc : obs = true ∧ 1 < e
    · obtain ⟨rfl, he⟩ := hc
      obtain ⟨rfl, -, -⟩ := sampleParameters_fields hA h
      simp only [genOmegas_obs it _ dr he]
      split_ifs with hk
      · have hlt := List.idxOf_lt_length_of_mem ((it.mem _ _).2 hk.2)
        have hlen : (it.toList (targetsOf p I)).length = (targetsOf p I).card := by
          rw [← List.toFinset_card_of_nodup (it.nodup _)]
          congr 1
          ext x
          rw [List.mem_toFinset, it.mem]
        rw [hlen] at hlt
        have : (0 : ℝ) ≤ ((targetsOf p I).card : ℝ) - (it.toList (targetsOf p I)).idxOf j := by
          rw [sub_nonneg]
          exact_mod_cast hlt.le
        have := mul_nonneg (h2 j k) this
        have := h1 j
        linarith
      · linarith [h1 j]
    · obtain ⟨rfl, -, -⟩ := sampleParameters_fields hA h
      simp only [genOmegas, if_neg hc, Matrix.of_apply]
      by_cases hj : j ∈ targetsOf p I
      · rw [if_neg (not_not.2 hj)]
        exact h3 k j
      · rw [if_pos hj]
        exact div_pos (Finset.sum_pos (fun h _ => h3 h j) ⟨k, Finset.mem_univ _⟩) (Nat.cast_pos.2 k.pos)
  · intro k i
    by_cases hc : obs = true ∧ 1 < e
    · obtain ⟨rfl, he⟩ := hc
      rw [C63_latents_accumulate it A hA I sparse dr he m h k i]
      split_ifs
      · linarith [h4 i]
      · have := Finset.sum_nonneg (s := Finset.Ico k.val e) (f := fun n => dr.psiInterventions n k i) (fun n _ => h5 n k i)
        linarith [h4 i]
    · obtain ⟨rfl, -, -⟩ := sampleParameters_fields hA h
      simp only [genPsis]
      rw [if_neg (by tauto)]
      exact h6 k i

/-! ## C64 -/

/-- C64: with a non-negative integer `n ≤ p` the result has exactly `n` elements. -/
theorem C64_int (rng : Rng) (draw : Int → Int → Int) (p n : Nat) (hn : n ≤ p) :
    ∃ ts : Finset (Fin p), interventionTargets rng draw p (.int n) = .ok ts ∧ ts.card = n := by
  have h1 := rng.choice_length (List.finRange p) n (by simpa using hn)
  have h2 := rng.choice_subperm (List.finRange p) n (by simpa using hn)
  refine ⟨(rng.choice (List.finRange p) n).toFinset, ?_, ?_⟩
  · simp only [interventionTargets, choiceTargets]
    rw [if_neg (by omega), if_neg (by omega)]
    rfl
  · obtain ⟨l', hp, hs⟩ := h2
    rw [List.toFinset_card_of_nodup (hp.nodup_iff.1 (hs.nodup (List.nodup_finRange p))), h1]

/-- C64: with a tuple `(lo, hi)`, `0 ≤ lo < hi ≤ p`, the result has at least `lo` and fewer than `hi` elements: the documented upper end
`hi` is not attained. -/
theorem C64_tuple (rng : Rng) (draw : Int → Int → Int) (hd : ∀ a b, a < b → a ≤ draw a b ∧ draw a b < b) (p lo hi : Nat) (h : lo < hi)
    (hp : hi ≤ p) : ∃ ts : Finset (Fin p), interventionTargets rng draw p (.tuple [lo, hi]) = .ok ts ∧ lo ≤ ts.card ∧ ts.card < hi := by
  obtain ⟨g1, g2⟩ := hd lo hi (by exact_mod_cast h)
  obtain ⟨n, hn⟩ : ∃ n : Nat, draw lo hi = n := ⟨(draw lo hi).toNat, by omega⟩
  obtain ⟨ts, h1, h2⟩ := C64_int rng draw p n (by omega)
  refine ⟨ts, ?_, by omega, by omega⟩
  simp only [interventionTargets] at h1 ⊢
  rw [if_neg (by omega)] at h1
  rw [if_neg (by omega), if_neg (by omega), hn]
  exact h1

/-- C64: the exceptions, all `ValueError`: a number that is negative or above `p`, a tuple of the wrong length, with an end above `p`, or
with `lo >= hi` (so `(n, n)`, which by the documentation asks for `n` targets, is rejected), or (as a number below zero may be drawn)
one with a negative draw. -/
theorem C64_raises (rng : Rng) (draw : Int → Int → Int) (p : Nat) :
    (∀ n err, interventionTargets rng draw p (.int n) = .error err ↔ err = .valueError ∧ (n < 0 ∨ (p : Int) < n)) ∧
    (∀ l : List Int, l.length ≠ 2 → interventionTargets rng draw p (.tuple l) = .error .valueError) ∧
    (∀ lo hi, (p : Int) < lo ∨ (p : Int) < hi → interventionTargets rng draw p (.tuple [lo, hi]) = .error .valueError) ∧
    (∀ lo hi, hi ≤ lo → interventionTargets rng draw p (.tuple [lo, hi]) = .error .valueError) := by
  refine ⟨?_, ?_, ?_, ?_⟩
  · intro n err
    unfold interventionTargets choiceTargets
    by_cases h : (p : Int) < n
    · simp [h, eq_comm]
    · by_cases h0 : n < 0
      · simp [h, h0, eq_comm]
      · simp [h, h0]
  · intro l hl
    match l, hl with
    | [], _ => rfl
    | [_], _ => rfl
    | [_, _], hl => exact absurd rfl hl
    | _ :: _ :: _ :: _, _ => rfl
  · intro lo hi h
    unfold interventionTargets
    simp only
    rw [if_pos (by rw [lt_max_iff]; exact h)]
  · intro lo hi h
    unfold interventionTargets
    simp only
    split_ifs <;> rfl

example : interventionTargets Rng.back (fun a _ => a) 10 (.tuple [1, 10]) = .ok {9} := by decide

/-! ## C65 -/

theorem acyclic_of_rank {A : Adj p} (r : Fin p → Nat) (h : ∀ i j, Edge A i j → r i < r j) : Acyclic A := by
  intro i hi
  have : ∀ a b, Relation.TransGen (Edge A) a b → r a < r b := by
    intro a b hab
    induction hab with
    | single h1 => exact h _ _ h1
    | tail _ h1 ih => exact ih.trans (h _ _ h1)
  exact lt_irrefl _ (this i i hi)

/-- The graph of a weight matrix. -/
noncomputable def Spec.supportGraph (W : Matrix (Fin p) (Fin p) ℝ) : Adj p := open Classical in fun i j => if W i j ≠ 0 then 1 else 0

theorem dagAvgDeg_edge {k : ℝ} {g : GraphDraws p} {W : Matrix (Fin p) (Fin p) ℝ} {order : List (Fin p)}
    (h : dagAvgDeg k g = .ok (W, order)) {i j : Fin p} (hij : W i j ≠ 0) : g.perm i < g.perm j := by
  unfold dagAvgDeg at h
  split_ifs at h
  simp only [Except.ok.injEq, Prod.mk.injEq] at h
  obtain ⟨rfl, -⟩ := h
  simp only [Matrix.of_apply, upperGraph] at hij
  by_contra hc
  rw [if_neg hc, zero_mul] at hij
  exact hij rfl

theorem topo_of_sorted {A : Adj p} {order : List (Fin p)} (r : Fin p → Nat) (hnd : order.Nodup) (hm : ∀ i, i ∈ order)
    (hs : order.Pairwise (fun a b => r a ≤ r b)) (h : ∀ i j, Edge A i j → r i < r j) : IsTopoOrder A order := by
  refine ⟨hnd, hm, fun i j hij => ?_⟩
  obtain ⟨l1, l2, rfl⟩ := List.append_of_mem (hm i)
  have hlt := h i j hij
  have hj := hm j
  rw [List.mem_append, List.mem_cons] at hj
  rcases hj with hj | rfl | hj
  · rw [List.pairwise_append] at hs
    have := hs.2.2 j hj i (by simp)
    omega
  · omega
  · obtain ⟨l3, l4, rfl⟩ := List.append_of_mem hj
    exact ⟨l1, l3, l4, by simp⟩

/-- C65: `_dag_avg_deg` returns a DAG for every random outcome, the returned ordering is a topological order of it, and the only
exception is the `ZeroDivisionError` for a single node. -/
theorem C65_dag (k : ℝ) (g : GraphDraws p) (hp : p ≠ 1) : ∃ W order, dagAvgDeg k g = .ok (W, order) ∧ Acyclic (supportGraph W) ∧
    IsTopoOrder (supportGraph W) order := by
  obtain ⟨W, order, h⟩ : ∃ W order, dagAvgDeg k g = .ok (W, order) := by
    unfold dagAvgDeg
    rw [if_neg hp]
    exact ⟨_, _, rfl⟩
  have hedge : ∀ i j, Edge (supportGraph W) i j → (g.perm i).val < (g.perm j).val := by
    intro i j hij
    refine dagAvgDeg_edge h (fun hc => hij ?_)
    simp [supportGraph, hc]
  refine ⟨W, order, h, acyclic_of_rank (fun i => (g.perm i).val) hedge, ?_⟩
  have ho : order = (List.finRange p).insertionSort (fun a b => g.perm a ≤ g.perm b) := by
    unfold dagAvgDeg at h
    rw [if_neg hp] at h
    simp only [Except.ok.injEq, Prod.mk.injEq] at h
    exact h.2.symm
  have hperm := List.perm_insertionSort (fun a b : Fin p => g.perm a ≤ g.perm b) (List.finRange p)
  rw [← ho] at hperm
  have : Std.Total (fun a b : Fin p => g.perm a ≤ g.perm b) := ⟨fun a b => le_total _ _⟩
  have : IsTrans (Fin p) (fun a b : Fin p => g.perm a ≤ g.perm b) := ⟨fun a b c h1 h2 => le_trans h1 h2⟩
  have hs := List.pairwise_insertionSort (fun a b : Fin p => g.perm a ≤ g.perm b) (List.finRange p)
  rw [← ho] at hs
  exact topo_of_sorted (fun i => (g.perm i).val) (hperm.nodup_iff.2 (List.nodup_finRange p))
    (fun i => hperm.mem_iff.2 (List.mem_finRange i)) hs hedge

/-- C65: for a single node it raises `ZeroDivisionError`. -/
theorem C65_single_node (k : ℝ) (g : GraphDraws 1) : dagAvgDeg k g = .error .zeroDivisionError := rfl

/-- C65: the weights of the edges lie in the interval they are drawn from, and (with distinct nodes in one of the two orders) every pair
of nodes is joined iff its draw is at most `k / (p - 1)`. -/
theorem C65_edges (k : ℝ) (g : GraphDraws p) (W : Matrix (Fin p) (Fin p) ℝ) (order : List (Fin p)) (h : dagAvgDeg k g = .ok (W, order))
    (lo hi : ℝ) (hlo : 0 < lo) (hw : ∀ i j, lo ≤ g.weights i j ∧ g.weights i j ≤ hi) (i j : Fin p) :
    (W i j ≠ 0 ↔ g.perm i < g.perm j ∧ g.unif (g.perm i) (g.perm j) ≤ k / ((p : ℝ) - 1)) ∧
      (W i j ≠ 0 → lo ≤ W i j ∧ W i j ≤ hi) := by
  unfold dagAvgDeg at h
  split_ifs at h
  simp only [Except.ok.injEq, Prod.mk.injEq] at h
  obtain ⟨rfl, -⟩ := h
  have hpos : g.weights (g.perm i) (g.perm j) ≠ 0 := (hlo.trans_le (hw _ _).1).ne'
  simp only [Matrix.of_apply, upperGraph]
  by_cases h1 : g.perm i < g.perm j
  · by_cases h2 : g.unif (g.perm i) (g.perm j) ≤ k / ((p : ℝ) - 1)
    · simp [h1, h2, hpos, hw]
    · simp [h1, h2]
  · simp [h1]

theorem chainGraph_acyclic (p : Nat) : Acyclic (chainGraph p) :=
  acyclic_of_rank (fun i => i.val) (fun i j hij => by
    unfold Edge chainGraph at hij
    split_ifs at hij with h
    · omega
    · exact absurd rfl hij)

/-- C65: `chain_graph_model` raises iff the targets are not variable indices; otherwise it returns a model for the chain. -/
theorem C65_chain_model (it : SetIter p) (I : Finset Int) (sparse obs : Bool) (draws : Int → Draws p l e) (rs : Int) :
    (∀ err, chainGraphModel it I sparse obs draws rs = .error err ↔ err = .valueError ∧ ¬ ValidTargets p I) ∧
    (ValidTargets p I → ∃ m, chainGraphModel it I sparse obs draws rs = .ok m ∧ ∀ i j, m.A i j = if i.val + 1 = j.val then 1 else 0) := by
  have hn : Nonneg (chainGraph p) := by
    intro i j
    unfold chainGraph
    split_ifs <;> simp
  constructor
  · intro err
    unfold chainGraphModel
    rw [C62_raises it _ hn]
    simp [chainGraph_acyclic p]
  · intro hI
    exact ⟨_, sampleParameters_ok it hn sparse true (draws 42) (chainGraph_acyclic p) hI, fun i j => rfl⟩

/-- C65: `random_graph_model` raises `ZeroDivisionError` for a single node, whatever the other arguments are. -/
theorem C65_single_node_model (it : SetIter 1) (k : ℝ) (I : Finset Int) (sparse obs : Bool) (gdraws : Int → GraphDraws 1)
    (draws : Int → Draws 1 l e) (rs : Int) : randomGraphModel it k I sparse obs gdraws draws rs = .error .zeroDivisionError := by
  unfold randomGraphModel
  rw [C65_single_node]

/-- C65: `random_graph_model` (for all but a single node, for which it raises `ZeroDivisionError`) raises iff the targets are not
variable indices; otherwise it returns a model for a DAG whose edges are those of the random graph. -/
theorem C65_random_model (it : SetIter p) (hp : p ≠ 1) (k : ℝ) (I : Finset Int) (sparse obs : Bool) (gdraws : Int → GraphDraws p)
    (hw : ∀ rs i j, (gdraws rs).weights i j = 1) (draws : Int → Draws p l e) (rs : Int) :
    (∀ err, randomGraphModel it k I sparse obs gdraws draws rs = .error err ↔ err = .valueError ∧ ¬ ValidTargets p I) ∧
    (ValidTargets p I → ∃ m, randomGraphModel it k I sparse obs gdraws draws rs = .ok m ∧ Acyclic m.A ∧
      ∃ W order, dagAvgDeg k (gdraws rs) = .ok (W, order) ∧ ∀ i j, (m.A i j : ℝ) = W i j) := by
  obtain ⟨W, order, h, hac, -⟩ := C65_dag k (gdraws rs) hp
  have h01 : ∀ i j, W i j = 0 ∨ W i j = 1 := by
    intro i j
    by_cases h0 : W i j = 0
    · exact Or.inl h0
    · obtain ⟨h1, h2⟩ := (C65_edges k (gdraws rs) W order h 1 1 one_pos (fun i j => by rw [hw]; simp) i j).2 h0
      exact Or.inr (le_antisymm h2 h1)
  obtain ⟨A, hA⟩ : ∃ A : Adj p, A = fun i j => open Classical in if W i j = 1 then (1 : Int) else 0 := ⟨_, rfl⟩
  have hn : Nonneg A := by
    intro i j
    rw [hA]
    simp only
    split_ifs <;> simp
  have hac' : Acyclic A := by
    refine Spec.Acyclic.mono hac ?_
    intro i j hij
    have : W i j = 1 := by
      by_contra hc
      exact hij (by rw [hA]; simp [hc])
    simp [Edge, supportGraph, this]
  have hr : randomGraphModel it k I sparse obs gdraws draws rs = sampleParameters it A I sparse obs (draws 42) := by
    unfold randomGraphModel
    rw [h, hA]
  constructor
  · intro err
    rw [hr, C62_raises it _ hn]
    simp [hac']
  · intro hI
    rw [hr]
    refine ⟨_, sampleParameters_ok it hn sparse obs (draws 42) hac' hI, hac', W, order, h, fun i j => ?_⟩
    rw [hA]
    rcases h01 i j with h0 | h0 <;> simp [h0]

/-! ## C73 -/

/-- C73: `chain_graph_model` ignores `random_state` and `obs`. -/
theorem C73_chain_ignores (it : SetIter p) (I : Finset Int) (sparse obs obs' : Bool) (draws : Int → Draws p l e) (rs rs' : Int) :
    chainGraphModel it I sparse obs draws rs = chainGraphModel it I sparse obs' draws rs' := rfl

/-- C73: in `random_graph_model` the random state only has an effect on the graph: two random states that give the same graph give the
same model. -/
theorem C73_random_ignores (it : SetIter p) (k : ℝ) (I : Finset Int) (sparse obs : Bool) (gdraws : Int → GraphDraws p)
    (draws : Int → Draws p l e) (rs rs' : Int) (W : Matrix (Fin p) (Fin p) ℝ) (o o' : List (Fin p))
    (h : dagAvgDeg k (gdraws rs) = .ok (W, o)) (h' : dagAvgDeg k (gdraws rs') = .ok (W, o')) :
    randomGraphModel it k I sparse obs gdraws draws rs = randomGraphModel it k I sparse obs gdraws draws rs' := by
  unfold randomGraphModel
  rw [h, h']

/-- C73: the draws do matter to `sample_parameters`, so that passing on the random state would make a difference. -/
theorem C73_would_matter : ∃ (dr dr' : Draws 2 1 2) (m m' : LModel 2 1 2),
    sampleParameters (SetIter.incr 2) (chainGraph 2) {0} false true dr = .ok m ∧
    sampleParameters (SetIter.incr 2) (chainGraph 2) {0} false true dr' = .ok m' ∧ m.B ≠ m'.B := by
  have hn : Nonneg (chainGraph 2) := by
    intro i j
    unfold chainGraph
    split_ifs <;> simp
  have hI : ValidTargets 2 {0} := by intro i hi; simp at hi; omega
  refine ⟨⟨fun _ _ => 1, fun _ => [], fun _ _ => 1, fun _ => 1, fun _ _ => 1, fun _ _ => 1, fun _ => 1, fun _ _ _ => 1, fun _ _ => 1⟩,
    ⟨fun _ _ => 2, fun _ => [], fun _ _ => 1, fun _ => 1, fun _ _ => 1, fun _ _ => 1, fun _ => 1, fun _ _ _ => 1, fun _ _ => 1⟩, _, _,
    sampleParameters_ok _ hn _ _ _ (chainGraph_acyclic 2) hI, sampleParameters_ok _ hn _ _ _ (chainGraph_acyclic 2) hI, ?_⟩
  intro hc
  have := congrFun (congrFun hc 0) 1
  simp [chainGraph] at this

/-- C73: `obs` matters to `sample_parameters` too, with the same draws. -/
theorem C73_obs_would_matter : ∃ (dr : Draws 2 1 2) (m m' : LModel 2 1 2),
    sampleParameters (SetIter.incr 2) (chainGraph 2) {0} false true dr = .ok m ∧
    sampleParameters (SetIter.incr 2) (chainGraph 2) {0} false false dr = .ok m' ∧ m.psis ≠ m'.psis := by
  have hn : Nonneg (chainGraph 2) := by
    intro i j
    unfold chainGraph
    split_ifs <;> simp
  have hI : ValidTargets 2 {0} := by intro i hi; simp at hi; omega
  refine ⟨⟨fun _ _ => 1, fun _ => [], fun _ _ => 1, fun _ => 1, fun _ _ => 1, fun _ _ => 1, fun _ => 1, fun _ _ _ => 1, fun _ _ => 5⟩, _, _,
    sampleParameters_ok _ hn _ _ _ (chainGraph_acyclic 2) hI, sampleParameters_ok _ hn _ _ _ (chainGraph_acyclic 2) hI, ?_⟩
  intro hc
  have := congrFun (congrFun hc 0) 0
  simp [genPsis, psiLoop] at this

/-- C73: what the documentation promises, a chain model drawn with the given random state, is not what is returned. -/
theorem C73_chain_violated : ∃ (draws : Int → Draws 2 1 2) (rs : Int),
    chainGraphModel (SetIter.incr 2) {0} false true draws rs ≠ sampleParameters (SetIter.incr 2) (chainGraph 2) {0} false true (draws rs) := by
  obtain ⟨dr, dr', m, m', h, h', hne⟩ := C73_would_matter
  refine ⟨fun s => if s = 42 then dr else dr', 0, ?_⟩
  have e1 : chainGraphModel (SetIter.incr 2) {0} false true (fun s => if s = 42 then dr else dr') 0 = .ok m := by
    rw [← h]
    simp [chainGraphModel]
  rw [e1]
  simp only [if_neg (by decide : ¬ (0 : Int) = 42), h']
  intro hc
  injection hc with hc
  exact hne (by rw [hc])

/-- Examples for C65: the random graph on three nodes with all draws below the bound and the permutation that exchanges the first two
nodes is complete, and the order is `1, 0, 2`. -/
example : ∃ W, dagAvgDeg 2 (⟨fun _ _ => 1 / 2, fun _ _ => 1, Equiv.swap 0 1⟩ : GraphDraws 3) = .ok (W, [1, 0, 2]) ∧ W 1 0 = 1 ∧ W 0 1 = 0 := by
  refine ⟨_, rfl, ?_, ?_⟩
  · simp [upperGraph]
    norm_num
  · simp [upperGraph]

end Verif
