import Verif.Model.ArrayUtils
import Verif.Proof.Main

/-!
# C83: array functions of `utils.py`
-/

namespace Verif

open Spec

/-- The element of an array at a position (one index per dimension), if there is one. -/
def Spec.elementAt {α : Type} : (s : List Nat) → NdVal α s → List Nat → Option α
  | [], x, [] => some x
  | n :: s, f, i :: is => if h : i < n then elementAt s (f ⟨i, h⟩) is else none
  | [], _, _ :: _ => none
  | _ :: _, _, [] => none

section Flat

variable {α : Type}

theorem flatten_get {m : Nat} (hm : 0 < m) : ∀ (L : List (List α)) (_ : ∀ x ∈ L, x.length = m) (k : Nat),
    L.flatten[k]? = (L[k / m]?).bind (fun x => x[k % m]?)
  | [], _, k => by simp
  | x :: L, h, k => by
    have hx : x.length = m := h x (by simp)
    rw [List.flatten_cons]
    by_cases hk : k < m
    · rw [List.getElem?_append_left (by omega), Nat.div_eq_of_lt hk, Nat.mod_eq_of_lt hk]
      simp
    · rw [List.getElem?_append_right (by omega), hx, flatten_get hm L (fun y hy => h y (by simp [hy]))]
      have h1 : k / m = (k - m) / m + 1 := by
        rw [Nat.div_eq_sub_div hm (by omega)]
      have h2 : k % m = (k - m) % m := Nat.mod_eq_sub_mod (by omega)
      rw [h1, h2]
      simp

theorem flat_length : ∀ (s : List Nat) (a : NdVal α s), (NdVal.flat s a).length = s.prod
  | [], _ => rfl
  | n :: s, f => by
    simp only [NdVal.flat, List.length_flatMap, List.prod_cons]
    rw [List.map_congr_left (g := fun _ => s.prod) (fun i _ => flat_length s (f i))]
    simp

theorem flat_get : ∀ (s : List Nat) (a : NdVal α s) (k : Nat), k < s.prod → (NdVal.flat s a)[k]? = elementAt s a (unravelIndex s k)
  | [], _, k, hk => by
    have : k = 0 := by simpa using hk
    subst this
    rfl
  | n :: s, f, k, hk => by
    rw [List.prod_cons] at hk
    have hm : 0 < s.prod := by
      rcases Nat.eq_zero_or_pos s.prod with h | h
      · rw [h] at hk; simp at hk
      · exact h
    have hn : k / s.prod < n := by rw [Nat.div_lt_iff_lt_mul hm]; exact hk
    simp only [NdVal.flat, unravelIndex, elementAt, hn, dif_pos]
    rw [List.flatMap_def, flatten_get hm _ (by
      intro x hx
      obtain ⟨i, -, rfl⟩ := List.mem_map.1 hx
      exact flat_length s (f i))]
    rw [List.getElem?_map, List.getElem?_eq_getElem (by simpa using hn), List.getElem_finRange]
    simpa using flat_get s (f ⟨_, hn⟩) (k % s.prod) (Nat.mod_lt _ hm)

/-- Every position of an element is found by `unravel_index`. -/
theorem unravel_surj : ∀ (s : List Nat) (a : NdVal α s) (is : List Nat) (x : α), elementAt s a is = some x →
    ∃ k < s.prod, unravelIndex s k = is
  | [], _, [], _, _ => ⟨0, by simp, rfl⟩
  | n :: s, f, i :: is, x, h => by
    simp only [elementAt] at h
    split_ifs at h with hi
    obtain ⟨k, hk, rfl⟩ := unravel_surj s _ is x h
    have hm : 0 < s.prod := by omega
    refine ⟨i * s.prod + k, ?_, ?_⟩
    · rw [List.prod_cons]
      calc i * s.prod + k < i * s.prod + s.prod := by omega
        _ = (i + 1) * s.prod := by ring
        _ ≤ n * s.prod := Nat.mul_le_mul_right _ hi
    · simp only [unravelIndex, List.cons.injEq]
      refine ⟨?_, ?_⟩
      · rw [Nat.mul_comm, Nat.mul_add_div hm, Nat.div_eq_of_lt hk, Nat.add_zero]
      · rw [Nat.mul_comm, Nat.mul_add_mod, Nat.mod_eq_of_lt hk]
  | [], _, _ :: _, _, h => by simp [elementAt] at h
  | _ :: _, _, [], _, h => by simp [elementAt] at h

/-- `unravel_index` numbers the positions in lexicographic order. -/
theorem unravel_lt : ∀ (s : List Nat) (k k' : Nat), k < k' → k' < s.prod → List.Lex (· < ·) (unravelIndex s k) (unravelIndex s k')
  | [], k, k', h, h' => by simp at h'; omega
  | n :: s, k, k', h, h' => by
    rw [List.prod_cons] at h'
    have hm : 0 < s.prod := by
      rcases Nat.eq_zero_or_pos s.prod with hc | hc
      · rw [hc] at h'; simp at h'
      · exact hc
    simp only [unravelIndex]
    rcases (Nat.div_le_div_right (c := s.prod) h.le).lt_or_eq with hlt | heq
    · exact List.Lex.rel hlt
    · rw [heq]
      refine List.Lex.cons (unravel_lt s _ _ ?_ (Nat.mod_lt _ hm))
      have h1 := Nat.div_add_mod k s.prod
      have h2 := Nat.div_add_mod k' s.prod
      rw [heq] at h1
      omega

/-- The first element in lexicographic order with the smallest key. -/
theorem arg_spec {κ : Type} [LinearOrder κ] {better : α → α → Prop} {key : α → κ} (hb : ∀ x y, better x y ↔ key x < key y) {s : List Nat}
    (a : NdVal α s) (hs : s.prod ≠ 0) : ∃ k x, npArgmin better (NdVal.flat s a) = .ok k ∧ elementAt s a (unravelIndex s k) = some x ∧
      (∀ is y, elementAt s a is = some y → key x ≤ key y) ∧
      ∀ is y, List.Lex (· < ·) is (unravelIndex s k) → elementAt s a is = some y → key x < key y := by
  obtain ⟨k, x, h1, h2, h3, h4⟩ := npArgmin_spec (l := NdVal.flat s a) hb (by
    intro hc
    have := flat_length s a
    rw [hc] at this
    exact hs this.symm)
  have hk : k < s.prod := by
    rw [← flat_length s a]
    exact (List.getElem?_eq_some_iff.1 h2).1
  rw [flat_get s a k hk] at h2
  refine ⟨k, x, h1, h2, fun is y hy => ?_, fun is y hlex hy => ?_⟩
  · obtain ⟨k', hk', rfl⟩ := unravel_surj s a is y hy
    rw [← flat_get s a k' hk'] at hy
    exact h3 y (List.mem_of_getElem? hy)
  · obtain ⟨k', hk', rfl⟩ := unravel_surj s a is y hy
    rw [← flat_get s a k' hk'] at hy
    refine h4 k' ?_ y hy
    by_contra hc
    rcases (not_lt.1 hc).lt_or_eq with hlt | heq
    · exact (asymm (r := List.Lex (· < ·)) hlex (unravel_lt s _ _ hlt hk')).elim
    · rw [heq] at hlex
      exact (irrefl (r := List.Lex (· < ·)) _ hlex).elim

end Flat

/-- C83: for a non-empty array without `nan`, `argmin` returns a position of the array whose element is the smallest, the first such in
lexicographic order, for any number of dimensions. -/
theorem C83_argmin {s : List Nat} (a : NdVal Flt s) (hs : s.prod ≠ 0) (hn : ∀ is, elementAt s a is ≠ some none) :
    ∃ is x, argmin a = .ok is ∧ elementAt s a is = some (some x) ∧ (∀ js y, elementAt s a js = some (some y) → x ≤ y) ∧
      ∀ js y, List.Lex (· < ·) js is → elementAt s a js = some (some y) → x < y := by
  obtain ⟨k, x, h1, h2, h3, h4⟩ := arg_spec better_iff a hs
  cases x with
  | none => exact absurd h2 (hn _)
  | some x =>
    exact ⟨_, x, by simp only [argmin, h1], h2, fun js y hy => fltKey_le_some.1 (h3 js _ hy), fun js y hj hy => fltKey_lt_some.1 (h4 js _ hj hy)⟩

/-- The order in which `np.argmax` prefers floats. -/
def maxKey (x : Flt) : WithBot ℝᵒᵈ := x.map OrderDual.toDual

theorem larger_iff (x y : Flt) : Flt.larger x y ↔ maxKey x < maxKey y := by
  cases y with
  | none => simp only [Flt.larger, false_iff]; exact not_lt_bot (α := WithBot ℝᵒᵈ)
  | some b =>
    cases x with
    | none => simp only [Flt.larger, true_iff]; exact WithBot.bot_lt_coe _
    | some a => simp only [Flt.larger]; exact (WithBot.coe_lt_coe (a := OrderDual.toDual a) (b := OrderDual.toDual b)).symm

/-- C83: likewise `argmax` returns the first position of the largest element (its documentation says "minimum"). -/
theorem C83_argmax {s : List Nat} (a : NdVal Flt s) (hs : s.prod ≠ 0) (hn : ∀ is, elementAt s a is ≠ some none) :
    ∃ is x, argmax a = .ok is ∧ elementAt s a is = some (some x) ∧ (∀ js y, elementAt s a js = some (some y) → y ≤ x) ∧
      ∀ js y, List.Lex (· < ·) js is → elementAt s a js = some (some y) → y < x := by
  obtain ⟨k, x, h1, h2, h3, h4⟩ := arg_spec larger_iff a hs
  cases x with
  | none => exact absurd h2 (hn _)
  | some x =>
    exact ⟨_, x, by simp only [argmax, h1], h2,
      fun js y hy => (WithBot.coe_le_coe (a := OrderDual.toDual x) (b := OrderDual.toDual y)).1 (h3 js _ hy),
      fun js y hj hy => (WithBot.coe_lt_coe (a := OrderDual.toDual x) (b := OrderDual.toDual y)).1 (h4 js _ hj hy)⟩

/-- C83: an array without elements raises `ValueError`; a `nan` is preferred to all numbers by both functions, the first one is found. -/
theorem C83_arg_boundary {s : List Nat} (a : NdVal Flt s) :
    (s.prod = 0 → argmin a = .error .valueError ∧ argmax a = .error .valueError) ∧
      ((∃ is, elementAt s a is = some none) → ∃ is, argmin a = .ok is ∧ argmax a = .ok is ∧ elementAt s a is = some none ∧
        ∀ js, List.Lex (· < ·) js is → elementAt s a js ≠ some none) := by
  constructor
  · intro h
    have : NdVal.flat s a = [] := List.eq_nil_of_length_eq_zero (by rw [flat_length, h])
    simp [argmin, argmax, this, npArgmin]
  · rintro ⟨is, his⟩
    have hs : s.prod ≠ 0 := by
      obtain ⟨k, hk, -⟩ := unravel_surj s a is none his
      omega
    obtain ⟨k, x, h1, h2, h3, h4⟩ := arg_spec better_iff a hs
    obtain ⟨k', x', h1', h2', h3', h4'⟩ := arg_spec larger_iff a hs
    have hx : x = none := fltKey_le_none.1 (h3 is none his)
    have hx' : x' = none := by
      have := h3' is none his
      cases x' with
      | none => rfl
      | some b => exact absurd (le_bot_iff (α := WithBot ℝᵒᵈ).1 this) (WithBot.coe_ne_bot (a := OrderDual.toDual b))
    subst hx hx'
    have hu : unravelIndex s k = unravelIndex s k' := by
      rcases trichotomous_of (List.Lex (· < ·)) (unravelIndex s k) (unravelIndex s k') with h | h | h
      · exact absurd (h4' _ none h h2) (lt_irrefl _)
      · exact h
      · exact absurd (h4 _ none h h2') (lt_irrefl _)
    refine ⟨_, by simp only [argmin, h1], by simp only [argmax, h1', hu], h2, fun js hj hc => lt_irrefl _ (h4 js none hj hc)⟩

/-- The second example of the documentation of `argmin`. -/
example : argmin (s := [2, 2]) ![![(some 0 : Flt), some 1], ![some (-1), some 1]] = .ok [1, 0] := by
  have h : NdVal.flat [2, 2] ![![(some 0 : Flt), some 1], ![some (-1), some 1]] = [some 0, some 1, some (-1), some 1] := rfl
  simp only [argmin, h]
  norm_num [npArgmin, argminLoop, Flt.better, unravelIndex]

/-- The second example of the documentation of `argmax`. -/
example : argmax (s := [2, 2]) ![![(some 0 : Flt), some 1], ![some 2, some 1]] = .ok [1, 0] := by
  have h : NdVal.flat [2, 2] ![![(some 0 : Flt), some 1], ![some 2, some 1]] = [some 0, some 1, some 2, some 1] := rfl
  simp only [argmax, h]
  norm_num [npArgmin, argminLoop, Flt.larger, unravelIndex]

/-! ### `normalized_var` -/

theorem sum_sq_dev {n : Nat} (hn : 0 < n) (x : Fin n → ℝ) :
    (∑ i, (x i - (∑ i, x i) / (n : ℝ)) ^ 2) / (n : ℝ) = (∑ i, x i ^ 2) / (n : ℝ) - ((∑ i, x i) / (n : ℝ)) ^ 2 := by
  have h0 : (n : ℝ) ≠ 0 := by positivity
  have : ∀ i, (x i - (∑ i, x i) / (n : ℝ)) ^ 2 = x i ^ 2 - 2 * ((∑ i, x i) / (n : ℝ)) * x i + ((∑ i, x i) / (n : ℝ)) ^ 2 := fun i => by ring
  simp only [this, Finset.sum_add_distrib, Finset.sum_sub_distrib, ← Finset.mul_sum, Finset.sum_const, Finset.card_univ, Fintype.card_fin,
    nsmul_eq_mul]
  field_simp
  ring

/-- C83: `normalized_var` is `nan` exactly for vectors without nonzero elements. -/
theorem C83_normalized_var_nan {n : Nat} (x : Fin n → ℝ) : normalizedVar x = none ↔ ∀ i, x i = 0 := by
  unfold normalizedVar
  simp only [ite_eq_left_iff, reduceCtorEq, imp_false, not_not, div_eq_zero_iff]
  rw [Finset.sum_eq_zero_iff_of_nonneg (fun i _ => sq_nonneg (x i))]
  constructor
  · rintro (h | h) i
    · simpa using h i (Finset.mem_univ i)
    · exact absurd (Nat.cast_eq_zero.1 h) (by have := i.isLt; omega)
  · intro h
    left
    intro i _
    simp [h i]

/-- C83: otherwise it is a number between zero (attained exactly by the constant vectors) and one (attained exactly by the vectors with mean
zero), and it does not change when the vector is multiplied by a nonzero number. -/
theorem C83_normalized_var {n : Nat} (x : Fin n → ℝ) (hx : ∃ i, x i ≠ 0) : ∃ r : ℝ, normalizedVar x = some r ∧ 0 ≤ r ∧ r ≤ 1 ∧
    (r = 0 ↔ ∃ c, ∀ i, x i = c) ∧ (r = 1 ↔ ∑ i, x i = 0) ∧ ∀ c : ℝ, c ≠ 0 → normalizedVar (fun i => c * x i) = some r := by
  have hnn : normalizedVar x ≠ none := by
    rw [Ne, C83_normalized_var_nan]
    push Not
    exact hx
  obtain ⟨i0, hi0⟩ := hx
  have hn : 0 < n := by have := i0.isLt; omega
  have hn' : (0 : ℝ) < n := by exact_mod_cast hn
  have hsq : 0 < (∑ i, x i ^ 2) / (n : ℝ) :=
    div_pos (Finset.sum_pos' (fun i _ => sq_nonneg _) ⟨i0, Finset.mem_univ _, by positivity⟩) hn'
  have hval : normalizedVar x = some (((∑ i, (x i - (∑ i, x i) / (n : ℝ)) ^ 2) / (n : ℝ)) / ((∑ i, x i ^ 2) / (n : ℝ))) := by
    unfold normalizedVar
    rw [if_neg hsq.ne']
  refine ⟨_, hval, by positivity, ?_, ?_, ?_, ?_⟩
  · rw [div_le_one hsq, sum_sq_dev hn]
    nlinarith [sq_nonneg ((∑ i, x i) / (n : ℝ))]
  · rw [div_eq_zero_iff, or_iff_left hsq.ne', div_eq_zero_iff, or_iff_left hn'.ne',
      Finset.sum_eq_zero_iff_of_nonneg (fun i _ => sq_nonneg _)]
    constructor
    · intro h
      refine ⟨(∑ i, x i) / (n : ℝ), fun i => ?_⟩
      have := h i (Finset.mem_univ i)
      rw [sq_eq_zero_iff, sub_eq_zero] at this
      exact this
    · rintro ⟨c, hc⟩ i _
      simp only [hc, Finset.sum_const, Finset.card_univ, Fintype.card_fin, nsmul_eq_mul]
      field_simp
      simp
  · rw [div_eq_one_iff_eq hsq.ne', sum_sq_dev hn, sub_eq_self, sq_eq_zero_iff, div_eq_zero_iff, or_iff_left hn'.ne']
  · intro c hc
    have hc2 : c ^ 2 ≠ 0 := pow_ne_zero 2 hc
    have h1 : (∑ i, (c * x i) ^ 2) = c ^ 2 * ∑ i, x i ^ 2 := by
      rw [Finset.mul_sum]
      exact Finset.sum_congr rfl (fun i _ => by ring)
    have h2 : (∑ i, (c * x i - (∑ i, c * x i) / (n : ℝ)) ^ 2) = c ^ 2 * ∑ i, (x i - (∑ i, x i) / (n : ℝ)) ^ 2 := by
      rw [Finset.mul_sum, ← Finset.mul_sum]
      exact Finset.sum_congr rfl (fun i _ => by ring)
    unfold normalizedVar
    simp only [h1, h2]
    rw [if_neg (by rw [mul_div_assoc]; exact mul_ne_zero hc2 hsq.ne')]
    rw [mul_div_assoc (c ^ 2) _ (n : ℝ), mul_div_assoc (c ^ 2) _ (n : ℝ), mul_div_mul_left _ _ hc2]

example : ∃ r : ℝ, normalizedVar ![1, 3] = some r ∧ r = 1 / 5 := by
  obtain ⟨r, h1, -⟩ := C83_normalized_var ![1, 3] ⟨0, by norm_num⟩
  refine ⟨r, h1, ?_⟩
  unfold normalizedVar at h1
  norm_num [Fin.sum_univ_two] at h1
  rw [← h1]

/-! ### `delete` -/

/-- The elements whose entry in the mask is false. -/
def Spec.Kept {α : Type} : List α → List Bool → List α
  | x :: xs, b :: bs => if b then Kept xs bs else x :: Kept xs bs
  | _, _ => []

theorem zip_filterMap_eq {α : Type} : ∀ (a : List α) (mask : List Bool),
    (a.zip mask).filterMap (fun x => if x.2 then none else some x.1) = Kept a mask
  | [], _ => by simp [Kept]
  | x :: a, [] => by simp [Kept]
  | x :: a, b :: mask => by
    cases b <;> simp [Kept, zip_filterMap_eq a mask]

theorem mem_whereMask {mask : List Bool} {k : Nat} : k ∈ whereMask mask ↔ mask[k]? = some true := by
  unfold whereMask
  rw [List.mem_map]
  constructor
  · rintro ⟨⟨b, k'⟩, h, rfl⟩
    rw [List.mem_filter] at h
    obtain ⟨h1, h2⟩ := h
    have h2' : b = true := h2
    subst h2'
    exact List.mem_zipIdx_iff_getElem?.1 h1
  · intro h
    exact ⟨(true, k), List.mem_filter.2 ⟨List.mem_zipIdx_iff_getElem?.2 h, rfl⟩, rfl⟩

theorem filter_idx_eq {α : Type} (f : Nat → Bool) : ∀ (a : List α) (mask : List Bool) (n : Nat), mask.length = a.length →
    (∀ k, mask[k]? = some true ↔ f (n + k) = true ∧ k < a.length) →
    ((a.zipIdx n).filter (fun x => ! f x.2)).map Prod.fst = Kept a mask
  | [], _, _, _, _ => by simp [Kept]
  | x :: a, [], _, h, _ => by simp at h
  | x :: a, b :: mask, n, h, hf => by
    have h0 := hf 0
    have ih := filter_idx_eq f a mask (n + 1) (by simpa using h) (fun k => by
      have := hf (k + 1)
      simp only [List.getElem?_cons_succ, List.length_cons, Nat.add_lt_add_iff_right] at this
      rw [this, show n + (k + 1) = n + 1 + k by omega])
    simp only [List.getElem?_cons_zero, Option.some.injEq, Nat.add_zero, List.length_cons, Nat.zero_lt_succ, and_true] at h0
    rw [List.zipIdx_cons]
    cases b with
    | true =>
      have : f n = true := h0.1 rfl
      simp [Kept, this, ih]
    | false =>
      have : f n = false := by
        cases hc : f n with
        | true => exact absurd (h0.2 hc) (by simp)
        | false => rfl
      simp [Kept, this, ih]

/-- C83: `delete` returns the elements whose entry in the mask is false, in their order, for each mask of the length of the array, if the
installed numpy treats boolean arrays as masks or its version is found to be older than 1.19.0. -/
theorem C83_delete {α : Type} (version : String) (masks : Bool) (hv : version < "1.19.0" ∨ masks = true) (a : List α) (mask : List Bool)
    (h : mask.length = a.length) : delete version masks a mask = .ok (Kept a mask) := by
  unfold delete
  split_ifs with h1
  · unfold npDeleteIdx
    rw [if_neg]
    · congr 1
      refine filter_idx_eq (fun k => (whereMask mask).contains k) a mask 0 h (fun k => ?_)
      simp only [Nat.zero_add, List.contains_iff_mem, mem_whereMask]
      refine ⟨fun hk => ⟨hk, ?_⟩, fun hk => hk.1⟩
      rw [← h]
      exact (List.getElem?_eq_some_iff.1 hk).1
    · simp only [List.any_eq_true, decide_eq_true_eq, not_exists, not_and, Nat.not_le]
      intro k hk
      rw [mem_whereMask] at hk
      rw [← h]
      exact (List.getElem?_eq_some_iff.1 hk).1
  · rw [hv.resolve_left h1]
    unfold npDeleteMask
    rw [if_pos rfl, if_neg (by simp [h]), zip_filterMap_eq]

/-- C83: the versions 1.17 and 1.18, the only supported ones in which boolean arrays are not masks, are found to be older than 1.19.0. -/
theorem C83_delete_versions (minor : Char) (hm : minor = '7' ∨ minor = '8') (rest : List Char) :
    String.ofList ('1' :: '.' :: '1' :: minor :: rest) < "1.19.0" := by
  rw [String.lt_iff]
  rcases hm with rfl | rfl <;> simp <;> exact List.Lex.rel (by decide)

/-- C83, boundary: versions are compared as strings, so that version 1.9 is not found to be older than 1.19 (it is not supported). -/
theorem C83_delete_boundary : delete "1.9.3" false [10, 20, 30] [false, false, true] = .ok [30] ∧
    Kept [10, 20, 30] [false, false, true] = [10, 20] := by
  constructor
  · decide
  · rfl

example : delete "1.26.4" true [10, 20, 30] [false, true, false] = .ok [10, 30] := C83_delete _ _ (Or.inr rfl) _ _ rfl

end Verif
