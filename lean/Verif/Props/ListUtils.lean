import Verif.Model.ListUtils
import Verif.Proof.Enum
import Mathlib.Data.Fin.VecNotation
import Mathlib.Tactic.NormNum
import Mathlib.Tactic.Linarith

/-!
# Properties C31-C33: list utilities and `split_data`
-/

namespace Verif
variable {p : Nat}

/-! ## C31: `sort` -/

/-- C31: if `order` enumerates the nodes, `sort(L, order)` is a permutation of `L` in which the elements appear by their
position in `order`. -/
theorem C31_sort_by_order (L order : List (Fin p)) (hnd : order.Nodup) (hall : ∀ i, i ∈ order) :
    ∃ r, sortBy L order = .ok r ∧ r.Perm L ∧ r.Pairwise (fun a b => order.idxOf a ≤ order.idxOf b) :=
  sortBy_spec ⟨hnd, hall⟩ L

/-- C31: without `order` the list is sorted increasingly. -/
theorem C31_sort_plain (L : List Nat) : (sortPlain L).Perm L ∧ (sortPlain L).Pairwise (· ≤ ·) := by
  refine ⟨pySorted_perm _ _, ?_⟩
  have h := pySorted_pairwise (le := fun a b : Nat => decide (a ≤ b)) (fun a b c h h' => by
        simp only [decide_eq_true_eq] at *; omega) (fun a b => by
        simp only [Bool.or_eq_true, decide_eq_true_eq]; omega) L
  exact h.imp (fun h => of_decide_eq_true h)

/-- C31: a number outside the range of `order` is an `IndexError`. -/
theorem C31_sort_raises (L order : List (Fin p)) (h : ∃ x ∈ L, order.length ≤ x.val) :
    sortBy L order = .error .indexError := by
  unfold sortBy
  rw [if_pos (Or.inr h)]

example : sortBy ([0, 1, 2, 2] : List (Fin 3)) [2, 0, 1] = .ok [2, 2, 0, 1] ∧ sortPlain [3, 1, 2] = [1, 2, 3] := by
  decide +kernel

/-! ## C31: `subsets` -/

theorem mem_combinations {α : Type} (l : List α) (r : Nat) (c : List α) :
    c ∈ combinations l r ↔ c.Sublist l ∧ c.length = r := by
  induction l generalizing r c with
  | nil =>
    cases r with
    | zero => simp [combinations]
    | succ r =>
      simp only [combinations, List.not_mem_nil, List.sublist_nil, false_iff]
      rintro ⟨rfl, h⟩
      simp at h
  | cons x xs ih =>
    cases r with
    | zero =>
      simp only [combinations, List.mem_singleton]
      constructor
      · rintro rfl; simp
      · rintro ⟨_, h⟩; exact List.length_eq_zero_iff.1 h
    | succ r =>
      simp only [combinations, List.mem_append, List.mem_map, ih]
      constructor
      · rintro (⟨d, ⟨h1, h2⟩, rfl⟩ | ⟨h1, h2⟩)
        · exact ⟨h1.cons_cons x, by simp [h2]⟩
        · exact ⟨h1.cons x, h2⟩
      · rintro ⟨h1, h2⟩
        rcases List.sublist_cons_iff.1 h1 with h | ⟨d, rfl, h⟩
        · exact Or.inr ⟨h, h2⟩
        · exact Or.inl ⟨d, ⟨h, by simpa using h2⟩, rfl⟩

theorem nodup_combinations {α : Type} (l : List α) (hl : l.Nodup) (r : Nat) : (combinations l r).Nodup := by
  induction l generalizing r with
  | nil => cases r <;> simp [combinations]
  | cons x xs ih =>
    have hx := List.nodup_cons.1 hl
    cases r with
    | zero => simp [combinations]
    | succ r =>
      simp only [combinations]
      rw [List.nodup_append]
      refine ⟨(ih hx.2 r).map (fun a b h => by simpa using h), ih hx.2 _, ?_⟩
      intro a ha b hb
      rw [List.mem_map] at ha
      obtain ⟨d, _, rfl⟩ := ha
      rintro rfl
      have := ((mem_combinations _ _ _).1 hb).1.subset (List.mem_cons_self (a := x) (l := d))
      exact hx.1 this

theorem sublist_eq_filter {α : Type} [DecidableEq α] (l : List α) (hl : l.Nodup) :
    ∀ c : List α, c.Sublist l → c = l.filter (fun x => decide (x ∈ c)) := by
  induction l with
  | nil => intro c hc; simpa using hc
  | cons a l ih =>
    intro c hc
    have ha := List.nodup_cons.1 hl
    rcases List.sublist_cons_iff.1 hc with h | ⟨d, rfl, h⟩
    · rw [List.filter_cons_of_neg (by simpa using fun hm => ha.1 (h.subset hm))]
      exact ih ha.2 c h
    · rw [List.filter_cons_of_pos (by simp)]
      congr 1
      conv_lhs => rw [ih ha.2 d h]
      refine List.filter_congr (fun x hx => ?_)
      have : x ≠ a := fun hc => ha.1 (hc ▸ hx)
      simp [this]

theorem sublist_eq_of_toFinset {α : Type} [DecidableEq α] {l c d : List α} (hl : l.Nodup) (hc : c.Sublist l)
    (hd : d.Sublist l) (h : c.toFinset = d.toFinset) : c = d := by
  rw [sublist_eq_filter l hl c hc, sublist_eq_filter l hl d hd]
  refine List.filter_congr (fun x _ => ?_)
  have : x ∈ c.toFinset ↔ x ∈ d.toFinset := by rw [h]
  simpa using this

/-- C31: `subsets(S)` lists every subset of `S` exactly once, by non-decreasing size. -/
theorem C31_subsets (it : SetIter p) (S : Finset (Fin p)) : (subsets it S).Nodup ∧ (∀ T, T ∈ subsets it S ↔ T ⊆ S) ∧
    (subsets it S).Pairwise (fun T U => T.card ≤ U.card) := by
  have hnd := it.nodup S
  have hlen : (it.toList S).length = S.card := by
    rw [← List.toFinset_card_of_nodup hnd]
    congr 1
    ext i
    rw [List.mem_toFinset, it.mem]
  have hcard : ∀ r c, c ∈ combinations (it.toList S) r → c.toFinset.card = r := by
    intro r c hc
    obtain ⟨h1, h2⟩ := (mem_combinations _ _ _).1 hc
    rw [List.toFinset_card_of_nodup (h1.nodup hnd), h2]
  refine ⟨?_, ?_, ?_⟩
  · unfold subsets
    rw [List.nodup_flatMap]
    refine ⟨fun r _ => List.Nodup.map_on ?_ (nodup_combinations _ hnd r), ?_⟩
    · intro c hc d hd h
      exact sublist_eq_of_toFinset hnd ((mem_combinations _ _ _).1 hc).1 ((mem_combinations _ _ _).1 hd).1 h
    · refine List.nodup_range.imp ?_
      intro r r' hne
      unfold Function.onFun List.Disjoint
      intro T hT hT'
      obtain ⟨c, hc, rfl⟩ := List.mem_map.1 hT
      obtain ⟨d, hd, he⟩ := List.mem_map.1 hT'
      exact hne (by rw [← hcard r c hc, ← he, hcard r' d hd])
  · intro T
    unfold subsets
    simp only [List.mem_flatMap, List.mem_range, List.mem_map, mem_combinations]
    constructor
    · rintro ⟨r, _, c, ⟨h1, _⟩, rfl⟩ x hx
      exact (it.mem S x).1 (h1.subset (List.mem_toFinset.1 hx))
    · intro hT
      refine ⟨T.card, by have := Finset.card_le_card hT; omega, (it.toList S).filter (fun x => decide (x ∈ T)),
        ⟨List.filter_sublist, ?_⟩, ?_⟩
      · rw [← List.toFinset_card_of_nodup (hnd.filter _)]
        congr 1
        ext x
        simp only [List.mem_toFinset, List.mem_filter, it.mem, decide_eq_true_eq]
        exact ⟨fun h => h.2, fun h => ⟨hT h, h⟩⟩
      · ext x
        simp only [List.mem_toFinset, List.mem_filter, it.mem, decide_eq_true_eq]
        exact ⟨fun h => h.2, fun h => ⟨hT h, h⟩⟩
  · unfold subsets
    rw [List.pairwise_flatMap]
    refine ⟨fun r _ => ?_, ?_⟩
    · rw [List.pairwise_map]
      refine List.Pairwise.imp_of_mem (R := fun _ _ => True) ?_ (List.pairwise_of_forall (fun _ _ => trivial))
      intro a b ha hb _
      rw [hcard r a ha, hcard r b hb]
    · refine List.pairwise_lt_range.imp ?_
      intro r r' hlt T hT U hU
      obtain ⟨c, hc, rfl⟩ := List.mem_map.1 hT
      obtain ⟨d, hd, rfl⟩ := List.mem_map.1 hU
      rw [hcard r c hc, hcard r' d hd]
      omega

example : subsets (SetIter.incr 3) {0, 2} = [∅, {0}, {2}, {0, 2}] := by decide +kernel

/-! ## C31: `cartesian` -/

/-- C31: for a non-empty list of non-empty arrays `cartesian` returns the rows `row` with `row[k]` in array `k`, each once if
the arrays have no repetitions (and the conversion to `dtype` keeps values apart), in lexicographic order of positions. -/
theorem C31_cartesian {α : Type} (L : List (List α)) (h0 : L ≠ []) (h : ∀ a ∈ L, a ≠ []) :
    ∃ rows, cartesian id L = .ok rows ∧ rows.length = (L.map List.length).prod ∧
      (∀ row, row ∈ rows ↔ List.Forall₂ (fun x a => x ∈ a) row L) ∧ ((∀ a ∈ L, a.Nodup) → rows.Nodup) := by
  refine ⟨prodList L, ?_, length_prodList L, mem_prodList L, nodup_prodList L⟩
  rw [cartesian_ok id L h0 h]
  simp

/-- C31: if every array is increasing the rows are in strictly increasing lexicographic order. -/
theorem C31_cartesian_lex (L : List (List Int)) (h0 : L ≠ []) (h : ∀ a ∈ L, a ≠ []) (hs : ∀ a ∈ L, a.Pairwise (· < ·))
    (rows : List (List Int)) (hr : cartesian id L = .ok rows) : rows.Pairwise (fun a b => List.Lex (· < ·) a b) := by
  rw [cartesian_ok id L h0 h] at hr
  simp only [List.map_id_fun, id, List.map_id'] at hr
  have hr : rows = prodList L := by injection hr with hr; exact hr.symm
  subst hr
  clear h0 h hr
  induction L with
  | nil => simp [prodList]
  | cons a L ih =>
    have ih := ih (fun b hb => hs b (List.mem_cons_of_mem _ hb))
    unfold prodList
    rw [List.pairwise_flatMap]
    refine ⟨fun x _ => ?_, ?_⟩
    · rw [List.pairwise_map]
      exact ih.imp (fun h => List.Lex.cons h)
    · refine (hs a (by simp)).imp ?_
      intro x y hxy u hu v hv
      obtain ⟨u', _, rfl⟩ := List.mem_map.1 hu
      obtain ⟨v', _, rfl⟩ := List.mem_map.1 hv
      exact List.Lex.rel hxy

/-- C31: an empty array among the arguments raises `ValueError`, an empty list of arrays `TypeError`. -/
theorem C31_cartesian_raises {α β : Type} (cast : α → β) (L : List (List α)) :
    (L = [] → cartesian cast L = .error .typeError) ∧ ([] ∈ L → cartesian cast L = .error .valueError) :=
  ⟨fun h => by subst h; rfl, cartesian_error cast L⟩

/-- `np.byte` conversion (the default `dtype`): values wrap around modulo 256. -/
def toByte (x : Int) : Int := (x + 128) % 256 - 128

/-- C31, boundary: with the default `dtype` the values are reduced to eight bits, so the rows are the product only when all
values are in `[-128, 127]`. -/
theorem C31_cartesian_bytes (L : List (List Int)) (h0 : L ≠ []) (h : ∀ a ∈ L, a ≠ []) :
    (cartesian toByte L = cartesian id (L.map (·.map toByte))) ∧
    ((∀ a ∈ L, ∀ x ∈ a, -128 ≤ x ∧ x ≤ 127) → cartesian toByte L = cartesian id L) := by
  have h1 : cartesian toByte L = cartesian id (L.map (·.map toByte)) := by
    rw [cartesian_ok _ _ h0 h, cartesian_ok]
    · simp [Function.comp_def]
    · simpa using h0
    · intro a ha
      obtain ⟨b, hb, rfl⟩ := List.mem_map.1 ha
      simpa using h b hb
  refine ⟨h1, fun hb => ?_⟩
  rw [h1]
  congr 1
  conv_rhs => rw [← List.map_id L]
  refine List.map_congr_left (fun a ha => ?_)
  conv_rhs => rw [id, ← List.map_id a]
  refine List.map_congr_left (fun x hx => ?_)
  have := hb a ha x hx
  unfold toByte
  simp only [id]
  omega

example : cartesian toByte [[1, 2, 3], [4, 5], [6, 200]] = .ok [[1, 4, 6], [1, 4, -56], [1, 5, 6], [1, 5, -56], [2, 4, 6],
    [2, 4, -56], [2, 5, 6], [2, 5, -56], [3, 4, 6], [3, 4, -56], [3, 5, 6], [3, 5, -56]] := by decide +kernel

/-! ## C31: `member`, `all_but`, `sorted_tuple` -/

/-- C31: `member(L, A)` is the index of the first occurrence of `A`, or `None`. -/
theorem C31_member (L : List (Adj p)) (A : Adj p) :
    (member L A = none ↔ A ∉ L) ∧
      ∀ k, member L A = some k ↔ L[k]? = some A ∧ ∀ m < k, L[m]? ≠ some A := by
  have hmem : ∀ k, k ∈ (List.range L.length).filter (fun k => decide (L[k]? = some A)) ↔ L[k]? = some A := by
    intro k
    rw [List.mem_filter, List.mem_range, decide_eq_true_eq]
    refine ⟨fun h => h.2, fun h => ⟨?_, h⟩⟩
    by_contra hc
    rw [List.getElem?_eq_none (by omega)] at h
    simp at h
  have hs : ((List.range L.length).filter (fun k => decide (L[k]? = some A))).Pairwise (· < ·) :=
    List.pairwise_lt_range.filter _
  unfold member
  generalize (List.range L.length).filter (fun k => decide (L[k]? = some A)) = idx at hmem hs
  cases idx with
  | nil =>
    have hA : A ∉ L := fun hA => by
      obtain ⟨k, hk⟩ := List.mem_iff_getElem?.1 hA
      exact absurd ((hmem k).2 hk) (by simp)
    refine ⟨by simp [hA], fun k => ⟨fun h => by simp at h, fun h => ?_⟩⟩
    exact absurd (List.mem_of_getElem? h.1) hA
  | cons k' idx =>
    have h0 : L[k']? = some A := (hmem k').1 (by simp)
    have hmin : ∀ m < k', L[m]? ≠ some A := fun m hm hc => by
      rcases List.mem_cons.1 ((hmem m).2 hc) with h | h
      · omega
      · have := (List.pairwise_cons.1 hs).1 m h
        omega
    refine ⟨by simp [List.mem_of_getElem? h0], fun k => ⟨fun h => ?_, fun h => ?_⟩⟩
    · simp only [Option.some.injEq] at h
      subst h
      exact ⟨h0, hmin⟩
    · rcases Nat.lt_trichotomy k k' with hlt | heq | hgt
      · exact absurd h.1 (hmin k hlt)
      · simp [heq]
      · exact absurd h0 (h.2 k' hgt)

/-- C31: `all_but(k, p)` is `0, …, p-1` in order without the elements of `k`. -/
theorem C31_all_but (k : List Int) (p : Nat) : (allBut k p).Pairwise (· < ·) ∧
    ∀ i : Nat, i ∈ allBut k p ↔ i < p ∧ (i : Int) ∉ k := by
  refine ⟨List.pairwise_lt_range.filter _, fun i => ?_⟩
  unfold allBut
  simp

/-- C31: `sorted_tuple` returns the increasing rearrangement, so it does not depend on the order of its argument. -/
theorem C31_sorted_tuple (l l' : List Nat) : (sortedTuple l).Perm l ∧ (sortedTuple l).Pairwise (· ≤ ·) ∧
    (l.Perm l' → sortedTuple l = sortedTuple l') := by
  have h := C31_sort_plain l
  have h' := C31_sort_plain l'
  refine ⟨h.1, h.2, fun hp => ?_⟩
  exact ((h.1.trans hp).trans h'.1.symm).eq_of_pairwise (fun a b _ _ h1 h2 => Nat.le_antisymm h1 h2) h.2 h'.2

example : allBut [1] 4 = [0, 2, 3] ∧ sortedTuple [2, 0, 1] = [0, 1, 2] := by decide +kernel

example : member [(![![0, 1], ![0, 0]] : Adj 2), ![![0, 0], ![1, 0]], ![![0, 0], ![1, 0]]] ![![0, 0], ![1, 0]] = some 1 := by
  decide +kernel

/-! ## C32, C33: `split_data` -/

theorem pyRound_nonneg {x : Rat} (h : 0 ≤ x) : 0 ≤ pyRound x := by
  have hf : 0 ≤ ⌊x⌋ := Int.floor_nonneg.2 h
  unfold pyRound
  simp only []
  split_ifs <;> omega

/-- Python's rounding is within one half of its argument. -/
theorem pyRound_close (x : Rat) : |x - pyRound x| ≤ 1 / 2 := by
  have h1 := Int.floor_le x
  have h2 := Int.lt_floor_add_one x
  unfold pyRound
  simp only []
  rw [abs_le]
  split_ifs with h3 h4 h5 <;> push_cast <;> constructor <;> linarith

/-- `k` is `x` rounded to the nearest integer, ties to the even one: what the Python manual says `round` returns. -/
def Spec.RoundHalfEven (x : Rat) (k : Int) : Prop := |x - k| ≤ 1 / 2 ∧ (|x - k| = 1 / 2 → Even k)

/-- Rounding with ties to even numbers is unique, and `pyRound` computes it. -/
theorem pyRound_iff (x : Rat) (k : Int) : Spec.RoundHalfEven x k ↔ k = pyRound x := by
  have hmain : Spec.RoundHalfEven x (pyRound x) := by
    refine ⟨pyRound_close x, fun h => ?_⟩
    have h1 := Int.floor_le x
    have h2 := Int.lt_floor_add_one x
    unfold pyRound at h ⊢
    simp only [] at h ⊢
    split_ifs at h ⊢ with h3 h4 h5
    · rw [abs_of_nonneg (by linarith)] at h
      linarith
    · push_cast at h
      rw [abs_of_nonpos (by linarith)] at h
      linarith
    · exact Int.even_iff.2 h5
    · exact Int.even_iff.2 (by omega)
  refine ⟨fun hk => ?_, fun h => h ▸ hmain⟩
  obtain ⟨a1, a2⟩ := hk
  obtain ⟨b1, b2⟩ := hmain
  generalize pyRound x = m at *
  by_contra hne
  have hd : (1 : Rat) ≤ |(k : Rat) - m| := by
    have : (1 : Int) ≤ |k - m| := Int.one_le_abs (sub_ne_zero.2 hne)
    exact_mod_cast this
  have htri : |(k : Rat) - m| ≤ |x - k| + |x - m| := by
    rw [show (k : Rat) - m = (x - m) - (x - k) by ring, add_comm]
    exact abs_sub _ _
  have e1 := a2 (by linarith)
  have e2 := b2 (by linarith)
  have hd1 : |(k : Rat) - m| = 1 := by linarith
  have : |k - m| = 1 := by exact_mod_cast hd1
  rw [Int.even_iff] at e1 e2
  rcases abs_cases (k - m) with ⟨h, -⟩ | ⟨h, -⟩ <;> omega

/-- Concrete case: 5/2 is rounded to 2 and 7/2 to 4. -/
example : Spec.RoundHalfEven (5 / 2) 2 ∧ Spec.RoundHalfEven (7 / 2) 4 ∧ ¬ Spec.RoundHalfEven (5 / 2) 3 :=
  ⟨(pyRound_iff _ _).2 (by decide +kernel), (pyRound_iff _ _).2 (by decide +kernel), fun h => absurd ((pyRound_iff _ _).1 h) (by decide +kernel)⟩

theorem pySlice_nonneg {α : Type} (l : List α) {a s : Int} (ha : 0 ≤ a) (hs : 0 ≤ s) :
    pySlice l a (a + s) = (l.drop a.toNat).take s.toNat := by
  unfold pySlice sliceBound
  rw [if_neg (by omega), if_neg (by omega), List.take_drop]
  by_cases h : a.toNat ≤ l.length
  · rw [Nat.min_eq_left h]
    by_cases h' : (a + s).toNat ≤ l.length
    · rw [Nat.min_eq_left h', show (a + s).toNat = a.toNat + s.toNat by omega]
    · rw [Nat.min_eq_right (by omega), List.take_of_length_le (le_refl _), List.take_of_length_le (by omega)]
  · rw [Nat.min_eq_right (by omega), Nat.min_eq_right (by omega), List.take_of_length_le (le_refl _),
      List.take_of_length_le (by omega), List.drop_of_length_le (le_refl _), List.drop_of_length_le (by omega)]

/-- Consecutive pieces of a list with the given lengths. -/
def pieces {α : Type} (l : List α) : List Nat → List (List α)
  | [] => []
  | k :: ks => l.take k :: pieces (l.drop k) ks

theorem splitSample_eq {α : Type} (sample : List α) (nFolds : Nat) (rs : List (Nat × Rat)) :
    ∀ start : Int, 0 ≤ start → (∀ r ∈ rs, r.1 < nFolds ∧ 0 ≤ r.2) →
    splitSample sample nFolds rs start =
      pieces (sample.drop start.toNat) (rs.map (fun r => (pyRound (sample.length * r.2)).toNat)) := by
  induction rs with
  | nil => intro s _ _; rfl
  | cons r rs ih =>
    obtain ⟨i, ratio⟩ := r
    intro start hstart hr
    have h1 := hr (i, ratio) (by simp)
    have hsz : 0 ≤ pyRound (sample.length * ratio) := pyRound_nonneg (mul_nonneg (by positivity) h1.2)
    unfold splitSample
    simp only [List.map_cons, pieces]
    rw [if_pos h1.1, pySlice_nonneg _ hstart hsz, ih _ (by omega) (fun r hr' => hr r (List.mem_cons_of_mem _ hr')),
      List.drop_drop, show (start + pyRound (sample.length * ratio)).toNat =
        start.toNat + (pyRound (sample.length * ratio)).toNat by omega]

theorem pieces_flatten {α : Type} (l : List α) (ks : List Nat) : (pieces l ks).flatten = l.take ks.sum := by
  induction ks generalizing l with
  | nil => simp [pieces]
  | cons k ks ih =>
    unfold pieces
    rw [List.flatten_cons, ih, List.sum_cons, List.take_add]

theorem pieces_length {α : Type} (l : List α) (ks : List Nat) : (pieces l ks).length = ks.length := by
  induction ks generalizing l with
  | nil => rfl
  | cons k ks ih => simp [pieces, ih]

theorem pieces_getElem_length {α : Type} (l : List α) (ks : List Nat) (i : Nat) (f : List α) (k : Nat)
    (hf : (pieces l ks)[i]? = some f) (hk : ks[i]? = some k) : f.length = min k (l.length - (ks.take i).sum) := by
  induction ks generalizing l i with
  | nil => simp at hk
  | cons k' ks ih =>
    cases i with
    | zero =>
      simp [pieces] at hf hk
      subst hf hk
      simp
    | succ i =>
      simp only [pieces, List.getElem?_cons_succ] at hf hk
      rw [ih (l.drop k') i hf hk, List.length_drop, List.take_succ_cons, List.sum_cons]
      omega

/-- The observations of environment `e`, fold after fold. -/
def foldsOf {α : Type} (folds : List (List (List α))) (e : Nat) : List (List α) := folds.map (fun f => f.getD e [])

theorem splitData_ok {α : Type} (rng : Nat → Rng) (data : List (List α)) (ratios : List Rat) (hs : ratios.sum = 1)
    (hr : ∀ r ∈ ratios, 0 ≤ r) : ∃ folds, splitData rng data ratios = .ok folds ∧ folds.length = ratios.length ∧
      (∀ f ∈ folds, f.length = data.length) ∧ ∀ e sample, data[e]? = some sample →
        foldsOf folds e = pieces ((rng e).shuffle sample)
          (ratios.map (fun (r : Rat) => (pyRound (sample.length * r)).toNat)) := by
  have hne : 0 < ratios.length := by
    cases ratios with
    | nil => simp at hs
    | cons a l => simp
  unfold splitData
  rw [if_neg (by simpa using hs)]
  simp only []
  rw [if_neg (by simp), if_neg (by simp [List.getD_eq_getElem?_getD, hne])]
  refine ⟨_, rfl, by simp, ?_, ?_⟩
  · intro f hf
    obtain ⟨i, _, rfl⟩ := List.mem_map.1 hf
    simp
  · intro e sample he
    have hlt : e < data.length := by
      by_contra hc
      rw [List.getElem?_eq_none (by omega)] at he
      simp at he
    have hget : data[e] = sample := by
      rw [List.getElem?_eq_getElem hlt] at he
      exact Option.some.inj he
    have hsp := splitSample_eq ((rng e).shuffle sample) ratios.length (ratios.zipIdx.map (fun r => (r.2, r.1))) 0 (le_refl _)
      (by
        intro r hr'
        obtain ⟨⟨x, i⟩, hx, rfl⟩ := List.mem_map.1 hr'
        obtain ⟨-, h1, h2⟩ := List.mem_zipIdx hx
        refine ⟨by simpa using h1, ?_⟩
        apply hr
        simp only at h2 ⊢
        rw [h2]
        exact List.getElem_mem _)
    have hmap : (ratios.zipIdx.map (fun r => (r.2, r.1))).map
        (fun r : Nat × Rat => (pyRound (((rng e).shuffle sample).length * r.2)).toNat) =
        ratios.map (fun r => (pyRound (sample.length * r)).toNat) := by
      rw [((rng e).shuffle_perm sample).length_eq, List.map_map]
      have : ((fun r : Nat × Rat => (pyRound (sample.length * r.2)).toNat) ∘ fun r : Rat × Nat => (r.2, r.1)) =
          (fun r => (pyRound (sample.length * r)).toNat) ∘ Prod.fst := by funext r; rfl
      rw [this, ← List.map_map, List.zipIdx_map_fst]
    rw [hmap] at hsp
    simp only [Int.toNat_zero, List.drop_zero] at hsp
    rw [← hsp]
    have hl : (splitSample ((rng e).shuffle sample) ratios.length (ratios.zipIdx.map (fun r => (r.2, r.1))) 0).length =
        ratios.length := by
      rw [hsp, pieces_length]
      simp
    unfold foldsOf
    rw [List.map_map]
    apply List.ext_getElem
    · simp [hl]
    · intro i h1 h2
      simp [List.getD_eq_getElem?_getD, hlt, hget, List.getElem?_eq_getElem h2]

/-- C32: `split_data` raises `ValueError` exactly if the ratios do not sum to one (for non-negative ratios; a negative ratio
does not make it raise either, as the first statement shows). -/
theorem C32_raises {α : Type} (rng : Nat → Rng) (data : List (List α)) (ratios : List Rat) :
    splitData rng data ratios = .error .valueError ↔ ratios.sum ≠ 1 := by
  unfold splitData
  by_cases h : ratios.sum ≠ 1
  · rw [if_pos h]
    simp [h]
  · rw [if_neg h]
    simp only [h, iff_false]
    split_ifs <;> simp

/-- C32: for non-negative ratios with sum one there is one fold per ratio with one array per environment; the folds of an
environment, one after the other, are an initial part of a permutation of its observations (so no observation is used
twice), and fold `i` has `n * ratio_i` observations, rounded with ties to the even number, unless fewer are left. -/
theorem C32_folds {α : Type} (rng : Nat → Rng) (data : List (List α)) (ratios : List Rat) (hs : ratios.sum = 1)
    (hr : ∀ r ∈ ratios, 0 ≤ r) : ∃ folds, splitData rng data ratios = .ok folds ∧ folds.length = ratios.length ∧
      (∀ f ∈ folds, f.length = data.length) ∧ ∀ e sample, data[e]? = some sample →
        (∃ perm : List α, perm.Perm sample ∧ (foldsOf folds e).flatten <+: perm) ∧
        (foldsOf folds e).flatten.Subperm sample ∧
        ∀ i fold ratio k, (foldsOf folds e)[i]? = some fold → ratios[i]? = some ratio →
          Spec.RoundHalfEven (sample.length * ratio) k → (fold.length : Int) = min k
            (sample.length - (((foldsOf folds e).take i).map List.length).sum) := by
  obtain ⟨folds, h1, h2, h3, h4⟩ := splitData_ok rng data ratios hs hr
  refine ⟨folds, h1, h2, h3, ?_⟩
  intro e sample he
  have hperm := (rng e).shuffle_perm sample
  rw [h4 e sample he]
  refine ⟨⟨_, hperm, by rw [pieces_flatten]; exact List.take_prefix _ _⟩, ?_, ?_⟩
  · rw [pieces_flatten]
    exact (List.take_sublist _ _).subperm.trans hperm.subperm
  · intro i fold ratio k hf hi hround
    obtain rfl := (pyRound_iff _ _).1 hround
    have hk : (ratios.map (fun (r : Rat) => (pyRound (sample.length * r)).toNat))[i]? =
        some (pyRound (sample.length * ratio)).toNat := by
      rw [List.getElem?_map, hi]
      rfl
    have hlen := pieces_getElem_length _ _ i fold _ hf hk
    have htake : ∀ (l : List α) (ks : List Nat) (i : Nat), (pieces l ks).take i = pieces l (ks.take i) := by
      intro l ks
      induction ks generalizing l with
      | nil => intro i; simp [pieces]
      | cons k ks ih =>
        intro i
        cases i with
        | zero => simp [pieces]
        | succ i => simp [pieces, ih]
    rw [hperm.length_eq] at hlen
    rw [htake, ← List.length_flatten, pieces_flatten, List.length_take, hperm.length_eq, hlen]
    have hrn : 0 ≤ pyRound (sample.length * ratio) :=
      pyRound_nonneg (mul_nonneg (by positivity) (hr ratio (List.mem_of_getElem? hi)))
    generalize (List.sum (List.take i (ratios.map (fun (r : Rat) => (pyRound (sample.length * r)).toNat)))) = c
    omega

example : splitData (fun _ => Rng.back) [[1, 2, 3, 4], [5, 6]] [1 / 2, 1 / 2] = .ok [[[4, 3], [6]], [[2, 1], [5]]] := by
  decide +kernel

/-- C33: every observation of an environment is in some fold if and only if the fold sizes, rounded with ties to even numbers, add up to
at least the number of observations. -/
theorem C33_covers_iff {α : Type} (rng : Nat → Rng) (data : List (List α)) (ratios : List Rat)
    (hr : ∀ r ∈ ratios, 0 ≤ r) (folds : List (List (List α))) (h : splitData rng data ratios = .ok folds) (e : Nat)
    (sample : List α) (he : data[e]? = some sample) (rnd : Rat → Int) (hrnd : ∀ x, Spec.RoundHalfEven x (rnd x)) :
    (foldsOf folds e).flatten.Perm sample ↔
      (sample.length : Int) ≤ (ratios.map (fun (r : Rat) => rnd (sample.length * r))).sum := by
  obtain rfl : rnd = pyRound := funext fun x => (pyRound_iff _ _).1 (hrnd x)
  have hs : ratios.sum = 1 := by
    by_contra hc
    rw [(C32_raises rng data ratios).2 hc] at h
    simp at h
  obtain ⟨folds', h1, -, -, h4⟩ := splitData_ok rng data ratios hs hr
  obtain rfl : folds' = folds := by rw [h1] at h; injection h
  have hperm := (rng e).shuffle_perm sample
  have hsum : ((ratios.map (fun (r : Rat) => (pyRound (sample.length * r)).toNat)).sum : Int) =
      (ratios.map (fun (r : Rat) => pyRound (sample.length * r))).sum := by
    clear hs h h1 h4
    induction ratios with
    | nil => simp
    | cons r rs ih =>
      have h0 : 0 ≤ pyRound (sample.length * r) := pyRound_nonneg (mul_nonneg (by positivity) (hr r (by simp)))
      simp only [List.map_cons, List.sum_cons]
      push_cast
      rw [Int.toNat_of_nonneg h0]
      have := ih (fun r' h' => hr r' (List.mem_cons_of_mem _ h'))
      push_cast at this
      rw [this]
  rw [h4 e sample he, pieces_flatten, ← hsum]
  constructor
  · intro hp
    have := hp.length_eq
    rw [List.length_take, hperm.length_eq] at this
    omega
  · intro hle
    rw [List.take_of_length_le (by rw [hperm.length_eq]; omega)]
    exact hperm

/-- C33: the number of observations of an environment that `split_data` drops is at most half the number of folds. -/
theorem C33_dropped_bound {α : Type} (rng : Nat → Rng) (data : List (List α)) (ratios : List Rat)
    (hr : ∀ r ∈ ratios, 0 ≤ r) (folds : List (List (List α))) (h : splitData rng data ratios = .ok folds) (e : Nat)
    (sample : List α) (he : data[e]? = some sample) :
    2 * (sample.length - (foldsOf folds e).flatten.length) ≤ ratios.length := by
  have hs : ratios.sum = 1 := by
    by_contra hc
    rw [(C32_raises rng data ratios).2 hc] at h
    simp at h
  obtain ⟨folds', h1, -, -, h4⟩ := splitData_ok rng data ratios hs hr
  obtain rfl : folds' = folds := by rw [h1] at h; injection h
  have hperm := (rng e).shuffle_perm sample
  rw [h4 e sample he, pieces_flatten, List.length_take, hperm.length_eq]
  have key : ∀ rs : List Rat, (∀ r ∈ rs, 0 ≤ r) → (sample.length : Rat) * rs.sum ≤
      ((rs.map (fun (r : Rat) => (pyRound (sample.length * r)).toNat)).sum : Rat) + rs.length * (1 / 2) := by
    intro rs
    induction rs with
    | nil => simp
    | cons r rs ih =>
      intro hr
      have h0 : 0 ≤ pyRound (sample.length * r) := pyRound_nonneg (mul_nonneg (by positivity) (hr r (by simp)))
      have hc := (abs_le.1 (pyRound_close (sample.length * r))).2
      have hi := ih (fun r' h' => hr r' (List.mem_cons_of_mem _ h'))
      have hcast : (((pyRound (sample.length * r)).toNat : Nat) : Rat) = (pyRound (sample.length * r) : Rat) := by
        rw [← Int.cast_natCast, Int.toNat_of_nonneg h0]
      simp only [List.map_cons, List.sum_cons, List.length_cons]
      push_cast
      push_cast at hi
      rw [hcast]
      linarith
  have hk := key ratios hr
  rw [hs, mul_one] at hk
  have hk' : (sample.length : Rat) * 2 ≤
      ((ratios.map (fun (r : Rat) => (pyRound (sample.length * r)).toNat)).sum : Rat) * 2 + ratios.length := by linarith
  have hk'' : sample.length * 2 ≤
      (ratios.map (fun (r : Rat) => (pyRound (sample.length * r)).toNat)).sum * 2 + ratios.length := by
    exact_mod_cast hk'
  omega

/-- C33, violation: with ten observations and ratios 1/2, 1/4, 1/4 one observation is in no fold, whatever the shuffle. -/
theorem C33_violated (rng : Nat → Rng) (sample : List Nat) (hn : sample.length = 10) :
    ∃ folds, splitData rng [sample] [1 / 2, 1 / 4, 1 / 4] = .ok folds ∧ ¬ (foldsOf folds 0).flatten.Perm sample := by
  have hr : ∀ r ∈ ([1 / 2, 1 / 4, 1 / 4] : List Rat), 0 ≤ r := by decide +kernel
  obtain ⟨folds, h1, _⟩ := splitData_ok rng [sample] [1 / 2, 1 / 4, 1 / 4] (by decide +kernel) hr
  refine ⟨folds, h1, ?_⟩
  rw [C33_covers_iff rng [sample] _ hr folds h1 0 sample rfl pyRound (fun x => (pyRound_iff _ _).2 rfl), hn]
  decide +kernel

end Verif
