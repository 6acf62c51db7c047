import Verif.Model.Score

namespace Verif

variable {p : Nat} {M : Type}

/-- An entry is for the pair `(A, I)`. -/
def Spec.IsKey (A : Adj p) (I : Finset (Fin p)) (en : Entry p M) : Prop := en.A = A ∧ en.I = I

instance (A : Adj p) (I : Finset (Fin p)) (en : Entry p M) : Decidable (Spec.IsKey A I en) := by
  unfold Spec.IsKey; infer_instance

/-- No two entries are for the same pair. -/
def Spec.UniqueKeys (c : List (Entry p M)) : Prop :=
  ∀ (i j : Nat) (x y : Entry p M), c[i]? = some x → c[j]? = some y → x.A = y.A → x.I = y.I → i = j

open Spec

theorem filter_range_nodup (n : Nat) (q : Nat → Bool) : ((List.range n).filter q).Nodup := (List.nodup_range).filter _

theorem filter_range_cases (n : Nat) (q : Nat → Bool) (i : Nat) (hi : i < n) (hq : q i = true)
    (hu : ∀ j < n, q j = true → j = i) : (List.range n).filter q = [i] := by
  have h1 : ∀ x, x ∈ (List.range n).filter q ↔ x ∈ [i] := by
    intro x
    simp only [List.mem_filter, List.mem_range, List.mem_singleton]
    exact ⟨fun h => hu x h.1 h.2, fun h => h ▸ ⟨hi, hq⟩⟩
  have h2 := (List.perm_ext_iff_of_nodup (filter_range_nodup n q) (List.nodup_singleton i)).2 h1
  exact List.perm_singleton.1 h2

/-- With unique keys `_find` returns the index of the entry, or none. -/
theorem cacheFind_spec (c : List (Entry p M)) (hc : UniqueKeys c) (A : Adj p) (I : Finset (Fin p)) :
    ((∀ en ∈ c, ¬ IsKey A I en) ∧ cacheFind c A I = .ok none) ∨
    ∃ i en, c[i]? = some en ∧ IsKey A I en ∧ cacheFind c A I = .ok (some i) := by
  unfold cacheFind
  by_cases h0 : c.length = 0
  · rw [if_pos h0]
    left
    rw [List.length_eq_zero_iff] at h0
    subst h0
    simp
  rw [if_neg h0]
  have hmem : ∀ i, i ∈ (List.range c.length).filter (fun i => decide ((c[i]?).map (·.A) = some A)) ↔
      ∃ en, c[i]? = some en ∧ en.A = A := by
    intro i
    simp only [List.mem_filter, List.mem_range, decide_eq_true_eq, Option.map_eq_some_iff]
    constructor
    · rintro ⟨-, en, h1, h2⟩; exact ⟨en, h1, h2⟩
    · rintro ⟨en, h1, h2⟩
      refine ⟨?_, en, h1, h2⟩
      by_contra hlt
      rw [List.getElem?_eq_none (by omega)] at h1
      simp at h1
  have hnd := filter_range_nodup c.length (fun i => decide ((c[i]?).map (·.A) = some A))
  generalize hidx : (List.range c.length).filter (fun i => decide ((c[i]?).map (·.A) = some A)) = idx at hmem hnd
  have habs : (∀ i ∈ idx, ∀ en, c[i]? = some en → en.I ≠ I) → ∀ en ∈ c, ¬ IsKey A I en := by
    rintro h en hen ⟨h1, h2⟩
    obtain ⟨i, hi⟩ := List.mem_iff_getElem?.1 hen
    exact h i ((hmem i).2 ⟨en, hi, h1⟩) en hi h2
  match idx, hmem, hnd, habs with
  | [], hmem, hnd, habs => exact Or.inl ⟨habs (by simp), rfl⟩
  | [i], hmem, hnd, habs =>
    obtain ⟨en, h1, h2⟩ := (hmem i).1 (by simp)
    simp only []
    by_cases hI : (c[i]?).map (·.I) = some I
    · rw [if_pos hI]
      right
      refine ⟨i, en, h1, ⟨h2, ?_⟩, rfl⟩
      rw [h1] at hI
      simpa using hI
    · rw [if_neg hI]
      left
      refine ⟨habs ?_, rfl⟩
      intro i' hi' en' hen'
      simp only [List.mem_singleton] at hi'
      subst hi'
      rw [hen'] at hI
      simpa using hI
  | a :: b :: rest, hmem, hnd, habs =>
    simp only []
    have hget : ∀ j : Nat, ((a :: b :: rest)[j]?.bind (fun i => c[i]?)).map (·.I) = some I ↔
        ∃ (i : Nat) (en : Entry p M), (a :: b :: rest)[j]? = some i ∧ c[i]? = some en ∧ en.I = I := by
      intro j
      simp only [Option.map_eq_some_iff, Option.bind_eq_some_iff]
      constructor
      · rintro ⟨en, ⟨i, h1, h2⟩, h3⟩; exact ⟨i, en, h1, h2, h3⟩
      · rintro ⟨i, en, h1, h2, h3⟩; exact ⟨en, ⟨i, h1, h2⟩, h3⟩
    by_cases hex : ∃ i ∈ (a :: b :: rest), ∃ en, c[i]? = some en ∧ en.I = I
    · obtain ⟨i, hi, en, hen, hI⟩ := hex
      obtain ⟨en', hen', hA⟩ := (hmem i).1 hi
      rw [hen] at hen'
      obtain rfl : en = en' := by simpa using hen'
      obtain ⟨j, hj⟩ := List.mem_iff_getElem?.1 hi
      have hjlt : j < (a :: b :: rest).length := by
        by_contra hlt
        rw [List.getElem?_eq_none (by omega)] at hj
        simp at hj
      rw [filter_range_cases _ _ j hjlt (by rw [decide_eq_true_eq, hget]; exact ⟨i, en, hj, hen, hI⟩) ?_]
      · right
        exact ⟨i, en, hen, ⟨hA, hI⟩, by simp only []; rw [hj]⟩
      · intro j' hj' hq
        rw [decide_eq_true_eq, hget] at hq
        obtain ⟨i', en', h1, h2, h3⟩ := hq
        have hA' : en'.A = A := by
          obtain ⟨en'', h4, h5⟩ := (hmem i').1 (List.mem_iff_getElem?.2 ⟨j', h1⟩)
          rw [h2] at h4
          obtain rfl : en' = en'' := by simpa using h4
          exact h5
        have hii := hc i' i en' en h2 hen (hA'.trans hA.symm) (h3.trans hI.symm)
        subst hii
        have e1 : (a :: b :: rest)[j'] = i' := by
          rw [List.getElem?_eq_getElem hj'] at h1; exact Option.some.inj h1
        have e2 : (a :: b :: rest)[j] = i' := by
          rw [List.getElem?_eq_getElem hjlt] at hj; exact Option.some.inj hj
        exact (List.Nodup.getElem_inj_iff hnd).1 (e1.trans e2.symm)
    · push Not at hex
      left
      refine ⟨habs hex, ?_⟩
      have : (List.range (a :: b :: rest).length).filter
          (fun j => decide (((a :: b :: rest)[j]?.bind (fun i => c[i]?)).map (·.I) = some I)) = [] := by
        rw [List.filter_eq_nil_iff]
        intro j _ hq
        rw [decide_eq_true_eq, hget] at hq
        obtain ⟨i, en, h1, h2, h3⟩ := hq
        exact hex i (List.mem_iff_getElem?.2 ⟨j, h1⟩) en h2 h3
      rw [this]

/-- With unique keys `read` is a lookup. -/
theorem cacheRead_spec (c : List (Entry p M)) (hc : UniqueKeys c) (A : Adj p) (I : Finset (Fin p)) :
    cacheRead c A I = .ok ((c.find? (fun en => decide (IsKey A I en))).map (fun en => (en.model, en.score))) := by
  unfold cacheRead
  rcases cacheFind_spec c hc A I with ⟨h1, h2⟩ | ⟨i, en, h1, h2, h3⟩
  · rw [h2]
    have : c.find? (fun en => decide (IsKey A I en)) = none := by
      rw [List.find?_eq_none]
      intro en hen
      simpa using h1 en hen
    rw [this]
    rfl
  · rw [h3]
    simp only [h1]
    have : c.find? (fun en => decide (IsKey A I en)) = some en := by
      cases hf : c.find? (fun en => decide (IsKey A I en)) with
      | none =>
        rw [List.find?_eq_none] at hf
        exact absurd h2 (by simpa using hf en (List.mem_iff_getElem?.2 ⟨i, h1⟩))
      | some en' =>
        have h4 := List.find?_some hf
        obtain ⟨j, hj⟩ := List.mem_iff_getElem?.1 (List.mem_of_find?_eq_some hf)
        simp only [decide_eq_true_eq] at h4
        have := hc j i en' en hj h1 (h4.1.trans h2.1.symm) (h4.2.trans h2.2.symm)
        subst this
        rw [hj] at h1
        exact h1
    rw [this]
    rfl

theorem uniqueKeys_nil : UniqueKeys ([] : List (Entry p M)) := by
  intro i j x y hx
  simp at hx

theorem uniqueKeys_append (c : List (Entry p M)) (hc : UniqueKeys c) (en : Entry p M) (h : ∀ x ∈ c, ¬ IsKey en.A en.I x) :
    UniqueKeys (c ++ [en]) := by
  have key : ∀ (i : Nat) (x : Entry p M), (c ++ [en])[i]? = some x → (i < c.length ∧ c[i]? = some x) ∨ (i = c.length ∧ x = en) := by
    intro i x hx
    rcases lt_trichotomy i c.length with h1 | h1 | h1
    · rw [List.getElem?_append_left h1] at hx
      exact Or.inl ⟨h1, hx⟩
    · subst h1
      rw [List.getElem?_concat_length] at hx
      exact Or.inr ⟨rfl, (Option.some.inj hx).symm⟩
    · rw [List.getElem?_eq_none (by simp; omega)] at hx
      simp at hx
  intro i j x y hx hy hA hI
  rcases key i x hx with ⟨h1, h2⟩ | ⟨h1, h2⟩ <;> rcases key j y hy with ⟨h3, h4⟩ | ⟨h3, h4⟩
  · exact hc i j x y h2 h4 hA hI
  · subst h4
    exact absurd ⟨hA, hI⟩ (h x (List.mem_iff_getElem?.2 ⟨i, h2⟩))
  · subst h2
    exact absurd ⟨hA.symm, hI.symm⟩ (h y (List.mem_iff_getElem?.2 ⟨j, h4⟩))
  · rw [h1, h3]

/-- A checked write with unique keys. -/
theorem cacheWrite_spec (copy : M → Except Err M) (c : List (Entry p M)) (hc : UniqueKeys c) (A : Adj p) (I : Finset (Fin p))
    (m : M) (score : Flt) :
    ((∃ en ∈ c, IsKey A I en) → cacheWrite copy c A I m score true = .error .valueError) ∧
    ((∀ en ∈ c, ¬ IsKey A I en) → cacheWrite copy c A I m score true =
      match copy m with
      | .error err => .error err
      | .ok m' => .ok (c ++ [⟨A, I, score, m'⟩])) := by
  unfold cacheWrite
  simp only [if_true]
  rcases cacheFind_spec c hc A I with ⟨h1, h2⟩ | ⟨i, en, h1, h2, h3⟩
  · rw [h2]
    exact ⟨fun ⟨en, h3, h4⟩ => absurd h4 (h1 en h3), fun _ => rfl⟩
  · rw [h3]
    exact ⟨fun _ => rfl, fun h => absurd h2 (h en (List.mem_iff_getElem?.2 ⟨i, h1⟩))⟩

end Verif
