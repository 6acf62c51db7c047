import Verif.Model.Main
import Verif.Proof.Cache
import Verif.Proof.Score
import Verif.Proof.Loop
import Verif.Proof.Topo

/-! # Lemmas about the functions of `main.py` -/

namespace Verif

open Spec

variable {p e : Nat}

/-! ### `np.argmin` -/

section Argmin

variable {α κ : Type} [LinearOrder κ] {better : α → α → Prop} {key : α → κ}

theorem argminLoop_spec (hb : ∀ x y, better x y ↔ key x < key y) (xs : List α) :
    ∀ (pre : List α) (best : α) (ind : Nat), pre[ind]? = some best → (∀ y ∈ pre, key best ≤ key y) →
      (∀ j < ind, ∀ y, pre[j]? = some y → key best < key y) →
      ∃ x, (pre ++ xs)[argminLoop better best ind pre.length xs]? = some x ∧ (∀ y ∈ pre ++ xs, key x ≤ key y) ∧
        ∀ j < argminLoop better best ind pre.length xs, ∀ y, (pre ++ xs)[j]? = some y → key x < key y := by
  induction xs with
  | nil =>
    intro pre best ind h1 h2 h3
    simp only [List.append_nil, argminLoop]
    exact ⟨best, h1, h2, h3⟩
  | cons x xs ih =>
    intro pre best ind h1 h2 h3
    have hl : (pre ++ [x]).length = pre.length + 1 := by simp
    have hind : ind < pre.length := (List.getElem?_eq_some_iff.1 h1).1
    rw [argminLoop]
    by_cases hx : better x best
    · rw [if_pos hx, ← hl]
      have hlt := (hb _ _).1 hx
      have := ih (pre ++ [x]) x pre.length (by simp) (by
        intro y hy
        rcases List.mem_append.1 hy with hy | hy
        · exact (hlt.trans_le (h2 y hy)).le
        · rw [List.mem_singleton.1 hy]) (by
        intro j hj y hy
        rw [List.getElem?_append_left hj] at hy
        exact hlt.trans_le (h2 y (List.mem_of_getElem? hy)))
      simpa using this
    · rw [if_neg hx, ← hl]
      have hge := not_lt.1 (fun h => hx ((hb _ _).2 h))
      have := ih (pre ++ [x]) best ind (by rw [List.getElem?_append_left hind]; exact h1) (by
        intro y hy
        rcases List.mem_append.1 hy with hy | hy
        · exact h2 y hy
        · rw [List.mem_singleton.1 hy]; exact hge) (by
        intro j hj y hy
        rw [List.getElem?_append_left (hj.trans hind)] at hy
        exact h3 j hj y hy)
      simpa using this

theorem npArgmin_spec (hb : ∀ x y, better x y ↔ key x < key y) {l : List α} (hl : l ≠ []) :
    ∃ i x, npArgmin better l = .ok i ∧ l[i]? = some x ∧ (∀ y ∈ l, key x ≤ key y) ∧
      ∀ j < i, ∀ y, l[j]? = some y → key x < key y := by
  cases l with
  | nil => exact absurd rfl hl
  | cons a l =>
    obtain ⟨x, h1, h2, h3⟩ := argminLoop_spec hb l [a] a 0 (by simp) (by simp) (by intro j hj; omega)
    refine ⟨_, x, rfl, ?_, ?_, ?_⟩
    · simpa using h1
    · simpa using h2
    · simpa using h3

end Argmin

/-- The order in which `np.argmin` prefers floats: `nan` is the least element. -/
def fltKey (x : Flt) : WithBot ℝ := x

theorem better_iff (x y : Flt) : Flt.better x y ↔ fltKey x < fltKey y := by
  unfold fltKey
  cases y with
  | none =>
    simp only [Flt.better]
    exact ⟨fun h => h.elim, fun h => absurd h (not_lt_bot (α := WithBot ℝ))⟩
  | some b =>
    cases x with
    | none =>
      simp only [Flt.better, true_iff]
      exact WithBot.bot_lt_coe b
    | some a =>
      simp only [Flt.better]
      exact (WithBot.coe_lt_coe (a := a) (b := b)).symm

theorem fltKey_le_some {x y : ℝ} : fltKey (some x) ≤ fltKey (some y) ↔ x ≤ y := WithBot.coe_le_coe
theorem fltKey_lt_some {x y : ℝ} : fltKey (some x) < fltKey (some y) ↔ x < y := WithBot.coe_lt_coe
theorem fltKey_none_le (x : Flt) : fltKey none ≤ fltKey x := bot_le (α := WithBot ℝ)
theorem fltKey_le_none {x : Flt} : fltKey x ≤ fltKey none ↔ x = none := le_bot_iff (α := WithBot ℝ)

theorem bestScoring_spec {β : Type} {tuples : List (Flt × β)} (hl : tuples ≠ []) :
    ∃ (i : Nat) (t : Flt × β), bestScoring tuples = .ok t ∧ tuples[i]? = some t ∧ (∀ t' ∈ tuples, fltKey t.1 ≤ fltKey t'.1) ∧
      ∀ j < i, ∀ t' : Flt × β, tuples[j]? = some t' → fltKey t.1 < fltKey t'.1 := by
  obtain ⟨i, x, h1, h2, h3, h4⟩ := npArgmin_spec (l := tuples.map Prod.fst) better_iff (by simpa using hl)
  rw [List.getElem?_map] at h2
  cases ht : tuples[i]? with
  | none => rw [ht] at h2; simp at h2
  | some t =>
    rw [ht] at h2
    simp only [Option.map_some, Option.some.injEq] at h2
    subst h2
    refine ⟨i, t, ?_, ht, fun t' ht' => h3 _ (List.mem_map_of_mem ht'), fun j hj t' ht' => h4 j hj _ (by simp [ht'])⟩
    unfold bestScoring
    rw [h1]
    simp only [ht]

theorem bestScoring_mem {β : Type} {tuples : List (Flt × β)} {t : Flt × β} (h : bestScoring tuples = .ok t) : t ∈ tuples := by
  have hl : tuples ≠ [] := by
    rintro rfl
    simp [bestScoring, npArgmin] at h
  obtain ⟨i, t', h1, h2, -⟩ := bestScoring_spec hl
  rw [h] at h1
  cases h1
  exact List.mem_of_getElem? h2

/-! ### `_weakest_edge` -/

theorem mem_allPairs' (x : Fin p × Fin p) : x ∈ allPairs p := by
  simp [allPairs]

theorem weakestEdge_spec {B : Matrix (Fin p) (Fin p) ℝ} (h : B ≠ 0) :
    ∃ a b, weakestEdge B = .ok (a, b) ∧ B a b ≠ 0 ∧ ∀ c d, B c d ≠ 0 → |B a b| ≤ |B c d| := by
  classical
  obtain ⟨a0, b0, hab⟩ : ∃ a b, B a b ≠ 0 := by
    by_contra hc
    push Not at hc
    exact h (by ext a b; exact hc a b)
  let val : Fin p × Fin p → WithTop ℝ := fun e => if B e.1 e.2 = 0 then ⊤ else ((|B e.1 e.2| : ℝ) : WithTop ℝ)
  have hne : (allPairs p).map val ≠ [] := by
    intro hc
    have := mem_allPairs' (a0, b0)
    rw [List.map_eq_nil_iff.1 hc] at this
    simp at this
  obtain ⟨i, x, h1, h2, h3, -⟩ := npArgmin_spec (better := fun x y : WithTop ℝ => x < y) (key := id) (fun _ _ => Iff.rfl) hne
  rw [List.getElem?_map] at h2
  cases ht : (allPairs p)[i]? with
  | none => rw [ht] at h2; simp at h2
  | some t =>
    rw [ht] at h2
    simp only [Option.map_some, Option.some.injEq] at h2
    subst h2
    have hle : ∀ c d, val t ≤ val (c, d) := fun c d => h3 _ (List.mem_map_of_mem (mem_allPairs' (c, d)))
    have ht0 : B t.1 t.2 ≠ 0 := by
      intro h0
      have := hle a0 b0
      simp only [val, h0, if_true, hab, if_false] at this
      simp at this
    refine ⟨t.1, t.2, ?_, ht0, ?_⟩
    · unfold weakestEdge
      have h1' : npArgmin (fun x y : WithTop ℝ => x < y)
        ((allPairs p).map (fun e => if B e.1 e.2 = 0 then ⊤ else ((|B e.1 e.2| : ℝ) : WithTop ℝ))) = .ok i := by
        rw [← h1]
      rw [h1']
      simp only [ht]
    · intro c d hcd
      have := hle c d
      simp only [val, ht0, hcd, if_false] at this
      exact WithTop.coe_le_coe.1 this

theorem weakestEdge_zero (hp : 0 < p) : weakestEdge (0 : Matrix (Fin p) (Fin p) ℝ) = .ok (⟨0, hp⟩, ⟨0, hp⟩) := by
  classical
  have hhead : ∃ l, allPairs p = (⟨0, hp⟩, ⟨0, hp⟩) :: l := by
    obtain ⟨n, rfl⟩ : ∃ n, p = n + 1 := ⟨p - 1, by omega⟩
    unfold allPairs
    rw [List.finRange_succ]
    exact ⟨_, rfl⟩
  obtain ⟨l, hl⟩ := hhead
  unfold weakestEdge
  have hne : (allPairs p).map (fun e => if (0 : Matrix (Fin p) (Fin p) ℝ) e.1 e.2 = 0 then (⊤ : WithTop ℝ)
      else ((|(0 : Matrix (Fin p) (Fin p) ℝ) e.1 e.2| : ℝ) : WithTop ℝ)) ≠ [] := by rw [hl]; simp
  obtain ⟨i, x, h1, h2, h3, h4⟩ := npArgmin_spec (better := fun x y : WithTop ℝ => x < y) (key := id) (fun _ _ => Iff.rfl) hne
  have hi : i = 0 := by
    by_contra hi
    have := h4 0 (by omega) ⊤ (by rw [hl]; simp)
    have hx : x = ⊤ := by
      have := List.mem_of_getElem? h2
      simp at this
      exact this.2
    rw [hx] at this
    simp at this
  rw [h1, hi]
  simp [hl]

/-! ### Score objects -/

/-- `m` is what `score_dag(A, I)` may return: the result of a fit of `(A, I)` or a copy of such a result; `s` is its score. -/
def Spec.FittedTo (it : SetIter p) (fit : Fitter p e) (A : Adj p) (I : Finset (Fin p)) (m : AnyModel p e) (s : Flt) : Prop :=
  ∃ n m0, fit n A I = .ok (m0, s) ∧ (m = m0 ∨ m0.copy it = .ok m)

/-- The cache of the object contains copies of results of fits, at most one per pair. -/
def ScoreObj.Ok (it : SetIter p) (fit : Fitter p e) (obj : ScoreObj p e) : Prop :=
  UniqueKeys obj.cache ∧ ∀ en ∈ obj.cache, ∃ n m0, fit n en.A en.I = .ok (m0, en.score) ∧ m0.copy it = .ok en.model

theorem ScoreObj.ok_new (it : SetIter p) (fit : Fitter p e) (n : Nat) : ScoreObj.Ok it fit ⟨n, []⟩ :=
  ⟨uniqueKeys_nil, by simp⟩

theorem anyCopy_fields {it : SetIter p} {m m' : AnyModel p e} (h : m.copy it = .ok m') :
    m'.1 = m.1 ∧ m'.A = m.A ∧ m'.B = m.B ∧ m'.omegas = m.omegas := by
  unfold AnyModel.copy at h
  split at h
  · simp at h
  · rename_i m1 h1
    cases h
    obtain ⟨-, -, rfl⟩ := mkModel_fields h1
    exact ⟨rfl, rfl, rfl, rfl⟩

theorem Spec.FittedTo.fields {it : SetIter p} {fit : Fitter p e} {A : Adj p} {I : Finset (Fin p)} {m : AnyModel p e} {s : Flt}
    (h : FittedTo it fit A I m s) : ∃ n m0, fit n A I = .ok (m0, s) ∧ m.1 = m0.1 ∧ m.A = m0.A ∧ m.B = m0.B ∧ m.omegas = m0.omegas := by
  obtain ⟨n, m0, h1, h2⟩ := h
  refine ⟨n, m0, h1, ?_⟩
  rcases h2 with rfl | h2
  · exact ⟨rfl, rfl, rfl, rfl⟩
  · exact anyCopy_fields h2

theorem scoreObj_spec {it : SetIter p} {fit : Fitter p e} {obj obj' : ScoreObj p e} (ho : obj.Ok it fit) {A : Adj p}
    {I : Finset (Fin p)} {m : AnyModel p e} {s : Flt} (h : obj.scoreDag it fit A I = .ok ((m, s), obj')) :
    obj'.Ok it fit ∧ FittedTo it fit A I m s ∧ (∃ en ∈ obj'.cache, IsKey A I en ∧ en.model.B = m.B) := by
  obtain ⟨hu, he⟩ := ho
  unfold ScoreObj.scoreDag at h
  split at h
  · simp at h
  · rename_i r c hr
    simp only [Except.ok.injEq, Prod.mk.injEq] at h
    obtain ⟨rfl, rfl⟩ := h
    unfold Verif.scoreDag at hr
    simp only [cacheRead_spec _ hu] at hr
    cases hf : obj.cache.find? (fun en => decide (IsKey A I en)) with
    | some en =>
      rw [hf] at hr
      simp only [Option.map_some, Except.ok.injEq, Prod.mk.injEq] at hr
      obtain ⟨⟨rfl, rfl⟩, rfl⟩ := hr
      have hmem := List.mem_of_find?_eq_some hf
      have hk : IsKey A I en := by simpa using List.find?_some hf
      obtain ⟨n, m0, h1, h2⟩ := he en hmem
      refine ⟨⟨hu, he⟩, ⟨n, m0, ?_, Or.inr h2⟩, en, hmem, hk, rfl⟩
      rw [← hk.1, ← hk.2]
      exact h1
    | none =>
      rw [hf] at hr
      simp only [Option.map_none] at hr
      have hno : ∀ en ∈ obj.cache, ¬ IsKey A I en := by simpa using List.find?_eq_none.1 hf
      cases hfit : fit obj.calls A I with
      | error err => rw [hfit] at hr; simp at hr
      | ok r =>
        obtain ⟨m0, s0⟩ := r
        rw [hfit] at hr
        simp only [] at hr
        rw [(cacheWrite_spec (AnyModel.copy it) obj.cache hu A I m0 s0).2 hno] at hr
        cases hc : m0.copy it with
        | error err => rw [hc] at hr; simp at hr
        | ok m1 =>
          rw [hc] at hr
          simp only [Except.ok.injEq, Prod.mk.injEq] at hr
          obtain ⟨⟨rfl, rfl⟩, rfl⟩ := hr
          refine ⟨⟨uniqueKeys_append _ hu _ hno, ?_⟩, ⟨_, _, hfit, Or.inl rfl⟩, ⟨A, I, s0, m1⟩, by simp, ⟨rfl, rfl⟩,
            (anyCopy_fields hc).2.2.1⟩
          intro en hen
          simp only [Option.getD_some, List.mem_append, List.mem_singleton] at hen
          rcases hen with hen | rfl
          · exact he en hen
          · exact ⟨_, _, hfit, hc⟩

/-- A pair in the cache is not fitted again. -/
theorem scoreObj_hit {it : SetIter p} {fit : Fitter p e} {obj : ScoreObj p e} (ho : obj.Ok it fit) {A : Adj p}
    {I : Finset (Fin p)} {en : Entry p (AnyModel p e)} (hm : en ∈ obj.cache) (hk : IsKey A I en) :
    obj.scoreDag it fit A I = .ok ((en.model, en.score), { calls := obj.calls + 1, cache := obj.cache }) := by
  obtain ⟨hu, -⟩ := ho
  have hf : obj.cache.find? (fun en => decide (IsKey A I en)) = some en := by
    obtain ⟨i, hi⟩ := List.getElem?_of_mem hm
    cases hf : obj.cache.find? (fun en => decide (IsKey A I en)) with
    | none =>
      have := List.find?_eq_none.1 hf en hm
      simp [hk] at this
    | some en' =>
      obtain ⟨j, hj⟩ := List.getElem?_of_mem (List.mem_of_find?_eq_some hf)
      have hk' : IsKey A I en' := by simpa using List.find?_some hf
      have := hu i j en en' hi hj (hk.1.trans hk'.1.symm) (hk.2.trans hk'.2.symm)
      subst this
      rw [hi] at hj
      exact hj.symm
  unfold ScoreObj.scoreDag Verif.scoreDag
  simp only [cacheRead_spec _ hu, hf, Option.map_some, Option.getD_some]

end Verif
