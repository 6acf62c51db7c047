import Verif.Model.Enum
import Verif.Proof.Icpdag
import Verif.Props.Pdag
import Verif.Props.Graph
import Verif.Props.Meek

namespace Verif
open Spec
variable {p : Nat}

/-! ### cartesian -/

/-- Lexicographic product. -/
def prodList {α : Type} : List (List α) → List (List α)
  | [] => [[]]
  | a :: rest => a.flatMap (fun x => (prodList rest).map (x :: ·))

theorem zipWith_append_eq {α β γ : Type} (f : α → β → γ) (l1 l1' : List α) (l2 l2' : List β) (h : l1.length = l2.length) :
    List.zipWith f (l1 ++ l1') (l2 ++ l2') = List.zipWith f l1 l2 ++ List.zipWith f l1' l2' :=
  List.zipWith_append h

theorem zipWith_repeat {α β γ : Type} (f : α → β → γ) (a : List α) (sub : List β) :
    List.zipWith f (a.flatMap (fun x => List.replicate sub.length x)) (List.replicate a.length sub).flatten =
      a.flatMap (fun x => sub.map (f x)) := by
  induction a with
  | nil => simp
  | cons x xs ih =>
    simp only [List.flatMap_cons, List.length_cons, List.replicate_succ, List.flatten_cons]
    rw [zipWith_append_eq _ _ _ _ _ (by simp), ih]
    congr 1
    clear ih
    induction sub with
    | nil => simp
    | cons y ys ih => simp [List.replicate_succ, ih]

theorem cartesian_ok {α β : Type} (cast : α → β) (L : List (List α)) (h0 : L ≠ []) (h : ∀ a ∈ L, a ≠ []) :
    cartesian cast L = .ok (prodList (L.map (·.map cast))) := by
  induction L with
  | nil => exact absurd rfl h0
  | cons a rest ih =>
    have ha : a.length ≠ 0 := fun hc => h a (by simp) (List.length_eq_zero_iff.1 hc)
    cases rest with
    | nil =>
      unfold cartesian
      rw [if_neg ha]
      simp only [prodList, List.map_cons, List.map_nil, List.flatMap_map]
      congr 1
      clear ih ha h0 h
      induction a with
      | nil => rfl
      | cons x xs ih => simp [ih]
    | cons b rest =>
      unfold cartesian
      rw [if_neg ha, ih (by simp) (fun x hx => h x (List.mem_cons_of_mem _ hx))]
      simp only []
      congr 1
      rw [zipWith_repeat (fun x row => cast x :: row)]
      simp [prodList, List.flatMap_map]

theorem cartesian_error {α β : Type} (cast : α → β) (L : List (List α)) (h : [] ∈ L) :
    cartesian cast L = .error .valueError := by
  induction L with
  | nil => simp at h
  | cons a rest ih =>
    cases rest with
    | nil =>
      have : [] = a := by simpa using h
      subst this
      simp [cartesian]
    | cons b rest =>
      unfold cartesian
      by_cases ha : a.length = 0
      · rw [if_pos ha]
      · rw [if_neg ha]
        rw [ih]
        rcases List.mem_cons.1 h with h | h
        · subst h; simp at ha
        · exact h

theorem mem_prodList {α : Type} (L : List (List α)) (row : List α) :
    row ∈ prodList L ↔ List.Forall₂ (fun x a => x ∈ a) row L := by
  induction L generalizing row with
  | nil => simp [prodList]
  | cons a rest ih =>
    simp only [prodList, List.mem_flatMap, List.mem_map]
    constructor
    · rintro ⟨x, hx, r, hr, rfl⟩
      exact List.Forall₂.cons hx ((ih r).1 hr)
    · intro h
      cases h with
      | cons hx hr => exact ⟨_, hx, _, (ih _).2 hr, rfl⟩

theorem nodup_prodList {α : Type} (L : List (List α)) (h : ∀ a ∈ L, a.Nodup) : (prodList L).Nodup := by
  induction L with
  | nil => simp [prodList]
  | cons a rest ih =>
    have ih := ih (fun x hx => h x (List.mem_cons_of_mem _ hx))
    unfold prodList
    rw [List.nodup_flatMap]
    refine ⟨fun x _ => ih.map (fun a b h => by simpa using h), ?_⟩
    refine (h a (by simp)).imp ?_
    intro x y hxy
    unfold Function.onFun List.Disjoint
    intro r hr hr'
    rw [List.mem_map] at hr hr'
    obtain ⟨s, _, rfl⟩ := hr
    obtain ⟨t, _, ht⟩ := hr'
    simp at ht
    exact hxy ht.1.symm

theorem length_prodList {α : Type} (L : List (List α)) : (prodList L).length = (L.map List.length).prod := by
  induction L with
  | nil => simp [prodList]
  | cons a rest ih =>
    unfold prodList
    rw [List.length_flatMap]
    simp [ih]

theorem mem_bools (n : Nat) (row : List Bool) :
    row ∈ prodList (List.replicate n [true, false]) ↔ row.length = n := by
  rw [mem_prodList]
  induction n generalizing row with
  | zero => simp
  | succ n ih =>
    rw [List.replicate_succ]
    cases row with
    | nil => simp
    | cons x xs => rw [List.forall₂_cons, ih]; cases x <;> simp

/-! ### all_dags -/

theorem orientAll_apply (P : Adj p) (es : List (Fin p × Fin p)) (fl : List Bool) (x y : Fin p) :
    orientAll P es fl x y =
      if ((x, y), true) ∈ List.zip es fl ∨ ((y, x), false) ∈ List.zip es fl then 0 else P x y := by
  unfold orientAll
  generalize List.zip es fl = z
  induction z generalizing P with
  | nil => simp
  | cons ef z ih =>
    obtain ⟨⟨a, b⟩, f⟩ := ef
    rw [List.foldl_cons, ih]
    by_cases h : ((x, y), true) ∈ z ∨ ((y, x), false) ∈ z
    · rw [if_pos h, if_pos (by simp only [List.mem_cons]; tauto)]
    · rw [if_neg h]
      push Not at h
      cases f
      · simp only [setEntry, Bool.false_eq_true, if_false, List.mem_cons, Prod.mk.injEq, h.1, h.2, or_false, and_false,
          and_true, false_or, Bool.true_eq_false]
        refine if_congr ?_ rfl rfl
        tauto
      · simp only [setEntry, if_true, List.mem_cons, Prod.mk.injEq, h.1, h.2, or_false, and_false,
          and_true, Bool.false_eq_true]

theorem mem_zip_map {α β : Type} (es : List α) (f : α → β) (e : α) (b : β) :
    (e, b) ∈ List.zip es (es.map f) ↔ e ∈ es ∧ b = f e := by
  induction es with
  | nil => simp
  | cons x xs ih =>
    simp only [List.map_cons, List.zip_cons_cons, List.mem_cons, ih, Prod.mk.injEq]
    constructor
    · rintro (⟨rfl, rfl⟩ | h)
      · exact ⟨Or.inl rfl, rfl⟩
      · exact ⟨Or.inr h.1, h.2⟩
    · rintro ⟨rfl | h, rfl⟩
      · exact Or.inl ⟨rfl, rfl⟩
      · exact Or.inr ⟨h, rfl⟩

theorem nodup_undirectedEdges {P : Adj p} : (undirectedEdges P).Nodup := nodup_wherePairs.filter _

theorem list_eq_map_of_zip {α : Type} (es : List α) (hes : es.Nodup) (fl : List Bool) (hlen : fl.length = es.length)
    (f : α → Bool) (hf : ∀ e b, (e, b) ∈ List.zip es fl → f e = b) : fl = es.map f := by
  induction es generalizing fl with
  | nil => simpa using hlen
  | cons x xs ih =>
    cases fl with
    | nil => simp at hlen
    | cons b bs =>
      rw [List.map_cons, hf x b (by simp)]
      congr 1
      exact ih (List.nodup_cons.1 hes).2 bs (by simpa using hlen) (fun e c h => hf e c (by
        rw [List.zip_cons_cons]; exact List.mem_cons_of_mem _ h))

theorem zip_functional {α β : Type} {es : List α} (hes : es.Nodup) {fl : List β} {e : α} {b c : β}
    (h1 : (e, b) ∈ List.zip es fl) (h2 : (e, c) ∈ List.zip es fl) : b = c := by
  induction es generalizing fl with
  | nil => simp at h1
  | cons x xs ih =>
    cases fl with
    | nil => simp at h1
    | cons d ds =>
      rw [List.zip_cons_cons, List.mem_cons] at h1 h2
      have hx := (List.nodup_cons.1 hes)
      rcases h1 with h1 | h1 <;> rcases h2 with h2 | h2
      · simp at h1 h2; rw [h1.2, h2.2]
      · simp at h1; obtain ⟨rfl, rfl⟩ := h1
        exact absurd (List.of_mem_zip h2).1 hx.1
      · simp at h2; obtain ⟨rfl, rfl⟩ := h2
        exact absurd (List.of_mem_zip h1).1 hx.1
      · exact ih hx.2 h1 h2

theorem orientAll_inv {P : Adj p} {fl : List Bool} (hlen : fl.length = (undirectedEdges P).length) :
    fl = (undirectedEdges P).map (fun e => decide (orientAll P (undirectedEdges P) fl e.1 e.2 = 0)) := by
  refine list_eq_map_of_zip _ nodup_undirectedEdges _ hlen _ ?_
  rintro ⟨x, y⟩ b h
  have hxy := mem_undirectedEdges.1 (List.of_mem_zip h).1
  rw [orientAll_apply]
  have hyx : ∀ c, ((y, x), c) ∉ List.zip (undirectedEdges P) fl := by
    intro c hc
    have := (mem_undirectedEdges.1 (List.of_mem_zip hc).1).2
    exact lt_asymm hxy.2 this
  cases b
  · rw [if_neg]
    · simpa using hxy.1.1
    · rintro (hc | hc)
      · exact absurd (zip_functional nodup_undirectedEdges h hc) (by simp)
      · exact hyx _ hc
  · rw [if_pos (Or.inl h)]
    simp

theorem keepDags_spec (it : SetIter p) {P : Adj p} (hP : Nonneg P) (l : List (Adj p)) (hl : ∀ A ∈ l, Nonneg A) :
    ∃ l', keepDags it P l = .ok l' ∧ l'.Sublist l ∧ ∀ A, A ∈ l' ↔ A ∈ l ∧ IsExtension A P := by
  induction l with
  | nil => exact ⟨[], rfl, List.Sublist.refl _, by simp⟩
  | cons A As ih =>
    obtain ⟨l', h1, h2, h3⟩ := ih (fun B hB => hl B (List.mem_cons_of_mem _ hB))
    have hA := hl A (by simp)
    by_cases hac : Acyclic A
    · have hd := (isDag_iff it hA).2 hac
      obtain ⟨b, hb, hb'⟩ : ∃ b, isConsistentExtension it A P = .ok b ∧ (b = true ↔ IsExtension A P) := by
        obtain ⟨b, hb1, hb2⟩ := C12_exact it A P hA hP hac
        exact ⟨b, hb1, hb2⟩
      refine ⟨if b then A :: l' else l', ?_, ?_, ?_⟩
      · unfold keepDags
        rw [if_pos hd, hb]
        simp only [h1]
      · cases b
        · exact h2.trans (List.sublist_cons_self _ _)
        · exact h2.cons_cons _
      · intro B
        cases b
        · simp only [Bool.false_eq_true, if_false, h3, List.mem_cons]
          constructor
          · rintro ⟨h, h'⟩; exact ⟨Or.inr h, h'⟩
          · rintro ⟨rfl | h, h'⟩
            · exact absurd (hb'.2 h') (by simp)
            · exact ⟨h, h'⟩
        · simp only [if_true, List.mem_cons, h3]
          constructor
          · rintro (rfl | h)
            · exact ⟨Or.inl rfl, hb'.1 rfl⟩
            · exact ⟨Or.inr h.1, h.2⟩
          · rintro ⟨rfl | h, h'⟩
            · exact Or.inl rfl
            · exact Or.inr ⟨h, h'⟩
    · have hd : isDag it A = false := by
        rw [← Bool.not_eq_true, isDag_iff it hA]; exact hac
      refine ⟨l', ?_, h2.trans (List.sublist_cons_self _ _), ?_⟩
      · unfold keepDags
        rw [hd]
        simp only [h1, Bool.false_eq_true, if_false]
      · intro B
        rw [h3, List.mem_cons]
        constructor
        · rintro ⟨h, h'⟩; exact ⟨Or.inr h, h'⟩
        · rintro ⟨rfl | h, h'⟩
          · exact absurd h'.1 hac
          · exact ⟨h, h'⟩


theorem length_undirectedEdges (P : Adj p) : (undirectedEdges P).length =
    (Finset.univ.filter (fun e : Fin p × Fin p => UndEdge P e.1 e.2 ∧ e.2 < e.1)).card := by
  rw [← List.toFinset_card_of_nodup nodup_undirectedEdges]
  congr 1
  ext e
  simp [mem_undirectedEdges]

theorem sumAll_onlyUndirected {P : Adj p} (hP : ZeroOne P) : sumAll (onlyUndirected P) =
    2 * ((undirectedEdges P).length : Int) + ((Finset.univ.filter (fun i : Fin p => P i i ≠ 0)).card : Int) := by
  classical
  have h1 : sumAll (onlyUndirected P) =
      ((Finset.univ.filter (fun e : Fin p × Fin p => UndEdge P e.1 e.2)).card : Int) := by
    unfold sumAll
    rw [← Fintype.sum_prod_type' (f := fun i j => onlyUndirected P i j), Finset.card_filter]
    push_cast
    refine Finset.sum_congr rfl (fun e _ => ?_)
    unfold onlyUndirected
    by_cases h : UndEdge P e.1 e.2
    · rw [if_pos h, if_pos (show P e.1 e.2 ≠ 0 ∧ P e.2 e.1 ≠ 0 from h)]
      exact (hP e.1 e.2).resolve_left h.1
    · rw [if_neg h, if_neg (show ¬ (P e.1 e.2 ≠ 0 ∧ P e.2 e.1 ≠ 0) from h)]
  have h2 : (Finset.univ.filter (fun e : Fin p × Fin p => UndEdge P e.1 e.2 ∧ e.1 < e.2)).card =
      (Finset.univ.filter (fun e : Fin p × Fin p => UndEdge P e.1 e.2 ∧ e.2 < e.1)).card := by
    refine Finset.card_bij (fun e _ => (e.2, e.1)) ?_ ?_ ?_
    · rintro ⟨a, b⟩ h
      simp only [Finset.mem_filter, Finset.mem_univ, true_and] at h ⊢
      exact ⟨⟨h.1.2, h.1.1⟩, h.2⟩
    · rintro ⟨a, b⟩ _ ⟨c, d⟩ _ h
      simp only [Prod.mk.injEq] at h ⊢
      exact ⟨h.2, h.1⟩
    · rintro ⟨a, b⟩ h
      simp only [Finset.mem_filter, Finset.mem_univ, true_and] at h
      refine ⟨(b, a), ?_, rfl⟩
      simp only [Finset.mem_filter, Finset.mem_univ, true_and]
      exact ⟨⟨h.1.2, h.1.1⟩, h.2⟩
  have h3 : (Finset.univ.filter (fun e : Fin p × Fin p => UndEdge P e.1 e.2 ∧ e.1 = e.2)).card =
      (Finset.univ.filter (fun i : Fin p => P i i ≠ 0)).card := by
    refine Finset.card_bij (fun e _ => e.1) ?_ ?_ ?_
    · rintro ⟨a, b⟩ h
      simp only [Finset.mem_filter, Finset.mem_univ, true_and] at h ⊢
      obtain ⟨h, rfl⟩ := h
      exact h.1
    · rintro ⟨a, b⟩ h ⟨c, d⟩ h' hh
      simp only [Finset.mem_filter, Finset.mem_univ, true_and] at h h' hh
      simp only [Prod.mk.injEq]
      exact ⟨hh, by rw [← h.2, ← h'.2, hh]⟩
    · intro a h
      simp only [Finset.mem_filter, Finset.mem_univ, true_and] at h
      exact ⟨(a, a), by rw [Finset.mem_filter]; exact ⟨Finset.mem_univ _, ⟨h, h⟩, rfl⟩, rfl⟩
  have h4 : (Finset.univ.filter (fun e : Fin p × Fin p => UndEdge P e.1 e.2)) =
      (Finset.univ.filter (fun e : Fin p × Fin p => UndEdge P e.1 e.2 ∧ e.2 < e.1)) ∪
      ((Finset.univ.filter (fun e : Fin p × Fin p => UndEdge P e.1 e.2 ∧ e.1 < e.2)) ∪
       (Finset.univ.filter (fun e : Fin p × Fin p => UndEdge P e.1 e.2 ∧ e.1 = e.2))) := by
    ext e
    simp only [Finset.mem_filter, Finset.mem_univ, true_and, Finset.mem_union]
    rcases lt_trichotomy e.1 e.2 with h | h | h <;> tauto
  rw [h1, h4, Finset.card_union_of_disjoint, Finset.card_union_of_disjoint, h2, h3, length_undirectedEdges]
  · push_cast; omega
  · rw [Finset.disjoint_filter]
    rintro e _ ⟨_, h⟩ ⟨_, h'⟩
    exact absurd h' (ne_of_lt h)
  · rw [← Finset.filter_or, Finset.disjoint_filter]
    rintro e _ ⟨_, h⟩ (⟨_, h'⟩ | ⟨_, h'⟩)
    · exact lt_asymm h h'
    · exact absurd h'.symm (ne_of_lt h)

theorem undirectedEdges_length_eq_zero {P : Adj p} (hl : NoLoops P) :
    (undirectedEdges P).length = 0 ↔ ¬ ∃ i j, UndEdge P i j := by
  rw [List.length_eq_zero_iff, List.eq_nil_iff_forall_not_mem]
  constructor
  · rintro h ⟨i, j, hij⟩
    rcases lt_trichotomy i j with h' | h' | h'
    · exact h (j, i) (mem_undirectedEdges.2 ⟨⟨hij.2, hij.1⟩, h'⟩)
    · subst h'; exact hij.1 (hl i)
    · exact h (i, j) (mem_undirectedEdges.2 ⟨hij, h'⟩)
  · rintro h e he
    exact h ⟨_, _, (mem_undirectedEdges.1 he).1⟩

theorem orientAll_zeroOne {P : Adj p} (hP : ZeroOne P) (es : List (Fin p × Fin p)) (fl : List Bool) :
    ZeroOne (orientAll P es fl) := by
  intro i j
  rw [orientAll_apply]
  split_ifs
  · exact Or.inl rfl
  · exact hP i j

/-- Every 0/1 extension is one of the enumerated orientations. -/
theorem orientAll_ext {P H : Adj p} (hP : ZeroOne P) (hH : ZeroOne H) (hE : IsExtension H P) :
    orientAll P (undirectedEdges P) ((undirectedEdges P).map (fun e => decide (H e.1 e.2 = 0))) = H := by
  refine zeroOne_ext (orientAll_zeroOne hP _ _) hH (fun x y => ?_)
  unfold Edge
  rw [orientAll_apply]
  simp only [mem_zip_map, mem_undirectedEdges]
  obtain ⟨hac, hsk, _, hd⟩ := hE
  have hadj := hsk x y
  unfold Adjacent at hadj
  have htwo : H x y ≠ 0 → H y x = 0 := fun h => hac.no_two h
  by_cases hxy : P x y = 0
  · have : H x y = 0 := by
      by_contra hne
      by_cases hyx : P y x = 0
      · exact absurd (hadj.1 (Or.inl hne)) (by simp [hxy, hyx])
      · exact hd y x ⟨hyx, hxy⟩ (htwo hne)
    simp [hxy, this]
  · by_cases hyx : P y x = 0
    · have hH := hd x y ⟨hxy, hyx⟩
      unfold Edge at hH
      have : ¬ UndEdge P x y := fun h => h.2 hyx
      have : ¬ UndEdge P y x := fun h => h.1 hyx
      simp [*]
    · have hu : UndEdge P x y := ⟨hxy, hyx⟩
      have hu' : UndEdge P y x := ⟨hyx, hxy⟩
      have hor := hadj.2 (Or.inl hxy)
      rcases lt_trichotomy x y with h | h | h
      · simp only [hu', h, hu, not_lt_of_gt h, true_and, false_and, and_false, false_or, and_true]
        by_cases h0 : H y x = 0
        · have : H x y ≠ 0 := by tauto
          simp [h0, this, hxy]
        · have : H x y = 0 := hac.no_two h0
          simp [h0, this]
      · subst h
        rcases hor with h' | h' <;> exact absurd (htwo h') h'
      · simp only [hu', h, hu, not_lt_of_gt h, true_and, false_and, and_false, or_false]
        by_cases h0 : H x y = 0 <;> simp [h0, hxy]

theorem allDags_spec (it : SetIter p) {P : Adj p} (hP : ZeroOne P) (hl : NoLoops P) (hu : ∃ i j, UndEdge P i j) :
    ∃ l, allDags it P = .ok l ∧ l.Nodup ∧ ∀ H, H ∈ l ↔ ZeroOne H ∧ IsExtension H P := by
  classical
  have hsum := sumAll_onlyUndirected hP
  rw [Finset.filter_false_of_mem (fun i _ => by simp [hl i]), Finset.card_empty] at hsum
  have hne : (undirectedEdges P).length ≠ 0 := fun h => (undirectedEdges_length_eq_zero hl).1 h hu
  have hcart : cartesian (id : Bool → Bool) (List.replicate (undirectedEdges P).length [true, false]) =
      .ok (prodList (List.replicate (undirectedEdges P).length [true, false])) := by
    rw [cartesian_ok]
    · simp
    · intro h; exact hne (by simpa using congrArg List.length h)
    · intro a ha; rw [List.eq_of_mem_replicate ha]; simp
  have hlen : (prodList (List.replicate (undirectedEdges P).length [true, false])).length =
      2 ^ (undirectedEdges P).length := by
    rw [length_prodList]; simp
  have hnd : (prodList (List.replicate (undirectedEdges P).length [true, false])).Nodup :=
    nodup_prodList _ (fun a ha => by rw [List.eq_of_mem_replicate ha]; simp)
  set combos := prodList (List.replicate (undirectedEdges P).length [true, false]) with hcombos
  have hnd' : (combos.map (orientAll P (undirectedEdges P))).Nodup := by
    refine List.Nodup.map_on ?_ hnd
    intro x hx y hy hxy
    rw [hcombos, mem_bools] at hx hy
    rw [orientAll_inv hx, orientAll_inv hy, hxy]
  obtain ⟨l, h1, h2, h3⟩ := keepDags_spec it hP.nonneg (combos.map (orientAll P (undirectedEdges P))) (by
    intro A hA
    rw [List.mem_map] at hA
    obtain ⟨fl, _, rfl⟩ := hA
    exact (orientAll_zeroOne hP _ _).nonneg)
  refine ⟨l, ?_, h2.nodup hnd', ?_⟩
  · unfold allDags
    simp only [hcart]
    rw [if_neg (by rw [hsum]; simp), if_neg hne, if_neg (by simpa using hlen),
      if_neg (by rw [List.toFinset_card_of_nodup hnd']; simp), h1]
  · intro H
    rw [h3]
    refine and_congr_left (fun hE => ?_)
    constructor
    · intro h
      rw [List.mem_map] at h
      obtain ⟨fl, _, rfl⟩ := h
      exact orientAll_zeroOne hP _ _
    · intro h01
      rw [List.mem_map]
      exact ⟨_, by rw [hcombos, mem_bools, List.length_map], orientAll_ext hP h01 hE⟩

theorem allDags_none (it : SetIter p) {P : Adj p} (hP : ZeroOne P) (hl : NoLoops P) (hu : ¬ ∃ i j, UndEdge P i j) :
    allDags it P = .ok [P] := by
  have hsum := sumAll_onlyUndirected hP
  rw [Finset.filter_false_of_mem (fun i _ => by simp [hl i]), Finset.card_empty] at hsum
  unfold allDags
  simp only []
  rw [if_neg (by rw [hsum]; simp), if_pos ((undirectedEdges_length_eq_zero hl).2 hu)]

theorem isExtension_self {P : Adj p} (h : Acyclic P) : IsExtension P P :=
  ⟨h, fun _ _ => Iff.rfl, fun _ _ _ => Iff.rfl, fun _ _ h => h.1⟩

/-- Without undirected edges a 0/1 DAG is its only 0/1 extension. -/
theorem ext_unique {P H : Adj p} (hP : ZeroOne P) (hH : ZeroOne H) (hu : ¬ ∃ i j, UndEdge P i j) (hE : IsExtension H P) :
    H = P := by
  refine zeroOne_ext hH hP (fun i j => ?_)
  obtain ⟨hac, hsk, _, hd⟩ := hE
  constructor
  · intro h
    by_contra hc
    unfold Edge at h hc
    rw [not_not] at hc
    have hadj := (hsk i j).1 (Or.inl h)
    have hji : P j i ≠ 0 := by
      rcases hadj with h' | h'
      · exact absurd hc h'
      · exact h'
    exact hd j i ⟨hji, hc⟩ (hac.no_two h)
  · intro h
    by_cases hji : P j i = 0
    · exact hd i j ⟨h, hji⟩
    · exact absurd ⟨i, j, h, hji⟩ hu

end Verif
