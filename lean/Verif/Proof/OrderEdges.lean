import Verif.Proof.Rank
import Verif.Model.Pdag

namespace Verif
open Spec
variable {p : Nat}

/-! ### `sort` -/

theorem posAssign_notMem (os : List (Fin p)) (k : Nat) (f : Fin p → Nat) (l : Fin p) (h : l ∉ os) :
    posAssign os k f l = f l := by
  induction os generalizing k f with
  | nil => rfl
  | cons o os ih =>
    rw [List.mem_cons, not_or] at h
    rw [posAssign, ih _ _ h.2, if_neg h.1]

theorem posAssign_eq (os : List (Fin p)) (k : Nat) (f : Fin p → Nat) (hnd : os.Nodup) (l : Fin p) (h : l ∈ os) :
    posAssign os k f l = k + os.idxOf l := by
  induction os generalizing k f with
  | nil => simp at h
  | cons o os ih =>
    rw [List.nodup_cons] at hnd
    rw [posAssign]
    by_cases hl : l = o
    · subst hl
      rw [posAssign_notMem _ _ _ _ hnd.1, if_pos rfl]
      simp
    · have hm : l ∈ os := by simpa [hl] using h
      rw [ih _ _ hnd.2 hm, List.idxOf_cons_ne _ (Ne.symm hl)]
      omega

/-- a list of all nodes without repetitions -/
def AllNodes (order : List (Fin p)) : Prop := order.Nodup ∧ ∀ i, i ∈ order

theorem AllNodes.length {order : List (Fin p)} (h : AllNodes order) : order.length = p := by
  rw [← List.toFinset_card_of_nodup h.1]
  have : order.toFinset = Finset.univ := by
    ext i; simp [h.2 i]
  rw [this]; simp

theorem AllNodes.reverse {order : List (Fin p)} (h : AllNodes order) : AllNodes order.reverse :=
  ⟨List.nodup_reverse.2 h.1, fun i => List.mem_reverse.2 (h.2 i)⟩

theorem pairLe_trans (a b c : Nat × Fin p) : pairLe a b = true → pairLe b c = true → pairLe a c = true := by
  simp only [pairLe, decide_eq_true_eq]; omega

theorem pairLe_total (a b : Nat × Fin p) : (pairLe a b || pairLe b a) = true := by
  simp only [pairLe, Bool.or_eq_true, decide_eq_true_eq]; omega

theorem sortBy_spec {order : List (Fin p)} (h : AllNodes order) (L : List (Fin p)) :
    ∃ l, sortBy L order = .ok l ∧ l.Perm L ∧ l.Pairwise (fun a b => order.idxOf a ≤ order.idxOf b) := by
  unfold sortBy
  have hlen := h.length
  rw [if_neg]
  · refine ⟨_, rfl, ?_, ?_⟩
    · refine ((pySorted_perm _ _).map _).trans ?_
      rw [List.map_map]
      have : (Prod.snd ∘ fun l : Fin p => (posAssign order 0 (fun _ => 0) l, l)) = id := rfl
      rw [this, List.map_id]
    · rw [List.pairwise_map]
      refine List.Pairwise.imp_of_mem ?_ (pySorted_pairwise pairLe_trans pairLe_total _)
      intro a b ha hb hab
      rw [(pySorted_perm _ _).mem_iff, List.mem_map] at ha hb
      obtain ⟨a, _, rfl⟩ := ha
      obtain ⟨b, _, rfl⟩ := hb
      simp only [pairLe, decide_eq_true_eq] at hab
      rw [posAssign_eq _ _ _ h.1 _ (h.2 a), posAssign_eq _ _ _ h.1 _ (h.2 b)] at hab
      dsimp only
      omega
  · rw [hlen]
    rintro (⟨o, _, ho⟩ | ⟨o, _, ho⟩)
    · have := o.isLt; omega
    · have := o.isLt; omega

theorem sortHead_spec {order : List (Fin p)} (h : AllNodes order) (L : List (Fin p)) (hL : L ≠ []) :
    ∃ y, sortHead L order = .ok y ∧ y ∈ L ∧ ∀ z ∈ L, order.idxOf y ≤ order.idxOf z := by
  obtain ⟨l, hl, hperm, hp⟩ := sortBy_spec h L
  unfold sortHead
  rw [hl]
  cases l with
  | nil => exact absurd hperm.symm.eq_nil hL
  | cons y l =>
    refine ⟨y, rfl, hperm.mem_iff.1 (by simp), fun z hz => ?_⟩
    have := hperm.mem_iff.2 hz
    rw [List.mem_cons] at this
    rw [List.pairwise_cons] at hp
    rcases this with rfl | hm
    · exact le_refl _
    · exact hp.1 z hm

theorem idxOf_reverse_lt {order : List (Fin p)} (h : AllNodes order) (a : Fin p) :
    order.reverse.idxOf a + order.idxOf a + 1 = p := by
  have hlen := h.length
  have ha := List.idxOf_lt_length_iff.2 (h.2 a)
  have ha' := List.idxOf_lt_length_iff.2 (h.reverse.2 a)
  rw [List.length_reverse] at ha'
  have h1 : order.reverse[order.reverse.idxOf a]'(by simpa using ha') = a := List.getElem_idxOf _
  rw [List.getElem_reverse] at h1
  have h2 := h.1.idxOf_getElem (order.length - 1 - order.reverse.idxOf a) (by omega)
  rw [h1] at h2
  omega

/-! ### `order_edges` -/

/-- edge `e` is labelled before edge `e'` by `order_edges`: later target first, then earlier source -/
def Before (pos : Fin p → Nat) (e e' : Fin p × Fin p) : Prop :=
  pos e'.2 < pos e.2 ∨ (e.2 = e'.2 ∧ pos e.1 < pos e'.1)

theorem before_tri {pos : Fin p → Nat} (hinj : Function.Injective pos) (e e' : Fin p × Fin p) :
    Before pos e e' ∨ e = e' ∨ Before pos e' e := by
  obtain ⟨a, b⟩ := e
  obtain ⟨c, d⟩ := e'
  unfold Before
  rcases lt_trichotomy (pos b) (pos d) with h | h | h
  · exact Or.inr (Or.inr (Or.inl h))
  · have hbd := hinj h
    subst hbd
    rcases lt_trichotomy (pos a) (pos c) with h | h | h
    · exact Or.inl (Or.inr ⟨rfl, h⟩)
    · exact Or.inr (Or.inl (by rw [hinj h]))
    · exact Or.inr (Or.inr (Or.inr ⟨rfl, h⟩))
  · exact Or.inl (Or.inl h)

theorem before_asymm {pos : Fin p → Nat} {e e' : Fin p × Fin p} (h : Before pos e e') : ¬ Before pos e' e := by
  obtain ⟨a, b⟩ := e
  obtain ⟨c, d⟩ := e'
  unfold Before at *
  dsimp only at *
  rintro (h1 | ⟨h1, h2⟩)
  · rcases h with h | ⟨rfl, h⟩ <;> omega
  · subst h1
    rcases h with h | ⟨_, h⟩ <;> omega

structure OInv (G : Adj p) (pos : Fin p → Nat) (i : Int) (O : Adj p) : Prop where
  edge : ∀ a b, O a b ≠ 0 ↔ Edge G a b
  rng : ∀ a b, O a b ≠ 0 → O a b = -1 ∨ (1 ≤ O a b ∧ O a b < i)
  mono : ∀ e e' : Fin p × Fin p, Edge G e.1 e.2 → Before pos e e' → 1 ≤ O e'.1 e'.2 → 1 ≤ O e.1 e.2 ∧ O e.1 e.2 < O e'.1 e'.2
  count : ((Finset.univ.filter (fun e : Fin p × Fin p => 1 ≤ O e.1 e.2)).card : Int) = i - 1

theorem nextEdge_spec {G : Adj p} {order : List (Fin p)} (hall : AllNodes order)
    (htopo : ∀ a b, Edge G a b → order.idxOf a < order.idxOf b) {O : Adj p} (hedge : ∀ a b, O a b ≠ 0 ↔ Edge G a b)
    (hex : ∃ a b, O a b = -1) :
    ∃ x y, nextEdge order O = .ok (x, y) ∧ O x y = -1 ∧
      ∀ a b, O a b = -1 → (a, b) = (x, y) ∨ Before order.idxOf (x, y) (a, b) := by
  have hE : ∀ a b, O a b = -1 → Edge G a b := fun a b h => (hedge a b).1 (by rw [h]; decide)
  obtain ⟨a0, b0, h0⟩ := hex
  obtain ⟨y, hy, hym, hymin⟩ := sortHead_spec hall.reverse (whereVec (fun k => decide (∃ j, O k j = -1 ∨ O j k = -1)))
    (List.ne_nil_of_mem (show a0 ∈ _ by simp only [mem_whereVec, decide_eq_true_eq]; exact ⟨b0, Or.inl h0⟩))
  simp only [mem_whereVec, decide_eq_true_eq] at hym hymin
  have hmax : ∀ z, (∃ j, O z j = -1 ∨ O j z = -1) → order.idxOf z ≤ order.idxOf y := by
    intro z hz
    have h1 := hymin z hz
    have h2 := idxOf_reverse_lt hall z
    have h3 := idxOf_reverse_lt hall y
    omega
  have hpar : ∃ j, O j y = -1 := by
    obtain ⟨j, hj | hj⟩ := hym
    · have h1 := htopo y j (hE y j hj)
      have h2 := hmax j ⟨y, Or.inr hj⟩
      omega
    · exact ⟨j, hj⟩
  obtain ⟨j, hj⟩ := hpar
  obtain ⟨x, hx, hxm, hxmin⟩ := sortHead_spec hall (whereVec (fun x => decide (O x y = -1)))
    (List.ne_nil_of_mem (show j ∈ _ by simp only [mem_whereVec, decide_eq_true_eq]; exact hj))
  simp only [mem_whereVec, decide_eq_true_eq] at hxm hxmin
  refine ⟨x, y, ?_, hxm, ?_⟩
  · unfold nextEdge
    rw [hy]
    dsimp only
    rw [hx]
  · intro a b hab
    have h1 := hmax b ⟨a, Or.inr hab⟩
    by_cases hb : b = y
    · subst hb
      have h2 := hxmin a hab
      by_cases ha : a = x
      · left; rw [ha]
      · right; right
        refine ⟨rfl, lt_of_le_of_ne h2 ?_⟩
        intro h
        exact ha ((List.idxOf_inj (hall.2 x)).1 h).symm
    · right; left
      refine lt_of_le_of_ne h1 ?_
      intro h
      exact hb ((List.idxOf_inj (hall.2 b)).1 h)

theorem OInv.step {G : Adj p} {pos : Fin p → Nat} {i : Int} {O : Adj p} (h : OInv G pos i O) {x y : Fin p}
    (hi : 1 ≤ i) (hxy : O x y = -1) (hmin : ∀ a b, O a b = -1 → (a, b) = (x, y) ∨ Before pos (x, y) (a, b)) :
    OInv G pos (i + 1) (setEntry O x y i) := by
  have hval : ∀ a b, setEntry O x y i a b = if a = x ∧ b = y then i else O a b := fun _ _ => rfl
  have hpos : ∀ a b, Edge G a b → 1 ≤ O a b ∨ O a b = -1 := by
    intro a b hab
    rcases h.rng a b ((h.edge a b).2 hab) with h1 | h1
    · exact Or.inr h1
    · exact Or.inl h1.1
  constructor
  · intro a b
    rw [hval]
    split
    · rename_i hab
      obtain ⟨rfl, rfl⟩ := hab
      rw [← h.edge, hxy]
      constructor
      · intro _; decide
      · intro _; omega
    · exact h.edge a b
  · intro a b
    rw [hval]
    split
    · intro _; right; omega
    · intro hab
      rcases h.rng a b hab with h1 | h1
      · exact Or.inl h1
      · right; omega
  · rintro ⟨a, b⟩ ⟨c, d⟩ hE hbef
    dsimp only at hE ⊢
    rw [hval, hval]
    intro h1
    by_cases hcd : c = x ∧ d = y
    · obtain ⟨rfl, rfl⟩ := hcd
      rw [if_pos (show c = c ∧ d = d from ⟨rfl, rfl⟩)]
      have hne : ¬ (a = c ∧ b = d) := by
        rintro ⟨rfl, rfl⟩
        exact before_asymm hbef hbef
      rw [if_neg hne]
      rcases hpos a b hE with h2 | h2
      · rcases h.rng a b (by omega) with h3 | h3
        · omega
        · exact h3
      · rcases hmin a b h2 with h3 | h3
        · exact absurd (by simpa using h3) hne
        · exact absurd h3 (before_asymm hbef)
    · rw [if_neg hcd] at h1 ⊢
      have h2 := h.mono (a, b) (c, d) hE hbef h1
      have hne : ¬ (a = x ∧ b = y) := by
        rintro ⟨rfl, rfl⟩
        have := h2.1
        dsimp only at this
        omega
      rw [if_neg hne]
      exact h2
  · have : (Finset.univ.filter (fun e : Fin p × Fin p => 1 ≤ setEntry O x y i e.1 e.2)) =
        insert (x, y) (Finset.univ.filter (fun e : Fin p × Fin p => 1 ≤ O e.1 e.2)) := by
      ext ⟨a, b⟩
      simp only [Finset.mem_filter, Finset.mem_univ, true_and, Finset.mem_insert, Prod.mk.injEq, hval]
      by_cases hab : a = x ∧ b = y
      · simp [hab, hi]
      · simp [hab]
    rw [this, Finset.card_insert_of_notMem (by simp [hxy]), Nat.cast_add, h.count]
    simp

theorem orderEdgesLoop_spec {G : Adj p} {order : List (Fin p)} (hall : AllNodes order)
    (htopo : ∀ a b, Edge G a b → order.idxOf a < order.idxOf b) (n : Nat) (i : Int) (O : Adj p) (hi : 1 ≤ i)
    (h : OInv G order.idxOf i O) (hn : (Finset.univ.filter (fun e : Fin p × Fin p => O e.1 e.2 = -1)).card ≤ n) :
    ∃ O' i', orderEdgesLoop order n i O = .ok O' ∧ OInv G order.idxOf i' O' ∧ ∀ a b, O' a b ≠ -1 := by
  induction n generalizing i O with
  | zero =>
    have hno : ¬ ∃ a b, O a b = -1 := by
      rintro ⟨a, b, hab⟩
      rw [Nat.le_zero, Finset.card_eq_zero, Finset.filter_eq_empty_iff] at hn
      exact hn (Finset.mem_univ (a, b)) hab
    rw [orderEdgesLoop, if_neg hno]
    push Not at hno
    exact ⟨O, i, rfl, h, hno⟩
  | succ n ih =>
    rw [orderEdgesLoop]
    by_cases hex : ∃ a b, O a b = -1
    · rw [if_pos hex]
      obtain ⟨x, y, hne, hxy, hmin⟩ := nextEdge_spec hall htopo h.edge hex
      rw [hne]
      dsimp only
      refine ih (i + 1) _ (by omega) (h.step hi hxy hmin) ?_
      have : (Finset.univ.filter (fun e : Fin p × Fin p => setEntry O x y i e.1 e.2 = -1)) ⊂
          (Finset.univ.filter (fun e : Fin p × Fin p => O e.1 e.2 = -1)) := by
        rw [Finset.ssubset_iff_of_subset]
        · refine ⟨(x, y), by simpa using hxy, ?_⟩
          rw [Finset.mem_filter]
          simp [setEntry]; omega
        · rintro ⟨a, b⟩ hab
          rw [Finset.mem_filter] at hab ⊢
          refine ⟨Finset.mem_univ _, ?_⟩
          have h1 := hab.2
          dsimp only [setEntry] at h1 ⊢
          split at h1
          · omega
          · exact h1
      have := Finset.card_lt_card this
      omega
    · rw [if_neg hex]
      push Not at hex
      exact ⟨O, i, rfl, h, hex⟩

/-- what `label_edges` needs to know about the edge labels -/
structure OrderedBy (G : Adj p) (pos : Fin p → Nat) (O : Adj p) : Prop where
  inj : Function.Injective pos
  topo : ∀ a b, Edge G a b → pos a < pos b
  edge : ∀ a b, O a b ≠ 0 ↔ Edge G a b
  nonneg : ∀ a b, 0 ≤ O a b
  target : ∀ x y x' y', Edge G x y → Edge G x' y' → pos y < pos y' → O x' y' < O x y
  source : ∀ x x' y, Edge G x y → Edge G x' y → pos x' < pos x → O x' y < O x y

/-- what `label_edges` needs of the labels -/
structure SortedBy (G : Adj p) (pos : Fin p → Nat) (O : Adj p) : Prop where
  inj : Function.Injective pos
  topo : ∀ a b, Edge G a b → pos a < pos b
  edge : ∀ a b, O a b ≠ 0 ↔ Edge G a b
  nonneg : ∀ a b, 0 ≤ O a b
  target : ∀ z x y, Edge G z x → Edge G x y → O x y < O z x
  source : ∀ x x' y, Edge G x y → Edge G x' y → pos x' < pos x → O x' y < O x y

theorem OrderedBy.sorted {G : Adj p} {pos : Fin p → Nat} {O : Adj p} (h : OrderedBy G pos O) : SortedBy G pos O :=
  ⟨h.inj, h.topo, h.edge, h.nonneg, fun z x y h1 h2 => h.target z x x y h1 h2 (h.topo x y h2), h.source⟩

theorem orderEdges_spec' (it : SetIter p) {G : Adj p} (hG : Nonneg G) (hac : Acyclic G) {order : List (Fin p)}
    (hord : topologicalOrdering it G = .ok order) :
    ∃ O, orderEdges it G = .ok O ∧ OrderedBy G order.idxOf O ∧
      (nonzeroEntries O).Perm ((List.range (nnz O)).map (fun k : Nat => (k : Int) + 1)) := by
  have hto := (topologicalOrdering_spec it G hG).1 order hord
  have hall : AllNodes order := ⟨hto.1, hto.2.1⟩
  have htopo : ∀ a b, Edge G a b → order.idxOf a < order.idxOf b := fun a b h => hto.idx_lt h
  have hinj : Function.Injective order.idxOf := fun a b h => (List.idxOf_inj (hall.2 a)).1 h
  have hinit : OInv G order.idxOf 1 (fun a b => if G a b ≠ 0 then -1 else 0) := by
    constructor
    · intro a b; unfold Edge; split <;> simp_all
    · intro a b; split <;> simp_all
    · intro e e' _ _ h1; exfalso; split at h1 <;> omega
    · rw [Finset.filter_false_of_mem]
      · simp
      · intro e _; split <;> omega
  obtain ⟨O, i, hO, hinv, hno⟩ := orderEdgesLoop_spec hall htopo (p * p) 1 _ (le_refl _) hinit (by
    refine le_trans (Finset.card_le_univ _) ?_
    simp)
  have hpos : ∀ a b, O a b ≠ 0 → 1 ≤ O a b ∧ O a b < i := fun a b h => (hinv.rng a b h).resolve_left (hno a b)
  have hlt : ∀ e e' : Fin p × Fin p, Edge G e.1 e.2 → Edge G e'.1 e'.2 → Before order.idxOf e e' → O e.1 e.2 < O e'.1 e'.2 := by
    intro e e' h1 h2 h3
    exact (hinv.mono e e' h1 h3 (hpos _ _ ((hinv.edge _ _).2 h2)).1).2
  refine ⟨O, ?_, ⟨hinj, htopo, hinv.edge, ?_, ?_, ?_⟩, ?_⟩
  · unfold orderEdges
    rw [(isDag_iff it hG).2 hac, hord]
    simpa using hO
  · intro a b
    by_cases h : O a b = 0
    · omega
    · have := (hpos a b h).1; omega
  · intro x y x' y' h1 h2 h3
    exact hlt (x', y') (x, y) h2 h1 (Or.inl h3)
  · intro x x' y h1 h2 h3
    exact hlt (x', y) (x, y) h2 h1 (Or.inr ⟨rfl, h3⟩)
  · have hnz : nonzeroEntries O = (wherePairs (fun a b => decide (O a b ≠ 0))).map (fun e => O e.1 e.2) := by
      unfold nonzeroEntries wherePairs
      rw [List.filter_map]
      rfl
    have hcard : (nnz O : Int) = i - 1 := by
      rw [← hinv.count]
      unfold nnz
      congr 2
      apply Finset.filter_congr
      intro e _
      constructor
      · intro h; exact (hpos _ _ h).1
      · intro h; omega
    have hlen : (wherePairs (fun a b => decide (O a b ≠ 0))).length = nnz O := by
      rw [← List.toFinset_card_of_nodup nodup_wherePairs]
      unfold nnz
      congr 1
      ext e
      simp
    rw [hnz]
    have hnd : ((wherePairs (fun a b => decide (O a b ≠ 0))).map (fun e => O e.1 e.2)).Nodup := by
      refine List.Nodup.map_on ?_ nodup_wherePairs
      intro e he e' he' heq
      simp only [mem_wherePairs, decide_eq_true_eq] at he he'
      rw [hinv.edge] at he he'
      rcases before_tri hinj e e' with h | h | h
      · have := hlt e e' he he' h; omega
      · exact h
      · have := hlt e' e he' he h; omega
    have hsub : ((wherePairs (fun a b => decide (O a b ≠ 0))).map (fun e => O e.1 e.2)) ⊆
        ((List.range (nnz O)).map (fun k : Nat => (k : Int) + 1)) := by
      intro v hv
      rw [List.mem_map] at hv
      obtain ⟨e, he, rfl⟩ := hv
      simp only [mem_wherePairs, decide_eq_true_eq] at he
      have := hpos _ _ he
      rw [List.mem_map]
      refine ⟨(O e.1 e.2 - 1).toNat, ?_, ?_⟩
      · rw [List.mem_range]; omega
      · omega
    exact (hnd.subperm hsub).perm_of_length_le (by
      rw [List.length_map, List.length_map, List.length_range, hlen])

theorem orderEdges_spec (it : SetIter p) {G : Adj p} (hG : Nonneg G) (hac : Acyclic G) :
    ∃ O pos, orderEdges it G = .ok O ∧ OrderedBy G pos O ∧
      (nonzeroEntries O).Perm ((List.range (nnz O)).map (fun k : Nat => (k : Int) + 1)) := by
  obtain ⟨order, hord⟩ := (topologicalOrdering_ok_iff it hG).2 hac
  obtain ⟨O, h⟩ := orderEdges_spec' it hG hac hord
  exact ⟨O, _, h⟩

end Verif
