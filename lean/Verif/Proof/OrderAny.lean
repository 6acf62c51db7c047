import Verif.Proof.Cpdag

namespace Verif
open Spec
variable {p : Nat}

/-! ### `sort` for a list in which nodes are repeated -/

theorem posAssign_last (os : List (Fin p)) (k : Nat) (f : Fin p → Nat) (v : Fin p) (h : v ∈ os) :
    posAssign os k f v + os.reverse.idxOf v + 1 = k + os.length := by
  induction os generalizing k f with
  | nil => cases h
  | cons o os ih =>
    rw [posAssign, List.reverse_cons, List.length_cons]
    by_cases hm : v ∈ os
    · have := ih (k + 1) (fun l => if l = o then k else f l) hm
      rw [List.idxOf_append_of_mem (List.mem_reverse.2 hm)]
      omega
    · have ho : v = o := by simpa [hm] using h
      subst ho
      rw [posAssign_notMem _ _ _ _ hm, if_pos rfl, List.idxOf_append_of_notMem (by simpa using hm)]
      simp
      omega

theorem length_ge {order : List (Fin p)} (h : ∀ v, v ∈ order) : p ≤ order.length := by
  have : order.toFinset = Finset.univ := by ext i; simp [h i]
  have hc := List.toFinset_card_le order
  rw [this] at hc
  simpa using hc

theorem sortHead_any {order : List (Fin p)} (h : ∀ v, v ∈ order) (L : List (Fin p)) :
    (L = [] → sortHead L order = .error .indexError) ∧
    (L ≠ [] → ∃ y, sortHead L order = .ok y ∧ y ∈ L ∧ ∀ z ∈ L, order.reverse.idxOf z ≤ order.reverse.idxOf y) := by
  have hlen := length_ge h
  have hs : sortBy L order = .ok ((pySorted pairLe (L.map (fun l => (posAssign order 0 (fun _ => 0) l, l)))).map Prod.snd) := by
    unfold sortBy
    rw [if_neg]
    rintro (⟨o, _, ho⟩ | ⟨o, _, ho⟩)
    · have := o.isLt; omega
    · have := o.isLt; omega
  have hperm : ((pySorted pairLe (L.map (fun l => (posAssign order 0 (fun _ => 0) l, l)))).map Prod.snd).Perm L := by
    refine ((pySorted_perm _ _).map _).trans ?_
    rw [List.map_map]
    have : (Prod.snd ∘ fun l : Fin p => (posAssign order 0 (fun _ => 0) l, l)) = id := rfl
    rw [this, List.map_id]
  have hp : ((pySorted pairLe (L.map (fun l => (posAssign order 0 (fun _ => 0) l, l)))).map Prod.snd).Pairwise
      (fun a b => order.reverse.idxOf b ≤ order.reverse.idxOf a) := by
    rw [List.pairwise_map]
    refine List.Pairwise.imp_of_mem ?_ (pySorted_pairwise pairLe_trans pairLe_total _)
    intro a b ha hb hab
    rw [(pySorted_perm _ _).mem_iff, List.mem_map] at ha hb
    obtain ⟨a, _, rfl⟩ := ha
    obtain ⟨b, _, rfl⟩ := hb
    simp only [pairLe, decide_eq_true_eq] at hab
    have h1 := posAssign_last order 0 (fun _ => 0) a (h a)
    have h2 := posAssign_last order 0 (fun _ => 0) b (h b)
    dsimp only
    omega
  unfold sortHead
  rw [hs]
  revert hperm hp
  cases (pySorted pairLe (L.map (fun l => (posAssign order 0 (fun _ => 0) l, l)))).map Prod.snd with
  | nil =>
    intro hperm _
    exact ⟨fun _ => rfl, fun hL => absurd hperm.symm.eq_nil hL⟩
  | cons y l =>
    intro hperm hp
    refine ⟨fun hL => ?_, fun _ => ⟨y, rfl, hperm.mem_iff.1 (by simp), fun z hz => ?_⟩⟩
    · subst hL
      exact absurd hperm.eq_nil (by simp)
    · have := hperm.mem_iff.2 hz
      rw [List.mem_cons] at this
      rw [List.pairwise_cons] at hp
      rcases this with rfl | hm
      · exact le_refl _
      · exact hp.1 z hm

/-! ### `order_edges` for a list in which nodes are repeated -/

/-- The target of the edge that is labelled next is the node that occurs last for the first time, and has an unlabelled parent. -/
theorem nextEdge_any {order : List (Fin p)} (hall : ∀ v, v ∈ order) {O : Adj p} (hex : ∃ a b, O a b = -1) :
    ∃ y, (∃ j, O y j = -1 ∨ O j y = -1) ∧ (∀ z j, O z j = -1 ∨ O j z = -1 → order.idxOf z ≤ order.idxOf y) ∧
      ((∃ x, O x y = -1 ∧ (∀ z, O z y = -1 → order.reverse.idxOf z ≤ order.reverse.idxOf x) ∧ nextEdge order O = .ok (x, y)) ∨ (∀ x, O x y ≠ -1) ∧ nextEdge order O = .error .indexError) := by
  obtain ⟨a0, b0, h0⟩ := hex
  obtain ⟨y, hy, hym, hymin⟩ := (sortHead_any (fun v => List.mem_reverse.2 (hall v)) (whereVec (fun k => decide (∃ j, O k j = -1 ∨ O j k = -1)))).2
    (List.ne_nil_of_mem (show a0 ∈ _ by simp only [mem_whereVec, decide_eq_true_eq]; exact ⟨b0, Or.inl h0⟩))
  simp only [mem_whereVec, decide_eq_true_eq, List.reverse_reverse] at hym hymin
  refine ⟨y, hym, fun z j hz => hymin z ⟨j, hz⟩, ?_⟩
  obtain ⟨h1, h2⟩ := sortHead_any hall (whereVec (fun x => decide (O x y = -1)))
  unfold nextEdge
  rw [hy]
  dsimp only
  by_cases hL : whereVec (fun x => decide (O x y = -1)) = []
  · right
    rw [h1 hL]
    refine ⟨fun x hx => ?_, rfl⟩
    have : x ∈ whereVec (fun x => decide (O x y = -1)) := by simpa using hx
    rw [hL] at this
    cases this
  · left
    obtain ⟨x, hx, hm, hmin⟩ := h2 hL
    refine ⟨x, by simpa using hm, fun z hz => hmin z (by simpa using hz), ?_⟩
    rw [hx]

/-- The labels that have been given before the label `i`. -/
structure Labels (G : Adj p) (i : Int) (O : Adj p) : Prop where
  edge : ∀ a b, O a b ≠ 0 ↔ Edge G a b
  rng : ∀ a b, O a b ≠ 0 → O a b = -1 ∨ (1 ≤ O a b ∧ O a b < i)
  inj : ∀ a b c d, 1 ≤ O a b → O a b = O c d → a = c ∧ b = d
  count : ((Finset.univ.filter (fun e : Fin p × Fin p => 1 ≤ O e.1 e.2)).card : Int) = i - 1

theorem Labels.init (G : Adj p) : Labels G 1 (fun a b => if G a b ≠ 0 then -1 else 0) := by
  constructor
  · intro a b; unfold Edge; split <;> simp_all
  · intro a b; split <;> simp_all
  · intro a b c d h; exfalso; split at h <;> omega
  · rw [Finset.filter_false_of_mem]
    · simp
    · intro e _; split <;> omega

theorem Labels.step {G : Adj p} {i : Int} {O : Adj p} (h : Labels G i O) {x y : Fin p} (hi : 1 ≤ i) (hxy : O x y = -1) :
    Labels G (i + 1) (setEntry O x y i) := by
  have hval : ∀ a b, setEntry O x y i a b = if a = x ∧ b = y then i else O a b := fun _ _ => rfl
  constructor
  · intro a b
    rw [hval]
    split
    · rename_i hab
      obtain ⟨rfl, rfl⟩ := hab
      rw [← h.edge, hxy]
      constructor
      · intro _; decide
      · intro _; omega
    · exact h.edge a b
  · intro a b
    rw [hval]
    split
    · intro _; right; omega
    · intro hab
      rcases h.rng a b hab with h1 | h1
      · exact Or.inl h1
      · right; omega
  · intro a b c d
    rw [hval, hval]
    intro h1 h2
    by_cases hab : a = x ∧ b = y
    · rw [if_pos hab] at h1 h2
      by_cases hcd : c = x ∧ d = y
      · rw [hab.1, hab.2, hcd.1, hcd.2]; exact ⟨rfl, rfl⟩
      · rw [if_neg hcd] at h2
        rcases h.rng c d (by omega) with h3 | h3 <;> omega
    · rw [if_neg hab] at h1 h2
      by_cases hcd : c = x ∧ d = y
      · rw [if_pos hcd] at h2
        rcases h.rng a b (by omega) with h3 | h3 <;> omega
      · rw [if_neg hcd] at h2
        exact h.inj a b c d h1 h2
  · have : (Finset.univ.filter (fun e : Fin p × Fin p => 1 ≤ setEntry O x y i e.1 e.2)) =
        insert (x, y) (Finset.univ.filter (fun e : Fin p × Fin p => 1 ≤ O e.1 e.2)) := by
      ext ⟨a, b⟩
      simp only [Finset.mem_filter, Finset.mem_univ, true_and, Finset.mem_insert, Prod.mk.injEq, hval]
      by_cases hab : a = x ∧ b = y
      · simp [hab, hi]
      · simp [hab]
    rw [this, Finset.card_insert_of_notMem (by simp [hxy]), Nat.cast_add, h.count]
    simp

/-- An edge out of a node is labelled before the edges into it, and of two edges into a node the one with the source that occurs first, where a
repeated node counts where it occurs last, is labelled first. -/
structure Sorted (G : Adj p) (order : List (Fin p)) (O : Adj p) : Prop where
  target : ∀ z x y, Edge G z x → Edge G x y → 1 ≤ O z x → 1 ≤ O x y ∧ O x y < O z x
  source : ∀ x x' y, Edge G x y → Edge G x' y → order.reverse.idxOf x < order.reverse.idxOf x' → 1 ≤ O x y → 1 ≤ O x' y ∧ O x' y < O x y

theorem Sorted.step {G : Adj p} {order : List (Fin p)} {i : Int} {O : Adj p} (h : Labels G i O) (hs : Sorted G order O)
    (hfwd : ∀ a b, Edge G a b → order.idxOf a < order.idxOf b) {x y : Fin p} (hxy : O x y = -1)
    (hmax : ∀ z j, O z j = -1 ∨ O j z = -1 → order.idxOf z ≤ order.idxOf y)
    (hmin : ∀ z, O z y = -1 → order.reverse.idxOf z ≤ order.reverse.idxOf x) : Sorted G order (setEntry O x y i) := by
  have hval : ∀ a b, setEntry O x y i a b = if a = x ∧ b = y then i else O a b := fun _ _ => rfl
  have hne : ∀ {a b}, Edge G a b → O a b ≠ -1 → 1 ≤ O a b ∧ O a b < i := fun hab hn =>
    (h.rng _ _ ((h.edge _ _).2 hab)).resolve_left hn
  constructor
  · intro a b c hab hbc
    rw [hval, hval]
    by_cases h1 : a = x ∧ b = y
    · obtain ⟨rfl, rfl⟩ := h1
      have hlt := hfwd b c hbc
      have hnb : ¬ (b = a ∧ c = b) := by rintro ⟨-, rfl⟩; omega
      rw [if_pos ⟨rfl, rfl⟩, if_neg hnb]
      intro _
      refine hne hbc fun hc => ?_
      have := hmax c b (.inr hc)
      omega
    · rw [if_neg h1]
      intro h2
      obtain ⟨h3, h4⟩ := hs.target a b c hab hbc h2
      rw [if_neg (by rintro ⟨rfl, rfl⟩; omega)]
      exact ⟨h3, h4⟩
  · intro a b c hac hbc hlt
    rw [hval, hval]
    by_cases h1 : a = x ∧ c = y
    · obtain ⟨rfl, rfl⟩ := h1
      rw [if_pos ⟨rfl, rfl⟩, if_neg (by rintro ⟨rfl, -⟩; omega)]
      intro _
      refine hne hbc fun hc => ?_
      have := hmin b hc
      omega
    · rw [if_neg h1]
      intro h2
      obtain ⟨h3, h4⟩ := hs.source a b c hac hbc hlt h2
      rw [if_neg (by rintro ⟨rfl, rfl⟩; omega)]
      exact ⟨h3, h4⟩

theorem unlabelled_lt {O : Adj p} {x y : Fin p} {i : Int} (hi : 1 ≤ i) (hxy : O x y = -1) :
    (Finset.univ.filter (fun e : Fin p × Fin p => setEntry O x y i e.1 e.2 = -1)).card <
      (Finset.univ.filter (fun e : Fin p × Fin p => O e.1 e.2 = -1)).card := by
  apply Finset.card_lt_card
  rw [Finset.ssubset_iff_of_subset]
  · refine ⟨(x, y), by simpa using hxy, ?_⟩
    rw [Finset.mem_filter]
    simp [setEntry]; omega
  · rintro ⟨a, b⟩ hab
    rw [Finset.mem_filter] at hab ⊢
    refine ⟨Finset.mem_univ _, ?_⟩
    have h1 := hab.2
    dsimp only [setEntry] at h1 ⊢
    split at h1
    · omega
    · exact h1

theorem orderEdgesLoop_forward {G : Adj p} {order : List (Fin p)} (hall : ∀ v, v ∈ order)
    (hfwd : ∀ a b, Edge G a b → order.idxOf a < order.idxOf b) (n : Nat) (i : Int) (O : Adj p) (hi : 1 ≤ i)
    (h : Labels G i O) (hs : Sorted G order O) (hn : (Finset.univ.filter (fun e : Fin p × Fin p => O e.1 e.2 = -1)).card ≤ n) :
    ∃ O' i', orderEdgesLoop order n i O = .ok O' ∧ Labels G i' O' ∧ Sorted G order O' ∧ ∀ a b, O' a b ≠ -1 := by
  induction n generalizing i O with
  | zero =>
    have hno : ¬ ∃ a b, O a b = -1 := by
      rintro ⟨a, b, hab⟩
      rw [Nat.le_zero, Finset.card_eq_zero, Finset.filter_eq_empty_iff] at hn
      exact hn (Finset.mem_univ (a, b)) hab
    rw [orderEdgesLoop, if_neg hno]
    push Not at hno
    exact ⟨O, i, rfl, h, hs, hno⟩
  | succ n ih =>
    rw [orderEdgesLoop]
    by_cases hex : ∃ a b, O a b = -1
    · rw [if_pos hex]
      obtain ⟨y, ⟨j, hj⟩, hmax, hx | ⟨hno, -⟩⟩ := nextEdge_any hall hex
      · obtain ⟨x, hxy, hxmin, hne⟩ := hx
        rw [hne]
        dsimp only
        refine ih (i + 1) _ (by omega) (h.step hi hxy) (hs.step h hfwd hxy hmax hxmin) ?_
        have := unlabelled_lt hi hxy
        omega
      · exfalso
        rcases hj with hj | hj
        · have h1 := hfwd y j ((h.edge y j).1 (by omega))
          have h2 := hmax j y (.inr hj)
          omega
        · exact hno j hj
    · rw [if_neg hex]
      push Not at hex
      exact ⟨O, i, rfl, h, hs, hex⟩

theorem orderEdgesLoop_backward {order : List (Fin p)} (hall : ∀ v, v ∈ order) {x v : Fin p} (hb : order.idxOf v < order.idxOf x)
    (n : Nat) (i : Int) (O : Adj p) (hi : 1 ≤ i) (hxv : O x v = -1)
    (hn : (Finset.univ.filter (fun e : Fin p × Fin p => O e.1 e.2 = -1)).card ≤ n) :
    orderEdgesLoop order n i O = .error .indexError := by
  induction n generalizing i O with
  | zero =>
    exfalso
    rw [Nat.le_zero, Finset.card_eq_zero, Finset.filter_eq_empty_iff] at hn
    exact hn (Finset.mem_univ (x, v)) hxv
  | succ n ih =>
    have hex : ∃ a b, O a b = -1 := ⟨x, v, hxv⟩
    rw [orderEdgesLoop, if_pos hex]
    obtain ⟨y, -, hmax, hx | ⟨-, he⟩⟩ := nextEdge_any hall hex
    · obtain ⟨x', hxy, -, hne⟩ := hx
      rw [hne]
      dsimp only
      refine ih (i + 1) _ (by omega) ?_ ?_
      · have hyv : v ≠ y := by
          rintro rfl
          have := hmax x v (.inl hxv)
          omega
        simp [setEntry, hyv, hxv]
      · have := unlabelled_lt hi hxy
        omega
    · rw [he]

theorem Labels.perm {G : Adj p} {i : Int} {O : Adj p} (h : Labels G i O) (hno : ∀ a b, O a b ≠ -1) :
    (nonzeroEntries O).Perm ((List.range (nnz O)).map (fun k : Nat => (k : Int) + 1)) := by
  have hpos : ∀ a b, O a b ≠ 0 → 1 ≤ O a b ∧ O a b < i := fun a b hab => (h.rng a b hab).resolve_left (hno a b)
  have hnz : nonzeroEntries O = (wherePairs (fun a b => decide (O a b ≠ 0))).map (fun e => O e.1 e.2) := by
    unfold nonzeroEntries wherePairs
    rw [List.filter_map]
    rfl
  have hcard : (nnz O : Int) = i - 1 := by
    rw [← h.count]
    unfold nnz
    congr 2
    apply Finset.filter_congr
    intro e _
    constructor
    · intro h; exact (hpos _ _ h).1
    · intro h; omega
  have hlen : (wherePairs (fun a b => decide (O a b ≠ 0))).length = nnz O := by
    rw [← List.toFinset_card_of_nodup nodup_wherePairs]
    unfold nnz
    congr 1
    ext e
    simp
  rw [hnz]
  have hnd : ((wherePairs (fun a b => decide (O a b ≠ 0))).map (fun e => O e.1 e.2)).Nodup := by
    refine List.Nodup.map_on ?_ nodup_wherePairs
    intro e he e' he' heq
    simp only [mem_wherePairs, decide_eq_true_eq] at he he'
    obtain ⟨h1, h2⟩ := h.inj _ _ _ _ (hpos _ _ he).1 heq
    exact Prod.ext h1 h2
  have hsub : ((wherePairs (fun a b => decide (O a b ≠ 0))).map (fun e => O e.1 e.2)) ⊆
      ((List.range (nnz O)).map (fun k : Nat => (k : Int) + 1)) := by
    intro v hv
    rw [List.mem_map] at hv
    obtain ⟨e, he, rfl⟩ := hv
    simp only [mem_wherePairs, decide_eq_true_eq] at he
    have := hpos _ _ he
    rw [List.mem_map]
    refine ⟨(O e.1 e.2 - 1).toNat, ?_, ?_⟩
    · rw [List.mem_range]; omega
    · omega
  exact (hnd.subperm hsub).perm_of_length_le (by
    rw [List.length_map, List.length_map, List.length_range, hlen])

/-! ### `label_edges` ends for every labelling of the edges of a DAG -/

theorem labelPass_total {G : Adj p} (hac : Acyclic G) {O L : Adj p} (hO : ∀ a b, Edge G a b → 1 ≤ O a b) (hL : ∀ a b, L a b ≠ 0 ↔ Edge G a b)
    (hv : ∀ a b, L a b ≠ 0 → L a b = 1 ∨ L a b = -1 ∨ L a b = -2) (hex : ∃ a b, L a b = -2) :
    ∃ L' y, labelPass O L = .ok L' ∧ (∀ a b, L' a b ≠ 0 ↔ Edge G a b) ∧ (∀ a b, L' a b ≠ 0 → L' a b = 1 ∨ L' a b = -1 ∨ L' a b = -2) ∧ (∃ z, L z y = -2) ∧ (∀ z, L' z y ≠ -2) ∧
      ∀ a b, b ≠ y → L' a b = L a b := by
  obtain ⟨a0, b0, h0⟩ := hex
  have hE : ∀ {a b}, L a b = -2 → Edge G a b := fun h => (hL _ _).1 (by omega)
  unfold labelPass
  obtain ⟨⟨x, y⟩, hm, hmax⟩ := argmaxPair_spec (fun a b => if O a b * (if L a b = -2 then 1 else 0) = 0 then none
    else some (O a b * (if L a b = -2 then 1 else 0))) a0 b0
  dsimp only at hmax ⊢
  rw [hm]
  have hxy : L x y = -2 := by
    by_contra hc
    have h1 := hmax a0 b0
    rw [if_pos h0, if_neg (show ¬ O a0 b0 * 1 = 0 by have := hO a0 b0 (hE h0); omega), if_neg hc] at h1
    simp [floatGt] at h1
  have hy : ∀ a, L a y ≠ 0 → L y a = 0 := by
    intro a ha
    by_contra hc
    exact (hL _ _).1 hc (hac.no_two ((hL _ _).1 ha))
  obtain ⟨hw1, hw2⟩ := labelW_spec y (whereVec (fun w => decide (L w x = 1))) L hy
  dsimp only
  by_cases hw : ∃ w ∈ whereVec (fun w => decide (L w x = 1)), L w y = 0
  · rw [hw2 hw]
    refine ⟨_, y, rfl, ?_, ?_, ⟨x, hxy⟩, ?_, ?_⟩
    rotate_left
    · intro a b
      split
      · exact fun _ => .inl rfl
      · exact hv a b
    rotate_left 2
    · intro a b
      split
      · rename_i h
        refine ⟨fun _ => (hL _ _).1 h.2, fun _ => by decide⟩
      · exact hL a b
    · intro z
      by_cases hz : L z y = 0
      · simp [hz]
      · simp [hz]
    · intro a b hb
      rw [if_neg (fun h => hb h.1)]
  · push Not at hw
    rw [hw1 hw]
    have hx : x ∉ whereVec (fun w => decide (L w x = 1)) := by
      intro h
      have h1 : L x x = 1 := by simpa using h
      exact hac x (.single ((hL x x).1 (by omega)))
    obtain ⟨M, hM⟩ : ∃ M : Adj p, M = fun a b => if b = y ∧ a ∈ whereVec (fun w => decide (L w x = 1)) then 1 else L a b := ⟨_, rfl⟩
    have hMv : ∀ a b, M a b = if b = y ∧ a ∈ whereVec (fun w => decide (L w x = 1)) then 1 else L a b := fun a b => by rw [hM]
    rw [← hM]
    dsimp only
    have hMx : M x y = -2 := by rw [hMv, if_neg (fun h => hx h.2), hxy]
    have hME : ∀ a b, M a b ≠ 0 ↔ Edge G a b := by
      intro a b
      rw [hMv]
      split
      · rename_i h
        refine ⟨fun _ => ?_, fun _ => by decide⟩
        rw [h.1]
        exact (hL _ _).1 (hw a h.2)
      · exact hL a b
    have hMval : ∀ a b, M a b ≠ 0 → M a b = 1 ∨ M a b = -1 ∨ M a b = -2 := by
      intro a b
      rw [hMv]
      split
      · exact fun _ => .inl rfl
      · exact hv a b
    rw [if_pos hMx]
    generalize decide (((pa y M \ {x}) \ pa x M).card > 0) = z
    refine ⟨_, y, rfl, ?_, ?_, ⟨x, hxy⟩, ?_, ?_⟩
    · intro a b
      split
      · rename_i h
        refine ⟨fun _ => (hME a b).1 (by omega), fun _ => ?_⟩
        cases z <;> decide
      · exact hME a b
    · intro a b
      split
      · cases z
        · exact fun _ => .inr (.inl rfl)
        · exact fun _ => .inl rfl
      · exact hMval a b
    · intro w
      split
      · cases z <;> decide
      · rename_i h
        exact fun h' => h ⟨rfl, h'⟩
    · intro a b hb
      rw [if_neg (fun h => hb h.1), hMv, if_neg (fun h => hb h.1)]

theorem labelLoop_total {G : Adj p} (hac : Acyclic G) {O : Adj p} (hO : ∀ a b, Edge G a b → 1 ≤ O a b) (n : Nat) (L : Adj p)
    (h : ∀ a b, L a b ≠ 0 ↔ Edge G a b) (hv : ∀ a b, L a b ≠ 0 → L a b = 1 ∨ L a b = -1 ∨ L a b = -2) (hn : (Finset.univ.filter (fun y : Fin p => ∃ z, L z y = -2)).card ≤ n) :
    ∃ L', labelLoop O n L = .ok L' ∧ (∀ a b, L' a b ≠ 0 ↔ Edge G a b) ∧ ∀ a b, L' a b ≠ 0 → L' a b = 1 ∨ L' a b = -1 := by
  induction n generalizing L with
  | zero =>
    have hno : ¬ ∃ a b, L a b = -2 := by
      rintro ⟨a, b, hab⟩
      rw [Nat.le_zero, Finset.card_eq_zero, Finset.filter_eq_empty_iff] at hn
      exact hn (Finset.mem_univ b) ⟨a, hab⟩
    rw [labelLoop, if_neg hno]
    push Not at hno
    exact ⟨L, rfl, h, fun a b hab => (hv a b hab).imp_right fun h => h.resolve_right (hno a b)⟩
  | succ n ih =>
    rw [labelLoop]
    by_cases hex : ∃ a b, L a b = -2
    · rw [if_pos hex]
      obtain ⟨L', y, hL', hinv, hv', hy, hy', hrest⟩ := labelPass_total hac hO h hv hex
      rw [hL']
      dsimp only
      refine ih L' hinv hv' ?_
      have : (Finset.univ.filter (fun y : Fin p => ∃ z, L' z y = -2)) ⊂ (Finset.univ.filter (fun y : Fin p => ∃ z, L z y = -2)) := by
        rw [Finset.ssubset_iff_of_subset]
        · refine ⟨y, by simpa using hy, ?_⟩
          simpa using hy'
        · intro b hb
          rw [Finset.mem_filter] at hb ⊢
          refine ⟨Finset.mem_univ _, ?_⟩
          obtain ⟨z, hz⟩ := hb.2
          refine ⟨z, ?_⟩
          rw [← hrest z b ?_]
          · exact hz
          · rintro rfl; exact hy' z hz
      have := Finset.card_lt_card this
      omega
    · rw [if_neg hex]
      push Not at hex
      exact ⟨L, rfl, h, fun a b hab => (hv a b hab).imp_right fun h => h.resolve_right (hex a b)⟩

theorem labelEdges_total (it : SetIter p) {G : Adj p} (hac : Acyclic G) {i : Int} {O : Adj p} (h : Labels G i O) (hno : ∀ a b, O a b ≠ -1) :
    ∃ L, labelEdges it O = .ok L ∧ (∀ a b, L a b ≠ 0 ↔ Edge G a b) ∧ ∀ a b, L a b ≠ 0 → L a b = 1 ∨ L a b = -1 := by
  have hpos : ∀ a b, O a b ≠ 0 → 1 ≤ O a b := fun a b hab => ((h.rng a b hab).resolve_left (hno a b)).1
  have hnn : Nonneg O := by
    intro a b
    by_cases hab : O a b = 0
    · omega
    · have := hpos a b hab; omega
  have hacO : Acyclic O := by
    intro v hv
    exact hac v (Relation.TransGen.mono (fun a b hab => (h.edge a b).1 hab) _ _ hv)
  unfold labelEdges
  rw [(isDag_iff it hnn).2 hacO]
  rw [if_neg (by simp), if_neg]
  · refine labelLoop_total hac (fun a b hab => hpos a b ((h.edge a b).2 hab)) p _ ?_ ?_ ?_
    · intro a b
      rw [← h.edge]
      split <;> simp_all
    · intro a b
      split
      · exact fun _ => .inr (.inr rfl)
      · exact fun h => absurd rfl h
    · refine le_trans (Finset.card_le_univ _) ?_
      simp
  · rw [not_not]
    apply List.Perm.eq_of_pairwise (le := fun a b : Int => a ≤ b)
    · intro a b _ _ h1 h2; omega
    · have := pySorted_pairwise (le := fun a b : Int => decide (a ≤ b)) (by intro a b c; simp; omega)
        (by intro a b; simp; omega) (nonzeroEntries O)
      simpa using this
    · rw [List.pairwise_map]
      refine (List.pairwise_lt_range).imp ?_
      intro a b hab; omega
    · exact (pySorted_perm _ _).trans (h.perm hno)

theorem Sorted.init (G : Adj p) (order : List (Fin p)) : Sorted G order (fun a b => if G a b ≠ 0 then -1 else 0) := by
  constructor
  · intro a b c _ _ h; exfalso; split at h <;> omega
  · intro a b c _ _ _ h; exfalso; split at h <;> omega

/-- the result of `order_edges` and `label_edges` for a list with all nodes of a DAG -/
theorem order_core (it : SetIter p) {G : Adj p} (hac : Acyclic G) {order : List (Fin p)} (hall : ∀ v, v ∈ order) :
    ((∀ a b, Edge G a b → order.idxOf a < order.idxOf b) →
      ∃ O L, orderEdgesLoop order (p * p) 1 (fun a b => if G a b ≠ 0 then -1 else 0) = .ok O ∧ (∀ a b, O a b ≠ 0 ↔ Edge G a b) ∧
        (nonzeroEntries O).Perm ((List.range (nnz O)).map (fun k : Nat => (k : Int) + 1)) ∧ labelEdges it O = .ok L ∧
        (∀ a b, Adjacent (cpdagOf L) a b ↔ Adjacent G a b) ∧
        ((∀ a b, Edge G a b → order.reverse.idxOf b < order.reverse.idxOf a) → ∃ pos, Labelling G pos L)) ∧
    ((∃ a b, Edge G a b ∧ order.idxOf b < order.idxOf a) →
      orderEdgesLoop order (p * p) 1 (fun a b => if G a b ≠ 0 then -1 else 0) = .error .indexError) := by
  have hn : (Finset.univ.filter (fun e : Fin p × Fin p => (if G e.1 e.2 ≠ 0 then (-1 : Int) else 0) = -1)).card ≤ p * p := by
    refine le_trans (Finset.card_le_univ _) ?_
    simp
  constructor
  · intro hf
    obtain ⟨O, i, hO, hlab, hs, hno⟩ := orderEdgesLoop_forward hall hf (p * p) 1 _ (le_refl _) (Labels.init G) (Sorted.init G order) hn
    obtain ⟨L, hL, hLe, hLv⟩ := labelEdges_total it hac hlab hno
    have hpos : ∀ a b, Edge G a b → 1 ≤ O a b := fun a b hab =>
      ((hlab.rng a b ((hlab.edge a b).2 hab)).resolve_left (hno a b)).1
    refine ⟨O, L, hO, hlab.edge, hlab.perm hno, hL, fun a b => ?_, fun hb => ?_⟩
    · have hA : Adjacent G a b ↔ L a b ≠ 0 ∨ L b a ≠ 0 := or_congr (hLe a b).symm (hLe b a).symm
      rw [hA]
      unfold Adjacent cpdagOf
      have h1 := hLv a b
      have h2 := hLv b a
      by_cases c1 : L a b = 0 <;> by_cases c2 : L b a = 0
      · simp [c1, c2]
      · rcases h2 c2 with h | h <;> simp [c1, h]
      · rcases h1 c1 with h | h <;> simp [c2, h]
      · rcases h1 c1 with h | h <;> rcases h2 c2 with h' | h' <;> simp [h, h']
    · have hlt : ∀ v, order.reverse.idxOf v < order.length := fun v => by
        have := List.idxOf_lt_length_iff.2 (List.mem_reverse.2 (hall v))
        rwa [List.length_reverse] at this
      have hord : SortedBy G (fun v => order.length - order.reverse.idxOf v) O := by
        refine ⟨?_, ?_, hlab.edge, ?_, ?_, ?_⟩
        · intro a b h
          dsimp only at h
          have h1 := hlt a
          have h2 := hlt b
          exact (List.idxOf_inj (List.mem_reverse.2 (hall a))).1 (by omega)
        · intro a b hab
          have h1 := hlt a
          have h3 := hb a b hab
          omega
        · intro a b
          by_cases h : O a b = 0
          · omega
          · have := hpos a b ((hlab.edge a b).1 h); omega
        · intro z x y h1 h2
          exact (hs.target z x y h1 h2 (hpos z x h1)).2
        · intro x x' y h1 h2 h3
          exact (hs.source x x' y h1 h2 (by omega) (hpos x y h1)).2
      obtain ⟨L', hL', hl⟩ := labelEdges_spec it hord (hlab.perm hno)
      rw [hL] at hL'
      injection hL' with hL'
      subst hL'
      exact ⟨_, hl⟩
  · rintro ⟨a, b, hab, hlt⟩
    exact orderEdgesLoop_backward hall hlt (p * p) 1 _ (le_refl _) (if_pos hab) hn

end Verif
