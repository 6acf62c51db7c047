import Verif.Proof.OrderEdges
import Verif.Proof.Labelling

namespace Verif
open Spec
variable {p : Nat}

/-! ### `argmax` -/

theorem floatGt_false_trans {a b c : Option Int} (h1 : floatGt a b = false) (h2 : floatGt b c = false) :
    floatGt a c = false := by
  cases a <;> cases b <;> cases c <;> simp_all [floatGt]
  omega

theorem floatGt_asymm {a b : Option Int} (h1 : floatGt a b = true) : floatGt b a = false := by
  cases a <;> cases b <;> simp_all [floatGt]
  omega

theorem argmax_fold (f : Fin p → Fin p → Option Int) (l : List (Fin p × Fin p)) (b : Fin p × Fin p) :
    ∃ m, l.foldl (fun best e =>
      match best with
      | none => some e
      | some b => if floatGt (f e.1 e.2) (f b.1 b.2) then some e else some b) (some b) = some m ∧
      floatGt (f b.1 b.2) (f m.1 m.2) = false ∧ ∀ e ∈ l, floatGt (f e.1 e.2) (f m.1 m.2) = false := by
  induction l generalizing b with
  | nil =>
    refine ⟨b, rfl, ?_, by simp⟩
    cases h : f b.1 b.2 <;> simp [floatGt]
  | cons e l ih =>
    rw [List.foldl_cons]
    dsimp only
    by_cases hg : floatGt (f e.1 e.2) (f b.1 b.2) = true
    · rw [if_pos hg]
      obtain ⟨m, hm, h1, h2⟩ := ih e
      refine ⟨m, hm, floatGt_false_trans (floatGt_asymm hg) h1, ?_⟩
      intro x hx
      rcases List.mem_cons.1 hx with rfl | hx
      · exact h1
      · exact h2 x hx
    · rw [if_neg hg]
      obtain ⟨m, hm, h1, h2⟩ := ih b
      refine ⟨m, hm, h1, ?_⟩
      intro x hx
      rcases List.mem_cons.1 hx with rfl | hx
      · exact floatGt_false_trans (by simpa using hg) h1
      · exact h2 x hx

theorem argmaxPair_spec (f : Fin p → Fin p → Option Int) (a b : Fin p) :
    ∃ m, argmaxPair f = some m ∧ ∀ x y, floatGt (f x y) (f m.1 m.2) = false := by
  unfold argmaxPair
  have hne : allPairs p ≠ [] := List.ne_nil_of_mem (mem_allPairs (a, b))
  cases hl : allPairs p with
  | nil => exact absurd hl hne
  | cons e l =>
    rw [List.foldl_cons]
    obtain ⟨m, hm, h1, h2⟩ := argmax_fold f l e
    refine ⟨m, hm, fun x y => ?_⟩
    have : (x, y) ∈ e :: l := by rw [← hl]; exact mem_allPairs _
    rcases List.mem_cons.1 this with rfl | h
    · exact h1
    · exact h2 _ h

/-! ### one pass -/

theorem labelW_spec (y : Fin p) (ws : List (Fin p)) (L : Adj p) (hy : ∀ a, L a y ≠ 0 → L y a = 0) :
    ((∀ w ∈ ws, L w y ≠ 0) → labelW y ws L = ((fun a b => if b = y ∧ a ∈ ws then 1 else L a b), false)) ∧
    ((∃ w ∈ ws, L w y = 0) → labelW y ws L = ((fun a b => if b = y ∧ L a b ≠ 0 then 1 else L a b), true)) := by
  induction ws generalizing L with
  | nil => simp [labelW]
  | cons w ws ih =>
    rw [labelW]
    by_cases hw : L w y = 0
    · rw [if_pos hw]
      refine ⟨fun h => absurd hw (h w (by simp)), fun _ => ?_⟩
      congr 1
      funext a b
      by_cases hb : b = y
      · subst hb
        simp only [true_and, mem_pa]
        by_cases h0 : L a b = 0
        · simp [h0]
        · simp [h0, hy a h0]
      · simp [hb]
    · rw [if_neg hw]
      have hwy : w ≠ y := by
        rintro rfl
        exact hw (hy w hw)
      have hset : ∀ a b, setEntry L w y 1 a b = 0 ↔ L a b = 0 := by
        intro a b
        simp only [setEntry]
        split
        · rename_i hab
          obtain ⟨rfl, rfl⟩ := hab
          simp [hw]
        · rfl
      have hy' : ∀ a, setEntry L w y 1 a y ≠ 0 → setEntry L w y 1 y a = 0 := by
        intro a ha
        rw [ne_eq, hset] at ha
        rw [hset]
        exact hy a ha
      obtain ⟨ih1, ih2⟩ := ih (setEntry L w y 1) hy'
      constructor
      · intro h
        rw [ih1 (fun w' hw' => by rw [ne_eq, hset]; exact h w' (by simp [hw']))]
        congr 1
        funext a b
        simp only [setEntry, List.mem_cons]
        by_cases hb : b = y
        · subst hb
          by_cases ha : a = w
          · simp [ha]
          · simp [ha]
        · simp [hb]
      · rintro ⟨w', hw', h0⟩
        rcases List.mem_cons.1 hw' with rfl | hw'
        · exact absurd h0 hw
        · rw [ih2 ⟨w', hw', by rw [hset]; exact h0⟩]
          congr 1
          funext a b
          simp only [ne_eq, hset]
          simp only [setEntry]
          by_cases hb : b = y
          · subst hb
            by_cases ha : a = w
            · subst ha; simp [hw]
            · simp [ha]
          · simp [hb]

/-- the recurrence at a node `y` with latest parent `x` -/
def RecAt (G L : Adj p) (x y : Fin p) : Prop :=
  ((∃ w, L w x = 1 ∧ ¬ Edge G w y) → ∀ z, Edge G z y → L z y = 1) ∧
  ((∃ z, Edge G z y ∧ z ≠ x ∧ ¬ Edge G z x) → ∀ z, Edge G z y → L z y = 1) ∧
  ((∀ w, L w x = 1 → Edge G w y) → (∀ z, Edge G z y → z ≠ x → Edge G z x) → ∀ z, Edge G z y → (L z y = 1 ↔ L z x = 1))

structure LInv (G : Adj p) (pos : Fin p → Nat) (L : Adj p) : Prop where
  zero : ∀ a b, L a b = 0 ↔ ¬ Edge G a b
  col : ∀ y, (∀ z, Edge G z y → L z y = 1 ∨ L z y = -1) ∨ (∀ z, Edge G z y → L z y = -2)
  recur : ∀ x y, LatestParent G pos x y → L x y ≠ -2 → (∀ z, L z x ≠ -2) ∧ RecAt G L x y

theorem labelPass_spec {G : Adj p} {pos : Fin p → Nat} {O L : Adj p} (hO : SortedBy G pos O) (h : LInv G pos L)
    (hex : ∃ a b, L a b = -2) :
    ∃ L' y, labelPass O L = .ok L' ∧ LInv G pos L' ∧ (∃ z, L z y = -2) ∧ (∀ z, L' z y ≠ -2) ∧
      ∀ a b, b ≠ y → L' a b = L a b := by
  have hac : Acyclic G := acyclic_of_rank pos hO.topo
  have hE2 : ∀ {a b}, L a b = -2 → Edge G a b := by
    intro a b hab
    by_contra hc
    rw [← h.zero] at hc
    omega
  let unknown : Fin p → Fin p → Option Int := fun a b =>
    let v := O a b * (if L a b = -2 then 1 else 0)
    if v = 0 then none else some v
  have hunk : ∀ a b, unknown a b = if L a b = -2 then some (O a b) else none := by
    intro a b
    simp only [unknown]
    by_cases h2 : L a b = -2
    · have := (hO.edge a b).2 (hE2 h2)
      simp [h2, this]
    · simp [h2]
  obtain ⟨a0, b0, h0⟩ := hex
  obtain ⟨⟨x, y⟩, hm, hmax⟩ := argmaxPair_spec unknown a0 b0
  have hxy : L x y = -2 := by
    by_contra hne
    have := hmax a0 b0
    rw [hunk, hunk, if_pos h0, if_neg hne] at this
    simp [floatGt] at this
  have hle : ∀ a b, L a b = -2 → O a b ≤ O x y := by
    intro a b hab
    have := hmax a b
    rw [hunk, hunk, if_pos hab, if_pos hxy] at this
    simpa [floatGt] using this
  have hExy := hE2 hxy
  have hcoly : ∀ z, Edge G z y → L z y = -2 := by
    rcases h.col y with h1 | h1
    · rcases h1 x hExy with h2 | h2 <;> rw [hxy] at h2 <;> exact absurd h2 (by decide)
    · exact h1
  have hlatest : LatestParent G pos x y := by
    refine ⟨hExy, fun z hz => ?_⟩
    by_contra hlt
    have h1 := hle z y (hcoly z hz)
    have h2 := hO.source z x y hz hExy (by omega)
    omega
  have hxdone : ∀ z, L z x ≠ -2 := by
    intro z hz
    have h1 := hle z x hz
    have h2 := hO.target z x y (hE2 hz) hExy
    omega
  have hxney : x ≠ y := by
    rintro rfl
    exact hExy (hac.noLoops x)
  have hL2 : ∀ a, L a y ≠ 0 → L y a = 0 := by
    intro a ha
    have : Edge G a y := by
      by_contra hc; rw [← h.zero] at hc; exact ha hc
    rw [h.zero]
    intro hc
    exact hc (hac.no_two this)
  have hEL : ∀ a b, L a b ≠ 0 ↔ Edge G a b := by
    intro a b
    rw [ne_eq, h.zero, not_not]
  obtain ⟨hw1, hw2⟩ := labelW_spec y (whereVec (fun w => decide (L w x = 1))) L hL2
  simp only [mem_whereVec, decide_eq_true_eq] at hw1 hw2
  -- general way to conclude from the new column
  have finish : ∀ L' : Adj p, (∀ a b, b ≠ y → L' a b = L a b) → (∀ z, ¬ Edge G z y → L' z y = 0) →
      (∀ z, Edge G z y → L' z y = 1 ∨ L' z y = -1) → RecAt G L' x y →
      LInv G pos L' ∧ (∀ z, L' z y ≠ -2) := by
    intro L' hother hzero hvals hrec
    refine ⟨⟨?_, ?_, ?_⟩, ?_⟩
    · intro a b
      by_cases hb : b = y
      · subst hb
        constructor
        · intro h1 h2
          rcases hvals a h2 with h3 | h3 <;> omega
        · exact hzero a
      · rw [hother a b hb]; exact h.zero a b
    · intro b
      by_cases hb : b = y
      · subst hb; exact Or.inl hvals
      · rcases h.col b with h1 | h1
        · left; intro z hz; rw [hother z b hb]; exact h1 z hz
        · right; intro z hz; rw [hother z b hb]; exact h1 z hz
    · intro x' y' hx' hne
      by_cases hy' : y' = y
      · subst hy'
        have : x' = x := hO.inj (le_antisymm (hlatest.2 x' hx'.1) (hx'.2 x hlatest.1))
        subst this
        refine ⟨fun z => ?_, hrec⟩
        rw [hother z x' hxney]
        exact hxdone z
      · rw [hother x' y' hy'] at hne
        obtain ⟨h1, h2⟩ := h.recur x' y' hx' hne
        have hx'y : x' ≠ y := by
          rintro rfl
          exact h1 x hxy
        refine ⟨fun z => by rw [hother z x' hx'y]; exact h1 z, ?_⟩
        unfold RecAt at h2 ⊢
        simp only [hother _ x' hx'y, hother _ y' hy']
        exact h2
    · intro z hz
      by_cases hEz : Edge G z y
      · rcases hvals z hEz with h3 | h3 <;> omega
      · rw [hzero z hEz] at hz; omega
  have hpass : labelPass O L =
      match labelW y (whereVec (fun w => decide (L w x = 1))) L with
      | (L', true) => .ok L'
      | (L', false) =>
        let zExists := decide (((pa y L' \ {x}) \ pa x L').card > 0)
        if L' x y = -2 then
          .ok (fun a b => if b = y ∧ L' a b = -2 then (if zExists then 1 else -1) else L' a b)
        else .error .assertionError := by
    unfold labelPass
    change (match argmaxPair unknown with
      | none => Except.error Err.valueError
      | some (x, y) => _) = _
    rw [hm]
    rfl
  rw [hpass]
  by_cases hA : ∃ w, L w x = 1 ∧ L w y = 0
  · rw [hw2 hA]
    dsimp only
    refine ⟨_, y, rfl, ?_⟩
    obtain ⟨h1, h2⟩ := finish (fun a b => if b = y ∧ L a b ≠ 0 then 1 else L a b)
      (by intro a b hb; simp [hb])
      (by intro z hz; rw [← h.zero] at hz; simp [hz])
      (by intro z hz; rw [← hEL] at hz; simp [hz])
      (by
        have hall : ∀ z, Edge G z y → (if y = y ∧ L z y ≠ 0 then 1 else L z y) = 1 := by
          intro z hz; rw [← hEL] at hz; simp [hz]
        refine ⟨fun _ => hall, fun _ => hall, ?_⟩
        intro hc
        exfalso
        obtain ⟨w, hw, hwy⟩ := hA
        have := hc w (by simp [hxney, hw])
        rw [h.zero] at hwy
        exact hwy this)
    exact ⟨h1, ⟨x, hxy⟩, h2, by intro a b hb; simp [hb]⟩
  · have hA' : ∀ w, L w x = 1 → L w y ≠ 0 := by
      intro w hw hc; exact hA ⟨w, hw, hc⟩
    rw [hw1 hA']
    dsimp only
    have hxx : ¬ (L x x = 1) := by
      have : L x x = 0 := by rw [h.zero]; intro hc; exact hc (hac.noLoops x)
      omega
    rw [if_pos (by simp [hxx, hxy])]
    refine ⟨_, y, rfl, ?_⟩
    -- support of the intermediate matrix
    have hsup : ∀ a b, (if b = y ∧ L a x = 1 then 1 else L a b) ≠ 0 ↔ Edge G a b := by
      intro a b
      split
      · rename_i hc
        obtain ⟨rfl, hc⟩ := hc
        simp only [ne_eq, one_ne_zero, not_false_eq_true, true_iff]
        rw [← hEL]; exact hA' a hc
      · exact hEL a b
    have hz : ((pa y (fun a b => if b = y ∧ L a x = 1 then 1 else L a b) \ {x}) \
        pa x (fun a b => if b = y ∧ L a x = 1 then 1 else L a b)).card > 0 ↔
        ∃ z, Edge G z y ∧ z ≠ x ∧ ¬ Edge G z x := by
      rw [gt_iff_lt, Finset.card_pos]
      have hpa : ∀ a b, a ∈ pa b (fun a b => if b = y ∧ L a x = 1 then 1 else L a b) ↔ Edge G a b := by
        intro a b
        rw [mem_pa, hsup a b]
        constructor
        · exact fun hh => hh.1
        · intro hh
          refine ⟨hh, ?_⟩
          have := (not_iff_not.2 (hsup b a))
          rw [not_not] at this
          exact this.2 (fun hc => hc (hac.no_two hh))
      constructor
      · rintro ⟨z, hz⟩
        rw [Finset.mem_sdiff, Finset.mem_sdiff, Finset.mem_singleton, hpa, hpa] at hz
        exact ⟨z, hz.1.1, hz.1.2, hz.2⟩
      · rintro ⟨z, h1, h2, h3⟩
        refine ⟨z, ?_⟩
        rw [Finset.mem_sdiff, Finset.mem_sdiff, Finset.mem_singleton, hpa, hpa]
        exact ⟨⟨h1, h2⟩, h3⟩
    simp only [decide_eq_true_eq]
    have hval : ∀ (v : Int) (z : Fin p), Edge G z y →
        (if y = y ∧ (if y = y ∧ L z x = 1 then (1 : Int) else L z y) = -2 then v else if y = y ∧ L z x = 1 then 1 else L z y) =
        if L z x = 1 then 1 else v := by
      intro v z hz
      rw [hcoly z hz]
      by_cases hzx : L z x = 1 <;> simp [hzx]
    have hval' : ∀ (v : Int) (z : Fin p), Edge G z y →
        (if True ∧ (if True ∧ L z x = 1 then (1 : Int) else L z y) = -2 then v else if True ∧ L z x = 1 then 1 else L z y) =
        if L z x = 1 then 1 else v := by
      intro v z hz
      rw [hcoly z hz]
      by_cases hzx : L z x = 1 <;> simp [hzx]
    simp only [hz]
    have hout : ∀ (v : Int) (a b : Fin p), b ≠ y →
        (if b = y ∧ (if b = y ∧ L a x = 1 then (1 : Int) else L a b) = -2 then v else if b = y ∧ L a x = 1 then 1 else L a b) =
        L a b := by
      intro v a b hb; simp [hb]
    obtain ⟨h1, h2⟩ := finish (fun a b => if b = y ∧ (if b = y ∧ L a x = 1 then (1 : Int) else L a b) = -2 then
        (if ∃ z, Edge G z y ∧ z ≠ x ∧ ¬ Edge G z x then 1 else -1) else if b = y ∧ L a x = 1 then 1 else L a b)
      (fun a b hb => hout _ a b hb)
      (by
        intro z hz
        have h0 := (h.zero z y).2 hz
        have hzx : ¬ L z x = 1 := fun hc => hA' z hc h0
        simp [h0, hzx])
      (by
        intro z hz
        rw [hval _ z hz]
        split
        · exact Or.inl rfl
        · split <;> simp)
      (by
        unfold RecAt
        simp only [hout _ _ x hxney]
        refine ⟨?_, ?_, ?_⟩
        · rintro ⟨w, hw, hnw⟩
          rw [← h.zero] at hnw
          exact absurd hnw (hA' w hw)
        · intro hB z hz
          rw [hval' _ z hz, if_pos hB, ite_self]
        · intro _ hB z hz
          rw [hval' _ z hz]
          have hnB : ¬ ∃ z, Edge G z y ∧ z ≠ x ∧ ¬ Edge G z x := by
            rintro ⟨z, a1, a2, a3⟩; exact a3 (hB z a1 a2)
          rw [if_neg hnB]
          by_cases hzx : L z x = 1 <;> simp [hzx])
    exact ⟨h1, ⟨x, hxy⟩, by simpa using h2, fun a b hb => hout _ a b hb⟩

theorem labelLoop_spec {G : Adj p} {pos : Fin p → Nat} {O : Adj p} (hO : SortedBy G pos O) (n : Nat) (L : Adj p)
    (h : LInv G pos L) (hn : (Finset.univ.filter (fun y : Fin p => ∃ z, L z y = -2)).card ≤ n) :
    ∃ L', labelLoop O n L = .ok L' ∧ LInv G pos L' ∧ ∀ a b, L' a b ≠ -2 := by
  induction n generalizing L with
  | zero =>
    have hno : ¬ ∃ a b, L a b = -2 := by
      rintro ⟨a, b, hab⟩
      rw [Nat.le_zero, Finset.card_eq_zero, Finset.filter_eq_empty_iff] at hn
      exact hn (Finset.mem_univ b) ⟨a, hab⟩
    rw [labelLoop, if_neg hno]
    push Not at hno
    exact ⟨L, rfl, h, hno⟩
  | succ n ih =>
    rw [labelLoop]
    by_cases hex : ∃ a b, L a b = -2
    · rw [if_pos hex]
      obtain ⟨L', y, hp, hinv, hy, hy', hother⟩ := labelPass_spec hO h hex
      rw [hp]
      dsimp only
      refine ih L' hinv ?_
      have : (Finset.univ.filter (fun y : Fin p => ∃ z, L' z y = -2)) ⊂
          (Finset.univ.filter (fun y : Fin p => ∃ z, L z y = -2)) := by
        rw [Finset.ssubset_iff_of_subset]
        · refine ⟨y, by simpa using hy, ?_⟩
          simp only [Finset.mem_filter, Finset.mem_univ, true_and, not_exists]
          exact hy'
        · intro b hb
          simp only [Finset.mem_filter, Finset.mem_univ, true_and] at hb ⊢
          obtain ⟨z, hz⟩ := hb
          have hby : b ≠ y := by rintro rfl; exact hy' z hz
          exact ⟨z, by rw [← hother z b hby]; exact hz⟩
      have := Finset.card_lt_card this
      omega
    · rw [if_neg hex]
      push Not at hex
      exact ⟨L, rfl, h, hex⟩

theorem LInv.labelling {G : Adj p} {pos : Fin p → Nat} {O L : Adj p} (hO : SortedBy G pos O) (h : LInv G pos L)
    (hno : ∀ a b, L a b ≠ -2) : Labelling G pos L where
  inj := hO.inj
  topo := hO.topo
  zero := fun a b hab => (h.zero a b).2 hab
  vals := by
    intro a b hab
    rcases h.col b with h1 | h1
    · exact h1 a hab
    · exact absurd (h1 a hab) (hno a b)
  caseA := fun x y hx => (h.recur x y hx (hno x y)).2.1
  caseB := fun x y hx => (h.recur x y hx (hno x y)).2.2.1
  caseC := fun x y hx => (h.recur x y hx (hno x y)).2.2.2

theorem labelEdges_spec (it : SetIter p) {G : Adj p} {pos : Fin p → Nat} {O : Adj p} (hO : SortedBy G pos O)
    (hperm : (nonzeroEntries O).Perm ((List.range (nnz O)).map (fun k : Nat => (k : Int) + 1))) :
    ∃ L, labelEdges it O = .ok L ∧ Labelling G pos L := by
  unfold labelEdges
  have hdag : isDag it O = true := by
    rw [isDag_iff it hO.nonneg]
    exact acyclic_of_rank pos (fun a b hab => hO.topo a b ((hO.edge a b).1 hab))
  rw [hdag]
  simp only [Bool.not_true, Bool.false_eq_true, if_false]
  have hsort : pySorted (fun a b => decide (a ≤ b)) (nonzeroEntries O) =
      (List.range (nnz O)).map (fun k : Nat => (k : Int) + 1) := by
    apply List.Perm.eq_of_pairwise (le := fun a b : Int => a ≤ b)
    · intro a b _ _ h1 h2; omega
    · have := pySorted_pairwise (le := fun a b : Int => decide (a ≤ b)) (by intro a b c; simp; omega)
        (by intro a b; simp; omega) (nonzeroEntries O)
      simpa using this
    · rw [List.pairwise_map]
      refine (List.pairwise_lt_range).imp ?_
      intro a b hab; omega
    · exact (pySorted_perm _ _).trans hperm
  rw [if_neg (by rw [hsort]; simp)]
  have hinit : LInv G pos (fun a b => if O a b ≠ 0 then -2 else 0) := by
    constructor
    · intro a b
      rw [← hO.edge]
      by_cases h : O a b = 0 <;> simp [h]
    · intro y; right
      intro z hz
      rw [← hO.edge] at hz
      simp [hz]
    · intro x y hx hne
      have := (hO.edge x y).2 hx.1
      simp [this] at hne
  obtain ⟨L, hL, hinv, hno⟩ := labelLoop_spec hO p _ hinit (by
    refine le_trans (Finset.card_le_univ _) ?_
    simp)
  exact ⟨L, hL, hinv.labelling hO hno⟩

end Verif
