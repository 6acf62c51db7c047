import Verif.Props.Meek
import Verif.Props.Enum

/-!
# C140: which further targets make the class smaller
-/

namespace Verif

open Spec

variable {p : Nat}

theorem icpdag_zeroOne {it : SetIter p} {G P : Adj p} (hG : Nonneg G) (hac : Acyclic G) {I : List (Fin p)} (h : dagToIcpdag it G I = .ok P) :
    ZeroOne P := by
  obtain ⟨P', h1, h2, -⟩ := dagToIcpdag_spec it hG hac I
  rw [h] at h1
  cases h1
  exact h2

theorem icpdag_self {it : SetIter p} {G P : Adj p} (hG : Nonneg G) (hac : Acyclic G) {I : List (Fin p)} (h : dagToIcpdag it G I = .ok P)
    {i j : Fin p} (hij : Edge G i j) : Edge P i j :=
  (dagToIcpdag_edge hG hac h i j).2 ⟨G, hac, ⟨MarkovEquiv.refl G, fun _ _ _ => Iff.rfl⟩, hij⟩

theorem not_both {H : Adj p} (hac : Acyclic H) {i j : Fin p} (h : Edge H i j) (h' : Edge H j i) : False :=
  hac i ((Relation.TransGen.single h).tail h')

/-- Members of the class keep the parents of a variable whose edges are all directed. -/
theorem sameParents_of_directed {it : SetIter p} {G P H : Adj p} (hG : Nonneg G) (hac : Acyclic G) {I : List (Fin p)}
    (h : dagToIcpdag it G I = .ok P) {t : Fin p} (ht : ∀ k, ¬ UndEdge P t k) (hH : Acyclic H) (hIH : IEquiv I.toFinset G H) :
    IEquiv (t :: I).toFinset G H := by
  refine ⟨hIH.1, ?_⟩
  intro i hi k
  rw [List.toFinset_cons, Finset.mem_insert] at hi
  rcases hi with rfl | hi
  · constructor
    · intro hk
      have hP := icpdag_self hG hac h hk
      rcases (hIH.1.1 k i).1 (Or.inl hk) with h1 | h1
      · exact h1
      · exact absurd ⟨(dagToIcpdag_edge hG hac h i k).2 ⟨H, hH, hIH, h1⟩, hP⟩ (ht k)
    · intro hk
      have hP : Edge P k i := (dagToIcpdag_edge hG hac h k i).2 ⟨H, hH, hIH, hk⟩
      rcases (hIH.1.1 k i).2 (Or.inl hk) with h1 | h1
      · exact h1
      · exact absurd ⟨icpdag_self hG hac h h1, hP⟩ (ht k)
  · exact hIH.2 i hi k

/-- C140: a further target leaves the graph of the class unchanged exactly if all edges at it are already directed. -/
theorem C140_useful_iff (it : SetIter p) (G P : Adj p) (hG : Nonneg G) (hac : Acyclic G) (I : List (Fin p)) (h : dagToIcpdag it G I = .ok P)
    (t : Fin p) : dagToIcpdag it G (t :: I) = .ok P ↔ ∀ k, ¬ UndEdge P t k := by
  constructor
  · rintro h' k ⟨h1, h2⟩
    obtain ⟨H1, a1, a2, a3⟩ := (dagToIcpdag_edge hG hac h' t k).1 h1
    obtain ⟨H2, b1, b2, b3⟩ := (dagToIcpdag_edge hG hac h' k t).1 h2
    have ht : t ∈ (t :: I).toFinset := by simp
    exact not_both a1 a3 ((a2.2 t ht k).1 ((b2.2 t ht k).2 b3))
  · intro ht
    obtain ⟨P', h1, h2, -⟩ := dagToIcpdag_spec it hG hac (t :: I)
    rw [h1]
    congr 1
    refine zeroOne_ext h2 (icpdag_zeroOne hG hac h) (fun i j => ?_)
    rw [dagToIcpdag_edge hG hac h1, dagToIcpdag_edge hG hac h]
    constructor
    · rintro ⟨H, k1, k2, k3⟩
      exact ⟨H, k1, ⟨k2.1, fun a ha => k2.2 a (by rw [List.toFinset_cons]; exact Finset.mem_insert_of_mem ha)⟩, k3⟩
    · rintro ⟨H, k1, k2, k3⟩
      exact ⟨H, k1, sameParents_of_directed hG hac h ht k1 k2, k3⟩

/-- C140: the edges at a target are directed. -/
theorem C140_targets_directed (it : SetIter p) (G P : Adj p) (hG : Nonneg G) (hac : Acyclic G) (I : List (Fin p)) (h : dagToIcpdag it G I = .ok P)
    (t : Fin p) (ht : t ∈ I) (k : Fin p) : ¬ UndEdge P t k := by
  refine (C140_useful_iff it G P hG hac I h t).1 ?_ k
  rw [← h]
  exact C21_order_independent it it G hG hac _ _ (by rw [List.toFinset_cons, Finset.insert_eq_self]; exact List.mem_toFinset.2 ht)

/-- C140: `imec` never gets larger with more targets.  With one more target it returns the same graphs if the edges at the target were all directed,
and fewer graphs otherwise. -/
theorem C140_imec (it it' : SetIter p) (G : Adj p) (hG : Nonneg G) (hac : Acyclic G) (hp : 0 < p) (c c' : Bool) (I J : Finset (Fin p))
    (l l' : List (Adj p)) (h : imec it G (I.image (fun i : Fin p => (i.val : Int))) c = .ok l)
    (h' : imec it' G (J.image (fun i : Fin p => (i.val : Int))) c' = .ok l') :
    (I ⊆ J → (∀ H ∈ l', H ∈ l) ∧ l'.length ≤ l.length) ∧
    ∀ t P, J = insert t I → dagToIcpdag it G (it.toList I) = .ok P →
      ((∀ k, ¬ UndEdge P t k) → l.Perm l') ∧ ((∃ k, UndEdge P t k) → l'.length < l.length) := by
  obtain ⟨l1, h1, n1, m1⟩ := imec_spec it hG hac I c (Or.inl hp)
  obtain ⟨l2, h2, n2, m2⟩ := imec_spec it' hG hac J c' (Or.inl hp)
  rw [h] at h1
  rw [h'] at h2
  cases h1
  cases h2
  have hsub : I ⊆ J → ∀ H ∈ l', H ∈ l := fun hIJ H hH => by
    obtain ⟨k1, k2, k3⟩ := (m2 H).1 hH
    exact (m1 H).2 ⟨k1, k2, k3.1, fun a ha => k3.2 a (hIJ ha)⟩
  refine ⟨fun hIJ => ⟨hsub hIJ, (List.subperm_of_subset n2 (hsub hIJ)).length_le⟩, ?_⟩
  rintro t P rfl hP
  have hsub := hsub (Finset.subset_insert t I)
  have hI : (it.toList I).toFinset = I := by
    ext i
    rw [List.mem_toFinset, it.mem]
  constructor
  · intro ht
    rw [List.perm_ext_iff_of_nodup n1 n2]
    refine fun H => ⟨fun hH => ?_, hsub H⟩
    obtain ⟨k1, k2, k3⟩ := (m1 H).1 hH
    have := sameParents_of_directed hG hac hP ht k2 (by rw [hI]; exact k3)
    rw [List.toFinset_cons, hI] at this
    exact (m2 H).2 ⟨k1, k2, this⟩
  · rintro ⟨k, hk1, hk2⟩
    by_contra hlen
    have hperm : l'.Perm l := (List.subperm_of_subset n2 hsub).perm_of_length_le (by omega)
    have key : ∀ H, Acyclic H → IEquiv I G H → IEquiv (insert t I) G H := by
      intro H hH hIH
      obtain ⟨H', e1, e2⟩ : ∃ H' : Adj p, ZeroOne H' ∧ ∀ i j, Edge H' i j ↔ Edge H i j :=
        ⟨fun i j => if H i j ≠ 0 then 1 else 0, fun i j => by by_cases hc : H i j = 0 <;> simp [hc], fun i j => by unfold Edge; simp⟩
      have hE : ∀ i j, H' i j ≠ 0 ↔ H i j ≠ 0 := e2
      have hz : ∀ i j, H' i j = 0 ↔ H i j = 0 := fun i j => not_iff_not.1 (e2 i j)
      have hac' : Acyclic H' := fun i hi => hH i (Relation.TransGen.mono (fun a b => (e2 a b).1) _ _ hi)
      have hM : MarkovEquiv G H' := ⟨fun i j => by rw [hIH.1.1 i j]; unfold Adjacent; rw [hE, hE],
        fun i c j => by rw [hIH.1.2 i c j]; unfold VStructure DirEdge Adjacent; rw [hE, hE, hz, hz, hE, hE]⟩
      have hmem : H' ∈ l := (m1 H').2 ⟨e1, hac', hM, fun i hi k => by rw [hIH.2 i hi k, e2]⟩
      obtain ⟨-, -, q⟩ := (m2 H').1 (hperm.mem_iff.2 hmem)
      exact ⟨hIH.1, fun i hi k => by rw [q.2 i hi k, e2]⟩
    obtain ⟨H1, a1, a2, a3⟩ := (dagToIcpdag_edge hG hac hP t k).1 hk1
    obtain ⟨H2, b1, b2, b3⟩ := (dagToIcpdag_edge hG hac hP k t).1 hk2
    rw [hI] at a2 b2
    have ht : t ∈ insert t I := by simp
    exact not_both a1 a3 (((key H1 a1 a2).2 t ht k).1 (((key H2 b1 b2).2 t ht k).2 b3))

/-- C140: `imec` returns one graph only, that of the given DAG, exactly if its graph of the class has no undirected edges. -/
theorem C140_identified_iff (it : SetIter p) (G P : Adj p) (hG : Nonneg G) (hac : Acyclic G) (hp : 0 < p) (c : Bool) (I : Finset (Fin p))
    (h : dagToIcpdag it G (it.toList I) = .ok P) :
    imec it G (I.image (fun i : Fin p => (i.val : Int))) c = .ok [fun i j => if G i j ≠ 0 then 1 else 0] ↔ ∀ i j, ¬ UndEdge P i j := by
  obtain ⟨l1, h1, n1, m1⟩ := imec_spec it hG hac I c (Or.inl hp)
  have hI : (it.toList I).toFinset = I := by
    ext i
    rw [List.mem_toFinset, it.mem]
  rw [h1]
  obtain ⟨B, hB⟩ : ∃ B : Adj p, B = fun i j => if G i j ≠ 0 then 1 else 0 := ⟨_, rfl⟩
  rw [← hB]
  have e2 : ∀ i j, B i j ≠ 0 ↔ G i j ≠ 0 := fun i j => by rw [hB]; simp
  have ez : ∀ i j, B i j = 0 ↔ G i j = 0 := fun i j => not_iff_not.1 (e2 i j)
  have hBz : ZeroOne B := fun i j => by rw [hB]; by_cases hc : G i j = 0 <;> simp [hc]
  have hBac : Acyclic B := fun i hi => hac i (Relation.TransGen.mono (fun a b => (e2 a b).1) _ _ hi)
  have hBm : B ∈ l1 := (m1 B).2 ⟨hBz, hBac, ⟨fun i j => by unfold Adjacent; rw [e2, e2],
    fun i c j => by unfold VStructure DirEdge Adjacent; rw [e2, e2, ez, ez, e2, e2]⟩, fun i _ k => (e2 k i).symm⟩
  simp only [Except.ok.injEq]
  constructor
  · rintro hl i j ⟨hij, hji⟩
    have key : ∀ i j, Edge P i j → Edge G i j := by
      intro i j hij
      obtain ⟨H, k1, k2, k3⟩ := (dagToIcpdag_edge hG hac h i j).1 hij
      rw [hI] at k2
      obtain ⟨H', e1, e3⟩ : ∃ H' : Adj p, ZeroOne H' ∧ ∀ i j, Edge H' i j ↔ Edge H i j :=
        ⟨fun i j => if H i j ≠ 0 then 1 else 0, fun i j => by by_cases hc : H i j = 0 <;> simp [hc], fun i j => by unfold Edge; simp⟩
      have hE : ∀ i j, H' i j ≠ 0 ↔ H i j ≠ 0 := e3
      have hz : ∀ i j, H' i j = 0 ↔ H i j = 0 := fun i j => not_iff_not.1 (e3 i j)
      have hmem : H' ∈ l1 := (m1 H').2 ⟨e1, fun i hi => k1 i (Relation.TransGen.mono (fun a b => (e3 a b).1) _ _ hi),
        ⟨fun i j => by rw [k2.1.1 i j]; unfold Adjacent; rw [hE, hE],
        fun i c j => by rw [k2.1.2 i c j]; unfold VStructure DirEdge Adjacent; rw [hE, hE, hz, hz, hE, hE]⟩, fun i hi k => by rw [k2.2 i hi k, e3]⟩
      rw [hl, List.mem_singleton] at hmem
      rw [hmem] at e3
      exact (e2 i j).1 ((e3 i j).2 k3)
    exact not_both hac (key i j hij) (key j i hji)
  · intro hund
    have hone : ∀ H ∈ l1, H = B := by
      intro H hH
      obtain ⟨k1, k2, k3⟩ := (m1 H).1 hH
      refine zeroOne_ext k1 hBz (fun i j => ?_)
      have := (sameParents_of_directed hG hac h (hund j) k2 (by rw [hI]; exact k3)).2 j (by simp) i
      rw [← this]
      exact (e2 i j).symm
    match l1, n1, hBm, hone with
    | [H], _, _, h5 => rw [h5 H (by simp)]
    | H :: H' :: _, n1, _, h5 =>
      rw [h5 H (by simp), h5 H' (by simp)] at n1
      simp at n1

/-- C140: targets that meet every undirected edge of the CPDAG identify the DAG. -/
theorem C140_cover (it : SetIter p) (G C P : Adj p) (hG : Nonneg G) (hac : Acyclic G) (I : List (Fin p)) (hC : dagToCpdag it G = .ok C)
    (hcov : ∀ i j, UndEdge C i j → i ∈ I ∨ j ∈ I) (h : dagToIcpdag it G I = .ok P) (i j : Fin p) : P i j = if G i j ≠ 0 then 1 else 0 := by
  rw [← C22_no_targets it G hG hac] at hC
  obtain ⟨-, hmono, hskel⟩ := C22_monotone it it G C P hG hac [] I (by simp) hC h
  have hund : ∀ i j, ¬ UndEdge P i j := by
    intro i j hij
    rcases hcov i j ⟨hmono i j hij.1, hmono j i hij.2⟩ with hi | hj
    · exact C140_targets_directed it G P hG hac I h i hi j hij
    · exact C140_targets_directed it G P hG hac I h j hj i ⟨hij.2, hij.1⟩
  by_cases hij : G i j = 0
  · rw [if_neg (by simpa using hij)]
    by_contra hP
    obtain ⟨H, k1, k2, k3⟩ := (dagToIcpdag_edge hG hac h i j).1 hP
    have := (sameParents_of_directed hG hac h (hund j) k1 k2).2 j (by simp) i
    exact this.2 k3 hij
  · rw [if_pos hij]
    exact (icpdag_zeroOne hG hac h i j).resolve_left (icpdag_self hG hac h hij)

/-- Each target of the list has an undirected edge in the graph of the class for the targets before it. -/
def Spec.AllUseful (it : SetIter p) (G : Adj p) (ts : List (Fin p)) : Prop :=
  ∀ k t, ts[k]? = some t → ∃ P j, dagToIcpdag it G (ts.take k) = .ok P ∧ UndEdge P t j

/-- C140: at most `p - 1` targets, one after the other, make the class smaller. -/
theorem C140_at_most (it : SetIter p) (G : Adj p) (hG : Nonneg G) (hac : Acyclic G) (ts : List (Fin p)) (h : AllUseful it G ts) :
    ts.length ≤ p - 1 := by
  have hnew : ∀ k t, ts[k]? = some t → t ∉ ts.take k ∧ ∃ j, j ∉ ts.take k ∧ j ≠ t := by
    intro k t ht
    obtain ⟨P, j, h1, h2⟩ := h k t ht
    refine ⟨fun hc => C140_targets_directed it G P hG hac _ h1 t hc j h2, j, fun hc => C140_targets_directed it G P hG hac _ h1 j hc t ⟨h2.2, h2.1⟩, ?_⟩
    rintro rfl
    obtain ⟨H, k1, -, k3⟩ := (dagToIcpdag_edge hG hac h1 j j).1 h2.1
    exact k1 j (Relation.TransGen.single k3)
  have hnd : ts.Nodup := by
    refine List.pairwise_iff_getElem.2 (fun i j hi hj hij heq => ?_)
    refine (hnew j ts[j] (List.getElem?_eq_getElem hj)).1 ?_
    rw [← heq]
    exact List.mem_take_iff_getElem.2 ⟨i, by omega, rfl⟩
  rcases Nat.eq_zero_or_pos ts.length with h0 | h0
  · omega
  obtain ⟨-, j, hj1, hj2⟩ := hnew (ts.length - 1) ts[ts.length - 1] (List.getElem?_eq_getElem (by omega))
  have hj : j ∉ ts := by
    intro hj
    obtain ⟨i, hi, rfl⟩ := List.getElem_of_mem hj
    by_cases hc : i = ts.length - 1
    · subst hc
      exact hj2 rfl
    · exact hj1 (List.mem_take_iff_getElem.2 ⟨i, by omega, rfl⟩)
  have := (List.nodup_cons.2 ⟨hj, hnd⟩).length_le_card
  simp only [List.length_cons, Fintype.card_fin] at this
  omega

/-- The DAG with all edges `i → j` for `i < j`. -/
def completeDag (p : Nat) : Adj p := fun i j => if i < j then 1 else 0

theorem ranked_acyclic {H : Adj p} (r : Fin p → Nat) (h : ∀ i j, Edge H i j → r i < r j) : Acyclic H := by
  have : ∀ i j, Relation.TransGen (Edge H) i j → r i < r j := by
    intro i j hij
    induction hij with
    | single h1 => exact h _ _ h1
    | tail _ h1 ih => exact ih.trans (h _ _ h1)
  exact fun i hi => lt_irrefl _ (this i i hi)

/-- C140: the bound is attained: for the complete DAG the first `p - 1` variables, from the first on, each make the class smaller. -/
theorem C140_attained (it : SetIter p) : Nonneg (completeDag p) ∧ Acyclic (completeDag p) ∧
    AllUseful it (completeDag p) ((List.finRange p).take (p - 1)) ∧ ((List.finRange p).take (p - 1)).length = p - 1 := by
  have hG : Nonneg (completeDag p) := fun i j => by unfold completeDag; split <;> simp
  have hac : Acyclic (completeDag p) := ranked_acyclic (fun i => i.val) (fun i j hij => by
    by_contra hc
    exact hij (if_neg hc))
  refine ⟨hG, hac, ?_, by simp⟩
  intro k t ht
  obtain ⟨hk, rfl⟩ := List.getElem?_eq_some_iff.1 ht
  have hkp : k < p - 1 := by simpa using hk
  obtain ⟨P, h1, -⟩ := dagToIcpdag_spec it hG hac (((List.finRange p).take (p - 1)).take k)
  obtain ⟨a, ha⟩ : ∃ a : Fin p, a = ⟨k, by omega⟩ := ⟨_, rfl⟩
  obtain ⟨b, hb⟩ : ∃ b : Fin p, b = ⟨k + 1, by omega⟩ := ⟨_, rfl⟩
  have hta : ((List.finRange p).take (p - 1))[k] = a := by rw [ha]; simp
  rw [hta]
  have hE : ∀ i j, Edge (completeDag p) i j ↔ i < j := fun i j => by unfold Edge completeDag; simp
  refine ⟨P, b, h1, icpdag_self hG hac h1 ((hE a b).2 (by rw [ha, hb]; simp)), ?_⟩
  refine (dagToIcpdag_edge hG hac h1 b a).2 ?_
  obtain ⟨H, hH⟩ : ∃ H : Adj p, H = fun i j => if Equiv.swap a b i < Equiv.swap a b j then 1 else 0 := ⟨_, rfl⟩
  have hE' : ∀ i j, Edge H i j ↔ Equiv.swap a b i < Equiv.swap a b j := fun i j => by rw [hH]; unfold Edge; simp
  have hadj : ∀ i j, Adjacent (completeDag p) i j ↔ i ≠ j := fun i j => by
    unfold Adjacent
    rw [show (completeDag p i j ≠ 0) = Edge (completeDag p) i j from rfl, show (completeDag p j i ≠ 0) = Edge (completeDag p) j i from rfl, hE, hE,
      ne_iff_lt_or_gt]
  have hadj' : ∀ i j, Adjacent H i j ↔ i ≠ j := fun i j => by
    unfold Adjacent
    rw [show (H i j ≠ 0) = Edge H i j from rfl, show (H j i ≠ 0) = Edge H j i from rfl, hE', hE']
    exact lt_or_lt_iff_ne.trans (Equiv.swap a b).injective.ne_iff
  refine ⟨H, ranked_acyclic (fun i => (Equiv.swap a b i).val) (fun i j => (hE' i j).1), ⟨⟨fun i j => by rw [hadj, hadj'], fun i c j => ?_⟩, ?_⟩, ?_⟩
  · unfold VStructure
    rw [hadj, hadj']
    tauto
  · intro i hi j
    have hik : i.val < k := by
      rw [List.mem_toFinset, List.take_take, List.mem_take_iff_getElem] at hi
      obtain ⟨n, hn, rfl⟩ := hi
      simp only [List.getElem_finRange, Fin.val_cast]
      omega
    have hia : i ≠ a := fun hc => by rw [hc, ha] at hik; simp at hik
    have hib : i ≠ b := fun hc => by rw [hc, hb] at hik; simp at hik
    rw [hE, hE', Equiv.swap_apply_of_ne_of_ne hia hib]
    by_cases hja : j = a
    · subst hja
      rw [Equiv.swap_apply_left, Fin.lt_def, Fin.lt_def]
      rw [ha, hb]
      simp only
      omega
    · by_cases hjb : j = b
      · subst hjb
        rw [Equiv.swap_apply_right, Fin.lt_def, Fin.lt_def]
        rw [ha, hb]
        simp only
        omega
      · rw [Equiv.swap_apply_of_ne_of_ne hja hjb]
  · rw [hE', Equiv.swap_apply_left, Equiv.swap_apply_right, ha, hb]
    simp

/-- A case of the hypotheses of `C140_useful_iff`, `C140_imec` and `C140_identified_iff`: in the chain `0 → 1 → 2` the target 0 makes the class
smaller, and then no other target does. -/
example : dagToIcpdag (SetIter.incr 3) (chainGraph 3) [] = .ok ![![0, 1, 0], ![1, 0, 1], ![0, 1, 0]] ∧
    dagToIcpdag (SetIter.incr 3) (chainGraph 3) [0] = .ok (chainGraph 3) ∧
    (match imec (SetIter.incr 3) (chainGraph 3) {} true with | .ok l => l.length == 3 | .error _ => false) = true ∧
    (match imec (SetIter.incr 3) (chainGraph 3) {0} true with | .ok l => l.length == 1 | .error _ => false) = true := by
  refine ⟨eq_of_okEq (by decide +kernel), eq_of_okEq (by decide +kernel), by decide +kernel, by decide +kernel⟩

end Verif
