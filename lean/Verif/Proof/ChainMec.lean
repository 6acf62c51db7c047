import Verif.Proof.Enum
import Verif.Proof.Rank

namespace Verif
open Spec
variable {p : Nat}

theorem edge_chainMember {i : Nat} {a b : Fin p} : Edge (chainMember p i) a b ↔
    (1 ≤ a.val ∧ a.val ≤ i ∧ b.val = a.val - 1) ∨ (i ≤ a.val ∧ a.val < p - 1 ∧ b.val = a.val + 1) := by
  unfold Edge chainMember
  split_ifs with h <;> simp [h]

theorem chainMember_zeroOne (i : Nat) : ZeroOne (chainMember p i) := by
  intro a b
  unfold chainMember
  split_ifs <;> simp

theorem edge_chainGraph {a b : Fin p} : Edge (chainGraph p) a b ↔ a.val + 1 = b.val := by
  unfold Edge chainGraph
  split_ifs with h <;> simp [h]

theorem chainGraph_eq : chainGraph p = chainMember p 0 := by
  refine zeroOne_ext ?_ (chainMember_zeroOne 0) (fun a b => ?_)
  · intro a b
    unfold chainGraph
    split_ifs <;> simp
  · rw [edge_chainGraph, edge_chainMember]
    have := b.2
    omega

theorem adjacent_chainMember {i : Nat} {a b : Fin p} :
    Adjacent (chainMember p i) a b ↔ a.val + 1 = b.val ∨ b.val + 1 = a.val := by
  change Edge (chainMember p i) a b ∨ Edge (chainMember p i) b a ↔ _
  rw [edge_chainMember, edge_chainMember]
  have := a.2
  have := b.2
  omega

theorem not_vstructure_chainMember {i : Nat} (a c b : Fin p) : ¬ VStructure (chainMember p i) a c b := by
  rintro ⟨h1, h2, h3, _⟩
  have h1 := edge_chainMember.1 h1.1
  have h2 := edge_chainMember.1 h2.1
  have : a.val ≠ b.val := fun h => h3 (Fin.ext h)
  omega

theorem chainMember_acyclic {i : Nat} : Acyclic (chainMember p i) := by
  have key : ∀ a b : Fin p, Relation.TransGen (Edge (chainMember p i)) a b →
      (a.val - i + (i - a.val)) < (b.val - i + (i - b.val)) := by
    intro a b h
    induction h with
    | single h => rw [edge_chainMember] at h; omega
    | tail _ h ih => rw [edge_chainMember] at h; omega
  intro a h
  exact lt_irrefl _ (key a a h)

theorem chainMember_markovEquiv (i j : Nat) : MarkovEquiv (chainMember p i) (chainMember p j) :=
  ⟨fun _ _ => adjacent_chainMember.trans adjacent_chainMember.symm,
    fun a c b => ⟨fun h => absurd h (not_vstructure_chainMember a c b),
      fun h => absurd h (not_vstructure_chainMember a c b)⟩⟩

theorem chainMember_inj {i j : Nat} (hi : i < p) (hj : j < p) (h : chainMember p i = chainMember p j) : i = j := by
  have key : ∀ i j : Nat, i < p → j < p → chainMember p i = chainMember p j → ¬ i < j := by
    intro i j hi hj h hlt
    have h1 : Edge (chainMember p i) ⟨i, hi⟩ ⟨i + 1, by omega⟩ := by
      rw [edge_chainMember]
      exact Or.inr ⟨le_refl _, by show i < p - 1; omega, rfl⟩
    rw [h, edge_chainMember] at h1
    dsimp only at h1
    omega
  rcases lt_trichotomy i j with h' | h' | h'
  · exact absurd h' (key i j hi hj h)
  · exact h'
  · exact absurd h' (key j i hj hi h.symm)

theorem chain_equiv_classify (hp : 0 < p) {H : Adj p} (hH : ZeroOne H) (hac : Acyclic H)
    (hm : MarkovEquiv (chainGraph p) H) : ∃ i, i < p ∧ H = chainMember p i := by
  classical
  rw [chainGraph_eq] at hm
  have hadj : ∀ a b, (H a b ≠ 0 ∨ H b a ≠ 0) ↔ (a.val + 1 = b.val ∨ b.val + 1 = a.val) := fun a b =>
    (hm.1 a b).symm.trans adjacent_chainMember
  have hnov : ∀ a c b, ¬ VStructure H a c b := fun a c b h => not_vstructure_chainMember a c b ((hm.2 a c b).2 h)
  let Q : Nat → Prop := fun i => ∀ a b : Fin p, a.val = i → b.val = i + 1 → H a b ≠ 0
  have hQ : ∃ i, Q i := ⟨p - 1, fun a b ha hb => by have := b.2; omega⟩
  have hle : Nat.find hQ ≤ p - 1 := Nat.find_min' hQ (fun a b ha hb => by have := b.2; omega)
  have hstep : ∀ j, Q j → Q (j + 1) := by
    intro j hj a b ha hb
    by_contra h0
    have hba : H b a ≠ 0 := by
      rcases (hadj a b).2 (Or.inl (by omega)) with h | h
      · exact absurd h0 h
      · exact h
    have hjp : j < p := by have := a.2; omega
    have hja : H ⟨j, hjp⟩ a ≠ 0 := hj ⟨j, hjp⟩ a rfl (by omega)
    refine hnov ⟨j, hjp⟩ a b ⟨⟨hja, hac.no_two hja⟩, ⟨hba, by simpa using h0⟩, ?_, ?_⟩
    · intro h
      have := congrArg Fin.val h
      simp only [] at this
      omega
    · intro h
      have := (hadj _ _).1 h
      simp only [] at this
      omega
  have hfwd : ∀ j, Nat.find hQ ≤ j → Q j := by
    intro j hj
    induction j, hj using Nat.le_induction with
    | base => exact Nat.find_spec hQ
    | succ n _ ih => exact hstep n ih
  have hbwd : ∀ a b : Fin p, a.val < Nat.find hQ → b.val = a.val + 1 → H b a ≠ 0 := by
    intro a b ha hb
    have := Nat.find_min hQ ha
    by_contra h0
    apply this
    intro a' b' ha' hb'
    have e1 : a' = a := Fin.ext ha'
    have e2 : b' = b := Fin.ext (by omega)
    subst e1 e2
    rcases (hadj a' b').2 (Or.inl (by omega)) with h | h
    · exact h
    · exact absurd h0 h
  refine ⟨Nat.find hQ, by omega, zeroOne_ext hH (chainMember_zeroOne _) (fun a b => ?_)⟩
  rw [edge_chainMember]
  have := a.2
  have := b.2
  generalize Nat.find hQ = i at *
  constructor
  · intro h
    rcases (hadj a b).1 (Or.inl h) with h' | h'
    · right
      refine ⟨?_, by omega, by omega⟩
      by_contra hlt
      exact hbwd a b (by omega) (by omega) (hac.no_two h)
    · left
      refine ⟨by omega, ?_, by omega⟩
      by_contra hlt
      exact hfwd b.val (by omega) b a rfl (by omega) (hac.no_two h)
  · rintro (h | h)
    · exact hbwd b a (by omega) (by omega)
    · exact hfwd a.val (by omega) a b rfl (by omega)

theorem chainGraphMEC_spec (hp : 0 < p) : (chainGraphMEC p).Nodup ∧ (chainGraphMEC p).length = p ∧
    ∀ H, H ∈ chainGraphMEC p ↔ ZeroOne H ∧ Acyclic H ∧ MarkovEquiv (chainGraph p) H := by
  refine ⟨?_, by simp [chainGraphMEC], fun H => ?_⟩
  · unfold chainGraphMEC
    refine List.Nodup.map_on ?_ List.nodup_range
    intro i hi j hj h
    exact chainMember_inj (List.mem_range.1 hi) (List.mem_range.1 hj) h
  · unfold chainGraphMEC
    rw [List.mem_map]
    constructor
    · rintro ⟨i, _, rfl⟩
      refine ⟨chainMember_zeroOne i, chainMember_acyclic, ?_⟩
      rw [chainGraph_eq]
      exact chainMember_markovEquiv 0 i
    · rintro ⟨h1, h2, h3⟩
      obtain ⟨i, hi, h⟩ := chain_equiv_classify hp h1 h2 h3
      exact ⟨i, List.mem_range.2 hi, h.symm⟩

theorem isChainGraph_iff {A : Adj p} : isChainGraph A = true ↔ A = chainGraph p := by
  unfold isChainGraph
  rw [decide_eq_true_eq]
  constructor
  · intro h; funext i j; exact h i j
  · rintro rfl i j; rfl

/-- `all_dags` on a 0/1 PDAG that has an extension. -/
theorem allDags_ext (it : SetIter p) {P : Adj p} (hP : ZeroOne P) (hE : ∃ D, IsExtension D P) :
    ∃ l, allDags it P = .ok l ∧ l.Nodup ∧ ∀ H, H ∈ l ↔ ZeroOne H ∧ IsExtension H P := by
  obtain ⟨D, hD⟩ := hE
  by_cases hu : ∃ i j, UndEdge P i j
  · exact allDags_spec it hP hD.noLoops hu
  · refine ⟨[P], allDags_none it hP hD.noLoops hu, by simp, fun H => ?_⟩
    rw [List.mem_singleton]
    constructor
    · rintro rfl
      refine ⟨hP, isExtension_self (acyclic_congr (G := D) ?_ hD.1)⟩
      have hs := ext_unique hP (support_zeroOne D) hu (by
        have hme := markovEquiv_support D
        exact ⟨acyclic_congr (fun i j => edge_support.symm) hD.1, fun i j => (hme.1 i j).symm.trans (hD.2.1 i j),
          fun i c j => (hme.2 i c j).symm.trans (hD.2.2.1 i c j), fun i j h => edge_support.2 (hD.2.2.2 i j h)⟩)
      intro i j
      rw [← hs]
      exact edge_support.symm
    · rintro ⟨h1, h2⟩
      exact ext_unique hP h1 hu h2

theorem mec_spec (it : SetIter p) {A : Adj p} (hA : Nonneg A) (hac : Acyclic A) (c : Bool) (hp : 0 < p ∨ c = false) :
    ∃ l, mec it A c = .ok l ∧ l.Nodup ∧ ∀ H, H ∈ l ↔ ZeroOne H ∧ Acyclic H ∧ MarkovEquiv A H := by
  have hd := (isDag_iff it hA).2 hac
  unfold mec
  rw [hd]
  by_cases hc : (c && isChainGraph A) = true
  · rw [Bool.and_eq_true] at hc
    have hp : 0 < p := hp.resolve_right (by simp [hc.1])
    have hA' := isChainGraph_iff.1 hc.2
    subst hA'
    refine ⟨chainGraphMEC p, ?_, (chainGraphMEC_spec hp).1, (chainGraphMEC_spec hp).2.2⟩
    rw [hc.1, hc.2]
    rfl
  · obtain ⟨C, h1, h2, _⟩ := dagToCpdag_spec it hA hac
    have hext := C18_extensions it A C hA hac h1
    obtain ⟨l, h3, h4, h5⟩ := allDags_ext it h2 ⟨A, (hext.2 A).2 ⟨hac, MarkovEquiv.refl A⟩⟩
    refine ⟨l, ?_, h4, fun H => ?_⟩
    · rw [if_neg (by simp), if_neg hc, h1]
      exact h3
    · rw [h5, hext.2]

theorem imec_spec (it : SetIter p) {A : Adj p} (hA : Nonneg A) (hac : Acyclic A) (I : Finset (Fin p)) (c : Bool)
    (hp : 0 < p ∨ c = false) :
    ∃ l, imec it A (I.image (fun i : Fin p => (i.val : Int))) c = .ok l ∧ l.Nodup ∧
      ∀ H, H ∈ l ↔ ZeroOne H ∧ Acyclic H ∧ IEquiv I A H := by
  have hd := (isDag_iff it hA).2 hac
  have hI : (Finset.univ.filter (fun i : Fin p => (i.val : Int) ∈ I.image (fun i : Fin p => (i.val : Int)))) = I := by
    ext i
    simp only [Finset.mem_filter, Finset.mem_univ, true_and, Finset.mem_image, Nat.cast_inj]
    constructor
    · rintro ⟨j, hj, h⟩
      rwa [← Fin.ext h]
    · intro h; exact ⟨i, h, rfl⟩
  have hI' : (it.toList I).toFinset = I := by
    ext i; rw [List.mem_toFinset, it.mem]
  unfold imec
  rw [hd, if_neg (by simp), if_neg (by
    rw [not_not]
    intro i hi
    obtain ⟨j, _, rfl⟩ := Finset.mem_image.1 hi
    have := j.2
    omega)]
  simp only [hI]
  by_cases hc : (c && isChainGraph A) = true
  · rw [Bool.and_eq_true] at hc
    have hp : 0 < p := hp.resolve_right (by simp [hc.1])
    have hA' := isChainGraph_iff.1 hc.2
    subst hA'
    refine ⟨(chainGraphMEC p).filter (fun me => decide (∀ k, ∀ i ∈ it.toList I, me k i = chainGraph p k i)), ?_,
      (chainGraphMEC_spec hp).1.filter _, fun H => ?_⟩
    · rw [hc.1, hc.2]
      unfold chainGraphIMEC
      rw [hc.2]
      rfl
    · rw [List.mem_filter, (chainGraphMEC_spec hp).2.2, decide_eq_true_eq]
      constructor
      · rintro ⟨⟨h1, h2, h3⟩, h4⟩
        refine ⟨h1, h2, h3, fun i hi k => ?_⟩
        unfold Edge
        rw [h4 k i ((it.mem I i).2 hi)]
      · rintro ⟨h1, h2, h3, h4⟩
        refine ⟨⟨h1, h2, h3⟩, fun k i hi => ?_⟩
        have := h4 i ((it.mem I i).1 hi) k
        unfold Edge at this
        have h5 : chainGraph p k i = 0 ∨ chainGraph p k i = 1 := by rw [chainGraph_eq]; exact chainMember_zeroOne 0 k i
        rcases h1 k i with h6 | h6 <;> rcases h5 with h5 | h5 <;> rw [h5, h6] at this <;> rw [h5, h6] <;> simp at this
  · obtain ⟨C, h1, h2, _⟩ := dagToIcpdag_spec it hA hac (it.toList I)
    have hext := C21_extensions it A C hA hac (it.toList I) h1
    rw [hI'] at hext
    obtain ⟨l, h3, h4, h5⟩ := allDags_ext it h2 ⟨A, (hext A).2 ⟨hac, MarkovEquiv.refl A, fun _ _ _ => Iff.rfl⟩⟩
    refine ⟨l, ?_, h4, fun H => ?_⟩
    · rw [if_neg hc, h1]
      exact h3
    · rw [h5, hext]

end Verif
