import Verif.Model.Debug
import Verif.Proof.Enum
import Verif.Props.Meek
import Verif.Props.Pdag

/-!
# C142: the debugging output of the graph functions
-/

namespace Verif

open Spec

variable {p : Nat}

/-! ## Specification: reading the output -/

/-- The variables named in the lines `Found candidate`, in order. -/
def Spec.candidatesIn : List (DLine p) → List (Fin p)
  | [] => []
  | .candidate _ v :: r => v :: candidatesIn r
  | _ :: r => candidatesIn r

/-- The edges named in the lines `Oriented`, in order. -/
def Spec.orientationsIn : List (DLine p) → List (Fin p × Fin p)
  | [] => []
  | .oriented _ i j _ :: r => (i, j) :: orientationsIn r
  | _ :: r => orientationsIn r

/-- The lists printed by `dag_to_icpdag`. -/
def Spec.stacksIn : List (DLine p) → List (List (Fin p × Fin p))
  | [] => []
  | .stack l :: r => l :: stacksIn r
  | _ :: r => stacksIn r

/-- The graph `P` once the given edges are oriented. -/
def Spec.orientedBy (P : Adj p) (l : List (Fin p × Fin p)) : Adj p := fun a b => if (b, a) ∈ l then 0 else P a b

theorem candidatesIn_append (l l' : List (DLine p)) : candidatesIn (l ++ l') = candidatesIn l ++ candidatesIn l' := by
  induction l with
  | nil => rfl
  | cons x l ih => cases x <;> simp [candidatesIn, ih]

theorem orientationsIn_append (l l' : List (DLine p)) : orientationsIn (l ++ l') = orientationsIn l ++ orientationsIn l' := by
  induction l with
  | nil => rfl
  | cons x l ih => cases x <;> simp [orientationsIn, ih]

theorem stacksIn_append (l l' : List (DLine p)) : stacksIn (l ++ l') = stacksIn l ++ stacksIn l' := by
  induction l with
  | nil => rfl
  | cons x l ih => cases x <;> simp [stacksIn, ih]

/-! ## The output does not change what the functions do -/

theorem pdagToDagLoopD_snd (debug : Bool) : ∀ (n : Nat) (P : Adj n) (idx : Fin n → Fin p) (G : Adj p),
    (pdagToDagLoopD debug n P idx G).2 = pdagToDagLoop n P idx G := by
  intro n
  induction n with
  | zero => intro P idx G; rfl
  | succ n ih =>
    intro P idx G
    rw [pdagToDagLoopD, pdagToDagLoop]
    cases findCandidate P with
    | none => rfl
    | some i => exact ih _ _ _

theorem pdagToDagLoopD_silent : ∀ (n : Nat) (P : Adj n) (idx : Fin n → Fin p) (G : Adj p), (pdagToDagLoopD false n P idx G).1 = [] := by
  intro n
  induction n with
  | zero => intro P idx G; rfl
  | succ n ih =>
    intro P idx G
    rw [pdagToDagLoopD]
    cases findCandidate P with
    | none => rfl
    | some i => simp [shown, ih]

theorem orientPassD_snd (debug : Bool) : ∀ (es : List (Fin p × Fin p)) (P : Adj p) (flag : Bool),
    (orientPassD debug es P flag).2 = orientPass es P flag := by
  intro es
  induction es with
  | nil => intro P flag; rfl
  | cons x es ih =>
    intro P flag
    obtain ⟨i, j⟩ := x
    rw [orientPassD, orientPass]
    split_ifs <;> exact ih _ _

theorem orientPassD_silent : ∀ (es : List (Fin p × Fin p)) (P : Adj p) (flag : Bool), (orientPassD false es P flag).1 = [] := by
  intro es
  induction es with
  | nil => intro P flag; rfl
  | cons x es ih =>
    intro P flag
    obtain ⟨i, j⟩ := x
    rw [orientPassD]
    split_ifs <;> simp [shown, ih]

theorem orientLoopD_snd (debug : Bool) : ∀ (n : Nat) (P : Adj p), (orientLoopD debug n P).2 = orientLoop n P := by
  intro n
  induction n with
  | zero => intro P; rfl
  | succ n ih =>
    intro P
    have h := orientPassD_snd debug (undirectedEdges P) P false
    rw [orientLoopD, orientLoop, ← h]
    rcases orientPassD debug (undirectedEdges P) P false with ⟨out, P', _ | _⟩
    · rfl
    · exact ih P'

theorem orientLoopD_silent : ∀ (n : Nat) (P : Adj p), (orientLoopD false n P).1 = [] := by
  intro n
  induction n with
  | zero => intro P; rfl
  | succ n ih =>
    intro P
    have h := orientPassD_silent (undirectedEdges P) P false
    rw [orientLoopD]
    revert h
    rcases orientPassD false (undirectedEdges P) P false with ⟨out, P', _ | _⟩
    · exact fun h => h
    · intro h
      simp only at h ⊢
      rw [h, ih]
      rfl

theorem maximallyOrientD_snd (debug : Bool) (P : Adj p) : (maximallyOrientD debug P).2 = maximallyOrient P := by
  unfold maximallyOrientD maximallyOrient
  cases pdagToDag P with
  | error e => rfl
  | ok G => exact orientLoopD_snd debug _ P

theorem icpdagLoopD_snd (debug : Bool) : ∀ (es : List (Fin p × Fin p)) (P : Adj p), (icpdagLoopD debug es P).2 = icpdagLoop es P := by
  intro es
  induction es with
  | nil => intro P; rfl
  | cons x es ih =>
    intro P
    obtain ⟨a, b⟩ := x
    have h := maximallyOrientD_snd debug (setEntry P b a 0)
    rw [icpdagLoopD, icpdagLoop, ← h]
    rcases maximallyOrientD debug (setEntry P b a 0) with ⟨out, _ | P'⟩
    · rfl
    · exact ih P'

theorem maximallyOrientD_silent (P : Adj p) : (maximallyOrientD false P).1 = [] := by
  unfold maximallyOrientD
  cases pdagToDag P with
  | error e => rfl
  | ok G => exact orientLoopD_silent _ P

theorem icpdagLoopD_silent : ∀ (es : List (Fin p × Fin p)) (P : Adj p), (icpdagLoopD false es P).1 = [] := by
  intro es
  induction es with
  | nil => intro P; rfl
  | cons x es ih =>
    intro P
    obtain ⟨a, b⟩ := x
    have h := maximallyOrientD_silent (setEntry P b a 0)
    rw [icpdagLoopD]
    revert h
    rcases maximallyOrientD false (setEntry P b a 0) with ⟨out, _ | P'⟩
    · intro h
      simpa [shown] using h
    · intro h
      simp only at h
      simp [shown, h, ih]

/-- C142: with and without `debug` the functions return the same or raise the same exception, and without it they print nothing. -/
theorem C142_same_result (debug : Bool) (it : SetIter p) (P G : Adj p) (I : List (Fin p)) :
    (pdagToDagD debug P).2 = pdagToDag P ∧ (maximallyOrientD debug P).2 = maximallyOrient P ∧
    (dagToIcpdagD debug it G I).2 = dagToIcpdag it G I ∧ (isConsistentExtensionD debug it G P).2 = isConsistentExtension it G P ∧
    (pdagToDagD false P).1 = [] ∧ (maximallyOrientD false P).1 = [] ∧ (dagToIcpdagD false it G I).1 = [] ∧
    (isConsistentExtensionD false it G P).1 = [] := by
  refine ⟨pdagToDagLoopD_snd debug _ _ _ _, maximallyOrientD_snd debug P, ?_, ?_, pdagToDagLoopD_silent _ _ _ _,
    maximallyOrientD_silent P, ?_, ?_⟩
  · unfold dagToIcpdagD dagToIcpdag
    cases dagToCpdag it G with
    | error e => rfl
    | ok C =>
      have h := icpdagLoopD_snd debug (targetEdges it G I).reverse C
      simp only
      rw [← h]
      rcases icpdagLoopD debug (targetEdges it G I).reverse C with ⟨out, _ | P'⟩
      · rfl
      · simp only
        rcases isConsistentExtension it G P' with _ | _ | _ <;> rfl
  · unfold isConsistentExtensionD isConsistentExtension
    split_ifs <;> rfl
  · unfold dagToIcpdagD
    cases dagToCpdag it G with
    | error e => rfl
    | ok C =>
      have h := icpdagLoopD_silent (targetEdges it G I).reverse C
      simp only
      revert h
      rcases icpdagLoopD false (targetEdges it G I).reverse C with ⟨out, _ | P'⟩
      · exact fun h => h
      · intro h
        simp only at h ⊢
        rcases isConsistentExtension it G P' with _ | _ | _ <;> exact h
  · unfold isConsistentExtensionD
    split_ifs <;> rfl

/-! ## `pdag_to_dag` -/

theorem candidatesIn_search {n : Nat} (P : Adj n) (idx : Fin n → Fin p) : ∀ l : List (Fin n),
    candidatesIn (searchLines P idx l) = ((l.find? (isCandidate P)).map idx).toList := by
  intro l
  induction l with
  | nil => rfl
  | cons i l ih =>
    rw [searchLines, List.find?_cons]
    cases h : isCandidate P i with
    | true => rfl
    | false => simpa [candidatesIn] using ih

theorem pdagToDagLoop_out {n : Nat} {P : Adj n} {idx : Fin n → Fin p} {G G' : Adj p} (hl : NoLoops P) (hinj : Function.Injective idx)
    (h : pdagToDagLoop n P idx G = .ok G') : ∀ x y, ((∀ a, idx a ≠ x) ∨ (∀ b, idx b ≠ y)) → G' x y = G x y := by
  obtain ⟨D, -, -, h3⟩ := (pdagToDagLoop_spec n P idx G hl hinj).1 G' h
  exact h3

theorem pdagToDagLoopD_order : ∀ (n : Nat) (P : Adj n) (idx : Fin n → Fin p) (G G' : Adj p) (lines : List (DLine p)), NoLoops P →
    Function.Injective idx → (∀ a b, G (idx a) (idx b) ≠ 0 ↔ DirEdge P a b) →
    pdagToDagLoopD true n P idx G = (lines, .ok G') →
    (candidatesIn lines).Nodup ∧ (∀ v, v ∈ candidatesIn lines ↔ ∃ a, idx a = v) ∧
      (candidatesIn lines).Pairwise (fun a b => ¬ Edge G' a b) := by
  intro n
  induction n with
  | zero =>
    intro P idx G G' lines hl hinj hG h
    cases h
    refine ⟨List.nodup_nil, fun v => ⟨by simp [candidatesIn], fun ⟨a, _⟩ => a.elim0⟩, List.Pairwise.nil⟩
  | succ n ih =>
    intro P idx G G' lines hl hinj hG h
    rw [pdagToDagLoopD] at h
    cases hf : findCandidate P with
    | none => simp [hf] at h
    | some i =>
      simp only [hf, Prod.mk.injEq] at h
      obtain ⟨hlines, hres⟩ := h
      have hc1 := ((isCandidate_iff P i).1 (findCandidate_some hf)).1
      have hinj' : Function.Injective (fun a => idx (i.succAbove a)) := hinj.comp Fin.succAbove_right_injective
      have horient : ∀ a b, orientInto G P idx i (idx (i.succAbove a)) (idx (i.succAbove b)) = G (idx (i.succAbove a)) (idx (i.succAbove b)) := by
        intro a b
        unfold orientInto
        rw [if_neg]
        rintro ⟨h, _⟩
        exact Fin.succAbove_ne i b (hinj h)
      obtain ⟨k1, k2, k3⟩ := ih (dropNode i P) (fun a => idx (i.succAbove a)) (orientInto G P idx i) G'
        (pdagToDagLoopD true n (dropNode i P) (fun a => idx (i.succAbove a)) (orientInto G P idx i)).1 (fun a => hl _) hinj'
        (fun a b => by rw [horient, hG]; rfl) (Prod.ext rfl hres)
      have hout := pdagToDagLoop_out (P := dropNode i P) (fun a => hl _) hinj' ((pdagToDagLoopD_snd true _ _ _ _).symm.trans hres)
      have hcand : candidatesIn lines = idx i :: candidatesIn
          (pdagToDagLoopD true n (dropNode i P) (fun a => idx (i.succAbove a)) (orientInto G P idx i)).1 := by
        rw [← hlines, candidatesIn_append]
        simp only [shown, if_true, candidatesIn, candidatesIn_search]
        rw [show (List.finRange (n + 1)).find? (isCandidate P) = some i from hf]
        rfl
      rw [hcand]
      refine ⟨List.nodup_cons.2 ⟨?_, k1⟩, ?_, List.pairwise_cons.2 ⟨?_, k3⟩⟩
      · rw [k2]
        rintro ⟨a, ha⟩
        exact Fin.succAbove_ne i a (hinj ha)
      · intro v
        rw [List.mem_cons, k2]
        constructor
        · rintro (rfl | ⟨a, ha⟩)
          · exact ⟨i, rfl⟩
          · exact ⟨_, ha⟩
        · rintro ⟨a, rfl⟩
          rcases Fin.eq_self_or_eq_succAbove i a with rfl | ⟨a, rfl⟩
          · exact Or.inl rfl
          · exact Or.inr ⟨a, rfl⟩
      · intro v hv hE
        obtain ⟨b, rfl⟩ := (k2 v).1 hv
        unfold Edge at hE
        rw [hout _ _ (Or.inl fun a h => Fin.succAbove_ne i a (hinj h))] at hE
        unfold orientInto at hE
        rw [if_neg (by
          rintro ⟨h, _⟩
          exact Fin.succAbove_ne i b (hinj h)), hG] at hE
        exact hc1 _ hE

/-- C142: when `pdag_to_dag` returns, the lines `Found candidate` name every variable exactly once, and their order read backwards is a
topological ordering of the DAG that is returned: no edge points from a variable to one that is named later. -/
theorem C142_candidates (P G : Adj p) (hl : NoLoops P) (lines : List (DLine p)) (h : pdagToDagD true P = (lines, .ok G)) :
    (candidatesIn lines).Perm (List.finRange p) ∧ (candidatesIn lines).Pairwise (fun a b => ¬ Edge G a b) := by
  obtain ⟨k1, k2, k3⟩ := pdagToDagLoopD_order p P id (onlyDirected P) G lines hl Function.injective_id (fun a b => onlyDirected_ne) h
  refine ⟨(List.perm_ext_iff_of_nodup k1 (List.nodup_finRange p)).2 fun v => ?_, k3⟩
  simp [k2]

/-- What `pdag_to_dag` prints while it looks for the next node: the graph `Q` on the variables that are left, in increasing order, their list,
a line for each position up to the first node that satisfies the two conditions (no child; each neighbour adjacent to all other adjacent
nodes), and this node, by its position and as a variable.  `before` are the variables found before. -/
def Spec.SearchBlock (P : Adj p) (before : List (Fin p)) (v : Fin p) (block : List (DLine p)) : Prop :=
  ∃ (n : Nat) (Q : Adj n) (idx : Fin n → Fin p) (i : Fin n), StrictMono idx ∧ (∀ w, (∃ a, idx a = w) ↔ w ∉ before) ∧
    (∀ a b, Q a b = P (idx a) (idx b)) ∧ idx i = v ∧
    (∀ j, (j < i → ¬ ((∀ k, ¬ DirEdge Q j k) ∧ ∀ y, UndEdge Q j y → ∀ a, Adjacent Q j a → a ≠ y → Adjacent Q y a))) ∧
    (∀ k, ¬ DirEdge Q i k) ∧ (∀ y, UndEdge Q i y → ∀ a, Adjacent Q i a → a ≠ y → Adjacent Q y a) ∧
    block = .graph Q :: .indexes (List.ofFn idx) ::
      (((List.finRange n).take (i.val + 1)).map fun j => .node j (neighbors j Q) (adj j Q) (ch j Q)) ++ [.candidate i.val v]

/-- A sequence of such blocks. -/
inductive Spec.SearchBlocks (P : Adj p) : List (Fin p) → List (DLine p) → Prop where
  | nil (before : List (Fin p)) : SearchBlocks P before []
  | cons {before : List (Fin p)} {v : Fin p} {block rest : List (DLine p)} : SearchBlock P before v block →
      SearchBlocks P (v :: before) rest → SearchBlocks P before (block ++ rest)

theorem searchLines_found {n : Nat} (P : Adj n) (idx : Fin n → Fin p) : ∀ (l : List (Fin n)) (i : Fin n), l.find? (isCandidate P) = some i →
    ∃ pre post, l = pre ++ i :: post ∧ (∀ j ∈ pre, ¬ isCandidate P j = true) ∧
      searchLines P idx l = ((pre ++ [i]).map fun j => .node j (neighbors j P) (adj j P) (ch j P)) ++ [.candidate i.val (idx i)] := by
  intro l
  induction l with
  | nil => intro i h; simp at h
  | cons a l ih =>
    intro i h
    by_cases ha : isCandidate P a = true
    · rw [List.find?_cons_of_pos ha] at h
      cases h
      exact ⟨[], l, rfl, by simp, by simp [searchLines, ha]⟩
    · rw [List.find?_cons_of_neg ha] at h
      obtain ⟨pre, post, h1, h2, h3⟩ := ih i h
      refine ⟨a :: pre, post, by rw [h1]; rfl, ?_, ?_⟩
      · intro j hj
        rcases List.mem_cons.1 hj with rfl | hj
        · exact ha
        · exact h2 j hj
      · rw [searchLines, if_neg ha, h3]
        rfl

theorem pdagToDagLoopD_blocks (P : Adj p) : ∀ (n : Nat) (Q : Adj n) (idx : Fin n → Fin p) (G G' : Adj p) (before : List (Fin p)) (lines : List (DLine p)),
    StrictMono idx → (∀ w, (∃ a, idx a = w) ↔ w ∉ before) → (∀ a b, Q a b = P (idx a) (idx b)) →
    pdagToDagLoopD true n Q idx G = (lines, .ok G') → SearchBlocks P before lines := by
  intro n
  induction n with
  | zero =>
    intro Q idx G G' before lines _ _ _ h
    simp only [pdagToDagLoopD, Prod.mk.injEq] at h
    rw [← h.1]
    exact .nil _
  | succ n ih =>
    intro Q idx G G' before lines hmono hrem hQ h
    rw [pdagToDagLoopD] at h
    cases hf : findCandidate Q with
    | none => simp [hf] at h
    | some i =>
      simp only [hf, Prod.mk.injEq] at h
      obtain ⟨hlines, hres⟩ := h
      rw [← hlines]
      obtain ⟨pre, post, h1, h2, h3⟩ := searchLines_found Q idx (List.finRange (n + 1)) i hf
      have hlen : pre.length = i.val := by
        have : (List.finRange (n + 1))[pre.length]? = some i := by rw [h1]; simp
        rw [List.getElem?_eq_some_iff] at this
        obtain ⟨hlt, this⟩ := this
        rw [List.getElem_finRange] at this
        simpa using congrArg Fin.val this
      have htake : (List.finRange (n + 1)).take (i.val + 1) = pre ++ [i] := by
        rw [h1, ← hlen, show pre ++ i :: post = (pre ++ [i]) ++ post by simp]
        rw [List.take_left' (by simp)]
      refine .cons (v := idx i) ⟨n + 1, Q, idx, i, hmono, hrem, hQ, rfl, ?_, ?_, ?_, ?_⟩ ?_
      · intro j hj
        rw [← isCandidate_iff]
        refine h2 j ?_
        have : j ∈ (List.finRange (n + 1)).take i.val := by
          rw [List.mem_take_iff_getElem]
          exact ⟨j.val, by simpa using hj, by simp⟩
        rwa [h1, ← hlen, List.take_left] at this
      · exact ((isCandidate_iff Q i).1 (findCandidate_some hf)).1
      · exact ((isCandidate_iff Q i).1 (findCandidate_some hf)).2
      · rw [shown, if_pos rfl, h3, htake]
        rfl
      · refine ih _ _ _ G' _ _ (hmono.comp i.strictMono_succAbove) ?_ (fun a b => hQ _ _) (Prod.ext rfl hres)
        intro w
        rw [List.mem_cons, not_or, ← hrem]
        constructor
        · rintro ⟨a, rfl⟩
          exact ⟨fun h => Fin.succAbove_ne i a (hmono.injective h), _, rfl⟩
        · rintro ⟨hne, a, rfl⟩
          rcases Fin.eq_self_or_eq_succAbove i a with rfl | ⟨a, rfl⟩
          · exact absurd rfl hne
          · exact ⟨a, rfl⟩

/-- C142: when `pdag_to_dag` returns, what it prints is one such block after the other: in each one the graph and the list are those of the
variables not yet found, the nodes are looked at in order, the candidate is the first one that satisfies the two conditions, and the line
gives its position in the printed list and its variable. -/
theorem C142_search (P G : Adj p) (lines : List (DLine p)) (h : pdagToDagD true P = (lines, .ok G)) : SearchBlocks P [] lines :=
  pdagToDagLoopD_blocks P p P id _ G [] lines strictMono_id (by simp) (fun _ _ => rfl) h

theorem pdagToDagLoopD_stuck : ∀ (n : Nat) (P : Adj n) (idx : Fin n → Fin p) (G : Adj p) (lines : List (DLine p)) (err : Err),
    Function.Injective idx → pdagToDagLoopD true n P idx G = (lines, .error err) →
    err = .valueError ∧ ∃ (m : Nat) (Q : Adj m) (sub : Fin m → Fin n) (pre post : List (DLine p)), Function.Injective sub ∧
      lines = pre ++ .graph Q :: .indexes (List.ofFn (idx ∘ sub)) :: post ∧ (∀ a b, Q a b = P (sub a) (sub b)) ∧
      (∀ v, (∃ a, idx a = v) → ((∃ a, idx (sub a) = v) ↔ v ∉ candidatesIn pre)) ∧
      post = (List.finRange m).map (fun i => .node i (neighbors i Q) (adj i Q) (ch i Q)) ∧ ¬ ∃ D, IsExtension D Q := by
  intro n
  induction n with
  | zero => intro P idx G lines err hinj h; simp [pdagToDagLoopD] at h
  | succ n ih =>
    intro P idx G lines err hinj h
    rw [pdagToDagLoopD] at h
    cases hf : findCandidate P with
    | none =>
      simp only [hf, Prod.mk.injEq, Except.error.injEq] at h
      obtain ⟨hlines, rfl⟩ := h
      refine ⟨rfl, n + 1, P, id, [], _, Function.injective_id, hlines.symm, fun _ _ => rfl, fun v hv => ?_, ?_, ?_⟩
      · simpa [candidatesIn] using hv
      · have : ∀ l : List (Fin (n + 1)), searchLines P idx l = l.map fun i => DLine.node i (neighbors i P) (adj i P) (ch i P) := by
          intro l
          induction l with
          | nil => rfl
          | cons i l ih =>
            rw [searchLines, if_neg (findCandidate_none hf i), ih]
            rfl
        exact this _
      · rintro ⟨D, hD⟩
        obtain ⟨i, hi⟩ := hD.1.exists_sink
        exact findCandidate_none hf i (candidate_of_extension hD hi)
    | some i =>
      simp only [hf, Prod.mk.injEq] at h
      obtain ⟨hlines, hres⟩ := h
      have hinj' : Function.Injective (fun a => idx (i.succAbove a)) := hinj.comp Fin.succAbove_right_injective
      obtain ⟨rfl, m, Q, sub, pre, post, k1, k2, k3, k4, k5, k6⟩ := ih (fun a b => P (i.succAbove a) (i.succAbove b))
        (fun a => idx (i.succAbove a)) (orientInto G P idx i) _ err hinj' (Prod.ext rfl hres)
      refine ⟨rfl, m, Q, fun a => i.succAbove (sub a),
        (shown true (.graph P :: .indexes (List.ofFn idx) :: searchLines P idx (List.finRange (n + 1)))) ++ pre, post,
        Fin.succAbove_right_injective.comp k1, ?_, k3, ?_, k5, k6⟩
      · exact (hlines.symm.trans (congrArg (_ ++ ·) k2)).trans (List.append_assoc _ _ _).symm
      · intro v hv
        rw [candidatesIn_append]
        have hc : candidatesIn (shown true (.graph P :: .indexes (List.ofFn idx) :: searchLines P idx (List.finRange (n + 1)))) = [idx i] := by
          simp only [shown, if_true, candidatesIn, candidatesIn_search]
          rw [show (List.finRange (n + 1)).find? (isCandidate P) = some i from hf]
          rfl
        rw [hc]
        simp only [List.singleton_append, List.mem_cons, not_or]
        obtain ⟨a, rfl⟩ := hv
        rcases Fin.eq_self_or_eq_succAbove i a with rfl | ⟨a, rfl⟩
        · refine ⟨fun ⟨b, hb⟩ => absurd (hinj hb) (Fin.succAbove_ne a (sub b)), fun h => absurd rfl h.1⟩
        · rw [k4 _ ⟨a, rfl⟩]
          exact ⟨fun h => ⟨fun hc => Fin.succAbove_ne i a (hinj hc), h⟩, fun h => h.2⟩

/-- C142: when `pdag_to_dag` raises, the last graph that it printed is the part of `P` on the last printed variables, which are those not named
as candidates, this part alone has no consistent extension, and one line about every of its nodes follows. -/
theorem C142_stuck (P : Adj p) (lines : List (DLine p)) (err : Err) (h : pdagToDagD true P = (lines, .error err)) :
    err = .valueError ∧ ∃ (m : Nat) (Q : Adj m) (vars : Fin m → Fin p) (pre post : List (DLine p)), Function.Injective vars ∧
      lines = pre ++ .graph Q :: .indexes (List.ofFn vars) :: post ∧ (∀ a b, Q a b = P (vars a) (vars b)) ∧
      (∀ v, (∃ a, vars a = v) ↔ v ∉ candidatesIn lines) ∧
      post = (List.finRange m).map (fun i => .node i (neighbors i Q) (adj i Q) (ch i Q)) ∧ ¬ ∃ D, IsExtension D Q := by
  obtain ⟨h1, m, Q, sub, pre, post, k1, k2, k3, k4, k5, k6⟩ := pdagToDagLoopD_stuck p P id (onlyDirected P) lines err Function.injective_id h
  refine ⟨h1, m, Q, sub, pre, post, k1, k2, k3, fun v => ?_, k5, k6⟩
  have hnil : ∀ l : List (Fin m), candidatesIn (p := p) (l.map fun i => DLine.node i (neighbors i Q) (adj i Q) (ch i Q)) = [] := by
    intro l
    induction l with
    | nil => rfl
    | cons i l ih => simpa [candidatesIn] using ih
  have hc : candidatesIn lines = candidatesIn pre := by
    rw [k2, k5, candidatesIn_append]
    simp [candidatesIn, hnil]
  rw [hc]
  exact k4 v ⟨v, rfl⟩

/-! ## `maximally_orient` -/

/-- What the lines of one or several passes say: each names an edge that is undirected in the graph so far and to which a rule applies, with the
rules that apply; then the edge is oriented. -/
inductive Orients (P : Adj p) : List (DLine p) → Adj p → Prop where
  | nil : Orients P [] P
  | snoc {lines : List (DLine p)} {Q : Adj p} {a b : Fin p} : Orients P lines Q → UndEdge Q a b → a ≠ b → anyRule a b Q = true →
      Orients P (lines ++ [.oriented (ruleList a b Q) a b (decide (a < b))]) (setEntry Q b a 0)

theorem undEdge_setEntry {P : Adj p} {i j a b : Fin p} (h : UndEdge P a b) (h1 : ¬ (a = i ∧ b = j)) (h2 : ¬ (a = j ∧ b = i)) :
    UndEdge (setEntry P j i 0) a b := by
  unfold UndEdge setEntry at *
  rw [if_neg h2, if_neg (fun hc => h1 ⟨hc.2, hc.1⟩)]
  exact h

theorem orientPassD_orients (P : Adj p) : ∀ (es : List (Fin p × Fin p)) (lines : List (DLine p)) (Q : Adj p) (flag : Bool), Orients P lines Q →
    es.Nodup → (∀ x ∈ es, UndEdge Q x.1 x.2 ∧ x.2 < x.1) →
    Orients P (lines ++ (orientPassD true es Q flag).1) (orientPassD true es Q flag).2.1 := by
  intro es
  induction es with
  | nil =>
    intro lines Q flag h _ _
    simpa [orientPassD] using h
  | cons x es ih =>
    intro lines Q flag h hnd hes
    obtain ⟨i, j⟩ := x
    obtain ⟨hU, hlt⟩ := hes (i, j) (by simp)
    simp only at hU hlt
    have hne : i ≠ j := fun hc => by rw [hc] at hlt; exact lt_irrefl _ hlt
    obtain ⟨hni, hnd'⟩ := List.nodup_cons.1 hnd
    have hrest : ∀ x ∈ es, ¬ (x.1 = i ∧ x.2 = j) ∧ ¬ (x.1 = j ∧ x.2 = i) := by
      intro x hx
      constructor
      · rintro ⟨h1, h2⟩
        exact hni (by rw [← h1, ← h2]; exact hx)
      · rintro ⟨h1, h2⟩
        have := (hes x (by simp [hx])).2
        rw [h1, h2] at this
        exact lt_asymm this hlt
    rw [orientPassD]
    split_ifs with h1 h2
    · simp only [shown, if_true]
      rw [← List.append_assoc]
      refine ih _ _ true ?_ hnd' (fun x hx => ⟨undEdge_setEntry (hes x (by simp [hx])).1 (hrest x hx).1 (hrest x hx).2,
        (hes x (by simp [hx])).2⟩)
      have := Orients.snoc h hU hne h1
      rwa [decide_eq_false (not_lt.2 hlt.le)] at this
    · simp only [shown, if_true]
      rw [← List.append_assoc]
      refine ih _ _ true ?_ hnd' (fun x hx => ⟨undEdge_setEntry (hes x (by simp [hx])).1 (hrest x hx).2 (hrest x hx).1,
        (hes x (by simp [hx])).2⟩)
      have := Orients.snoc h hU.symm hne.symm h2
      rwa [decide_eq_true hlt] at this
    · exact ih _ _ flag h hnd' (fun x hx => hes x (by simp [hx]))

theorem orientLoopD_orients (P : Adj p) : ∀ (n : Nat) (lines : List (DLine p)) (Q Q' : Adj p), Orients P lines Q →
    (orientLoopD true n Q).2 = .ok Q' → Orients P (lines ++ (orientLoopD true n Q).1) Q' := by
  intro n
  induction n with
  | zero => intro lines Q Q' _ h; simp [orientLoopD] at h
  | succ n ih =>
    intro lines Q Q' hO h
    have hp := orientPassD_orients P (undirectedEdges Q) lines Q false hO nodup_undirectedEdges (fun x hx => mem_undirectedEdges.1 hx)
    rw [orientLoopD] at h ⊢
    revert h hp
    rcases orientPassD true (undirectedEdges Q) Q false with ⟨out, P', _ | _⟩
    · intro h hp
      cases h
      exact hp
    · intro h hp
      simp only at h hp ⊢
      rw [← List.append_assoc]
      exact ih _ _ _ hp h

theorem maximallyOrientD_orients (P : Adj p) (lines : List (DLine p)) (Q Q' : Adj p) (hO : Orients P lines Q)
    (h : (maximallyOrientD true Q).2 = .ok Q') : Orients P (lines ++ (maximallyOrientD true Q).1) Q' := by
  unfold maximallyOrientD at h ⊢
  cases hd : pdagToDag Q with
  | error e => simp [hd] at h
  | ok G =>
    simp only [hd] at h ⊢
    exact orientLoopD_orients P _ lines Q Q' hO h

/-- The rules in terms of the graph. -/
structure Spec.RulesShown (Q : Adj p) (rules : List Bool) (a b : Fin p) : Prop where
  undirected : UndEdge Q a b
  length : rules.length = 4
  applies : true ∈ rules
  first : rules[0]? = some true ↔ ∃ k, DirEdge Q k a ∧ ¬ Adjacent Q k b
  second : rules[1]? = some true ↔ ∃ k, DirEdge Q a k ∧ DirEdge Q k b
  third : rules[2]? = some true ↔ ∃ k l, k ≠ l ∧ UndEdge Q a k ∧ UndEdge Q a l ∧ DirEdge Q k b ∧ DirEdge Q l b ∧ ¬ Adjacent Q k l
  fourth : rules[3]? = some true ↔ ∃ k h, UndEdge Q a k ∧ UndEdge Q a h ∧ DirEdge Q h k ∧ DirEdge Q k b ∧ ¬ Adjacent Q h b

theorem rulesShown {Q : Adj p} {a b : Fin p} (hU : UndEdge Q a b) (h : anyRule a b Q = true) : RulesShown Q (ruleList a b Q) a b := by
  refine ⟨hU, rfl, ?_, ?_, ?_, ?_, ?_⟩
  · unfold anyRule at h
    unfold ruleList
    simp only [Bool.or_eq_true] at h
    rcases h with ((h | h) | h) | h <;> simp [h]
  · simp [ruleList, rule1_iff]
  · simp [ruleList, rule2_iff]
  · simp [ruleList, rule3_iff]
  · simp [ruleList, rule4_iff]

theorem Orients.spec {P : Adj p} {lines : List (DLine p)} {Q : Adj p} (h : Orients P lines Q) :
    (orientationsIn lines).Nodup ∧ (∀ x ∈ orientationsIn lines, UndEdge P x.1 x.2 ∧ (x.2, x.1) ∉ orientationsIn lines) ∧
      Q = orientedBy P (orientationsIn lines) ∧ (∀ x ∈ lines, ∃ r i j s, x = .oriented r i j s) ∧
      ∀ pre post rules a b sw, lines = pre ++ .oriented rules a b sw :: post →
        RulesShown (orientedBy P (orientationsIn pre)) rules a b ∧ (sw = true ↔ a < b) := by
  induction h with
  | nil => refine ⟨List.nodup_nil, by simp [orientationsIn], ?_, by simp, ?_⟩
           · funext a b; simp [orientedBy, orientationsIn]
           · intro pre post rules a b sw h; simp at h
  | @snoc lines Q a b _ hU hne hr ih =>
    obtain ⟨k1, k2, k3, k4, k5⟩ := ih
    have hor : orientationsIn (lines ++ [.oriented (ruleList a b Q) a b (decide (a < b))]) = orientationsIn lines ++ [(a, b)] := by
      rw [orientationsIn_append]; rfl
    rw [hor]
    have hU' := hU
    rw [k3] at hU'
    unfold UndEdge orientedBy at hU'
    have n1 : (b, a) ∉ orientationsIn lines := fun hc => hU'.1 (if_pos hc)
    have n2 : (a, b) ∉ orientationsIn lines := fun hc => hU'.2 (if_pos hc)
    rw [if_neg n1, if_neg n2] at hU'
    refine ⟨?_, ?_, ?_, ?_, ?_⟩
    · rw [List.nodup_append]
      refine ⟨k1, by simp, ?_⟩
      intro x hx y hy hxy
      rw [List.mem_singleton] at hy
      subst hy
      exact n2 (hxy ▸ hx)
    · intro x hx
      rcases List.mem_append.1 hx with hx | hx
      · refine ⟨(k2 x hx).1, ?_⟩
        rw [List.mem_append, not_or]
        refine ⟨(k2 x hx).2, ?_⟩
        rw [List.mem_singleton]
        intro hc
        simp only [Prod.mk.injEq] at hc
        exact n1 (by rw [← hc.1, ← hc.2]; exact hx)
      · rw [List.mem_singleton] at hx
        subst hx
        refine ⟨hU', ?_⟩
        rw [List.mem_append, not_or]
        refine ⟨n1, ?_⟩
        rw [List.mem_singleton]
        intro hc
        simp only [Prod.mk.injEq] at hc
        exact hne hc.2
    · funext c d
      rw [k3]
      unfold setEntry orientedBy
      simp only [List.mem_append, List.mem_singleton, Prod.mk.injEq]
      by_cases hc : c = b ∧ d = a
      · rw [if_pos hc, if_pos (Or.inr ⟨hc.2, hc.1⟩)]
      · rw [if_neg hc]
        have : ¬ (d = a ∧ c = b) := fun h => hc ⟨h.2, h.1⟩
        simp [this]
    · intro x hx
      rcases List.mem_append.1 hx with hx | hx
      · exact k4 x hx
      · rw [List.mem_singleton] at hx
        exact ⟨_, _, _, _, hx⟩
    · intro pre post rules c d sw h
      rcases List.eq_nil_or_concat post with rfl | ⟨post', y, rfl⟩
      · obtain ⟨rfl, h2⟩ := List.append_inj' h rfl
        simp only [List.cons.injEq, DLine.oriented.injEq, and_true] at h2
        obtain ⟨rfl, rfl, rfl, rfl⟩ := h2
        rw [← k3]
        exact ⟨rulesShown hU hr, by simp⟩
      · rw [List.concat_eq_append, ← List.cons_append, ← List.append_assoc] at h
        obtain ⟨h1, -⟩ := List.append_inj' h rfl
        exact k5 pre post' rules c d sw h1

/-- C142: when `maximally_orient` returns, the lines name exactly the edges that were undirected in `P` and are directed in the result, each
once and in the direction of the result; so there are as many lines as oriented edges. -/
theorem C142_orientations (P P' : Adj p) (lines : List (DLine p)) (h : maximallyOrientD true P = (lines, .ok P')) :
    (orientationsIn lines).Nodup ∧ (orientationsIn lines).length = lines.length ∧
    ∀ a b, (a, b) ∈ orientationsIn lines ↔ UndEdge P a b ∧ DirEdge P' a b := by
  have hO := maximallyOrientD_orients P [] P P' Orients.nil (by rw [h])
  rw [List.nil_append, h] at hO
  obtain ⟨k1, k2, k3, k4, -⟩ := hO.spec
  refine ⟨k1, ?_, fun a b => ?_⟩
  · clear k1 k2 k3 hO h
    induction lines with
    | nil => rfl
    | cons x l ih =>
      obtain ⟨r, i, j, s, rfl⟩ := k4 x (by simp)
      simp [orientationsIn, ih (fun y hy => k4 y (by simp [hy]))]
  · rw [k3]
    unfold DirEdge orientedBy
    constructor
    · intro hab
      obtain ⟨h1, h2⟩ := k2 _ hab
      exact ⟨h1, by rw [if_neg h2]; exact h1.1, if_pos hab⟩
    · rintro ⟨h1, -, h3⟩
      by_contra hc
      rw [if_neg hc] at h3
      exact h1.2 h3

/-- C142: each line shows truthfully which of the four rules apply to its edge, at least one, in the graph in which the edges of the lines before
are oriented and this edge is not yet; the text says `Orjented` exactly if the edge goes from the smaller to the larger index. -/
theorem C142_rules (P P' : Adj p) (lines : List (DLine p)) (h : maximallyOrientD true P = (lines, .ok P')) (pre post : List (DLine p))
    (x : DLine p) (hx : lines = pre ++ x :: post) :
    ∃ rules a b sw, x = .oriented rules a b sw ∧ RulesShown (orientedBy P (orientationsIn pre)) rules a b ∧ (sw = true ↔ a < b) := by
  have hO := maximallyOrientD_orients P [] P P' Orients.nil (by rw [h])
  rw [List.nil_append, h] at hO
  obtain ⟨-, -, -, k4, k5⟩ := hO.spec
  obtain ⟨r, i, j, s, rfl⟩ := k4 x (by rw [hx]; simp)
  exact ⟨r, i, j, s, rfl, k5 _ _ _ _ _ _ hx⟩

/-- C142: all consistent extensions of `P` have the edges that are named. -/
theorem C142_shared (P P' : Adj p) (hD : ∃ D, IsExtension D P) (lines : List (DLine p)) (h : maximallyOrientD true P = (lines, .ok P'))
    (a b : Fin p) (hab : (a, b) ∈ orientationsIn lines) (H : Adj p) (hH : IsExtension H P) : Edge H a b := by
  have h' : maximallyOrient P = .ok P' := by rw [← maximallyOrientD_snd true P, h]
  obtain ⟨P1, h1, -, -, h4⟩ := maximallyOrient_spec hD
  rw [h'] at h1
  cases h1
  exact ((h4 H).2 hH).2.2.2 a b (((C142_orientations P P' lines h).2.2 a b).1 hab).2

/-! ## `dag_to_icpdag` -/

theorem Orients.stacks {P : Adj p} {lines : List (DLine p)} {Q : Adj p} (h : Orients P lines Q) : stacksIn lines = [] := by
  induction h with
  | nil => rfl
  | snoc _ _ _ _ ih => rw [stacksIn_append, ih]; rfl

theorem icpdagLoopD_lines {G : Adj p} : ∀ (es : List (Fin p × Fin p)) (P P' : Adj p) (lines : List (DLine p)), IsExtension G P →
    (∀ x ∈ es, Edge G x.1 x.2) → icpdagLoopD true es P = (lines, .ok P') →
    stacksIn lines = (List.range es.length).map (fun k => (es.drop k).reverse) ∧ (orientationsIn lines).Nodup ∧
    (∀ x ∈ orientationsIn lines, UndEdge P x.1 x.2 ∧ Edge G x.1 x.2) ∧
    ∀ c d, P' c d = 0 ↔ P c d = 0 ∨ (d, c) ∈ orientationsIn lines ∨ (d, c) ∈ es := by
  intro es
  induction es with
  | nil =>
    intro P P' lines _ _ h
    cases h
    exact ⟨rfl, List.nodup_nil, by simp [orientationsIn], by simp [orientationsIn]⟩
  | cons e es ih =>
    intro P P' lines hG hes h
    obtain ⟨x, y⟩ := e
    have hxy : Edge G x y := hes (x, y) (by simp)
    have hG1 : IsExtension G (setEntry P y x 0) := (setEntry_ext (H := G) hG hxy).1.2 ⟨hG, hxy⟩
    obtain ⟨P1, m1, -, -, m4⟩ := maximallyOrient_spec ⟨G, hG1⟩
    have hm := maximallyOrientD_snd true (setEntry P y x 0)
    rw [m1] at hm
    have hO := maximallyOrientD_orients _ [] _ P1 Orients.nil hm
    rw [List.nil_append] at hO
    rw [icpdagLoopD] at h
    revert h hO hm
    rcases maximallyOrientD true (setEntry P y x 0) with ⟨out, _ | P2⟩
    · intro h hm
      simp at hm
    · intro h hm hO
      simp only [Except.ok.injEq] at hm hO
      subst hm
      simp only [Prod.mk.injEq] at h
      obtain ⟨hl, hr⟩ := h
      have hGP2 := (m4 G).2 hG1
      obtain ⟨k1, k2, k3, k4⟩ := ih P2 P' (icpdagLoopD true es P2).1 hGP2 (fun x hx => hes x (by simp [hx])) (Prod.ext rfl hr)
      obtain ⟨o1, o2, o3, -, -⟩ := hO.spec
      have hor : orientationsIn lines = orientationsIn out ++ orientationsIn (icpdagLoopD true es P2).1 := by
        rw [← hl, orientationsIn_append, orientationsIn_append]
        rfl
      have hst : stacksIn lines = ((x, y) :: es).reverse :: stacksIn (icpdagLoopD true es P2).1 := by
        rw [← hl, stacksIn_append, stacksIn_append, hO.stacks]
        rfl
      have hset : ∀ c d, setEntry P y x 0 c d ≠ 0 → P c d ≠ 0 := by
        intro c d hc
        unfold setEntry at hc
        split at hc
        · exact absurd rfl hc
        · exact hc
      have hback : ∀ c d, P2 c d ≠ 0 → P c d ≠ 0 := by
        intro c d hc
        rw [o3] at hc
        unfold orientedBy at hc
        split at hc
        · exact absurd rfl hc
        · exact hset c d hc
      rw [hor, hst, k1]
      refine ⟨?_, ?_, ?_, ?_⟩
      · rw [List.length_cons, List.range_succ_eq_map, List.map_cons, List.map_map]
        rfl
      · rw [List.nodup_append]
        refine ⟨o1, k2, ?_⟩
        rintro z hz _ hz' rfl
        have h1 := (k3 z hz').1.2
        rw [o3] at h1
        unfold orientedBy at h1
        rw [if_pos hz] at h1
        exact h1 rfl
      · intro z hz
        rcases List.mem_append.1 hz with hz | hz
        · obtain ⟨h1, h2⟩ := o2 z hz
          refine ⟨⟨hset _ _ h1.1, hset _ _ h1.2⟩, hGP2.2.2.2 _ _ ?_⟩
          rw [o3]
          unfold DirEdge orientedBy
          rw [if_neg h2, if_pos hz]
          exact ⟨h1.1, rfl⟩
        · obtain ⟨h1, h2⟩ := k3 z hz
          exact ⟨⟨hback _ _ h1.1, hback _ _ h1.2⟩, h2⟩
      · intro c d
        rw [k4, o3]
        unfold orientedBy setEntry
        simp only [List.mem_append, List.mem_cons, Prod.mk.injEq]
        split_ifs with h1 h2
        · simp [h1]
        · simp [h2]
        · have : ¬ (d = x ∧ c = y) := fun h => h2 ⟨h.2, h.1⟩
          simp [h1, this]

theorem length_setIter (it : SetIter p) (s : Finset (Fin p)) : (it.toList s).length = s.card := by
  rw [← List.toFinset_card_of_nodup (it.nodup s)]
  congr 1
  ext x
  rw [List.mem_toFinset, it.mem]

theorem length_targetEdges (it : SetIter p) (G : Adj p) (hac : Acyclic G) (I : List (Fin p)) :
    (targetEdges it G I).length = (I.map fun i => (Finset.univ.filter fun j => Adjacent G i j).card).sum := by
  unfold targetEdges
  rw [List.length_flatMap]
  congr 1
  refine List.map_congr_left fun i _ => ?_
  rw [List.length_append, List.length_map, List.length_map, length_setIter, length_setIter, ← Finset.card_union_of_disjoint]
  · congr 1
    ext j
    simp only [Finset.mem_union, mem_ch, mem_pa, Finset.mem_filter, Finset.mem_univ, true_and]
    unfold Adjacent
    constructor
    · rintro (h | h)
      · exact Or.inl h.1
      · exact Or.inr h.1
    · rintro (h | h)
      · exact Or.inl ⟨h, hac.no_two h⟩
      · exact Or.inr ⟨h, hac.no_two h⟩
  · rw [Finset.disjoint_left]
    intro j h1 h2
    rw [mem_ch] at h1
    rw [mem_pa] at h2
    exact h1.1 h2.2

/-- C142: the lines of `dag_to_icpdag` for a DAG.  The printed lists are the list of the edges at the targets (once per target, so edges between
two targets occur twice) without its last elements.  The lines `Oriented` name edges of the DAG that are undirected in its CPDAG, each once.
These and the edges at targets are exactly the edges that the intervention orients. -/
theorem C142_icpdag (it : SetIter p) (G : Adj p) (hG : Nonneg G) (hac : Acyclic G) (I : List (Fin p)) :
    ∃ (C P : Adj p) (lines : List (DLine p)) (L : List (Fin p × Fin p)), dagToCpdag it G = .ok C ∧
      dagToIcpdagD true it G I = (lines, .ok P) ∧
      (∀ x, x ∈ L ↔ Edge G x.1 x.2 ∧ (x.1 ∈ I ∨ x.2 ∈ I)) ∧
      L.length = (I.map fun i => (Finset.univ.filter fun j => Adjacent G i j).card).sum ∧
      stacksIn lines = (List.range L.length).map (fun k => L.take (L.length - k)) ∧
      (orientationsIn lines).Nodup ∧ (∀ x ∈ orientationsIn lines, UndEdge C x.1 x.2 ∧ Edge G x.1 x.2) ∧
      ∀ a b, UndEdge C a b → (DirEdge P a b ↔ (a, b) ∈ orientationsIn lines ∨ (Edge G a b ∧ (a ∈ I ∨ b ∈ I))) := by
  obtain ⟨P, hP, -, -, hext⟩ := dagToIcpdag_spec it hG hac I
  have hsnd : (dagToIcpdagD true it G I).2 = .ok P := by rw [(C142_same_result true it G G I).2.2.1, hP]
  obtain ⟨L0, pos, hC, hL⟩ := dagToCpdag_labelling it hG hac
  have hGC : IsExtension G (cpdagOf L0) := (hL.isExtension_cpdag G).2 ⟨hac, MarkovEquiv.refl G⟩
  have hedge : ∀ x ∈ (targetEdges it G I).reverse, Edge G x.1 x.2 := by
    intro x hx
    rw [List.mem_reverse, mem_targetEdges it G hac] at hx
    exact hx.1
  have hloop : ∃ lines, dagToIcpdagD true it G I = (lines, .ok P) ∧ icpdagLoopD true (targetEdges it G I).reverse (cpdagOf L0) = (lines, .ok P) := by
    unfold dagToIcpdagD at hsnd ⊢
    simp only [hC] at hsnd ⊢
    revert hsnd
    rcases icpdagLoopD true (targetEdges it G I).reverse (cpdagOf L0) with ⟨out, _ | P'⟩
    · intro h; simp at h
    · simp only
      rcases isConsistentExtension it G P' with _ | _ | _
      · intro h; simp at h
      · intro h; simp at h
      · intro h
        simp only [Except.ok.injEq] at h
        subst h
        exact ⟨out, rfl, rfl⟩
  obtain ⟨lines, h1, h2⟩ := hloop
  obtain ⟨k1, k2, k3, k4⟩ := icpdagLoopD_lines _ _ _ _ hGC hedge h2
  refine ⟨cpdagOf L0, P, lines, targetEdges it G I, hC, h1, fun x => mem_targetEdges it G hac I x, length_targetEdges it G hac I, ?_, k2, k3, ?_⟩
  · rw [k1, List.length_reverse]
    refine List.map_congr_left fun k _ => ?_
    rw [List.drop_reverse, List.reverse_reverse]
  · intro a b hab
    have hz := k4 b a
    rw [List.mem_reverse, mem_targetEdges it G hac] at hz
    unfold DirEdge
    constructor
    · rintro ⟨-, h⟩
      exact (hz.1 h).resolve_left hab.2
    · intro h
      refine ⟨?_, hz.2 (Or.inr h)⟩
      have hE : Edge G a b := by
        rcases h with h | h
        · exact (k3 _ h).2
        · exact h.1
      intro hc
      have hGP : IsExtension G P := (hext G).2 ⟨hac, MarkovEquiv.refl G, fun _ _ _ => Iff.rfl⟩
      rcases (hGP.2.1 a b).1 (Or.inl hE) with h' | h'
      · exact h' hc
      · exact h' (hz.2 (Or.inr h))

/-! ## `is_consistent_extension` -/

/-- C142: `is_consistent_extension` prints nothing if it raises.  Otherwise there are three lines, the result is true exactly if all three say
so, and they say whether v-structures, skeleton and orientations agree. -/
theorem C142_consistent_extension (it : SetIter p) (G P : Adj p) (hG : Nonneg G) (hP : Nonneg P) :
    (¬ Acyclic G → isConsistentExtensionD true it G P = ([], .error .valueError)) ∧
    (Acyclic G → ∃ v s o VP VG SP SG, isConsistentExtensionD true it G P =
        ([.vstructures v VP VG, .skeleton s SP SG, .orientation o P G], .ok (v && o && s)) ∧
      (∀ i c j, (i, c, j) ∈ VP ↔ i < j ∧ VStructure P i c j) ∧ (∀ i c j, (i, c, j) ∈ VG ↔ i < j ∧ VStructure G i c j) ∧
      (∀ i j, SP i j = if Adjacent P i j then 1 else 0) ∧ (∀ i j, SG i j = if Adjacent G i j then 1 else 0) ∧
      (v = true ↔ SameVStructures P G) ∧ (s = true ↔ SameSkeleton P G) ∧ (o = true ↔ ∀ i j, DirEdge P i j → Edge G i j)) := by
  have hskel : ∀ {A : Adj p}, Nonneg A → ∀ i j, skeleton A i j = if Adjacent A i j then 1 else 0 := by
    intro A hA i j
    rcases skeleton_zeroOne A i j with h | h
    · rw [if_neg (fun hc => (skeleton_ne hA).2 hc h), h]
    · rw [if_pos ((skeleton_ne hA).1 (by rw [h]; exact one_ne_zero)), h]
  constructor
  · intro h
    unfold isConsistentExtensionD
    rw [if_pos]
    have h' : isDag it G = false := Bool.eq_false_iff.2 fun hc => h ((isDag_iff it hG).1 hc)
    rw [h']
    rfl
  · intro h
    refine ⟨_, _, _, _, _, _, _, ?_, fun i c j => mem_vstructures it P i c j, fun i c j => mem_vstructures it G i c j, hskel hP, hskel hG,
      decide_eq_true_iff.trans (vstructures_eq_iff it P G), decide_eq_true_iff.trans (skeleton_eq_iff hP hG),
      (decide_eq_true_iff (p := ∀ i j, onlyDirected P i j ≠ 0 → G i j ≠ 0)).trans
        (forall_congr' fun i => forall_congr' fun j => by rw [onlyDirected_ne]; rfl)⟩
    unfold isConsistentExtensionD
    rw [if_neg (by rw [(isDag_iff it hG).2 h]; decide)]
    rfl

/-! ## `_dag_avg_deg` -/

/-- The number of neighbours of a node. -/
noncomputable def Spec.degreeIn (W : Matrix (Fin p) (Fin p) ℝ) (i : Fin p) : Nat := by
  classical exact (Finset.univ.filter fun j => W i j ≠ 0 ∨ W j i ≠ 0).card

/-- C142: `_dag_avg_deg` with `debug` returns the same.  It prints the probability of an edge, and the average number of neighbours of a node
in the graph that is returned if no weight is zero. -/
theorem C142_average_degree (k : ℝ) (g : GraphDraws p) :
    (dagAvgDegD k g).2 = dagAvgDeg k g ∧ (p = 1 → (dagAvgDegD k g).1 = []) ∧
    (2 ≤ p → (∀ i j, g.weights i j ≠ 0) → ∃ W order, dagAvgDeg k g = .ok (W, order) ∧
      (dagAvgDegD k g).1 = [.prob p k (k / (p - 1)), .avgDegree (some ((∑ i, (degreeIn W i : ℝ)) / p))]) := by
  classical
  refine ⟨?_, ?_, ?_⟩
  · unfold dagAvgDegD dagAvgDeg
    split_ifs <;> rfl
  · rintro rfl
    rfl
  · intro hp hw
    have hp1 : p ≠ 1 := by omega
    have hp0 : p ≠ 0 := by omega
    refine ⟨_, _, by unfold dagAvgDeg; rw [if_neg hp1], ?_⟩
    unfold dagAvgDegD
    rw [if_neg hp1]
    simp only [if_neg hp0, List.cons.injEq, true_and, and_true, DegLine.avgDegree.injEq, Option.some.injEq]
    congr 1
    set A := upperGraph (k / ((p : ℝ) - 1)) g with hA
    have h01 : ∀ i j, A i j = if i < j ∧ g.unif i j ≤ k / ((p : ℝ) - 1) then 1 else 0 := by
      intro i j
      simp only [hA, upperGraph, Matrix.of_apply]
      split_ifs <;> simp_all
    have hdeg : ∀ i, (degreeIn (Matrix.of fun i j => A (g.perm i) (g.perm j) * g.weights (g.perm i) (g.perm j)) i : ℝ) =
        ∑ j, (A (g.perm i) (g.perm j) + A (g.perm j) (g.perm i)) := by
      intro i
      unfold degreeIn
      rw [Finset.card_eq_sum_ones, Finset.sum_filter, Nat.cast_sum]
      refine Finset.sum_congr rfl fun j _ => ?_
      simp only [Matrix.of_apply, ne_eq, mul_eq_zero, hw, or_false, h01]
      rcases lt_trichotomy (g.perm i) (g.perm j) with h | h | h
      · have h' := h.not_gt
        simp [h, h']
      · simp [h]
      · have h' := h.not_gt
        simp [h, h']
    have hre : ∀ f : Fin p → Fin p → ℝ, ∑ i, ∑ j, f (g.perm i) (g.perm j) = ∑ i, ∑ j, f i j := by
      intro f
      rw [Equiv.sum_comp g.perm (fun i => ∑ j, f i (g.perm j))]
      exact Finset.sum_congr rfl fun i _ => Equiv.sum_comp g.perm (f i)
    have hsum : ∑ i, (degreeIn (Matrix.of fun i j => A (g.perm i) (g.perm j) * g.weights (g.perm i) (g.perm j)) i : ℝ) =
        (∑ i, ∑ j, A i j) * 2 := by
      simp only [hdeg, Finset.sum_add_distrib]
      rw [hre A, hre (fun i j => A j i), Finset.sum_comm (f := fun i j => A j i)]
      ring
    rw [← hsum]
    rfl

/-! ## Concrete cases -/

section Example

/-- The first edge of the chain `0 → 1 — 2` is directed. -/
def debugChain : Adj 3 := ![![0, 1, 0], ![0, 0, 1], ![0, 1, 0]]

/-- The undirected square. -/
def debugSquare : Adj 4 := ![![0, 1, 0, 1], ![1, 0, 1, 0], ![0, 1, 0, 1], ![1, 0, 1, 0]]

/-- The rest of the chain is oriented, with one line. -/
example : okEq (maximallyOrientD true debugChain).2 ![![0, 1, 0], ![0, 0, 1], ![0, 0, 0]] = true ∧
    orientationsIn (maximallyOrientD true debugChain).1 = [(1, 2)] := by decide +kernel

/-- An extension is found, and the lines name its nodes with sinks first. -/
example : okEq (pdagToDagD true debugChain).2 ![![0, 1, 0], ![0, 0, 1], ![0, 0, 0]] = true ∧
    candidatesIn (pdagToDagD true debugChain).1 = [2, 1, 0] := by decide +kernel

/-- `C142_stuck`: a square has no extension; no node is named as candidate. -/
example : ∃ lines, pdagToDagD true debugSquare = (lines, .error .valueError) ∧ candidatesIn lines = [] := by
  refine ⟨_, Prod.ext rfl ?_, ?_⟩
  · have h : okEq (pdagToDagD true debugSquare).2 0 = false ∧ (findCandidate debugSquare).isNone = true := by decide +kernel
    have h2 : findCandidate debugSquare = none := Option.isNone_iff_eq_none.1 h.2
    show (pdagToDagLoopD true 4 debugSquare id (onlyDirected debugSquare)).2 = _
    rw [pdagToDagLoopD, h2]
  · decide +kernel

/-- `C142_average_degree`: two nodes with an edge of weight one. -/
example : ∃ W order, dagAvgDeg 0 (⟨fun _ _ => 0, fun _ _ => 1, Equiv.refl _⟩ : GraphDraws 2) = .ok (W, order) ∧
    (dagAvgDegD 0 (⟨fun _ _ => 0, fun _ _ => 1, Equiv.refl _⟩ : GraphDraws 2)).1 =
      [.prob 2 0 (0 / (2 - 1)), .avgDegree (some ((∑ i, (degreeIn W i : ℝ)) / 2))] := by
  obtain ⟨W, order, h1, h2⟩ := (C142_average_degree 0 (⟨fun _ _ => 0, fun _ _ => 1, Equiv.refl _⟩ : GraphDraws 2)).2.2 (by norm_num) (by simp)
  exact ⟨W, order, h1, by rw [h2]; norm_num⟩

/-- `C142_icpdag`: an intervention on the first node of the chain `0 → 1 → 2` shows the list with its edge, and the second edge is named. -/
example : stacksIn (dagToIcpdagD true (SetIter.incr 3) ![![0, 1, 0], ![0, 0, 1], ![0, 0, 0]] [0]).1 = [[(0, 1)]] ∧
    orientationsIn (dagToIcpdagD true (SetIter.incr 3) ![![0, 1, 0], ![0, 0, 1], ![0, 0, 0]] [0]).1 = [(1, 2)] := by decide +kernel

/-- The graphs of the last example meet the hypotheses of `C142_icpdag` and `C142_consistent_extension`. -/
example : Nonneg (![![0, 1, 0], ![0, 0, 1], ![0, 0, 0]] : Adj 3) ∧ Acyclic (![![0, 1, 0], ![0, 0, 1], ![0, 0, 0]] : Adj 3) ∧ Nonneg debugChain := by
  have h : Nonneg (![![0, 1, 0], ![0, 0, 1], ![0, 0, 0]] : Adj 3) := by unfold Nonneg; decide
  exact ⟨h, (isDag_iff (SetIter.incr 3) h).1 (by decide +kernel), by unfold Nonneg debugChain; decide⟩

end Example

end Verif
