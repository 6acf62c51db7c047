import Verif.Model.Heap

/-!
# C40: `copy` and the constructor isolate state
-/

namespace Verif

variable {V : Type}

/-- `h'` has everything `h` has, with the same addresses and contents. -/
def Spec.Extends (h h' : Heap V) : Prop :=
  (∀ (a : Nat) v, h.arrays[a]? = some v → h'.arrays[a]? = some v) ∧
    (∀ (m : Nat) o, h.objects[m]? = some o → h'.objects[m]? = some o)

/-- Object `m` of `h'` was created after `h`: its identity and all its arrays are new, and no two attributes share an array. -/
def Spec.FreshObject (h h' : Heap V) (m : Nat) : Prop :=
  h.objects.length ≤ m ∧ ∃ o : Attr → Nat, h'.objects[m]? = some o ∧ Function.Injective o ∧
    ∀ at', h.arrays.length ≤ o at' ∧ o at' < h'.arrays.length

/-- An operation that touches neither object `m` nor the arrays `o` refers to. -/
def Spec.Outside (m : Nat) (o : Attr → Nat) : HeapOp V → Prop
  | .write a _ => ∀ at', o at' ≠ a
  | .setAttr m' _ _ => m' ≠ m
  | .newArray _ => True

/-- An operation through references that existed in `h`: writes to its arrays, assignments to its objects. -/
def Spec.Old (h : Heap V) : HeapOp V → Prop
  | .write a _ => a < h.arrays.length
  | .setAttr m' _ _ => m' < h.objects.length
  | .newArray _ => True

/-- An operation through references that did not exist in `h`. -/
def Spec.New (h : Heap V) : HeapOp V → Prop
  | .write a _ => h.arrays.length ≤ a
  | .setAttr m' _ _ => h.objects.length ≤ m'
  | .newArray _ => True

open Spec

theorem Spec.Extends.refl (h : Heap V) : Extends h h := ⟨fun _ _ h => h, fun _ _ h => h⟩

theorem Spec.Extends.trans {h h' h'' : Heap V} (h1 : Extends h h') (h2 : Extends h' h'') : Extends h h'' :=
  ⟨fun a v hv => h2.1 a v (h1.1 a v hv), fun m o ho => h2.2 m o (h1.2 m o ho)⟩

theorem append_getElem? {α : Type} {l : List α} {a : Nat} {v : α} (l' : List α) (h : l[a]? = some v) : (l ++ l')[a]? = some v := by
  have : a < l.length := by
    by_contra hc
    rw [List.getElem?_eq_none (by omega)] at h
    simp at h
  rw [List.getElem?_append_left this, h]

theorem newModel_spec (check : V → V → V → V → V → Bool) (mkIB : V → V) (h h' : Heap V) (A B g o s m : Nat)
    (hr : h.newModel check mkIB A B g o s = .ok (h', m)) :
    Extends h h' ∧ FreshObject h h' m ∧ ∃ vA vB vg vo vs,
      h.arrays[A]? = some vA ∧ h.arrays[B]? = some vB ∧ h.arrays[g]? = some vg ∧ h.arrays[o]? = some vo ∧
      h.arrays[s]? = some vs ∧ check vA vB vg vo vs = true ∧
      h'.attr m .A = some vA ∧ h'.attr m .B = some vB ∧ h'.attr m .gamma = some vg ∧ h'.attr m .omegas = some vo ∧
      h'.attr m .psis = some vs ∧ h'.attr m .IB = some (mkIB vB) := by
  unfold Heap.newModel at hr
  split at hr
  · rename_i vA vB vg vo vs hA hB hg ho hs
    split_ifs at hr with hc
    simp only [Heap.newArray, Except.ok.injEq, Prod.mk.injEq] at hr
    obtain ⟨rfl, rfl⟩ := hr
    refine ⟨⟨?_, ?_⟩, ⟨le_refl _, _, List.getElem?_concat_length, ?_, ?_⟩, vA, vB, vg, vo, vs, hA, hB, hg, ho, hs, by simpa using hc, ?_⟩
    · intro a v hv
      simp only [List.append_assoc]
      exact append_getElem? _ hv
    · intro m o hm
      exact append_getElem? _ hm
    · intro x y hxy
      cases x <;> cases y <;> simp only [List.length_append, List.length_cons, List.length_nil] at hxy <;> first | rfl | (exfalso; omega)
    · intro x
      cases x <;> simp <;> omega
    · simp [Heap.attr]
  · simp at hr

theorem copyArray_spec (h h' : Heap V) (a b : Nat) (hr : h.copyArray a = .ok (h', b)) :
    Extends h h' ∧ b = h.arrays.length ∧ h.arrays.length ≤ h'.arrays.length ∧ h'.objects = h.objects ∧
      ∃ v, h.arrays[a]? = some v ∧ h'.arrays[b]? = some v := by
  unfold Heap.copyArray at hr
  split at hr
  · simp at hr
  · rename_i v hv
    simp only [Heap.newArray, Except.ok.injEq, Prod.mk.injEq] at hr
    obtain ⟨rfl, rfl⟩ := hr
    refine ⟨⟨fun a v hv => append_getElem? _ hv, fun _ _ h => h⟩, rfl, by simp, rfl, v, hv, by simp⟩

theorem copyArray_ok (h : Heap V) (a : Nat) (v : V) (hv : h.arrays[a]? = some v) :
    ∃ h', h.copyArray a = .ok (h', h.arrays.length) := by
  unfold Heap.copyArray
  rw [hv]
  exact ⟨_, rfl⟩

/-- C40: the constructor stores copies.  Everything that existed before is unchanged, the object and its six arrays are new and
distinct, and their contents are the arguments (and `I - Bᵀ` for `I_B`). -/
theorem C40_constructor (check : V → V → V → V → V → Bool) (mkIB : V → V) (h h' : Heap V) (A B g o s m : Nat)
    (hr : h.newModel check mkIB A B g o s = .ok (h', m)) :
    Extends h h' ∧ FreshObject h h' m ∧ h'.attr m .A = h.arrays[A]? ∧ h'.attr m .B = h.arrays[B]? ∧
      h'.attr m .gamma = h.arrays[g]? ∧ h'.attr m .omegas = h.arrays[o]? ∧ h'.attr m .psis = h.arrays[s]? ∧
      h'.attr m .IB = (h.arrays[B]?).map mkIB ∧ ∀ a, h'.attr m a ≠ none := by
  obtain ⟨h1, h2, vA, vB, vg, vo, vs, hA, hB, hg, ho, hs, -, e1, e2, e3, e4, e5, e6⟩ := newModel_spec _ _ _ _ _ _ _ _ _ _ hr
  refine ⟨h1, h2, by rw [e1, hA], by rw [e2, hB], by rw [e3, hg], by rw [e4, ho], by rw [e5, hs], by rw [e6, hB]; rfl, ?_⟩
  intro a
  cases a <;> simp [e1, e2, e3, e4, e5, e6]

/-- C40: `copy()` of an object returns a new object with the same parameters, sharing no array with anything that existed
before; `I_B` is computed from `B` again, whatever the original's attribute holds. -/
theorem C40_copy (check : V → V → V → V → V → Bool) (mkIB : V → V) (h h' : Heap V) (m m' : Nat)
    (hm : ∀ a, h.attr m a ≠ none) (hr : h.copyModel check mkIB m = .ok (h', m')) :
    Extends h h' ∧ FreshObject h h' m' ∧ (∀ a, a ≠ Attr.IB → h'.attr m' a = h.attr m a) ∧
      h'.attr m' .IB = (h.attr m .B).map mkIB := by
  unfold Heap.copyModel at hr
  split at hr
  · simp at hr
  rename_i o ho
  split at hr
  · simp at hr
  rename_i h1 a hA
  split at hr
  · simp at hr
  rename_i h2 b hB
  split at hr
  · simp at hr
  rename_i h3 g hg
  split at hr
  · simp at hr
  rename_i h4 w hw
  split at hr
  · simp at hr
  rename_i h5 s hs
  obtain ⟨x1, -, l1, o1, vA, rA, nA⟩ := copyArray_spec _ _ _ _ hA
  obtain ⟨x2, -, l2, o2, vB, rB, nB⟩ := copyArray_spec _ _ _ _ hB
  obtain ⟨x3, -, l3, o3, vg, rg, ng⟩ := copyArray_spec _ _ _ _ hg
  obtain ⟨x4, -, l4, o4, vw, rw', nw⟩ := copyArray_spec _ _ _ _ hw
  obtain ⟨x5, -, l5, o5, vs, rs, ns⟩ := copyArray_spec _ _ _ _ hs
  obtain ⟨y1, ⟨f1, q, f2, f3, f4⟩, uA, uB, ug, uw, us, qA, qB, qg, qw, qs, -, e1, e2, e3, e4, e5, e6⟩ :=
    newModel_spec _ _ _ _ _ _ _ _ _ _ hr
  have x12 := x1.trans x2
  have x13 := x12.trans x3
  have x14 := x13.trans x4
  have x15 := x14.trans x5
  have old : ∀ (at' : Attr) (v : V) (hh : Heap V), Extends h hh → hh.arrays[o at']? = some v → h.attr m at' = some v := by
    intro at' v hh hx hv
    have h1 := hm at'
    unfold Heap.attr at h1 ⊢
    rw [ho] at h1 ⊢
    simp only [Option.bind_some] at h1 ⊢
    obtain ⟨v', hv'⟩ := Option.ne_none_iff_exists'.1 h1
    rw [hv', ← hv, hx.1 _ _ hv']
  have kA := old .A vA h (Extends.refl h) rA
  have kB := old .B vB h1 x1 rB
  have kg := old .gamma vg h2 x12 rg
  have kw := old .omegas vw h3 x13 rw'
  have ks := old .psis vs h4 x14 rs
  have jA : uA = vA := Option.some.inj (by rw [← qA, ((x2.trans x3).trans x4).trans x5 |>.1 _ _ nA])
  have jB : uB = vB := Option.some.inj (by rw [← qB, (x3.trans x4).trans x5 |>.1 _ _ nB])
  have jg : ug = vg := Option.some.inj (by rw [← qg, x4.trans x5 |>.1 _ _ ng])
  have jw : uw = vw := Option.some.inj (by rw [← qw, x5.1 _ _ nw])
  have js : us = vs := Option.some.inj (by rw [← qs, ns])
  subst jA jB jg jw js
  refine ⟨x15.trans y1, ⟨?_, q, f2, f3, fun x => ⟨?_, (f4 x).2⟩⟩, ?_, ?_⟩
  · rw [o5, o4, o3, o2, o1] at f1
    exact f1
  · have := (f4 x).1
    omega
  · intro x hx
    cases x with
    | A => exact e1.trans kA.symm
    | B => exact e2.trans kB.symm
    | gamma => exact e3.trans kg.symm
    | omegas => exact e4.trans kw.symm
    | psis => exact e5.trans ks.symm
    | IB => exact absurd rfl hx
  · rw [e6, kB]
    rfl

/-- C40: `copy()` succeeds exactly if the parameters of the original pass the validation. -/
theorem C40_copy_succeeds (check : V → V → V → V → V → Bool) (mkIB : V → V) (h : Heap V) (m : Nat) (vA vB vg vo vs : V)
    (hA : h.attr m .A = some vA) (hB : h.attr m .B = some vB) (hg : h.attr m .gamma = some vg)
    (ho : h.attr m .omegas = some vo) (hs : h.attr m .psis = some vs) :
    (check vA vB vg vo vs = true → ∃ r, h.copyModel check mkIB m = .ok r) ∧
    (check vA vB vg vo vs = false → h.copyModel check mkIB m = .error .valueError) := by
  have hobj : ∃ o, h.objects[m]? = some o := by
    unfold Heap.attr at hA
    cases ho' : h.objects[m]? with
    | none => rw [ho'] at hA; simp at hA
    | some o => exact ⟨o, rfl⟩
  obtain ⟨o, hobj⟩ := hobj
  unfold Heap.attr at hA hB hg ho hs
  rw [hobj] at hA hB hg ho hs
  simp only [Option.bind_some] at hA hB hg ho hs
  obtain ⟨h1, k1⟩ := copyArray_ok h _ _ hA
  obtain ⟨x1, -, -, -, v1, r1, n1⟩ := copyArray_spec _ _ _ _ k1
  obtain ⟨h2, k2⟩ := copyArray_ok h1 _ _ (x1.1 _ _ hB)
  obtain ⟨x2, -, -, -, v2, r2, n2⟩ := copyArray_spec _ _ _ _ k2
  obtain ⟨h3, k3⟩ := copyArray_ok h2 _ _ ((x1.trans x2).1 _ _ hg)
  obtain ⟨x3, -, -, -, v3, r3, n3⟩ := copyArray_spec _ _ _ _ k3
  obtain ⟨h4, k4⟩ := copyArray_ok h3 _ _ (((x1.trans x2).trans x3).1 _ _ ho)
  obtain ⟨x4, -, -, -, v4, r4, n4⟩ := copyArray_spec _ _ _ _ k4
  obtain ⟨h5, k5⟩ := copyArray_ok h4 _ _ ((((x1.trans x2).trans x3).trans x4).1 _ _ hs)
  obtain ⟨x5, -, -, -, v5, r5, n5⟩ := copyArray_spec _ _ _ _ k5
  have j1 : v1 = vA := Option.some.inj (by rw [← r1, hA])
  have j2 : v2 = vB := Option.some.inj (by rw [← r2, x1.1 _ _ hB])
  have j3 : v3 = vg := Option.some.inj (by rw [← r3, (x1.trans x2).1 _ _ hg])
  have j4 : v4 = vo := Option.some.inj (by rw [← r4, ((x1.trans x2).trans x3).1 _ _ ho])
  have j5 : v5 = vs := Option.some.inj (by rw [← r5, (((x1.trans x2).trans x3).trans x4).1 _ _ hs])
  subst j1 j2 j3 j4 j5
  unfold Heap.copyModel
  simp only [hobj, k1, k2, k3, k4, k5]
  unfold Heap.newModel
  rw [(((x2.trans x3).trans x4).trans x5).1 _ _ n1, ((x3.trans x4).trans x5).1 _ _ n2, (x4.trans x5).1 _ _ n3, x5.1 _ _ n4, n5]
  simp only []
  constructor
  · intro hc
    rw [hc]
    simp
  · intro hc
    rw [hc]
    simp

theorem step_outside (m : Nat) (o : Attr → Nat) (h : Heap V) (op : HeapOp V) (ho : h.objects[m]? = some o)
    (hlt : ∀ a, o a < h.arrays.length) (hop : Outside m o op) :
    (h.step op).objects[m]? = some o ∧ (∀ a, o a < (h.step op).arrays.length) ∧ ∀ a, (h.step op).arrays[o a]? = h.arrays[o a]? := by
  cases op with
  | write a v =>
    refine ⟨ho, by simpa [Heap.step] using hlt, fun x => ?_⟩
    simp only [Heap.step]
    rw [List.getElem?_set_ne (Ne.symm (hop x))]
  | setAttr m' at' a =>
    refine ⟨?_, hlt, fun _ => rfl⟩
    simp only [Heap.step]
    split
    · exact ho
    · rw [List.getElem?_set_ne (hop : m' ≠ m)]
      exact ho
  | newArray v =>
    refine ⟨ho, fun a => ?_, fun a => ?_⟩
    · simp only [Heap.step, Heap.newArray, List.length_append]
      have := hlt a
      omega
    · simp only [Heap.step, Heap.newArray]
      rw [List.getElem?_append_left (hlt a)]

/-- C40: no sequence of operations that avoids an object and its arrays changes what the object holds. -/
theorem C40_frame (m : Nat) (o : Attr → Nat) (ops : List (HeapOp V)) : ∀ (h : Heap V), h.objects[m]? = some o →
    (∀ a, o a < h.arrays.length) → (∀ op ∈ ops, Outside m o op) → ∀ a, (h.run ops).attr m a = h.attr m a := by
  induction ops with
  | nil => intro h _ _ _ a; rfl
  | cons op ops ih =>
    intro h ho hlt hops a
    obtain ⟨h1, h2, h3⟩ := step_outside m o h op ho hlt (hops op (by simp))
    have := ih (h.step op) h1 h2 (fun op hop => hops op (List.mem_cons_of_mem _ hop)) a
    have hr : h.run (op :: ops) = (h.step op).run ops := rfl
    rw [hr, this]
    unfold Heap.attr
    rw [h1, ho]
    simp only [Option.bind_some]
    exact h3 a

/-- C40: later changes through anything that existed before the object was created (the arguments of the constructor, the
original of a copy, any other model) do not affect the object. -/
theorem C40_isolated_from_old (h h' : Heap V) (m : Nat) (hf : FreshObject h h' m) (ops : List (HeapOp V))
    (hops : ∀ op ∈ ops, Old h op) (a : Attr) : (h'.run ops).attr m a = h'.attr m a := by
  obtain ⟨hm, o, ho, -, hlt⟩ := hf
  refine C40_frame m o ops h' ho (fun a => (hlt a).2) (fun op hop => ?_) a
  have := hops op hop
  cases op with
  | write b v =>
    intro x hx
    have h1 := (hlt x).1
    have h2 : b < h.arrays.length := this
    omega
  | setAttr m' at' b =>
    have h2 : m' < h.objects.length := this
    exact (by omega : m' ≠ m)
  | newArray v => exact trivial

/-- C40: later changes to the new object and its arrays do not affect anything that existed before. -/
theorem C40_old_isolated (h h' : Heap V) (hx : Extends h h') (ops : List (HeapOp V)) (hops : ∀ op ∈ ops, New h op) :
    Extends h (h'.run ops) := by
  induction ops generalizing h' with
  | nil => exact hx
  | cons op ops ih =>
    refine ih (h'.step op) ?_ (fun op hop => hops op (List.mem_cons_of_mem _ hop))
    have hop := hops op (by simp)
    cases op with
    | write b v =>
      refine ⟨fun a w hw => ?_, hx.2⟩
      have h1 : h.arrays.length ≤ b := hop
      have h2 : a < h.arrays.length := by
        by_contra hc
        rw [List.getElem?_eq_none (by omega)] at hw
        simp at hw
      simp only [Heap.step]
      rw [List.getElem?_set_ne (by omega)]
      exact hx.1 a w hw
    | setAttr m' at' b =>
      refine ⟨hx.1, fun m o ho => ?_⟩
      have h1 : h.objects.length ≤ m' := hop
      have h2 : m < h.objects.length := by
        by_contra hc
        rw [List.getElem?_eq_none (by omega)] at ho
        simp at ho
      simp only [Heap.step]
      split
      · exact hx.2 m o ho
      · rw [List.getElem?_set_ne (by omega)]
        exact hx.2 m o ho
    | newArray v =>
      exact ⟨fun a w hw => append_getElem? _ (hx.1 a w hw), hx.2⟩

/-- C40, caveat: assigning `B` does not touch the stored `I_B`, so the two attributes of an object can disagree. -/
theorem C40_assign_B_stale (h : Heap V) (m b : Nat) : (h.step (.setAttr m .B b)).attr m .IB = h.attr m .IB := by
  unfold Heap.attr Heap.step
  cases ho : h.objects[m]? with
  | none => simp [ho]
  | some o =>
    have : m < h.objects.length := by
      by_contra hc
      rw [List.getElem?_eq_none (by omega)] at ho
      simp at ho
    have ho' : h.objects[m] = o := by
      rw [List.getElem?_eq_getElem this] at ho
      exact Option.some.inj ho
    simp [this, ho']

/-- Example: constructing a model from five arrays and copying it. -/
example : ∃ h1 m1 h2 m2, (⟨[1, 2, 3, 4, 5], []⟩ : Heap Nat).newModel (fun _ _ _ _ _ => true) (· + 10) 0 1 2 3 4 = .ok (h1, m1) ∧
    h1.copyModel (fun _ _ _ _ _ => true) (· + 10) m1 = .ok (h2, m2) ∧ h2.attr m2 .B = some 2 ∧ h2.attr m2 .IB = some 12 ∧
    (h2.run [.write 1 7, .setAttr m1 .gamma 0]).attr m2 .gamma = some 3 := by
  refine ⟨_, _, _, _, rfl, rfl, ?_, ?_, ?_⟩ <;> decide

end Verif
