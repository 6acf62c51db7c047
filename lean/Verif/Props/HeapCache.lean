import Verif.Model.HeapCache
import Verif.Props.Heap

/-!
# C84: sharing between the cache and the models returned by `score_dag`
-/

namespace Verif

open Spec

variable {V K S : Type} [DecidableEq K]

/-- An operation a program can carry out with a reference to object `m` whose arrays were `o` when the heap had `n` arrays: write to these
arrays or to later ones, assign attributes of `m`, create arrays. -/
def Spec.Through (m : Nat) (o : Attr → Nat) (n : Nat) : HeapOp V → Prop
  | .write a _ => (∃ at', o at' = a) ∨ n ≤ a
  | .setAttr m' _ _ => m' = m
  | .newArray _ => True

theorem newObject_spec (h : Heap V) (vals : Attr → V) : ∃ h' m o, h.newObject vals = (h', m) ∧ Extends h h' ∧ FreshObject h h' m ∧
    h'.objects[m]? = some o ∧ (∀ a, h'.attr m a = some (vals a)) ∧ m < h'.objects.length ∧ ∀ a, o a < h'.arrays.length := by
  refine ⟨_, _, _, rfl, ⟨fun a v hv => append_getElem? _ hv, fun m o ho => append_getElem? _ ho⟩,
    ⟨le_refl _, _, List.getElem?_concat_length, ?_, ?_⟩, List.getElem?_concat_length, ?_, by simp, ?_⟩
  · intro a b
    cases a <;> cases b <;> simp
  · intro a
    cases a <;> simp
  · intro a
    unfold Heap.attr
    rw [List.getElem?_concat_length]
    cases a <;> simp
  · intro a
    cases a <;> simp

theorem read_append_self {c : RefCache K S} {k : K} (h : c.read k = none) (m : Nat) (s : S) : RefCache.read (c ++ [(k, m, s)]) k = some (m, s) := by
  unfold RefCache.read at *
  rw [Option.map_eq_none_iff] at h
  rw [List.find?_append, h]
  simp

/-- C84: the object returned by a call that fits is not the one in the cache.  Whatever the caller does with it, a later call for the same pair
returns an object with the fitted parameters (and the matrix `I - Bᵀ` of the fitted weights). -/
theorem C84_fitted_isolated (check : V → V → V → V → V → Bool) (mkIB : V → V) (fit fit' : K → Except Err ((Attr → V) × S)) (useInit : Bool)
    (h h1 : Heap V) (c c1 : RefCache K S) (k : K) (hnew : c.read k = none) (r : Nat) (s : S)
    (hcall : scoreDagRef check mkIB fit useInit h c k = .ok ((h1, c1), r, s)) :
    ∃ vals o, fit k = .ok (vals, s) ∧ (∀ a, h1.attr r a = some (vals a)) ∧ h1.objects[r]? = some o ∧
      ∀ ops : List (HeapOp V), (∀ op ∈ ops, Through r o h1.arrays.length op) →
        ∃ m, m ≠ r ∧ scoreDagRef check mkIB fit' false (h1.run ops) c1 k = .ok ((h1.run ops, c1), m, s) ∧
          (∀ a, a ≠ Attr.IB → (h1.run ops).attr m a = some (vals a)) ∧ (h1.run ops).attr m .IB = some (mkIB (vals .B)) := by
  unfold scoreDagRef at hcall
  rw [hnew, ite_self] at hcall
  simp only at hcall
  split at hcall
  · simp at hcall
  rename_i vals s' hfit
  obtain ⟨h0, m0, o, k1, k2, k3, k4, k5, k6, k7⟩ := newObject_spec h vals
  rw [k1] at hcall
  simp only at hcall
  split at hcall
  · simp at hcall
  rename_i h2 m' hcopy
  simp only [Except.ok.injEq, Prod.mk.injEq] at hcall
  obtain ⟨⟨rfl, rfl⟩, rfl, rfl⟩ := hcall
  obtain ⟨e1, e2, e3, e4⟩ := C40_copy check mkIB h0 h2 m0 m' (fun a => by rw [k5 a]; simp) hcopy
  have hattr : ∀ a, h2.attr m0 a = some (vals a) := by
    intro a
    have h5 := k5 a
    unfold Heap.attr at *
    rw [k4] at h5
    rw [e1.2 _ _ k4]
    exact e1.1 _ _ h5
  refine ⟨vals, o, hfit, hattr, e1.2 _ _ k4, fun ops hops => ?_⟩
  obtain ⟨f1, o', f2, -, f3⟩ := e2
  have hne : m' ≠ m0 := by omega
  have hframe : ∀ a, (h2.run ops).attr m' a = h2.attr m' a := by
    refine C40_frame m' o' ops h2 f2 (fun a => (f3 a).2) (fun op hop => ?_)
    have := hops op hop
    cases op with
    | write a v =>
      intro x hx
      rcases this with ⟨y, hy⟩ | hy
      · have h1 := (f3 x).1
        have h2 := k7 y
        omega
      · have := (f3 x).2
        omega
    | setAttr m'' at' a =>
      have h1 : m'' = m0 := this
      exact (by omega : m'' ≠ m')
    | newArray v => exact trivial
  refine ⟨m', hne, ?_, fun a ha => ?_, ?_⟩
  · unfold scoreDagRef
    rw [read_append_self hnew]
    rfl
  · rw [hframe, e3 a ha, k5]
  · rw [hframe, e4, k5]
    rfl

/-- C84, violation of isolation: a call that finds the pair in the cache returns the cached object itself.  What the caller does with it (or
anything else done to it, `ops`) is seen by the next call for the pair: it returns the same object, as it is then, with the old score. -/
theorem C84_hit_shared (check : V → V → V → V → V → Bool) (mkIB : V → V) (fit : K → Except Err ((Attr → V) × S)) (h : Heap V) (c : RefCache K S)
    (k : K) (r : Nat) (s : S) (hit : c.read k = some (r, s)) :
    scoreDagRef check mkIB fit false h c k = .ok ((h, c), r, s) ∧ ∀ ops : List (HeapOp V),
      scoreDagRef check mkIB fit false (h.run ops) c k = .ok ((h.run ops, c), r, s) := by
  unfold scoreDagRef
  simp [hit]

/-- C84: in particular, overwriting an array of the object returned by the second call for a pair changes what the third call returns. -/
theorem C84_third_call (check : V → V → V → V → V → Bool) (mkIB : V → V) (fit : K → Except Err ((Attr → V) × S)) (h h1 : Heap V)
    (c c1 : RefCache K S) (k : K) (hnew : c.read k = none) (r : Nat) (s : S)
    (hcall : scoreDagRef check mkIB fit false h c k = .ok ((h1, c1), r, s)) (at' : Attr) (v : V) :
    ∃ m o, scoreDagRef check mkIB fit false h1 c1 k = .ok ((h1, c1), m, s) ∧ h1.objects[m]? = some o ∧
      scoreDagRef check mkIB fit false (h1.step (.write (o at') v)) c1 k = .ok ((h1.step (.write (o at') v), c1), m, s) ∧
        (h1.step (.write (o at') v)).attr m at' = some v := by
  obtain ⟨vals, o, -, -, -, h4⟩ := C84_fitted_isolated check mkIB fit fit false h h1 c c1 k hnew r s hcall
  obtain ⟨m, -, h5, h6, h7⟩ := h4 [] (by simp)
  have hr : h1.run [] = h1 := rfl
  rw [hr] at h5 h6 h7
  have hread : c1.read k = some (m, s) := by
    unfold scoreDagRef at hcall h5
    rw [hnew] at hcall
    simp only [Bool.false_eq_true, if_false] at hcall h5
    split at hcall
    · simp at hcall
    split at hcall
    · simp at hcall
    rename_i heq
    simp only [Except.ok.injEq, Prod.mk.injEq] at hcall
    obtain ⟨⟨-, rfl⟩, -, rfl⟩ := hcall
    rw [read_append_self hnew] at h5 ⊢
    simp only [Except.ok.injEq, Prod.mk.injEq] at h5
    rw [h5.2.1]
  have hobj : ∃ o', h1.objects[m]? = some o' ∧ o' at' < h1.arrays.length := by
    have hx : h1.attr m at' ≠ none := by
      by_cases ha : at' = .IB
      · rw [ha, h7]; simp
      · rw [h6 _ ha]; simp
    unfold Heap.attr at hx
    cases ho : h1.objects[m]? with
    | none => rw [ho] at hx; simp at hx
    | some o' =>
      refine ⟨o', rfl, ?_⟩
      rw [ho] at hx
      by_contra hc
      exact hx (by simp; omega)
  obtain ⟨o', ho', hlt⟩ := hobj
  refine ⟨m, o', h5, ho', (C84_hit_shared check mkIB fit _ c1 k m s hread).1, ?_⟩
  unfold Heap.attr Heap.step
  simp only [ho', Option.bind_some]
  rw [List.getElem?_set_self hlt]

/-- Non-vacuity: contents of the attributes of a fitted model (numbers stand for arrays). -/
def exVals : Attr → Nat
  | .A => 1 | .B => 2 | .gamma => 3 | .omegas => 4 | .psis => 5 | .IB => 6

/-- The first call for a pair returns object 0, the second one object 1; after the weights of object 1 are overwritten, the third call returns
object 1 with the new weights and the old score. -/
example : ∃ h1 c1, scoreDagRef (fun _ _ _ _ _ => true) (fun v => v + 100) (fun _ => .ok (exVals, 7)) false ⟨[], []⟩ ([] : RefCache Nat Nat) 0 =
      .ok ((h1, c1), 0, 7) ∧
    scoreDagRef (fun _ _ _ _ _ => true) (fun v => v + 100) (fun _ => .ok (exVals, 7)) false h1 c1 0 = .ok ((h1, c1), 1, 7) ∧
    h1.attr 1 .B = some 2 ∧ (∃ o : Attr → Nat, h1.objects[1]? = some o ∧
      scoreDagRef (fun _ _ _ _ _ => true) (fun v => v + 100) (fun _ => .ok (exVals, 7)) false (h1.step (.write (o .B) 9)) c1 0 =
        .ok ((h1.step (.write (o .B) 9), c1), 1, 7) ∧ (h1.step (.write (o .B) 9)).attr 1 .B = some 9) :=
  ⟨_, _, rfl, rfl, rfl, _, rfl, rfl, rfl⟩

end Verif
