import Verif.TensorArr.Model
import Mathlib.Data.List.Nodup
/-
C135: tensor arrays.
-/
namespace Verif.TensorArr
open Verif Verif.Py

variable {α : Type}

/-- The value of a tensor at an index for every dim, without regard to the order of the dims. -/
def T.at (x : T α) (i : Nat → Nat) : α := x.raw (x.dims.map i)

/-- A tensor fits to a template: the same dims in any order, and the same sparse dim. -/
def Fits (dims : List Nat) (sparse : Option Nat) (x : T α) : Prop := x.dims.Nodup ∧ (∀ d, d ∈ x.dims ↔ d ∈ dims) ∧ x.sparse = sparse

theorem sameSet_iff (a b : List Nat) : sameSet a b = true ↔ ∀ d, d ∈ a ↔ d ∈ b := by
  simp only [sameSet, Bool.and_eq_true, List.all_eq_true, decide_eq_true_eq]
  exact ⟨fun h d => ⟨h.1 d, h.2 d⟩, fun h => ⟨fun d => (h d).1, fun d => (h d).2⟩⟩

theorem content_append (h : Heap α) (a b : TA) (x : T α) (hr : a.ref < h.length) :
    content (append h a.ref x) b = if b.ref = a.ref then content h b ++ [x] else content h b := by
  unfold content append
  rw [List.getElem?_modify]
  by_cases e : b.ref = a.ref
  · rw [if_pos e, e]
    simp [List.getElem?_eq_getElem hr]
  · rw [if_neg e]
    cases h[b.ref]? <;> simp [Ne.symm e]

/-- `push_back` refuses a tensor whose dims (as a set) or sparse dim are not those of the template, and accepts all others. -/
theorem push_checked (h : Heap α) (a : TA) (x : T α) (hd : a.delayed = false) :
    ((∀ d, d ∈ x.dims ↔ d ∈ a.dims) ∧ x.sparse = a.sparse ↔ ∃ r, pushBack h a x = .ok r) ∧
    (¬ ((∀ d, d ∈ x.dims ↔ d ∈ a.dims) ∧ x.sparse = a.sparse) → pushBack h a x = .error .assertion) := by
  by_cases h1 : ∀ d, d ∈ x.dims ↔ d ∈ a.dims
  · by_cases h2 : x.sparse = a.sparse
    · simp [pushBack, check, hd, (sameSet_iff _ _).2 h1, h2, h1]
    · simp [pushBack, check, hd, (sameSet_iff _ _).2 h1, h2]
  · have : ¬ sameSet x.dims a.dims = true := fun e => h1 ((sameSet_iff _ _).1 e)
    simp [pushBack, check, hd, this, h1]

theorem pushBack_ok (h : Heap α) (a : TA) (x : T α) (hf : Fits a.dims a.sparse x) : pushBack h a x = .ok (append h a.ref x, a) := by
  have hs := (sameSet_iff _ _).2 hf.2.1
  cases hd : a.delayed <;> simp [pushBack, check, hd, hs, hf.2.2]

theorem append_length (h : Heap α) (r : Nat) (x : T α) : (append h r x).length = h.length := by simp [append]

/-- A chain of `push_back` calls: the array then contains what it had before and the tensors in their order, and arrays with other lists are not touched. -/
theorem push_order (h : Heap α) (a : TA) (xs : List (T α)) (hr : a.ref < h.length) (hf : ∀ x ∈ xs, Fits a.dims a.sparse x) :
    ∃ h', pushAll h a xs = .ok (h', a) ∧ content h' a = content h a ++ xs ∧ ∀ b : TA, b.ref ≠ a.ref → content h' b = content h b := by
  induction xs generalizing h with
  | nil => exact ⟨h, rfl, by simp, fun _ _ => rfl⟩
  | cons x t ih =>
    obtain ⟨h', e1, e2, e3⟩ := ih (append h a.ref x) (by rw [append_length]; exact hr) (fun y hy => hf y (by simp [hy]))
    refine ⟨h', ?_, ?_, ?_⟩
    · simp only [pushAll, pushBack_ok h a x (hf x (by simp))]; exact e1
    · rw [e2, content_append h a a x hr]; simp
    · intro b hb
      rw [e3 b hb, content_append h a b x hr, if_neg hb]

theorem transpose_at (x : T α) (dims : List Nat) (hn : dims.Nodup) (hx : x.dims.Nodup) (hset : ∀ d, d ∈ x.dims ↔ d ∈ dims) :
    ∃ y, transpose x dims = .ok y ∧ y.dims = dims ∧ ∀ i, y.raw (dims.map i) = x.at i := by
  have hlen : dims.length = x.dims.length :=
    ((List.perm_ext_iff_of_nodup hn hx).2 fun d => (hset d).symm).length_eq
  refine ⟨_, by unfold transpose; rw [if_pos hlen, if_pos (by simpa using fun d hd => (hset d).1 hd)], rfl, ?_⟩
  intro i
  unfold T.at
  show x.raw _ = x.raw _
  congr 1
  apply List.map_congr_left
  intro d hd
  have hdd : d ∈ dims := (hset d).1 hd
  have hlt := List.idxOf_lt_length_of_mem hdd
  rw [List.getElem?_map, List.getElem?_eq_getElem hlt, List.getElem_idxOf hlt]
  rfl

theorem transposeAll_at (dims : List Nat) (hn : dims.Nodup) (xs : List (T α)) (hx : ∀ x ∈ xs, x.dims.Nodup ∧ ∀ d, d ∈ x.dims ↔ d ∈ dims) :
    ∃ ys, transposeAll dims xs = .ok ys ∧ ys.length = xs.length ∧
      ∀ (k : Nat) (x : T α), xs[k]? = some x → ∃ y : T α, ys[k]? = some y ∧ ∀ i, y.raw (dims.map i) = x.at i := by
  induction xs with
  | nil => exact ⟨[], rfl, rfl, by simp⟩
  | cons x t ih =>
    obtain ⟨ys, e1, e2, e3⟩ := ih (fun y hy => hx y (by simp [hy]))
    obtain ⟨y, f1, _, f3⟩ := transpose_at x dims hn (hx x (by simp)).1 (hx x (by simp)).2
    refine ⟨y :: ys, by simp only [transposeAll, f1, e1], by simp [e2], ?_⟩
    intro k z hz
    cases k with
    | zero => simp only [List.getElem?_cons_zero, Option.some.injEq] at hz; subst hz; exact ⟨y, by simp, f3⟩
    | succ k => simp only [List.getElem?_cons_succ] at hz ⊢; exact e3 k z hz

/-- What `stack` gives for an array whose tensors fit to its template: the axis is first, the other dims are those of the template (in the order of the first
tensor), and the value at an index is that of the tensor at this place on the axis, however the dims of this tensor were ordered. -/
theorem stack_meaning (zero : α) (h : Heap α) (a : TA) (axis : Nat) (hne : content h a ≠ []) (hf : ∀ x ∈ content h a, Fits a.dims a.sparse x) :
    ∃ y, stack zero h a axis = .ok y ∧ y.dims.head? = some axis ∧ (∀ d, d ∈ y.dims.tail ↔ d ∈ a.dims) ∧ y.sparse = a.sparse ∧
      ∀ (i : Nat → Nat) (x : T α), (content h a)[i axis]? = some x → y.at i = x.at i := by
  cases hc : content h a with
  | nil => exact absurd hc hne
  | cons x xs =>
    rw [hc] at hf
    have h0 := hf x (by simp)
    obtain ⟨ys, e1, _, e3⟩ := transposeAll_at x.dims h0.1 (x :: xs) (by
      intro z hz
      have := hf z hz
      exact ⟨this.1, fun d => (this.2.1 d).trans (h0.2.1 d).symm⟩)
    refine ⟨{ dims := axis :: x.dims, sparse := x.sparse, raw := rawStack zero ys }, by simp only [stack, hc, e1], rfl, h0.2.1, h0.2.2, ?_⟩
    intro i z hz
    obtain ⟨y, g1, g2⟩ := e3 (i axis) z hz
    simp only [T.at, List.map_cons, rawStack, g1]
    exact g2 i

/-- An array without tensors gives zeros with the template's dims. -/
theorem stack_empty (zero : α) (h : Heap α) (a : TA) (axis : Nat) (he : content h a = []) :
    ∃ y, stack zero h a axis = .ok y ∧ y.dims = axis :: a.dims ∧ y.sparse = a.sparse ∧ ∀ i, y.at i = zero := by
  exact ⟨{ dims := axis :: a.dims, sparse := a.sparse, raw := fun _ => zero }, by simp only [stack, he], rfl, rfl, fun _ => rfl⟩

/-- Reading: place `i` from the front, or from the end if negative; everything else is an IndexError. -/
theorem read (h : Heap α) (a : TA) (k : Nat) (x : T α) (hx : (content h a)[k]? = some x) :
    getItemAt h a (k : Int) = .ok x ∧ getItemAt h a ((k : Int) - (content h a).length) = .ok x := by
  have hk : k < (content h a).length := (List.getElem?_eq_some_iff.1 hx).1
  constructor
  · have h1 : ¬ (k : Int) < 0 := by omega
    simp only [getItemAt, if_neg h1, if_pos (show (0 : Int) ≤ k by omega), Int.toNat_natCast, getItem, hx]
  · have h1 : (k : Int) - (content h a).length < 0 := by omega
    have h2 : (k : Int) - (content h a).length + (content h a).length = k := by omega
    simp only [getItemAt, if_pos h1, h2, if_pos (show (0 : Int) ≤ k by omega), Int.toNat_natCast, getItem, hx]

theorem read_error (h : Heap α) (a : TA) (i : Int) (hi : i < -((content h a).length : Int) ∨ ((content h a).length : Int) ≤ i) :
    getItemAt h a i = .error .indexError := by
  unfold getItemAt
  rcases hi with hi | hi
  · have h1 : i < 0 := by omega
    simp only [if_pos h1]
    rw [if_neg (by omega)]
  · have h1 : ¬ i < 0 := by omega
    simp only [if_neg h1]
    rw [if_pos (by omega)]
    have h2 : (content h a).length ≤ i.toNat := by omega
    simp [getItem, List.getElem?_eq_none h2]

theorem insert_erase (l : List Nat) (p : Nat) (i : Nat → Nat) (h : p < l.length) :
    ((l.eraseIdx p).map i).insertIdx p (i l[p]) = l.map i := by
  induction l generalizing p with
  | nil => simp at h
  | cons x t ih =>
    cases p with
    | zero => simp
    | succ p =>
      simp only [List.length_cons, Nat.add_lt_add_iff_right] at h
      simp only [List.eraseIdx_cons_succ, List.map_cons, List.insertIdx_succ_cons, List.getElem_cons_succ, ih p h]

theorem mem_erase_idx (l : List Nat) (hn : l.Nodup) (a : Nat) (ha : a ∈ l) (d : Nat) : d ∈ l.eraseIdx (l.idxOf a) ↔ d ∈ l ∧ d ≠ a := by
  rw [← List.erase_eq_eraseIdx_of_idxOf (i := l.idxOf a) rfl, hn.mem_erase_iff, and_comm]

/-- `unstack` gives an array of the slices along the axis: place `k` has, at every index, the value of the tensor with `k` on the axis; the axis is gone from
the dims. -/
theorem unstack_meaning (h : Heap α) (x : T α) (axis n : Nat) (hn : x.dims.Nodup) (ha : axis ∈ x.dims) :
    ∃ h' a, unstack h x axis n = .ok (h', a) ∧ (content h' a).length = n ∧ (∀ d, d ∈ a.dims ↔ d ∈ x.dims ∧ d ≠ axis) ∧ a.sparse = x.sparse ∧
      (∀ y ∈ content h' a, Fits a.dims a.sparse y) ∧ (∀ b : TA, b.ref < h.length → content h' b = content h b) ∧
      ∀ (i : Nat → Nat) (y : T α), (content h' a)[i axis]? = some y → y.at i = x.at i := by
  have hlt := List.idxOf_lt_length_of_mem ha
  refine ⟨_, _, by unfold unstack; rw [if_pos ha], ?_, ?_, rfl, ?_, ?_, ?_⟩
  · simp [content, unbind]
  · exact mem_erase_idx x.dims hn axis ha
  · intro y hy
    simp only [content, List.getElem?_concat_length, Option.getD_some, unbind, List.mem_map] at hy
    obtain ⟨k, _, rfl⟩ := hy
    exact ⟨hn.sublist (List.eraseIdx_sublist _ _), fun _ => Iff.rfl, rfl⟩
  · intro b hb
    simp [content, List.getElem?_append_left hb]
  · intro i y hy
    simp only [content, List.getElem?_concat_length, Option.getD_some, unbind, List.getElem?_map] at hy
    cases hk : (List.range n)[i axis]? with
    | none => simp [hk] at hy
    | some k =>
      have hkk : k = i axis := by
        obtain ⟨h1, h2⟩ := List.getElem?_eq_some_iff.1 hk
        rw [List.getElem_range] at h2; exact h2.symm
      rw [hk] at hy
      simp only [Option.map_some, Option.some.injEq] at hy
      subst hy
      simp only [T.at]
      congr 1
      have := insert_erase x.dims (x.dims.idxOf axis) i hlt
      rw [List.getElem_idxOf hlt] at this
      rw [hkk]; exact this

/-- An axis which the tensor does not have is refused. -/
theorem unstack_refused (h : Heap α) (x : T α) (axis n : Nat) (ha : axis ∉ x.dims) : ∃ e, unstack h x axis n = .error e := by
  exact ⟨_, by unfold unstack; rw [if_neg ha]⟩

/-- Stacking what was unstacked gives the tensor again (up to the order of the dims), for all indices on the axis. -/
theorem round_trip (zero : α) (h : Heap α) (x : T α) (axis n : Nat) (hn : x.dims.Nodup) (ha : axis ∈ x.dims) (hpos : 0 < n) :
    ∃ h' a y, unstack h x axis n = .ok (h', a) ∧ stack zero h' a axis = .ok y ∧ (∀ d, d ∈ y.dims ↔ d ∈ x.dims) ∧ y.sparse = x.sparse ∧
      ∀ i : Nat → Nat, i axis < n → y.at i = x.at i := by
  obtain ⟨h', a, e1, e2, e3, e4, e5, _, e6⟩ := unstack_meaning h x axis n hn ha
  obtain ⟨y, f1, f2, f3, f4, f5⟩ := stack_meaning zero h' a axis (by intro hc; rw [hc] at e2; simp at e2; omega) e5
  refine ⟨h', a, y, e1, f1, ?_, f4.trans e4, ?_⟩
  · intro d
    cases hy : y.dims with
    | nil => rw [hy] at f2; cases f2
    | cons z t =>
      rw [hy] at f2 f3
      simp only [List.head?_cons, Option.some.injEq] at f2
      simp only [List.tail_cons] at f3
      rw [List.mem_cons, f3 d, e3 d, f2]
      constructor
      · rintro (rfl | h)
        · exact ha
        · exact h.1
      · intro hd
        by_cases hda : d = axis
        · exact Or.inl hda
        · exact Or.inr ⟨hd, hda⟩
  · intro i hi
    have hsome : ∃ z, (content h' a)[i axis]? = some z := ⟨_, List.getElem?_eq_getElem (by rw [e2]; exact hi)⟩
    obtain ⟨z, hz⟩ := hsome
    rw [f5 i z hz, e6 i z hz]

/-- Building by `push_back` from nothing and stacking: the place on the axis selects the tensor, in the order of the calls. -/
theorem build_and_stack (zero : α) (h : Heap α) (dims : List Nat) (sparse : Option Nat) (axis : Nat) (xs : List (T α)) (hne : xs ≠ [])
    (hf : ∀ x ∈ xs, Fits dims sparse x) :
    ∃ h' y, pushAll (create h dims sparse).1 (create h dims sparse).2 xs = .ok (h', (create h dims sparse).2) ∧
      stack zero h' (create h dims sparse).2 axis = .ok y ∧ ∀ (i : Nat → Nat) (x : T α), xs[i axis]? = some x → y.at i = x.at i := by
  have hc0 : content (create h dims sparse).1 (create h dims sparse).2 = [] := by simp [content, create]
  obtain ⟨h', e1, e2, _⟩ := push_order (create h dims sparse).1 (create h dims sparse).2 xs (by simp [create]) hf
  rw [hc0, List.nil_append] at e2
  obtain ⟨y, f1, _, _, _, f5⟩ := stack_meaning zero h' (create h dims sparse).2 axis (by rw [e2]; exact hne) (by rw [e2]; exact hf)
  rw [e2] at f5
  exact ⟨h', y, e1, f1, f5⟩

/-- The documentation says that `push_back` returns a new array and leaves the old one. In eager mode it does not: the tensor is then also in the old array, which
becomes the same as the new one, so two `push_back` calls on one array see each other. -/
theorem old_array_changes (h : Heap α) (a : TA) (x z : T α) (hr : a.ref < h.length) (hx : Fits a.dims a.sparse x) (hz : Fits a.dims a.sparse z) :
    ∃ h1 b h2 c, pushBack h a x = .ok (h1, b) ∧ content h1 a = content h a ++ [x] ∧ pushBack h1 a z = .ok (h2, c) ∧
      content h2 c = content h a ++ [x, z] ∧ content h2 b = content h a ++ [x, z] := by
  refine ⟨_, _, _, _, pushBack_ok h a x hx, ?_, pushBack_ok _ a z hz, ?_, ?_⟩
  · rw [content_append h a a x hr, if_pos rfl]
  all_goals
    rw [content_append _ a a z (by rw [append_length]; exact hr), if_pos rfl, content_append h a a x hr, if_pos rfl]
    simp

/-- The hypotheses are met: two tensors with the dims in another order. -/
def exA : T Nat := { dims := [3, 7], sparse := none, raw := fun l => match l with | [a, b] => 10 * a + b | _ => 0 }
def exB : T Nat := { dims := [7, 3], sparse := none, raw := fun l => match l with | [b, a] => 100 + 10 * a + b | _ => 0 }
example : Fits [3, 7] none exA ∧ Fits [3, 7] none exB := by
  refine ⟨⟨by decide, by simp [exA], rfl⟩, ⟨by decide, by simp [exB]; omega, rfl⟩⟩
def exRead (r : Res (Heap Nat × TA)) (l : List Nat) : Option Nat :=
  match r with
  | .error _ => none
  | .ok (h, a) => match stack 0 h a 9 with
    | .error _ => none
    | .ok y => some (y.raw l)
example : exRead (pushAll [[]] ⟨[3, 7], none, 0, false⟩ [exA, exB]) [1, 4, 5] = some 145 := by decide
example : exRead (unstack [] exA 7 2) [1, 4] = some 41 := by decide

end Verif.TensorArr
