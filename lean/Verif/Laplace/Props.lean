import Verif.Laplace.Model
import Verif.Util.ListLemmas
import Mathlib.Data.List.Basic
/-
Theorems about `LaplaceOrdering` (C23).
-/
namespace Verif.Laplace
open Verif.Py Verif.ListLemmas

theorem sortBuf_perm (down : Bool) (buf : List Item) : (sortBuf down buf).Perm buf := by
  unfold sortBuf; split <;> exact stableSort_perm _ _

theorem reorder_length (down : Bool) (buf : List Item) : (reorder down buf).length = buf.length := by
  simp [reorder, (sortBuf_perm down buf).length_eq]

theorem reorder_frac (down : Bool) (buf : List Item) : (reorder down buf).map Item.frac = buf.map Item.frac := by
  have key : ∀ (a : List Item) (f : List Nat), a.length = f.length →
      (List.zipWith (fun it f => ({ it with frac := f } : Item)) a f).map Item.frac = f := by
    intro a
    induction a with
    | nil => intro f h; cases f with | nil => rfl | cons => simp at h
    | cons x a ih =>
      intro f h
      cases f with
      | nil => simp at h
      | cons y f => simp only [List.zipWith_cons_cons, List.map_cons, ih f (by simpa using h)]
  exact key _ _ (by simp [(sortBuf_perm down buf).length_eq])

/-- The sequence without `complete_frac`. -/
def Item.seq (it : Item) : Nat × Nat := (it.data, it.len)

theorem reorder_seq (down : Bool) (buf : List Item) : (reorder down buf).map Item.seq = (sortBuf down buf).map Item.seq := by
  have key : ∀ (a : List Item) (f : List Nat), a.length = f.length →
      (List.zipWith (fun it f => ({ it with frac := f } : Item)) a f).map Item.seq = a.map Item.seq := by
    intro a
    induction a with
    | nil => intro f h; cases f with | nil => rfl | cons => simp at h
    | cons x a ih =>
      intro f h
      cases f with
      | nil => simp at h
      | cons y f => simp only [List.zipWith_cons_cons, List.map_cons, ih f (by simpa using h), Item.seq]
  exact key _ _ (by simp [(sortBuf_perm down buf).length_eq])

theorem pull_ended (k : Nat) (rest next : List Item) : pull k rest next true = (next, rest, true) := by
  induction k with
  | zero => rfl
  | succ k ih => simp [pull, ih]

theorem pull_spec (k : Nat) (rest next : List Item) :
    pull k rest next false = (next ++ rest.take k, rest.drop k, decide (rest.length < k)) := by
  induction k generalizing rest next with
  | zero => simp [pull]
  | succ k ih =>
    unfold pull
    simp only [Bool.false_eq_true, if_false]
    cases rest with
    | nil => simp [pull_ended]
    | cons x rest => simp [ih]

/-- Bins of `n` items, alternately ascending and descending, starting with phase `down`. -/
def bins (n : Nat) (down : Bool) : Nat → List Item → List Item
  | 0, _ => []
  | fuel + 1, items => if items.length ≤ n then reorder down items else reorder down (items.take n) ++ bins n (!down) fuel (items.drop n)

theorem reorder_nil (down : Bool) : reorder down [] = [] := by
  unfold reorder sortBuf; split <;> rfl

theorem loop_ended (n fuel : Nat) (hn : 0 < n) (down : Bool) (buf : List Item) (hb : buf.length ≤ n) (hf : 2 ≤ fuel ∨ (1 ≤ fuel ∧ buf.length < n)) :
    loop n fuel down buf [] true = (reorder down buf, none) := by
  obtain ⟨fuel, rfl⟩ : ∃ f, fuel = f + 1 := ⟨fuel - 1, by omega⟩
  unfold loop
  simp only [pull_ended]
  by_cases hlt : buf.length < n
  · simp [hlt]
  · simp only [hlt, if_false]
    obtain ⟨fuel, rfl⟩ : ∃ f, fuel = f + 1 := ⟨fuel - 1, by omega⟩
    unfold loop
    simp [pull_ended, hn, reorder_nil]

theorem loop_spec (n : Nat) (hn : 0 < n) (fuel : Nat) (down : Bool) (items : List Item) (hne : items ≠ [])
    (hf : items.length + 1 ≤ fuel) :
    loop n fuel down (items.take n) (items.drop n) false = (bins n down fuel items, none) := by
  induction fuel generalizing down items with
  | zero => omega
  | succ fuel ih =>
    have hpos : 0 < items.length := List.length_pos_iff.mpr hne
    unfold loop bins
    simp only [pull_spec, List.nil_append, List.length_take, List.length_drop]
    by_cases hle : items.length ≤ n
    · simp only [hle, if_true]
      have hd : items.drop n = [] := List.drop_eq_nil_of_le hle
      have ht : items.take n = items := List.take_of_length_le hle
      have hend : items.length - n < min n items.length := by omega
      simp only [hd, ht, List.take_nil, List.drop_nil, hend, decide_true, List.isEmpty_nil, Bool.and_true, if_true]
      by_cases hlt : min n items.length < n
      · simp [hlt]
      · simp only [hlt, if_false]
        obtain ⟨fuel, rfl⟩ : ∃ f, fuel = f + 1 := ⟨fuel - 1, by omega⟩
        unfold loop
        simp [pull_ended, hn, reorder_nil]
    · simp only [hle, if_false, show ¬ min n items.length < n by omega, show min n items.length = n by omega]
      have hdne : items.drop n ≠ [] := by
        intro h; have := congrArg List.length h; simp at this; omega
      by_cases hend : items.length - n < n
      · -- the last bin
        simp only [hend, decide_true]
        have hd2 : (items.drop n).drop n = [] := List.drop_eq_nil_of_le (by simp; omega)
        have ht2 : (items.drop n).take n = items.drop n := List.take_of_length_le (by simp; omega)
        rw [hd2, ht2, loop_ended n fuel hn (!down) (items.drop n) (by simp; omega) (Or.inr ⟨by omega, by simp; omega⟩)]
        obtain ⟨f, rfl⟩ : ∃ f, fuel = f + 1 := ⟨fuel - 1, by omega⟩
        simp only [bins]
        rw [if_pos (show (items.drop n).length ≤ n by simp; omega)]
        simp
      · simp only [hend, decide_false]
        have := ih (!down) (items.drop n) hdne (by simp; omega)
        rw [this]
        simp

theorem bins_length (n : Nat) (down : Bool) (fuel : Nat) (items : List Item) (hn : 0 < n) (hf : items.length < fuel) :
    (bins n down fuel items).length = items.length := by
  induction fuel generalizing down items with
  | zero => omega
  | succ fuel ih =>
    unfold bins
    split
    · exact reorder_length _ _
    · rename_i h
      rw [List.length_append, reorder_length, ih _ _ (by simp; omega)]
      simp; omega

theorem bins_frac (n : Nat) (down : Bool) (fuel : Nat) (items : List Item) (hn : 0 < n) (hf : items.length < fuel) :
    (bins n down fuel items).map Item.frac = items.map Item.frac := by
  induction fuel generalizing down items with
  | zero => omega
  | succ fuel ih =>
    unfold bins
    split
    · exact reorder_frac _ _
    · rename_i h
      rw [List.map_append, reorder_frac, ih _ _ (by simp; omega), ← List.map_append, List.take_append_drop]

theorem slice_zero_eq {α : Type} (l : List α) (n : Nat) : slice l 0 n = l.take n := by simp [slice]

/-- The `j`-th bin of the output is the reordered `j`-th bin of the input. -/
theorem bins_slice (n : Nat) (down : Bool) (fuel : Nat) (items : List Item) (hn : 0 < n) (hf : items.length < fuel) (j : Nat) :
    slice (bins n down fuel items) (j * n) ((j + 1) * n) =
      reorder (if j % 2 = 0 then down else !down) (slice items (j * n) ((j + 1) * n)) := by
  induction fuel generalizing down items j with
  | zero => omega
  | succ fuel ih =>
    unfold bins
    split
    · rename_i h
      cases j with
      | zero =>
        simp only [Nat.zero_mul, Nat.zero_add, Nat.one_mul, slice_zero_eq, Nat.zero_mod, if_true]
        rw [List.take_of_length_le h, List.take_of_length_le (by rw [reorder_length]; exact h)]
      | succ j =>
        have h1 : n ≤ (j + 1) * n := Nat.le_mul_of_pos_left n (by omega)
        unfold slice
        rw [List.drop_eq_nil_of_le (by rw [List.length_take, reorder_length]; omega),
          List.drop_eq_nil_of_le (by rw [List.length_take]; omega), reorder_nil]
    · rename_i h
      have hl : (reorder down (items.take n)).length = n := by rw [reorder_length]; simp; omega
      cases j with
      | zero =>
        simp only [Nat.zero_mul, Nat.zero_add, Nat.one_mul, slice_zero_eq, Nat.zero_mod, if_true]
        rw [List.take_append_of_le_length (by omega), List.take_of_length_le (by omega)]
      | succ j =>
        have hi := ih (!down) (items.drop n) (by simp; omega) j
        have e1 : (j + 1) * n = n + j * n := by rw [Nat.add_mul]; omega
        have e2 : (j + 1 + 1) * n = n + (j + 1) * n := by rw [Nat.add_mul (j + 1)]; omega
        have hs : ∀ l1 l2 : List Item, l1.length = n → slice (l1 ++ l2) ((j + 1) * n) ((j + 1 + 1) * n) = slice l2 (j * n) ((j + 1) * n) := by
          intro l1 l2 h1
          unfold slice
          rw [e2]
          conv_lhs => rw [e1]
          rw [← h1, List.take_length_add_append, List.drop_length_add_append, h1, e1]
        rw [hs _ _ hl, hi]
        conv_rhs => rw [← List.take_append_drop n items]
        rw [hs _ _ (by simp; omega)]
        congr 1
        rcases Nat.mod_two_eq_zero_or_one j with h0 | h0
        · have : (j + 1) % 2 = 1 := by omega
          simp [h0, this]
        · have : (j + 1) % 2 = 0 := by omega
          simp [h0, this]

/-- C23. On a non-empty stream: the output is a rearrangement of the stream, the `complete_frac` values come in the original
order, and the `j`-th `n` sequences are the `j`-th `n` sequences of the stream, sorted by length: ascending for even `j`,
descending for odd `j`; sequences of equal length keep their order. -/
theorem laplace_spec (n : Nat) (hn : 0 < n) (items : List Item) (hne : items ≠ []) :
    ∃ out, laplace n items = (out, none) ∧ out.map Item.frac = items.map Item.frac ∧
      (∀ j, let o := slice out (j * n) ((j + 1) * n); let i := slice items (j * n) ((j + 1) * n)
        (o.map Item.seq).Perm (i.map Item.seq) ∧
        o.Pairwise (fun a b => if j % 2 = 0 then a.len ≤ b.len else b.len ≤ a.len) ∧
        ∀ a b : Item, a.len = b.len → [a, b].Sublist i → [a.seq, b.seq].Sublist (o.map Item.seq)) := by
  refine ⟨bins n false (items.length + 1) items, ?_, bins_frac n false _ items hn (by omega), ?_⟩
  · exact loop_spec n hn (items.length + 1) false items hne (by omega)
  · intro j o i
    have ho : o = reorder (if j % 2 = 0 then false else !false) i := bins_slice n false _ items hn (by omega) j
    rw [ho]
    generalize i = buf
    refine ⟨?_, ?_, ?_⟩
    · rw [reorder_seq]
      exact (sortBuf_perm _ _).map _
    · have hp : ((reorder (if j % 2 = 0 then false else !false) buf).map Item.seq).Pairwise
          (fun a b => if j % 2 = 0 then a.2 ≤ b.2 else b.2 ≤ a.2) := by
        rw [reorder_seq, List.pairwise_map]
        by_cases hj : j % 2 = 0
        · simp only [hj, if_true, sortBuf, Bool.false_eq_true, if_false, Item.seq]
          have := stableSort_pairwise (le := fun a b : Item => decide (a.len ≤ b.len))
            (fun a b c h1 h2 => by simp at *; omega) (fun a b => by simp; omega) buf
          simpa using this
        · simp only [hj, if_false, sortBuf, Bool.not_false, if_true, Item.seq]
          have := stableSort_pairwise (le := fun a b : Item => decide (b.len ≤ a.len))
            (fun a b c h1 h2 => by simp at *; omega) (fun a b => by simp; omega) buf
          simpa using this
      exact List.pairwise_map.mp hp
    · intro a b hab hs
      rw [reorder_seq]
      have : [a, b].Sublist (sortBuf (if j % 2 = 0 then false else !false) buf) := by
        unfold sortBuf
        split
        · exact pair_sublist_stableSort (by simp [hab]) hs
        · exact pair_sublist_stableSort (by simp [hab]) hs
      exact this.map Item.seq

/-- C23: the output is a permutation of the stream (apart from `complete_frac`), and nothing is lost. -/
theorem laplace_perm (n : Nat) (hn : 0 < n) (items : List Item) (hne : items ≠ []) :
    ∃ out, laplace n items = (out, none) ∧ (out.map Item.seq).Perm (items.map Item.seq) := by
  refine ⟨bins n false (items.length + 1) items, loop_spec n hn (items.length + 1) false items hne (by omega), ?_⟩
  have key : ∀ fuel down (items : List Item), items.length < fuel → ((bins n down fuel items).map Item.seq).Perm (items.map Item.seq) := by
    intro fuel
    induction fuel with
    | zero => intro _ _ h; omega
    | succ fuel ih =>
      intro down items hf
      unfold bins
      split
      · rw [reorder_seq]; exact (sortBuf_perm _ _).map _
      · rename_i h
        rw [List.map_append, reorder_seq]
        have h1 := (sortBuf_perm down (items.take n)).map Item.seq
        have h2 := ih (!down) (items.drop n) (by simp; omega)
        have := h1.append h2
        rw [← List.map_append (l₁ := items.take n), List.take_append_drop] at this
        exact this
  exact key _ _ _ (by omega)

/-- The claim does not hold for an empty stream: the generator fails with an assertion. -/
theorem laplace_empty (n : Nat) (hn : 0 < n) : laplace n [] = ([], some .assertion) := by
  have : reorder false [] = [] := reorder_nil false
  simp [laplace, loop, pull, hn, this]

example : laplace 2 [⟨1, 5, 10⟩, ⟨2, 3, 11⟩, ⟨3, 1, 12⟩, ⟨4, 9, 13⟩, ⟨5, 4, 14⟩] =
    ([⟨2, 3, 10⟩, ⟨1, 5, 11⟩, ⟨4, 9, 12⟩, ⟨3, 1, 13⟩, ⟨5, 4, 14⟩], none) := by decide +kernel

end Verif.Laplace
