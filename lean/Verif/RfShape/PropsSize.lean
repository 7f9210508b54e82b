import Verif.RfShape.PropsNew
import Mathlib.Tactic.Ring
/-
C108: the sizes of merged dims. Concrete cases for C108 and C109.
-/
namespace Verif.RfShape

open Verif.Py Verif.BinOp Verif.RfMatmul Verif.RfGather

/-- The capacity of several dims. -/
def caps (ss : List Size) : Nat := (ss.map Size.cap).prod

theorem foldl_mul (l : List Nat) (a : Nat) : l.foldl (· * ·) a = a * l.prod := by
  induction l generalizing a with
  | nil => simp
  | cons b l ih => rw [List.foldl_cons, ih, List.prod_cons, Nat.mul_assoc]

/-- C108: the merged dim has as many positions as the dims together. -/
theorem merged_cap (ss : List Size) : (mergedSize ss).cap = caps ss := by
  cases ss with
  | nil => rfl
  | cons s ss =>
    have hf : ∀ (ss : List Size) (s : Size), (ss.foldl Size.mul s).cap = s.cap * caps ss := by
      intro ss
      induction ss with
      | nil => intro s; simp [caps]
      | cons a ss ih => intro s; rw [List.foldl_cons, ih]; simp [Size.mul, caps, Nat.mul_assoc]
    unfold mergedSize
    simp only
    split
    · simp only [foldl_mul]; simp [caps]
    · rw [hf]; simp [caps]

theorem foldl_lens {ss : List Size} (h : ∀ x ∈ ss, x.lens = none) (s : Size) : (ss.foldl Size.mul s).lens = s.lens.map (fun l => l.map (· * caps ss)) := by
  induction ss generalizing s with
  | nil => cases hs : s.lens <;> simp [caps, hs]
  | cons a ss ih =>
    rw [List.foldl_cons, ih (fun x hx => h x (List.mem_cons_of_mem _ hx))]
    have ha := h a List.mem_cons_self
    cases hs : s.lens with
    | none => simp [Size.mul, hs, ha]
    | some l => simp [Size.mul, hs, ha, caps, Function.comp_def, Nat.mul_assoc]

/-- C108: if only the first dim has lengths, exactly the positions of the sequences are kept. -/
theorem merged_exact (s : Size) {ss : List Size} (h : ∀ x ∈ ss, x.lens = none) (b i r : Nat) (hr : r < caps ss) :
    (mergedSize (s :: ss)).has b (i * caps ss + r) ↔ s.has b i := by
  have hlt : ∀ n, i * caps ss + r < n * caps ss ↔ i < n := by
    intro n
    constructor
    · intro h1
      by_contra h2
      have := Nat.mul_le_mul_right (caps ss) (Nat.le_of_not_lt h2)
      omega
    · intro h1
      have := Nat.mul_le_mul_right (caps ss) (Nat.succ_le_of_lt h1)
      rw [Nat.succ_mul] at this
      omega
  have hm : mergedSize (s :: ss) = ss.foldl Size.mul s := by
    unfold mergedSize
    simp only
    rw [if_neg]
    simp only [List.any_eq_true, not_exists, not_and, Size.masked]
    intro x hx
    simp [h x hx]
  have hc := merged_cap (s :: ss)
  unfold Size.has
  rw [hm] at hc ⊢
  rw [foldl_lens h, hc]
  cases hs : s.lens with
  | none =>
    simp only [Option.map_none]
    rw [show caps (s :: ss) = s.cap * caps ss by simp [caps]]
    exact hlt _
  | some l =>
    simp only [Option.map_some, List.getElem?_map, Option.map_eq_some_iff]
    constructor
    · rintro ⟨_, ⟨n, h1, rfl⟩, h2⟩
      exact ⟨n, h1, (hlt n).1 h2⟩
    · rintro ⟨n, h1, h2⟩
      exact ⟨_, ⟨n, h1, rfl⟩, (hlt n).2 h2⟩

/-- C108: a later dim with lengths: all positions are kept. -/
theorem merged_all (s : Size) {ss : List Size} {x : Size} (hx : x ∈ ss) (h : x.lens ≠ none) (b i : Nat) : (mergedSize (s :: ss)).has b i ↔ i < caps (s :: ss) := by
  have hc := merged_cap (s :: ss)
  have hl : (mergedSize (s :: ss)).lens = none := by
    unfold mergedSize
    simp only
    rw [if_pos]
    rw [List.any_eq_true]
    exact ⟨x, hx, by cases hl : x.lens with | none => exact absurd hl h | some l => simp [Size.masked, hl]⟩
  unfold Size.has
  rw [hl]
  simp only
  rw [hc]

/-- The position in the merged dim. -/
def place (ss : List Size) (is : List Nat) : Nat := (ss.zip is).foldl (fun n p => n * p.1.cap + p.2) 0

theorem place_from (ss : List Size) (is : List Nat) (hl : List.Forall₂ (fun (s : Size) i => i < s.cap) ss is) (n : Nat) :
    ∃ r, r < caps ss ∧ (ss.zip is).foldl (fun n p => n * p.1.cap + p.2) n = n * caps ss + r := by
  induction hl generalizing n with
  | nil => exact ⟨0, by simp [caps], by simp [caps]⟩
  | @cons s i ss is h1 _ ih =>
    obtain ⟨r, h2, h3⟩ := ih (n * s.cap + i)
    have hc : caps (s :: ss) = s.cap * caps ss := by simp [caps]
    refine ⟨i * caps ss + r, ?_, ?_⟩
    · rw [hc]
      have := Nat.mul_le_mul_right (caps ss) (Nat.succ_le_of_lt h1)
      rw [Nat.succ_mul] at this
      omega
    · rw [List.zip_cons_cons, List.foldl_cons, h3, hc]
      ring

/-- C108: merging never loses a position which is within the lengths of all the dims. -/
theorem merged_keeps (ss : List Size) (is : List Nat) (b : Nat) (h : List.Forall₂ (fun (s : Size) i => i < s.cap ∧ s.has b i) ss is) : (mergedSize ss).has b (place ss is) := by
  cases h with
  | nil => simp [mergedSize, Size.has, place]
  | @cons s i ss is h1 h2 =>
    have hlt : List.Forall₂ (fun (s : Size) i => i < s.cap) ss is := h2.imp (fun _ _ h => h.1)
    obtain ⟨r, hr, he⟩ := place_from ss is hlt (0 * s.cap + i)
    have hp : place (s :: ss) (i :: is) = i * caps ss + r := by
      unfold place
      rw [List.zip_cons_cons, List.foldl_cons]
      simp only
      rw [he]
      simp
    rw [hp]
    by_cases hall : ∀ x ∈ ss, x.lens = none
    · exact (merged_exact s hall b i r hr).2 h1.2
    · simp only [not_forall] at hall
      obtain ⟨x, hx, hn⟩ := hall
      rw [merged_all s hx hn]
      rw [show caps (s :: ss) = s.cap * caps ss by simp [caps]]
      have := Nat.mul_le_mul_right (caps ss) (Nat.succ_le_of_lt h1.1)
      rw [Nat.succ_mul] at this
      omega

/-- C108 (disagreement): a dim of size 1 before makes the lengths disappear, though the result is the same sequence: position 2 of a sequence of length 1 counts. -/
theorem merged_forgets : ∃ (l : List Nat), (mergedSize [⟨1, none⟩, ⟨3, some l⟩]).has 0 2 ∧ ¬ (⟨3, some l⟩ : Size).has 0 2 :=
  ⟨[1, 3], by simp [mergedSize, Size.has, Size.masked], by simp [Size.has]⟩

/-- C108: what the discarding is for: the product of the sizes alone would lose a valid position and keep a wrong one. -/
theorem product_wrong : ∃ s x : Size, (∃ i j, i < s.cap ∧ s.has 0 i ∧ j < x.cap ∧ x.has 0 j ∧ ¬ (s.mul x).has 0 (place [s, x] [i, j])) ∧ ∃ i j, i < s.cap ∧ j < x.cap ∧ ¬ x.has 0 j ∧ (s.mul x).has 0 (place [s, x] [i, j]) :=
  ⟨⟨2, none⟩, ⟨3, some [1]⟩, ⟨1, 0, by decide, by simp [Size.has], by decide, ⟨1, rfl, by decide⟩, by simp [Size.mul, Size.has, place]⟩, 0, 1, by decide, by decide, by simp [Size.has], ⟨2, rfl, by decide⟩⟩

/-! ### Concrete cases -/

instance {α : Type} (sz : Nat → Nat) (t : Tensor α) : Decidable (Valid sz t) := inferInstanceAs (Decidable (t.raw.shape = _))
instance {α : Type} (t : Tensor α) : Decidable (BinOp.Unique t) := inferInstanceAs (Decidable (List.Nodup _))

private def sz : Nat → Nat | 0 => 2 | 1 => 3 | 2 => 4 | 3 => 12 | 4 => 1 | 5 => 2 | 6 => 5 | _ => 7
private def dim (c : Nat) : Dim := { (default : Dim) with cls := c }
private def t : Tensor Nat := ⟨[dim 0, dim 1, dim 2], none, none, ⟨[2, 3, 4], fun idx => idx.foldl (fun n i => n * 10 + i) 0⟩⟩
private def u : Tensor Nat := ⟨[dim 1, dim 5], none, none, ⟨[3, 2], fun idx => 1000 + idx.foldl (fun n i => n * 10 + i) 0⟩⟩

private theorem t_valid : Valid sz t ∧ BinOp.Unique t ∧ Valid sz u ∧ BinOp.Unique u := ⟨by decide, by decide, by decide, by decide⟩

/-- The values of a tensor at the positions of the raw tensor. -/
private def vals (o : Res (Tensor Nat)) : Option (List Nat × List Nat × List Nat) := match o with
  | .ok o => some (o.dims.map Dim.cls, o.raw.shape, (List.range (numel o.raw.shape)).map (fun n => o.raw.get (unravel o.raw.shape n)))
  | .error _ => none

example : vals (mergeDims sz t [dim 2, dim 1] (dim 3)) = some ([0, 3], [2, 12], [0, 10, 20, 1, 11, 21, 2, 12, 22, 3, 13, 23, 100, 110, 120, 101, 111, 121, 102, 112, 122, 103, 113, 123]) := by decide +kernel
example : ∃ o, mergeDims sz t [dim 2, dim 1] (dim 3) = .ok o ∧ ∀ σ, Within sz σ t.dims → valueAt o (moveTo σ 3 (σ 2 * 3 + σ 1)) = valueAt t σ := by
  obtain ⟨o, _, _, h1, _, _, _, _, _, h2⟩ := merge_right t_valid.1 t_valid.2.1 (ds := [dim 2, dim 1]) (by decide) (by decide) (by decide) (dim 3) (by decide) (by decide)
  refine ⟨o, h1, fun σ hσ => ?_⟩
  have := h2 σ hσ
  simpa [rank, dim, sz] using this
example : ∃ o, mergeDims sz t [dim 2, dim 1] (dim 6) = o ∧ o = .error .valueError := ⟨_, rfl, merge_size t_valid.1 t_valid.2.1 (by decide) (by decide) (by decide) _ (by decide) (by decide)⟩
example : ∃ o o', mergeDims sz t [dim 2, dim 1] (dim 3) = .ok o ∧ splitDims sz o (dim 3) [dim 2, dim 1] = .ok o' ∧ ∀ σ, Within sz σ t.dims → valueAt o' σ = valueAt t σ :=
  split_merge t_valid.1 t_valid.2.1 (by decide) (by decide) (by decide) (dim 3) (by decide) (by decide)
example : vals (splitDims sz t (dim 2) [dim 5, dim 5]) = some ([0, 1, 5, 5], [2, 3, 2, 2], vals (.ok t) |>.get!.2.2) := by decide +kernel
example : ∃ os, split sz u (dim 1) [dim 4, dim 5] = .ok os ∧ os.length = 2 := by
  obtain ⟨os, h1, h2, _⟩ := split_right t_valid.2.2.1 t_valid.2.2.2 (axis := dim 1) (by decide) [dim 4, dim 0] (by decide)
  obtain ⟨os, h1, h2, _⟩ := split_right t_valid.2.2.1 t_valid.2.2.2 (axis := dim 1) (by decide) [dim 4, dim 5] (by decide)
  exact ⟨os, h1, h2⟩
example : ∃ os s0 ss o, split sz t (dim 1) [dim 4, dim 5] = .ok os ∧ os.zip [dim 4, dim 5] = s0 :: ss ∧ concat sz (fun _ => false) s0 ss false true (dim 1) = .ok o ∧ classes o.dims = classes t.dims ∧ ∀ σ, Within sz σ t.dims → valueAt o σ = valueAt t σ :=
  concat_split t_valid.1 t_valid.2.1 (by decide) _ true (by decide) (by decide) (by decide) (by simp)
example : concat sz (fun _ => false) (t, dim 0) [(u, dim 5)] false true (dim 6) = .error .assertion := concat_lacks _ _ _ _ _ _ (s := (u, dim 5)) (by simp) (c := 2) (by decide)
private def four : Nat → Nat | 7 => 4 | n => sz n
example : vals (concat four (fun _ => false) (u, dim 5) [(t, dim 0)] true true (dim 7)) =
    some ([1, 7, 2], [3, 4, 4], [1000, 1000, 1000, 1000, 1001, 1001, 1001, 1001, 0, 1, 2, 3, 100, 101, 102, 103, 1010, 1010, 1010, 1010, 1011, 1011, 1011, 1011, 10, 11, 12, 13, 110, 111, 112, 113,
      1020, 1020, 1020, 1020, 1021, 1021, 1021, 1021, 20, 21, 22, 23, 120, 121, 122, 123]) := by decide +kernel
example : ∃ o e, concat four (fun _ => false) (u, dim 5) [(t, dim 0)] true true (dim 7) = .ok o ∧ o.dims = swapDim u.dims 5 [dim 7] ++ e := by
  obtain ⟨o, e, h1, _, _, h2, _⟩ := concat_right (sz := four) (fun _ => false) (u, dim 5) [(t, dim 0)] true true (dim 7) (by decide) (by decide) (by decide) (by simp) (by simp) (by decide)
  exact ⟨o, e, h1, h2⟩
private def u' : Tensor Nat := ⟨[dim 5, dim 1], none, none, ⟨[2, 3], fun idx => 2000 + idx.foldl (fun n i => n * 10 + i) 0⟩⟩
example : vals (stack u [u', u] (dim 1 |> fun _ => dim 6)) = some ([6, 1, 5], [3, 3, 2], [1000, 1001, 1010, 1011, 1020, 1021, 2000, 2010, 2001, 2011, 2002, 2012, 1000, 1001, 1010, 1011, 1020, 1021]) := by decide +kernel
example : ∃ o, stack u [u'] (dim 0) = .ok o ∧ Valid sz o := by
  obtain ⟨o, h1, _, _, h2, _⟩ := stack_right (sz := sz) u [u'] (dim 0) (by
    intro s hs
    rcases List.mem_cons.1 hs with rfl | hs
    · exact ⟨by decide, by decide, fun _ => Iff.rfl⟩
    · rw [List.mem_singleton] at hs
      subst hs
      exact ⟨by decide, by decide, fun c => by simp [u, u', classes, or_comm]⟩) (by decide)
  exact ⟨o, h1, h2.2 (by decide)⟩
example : ∀ o, stack u [t] (dim 6) ≠ .ok o := stack_raises (sz := sz) u [t] (dim 6) (by decide) (s := t) (by simp) (.inr ⟨dim 0, by decide, by decide⟩)
example : vals (expandDim sz (fun d => d.cls == 0) u (dim 0)) = some ([1, 5, 0], [3, 2, 2], [1000, 1000, 1001, 1001, 1010, 1010, 1011, 1011, 1020, 1020, 1021, 1021]) := by decide +kernel
example : ∃ o, expandDim sz (fun _ => false) u (dim 4) = .ok o ∧ Valid sz o := by
  obtain ⟨o, _, _, h1, _, _, h2, _⟩ := expand_right (sz := sz) (fun _ => false) (d := dim 4) t_valid.2.2.1 (by simp [u]) (by decide)
  exact ⟨o, h1, h2⟩
example : (mergedSize [⟨3, some [1, 3]⟩, ⟨2, none⟩]).has 0 1 ∧ ¬ (mergedSize [⟨3, some [1, 3]⟩, ⟨2, none⟩]).has 0 2 := by
  constructor
  · exact (merged_exact ⟨3, some [1, 3]⟩ (ss := [⟨2, none⟩]) (by simp) 0 0 1 (by decide)).2 ⟨1, rfl, by decide⟩
  · intro h
    have := (merged_exact ⟨3, some [1, 3]⟩ (ss := [⟨2, none⟩]) (by simp) 0 1 0 (by decide)).1 h
    simp [Size.has] at this

end Verif.RfShape
