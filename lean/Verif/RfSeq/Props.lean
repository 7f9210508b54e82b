import Verif.RfSeq.Model
import Mathlib.Data.List.GetD
/-
C68: pad, slice, shift and reverse on padded sequences do for each sequence what they do for this sequence alone.
-/
namespace Verif.RfSeq
open Verif.Py

/-! ### Specification -/

/-- The sequences, without padding. -/
def Padded.valid {α : Type} (x : Padded α) : List (List α) := x.seqs.map (fun p => p.2.take p.1)

/-- The raw tensor fits to the dims. -/
def Padded.Ok {α : Type} (x : Padded α) : Prop := ∀ p ∈ x.seqs, p.2.length = x.T ∧ p.1 ≤ x.T ∧ (x.masked = false → p.1 = x.T)

/-! ### Lemmas -/

theorem mapM_ok {ε α β : Type} {f : α → Except ε β} {g : α → β} : ∀ (l : List α), (∀ x ∈ l, f x = .ok (g x)) → l.mapM f = .ok (l.map g)
  | [], _ => rfl
  | a :: l, h => by
    rw [List.mapM_cons, h a List.mem_cons_self, mapM_ok l (fun x hx => h x (List.mem_cons_of_mem _ hx))]
    rfl

theorem mapM_error {ε α β : Type} {f : α → Except ε β} {e : ε} : ∀ (l : List α), (∀ x ∈ l, f x = .error e) → l ≠ [] → l.mapM f = .error e
  | [], _, hne => (hne rfl).elim
  | a :: l, h, _ => by
    rw [List.mapM_cons, h a List.mem_cons_self]
    rfl

theorem getElem?_whereBefore {α : Type} (n : Nat) (v : α) (row : List α) (i : Nat) :
    (whereBefore n v row)[i]? = if i < n then row[i]? else (if i < row.length then some v else none) := by
  unfold whereBefore
  rw [List.getElem?_mapIdx]
  by_cases h : i < row.length
  · rw [List.getElem?_eq_getElem h]
    by_cases h' : i < n <;> simp [h, h']
  · rw [List.getElem?_eq_none (Nat.le_of_not_lt h)]
    by_cases h' : i < n <;> simp [h, h']

theorem length_whereBefore {α : Type} (n : Nat) (v : α) (row : List α) : (whereBefore n v row).length = row.length := by
  unfold whereBefore; simp

theorem length_padRaw {α : Type} (l r : Nat) (v : α) (row : List α) : (padRaw l r v row).length = l + row.length + r := by
  unfold padRaw; simp; omega

theorem getElem?_replicate' {α : Type} (n : Nat) (v : α) (i : Nat) : (List.replicate n v)[i]? = if i < n then some v else none := by
  rw [List.getElem?_replicate]

theorem getElem?_padRaw {α : Type} (l r : Nat) (v : α) (row : List α) (i : Nat) :
    (padRaw l r v row)[i]? = if i < l then some v else if i < l + row.length then row[i - l]? else if i < l + row.length + r then some v else none := by
  unfold padRaw
  rw [List.append_assoc, List.getElem?_append, List.length_replicate]
  by_cases h1 : i < l
  · rw [if_pos h1, if_pos h1, getElem?_replicate', if_pos h1]
  · rw [if_neg h1, if_neg h1, List.getElem?_append]
    by_cases h2 : i < l + row.length
    · rw [if_pos (by omega), if_pos h2]
    · rw [if_neg (by omega), if_neg h2, getElem?_replicate']
      by_cases h3 : i < l + row.length + r
      · rw [if_pos h3, if_pos (by omega)]
      · rw [if_neg h3, if_neg (by omega)]

/-- The valid part after `pad` with mask. -/
theorem take_padded {α : Type} (l R r n : Nat) (v : α) (row : List α) (hn : n ≤ row.length) (hr : r ≤ R) :
    (whereBefore (l + n) v (padRaw l R v row)).take (l + n + r) = List.replicate l v ++ row.take n ++ List.replicate r v := by
  apply List.ext_getElem?
  intro i
  rw [List.getElem?_take, getElem?_whereBefore, length_padRaw, getElem?_padRaw]
  rw [show List.replicate l v ++ row.take n ++ List.replicate r v = padRaw l r v (row.take n) from rfl, getElem?_padRaw, List.length_take, Nat.min_eq_left hn,
    List.getElem?_take]
  by_cases h1 : i < l
  · rw [if_pos (by omega), if_pos (by omega), if_pos h1, if_pos h1]
  · rw [if_neg h1, if_neg h1]
    by_cases h2 : i < l + n
    · rw [if_pos (by omega), if_pos h2, if_pos (by omega), if_pos h2, if_pos (by omega)]
    · rw [if_neg h2, if_neg h2]
      by_cases h3 : i < l + n + r
      · rw [if_pos h3, if_pos h3, if_pos (by omega)]
      · rw [if_neg h3, if_neg h3]

/-- The same without mask, if nothing is added right or there is no padding. -/
theorem take_padded_full {α : Type} (l R r n : Nat) (v : α) (row : List α) (hn : n ≤ row.length) (hr : r ≤ R) (h : R = 0 ∨ n = row.length) :
    (padRaw l R v row).take (l + n + r) = List.replicate l v ++ row.take n ++ List.replicate r v := by
  apply List.ext_getElem?
  intro i
  rw [List.getElem?_take, getElem?_padRaw]
  rw [show List.replicate l v ++ row.take n ++ List.replicate r v = padRaw l r v (row.take n) from rfl, getElem?_padRaw, List.length_take, Nat.min_eq_left hn,
    List.getElem?_take]
  by_cases h1 : i < l
  · rw [if_pos (by omega), if_pos h1, if_pos h1]
  · rw [if_neg h1, if_neg h1]
    by_cases h2 : i < l + n
    · rw [if_pos (by omega), if_pos (by omega), if_pos h2, if_pos (by omega)]
    · rw [if_neg h2]
      by_cases h3 : i < l + n + r
      · rw [if_pos h3, if_pos h3, if_neg (by omega), if_pos (by omega)]
      · rw [if_neg h3, if_neg h3]

/-! ### pad -/

/-- The padding of the sequences is added at their end (the specification for `pad`). -/
def padSeq {α : Type} (left : Nat) (v : α) (s : List α) (r : Nat) : List α := List.replicate left v ++ s ++ List.replicate r v

/-- C68: `pad`, with `handle_dynamic_dims` or where it makes no difference. -/
theorem pad_valid {α : Type} [Inhabited α] (x : Padded α) (hx : x.Ok) (left R : Nat) (rs : List Nat) (v : α) (handle : Bool) (hlen : rs.length = x.seqs.length)
    (hrs : ∀ r ∈ rs, r ≤ R) (hh : handle = true ∨ x.masked = false ∨ R = 0) :
    ∃ y, pad x left R rs (some v) handle = .ok y ∧ y.Ok ∧ y.T = left + x.T + R ∧ y.seqs.map Prod.fst = List.zipWith (fun n r => left + n + r) (x.seqs.map Prod.fst) rs ∧
      y.valid = List.zipWith (padSeq left v) x.valid rs := by
  let g : (Nat × List α) → List α := fun p => if handle && x.masked && R != 0 then whereBefore (left + p.1) v (padRaw left R v p.2) else padRaw left R v p.2
  have hrow : ∀ p : (Nat × List α) × Nat, (padRow x.masked handle left R (some v) p.1.1 p.1.2).map (fun row => (left + p.1.1 + p.2, row)) = .ok (left + p.1.1 + p.2, g p.1) := by
    intro p
    unfold padRow
    by_cases h : (handle && x.masked && R != 0) = true
    · rw [if_pos h]
      simp only [g, if_pos h]
      rfl
    · rw [if_neg h]
      simp only [g, if_neg h]
      rfl
  have glen : ∀ p : Nat × List α, (g p).length = left + p.2.length + R := by
    intro p
    simp only [g]
    split
    · rw [length_whereBefore, length_padRaw]
    · rw [length_padRaw]
  refine ⟨{ T := left + x.T + R, masked := x.masked || rs.any (fun r => r != R), seqs := (x.seqs.zip rs).map (fun p => (left + p.1.1 + p.2, g p.1)) }, ?_, ?_, rfl, ?_, ?_⟩
  · unfold pad
    rw [mapM_ok _ (fun p _ => hrow p)]
    rfl
  · intro q hq
    obtain ⟨p, hp, rfl⟩ := List.mem_map.1 hq
    obtain ⟨h1, h2, h3⟩ := hx p.1 (List.of_mem_zip hp).1
    have hr := hrs p.2 (List.of_mem_zip hp).2
    refine ⟨?_, ?_, ?_⟩
    · simp only [glen, h1]
    · simp only []; omega
    · intro hm
      simp only [Bool.or_eq_false_iff, List.any_eq_false, bne_iff_ne, ne_eq, Decidable.not_not] at hm
      have := hm.2 p.2 (List.of_mem_zip hp).2
      have := h3 hm.1
      simp only []; omega
  · simp only [List.map_map]
    rw [← List.map_uncurry_zip_eq_zipWith, List.zip_map_left, List.map_map]
    rfl
  · unfold Padded.valid
    simp only [List.map_map]
    rw [← List.map_uncurry_zip_eq_zipWith, List.zip_map_left, List.map_map]
    apply List.map_congr_left
    intro p hp
    obtain ⟨h1, h2, h3⟩ := hx p.1 (List.of_mem_zip hp).1
    have hr := hrs p.2 (List.of_mem_zip hp).2
    simp only [Function.comp_apply, Function.uncurry, padSeq, g, Prod.map_fst, Prod.map_snd, id_eq]
    by_cases h : (handle && x.masked && R != 0) = true
    · rw [if_pos h]
      exact take_padded left R p.2 p.1.1 v p.1.2 (by omega) hr
    · rw [if_neg h]
      refine take_padded_full left R p.2 p.1.1 v p.1.2 (by omega) hr ?_
      by_cases hR : R = 0
      · exact Or.inl hR
      · right
        have hm : x.masked = false := by
          cases hm : x.masked with
          | false => rfl
          | true =>
            exfalso
            rcases hh with hh | hh | hh
            · apply h; simp [hh, hm, hR]
            · rw [hh] at hm; cases hm
            · exact hR hh
        rw [h3 hm, h1]

theorem zipWith_replicate_right {α β γ : Type} (f : α → β → γ) (l : List α) (b : β) (n : Nat) (h : l.length = n) : List.zipWith f l (List.replicate n b) = l.map (fun a => f a b) := by
  subst h
  induction l with
  | nil => rfl
  | cons a l ih => simp [List.replicate_succ, ih]

/-- C68: `pad` with ints. -/
theorem padInt_valid {α : Type} [Inhabited α] (x : Padded α) (hx : x.Ok) (left right : Nat) (v : α) (handle : Bool) (hh : handle = true ∨ x.masked = false ∨ right = 0) :
    ∃ y, padInt x left right (some v) handle = .ok y ∧ y.Ok ∧ y.T = left + x.T + right ∧ y.seqs.map Prod.fst = (x.seqs.map Prod.fst).map (fun n => left + n + right) ∧
      y.valid = x.valid.map (fun s => padSeq left v s right) := by
  obtain ⟨y, h1, h2, h3, h4, h5⟩ := pad_valid x hx left right (x.seqs.map (fun _ => right)) v handle (by simp) (by intro r hr; obtain ⟨_, _, rfl⟩ := List.mem_map.1 hr; exact Nat.le_refl _) hh
  refine ⟨y, h1, h2, h3, ?_, ?_⟩
  · rw [h4, List.map_const', zipWith_replicate_right _ _ _ _ (by simp)]
  · rw [h5, List.map_const', zipWith_replicate_right _ _ _ _ (by simp [Padded.valid])]

/-- C68, refuted for the default value: without `value`, `pad` raises on an axis which needs masking. -/
theorem pad_no_value {α : Type} [Inhabited α] (x : Padded α) (hm : x.masked = true) (hne : x.seqs ≠ []) (left right : Nat) (hr : right ≠ 0) :
    padInt x left right none true = .error .typeError := by
  unfold padInt pad
  have hrow : ∀ p ∈ x.seqs.zip (x.seqs.map (fun _ => right)), (padRow x.masked true left right (none : Option α) p.1.1 p.1.2).map (fun row => (left + p.1.1 + p.2, row)) = .error .typeError := by
    intro p _
    unfold padRow
    rw [if_pos (by simp [hm, hr])]
    rfl
  rw [mapM_error _ hrow]
  · rfl
  · intro h
    have := congrArg List.length h
    simp at this
    exact hne this

def exBatch : Padded Nat := { T := 4, masked := true, seqs := [(4, [1, 2, 3, 4]), (2, [5, 6, 91, 92]), (1, [7, 93, 94, 95])] }

theorem exBatch_ok : exBatch.Ok := by
  intro p hp
  simp only [exBatch, List.mem_cons, List.not_mem_nil, or_false] at hp
  rcases hp with rfl | rfl | rfl <;> decide

example : exBatch.valid = [[1, 2, 3, 4], [5, 6], [7]] := rfl

example : (padInt exBatch 1 2 (some 0) true).map Padded.valid = .ok [[0, 1, 2, 3, 4, 0, 0], [0, 5, 6, 0, 0], [0, 7, 0, 0]] := rfl

/-- Without `handle_dynamic_dims` (the default for old behavior versions) the padding values of the tensor get inside of the sequences. -/
theorem pad_not_handled : (padInt exBatch 1 2 (some 0) false).map Padded.valid = .ok [[0, 1, 2, 3, 4, 0, 0], [0, 5, 6, 91, 92], [0, 7, 93, 94]] := rfl

/-! ### slice -/

theorem narrow_ok {α : Type} (row : List α) (s l : Nat) (h : s + l ≤ row.length) : narrow row (s : Int) (l : Int) = .ok ((row.drop s).take l) := by
  unfold narrow
  have h0 : ¬ ((s : Int) < 0) := by omega
  simp only [if_neg h0]
  rw [if_pos (by omega)]
  simp

/-- C68: `x[s:]`: the first frames of each sequence are removed. -/
theorem slice_from_valid {α : Type} (x : Padded α) (hx : x.Ok) (s : Nat) (hs : s ≤ x.T) (step : Option Nat) (hstep : step = none ∨ step = some 1) :
    ∃ y, slice x (some (s : Int)) none step none = .ok y ∧ y.Ok ∧ y.T = x.T - s ∧ y.valid = x.valid.map (List.drop s) := by
  have hcd : ∀ n, ceildiv n step = n := by
    intro n
    rcases hstep with rfl | rfl <;> simp [ceildiv]
  have h0 : step ≠ some 0 := by rcases hstep with rfl | rfl <;> simp
  have hlen : ∀ n : Nat, sliceLen (s : Int) none n = .ok (n - s) := by
    intro n
    unfold sliceLen
    rw [if_pos (by omega)]
    simp
  have hrow : ∀ p ∈ x.seqs, sliceEndRow x.T (s : Int) none step p = .ok (p.1 - s, p.2.drop s) := by
    intro p hp
    obtain ⟨h1, h2, h3⟩ := hx p hp
    unfold sliceEndRow
    rw [hlen]
    have e : ((none : Option Int).getD (x.T : Int) - (s : Int)) = ((x.T - s : Nat) : Int) := by simp only [Option.getD_none]; omega
    rw [e, narrow_ok p.2 s (x.T - s) (by omega)]
    simp only [bind, Except.bind, pure, Except.pure, hcd]
    rw [List.take_of_length_le (by rw [List.length_drop]; omega)]
  refine ⟨{ T := x.T - s, masked := x.masked, seqs := x.seqs.map (fun p => (p.1 - s, p.2.drop s)) }, ?_, ?_, rfl, ?_⟩
  · unfold slice
    rw [if_neg h0]
    simp only [Option.getD_some]
    unfold sliceByEnd
    rw [hlen, mapM_ok _ hrow]
    simp [bind, Except.bind, pure, Except.pure, hcd, sliceDyn]
  · intro q hq
    obtain ⟨p, hp, rfl⟩ := List.mem_map.1 hq
    obtain ⟨h1, h2, h3⟩ := hx p hp
    refine ⟨by simp [h1], by simp only []; omega, fun hm => by have := h3 hm; simp only []; omega⟩
  · unfold Padded.valid
    simp only [List.map_map]
    apply List.map_congr_left
    intro p hp
    simp only [Function.comp_apply]
    rw [List.drop_take]

/-- C68: `x[s:e]` with `0 ≤ s ≤ e`, for sequences which are long enough. -/
theorem slice_range_valid {α : Type} (x : Padded α) (hx : x.Ok) (s e : Nat) (hse : s ≤ e) (he : e ≤ x.T) (hlong : ∀ p ∈ x.seqs, e ≤ p.1) :
    ∃ y, slice x (some (s : Int)) (some (e : Int)) none none = .ok y ∧ y.Ok ∧ y.T = e - s ∧ y.valid = x.valid.map (fun q => (q.take e).drop s) := by
  have hlen : ∀ n : Nat, sliceLen (s : Int) (some (e : Int)) n = .ok (e - s) := by
    intro n
    unfold sliceLen
    rw [if_pos (by omega)]
    simp only []
    rw [if_neg (by omega)]
    congr 1
    omega
  have hrow : ∀ p ∈ x.seqs, sliceEndRow x.T (s : Int) (some (e : Int)) none p = .ok (e - s, (p.2.drop s).take (e - s)) := by
    intro p hp
    obtain ⟨h1, h2, h3⟩ := hx p hp
    unfold sliceEndRow
    rw [hlen]
    have e' : ((some (e : Int)).getD (x.T : Int) - (s : Int)) = ((e - s : Nat) : Int) := by simp only [Option.getD_some]; omega
    rw [e', narrow_ok p.2 s (e - s) (by omega)]
    rfl
  refine ⟨{ T := e - s, masked := false, seqs := x.seqs.map (fun p => (e - s, (p.2.drop s).take (e - s))) }, ?_, ?_, rfl, ?_⟩
  · unfold slice
    rw [if_neg (by simp)]
    simp only [Option.getD_some]
    unfold sliceByEnd
    rw [hlen, mapM_ok _ hrow]
    have hd : sliceDyn (s : Int) (some (e : Int)) = false := by
      unfold sliceDyn
      simp only [Bool.and_eq_false_iff, decide_eq_false_iff_not]
      right; omega
    simp [bind, Except.bind, pure, Except.pure, ceildiv, hd]
  · intro q hq
    obtain ⟨p, hp, rfl⟩ := List.mem_map.1 hq
    obtain ⟨h1, h2, h3⟩ := hx p hp
    refine ⟨by simp [h1]; omega, Nat.le_refl _, fun _ => rfl⟩
  · unfold Padded.valid
    simp only [List.map_map]
    apply List.map_congr_left
    intro p hp
    have := hlong p hp
    simp only [Function.comp_apply]
    rw [List.take_take, List.take_take, Nat.min_self, Nat.min_eq_left this, List.drop_take]

/-- C68: `x[s:s+m]` by a size, for sequences which are long enough. -/
theorem slice_size_valid {α : Type} (x : Padded α) (hx : x.Ok) (s m : Nat) (hT : s + m ≤ x.T) (hlong : ∀ p ∈ x.seqs, s + m ≤ p.1) (step : Option Nat) (hstep : step = none ∨ step = some 1) :
    ∃ y, slice x (some (s : Int)) none step (some (.int m)) = .ok y ∧ y.Ok ∧ y.T = m ∧ y.valid = x.valid.map (fun q => (q.drop s).take m) := by
  have h0 : step ≠ some 0 := by rcases hstep with rfl | rfl <;> simp
  have hz : x.seqs.zip (x.seqs.map (fun _ => m)) = x.seqs.map (fun p => (p, m)) := by
    have := List.zip_map' (f := fun p : Nat × List α => p) (g := fun _ : Nat × List α => m) (l := x.seqs)
    simpa using this
  refine ⟨{ T := m, masked := false, seqs := x.seqs.map (fun p => (m, (p.2.drop s).take m)) }, ?_, ?_, rfl, ?_⟩
  · unfold slice
    rw [if_neg h0]
    simp only [Option.getD_some]
    rw [if_pos ⟨hstep, trivial⟩]
    unfold sliceBySize
    simp only [sizeOf]
    rw [hz, mapM_ok (g := fun p => (p.2, (p.1.2.drop s).take m))]
    · simp [bind, Except.bind, pure, Except.pure]
    · intro p hp
      obtain ⟨q, hq, rfl⟩ := List.mem_map.1 hp
      rw [narrow_ok q.2 s m (by rw [(hx q hq).1]; exact hT)]
      rfl
  · intro q hq
    obtain ⟨p, hp, rfl⟩ := List.mem_map.1 hq
    obtain ⟨h1, h2, h3⟩ := hx p hp
    refine ⟨by simp [h1]; omega, Nat.le_refl _, fun _ => rfl⟩
  · unfold Padded.valid
    simp only [List.map_map]
    apply List.map_congr_left
    intro p hp
    have := hlong p hp
    simp only [Function.comp_apply]
    rw [List.take_take, Nat.min_self, List.drop_take, List.take_take, Nat.min_eq_left (by omega)]

/-- C68: `x[-s:-e]` on an axis without padding. -/
theorem slice_neg_neg_valid {α : Type} (x : Padded α) (hx : x.Ok) (hm : x.masked = false) (s e : Nat) (he : 0 < e) (hse : e ≤ s) (hs : s ≤ x.T) :
    ∃ y, slice x (some (-(s : Int))) (some (-(e : Int))) none none = .ok y ∧ y.Ok ∧ y.T = s - e ∧ y.valid = x.valid.map (fun q => (q.take (q.length - e)).drop (q.length - s)) := by
  have hlen : ∀ n : Nat, sliceLen (-(s : Int)) (some (-(e : Int))) n = .ok (s - e) := by
    intro n
    unfold sliceLen
    rw [if_neg (by omega)]
    simp only []
    rw [if_pos (by omega)]
    congr 1
    omega
  have hrow : ∀ p ∈ x.seqs, sliceEndRow x.T (-(s : Int)) (some (-(e : Int))) none p = .ok (s - e, (p.2.drop (x.T - s)).take (s - e)) := by
    intro p hp
    obtain ⟨h1, h2, h3⟩ := hx p hp
    unfold sliceEndRow
    rw [hlen]
    unfold narrow
    have h0 : (-(s : Int) < 0) := by omega
    simp only [Option.getD_some, if_pos h0, bind, Except.bind]
    rw [if_pos (by omega)]
    have e1 : (-(s : Int) + (p.2.length : Int)).toNat = x.T - s := by omega
    have e2 : (-(e : Int) - -(s : Int)).toNat = s - e := by omega
    rw [e1, e2]
    rfl
  refine ⟨{ T := s - e, masked := false, seqs := x.seqs.map (fun p => (s - e, (p.2.drop (x.T - s)).take (s - e))) }, ?_, ?_, rfl, ?_⟩
  · unfold slice
    rw [if_neg (by simp)]
    simp only [Option.getD_some]
    unfold sliceByEnd
    rw [hlen, mapM_ok _ hrow]
    simp [bind, Except.bind, pure, Except.pure, ceildiv, hm]
  · intro q hq
    obtain ⟨p, hp, rfl⟩ := List.mem_map.1 hq
    obtain ⟨h1, h2, h3⟩ := hx p hp
    refine ⟨by simp [h1]; omega, Nat.le_refl _, fun _ => rfl⟩
  · unfold Padded.valid
    simp only [List.map_map]
    apply List.map_congr_left
    intro p hp
    obtain ⟨h1, h2, h3⟩ := hx p hp
    have hn := h3 hm
    simp only [Function.comp_apply]
    rw [List.take_take, Nat.min_self, hn, List.take_of_length_le (l := p.2) (i := x.T) (by omega), h1, List.drop_take]
    congr 1
    omega

/-- C68: wrong arguments raise: step 0, an end or a step together with a size, and a negative start with an end from the beginning. -/
theorem slice_errors {α : Type} (x : Padded α) (start stop : Option Int) (step : Option Nat) (sz : SliceSize) :
    slice x start stop (some 0) none = .error .valueError ∧
    (step ≠ some 0 → (stop ≠ none ∨ ∃ k, step = some (k + 2)) → slice x start stop step (some sz) = .error .assertion) ∧
    (∀ s e : Nat, 0 < s → slice x (some (-(s : Int))) (some (e : Int)) none none = .error .assertion) := by
  refine ⟨rfl, ?_, ?_⟩
  · intro h0 h
    unfold slice
    rw [if_neg h0]
    simp only []
    rw [if_neg]
    rintro ⟨h1, h2⟩
    rcases h with h | ⟨k, hk⟩
    · exact h h2
    · rw [hk] at h1; simp at h1
  · intro s e hs
    unfold slice
    rw [if_neg (by simp)]
    simp only [Option.getD_some]
    unfold sliceByEnd sliceLen
    rw [if_neg (by omega)]
    simp only []
    rw [if_neg (by omega)]
    rfl

/-- C68, refuted for `step`: the frames are not skipped, and the raw tensor does not fit to its dim any more. -/
theorem slice_step_wrong {α : Type} (x : Padded α) (hx : x.Ok) (s k : Nat) (hk : 2 ≤ k) (hs : s + 2 ≤ x.T) (hne : x.seqs ≠ []) :
    ∃ y, slice x (some (s : Int)) none (some k) none = .ok y ∧ y.seqs.map Prod.snd = x.seqs.map (fun p => p.2.drop s) ∧ ¬ y.Ok := by
  have hlen : ∀ n : Nat, sliceLen (s : Int) none n = .ok (n - s) := by
    intro n
    unfold sliceLen
    rw [if_pos (by omega)]
    simp
  have hrow : ∀ p ∈ x.seqs, sliceEndRow x.T (s : Int) none (some k) p = .ok (ceildiv (p.1 - s) (some k), p.2.drop s) := by
    intro p hp
    obtain ⟨h1, h2, h3⟩ := hx p hp
    unfold sliceEndRow
    rw [hlen]
    have e : ((none : Option Int).getD (x.T : Int) - (s : Int)) = ((x.T - s : Nat) : Int) := by simp only [Option.getD_none]; omega
    rw [e, narrow_ok p.2 s (x.T - s) (by omega)]
    simp only [bind, Except.bind, pure, Except.pure]
    rw [List.take_of_length_le (by rw [List.length_drop]; omega)]
  refine ⟨{ T := ceildiv (x.T - s) (some k), masked := x.masked, seqs := x.seqs.map (fun p => (ceildiv (p.1 - s) (some k), p.2.drop s)) }, ?_, ?_, ?_⟩
  · unfold slice
    rw [if_neg (by simp; omega)]
    simp only [Option.getD_some]
    unfold sliceByEnd
    rw [hlen, mapM_ok _ hrow]
    simp [bind, Except.bind, pure, Except.pure, sliceDyn]
  · simp
  · intro hok
    obtain ⟨p, hp⟩ := List.exists_mem_of_ne_nil _ hne
    obtain ⟨h1, h2, h3⟩ := hx p hp
    have := (hok _ (List.mem_map.2 ⟨p, hp, rfl⟩)).1
    simp only [List.length_drop, h1, ceildiv] at this
    have hlt : (x.T - s + k - 1) / k < x.T - s := by
      rw [Nat.div_lt_iff_lt_mul (by omega)]
      have : (x.T - s) * 2 ≤ (x.T - s) * k := Nat.mul_le_mul_left _ hk
      have : (x.T - s - 1) * 1 ≤ (x.T - s - 1) * (k - 1) := Nat.mul_le_mul_left _ (by omega)
      obtain ⟨m, hm⟩ : ∃ m, x.T - s = m + 2 := ⟨x.T - s - 2, by omega⟩
      obtain ⟨j, hj⟩ : ∃ j, k = j + 2 := ⟨k - 2, by omega⟩
      rw [hm, hj]
      have e : (m + 2) * (j + 2) = m * j + 2 * m + 2 * j + 4 := by
        rw [Nat.add_mul, Nat.mul_add, Nat.mul_add]; omega
      rw [e]
      omega
    omega

/-- C68, refuted for negative ends: `x[s:-e]` always raises. -/
theorem slice_neg_end {α : Type} (x : Padded α) (hne : x.seqs ≠ []) (s e : Nat) (he : 0 < e) :
    slice x (some (s : Int)) (some (-(e : Int))) none none = .error (.other "narrow") := by
  have hrow : ∀ p ∈ x.seqs, sliceEndRow x.T (s : Int) (some (-(e : Int))) none p = .error (.other "narrow") := by
    intro p _
    unfold sliceEndRow sliceLen
    rw [if_pos (by omega)]
    simp only []
    rw [if_pos (by omega)]
    unfold narrow
    simp only [Option.getD_some]
    rw [if_neg (by omega)]
    rfl
  unfold slice
  rw [if_neg (by simp)]
  simp only [Option.getD_some]
  unfold sliceByEnd
  rw [mapM_error _ hrow hne]
  unfold sliceLen
  rw [if_pos (by omega)]
  simp only []
  rw [if_pos (by omega)]
  rfl

/-- C68, refuted for a negative start: `x[-s:]` always raises. -/
theorem slice_neg_start {α : Type} (x : Padded α) (hx : x.Ok) (hne : x.seqs ≠ []) (s : Nat) (hs : 0 < s) :
    slice x (some (-(s : Int))) none none none = .error (.other "narrow") := by
  have hrow : ∀ p ∈ x.seqs, sliceEndRow x.T (-(s : Int)) none none p = .error (.other "narrow") := by
    intro p hp
    obtain ⟨h1, _, _⟩ := hx p hp
    unfold sliceEndRow sliceLen
    rw [if_neg (by omega)]
    simp only [bind, Except.bind]
    unfold narrow
    have h0 : (-(s : Int) < 0) := by omega
    simp only [Option.getD_none, if_pos h0]
    rw [if_neg (by omega)]
  unfold slice
  rw [if_neg (by simp)]
  simp only [Option.getD_some]
  unfold sliceByEnd
  rw [mapM_error _ hrow hne]
  unfold sliceLen
  rw [if_neg (by omega)]
  rfl

example : (slice exBatch (some 1) none none none).map Padded.valid = .ok [[2, 3, 4], [6], []] := rfl
example : (slice exBatch (some 1) none (some 2) none) = .ok { T := 2, masked := true, seqs := [(2, [2, 3, 4]), (1, [6, 91, 92]), (0, [93, 94, 95])] } := rfl

/-! ### shift -/

theorem sliceBySize_ok {α : Type} (x y : Padded α) (s : Nat) (hrows : ∀ p ∈ y.seqs, s + x.T ≤ p.2.length) (hlen : y.seqs.length = x.seqs.length) :
    slice y (if s = 0 then none else some (s : Int)) none none (some (axisSize x)) =
      .ok { T := x.T, masked := x.masked, seqs := (y.seqs.zip (x.seqs.map Prod.fst)).map (fun p => (p.2, (p.1.2.drop s).take x.T)) } := by
  have hst : (if s = 0 then none else some (s : Int)).getD 0 = (s : Int) := by
    by_cases h : s = 0
    · simp [h]
    · simp [h]
  unfold slice
  rw [if_neg (by simp)]
  simp only [true_or, and_self, if_true]
  rw [hst]
  unfold sliceBySize
  simp only [sizeOf, axisSize]
  rw [mapM_ok (g := fun p => (p.2, (p.1.2.drop s).take x.T))]
  · rfl
  · intro p hp
    rw [narrow_ok p.1.2 s x.T (hrows p.1 (List.of_mem_zip hp).1)]
    rfl

theorem seqs_fst_of_ok {α : Type} {x : Padded α} (hx : x.Ok) {p : Nat × List α} (hp : p ∈ x.seqs) : (p.2.take p.1).length = p.1 := by
  obtain ⟨h1, h2, _⟩ := hx p hp
  rw [List.length_take]; omega

theorem zip_seqs {α β : Type} {x : List β} {f : β → Nat} {g : β → List α} {y : List (Nat × List α)} (h : y = x.map (fun p => (f p, g p))) (k : β → Nat) :
    y.zip (x.map k) = x.map (fun p => ((f p, g p), k p)) := by
  subst h
  rw [List.zip_map']

/-- The rows after `padInt`. -/
theorem padInt_rows {α : Type} [Inhabited α] (x : Padded α) (left right : Nat) (v : α) (handle : Bool) :
    ∃ m, padInt x left right (some v) handle = .ok { T := left + x.T + right, masked := m, seqs := x.seqs.map (fun p => (left + p.1 + right,
      if handle && x.masked && right != 0 then whereBefore (left + p.1) v (padRaw left right v p.2) else padRaw left right v p.2)) } := by
  refine ⟨x.masked || (x.seqs.map (fun _ => right)).any (fun r => r != right), ?_⟩
  unfold padInt pad
  rw [mapM_ok (g := fun p => (left + p.1.1 + p.2, if handle && x.masked && right != 0 then whereBefore (left + p.1.1) v (padRaw left right v p.1.2) else padRaw left right v p.1.2))]
  · rw [← List.map_id x.seqs]
    conv => lhs; simp only [List.map_id]
    have : x.seqs.zip (x.seqs.map (fun _ => right)) = x.seqs.map (fun p => (p, right)) := by
      have := List.zip_map' (f := fun p : Nat × List α => p) (g := fun _ : Nat × List α => right) (l := x.seqs)
      simpa using this
    rw [this, List.map_map]
    simp only [List.map_id]
    rfl
  · intro p _
    unfold padRow
    by_cases h : (handle && x.masked && right != 0) = true
    · rw [if_pos h, if_pos h]; rfl
    · rw [if_neg h, if_neg h]; rfl

/-- C68: `shift_right`: the sequence moves by `amount`, the last frames are dropped, with any `handle_dynamic_dims`. -/
theorem shiftRight_valid {α : Type} [Inhabited α] (x : Padded α) (hx : x.Ok) (v : α) (amount : Nat) (handle : Bool) :
    ∃ y, shiftRight x v amount handle = .ok y ∧ y.Ok ∧ y.T = x.T ∧ y.seqs.map Prod.fst = x.seqs.map Prod.fst ∧
      y.valid = x.valid.map (fun s => (List.replicate amount v ++ s).take s.length) := by
  obtain ⟨m, hp⟩ := padInt_rows x amount 0 v handle
  unfold shiftRight
  rw [hp]
  simp only [bind, Except.bind]
  have hsl := sliceBySize_ok x { T := amount + x.T + 0, masked := m, seqs := x.seqs.map (fun p => (amount + p.1 + 0, if handle && x.masked && 0 != 0 then whereBefore (amount + p.1) v (padRaw amount 0 v p.2) else padRaw amount 0 v p.2)) } 0
    (by
      intro q hq
      obtain ⟨p, hp, rfl⟩ := List.mem_map.1 hq
      obtain ⟨h1, _, _⟩ := hx p hp
      simp [length_padRaw, h1]) (by simp)
  simp only [if_true] at hsl
  refine ⟨_, hsl, ?_, rfl, ?_, ?_⟩
  · rw [List.zip_map']
    intro q hq
    simp only [List.map_map] at hq
    obtain ⟨p, hp, rfl⟩ := List.mem_map.1 hq
    obtain ⟨h1, h2, h3⟩ := hx p hp
    refine ⟨?_, h2, h3⟩
    simp [length_padRaw, h1]
  · rw [List.zip_map']
    simp
  · rw [List.zip_map']
    unfold Padded.valid
    simp only [List.map_map]
    apply List.map_congr_left
    intro p hp
    obtain ⟨h1, h2, h3⟩ := hx p hp
    simp only [Function.comp_apply, bne_self_eq_false, Bool.and_false, Bool.false_eq_true, if_false, List.drop_zero]
    rw [seqs_fst_of_ok hx hp, List.take_take, Nat.min_eq_left h2]
    unfold padRaw
    simp only [List.replicate_zero, List.append_nil]
    rw [List.take_append, List.take_append, List.take_take]
    congr 2
    omega

/-- C68: `shift_left`. -/
theorem shiftLeft_valid {α : Type} [Inhabited α] (x : Padded α) (hx : x.Ok) (v : α) (amount : Nat) (ha : 0 < amount) :
    ∃ y, shiftLeft x v amount = .ok y ∧ y.Ok ∧ y.T = x.T ∧ y.seqs.map Prod.fst = x.seqs.map Prod.fst ∧
      y.valid = x.valid.map (fun s => (s.drop amount ++ List.replicate amount v).take s.length) := by
  obtain ⟨m, hp⟩ := padInt_rows x 0 amount v true
  unfold shiftLeft
  rw [hp]
  simp only [bind, Except.bind]
  have hrl : ∀ p ∈ x.seqs, (if (true && x.masked && amount != 0) = true then whereBefore (0 + p.1) v (padRaw 0 amount v p.2) else padRaw 0 amount v p.2).length = x.T + amount := by
    intro p hp
    obtain ⟨h1, _, _⟩ := hx p hp
    split
    · rw [length_whereBefore, length_padRaw, h1]; omega
    · rw [length_padRaw, h1]; omega
  have hsl := sliceBySize_ok x { T := 0 + x.T + amount, masked := m, seqs := x.seqs.map (fun p => (0 + p.1 + amount, if true && x.masked && amount != 0 then whereBefore (0 + p.1) v (padRaw 0 amount v p.2) else padRaw 0 amount v p.2)) } amount
    (by
      intro q hq
      obtain ⟨p, hp, rfl⟩ := List.mem_map.1 hq
      simp only []
      rw [hrl p hp]; omega) (by simp)
  rw [if_neg (by omega)] at hsl
  refine ⟨_, hsl, ?_, rfl, ?_, ?_⟩
  · rw [List.zip_map']
    intro q hq
    simp only [List.map_map] at hq
    obtain ⟨p, hp, rfl⟩ := List.mem_map.1 hq
    obtain ⟨h1, h2, h3⟩ := hx p hp
    refine ⟨?_, h2, h3⟩
    simp only [Function.comp_apply, List.length_take, List.length_drop]
    rw [hrl p hp]; omega
  · rw [List.zip_map']
    simp
  · rw [List.zip_map']
    unfold Padded.valid
    simp only [List.map_map]
    apply List.map_congr_left
    intro p hp
    obtain ⟨h1, h2, h3⟩ := hx p hp
    simp only [Function.comp_apply]
    rw [seqs_fst_of_ok hx hp, List.take_take, Nat.min_eq_left h2]
    apply List.ext_getElem?
    intro i
    rw [List.getElem?_take, List.getElem?_take, List.getElem?_drop, List.getElem?_append, List.length_drop, List.length_take, List.getElem?_drop, List.getElem?_take, getElem?_replicate']
    by_cases hi : i < p.1
    · rw [if_pos hi, if_pos hi]
      have hraw : (padRaw 0 amount v p.2)[amount + i]? = if amount + i < x.T then p.2[amount + i]? else some v := by
        rw [getElem?_padRaw, if_neg (by omega), h1]
        by_cases hc : amount + i < x.T
        · rw [if_pos (by omega), if_pos hc, Nat.sub_zero]
        · rw [if_neg (by omega), if_neg hc, if_pos (by omega)]
      by_cases hm : (true && x.masked && amount != 0) = true
      · rw [if_pos hm, getElem?_whereBefore, hraw, length_padRaw, h1]
        by_cases hc : amount + i < p.1
        · rw [if_pos (by omega), if_pos (by omega), if_pos (by omega), if_pos hc]
        · rw [if_neg (by omega), if_pos (by omega), if_neg (by omega), if_pos (by omega)]
      · rw [if_neg hm, hraw]
        have hm' : x.masked = false := by
          cases hx' : x.masked with
          | false => rfl
          | true => exfalso; apply hm; simp [hx']; omega
        have := h3 hm'
        by_cases hc : amount + i < p.1
        · rw [if_pos (by omega), if_pos (by omega), if_pos hc]
        · rw [if_neg (by omega), if_neg (by omega), if_pos (by omega)]
    · rw [if_neg hi, if_neg hi]

example : (shiftRight exBatch 0 1 true).map Padded.valid = .ok [[0, 1, 2, 3], [0, 5], [0]] := rfl
example : (shiftLeft exBatch 0 1).map Padded.valid = .ok [[2, 3, 4, 0], [6, 0], [0]] := rfl
example : (shiftLeft exBatch 0 3).map Padded.valid = .ok [[4, 0, 0, 0], [0, 0], [0]] := rfl

/-- C68, refuted for a tensor as pad value: `shift_right` then does nothing. -/
theorem shiftRightTensor_wrong {α : Type} (x : Padded α) (hx : x.Ok) (vs : List α) (hvs : vs.length = x.seqs.length) (amount : Nat) (handle : Bool) :
    shiftRightTensor x vs amount handle = .ok x := by
  unfold shiftRightTensor padTensor
  rw [if_neg (by simp)]
  simp only [bind, Except.bind]
  have hsl := sliceBySize_ok x { T := amount + x.T + 0, masked := x.masked, seqs := (x.seqs.zip vs).map (fun p => (amount + p.1.1 + 0, p.1.2 ++ [p.2])) } 0
    (by
      intro q hq
      obtain ⟨p, hp, rfl⟩ := List.mem_map.1 hq
      obtain ⟨h1, _, _⟩ := hx p.1 (List.of_mem_zip hp).1
      simp [h1]) (by simp [hvs])
  simp only [if_true] at hsl
  refine hsl.trans ?_
  congr 1
  have hfst : x.seqs.map Prod.fst = (x.seqs.zip vs).map (fun p => p.1.1) := by
    have h := List.map_fst_zip (l₁ := x.seqs) (l₂ := vs) (by omega)
    conv => lhs; rw [← h]
    rw [List.map_map]; rfl
  have hx' : x = { T := x.T, masked := x.masked, seqs := x.seqs } := rfl
  conv => rhs; rw [hx']
  congr 1
  rw [hfst, List.zip_map', List.map_map]
  conv => rhs; rw [← List.map_fst_zip (l₁ := x.seqs) (l₂ := vs) (by omega)]
  apply List.map_congr_left
  intro p hp
  obtain ⟨h1, _, _⟩ := hx p.1 (List.of_mem_zip hp).1
  simp only [Function.comp_apply, List.drop_zero]
  rw [← h1, List.take_left']
  rfl

/-- A tensor as pad value works for `shift_left` by one frame only. -/
theorem shiftLeftTensor_example : (shiftLeftTensor exBatch [10, 20, 30] 1).map Padded.valid = .ok [[2, 3, 4, 10], [6, 20], [30]] ∧
    shiftLeftTensor exBatch [10, 20, 30] 2 = .error (.other "shape") ∧ (shiftRightTensor exBatch [10, 20, 30] 1 true).map Padded.valid = .ok [[1, 2, 3, 4], [5, 6], [7]] := by decide

/-! ### reverse_sequence -/

theorem gatherRow_ok {α : Type} (row : List α) (idxs : List Nat) (h : ∀ i ∈ idxs, i < row.length) :
    gatherRow row (idxs.map (fun (i : Nat) => (i : Int))) = .ok (idxs.filterMap (fun i => row[i]?)) := by
  unfold gatherRow
  induction idxs with
  | nil => rfl
  | cons a l ih =>
    have ha := h a List.mem_cons_self
    rw [List.map_cons, List.mapM_cons, ih (fun i hi => h i (List.mem_cons_of_mem _ hi)), if_neg (by omega)]
    simp only [Int.toNat_natCast, getItem, List.getElem?_eq_getElem ha, List.filterMap_cons]
    rfl

theorem getElem?_gathered {α : Type} (row : List α) : ∀ (idxs : List Nat), (∀ i ∈ idxs, i < row.length) → ∀ i : Nat, (idxs.filterMap (fun (i : Nat) => row[i]?))[i]? = (idxs[i]?).bind (fun (j : Nat) => row[j]?)
  | [], _, i => by simp
  | a :: l, h, i => by
    have ha := h a List.mem_cons_self
    rw [List.filterMap_cons, List.getElem?_eq_getElem ha]
    cases i with
    | zero => simp [List.getElem?_eq_getElem ha]
    | succ i =>
      simp only [List.getElem?_cons_succ]
      exact getElem?_gathered row l (fun i hi => h i (List.mem_cons_of_mem _ hi)) i

/-- C68: `reverse_sequence` reverses each sequence, if none is empty. -/
theorem reverse_valid_partial {α : Type} (x : Padded α) (hx : x.Ok) (hne : x.masked = true → ∀ p ∈ x.seqs, 0 < p.1) :
    ∃ y, reverseSequence x true = .ok y ∧ y.Ok ∧ y.T = x.T ∧ y.valid = x.valid.map List.reverse := by
  unfold reverseSequence
  by_cases hm : x.masked = true
  · rw [if_neg (by simp [hm])]
    have hidx : ∀ p ∈ x.seqs, reverseIdxs x.T p.1 = ((List.range x.T).map (fun i => p.1 - 1 - i)).map (fun (i : Nat) => (i : Int)) := by
      intro p hp
      have := hne hm p hp
      unfold reverseIdxs
      rw [List.map_map]
      apply List.map_congr_left
      intro i _
      unfold clamp
      simp only [Function.comp_apply]
      omega
    have hrow : ∀ p ∈ x.seqs, (gatherRow p.2 (reverseIdxs x.T p.1)).map (fun row => (p.1, row)) =
        .ok (p.1, ((List.range x.T).map (fun i => p.1 - 1 - i)).filterMap (fun i => p.2[i]?)) := by
      intro p hp
      obtain ⟨h1, h2, _⟩ := hx p hp
      have := hne hm p hp
      rw [hidx p hp, gatherRow_ok]
      · rfl
      · intro i hi
        obtain ⟨j, _, rfl⟩ := List.mem_map.1 hi
        omega
    have hlen : ∀ p ∈ x.seqs, ∀ i, (((List.range x.T).map (fun i => p.1 - 1 - i)).filterMap (fun i => p.2[i]?))[i]? = if i < x.T then p.2[p.1 - 1 - i]? else none := by
      intro p hp i
      obtain ⟨h1, h2, _⟩ := hx p hp
      have h0 := hne hm p hp
      rw [getElem?_gathered _ _ (by
        intro i hi
        obtain ⟨j, _, rfl⟩ := List.mem_map.1 hi
        omega), List.getElem?_map]
      by_cases hi : i < x.T
      · rw [List.getElem?_range hi, if_pos hi]; rfl
      · rw [List.getElem?_eq_none (by simp; omega), if_neg hi]; rfl
    rw [mapM_ok _ hrow]
    refine ⟨_, rfl, ?_, rfl, ?_⟩
    · intro q hq
      obtain ⟨p, hp, rfl⟩ := List.mem_map.1 hq
      obtain ⟨h1, h2, h3⟩ := hx p hp
      refine ⟨?_, h2, h3⟩
      have h0 := hne hm p hp
      rw [List.length_filterMap_eq_countP, List.countP_eq_length.2]
      · simp
      · intro i hi
        obtain ⟨j, _, rfl⟩ := List.mem_map.1 hi
        rw [List.getElem?_eq_getElem (by omega)]
        rfl
    · unfold Padded.valid
      simp only [List.map_map]
      apply List.map_congr_left
      intro p hp
      obtain ⟨h1, h2, h3⟩ := hx p hp
      simp only [Function.comp_apply]
      apply List.ext_getElem?
      intro i
      rw [List.getElem?_take, hlen p hp]
      by_cases hi : i < p.1
      · rw [if_pos hi, if_pos (by omega), List.getElem?_reverse (by rw [seqs_fst_of_ok hx hp]; exact hi), seqs_fst_of_ok hx hp, List.getElem?_take, if_pos (by omega)]
      · rw [if_neg hi, List.getElem?_eq_none (by rw [List.length_reverse, seqs_fst_of_ok hx hp]; omega)]
  · rw [if_pos (by simp [hm])]
    refine ⟨_, rfl, ?_, rfl, ?_⟩
    · intro q hq
      obtain ⟨p, hp, rfl⟩ := List.mem_map.1 hq
      obtain ⟨h1, h2, h3⟩ := hx p hp
      exact ⟨by simp [h1], h2, h3⟩
    · unfold Padded.valid
      simp only [List.map_map]
      apply List.map_congr_left
      intro p hp
      obtain ⟨h1, h2, h3⟩ := hx p hp
      have := h3 (by simpa using hm)
      simp only [Function.comp_apply]
      rw [List.take_of_length_le (by simp; omega), List.take_of_length_le (by omega)]

/-- C68, refuted: with an empty sequence in the batch (and a non-empty one), `reverse_sequence` raises. -/
theorem reverse_empty {α : Type} (x : Padded α) (hm : x.masked = true) (hT : 0 < x.T) (row : List α) (rest : List (Nat × List α)) (hs : x.seqs = (0, row) :: rest) :
    reverseSequence x true = .error .indexError := by
  unfold reverseSequence
  rw [if_neg (by simp [hm]), hs, List.mapM_cons]
  obtain ⟨T, hT'⟩ : ∃ T, x.T = T + 1 := ⟨x.T - 1, by omega⟩
  have : gatherRow row (reverseIdxs x.T 0) = .error .indexError := by
    unfold gatherRow reverseIdxs
    rw [hT', List.range_succ_eq_map, List.map_cons, List.mapM_cons, if_pos (by unfold clamp; omega)]
    rfl
  rw [this]
  rfl

example : (reverseSequence exBatch true).map Padded.valid = .ok [[4, 3, 2, 1], [6, 5], [7]] := by decide

end Verif.RfSeq
