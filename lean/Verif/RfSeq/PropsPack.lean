import Verif.RfSeq.Props
import Mathlib.Tactic.Ring
import Mathlib.Data.List.Induction
/-
C69: packing padded sequences, unpacking them, and selecting frames by a mask. C70: windows.
-/
namespace Verif.RfSeq
open Verif.Py

/-! ### The flat layout -/

theorem getElem?_flatBT {α : Type} (T : Nat) : ∀ (rows : List (List α)), (∀ r ∈ rows, r.length = T) → ∀ b t : Nat, t < T → (flatBT rows)[b * T + t]? = (rows[b]?).bind (fun (r : List α) => r[t]?)
  | [], _, b, t, _ => by simp [flatBT]
  | r :: rows, h, b, t, ht => by
    have hr := h r List.mem_cons_self
    unfold flatBT
    rw [List.flatten_cons, List.getElem?_append, hr]
    cases b with
    | zero => rw [if_pos (by omega)]; simp
    | succ b =>
      rw [if_neg (by rw [Nat.succ_mul]; omega), List.getElem?_cons_succ, show (b + 1) * T + t - T = b * T + t by rw [Nat.succ_mul]; omega]
      exact getElem?_flatBT T rows (fun r hr => h r (List.mem_cons_of_mem _ hr)) b t ht

theorem column_eq {α : Type} (t : Nat) : ∀ (rows : List (List α)), (∀ r ∈ rows, t < r.length) → ∀ b : Nat, (rows.filterMap (fun row => row[t]?))[b]? = (rows[b]?).bind (fun (r : List α) => r[t]?)
  | [], _, b => by simp
  | r :: rows, h, b => by
    have hr := h r List.mem_cons_self
    rw [List.filterMap_cons, List.getElem?_eq_getElem hr]
    cases b with
    | zero => simp [List.getElem?_eq_getElem hr]
    | succ b =>
      simp only [List.getElem?_cons_succ]
      exact column_eq t rows (fun r hr => h r (List.mem_cons_of_mem _ hr)) b

theorem column_length {α : Type} (t : Nat) : ∀ (rows : List (List α)), (∀ r ∈ rows, t < r.length) → (rows.filterMap (fun row => row[t]?)).length = rows.length
  | [], _ => rfl
  | r :: rows, h => by
    have hr := h r List.mem_cons_self
    rw [List.filterMap_cons, List.getElem?_eq_getElem hr]
    simp only [List.length_cons]
    rw [column_length t rows (fun r hr => h r (List.mem_cons_of_mem _ hr))]

/-- The cell of sequence `b` and frame `t` is at `flatPos` in the flat tensor. -/
theorem getElem?_flat {α : Type} (o : Order) (T : Nat) (rows : List (List α)) (h : ∀ r ∈ rows, r.length = T) (b t : Nat) (hb : b < rows.length) (ht : t < T) :
    (flat o T rows)[flatPos o T rows.length b t]? = (rows[b]?).bind (fun (r : List α) => r[t]?) := by
  cases o with
  | bt => exact getElem?_flatBT T rows h b t ht
  | tb =>
    unfold flat flatTB flatPos
    simp only []
    rw [List.flatMap_def]
    have h' : ∀ c ∈ (List.range T).map (fun t => rows.filterMap (fun row => row[t]?)), c.length = rows.length := by
      intro c hc
      obtain ⟨t', ht', rfl⟩ := List.mem_map.1 hc
      exact column_length t' rows (fun r hr => by rw [h r hr]; exact List.mem_range.1 ht')
    have := getElem?_flatBT rows.length _ h' t b hb
    unfold flatBT at this
    rw [this, List.getElem?_map, List.getElem?_range ht]
    simp only [Option.map_some, Option.bind_some]
    exact column_eq t rows (fun r hr => by rw [h r hr]; exact ht) b

theorem flatten_length {α : Type} (T : Nat) : ∀ (rows : List (List α)), (∀ r ∈ rows, r.length = T) → rows.flatten.length = rows.length * T
  | [], _ => by simp
  | r :: rows, h => by
    rw [List.flatten_cons, List.length_append, h r List.mem_cons_self, flatten_length T rows (fun r hr => h r (List.mem_cons_of_mem _ hr)), List.length_cons, Nat.succ_mul, Nat.add_comm]

theorem flat_length {α : Type} (o : Order) (T : Nat) (rows : List (List α)) (h : ∀ r ∈ rows, r.length = T) : (flat o T rows).length = rows.length * T := by
  cases o with
  | bt => exact flatten_length T rows h
  | tb =>
    unfold flat flatTB
    simp only []
    rw [List.flatMap_def, flatten_length rows.length]
    · simp [Nat.mul_comm]
    · intro c hc
      obtain ⟨t', ht', rfl⟩ := List.mem_map.1 hc
      exact column_length t' rows (fun r hr => by rw [h r hr]; exact List.mem_range.1 ht')

theorem flat_map {α β : Type} (o : Order) (T : Nat) (f : α → β) (rows : List (List α)) : flat o T (rows.map (List.map f)) = (flat o T rows).map f := by
  cases o with
  | bt => unfold flat flatBT; simp only []; rw [List.map_flatten]
  | tb =>
    unfold flat flatTB
    simp only []
    rw [List.map_flatMap]
    congr 1
    funext t
    rw [List.filterMap_map, List.map_filterMap]
    congr 1
    funext r
    simp

/-! ### masked_select and masked_scatter -/

theorem maskedSelect_eq {α : Type} (l : List (Bool × α)) : maskedSelectRaw (l.map Prod.fst) (l.map Prod.snd) = (l.filter Prod.fst).map Prod.snd := by
  unfold maskedSelectRaw
  induction l using List.reverseRecOn with
  | nil => rfl
  | append_singleton l a ih =>
    rw [List.filter_append, List.map_append (f := Prod.snd) (l₁ := l.filter Prod.fst), ← ih]
    simp only [List.map_append, List.map_cons, List.map_nil, List.length_append, List.length_map, List.length_cons, List.length_nil, Nat.zero_add]
    rw [List.range_succ, List.filter_append, List.filterMap_append]
    congr 1
    · have e : (List.range l.length).filter (fun i => (l.map Prod.fst ++ [a.1]).getD i false) = (List.range l.length).filter (fun i => (l.map Prod.fst).getD i false) := by
        apply List.filter_congr
        intro i hi
        have := List.mem_range.1 hi
        rw [List.getD_append _ _ _ _ (by simpa using this)]
      rw [e]
      apply ListLemmas_filterMap_congr
      intro i hi
      have := List.mem_range.1 (List.mem_filter.1 hi).1
      rw [List.getElem?_append_left (by simpa using this)]
    · have e : (l.map Prod.fst ++ [a.1]).getD l.length false = a.1 := by
        rw [List.getD_append_right _ _ _ _ (by simp)]
        simp
      cases ha : a.1 with
      | false => rw [ha] at e; simp [ha]
      | true =>
        simp [ha]
where
  ListLemmas_filterMap_congr {α β : Type} {f g : α → Option β} : ∀ {l : List α}, (∀ x ∈ l, f x = g x) → l.filterMap f = l.filterMap g
    | [], _ => rfl
    | a :: l, h => by
      rw [List.filterMap_cons, List.filterMap_cons, h a List.mem_cons_self, ListLemmas_filterMap_congr (fun x hx => h x (List.mem_cons_of_mem _ hx))]

theorem maskedScatter_select {α : Type} (d : α) : ∀ (l : List (Bool × α)),
    maskedScatterRaw (l.map Prod.fst) (List.replicate l.length d) ((l.filter Prod.fst).map Prod.snd) = .ok (l.map (fun p => if p.1 then p.2 else d))
  | [] => rfl
  | (true, a) :: l => by
    simp only [List.map_cons, List.length_cons, List.replicate_succ, List.filter_cons, if_true, maskedScatterRaw, maskedScatter_select d l]
    rfl
  | (false, a) :: l => by
    simp only [List.map_cons, List.length_cons, List.replicate_succ, List.filter_cons, Bool.false_eq_true, if_false, maskedScatterRaw, maskedScatter_select d l]
    rfl

/-! ### C69 -/

/-- Mask and frames of a sequence together. -/
def cells {α : Type} (T : Nat) (p : Nat × List α) : List (Bool × α) := (maskRow T p.1).zip p.2

theorem maskRow_length (T n : Nat) : (maskRow T n).length = T := by unfold maskRow; simp

theorem cells_fst {α : Type} {T : Nat} {p : Nat × List α} (h : p.2.length = T) : (cells T p).map Prod.fst = maskRow T p.1 := by
  unfold cells; exact List.map_fst_zip (by rw [maskRow_length]; omega)

theorem cells_snd {α : Type} {T : Nat} {p : Nat × List α} (h : p.2.length = T) : (cells T p).map Prod.snd = p.2 := by
  unfold cells; exact List.map_snd_zip (by rw [maskRow_length]; omega)

theorem getElem?_cells {α : Type} {T : Nat} {p : Nat × List α} (h : p.2.length = T) (i : Nat) : (cells T p)[i]? = (p.2[i]?).map (fun a => (decide (i < p.1), a)) := by
  unfold cells
  by_cases hi : i < T
  · rw [(List.getElem?_zip_eq_some (z := (decide (i < p.1), p.2[i]'(by omega)))).2]
    · rw [List.getElem?_eq_getElem (by omega)]; rfl
    · refine ⟨?_, List.getElem?_eq_getElem _⟩
      unfold maskRow
      rw [List.getElem?_map, List.getElem?_range hi]; rfl
  · rw [List.getElem?_eq_none (by simp [maskRow_length]; omega), List.getElem?_eq_none (by omega)]; rfl

theorem cells_filter {α : Type} {T : Nat} {p : Nat × List α} (h : p.2.length = T) (hn : p.1 ≤ T) : ((cells T p).filter Prod.fst).map Prod.snd = p.2.take p.1 := by
  have e : cells T p = (p.2.take p.1).map (fun a => (true, a)) ++ (p.2.drop p.1).map (fun a => (false, a)) := by
    apply List.ext_getElem?
    intro i
    rw [getElem?_cells h, List.getElem?_append, List.length_map, List.length_take, Nat.min_eq_left (by omega)]
    by_cases hi : i < p.1
    · rw [if_pos hi, List.getElem?_map, List.getElem?_take, if_pos hi]; simp [hi]
    · rw [if_neg hi, List.getElem?_map, List.getElem?_drop, show p.1 + (i - p.1) = i by omega]; simp [hi]
  have h1 : ∀ l : List α, ((l.map (fun a => (true, a))).filter Prod.fst).map Prod.snd = l := by
    intro l; induction l with
    | nil => rfl
    | cons a l ih => simpa using ih
  have h2 : ∀ l : List α, ((l.map (fun a => (false, a))).filter Prod.fst).map Prod.snd = [] := by
    intro l; induction l with
    | nil => rfl
    | cons a l ih => simpa using ih
  rw [e, List.filter_append, List.map_append, h1, h2, List.append_nil]

theorem flat_cells {α : Type} (o : Order) (x : Padded α) (hx : x.Ok) :
    flat o x.T (x.seqs.map (fun p => maskRow x.T p.1)) = (flat o x.T (x.seqs.map (cells x.T))).map Prod.fst ∧
    flat o x.T (x.seqs.map Prod.snd) = (flat o x.T (x.seqs.map (cells x.T))).map Prod.snd := by
  rw [← flat_map, ← flat_map, List.map_map, List.map_map]
  refine ⟨?_, ?_⟩
  · congr 1
    apply List.map_congr_left
    intro p hp
    exact (cells_fst (hx p hp).1).symm
  · congr 1
    apply List.map_congr_left
    intro p hp
    exact (cells_snd (hx p hp).1).symm

theorem packPadded_eq {α : Type} (o : Order) (x : Padded α) (hx : x.Ok) : packPadded o x = ((flat o x.T (x.seqs.map (cells x.T))).filter Prod.fst).map Prod.snd := by
  unfold packPadded
  rw [(flat_cells o x hx).1, (flat_cells o x hx).2, maskedSelect_eq]

/-- C69: packed with dims [B,T]: the sequences one after another, without the padding. -/
theorem pack_bt {α : Type} (x : Padded α) (hx : x.Ok) : packPadded .bt x = x.valid.flatten := by
  rw [packPadded_eq .bt x hx]
  unfold flat flatBT Padded.valid
  simp only []
  rw [List.filter_flatten, List.map_flatten, List.map_map, List.map_map]
  congr 1
  apply List.map_congr_left
  intro p hp
  exact cells_filter (hx p hp).1 (hx p hp).2.1

/-- C69: packed with dims [T,B]: for each frame, the sequences which have it. -/
theorem pack_tb {α : Type} (x : Padded α) (hx : x.Ok) : packPadded .tb x = (List.range x.T).flatMap (fun t => x.valid.filterMap (fun s => s[t]?)) := by
  rw [packPadded_eq .tb x hx]
  unfold flat flatTB Padded.valid
  simp only []
  rw [List.filter_flatMap, List.map_flatMap]
  congr 1
  funext t
  rw [List.filterMap_map, List.filterMap_map]
  have : ∀ l : List (Nat × List α), (∀ p ∈ l, p.2.length = x.T) →
      ((l.filterMap ((fun row : List (Bool × α) => row[t]?) ∘ cells x.T)).filter Prod.fst).map Prod.snd = l.filterMap ((fun s : List α => s[t]?) ∘ fun p => p.2.take p.1) := by
    intro l hl
    induction l with
    | nil => rfl
    | cons p l ih =>
      have ih := ih (fun q hq => hl q (List.mem_cons_of_mem _ hq))
      have hp := hl p List.mem_cons_self
      have e1 : ((fun row : List (Bool × α) => row[t]?) ∘ cells x.T) p = (p.2[t]?).map (fun a => (decide (t < p.1), a)) := getElem?_cells hp t
      have e2 : ((fun s : List α => s[t]?) ∘ fun p : Nat × List α => p.2.take p.1) p = if t < p.1 then p.2[t]? else none := List.getElem?_take
      cases hc : p.2[t]? with
      | none =>
        rw [hc, Option.map_none] at e1
        rw [hc, ite_self] at e2
        rw [List.filterMap_cons_none e1, List.filterMap_cons_none e2, ih]
      | some a =>
        rw [hc, Option.map_some] at e1
        rw [hc] at e2
        rw [List.filterMap_cons_some e1]
        by_cases ht : t < p.1
        · rw [if_pos ht] at e2
          rw [List.filterMap_cons_some e2, List.filter_cons_of_pos (p := Prod.fst) (a := (decide (t < p.1), a)) (decide_eq_true ht), List.map_cons, ih]
        · rw [if_neg ht] at e2
          rw [List.filterMap_cons_none e2, List.filter_cons_of_neg (p := Prod.fst) (a := (decide (t < p.1), a)) (fun h => ht (of_decide_eq_true h)), ih]
  exact this x.seqs (fun p hp => (hx p hp).1)

/-- A sequence with padding up to a length. -/
def padTo {α : Type} (T : Nat) (d : α) (s : List α) : List α := s ++ List.replicate (T - s.length) d

/-- C69: unpacking what was packed gives the sequences again, with the default value as padding; with both orders of the dims. -/
theorem unpack_pack {α : Type} [Inhabited α] (o : Order) (x : Padded α) (hx : x.Ok) :
    padPacked o x.T (x.seqs.map Prod.fst) (packPadded o x) = .ok (flat o x.T (x.valid.map (padTo x.T default))) := by
  rw [packPadded_eq o x hx]
  unfold padPacked
  have h1 : (x.seqs.map Prod.fst).map (maskRow x.T) = x.seqs.map (fun p => maskRow x.T p.1) := by rw [List.map_map]; rfl
  rw [h1, (flat_cells o x hx).1]
  have hl : (x.seqs.map Prod.fst).length * x.T = (flat o x.T (x.seqs.map (cells x.T))).length := by
    rw [flat_length]
    · simp
    · intro r hr
      obtain ⟨p, hp, rfl⟩ := List.mem_map.1 hr
      have := congrArg List.length (cells_snd (hx p hp).1)
      rw [List.length_map] at this
      rw [this, (hx p hp).1]
  rw [hl, maskedScatter_select, ← flat_map, List.map_map]
  congr 2
  unfold Padded.valid
  rw [List.map_map]
  apply List.map_congr_left
  intro p hp
  obtain ⟨h1, h2, h3⟩ := hx p hp
  simp only [Function.comp_apply]
  apply List.ext_getElem?
  intro i
  rw [List.getElem?_map, getElem?_cells h1]
  unfold padTo
  rw [List.getElem?_append, seqs_fst_of_ok hx hp, List.getElem?_take, getElem?_replicate']
  by_cases hi : i < p.1
  · rw [if_pos hi, if_pos hi, List.getElem?_eq_getElem (by omega)]; simp [hi]
  · rw [if_neg hi]
    by_cases hi' : i < x.T
    · rw [if_pos (by omega), List.getElem?_eq_getElem (by omega)]; simp [hi]
    · rw [if_neg (by omega), List.getElem?_eq_none (by omega)]; rfl

example : packPadded .bt exBatch = [1, 2, 3, 4, 5, 6, 7] := by decide
example : packPadded .tb exBatch = [1, 5, 7, 2, 6, 3, 4] := by decide
example : padPacked .tb 4 [4, 2, 1] [1, 5, 7, 2, 6, 3, 4] = .ok [1, 5, 7, 2, 6, 0, 3, 0, 0, 4, 0, 0] := by decide

/-! ### Selecting frames -/

/-- The frames where the mask is true. -/
def selected {α : Type} : List Bool → List α → List α
  | true :: m, a :: l => a :: selected m l
  | false :: m, _ :: l => selected m l
  | [], _ => []
  | _, [] => []

theorem cumsum_shift (acc : Nat) : ∀ (m : List Bool), cumsum acc m = (cumsum 0 m).map (acc + ·)
  | [] => rfl
  | b :: m => by
    simp only [cumsum, Nat.zero_add, List.map_cons]
    rw [cumsum_shift (acc + b.toNat) m, cumsum_shift b.toNat m, List.map_map]
    congr 1
    apply List.map_congr_left
    intro i _
    simp only [Function.comp_apply]
    omega

theorem cumsum_last : ∀ (m : List Bool) (acc : Nat), m ≠ [] → (cumsum acc m).getD (m.length - 1) 0 = acc + m.count true
  | [], _, h => (h rfl).elim
  | [b], acc, _ => by cases b <;> rfl
  | b :: c :: m, acc, _ => by
    have := cumsum_last (c :: m) (acc + b.toNat) (by simp)
    simp only [cumsum, List.length_cons, Nat.add_sub_cancel] at this ⊢
    rw [List.getD_cons_succ, this]
    cases b <;> simp [List.count_cons] <;> omega

theorem modify_append_right {α : Type} (f : α → α) : ∀ (l r : List α) (i : Nat), l.length ≤ i → (l ++ r).modify i f = l ++ r.modify (i - l.length) f
  | [], r, i, _ => by simp
  | a :: l, r, i, h => by
    obtain ⟨k, rfl⟩ : ∃ k, i = k + 1 := ⟨i - 1, by simp at h; omega⟩
    rw [List.cons_append, List.modify_succ_cons, modify_append_right f l r k (by simpa using h)]
    simp

theorem selected_nil {α : Type} : ∀ m : List Bool, selected m ([] : List α) = []
  | [] => rfl
  | true :: _ => rfl
  | false :: _ => rfl

theorem scatterAdd_spec {α : Type} [Add α] (zero : α) (h0 : ∀ v : α, zero + v = v) (N : Nat) : ∀ (m : List Bool) (vals : List α) (done : List α) (junk : α),
    m.length = vals.length → done.length + m.count true ≤ N →
    ∃ junk', scatterAdd (done ++ List.replicate (N - done.length) zero ++ [junk]) ((((cumsum done.length m).zip m).map (fun p => if p.2 then p.1 - 1 else N)).zip vals) =
      done ++ selected m vals ++ List.replicate (N - done.length - m.count true) zero ++ [junk']
  | [], vals, done, junk, h, _ => by
    refine ⟨junk, ?_⟩
    simp [cumsum, scatterAdd, selected]
  | b :: m, [], done, junk, h, _ => by simp at h
  | true :: m, v :: vals, done, junk, h, hN => by
    rw [List.count_cons_self] at hN
    obtain ⟨j, hj⟩ := scatterAdd_spec zero h0 N m vals (done ++ [v]) junk (by simpa using h) (by simp; omega)
    refine ⟨j, ?_⟩
    simp only [cumsum, List.zip_cons_cons, List.map_cons, if_true, Bool.toNat_true, Nat.add_sub_cancel, scatterAdd, selected, List.count_cons_self]
    have e : (done ++ List.replicate (N - done.length) zero ++ [junk]).modify done.length (fun x => x + v) = (done ++ [v]) ++ List.replicate (N - (done ++ [v]).length) zero ++ [junk] := by
      obtain ⟨k, hk⟩ : ∃ k, N - done.length = k + 1 := ⟨N - done.length - 1, by omega⟩
      rw [hk, List.length_append, List.length_singleton, show N - (done.length + 1) = k by omega, List.replicate_succ, List.append_assoc, List.append_assoc, List.append_assoc,
        modify_append_right _ _ _ _ (Nat.le_refl _), Nat.sub_self]
      simp [h0]
    rw [e]
    simp only [List.length_append, List.length_singleton] at hj
    simp only [List.length_append, List.length_singleton]
    rw [hj]
    simp only [List.append_assoc, List.singleton_append, List.cons_append, List.nil_append]
    rw [show N - (done.length + 1) - m.count true = N - done.length - (m.count true + 1) by omega]
  | false :: m, v :: vals, done, junk, h, hN => by
    rw [List.count_cons_of_ne (by simp)] at hN
    obtain ⟨j, hj⟩ := scatterAdd_spec zero h0 N m vals done (junk + v) (by simpa using h) hN
    refine ⟨j, ?_⟩
    simp only [cumsum, List.zip_cons_cons, List.map_cons, Bool.false_eq_true, if_false, Bool.toNat_false, Nat.add_zero, scatterAdd, selected]
    have e : (done ++ List.replicate (N - done.length) zero ++ [junk]).modify N (fun x => x + v) = done ++ List.replicate (N - done.length) zero ++ [junk + v] := by
      rw [modify_append_right _ _ _ _ (by simp; omega)]
      simp only [List.length_append, List.length_replicate, show N - (done.length + (N - done.length)) = 0 by omega]
      rfl
    rw [e, hj, List.count_cons_of_ne (by simp)]

theorem selected_length {α : Type} : ∀ (m : List Bool) (l : List α), m.length = l.length → (selected m l).length = m.count true
  | [], _, _ => by simp [selected]
  | true :: m, a :: l, h => by simp [selected, selected_length m l (by simpa using h)]
  | false :: m, a :: l, h => by simp [selected, selected_length m l (by simpa using h)]
  | _ :: m, [], h => by simp at h

theorem selected_whereBefore {α : Type} (d : α) : ∀ (n : Nat) (m : List Bool) (row : List α), m.length = row.length →
    selected (whereBefore n false m) (whereBefore n d row) = selected m (row.take n)
  | n, [], row, h => by cases row with
    | nil => simp [whereBefore, selected]
    | cons a row => simp at h
  | n, b :: m, [], h => by simp at h
  | 0, b :: m, a :: row, h => by
    have ih := selected_whereBefore d 0 m row (by simpa using h)
    unfold whereBefore at ih ⊢
    simp only [List.mapIdx_cons, Nat.not_lt_zero, if_false, List.take_zero, selected] at ih ⊢
    cases b <;> simpa [selected, selected_nil] using ih
  | n + 1, b :: m, a :: row, h => by
    have ih := selected_whereBefore d n m row (by simpa using h)
    unfold whereBefore at ih ⊢
    simp only [List.mapIdx_cons, Nat.zero_lt_succ, if_true, List.take_succ_cons, Nat.add_lt_add_iff_right] at ih ⊢
    cases b with
    | true => simp only [selected]; rw [ih]
    | false => simp only [selected]; rw [ih]

theorem le_foldl_max (l : List Nat) : ∀ acc, (∀ a ∈ l, a ≤ l.foldl max acc) ∧ acc ≤ l.foldl max acc := by
  induction l with
  | nil => intro acc; simp
  | cons b l ih =>
    intro acc
    obtain ⟨h1, h2⟩ := ih (max acc b)
    rw [List.foldl_cons]
    refine ⟨?_, by omega⟩
    intro a ha
    rcases List.mem_cons.1 ha with rfl | ha
    · omega
    · exact h1 a ha

/-- C69: selecting frames by a mask gives for each sequence its frames where the mask is true; frames in the padding are not selected whatever the mask has there. -/
theorem maskedSelectTime_valid {α : Type} [Add α] (zero : α) (h0 : ∀ v : α, zero + v = v) (x : Padded α) (hx : x.Ok) (masks : List (List Bool))
    (hlen : masks.length = x.seqs.length) (hm : ∀ m ∈ masks, m.length = x.T) :
    (maskedSelectTime zero x masks).Ok ∧ (maskedSelectTime zero x masks).valid = List.zipWith selected masks x.valid := by
  unfold maskedSelectTime
  simp only []
  generalize hms : (x.seqs.zip masks).map (fun p => if x.masked then whereBefore p.1.1 false p.2 else p.2) = ms
  generalize hsz : ms.map (fun m => (cumsum 0 m).getD (x.T - 1) 0) = sizes
  have hcs : (copyMasked x zero).seqs = (x.seqs.zip masks).map (fun p => (p.1.1, if x.masked then whereBefore p.1.1 zero p.1.2 else p.1.2)) := by
    have hf : x.seqs = (x.seqs.zip masks).map Prod.fst := (List.map_fst_zip (by omega)).symm
    unfold copyMasked
    cases x.masked with
    | true => simp only [if_true]; conv => lhs; rw [hf]
              rw [List.map_map]; rfl
    | false => simp only [Bool.false_eq_true, if_false]; exact hf
  have hmlen : ∀ m ∈ ms, m.length = x.T := by
    intro m hm'
    rw [← hms] at hm'
    obtain ⟨p, hp, rfl⟩ := List.mem_map.1 hm'
    have := hm p.2 (List.of_mem_zip hp).2
    split
    · rw [length_whereBefore, this]
    · exact this
  have hcount : ∀ m ∈ ms, (cumsum 0 m).getD (x.T - 1) 0 = m.count true := by
    intro m hm'
    have hl := hmlen m hm'
    cases m with
    | nil => simp [cumsum]
    | cons b m =>
      rw [← hl]
      simpa using cumsum_last (b :: m) 0 (by simp)
  have hzip : sizes.zip (ms.zip (copyMasked x zero).seqs) = (x.seqs.zip masks).map (fun p =>
      let m := if x.masked then whereBefore p.1.1 false p.2 else p.2
      ((cumsum 0 m).getD (x.T - 1) 0, m, p.1.1, if x.masked then whereBefore p.1.1 zero p.1.2 else p.1.2)) := by
    rw [← hsz, hcs, ← hms, List.map_map, List.zip_map', List.zip_map']
    rfl
  generalize hN : sizes.foldl max 0 = N
  have hle : ∀ m ∈ ms, m.count true ≤ N := by
    intro m hm'
    rw [← hcount m hm', ← hN]
    exact (le_foldl_max sizes 0).1 _ (by rw [← hsz]; exact List.mem_map.2 ⟨m, hm', rfl⟩)
  -- one sequence
  have hone : ∀ p ∈ x.seqs.zip masks,
      (cumsum 0 (if x.masked then whereBefore p.1.1 false p.2 else p.2)).getD (x.T - 1) 0 = (selected p.2 (p.1.2.take p.1.1)).length ∧
      (selected p.2 (p.1.2.take p.1.1)).length ≤ N ∧
      (scatterAdd (List.replicate (N + 1) zero) ((selectIdxs N (if x.masked then whereBefore p.1.1 false p.2 else p.2)).zip (if x.masked then whereBefore p.1.1 zero p.1.2 else p.1.2))).take N =
        selected p.2 (p.1.2.take p.1.1) ++ List.replicate (N - (selected p.2 (p.1.2.take p.1.1)).length) zero := by
    intro p hp
    obtain ⟨g1, g2, g3⟩ := hx p.1 (List.of_mem_zip hp).1
    have gm := hm p.2 (List.of_mem_zip hp).2
    generalize hm' : (if x.masked then whereBefore p.1.1 false p.2 else p.2) = m
    generalize hv' : (if x.masked then whereBefore p.1.1 zero p.1.2 else p.1.2) = vals
    have hmem : m ∈ ms := by rw [← hms, ← hm']; exact List.mem_map.2 ⟨p, hp, rfl⟩
    have hsel : selected m vals = selected p.2 (p.1.2.take p.1.1) := by
      rw [← hm', ← hv']
      cases hxm : x.masked with
      | true => simp only [if_true]; exact selected_whereBefore zero p.1.1 p.2 p.1.2 (by omega)
      | false =>
        simp only [Bool.false_eq_true, if_false]
        rw [g3 hxm, List.take_of_length_le (by omega)]
    have hvl : vals.length = x.T := by
      rw [← hv']
      split
      · rw [length_whereBefore, g1]
      · exact g1
    have hml := hmlen m hmem
    have hsl : (selected m vals).length = m.count true := selected_length m vals (by omega)
    rw [hcount m hmem, ← hsel, hsl]
    refine ⟨rfl, hle m hmem, ?_⟩
    obtain ⟨j, hj⟩ := scatterAdd_spec zero h0 N m vals [] zero (by omega) (by simpa using hle m hmem)
    simp only [List.nil_append, List.length_nil, Nat.sub_zero] at hj
    unfold selectIdxs
    rw [show List.replicate (N + 1) zero = List.replicate N zero ++ [zero] from List.replicate_succ', hj, List.take_left']
    have := hle m hmem
    simp [hsl]; omega
  refine ⟨?_, ?_⟩
  · intro q hq
    simp only [] at hq ⊢
    rw [hzip, List.map_map] at hq
    obtain ⟨p, hp, rfl⟩ := List.mem_map.1 hq
    obtain ⟨k1, k2, k3⟩ := hone p hp
    simp only [Function.comp_apply]
    rw [k1, k3]
    refine ⟨by simp; omega, k2, by simp⟩
  · unfold Padded.valid
    simp only []
    rw [hzip, List.map_map, List.map_map, List.zipWith_comm, ← List.map_uncurry_zip_eq_zipWith, List.zip_map_left, List.map_map]
    apply List.map_congr_left
    intro p hp
    obtain ⟨k1, k2, k3⟩ := hone p hp
    simp only [Function.comp_apply, Function.uncurry, Prod.map_fst, Prod.map_snd, id_eq]
    rw [k1, k3, List.take_left']
    rfl

example : (maskedSelectTime 0 exBatch [[true, false, false, true], [false, true, true, true], [false, false, true, true]]).valid = [[1, 4], [6], []] := by decide

/-! ### C70: windows -/

/-- The raw window of a row: frame `t`, position `w` is frame `t + w` of the padded row. -/
theorem windowRows_get {α : Type} (W out : Nat) (v : α) (row : List α) (hW : 0 < W) (hl : row.length = out + W - 1) (w t : Nat) (hw : w < W) (ht : t < out) :
    ((windowRows W out v row)[w]?).bind (fun (r : List α) => r[t]?) = row[t + w]? := by
  unfold windowRows windowFlat
  rw [List.getElem?_map, List.getElem?_range hw]
  simp only [Option.map_some, Option.bind_some]
  rw [List.getElem?_take, if_pos ht, List.getElem?_take, if_pos (by omega), List.getElem?_drop]
  have hflat := getElem?_flatBT row.length (List.replicate W row) (by intro r hr; rw [(List.mem_replicate.1 hr).2]) w (t + w) (by omega)
  unfold flatBT at hflat
  have e : w * (out + W) + t = w * row.length + (t + w) := by
    rw [hl]
    obtain ⟨k, rfl⟩ : ∃ k, W = k + 1 := ⟨W - 1, by omega⟩
    simp only [← Nat.add_assoc, Nat.add_sub_cancel]
    ring
  rw [e, List.getElem?_append_left, hflat, getElem?_replicate', if_pos hw]
  · rfl
  · by_contra hc
    rw [List.getElem?_eq_none (by omega), getElem?_replicate', if_pos hw] at hflat
    simp only [Option.bind_some] at hflat
    have := List.getElem?_eq_none_iff.1 hflat.symm
    omega

theorem windowRows_shape {α : Type} (W out : Nat) (v : α) (row : List α) (hW : 0 < W) (hl : row.length = out + W - 1) :
    (windowRows W out v row).length = W ∧ ∀ r ∈ windowRows W out v row, r.length = out := by
  refine ⟨by unfold windowRows; simp, ?_⟩
  unfold windowRows windowFlat
  intro r hr
  obtain ⟨w, hw, rfl⟩ := List.mem_map.1 hr
  have hw := List.mem_range.1 hw
  have hf : (List.replicate W row).flatten.length = W * row.length := by rw [flatten_length row.length _ (by intro r hr; rw [(List.mem_replicate.1 hr).2])]; simp
  simp only [List.length_take, List.length_drop, List.length_append, hf, List.length_replicate]
  have hmul : W * row.length + W = W * (out + W) := by
    rw [hl]
    obtain ⟨k, rfl⟩ : ∃ k, W = k + 1 := ⟨W - 1, by omega⟩
    simp only [← Nat.add_assoc, Nat.add_sub_cancel]
    ring
  have hle : (w + 1) * (out + W) ≤ W * (out + W) := Nat.mul_le_mul_right _ hw
  have : (w + 1) * (out + W) = w * (out + W) + (out + W) := by ring
  omega

theorem windowRow_ok {α : Type} (W out : Nat) (v : α) (row : List α) (hW : 0 < W) (hl : row.length = out + W - 1) : windowRow W out v row = .ok (windowRows W out v row) := by
  unfold windowRow windowFlat
  rw [if_pos]
  rw [List.length_append, List.length_replicate, flatten_length row.length _ (by intro r hr; rw [(List.mem_replicate.1 hr).2]), List.length_replicate, hl]
  obtain ⟨k, rfl⟩ : ∃ k, W = k + 1 := ⟨W - 1, by omega⟩
  simp only [← Nat.add_assoc, Nat.add_sub_cancel]
  ring

/-- The window around each frame (specification): frames `t - left` to `t + right`, with `v` outside of the sequence. -/
def windowAt {α : Type} (left right : Nat) (v : α) (s : List α) (t : Nat) : List α := ((padSeq left v s right).drop t).take (left + 1 + right)

/-- Which values of `use_mask`, `handle_dynamic_dims` and `pad_value` give right windows (or an axis without padding). -/
def WindowCfg {α : Type} [Inhabited α] (x : Padded α) (right : Nat) (padValue : Option α) (useMask handle : Bool) : Prop :=
  (padValue ≠ none ∧ handle = true) ∨ (useMask = true ∧ handle = false ∧ padValue.getD default = default) ∨ x.masked = false ∨ right = 0

theorem copyMasked_ok {α : Type} (x : Padded α) (hx : x.Ok) (v : α) : (copyMasked x v).Ok ∧ (copyMasked x v).valid = x.valid ∧ (copyMasked x v).T = x.T ∧
    (copyMasked x v).masked = x.masked := by
  unfold copyMasked
  cases hm : x.masked with
  | false => simp only [Bool.false_eq_true, if_false]; simp only [hm, and_self, and_true]; exact hx
  | true =>
    simp only [if_true]
    refine ⟨?_, ?_, trivial, trivial⟩
    · intro q hq
      obtain ⟨p, hp, rfl⟩ := List.mem_map.1 hq
      obtain ⟨h1, h2, h3⟩ := hx p hp
      exact ⟨by rw [length_whereBefore]; exact h1, h2, by simp⟩
    · unfold Padded.valid
      simp only [List.map_map]
      apply List.map_congr_left
      intro p hp
      simp only [Function.comp_apply]
      apply List.ext_getElem?
      intro i
      rw [List.getElem?_take, List.getElem?_take, getElem?_whereBefore]
      by_cases hi : i < p.1
      · rw [if_pos hi, if_pos hi, if_pos hi]
      · rw [if_neg hi, if_neg hi]

theorem padInt_none {α : Type} [Inhabited α] (x : Padded α) (left right : Nat) (handle : Bool) (h : (handle && x.masked && right != 0) = false) :
    padInt x left right (none : Option α) handle = padInt x left right (some default) handle := by
  unfold padInt pad
  have : ∀ n row, padRow x.masked handle left right (none : Option α) n row = padRow x.masked handle left right (some default) n row := by
    intro n row
    unfold padRow
    rw [h]
    rfl
  simp only [this]

/-- The input for the windows, for all these configurations. -/
theorem windowInput_valid {α : Type} [Inhabited α] (x : Padded α) (hx : x.Ok) (left right : Nat) (padValue : Option α) (useMask handle : Bool)
    (hc : WindowCfg x right padValue useMask handle) :
    ∃ y, windowInput x left right padValue useMask handle = .ok y ∧ y.Ok ∧ y.T = left + x.T + right ∧
      y.valid = x.valid.map (fun s => padSeq left (padValue.getD default) s right) := by
  unfold windowInput
  generalize hx' : (if useMask = true then copyMasked x default else x) = x'
  have hx2 : x'.Ok ∧ x'.valid = x.valid ∧ x'.T = x.T ∧ x'.masked = x.masked := by
    rw [← hx']
    cases useMask with
    | true => exact copyMasked_ok x hx default
    | false => exact ⟨hx, rfl, rfl, rfl⟩
  obtain ⟨g1, g2, g3, g4⟩ := hx2
  have hmain : ∀ v, (handle = true ∨ x'.masked = false ∨ right = 0) → ∃ y, padInt x' left right (some v) handle = .ok y ∧ y.Ok ∧ y.T = left + x.T + right ∧
      y.valid = x.valid.map (fun s => padSeq left v s right) := by
    intro v hv
    obtain ⟨y, h1, h2, h3, _, h5⟩ := padInt_valid x' g1 left right v handle hv
    exact ⟨y, h1, h2, by rw [h3, g3], by rw [h5, g2]⟩
  rcases hc with ⟨h1, h2⟩ | ⟨h1, h2, h3⟩ | h1 | h1
  · cases padValue with
    | none => exact (h1 rfl).elim
    | some v => exact hmain v (Or.inl h2)
  · have hpv : padInt x' left right padValue handle = padInt x' left right (some default) handle := by
      cases padValue with
      | none => exact padInt_none x' left right handle (by rw [h2]; rfl)
      | some v => simp only [Option.getD_some] at h3; rw [h3]
    rw [hpv, h3]
    by_cases hm : x.masked = true
    · -- padding is already the default value
      obtain ⟨m, hp⟩ := padInt_rows x' left right (default : α) handle
      rw [hp, h2]
      simp only [Bool.false_and, Bool.false_eq_true, if_false]
      refine ⟨_, rfl, ?_, by rw [g3], ?_⟩
      · intro q hq
        obtain ⟨p, hp', rfl⟩ := List.mem_map.1 hq
        obtain ⟨k1, k2, k3⟩ := g1 p hp'
        refine ⟨by simp [length_padRaw, k1], by simp only []; omega, ?_⟩
        intro hm'
        simp only [] at hm'
        have := congrArg (fun r : Res (Padded α) => r.map Padded.masked) hp
        unfold padInt pad at this
        rw [h2, mapM_ok (g := fun p => (left + p.1.1 + p.2, padRaw left right default p.1.2)) _ (fun p _ => by unfold padRow; rfl)] at this
        simp only [bind, Except.bind, pure, Except.pure, Except.map] at this
        injection this with this
        rw [hm', g4, hm] at this
        simp at this
      · rw [← g2]
        unfold Padded.valid
        simp only [List.map_map]
        apply List.map_congr_left
        intro p hp'
        obtain ⟨k1, k2, k3⟩ := g1 p hp'
        simp only [Function.comp_apply]
        -- the row of x' is the masked row
        have hrow : ∀ i, p.1 ≤ i → i < x.T → p.2[i]? = some default := by
          intro i hi hi'
          rw [h1] at hx'
          simp only [if_true] at hx'
          rw [← hx'] at hp'
          unfold copyMasked at hp'
          rw [if_pos hm] at hp'
          obtain ⟨q, hq, rfl⟩ := List.mem_map.1 hp'
          simp only [] at hi ⊢
          rw [getElem?_whereBefore, if_neg (by omega), if_pos (by rw [(hx q hq).1]; exact hi')]
        apply List.ext_getElem?
        intro i
        unfold padSeq
        rw [show List.replicate left (default : α) ++ p.2.take p.1 ++ List.replicate right default = padRaw left right default (p.2.take p.1) from rfl,
          List.getElem?_take, getElem?_padRaw, getElem?_padRaw, List.length_take, Nat.min_eq_left (by omega), k1, List.getElem?_take]
        by_cases i1 : i < left
        · rw [if_pos (by omega), if_pos i1, if_pos i1]
        · rw [if_neg i1, if_neg i1]
          by_cases i2 : i < left + p.1
          · rw [if_pos (by omega), if_pos (by omega), if_pos i2, if_pos (by omega)]
          · rw [if_neg i2]
            by_cases i3 : i < left + p.1 + right
            · rw [if_pos i3, if_pos i3]
              by_cases i4 : i < left + x'.T
              · rw [if_pos i4, hrow (i - left) (by omega) (by omega)]
              · rw [if_neg i4, if_pos (by omega)]
            · rw [if_neg i3, if_neg i3]
    · exact hmain default (Or.inr (Or.inl (by rw [g4]; simpa using hm)))
  · have hcase : padInt x' left right padValue handle = padInt x' left right (some (padValue.getD default)) handle := by
      cases padValue with
      | none => exact padInt_none x' left right handle (by rw [g4, h1]; simp)
      | some v => rfl
    rw [hcase]
    exact hmain _ (Or.inr (Or.inl (by rw [g4, h1])))
  · have hcase : padInt x' left right padValue handle = padInt x' left right (some (padValue.getD default)) handle := by
      cases padValue with
      | none => exact padInt_none x' left right handle (by rw [h1]; simp)
      | some v => rfl
    rw [hcase]
    exact hmain _ (Or.inr (Or.inr h1))

theorem getElem?_windowAt {α : Type} (left right : Nat) (v : α) (s : List α) (t w : Nat) (hw : w < left + 1 + right) : (windowAt left right v s t)[w]? = (padSeq left v s right)[t + w]? := by
  unfold windowAt
  rw [List.getElem?_take, if_pos hw, List.getElem?_drop]

theorem getElem?_valid {α : Type} {y : Padded α} {b : Nat} {q : Nat × List α} (h : y.seqs[b]? = some q) : y.valid[b]? = some (q.2.take q.1) := by
  unfold Padded.valid
  rw [List.getElem?_map, h]
  rfl

/-- C70: the windows with padding "same": frame `t` of each sequence gets the frames around it, with the pad value outside of the sequence. -/
theorem window_same {α : Type} [Inhabited α] (x : Padded α) (hx : x.Ok) (left right : Nat) (padValue : Option α) (useMask handle : Bool)
    (hc : WindowCfg x right padValue useMask handle) :
    ∃ y, windowInput x left right padValue useMask handle = .ok y ∧ y.seqs.length = x.seqs.length ∧
      ∀ (b : Nat) (q : Nat × List α) (s : List α), y.seqs[b]? = some q → x.valid[b]? = some s →
        ∃ rows, windowRow (left + 1 + right) x.T (padValue.getD default) q.2 = .ok rows ∧ rows.length = left + 1 + right ∧ (∀ r ∈ rows, r.length = x.T) ∧
          ∀ t < s.length, ∀ w < left + 1 + right,
            (rows[w]?).bind (fun (r : List α) => r[t]?) = (windowAt left right (padValue.getD default) s t)[w]? ∧
            (windowAt left right (padValue.getD default) s t).length = left + 1 + right := by
  obtain ⟨y, h1, h2, h3, h4⟩ := windowInput_valid x hx left right padValue useMask handle hc
  refine ⟨y, h1, ?_, ?_⟩
  · have := congrArg List.length h4
    simpa [Padded.valid] using this
  · intro b q s hq hs
    obtain ⟨k1, k2, k3⟩ := h2 q (List.mem_of_getElem? hq)
    have hql : q.2.length = x.T + (left + 1 + right) - 1 := by rw [k1, h3]; omega
    obtain ⟨w1, w2⟩ := windowRows_shape (left + 1 + right) x.T (padValue.getD default) q.2 (by omega) hql
    refine ⟨_, windowRow_ok _ _ _ _ (by omega) hql, w1, w2, ?_⟩
    intro t ht w hw
    have hv := getElem?_valid hq
    rw [h4, List.getElem?_map, hs] at hv
    simp only [Option.map_some, Option.some.injEq] at hv
    have hsT : s.length ≤ x.T := by
      have : s ∈ x.valid := List.mem_of_getElem? hs
      obtain ⟨p, hp, rfl⟩ := List.mem_map.1 this
      rw [seqs_fst_of_ok hx hp]
      exact (hx p hp).2.1
    have hlen : (padSeq left (padValue.getD default) s right).length = left + s.length + right := by unfold padSeq; simp; omega
    rw [getElem?_windowAt _ _ _ _ _ _ hw, windowRows_get (left + 1 + right) x.T _ q.2 (by omega) hql w t hw (by omega), hv, List.getElem?_take]
    refine ⟨?_, ?_⟩
    · rw [if_pos]
      have := congrArg List.length hv
      rw [hlen, List.length_take] at this
      omega
    · unfold windowAt
      rw [List.length_take, List.length_drop, hlen]
      omega

/-- C70: with a stride, every `stride`-th of these windows. -/
theorem window_stride {α : Type} [Inhabited α] (x : Padded α) (hx : x.Ok) (left right stride : Nat) (hst : 0 < stride) (padValue : Option α) (useMask handle : Bool)
    (hc : WindowCfg x right padValue useMask handle) :
    ∃ y, windowInput x left right padValue useMask handle = .ok y ∧ y.seqs.length = x.seqs.length ∧
      ∀ (b : Nat) (q : Nat × List α) (s : List α), y.seqs[b]? = some q → x.valid[b]? = some s →
        ∃ rows, windowStrided (left + 1 + right) x.T stride q.2 = .ok rows ∧ rows.length = (x.T + stride - 1) / stride ∧
          ∀ t, t * stride < s.length → rows[t]? = some (windowAt left right (padValue.getD default) s (t * stride)) := by
  obtain ⟨y, h1, h2, h3, h4⟩ := windowInput_valid x hx left right padValue useMask handle hc
  refine ⟨y, h1, ?_, ?_⟩
  · have := congrArg List.length h4
    simpa [Padded.valid] using this
  · intro b q s hq hs
    obtain ⟨k1, k2, k3⟩ := h2 q (List.mem_of_getElem? hq)
    have hv := getElem?_valid hq
    rw [h4, List.getElem?_map, hs] at hv
    simp only [Option.map_some, Option.some.injEq] at hv
    have hlen : (padSeq left (padValue.getD default) s right).length = left + s.length + right := by unfold padSeq; simp; omega
    have hbound : ∀ t, t < (x.T + stride - 1) / stride → t * stride < x.T := by
      intro t ht
      have := (Nat.lt_div_iff_mul_lt hst).1 ht
      omega
    have hgather : ∀ t ∈ List.range ((x.T + stride - 1) / stride),
        gatherRow q.2 ((List.range (left + 1 + right)).map (fun w => ((t * stride + w : Nat) : Int))) = .ok (((List.range (left + 1 + right)).map (fun w => t * stride + w)).filterMap (fun i => q.2[i]?)) := by
      intro t ht
      have := hbound t (List.mem_range.1 ht)
      rw [← gatherRow_ok]
      · rw [List.map_map]; rfl
      · intro i hi
        obtain ⟨w, hw, rfl⟩ := List.mem_map.1 hi
        have := List.mem_range.1 hw
        omega
    refine ⟨_, mapM_ok _ hgather, by simp, ?_⟩
    intro t ht
    have hsT : s.length ≤ x.T := by
      have : s ∈ x.valid := List.mem_of_getElem? hs
      obtain ⟨p, hp, rfl⟩ := List.mem_map.1 this
      rw [seqs_fst_of_ok hx hp]
      exact (hx p hp).2.1
    have htb : t < (x.T + stride - 1) / stride := by
      rw [Nat.lt_div_iff_mul_lt hst]
      omega
    rw [List.getElem?_map, List.getElem?_range htb]
    simp only [Option.map_some, Option.some.injEq]
    apply List.ext_getElem?
    intro w
    rw [getElem?_gathered _ _ (by
      intro i hi
      obtain ⟨w, hw, rfl⟩ := List.mem_map.1 hi
      have := List.mem_range.1 hw
      omega), List.getElem?_map]
    by_cases hw : w < left + 1 + right
    · rw [List.getElem?_range hw, getElem?_windowAt _ _ _ _ _ _ hw, hv, List.getElem?_take, if_pos]
      · rfl
      · have := congrArg List.length hv
        rw [hlen, List.length_take] at this
        omega
    · rw [List.getElem?_eq_none (by simp; omega), List.getElem?_eq_none (by unfold windowAt; rw [List.length_take]; omega)]
      rfl

/-- C70, refuted for the defaults: on an axis with padding, `pad_value` has to be given. -/
theorem window_default_raises {α : Type} [Inhabited α] (x : Padded α) (hm : x.masked = true) (hne : x.seqs ≠ []) (left right : Nat) (hr : right ≠ 0) :
    windowInput x left right none false true = .error .typeError := pad_no_value x hm hne left right hr

/-- C70, refuted without mask in the old behaviour: the windows at the end of a sequence see the padding of the batch. -/
theorem window_unmasked : (windowInput exBatch 1 1 none false false).map Padded.valid = .ok [[0, 1, 2, 3, 4, 0], [0, 5, 6, 91], [0, 7, 93]] := rfl

example : (windowInput exBatch 1 1 (some 0) false true).map (fun y => y.seqs.map (fun p => windowRows 3 4 0 p.2)) =
    .ok [[[0, 1, 2, 3], [1, 2, 3, 4], [2, 3, 4, 0]], [[0, 5, 6, 0], [5, 6, 0, 0], [6, 0, 0, 0]], [[0, 7, 0, 0], [7, 0, 0, 0], [0, 0, 0, 0]]] := by decide

example : windowAt 1 1 0 [5, 6] 1 = [5, 6, 0] := rfl

end Verif.RfSeq
