import Verif.RfScatter.Spec
import Mathlib.Tactic.Common
namespace Verif.RfScatter
open Verif.Py

theorem hits_append {α : Type} {a b : List Nat} {c e : List α} (h : a.length = c.length) (o : Nat) :
    hits (a ++ b) (c ++ e) o = hits a c o ++ hits b e o := by
  unfold hits
  rw [List.zip_append h, List.filter_append, List.map_append]

theorem hits_replicate {α : Type} (b : List Nat) (v : α) (o : Nat) : hits b (List.replicate b.length v) o = List.replicate (b.count o) v := by
  induction b with
  | nil => rfl
  | cons x t ih =>
    unfold hits at *
    simp only [List.length_cons, List.replicate_succ, List.zip_cons_cons, List.filter_cons, List.count_cons]
    by_cases h : x = o
    · simp [h, ih, List.replicate_succ]
    · simp [h, ih]

theorem hits_eq {α : Type} {idx : List Nat} {src : List α} (h : idx.length = src.length) (o : Nat) :
    hits idx src o = sel src.length idx src o := by
  induction idx generalizing src with
  | nil =>
    have : src = [] := List.length_eq_zero_iff.1 h.symm
    subst this
    rfl
  | cons x t ih =>
    cases src with
    | nil => simp at h
    | cons y s =>
      have h' : t.length = s.length := by simpa using h
      have := ih h'
      unfold hits sel at *
      rw [List.length_cons, List.range_succ_eq_map, List.filterMap_cons, List.filterMap_map]
      simp only [List.zip_cons_cons, List.filter_cons, List.getElem?_cons_zero, Function.comp_def, Nat.succ_eq_add_one,
        List.getElem?_cons_succ]
      by_cases hx : x = o
      · simp [hx]
        simpa using this
      · simp [hx]
        simpa using this

theorem maskTo_eq {α : Type} (n : Nat) (v : α) (src : List α) : maskTo n v src = src.take n ++ List.replicate (src.length - n) v := by
  apply List.ext_getElem?
  intro i
  rw [maskTo, List.getElem?_mapIdx]
  rcases Nat.lt_or_ge i src.length with h | h
  · rw [List.getElem?_eq_getElem h]
    rcases Nat.lt_or_ge i n with h' | h'
    · rw [List.getElem?_append_left (by simp; omega)]
      simp [h', h]
    · rw [List.getElem?_append_right (by simp; omega), List.getElem?_replicate]
      simp [show ¬ i < n by omega]
      omega
  · rw [List.getElem?_eq_none h, Option.map_none, eq_comm, List.getElem?_eq_none]
    simp; omega

theorem sel_take {α : Type} {v : Nat} {idx : List Nat} {src : List α} (o : Nat) :
    sel v (idx.take v) (src.take v) o = sel v idx src o := by
  unfold sel
  apply List.filterMap_congr
  intro i hi
  rw [List.mem_range] at hi
  simp [List.getElem?_take, hi]

theorem hits_mask {α : Type} {idx : List Nat} {src : List α} {n : Nat} (v : α) (h : idx.length = src.length) (hn : n ≤ src.length) (o : Nat) :
    hits idx (maskTo n v src) o = sel n idx src o ++ List.replicate ((idx.drop n).count o) v := by
  rw [maskTo_eq]
  conv_lhs => rw [← List.take_append_drop n idx]
  rw [hits_append (by simp [h]), hits_eq (by simp [h])]
  have : src.length - n = (idx.drop n).length := by simp [h]
  rw [this, hits_replicate]
  congr 1
  rw [show (List.take n src).length = n by simp [hn]]
  exact sel_take o

theorem maskSrc_hits {α : Type} {d : Dims} {idx : List Nat} {src : List α} (v : α) (hc : Call d idx src) (o : Nat) :
    hits idx (maskSrc d v src) o =
      sel (d.frames src.length) idx src o ++ List.replicate (if d.masked then (idx.drop d.n).count o else 0) v := by
  unfold maskSrc Dims.frames Dims.masked
  by_cases h : d.need = true ∧ d.useMask = true
  · rw [if_pos h]
    simp only [h.1, h.2, Bool.and_self, if_true]
    exact hits_mask v hc.len hc.n o
  · rw [if_neg h]
    have : (d.need && d.useMask) = false := by
      rw [Bool.eq_false_iff]
      intro h'
      rw [Bool.and_eq_true] at h'
      exact h h'
    simp only [this, Bool.false_eq_true, if_false, List.replicate_zero, List.append_nil]
    exact hits_eq hc.len o

theorem inBounds_ok {O : Nat} {idx : List Nat} (h : ∀ i ∈ idx, i < O) : inBounds O idx = .ok () := by
  unfold inBounds
  rw [if_pos]
  rw [List.all_eq_true]
  intro i hi
  simpa using h i hi

theorem scatterReduce_ok {α : Type} {f : α → α → α} {fill : α} {O : Nat} {idx : List Nat} {src : List α} (h : ∀ i ∈ idx, i < O) :
    scatterReduce f fill O idx src = .ok ((List.range O).map (fun o => reduceOr f fill (hits idx src o))) := by
  simp [scatterReduce, inBounds_ok h, bind, Except.bind]

theorem scatterAdd_ok {α : Type} {add : α → α → α} {zero : α} {O : Nat} {idx : List Nat} {src : List α} (h : ∀ i ∈ idx, i < O) :
    scatterAdd add zero O idx src = .ok ((List.range O).map (fun o => (hits idx src o).foldl add zero)) := by
  simp [scatterAdd, inBounds_ok h, bind, Except.bind]

theorem foldl_sum {α : Type} [AddCommMonoid α] (l : List α) (z : α) : l.foldl (fun a b => a + b) z = z + l.sum := by
  induction l generalizing z with
  | nil => simp
  | cons x t ih => rw [List.foldl_cons, ih, List.sum_cons, add_assoc]

theorem maskTo_get {α : Type} {n : Nat} {v : α} {l : List α} {i : Nat} (h : i < n) : (maskTo n v l)[i]? = l[i]? := by
  rw [maskTo, List.getElem?_mapIdx]
  cases l[i]? <;> simp [h]

theorem maskTo_length {α : Type} (n : Nat) (v : α) (l : List α) : (maskTo n v l).length = l.length := by simp [maskTo]

theorem maskOut_get {α : Type} {d : Dims} {v : α} {l : List α} {i : Nat} (h : d.masked = true → i < d.outLen) : (maskOut d v l)[i]? = l[i]? := by
  unfold maskOut
  split
  · rename_i hm
    exact maskTo_get (h hm)
  · rfl

theorem maskOut_length {α : Type} (d : Dims) (v : α) (l : List α) : (maskOut d v l).length = l.length := by
  unfold maskOut
  split
  · exact maskTo_length _ _ _
  · rfl

theorem foldl_max {α : Type} [LinearOrder α] (l : List α) (x : α) : IsMax (x :: l) (l.foldl max x) := by
  induction l generalizing x with
  | nil => exact ⟨by simp, by simp⟩
  | cons y t ih =>
    rw [List.foldl_cons]
    obtain ⟨h1, h2⟩ := ih (max x y)
    constructor
    · rcases List.mem_cons.1 h1 with h | h
      · rw [h]
        rcases max_choice x y with h' | h' <;> rw [h'] <;> simp
      · simp [h]
    · intro z hz
      have hm := h2 (max x y) (by simp)
      rcases List.mem_cons.1 hz with rfl | hz
      · exact le_trans (le_max_left _ _) hm
      · rcases List.mem_cons.1 hz with rfl | hz
        · exact le_trans (le_max_right _ _) hm
        · exact h2 z (by simp [hz])

theorem reduceOr_max {α : Type} [LinearOrder α] {fill : α} {l : List α} (h : l ≠ []) : IsMax l (reduceOr max fill l) := by
  cases l with
  | nil => exact absurd rfl h
  | cons x t => exact foldl_max t x

/-- The out entry of the maximum scatter. -/
theorem scatterMax_get {α : Type} {mx : α → α → α} {bot zero : α} {fill : Option α} {d : Dims} {idx : List Nat} {src : List α}
    (hc : Call d idx src) : ∃ out, scatterMax mx bot zero fill d idx src = .ok out ∧ out.length = d.O ∧
      ∀ o, o < d.O → (d.masked = true → o < d.outLen) → out[o]? = some (reduceOr mx (fill.getD bot)
        (sel (d.frames src.length) idx src o ++ List.replicate (if d.masked then (idx.drop d.n).count o else 0) (fill.getD bot))) := by
  refine ⟨maskOut d zero ((List.range d.O).map (fun o => reduceOr mx (fill.getD bot) (hits idx (maskSrc d (fill.getD bot) src) o))), ?_, ?_, ?_⟩
  · simp [scatterMax, scatterReduce_ok hc.bounds, bind, Except.bind]
  · rw [maskOut_length]; simp
  · intro o ho hm
    rw [maskOut_get hm, List.getElem?_map, List.getElem?_range ho, Option.map_some, maskSrc_hits _ hc]

theorem mem_sel {α : Type} {v : Nat} {idx : List Nat} {src : List α} {o : Nat} {x : α} :
    x ∈ sel v idx src o ↔ ∃ i, i < v ∧ idx[i]? = some o ∧ src[i]? = some x := by
  unfold sel
  rw [List.mem_filterMap]
  constructor
  · rintro ⟨i, h1, h2⟩
    rw [List.mem_range] at h1
    split at h2
    · exact ⟨i, h1, by assumption, h2⟩
    · cases h2
  · rintro ⟨i, h1, h2, h3⟩
    exact ⟨i, List.mem_range.2 h1, by rw [if_pos h2]; exact h3⟩

theorem replicate_ne_nil {α : Type} {k : Nat} {v : α} {l : List α} (hl : l = []) (h : l ++ List.replicate k v ≠ []) :
    ∀ x ∈ l ++ List.replicate k v, x = v := by
  subst hl
  intro x hx
  rw [List.nil_append] at hx
  exact List.eq_of_mem_replicate hx

theorem foldl_min {α : Type} [LinearOrder α] (l : List α) (x : α) : l.foldl min x ∈ x :: l ∧ ∀ y ∈ x :: l, l.foldl min x ≤ y := by
  have := foldl_max (α := αᵒᵈ) l x
  exact this

theorem reduceOr_min {α : Type} [LinearOrder α] {fill : α} {l : List α} (h : l ≠ []) :
    reduceOr min fill l ∈ l ∧ ∀ y ∈ l, reduceOr min fill l ≤ y := by
  cases l with
  | nil => exact absurd rfl h
  | cons x t => exact foldl_min t x

theorem sel_map {α β : Type} {v : Nat} {idx : List Nat} {src : List α} {src' : List β} {o : Nat} (g : α → β)
    (h : ∀ i, i < v → idx[i]? = some o → src'[i]? = (src[i]?).map g) : sel v idx src' o = (sel v idx src o).map g := by
  unfold sel
  rw [List.map_filterMap]
  apply List.filterMap_congr
  intro i hi
  rw [List.mem_range] at hi
  by_cases hx : idx[i]? = some o
  · simp only [if_pos hx]
    exact h i hi hx
  · simp only [if_neg hx]
    rfl

theorem sel_none {α : Type} {v : Nat} {idx : List Nat} {src : List α} {o : Nat} (h : o ∉ idx) : sel v idx src o = [] := by
  rw [List.eq_nil_iff_forall_not_mem]
  intro x hx
  obtain ⟨i, _, h1, _⟩ := mem_sel.1 hx
  exact h (List.mem_of_getElem? h1)

theorem hits_nodup {α : Type} {idx : List Nat} {src : List α} (hn : idx.Nodup) : ∀ {k o : Nat} {x : α}, idx[k]? = some o → src[k]? = some x →
    hits idx src o = [x] := by
  induction idx generalizing src with
  | nil => intro k o x h; simp at h
  | cons a t ih =>
    intro k o x h1 h2
    cases src with
    | nil => simp at h2
    | cons y s =>
      rw [List.nodup_cons] at hn
      cases k with
      | zero =>
        simp only [List.getElem?_cons_zero, Option.some.injEq] at h1 h2
        subst h1 h2
        unfold hits
        simp only [List.zip_cons_cons, List.filter_cons, beq_self_eq_true, if_true, List.map_cons]
        congr 1
        rw [List.filter_eq_nil_iff.2]
        · rfl
        · rintro ⟨p, q⟩ hp
          have := (List.of_mem_zip hp).1
          intro he
          simp only [beq_iff_eq] at he
          subst he
          exact hn.1 this
      | succ k =>
        simp only [List.getElem?_cons_succ] at h1 h2
        have hne : a ≠ o := by
          rintro rfl
          exact hn.1 (List.mem_of_getElem? h1)
        have := ih hn.2 h1 h2
        unfold hits at *
        simp only [List.zip_cons_cons, List.filter_cons, beq_iff_eq, hne, if_false]
        exact this

end Verif.RfScatter
