import Verif.RfScatter.Lemmas
/-
C115: `rf.scatter`.
-/
namespace Verif.RfScatter
open Verif.Py

/-- A call with padding: two valid frames, and one frame of padding which points to out index 0. -/
def exDims : Dims := ⟨true, true, 2, 2, 2⟩

example : Call exDims [0, 1, 0] ([5, 6, 7] : List Int) := ⟨rfl, by decide, by decide, by decide⟩

/-- `mode="sum"`: the sum of the values of all valid frames which point to an out index, and 0 without any. -/
theorem scatter_sum {α : Type} [AddCommMonoid α] [DecidableEq α] {d : Dims} {idx : List Nat} {src : List α} (hc : Call d idx src) :
    ∃ out, scatterSum (fun a b => a + b) (0 : α) none d idx src = .ok out ∧ out.length = d.O ∧
      ∀ o, o < d.O → out[o]? = some (sel (d.frames src.length) idx src o).sum := by
  refine ⟨(List.range d.O).map (fun o => (hits idx (maskSrc d (0 : α) src) o).foldl (fun a b => a + b) 0), ?_, by simp, ?_⟩
  · simp [scatterSum, scatterAdd_ok hc.bounds]
  · intro o ho
    rw [List.getElem?_map, List.getElem?_range ho, Option.map_some, foldl_sum, maskSrc_hits _ hc, List.sum_append, List.sum_replicate,
      smul_zero, add_zero, zero_add]

example : scatterSum (fun a b => a + b) (0 : Int) none exDims [0, 1, 0] [5, 6, 7] = .ok [5, 6] := by decide

/-- An index out of range is refused. -/
theorem scatter_bounds {α : Type} [AddCommMonoid α] [DecidableEq α] {d : Dims} {idx : List Nat} {src : List α} {fill : Option α} {i : Nat}
    (hi : i ∈ idx) (hO : d.O ≤ i) : scatterSum (fun a b => a + b) (0 : α) fill d idx src = .error (.other "RuntimeError") := by
  have : inBounds d.O idx = .error (.other "RuntimeError") := by
    unfold inBounds
    rw [if_neg]
    intro h
    have := List.all_eq_true.1 h i hi
    simp at this
    omega
  unfold scatterSum
  simp only
  split <;> simp [scatterAdd, scatterReduce, this, bind, Except.bind]

/-- `scatter` is the inverse of `gather`: with every out index exactly once, it puts the gathered values back. -/
theorem scatter_gather {α : Type} [AddCommMonoid α] [DecidableEq α] (x : List α) {idx : List Nat} (hp : idx.Perm (List.range x.length)) :
    scatterSum (fun a b => a + b) (0 : α) none ⟨false, false, x.length, x.length, x.length⟩ idx (gatherIdx x 0 idx) = .ok x := by
  have hl : idx.length = x.length := by rw [hp.length_eq]; simp
  have hb : ∀ i ∈ idx, i < x.length := fun i hi => List.mem_range.1 (hp.mem_iff.1 hi)
  have hn : idx.Nodup := hp.nodup_iff.2 List.nodup_range
  simp only [scatterSum, Option.getD_none, if_true, maskSrc, Dims.masked, Bool.and_self, Bool.false_eq_true, if_false]
  rw [scatterAdd_ok hb]
  congr 1
  apply List.ext_getElem?
  intro o
  rcases Nat.lt_or_ge o x.length with ho | ho
  · rw [List.getElem?_map, List.getElem?_range ho, Option.map_some]
    obtain ⟨k, hk⟩ := List.getElem?_of_mem (hp.mem_iff.2 (List.mem_range.2 ho))
    rw [hits_nodup hn hk (x := x.getD o 0) (by simp [gatherIdx, hk])]
    simp [List.getD, List.getElem?_eq_getElem ho]
  · rw [List.getElem?_eq_none (by simpa using ho), List.getElem?_eq_none ho]

/-- `mode="sum"` with another fill value.
Partial: only for out indices to which no frame of padding points, see `sum_fill_padding`. -/
theorem scatter_sum_fill_partial {α : Type} [AddCommMonoid α] [DecidableEq α] {d : Dims} {idx : List Nat} {src : List α} (hc : Call d idx src)
    {f : α} (hf : f ≠ 0) : ∃ out, scatterSum (fun a b => a + b) (0 : α) (some f) d idx src = .ok out ∧ out.length = d.O ∧
      ∀ o, o < d.O → (d.need = true → o ∉ idx.drop d.n) →
        out[o]? = some (if sel (d.frames src.length) idx src o = [] then f else (sel (d.frames src.length) idx src o).sum) := by
  refine ⟨(List.range d.O).map (fun o => reduceOr (fun a b => a + b) f (hits idx (maskSrc d f src) o)), ?_, by simp, ?_⟩
  · simp [scatterSum, hf, scatterReduce_ok hc.bounds]
  · intro o ho hpad
    have hz : (if d.masked = true then (idx.drop d.n).count o else 0) = 0 := by
      split
      · rename_i hm
        exact List.count_eq_zero.2 (hpad (by simp only [Dims.masked, Bool.and_eq_true] at hm; exact hm.1))
      · rfl
    rw [List.getElem?_map, List.getElem?_range ho, Option.map_some, maskSrc_hits _ hc, hz, List.replicate_zero, List.append_nil]
    cases sel (d.frames src.length) idx src o with
    | nil => rfl
    | cons x t =>
      simp only [reduceOr, foldl_sum, List.sum_cons]
      rfl

/-- Every frame of padding which points to an out index adds the fill value to its sum. -/
theorem sum_fill_padding {α : Type} [AddCommMonoid α] [DecidableEq α] {d : Dims} {idx : List Nat} {src : List α} (hc : Call d idx src)
    (hm : d.need = true ∧ d.useMask = true) {f : α} (hf : f ≠ 0) {o : Nat} (ho : o ∈ idx.drop d.n) :
    ∃ out, scatterSum (fun a b => a + b) (0 : α) (some f) d idx src = .ok out ∧
      out[o]? = some ((sel d.n idx src o).sum + (idx.drop d.n).count o • f) := by
  refine ⟨(List.range d.O).map (fun o => reduceOr (fun a b => a + b) f (hits idx (maskSrc d f src) o)), ?_, ?_⟩
  · simp [scatterSum, hf, scatterReduce_ok hc.bounds]
  · have hO := hc.bounds o (List.mem_of_mem_drop ho)
    have hfr : d.frames src.length = d.n := by rw [Dims.frames, if_pos hm]
    have hmk : d.masked = true := by simp [Dims.masked, hm]
    rw [List.getElem?_map, List.getElem?_range hO, Option.map_some, maskSrc_hits _ hc, hfr, if_pos hmk]
    have hpos : 0 < (idx.drop d.n).count o := List.count_pos_iff.2 ho
    congr 1
    rw [← List.sum_replicate, ← List.sum_append]
    cases hl : sel d.n idx src o ++ List.replicate ((idx.drop d.n).count o) f with
    | nil =>
      rw [List.append_eq_nil_iff, List.replicate_eq_nil_iff] at hl
      omega
    | cons x t => simp only [reduceOr, foldl_sum, List.sum_cons]

example : scatterSum (fun a b => a + b) (0 : Int) (some 1) exDims [0, 1, 0] [5, 6, 7] = .ok [6, 6] := by decide

/-- `mode="max"`: the largest value of all valid frames which point to an out index, and the lowest value without any.
Partial: without a fill value, or for out indices to which no frame of padding points, see `max_fill_padding`. -/
theorem scatter_max_partial {α : Type} [LinearOrder α] {bot zero : α} {fill : Option α} {d : Dims} {idx : List Nat} {src : List α}
    (hc : Call d idx src) (hbot : ∀ x ∈ src, bot ≤ x) :
    ∃ out, scatterMax max bot zero fill d idx src = .ok out ∧ out.length = d.O ∧
      ∀ o, o < d.O → (d.need = true ∧ d.useMask = true → o < d.outLen ∧ (fill ≠ none → o ∉ idx.drop d.n)) →
        (sel (d.frames src.length) idx src o = [] → out[o]? = some (fill.getD bot)) ∧
        (sel (d.frames src.length) idx src o ≠ [] → ∃ x, out[o]? = some x ∧ IsMax (sel (d.frames src.length) idx src o) x) := by
  obtain ⟨out, h1, h2, h3⟩ := scatterMax_get (mx := max) (bot := bot) (zero := zero) (fill := fill) hc
  refine ⟨out, h1, h2, fun o ho hm => ?_⟩
  have hm' : d.masked = true → d.need = true ∧ d.useMask = true := by
    intro h
    simpa [Dims.masked] using h
  have hz := h3 o ho (fun h => (hm (hm' h)).1)
  have hk : fill ≠ none → (if d.masked = true then (idx.drop d.n).count o else 0) = 0 := by
    intro hf
    split
    · rename_i h
      exact List.count_eq_zero.2 ((hm (hm' h)).2 hf)
    · rfl
  generalize (if d.masked = true then (idx.drop d.n).count o else 0) = k at hz hk
  constructor
  · intro hs
    rw [hz, hs, List.nil_append]
    congr 1
    cases k with
    | zero => rfl
    | succ k =>
      have hne : List.replicate (k + 1) (fill.getD bot) ≠ [] := by simp
      exact List.eq_of_mem_replicate (reduceOr_max hne).1
  · intro hs
    refine ⟨_, hz, ?_⟩
    cases fill with
    | none =>
      obtain ⟨h4, h5⟩ := reduceOr_max (fill := bot) (l := sel (d.frames src.length) idx src o ++ List.replicate k bot) (by simp [hs])
      refine ⟨?_, fun y hy => h5 y (by simp [hy])⟩
      rcases List.mem_append.1 h4 with h | h
      · exact h
      · have he := List.eq_of_mem_replicate h
        obtain ⟨y, hy⟩ := List.exists_mem_of_ne_nil _ hs
        have hle := h5 y (by simp [hy])
        obtain ⟨i, _, _, h6⟩ := mem_sel.1 hy
        have hge := hbot y (List.mem_of_getElem? h6)
        rw [he] at hle
        show reduceOr max bot (sel (d.frames src.length) idx src o ++ List.replicate k bot) ∈ _
        rw [he]
        have : y = bot := le_antisymm hle hge
        rw [← this]
        exact hy
    | some f =>
      have := hk (by simp)
      subst this
      rw [List.replicate_zero, List.append_nil]
      exact reduceOr_max hs

/-- `mode="min"` is the same for the other order. -/
theorem scatter_min_partial {α : Type} [LinearOrder α] {top zero : α} {fill : Option α} {d : Dims} {idx : List Nat} {src : List α}
    (hc : Call d idx src) (htop : ∀ x ∈ src, x ≤ top) :
    ∃ out, scatterMax min top zero fill d idx src = .ok out ∧ out.length = d.O ∧
      ∀ o, o < d.O → (d.need = true ∧ d.useMask = true → o < d.outLen ∧ (fill ≠ none → o ∉ idx.drop d.n)) →
        (sel (d.frames src.length) idx src o = [] → out[o]? = some (fill.getD top)) ∧
        (sel (d.frames src.length) idx src o ≠ [] → ∃ x, out[o]? = some x ∧ x ∈ sel (d.frames src.length) idx src o ∧
          ∀ y ∈ sel (d.frames src.length) idx src o, x ≤ y) :=
  scatter_max_partial (α := αᵒᵈ) (bot := top) (zero := zero) (fill := fill) hc htop

example : scatterMax max (-100) 0 none exDims [0, 1, 0] ([-5, -6, 7] : List Int) = .ok [-5, -6] := by decide

/-- With a fill value above the values, the padding wins. -/
theorem max_fill_padding : ∃ (d : Dims) (idx : List Nat) (src : List Int), Call d idx src ∧ sel d.n idx src 0 = [-5] ∧
    scatterMax max (-100) 0 (some 0) d idx src = .ok [0, -6] :=
  ⟨exDims, [0, 1, 0], [-5, -6, 7], ⟨rfl, by decide, by decide, by decide⟩, by decide, by decide⟩

theorem maxPositions_get {α : Type} [DecidableEq α] {d : Dims} {M : Int} {a src : List α} (hl : a.length = src.length) {i : Nat} {x : α}
    (hx : src[i]? = some x) : ∃ y, a[i]? = some y ∧
      (maxPositions d M a src)[i]? = some (if (d.need = true → i < d.n) ∧ y = x then (i : Int) else M) := by
  have hi : i < a.length := by
    rw [hl]
    exact (List.getElem?_eq_some_iff.1 hx).1
  refine ⟨a[i], List.getElem?_eq_getElem hi, ?_⟩
  unfold maxPositions maskBool
  rw [List.getElem?_mapIdx]
  have hz : (List.zipWith (fun a b => decide (a = b)) a src)[i]? = some (decide (a[i] = x)) := by
    rw [List.getElem?_zipWith, List.getElem?_eq_getElem hi, hx]
  by_cases hn : d.need = true
  · rw [if_pos hn, maskTo, List.getElem?_mapIdx, hz]
    simp only [Option.map_some, hn, true_imp_iff]
    by_cases h1 : i < d.n <;> simp [h1]
  · rw [if_neg hn, hz]
    simp [hn]

theorem maxPositions_length {α : Type} [DecidableEq α] {d : Dims} {M : Int} {a src : List α} (hl : a.length = src.length) :
    (maxPositions d M a src).length = src.length := by
  unfold maxPositions maskBool
  rw [List.length_mapIdx]
  split
  · rw [maskTo_length, List.length_zipWith, hl, Nat.min_self]
  · rw [List.length_zipWith, hl, Nat.min_self]

/-- The two steps of `scatter_argmax`. -/
theorem argmax_steps {α : Type} [LinearOrder α] {bot zero : α} {M invalid : Int} {d : Dims} {idx : List Nat} {src : List α}
    (hc : Call d idx src) :
    ∃ m p : List _, scatterMax max bot zero none d idx src = .ok m ∧
      p = maxPositions d M (gatherIdx m zero idx) src ∧ Call d idx p ∧ p.length = src.length ∧
      ∃ out, scatterArgmax bot zero M invalid d idx src = .ok out ∧ out.length = d.O ∧
      ∀ o, o < d.O → (d.masked = true → o < d.outLen) → ∃ r, r = reduceOr min invalid
        (sel (d.frames src.length) idx p o ++ List.replicate (if d.masked then (idx.drop d.n).count o else 0) invalid) ∧
        out[o]? = some (if r ≠ M then r else invalid) := by
  obtain ⟨m, h1, h2, h3⟩ := scatterMax_get (mx := max) (bot := bot) (zero := zero) (fill := none) hc
  have hpl : (maxPositions d M (gatherIdx m zero idx) src).length = src.length :=
    maxPositions_length (by simp [gatherIdx, hc.len])
  have hc' : Call d idx (maxPositions d M (gatherIdx m zero idx) src) := ⟨by rw [hpl]; exact hc.len, by rw [hpl]; exact hc.n, hc.bounds, hc.out⟩
  obtain ⟨out, h4, h5, h6⟩ := scatterMax_get (mx := min) (bot := M) (zero := 0) (fill := some invalid) hc'
  rw [hpl] at h6
  refine ⟨m, _, h1, rfl, hc', hpl, if M ≠ invalid then out.map (fun x => if x ≠ M then x else invalid) else out, ?_, ?_, ?_⟩
  · simp [scatterArgmax, h1, h4, bind, Except.bind]
  · split <;> simp [h5]
  · intro o ho hm
    refine ⟨_, rfl, ?_⟩
    have := h6 o ho hm
    by_cases hM : M = invalid
    · subst hM
      simp only [ne_eq, not_true, if_false]
      rw [this]
      congr 1
      simp only [Option.getD_some]
      generalize reduceOr min M _ = r
      by_cases h : r = M <;> simp [h]
    · rw [if_pos hM, List.getElem?_map, this]
      rfl

/-- `scatter_argmax`: the first valid frame with the largest value among those which point to an out index, and `invalid_idx` without any.
Partial: only for out indices to which no frame of padding points, see `argmax_padding`. -/
theorem scatter_argmax_partial {α : Type} [LinearOrder α] {bot zero : α} {M invalid : Int} {d : Dims} {idx : List Nat} {src : List α}
    (hc : Call d idx src) (hbot : ∀ x ∈ src, bot ≤ x) (hM : (src.length : Int) ≤ M) (hd : d.need = true → d.useMask = true) :
    ∃ out, scatterArgmax bot zero M invalid d idx src = .ok out ∧ out.length = d.O ∧
      ∀ o, o < d.O → (d.need = true → o < d.outLen ∧ o ∉ idx.drop d.n) →
        (sel (d.frames src.length) idx src o = [] → out[o]? = some invalid) ∧
        (sel (d.frames src.length) idx src o ≠ [] → ∃ i x, i < d.frames src.length ∧ out[o]? = some (i : Int) ∧ idx[i]? = some o ∧
          src[i]? = some x ∧ IsMax (sel (d.frames src.length) idx src o) x ∧
          ∀ j y, j < i → idx[j]? = some o → src[j]? = some y → y < x) := by
  obtain ⟨m, p, h1, hp, hc', hpl, out, h2, h3, h4⟩ := argmax_steps (bot := bot) (zero := zero) (M := M) (invalid := invalid) hc
  obtain ⟨m', h1', hml, hmax⟩ := scatter_max_partial (bot := bot) (zero := zero) (fill := none) hc hbot
  rw [h1] at h1'
  simp only [Except.ok.injEq] at h1'
  subst h1'
  refine ⟨out, h2, h3, fun o ho hm => ?_⟩
  have hmk : d.masked = true → d.need = true := by
    intro h
    simp only [Dims.masked, Bool.and_eq_true] at h
    exact h.1
  obtain ⟨r, hr, hro⟩ := h4 o ho (fun h => (hm (hmk h)).1)
  have hk : (if d.masked = true then (idx.drop d.n).count o else 0) = 0 := by
    split
    · rename_i h
      exact List.count_eq_zero.2 (hm (hmk h)).2
    · rfl
  rw [hk, List.replicate_zero, List.append_nil] at hr
  obtain ⟨ha, hb⟩ := hmax o ho (fun h => ⟨(hm h.1).1, by simp⟩)
  have hfr : ∀ i, i < d.frames src.length → (d.need = true → i < d.n) := by
    intro i hi hn
    rw [Dims.frames, if_pos ⟨hn, hd hn⟩] at hi
    exact hi
  have hfl : d.frames src.length ≤ src.length := by
    unfold Dims.frames
    split
    · exact hc.n
    · exact Nat.le_refl _
  constructor
  · intro hs
    have : sel (d.frames src.length) idx p o = [] := by
      rw [List.eq_nil_iff_forall_not_mem] at hs ⊢
      intro x hx
      obtain ⟨i, hi1, hi2, hi3⟩ := mem_sel.1 hx
      have hi4 : i < src.length := by omega
      exact hs src[i] (mem_sel.2 ⟨i, hi1, hi2, List.getElem?_eq_getElem hi4⟩)
    rw [this] at hr
    simp only [reduceOr] at hr
    rw [hro, hr]
    simp
  · intro hs
    obtain ⟨x, hx1, hx2, hx3⟩ := hb hs
    -- what is at the positions
    have hpos : ∀ i y, i < d.frames src.length → idx[i]? = some o → src[i]? = some y →
        p[i]? = some (if x = y then (i : Int) else M) := by
      intro i y hi1 hi2 hi3
      obtain ⟨w, hw1, hw2⟩ := maxPositions_get (d := d) (M := M) (a := gatherIdx m zero idx) (src := src) (by simp [gatherIdx, hc.len]) hi3
      have hwx : w = x := by
        simp only [gatherIdx, List.getElem?_map, hi2, Option.map_some, Option.some.injEq, List.getD, hx1, Option.getD_some] at hw1
        exact hw1.symm
      rw [hp, hw2, hwx]
      by_cases hxy : x = y
      · rw [if_pos ⟨hfr i hi1, hxy⟩, if_pos hxy]
      · rw [if_neg (fun h => hxy h.2), if_neg hxy]
    obtain ⟨j, hj1, hj2, hj3⟩ := mem_sel.1 hx2
    have hjp := hpos j x hj1 hj2 hj3
    rw [if_pos rfl] at hjp
    have hne : sel (d.frames src.length) idx p o ≠ [] := List.ne_nil_of_mem (mem_sel.2 ⟨j, hj1, hj2, hjp⟩)
    obtain ⟨hr1, hr2⟩ := reduceOr_min (fill := invalid) hne
    rw [← hr] at hr1 hr2
    have hrj := hr2 _ (mem_sel.2 ⟨j, hj1, hj2, hjp⟩)
    have hrM : r < M := by omega
    obtain ⟨i, hi1, hi2, hi3⟩ := mem_sel.1 hr1
    have hil : i < src.length := by omega
    have hip := hpos i src[i] hi1 hi2 (List.getElem?_eq_getElem hil)
    rw [hi3] at hip
    simp only [Option.some.injEq] at hip
    split at hip
    · rename_i hxi
      refine ⟨i, x, hi1, ?_, hi2, by rw [List.getElem?_eq_getElem hil, ← hxi], ⟨hx2, hx3⟩, ?_⟩
      · rw [hro, if_pos (by omega), hip]
      · intro k y hk1 hk2 hk3
        have hk4 : k < d.frames src.length := by omega
        have hle := hx3 y (mem_sel.2 ⟨k, hk4, hk2, hk3⟩)
        rcases lt_or_eq_of_le hle with h | h
        · exact h
        · have hkp := hpos k y hk4 hk2 hk3
          rw [if_pos h.symm] at hkp
          have := hr2 _ (mem_sel.2 ⟨k, hk4, hk2, hkp⟩)
          omega
    · omega

example : scatterArgmax (-100) 0 2147483647 (-1) ⟨false, true, 4, 3, 3⟩ [1, 0, 1, 1] ([3, 4, 5, 5] : List Int) = .ok [1, 2, -1] := by decide

/-- With masking, `scatter_argmax` gives `invalid_idx` for every out index to which a frame of padding points, whatever the valid frames are:
the padding gets the fill value, which is `invalid_idx`, and this is the smallest of all. -/
theorem argmax_padding {α : Type} [LinearOrder α] {bot zero : α} {M invalid : Int} {d : Dims} {idx : List Nat} {src : List α}
    (hc : Call d idx src) (hm : d.need = true ∧ d.useMask = true) (hinv : invalid ≤ 0) (hM : 0 ≤ M) {o : Nat} (ho : o < d.outLen)
    (hpad : o ∈ idx.drop d.n) :
    ∃ out, scatterArgmax bot zero M invalid d idx src = .ok out ∧ out[o]? = some invalid := by
  obtain ⟨m, p, h1, hp, hc', hpl, out, h2, h3, h4⟩ := argmax_steps (bot := bot) (zero := zero) (M := M) (invalid := invalid) hc
  refine ⟨out, h2, ?_⟩
  have hO := hc.bounds o (List.mem_of_mem_drop hpad)
  obtain ⟨r, hr, hro⟩ := h4 o hO (fun _ => ho)
  have hmk : d.masked = true := by simp [Dims.masked, hm]
  rw [if_pos hmk] at hr
  have hpos : 0 < (idx.drop d.n).count o := List.count_pos_iff.2 hpad
  have hmem : invalid ∈ sel (d.frames src.length) idx p o ++ List.replicate ((idx.drop d.n).count o) invalid := by
    rw [List.mem_append, List.mem_replicate]
    exact .inr ⟨by omega, rfl⟩
  obtain ⟨hr1, hr2⟩ := reduceOr_min (fill := invalid) (List.ne_nil_of_mem hmem)
  rw [← hr] at hr1 hr2
  have hle := hr2 _ hmem
  have hge : invalid ≤ r := by
    rcases List.mem_append.1 hr1 with h | h
    · obtain ⟨i, _, _, hi⟩ := mem_sel.1 h
      rw [hp] at hi
      unfold maxPositions at hi
      rw [List.getElem?_mapIdx] at hi
      obtain ⟨b, _, hb⟩ := Option.map_eq_some_iff.1 hi
      split at hb <;> omega
    · rw [List.eq_of_mem_replicate h]
  have : r = invalid := by omega
  rw [hro, this]
  simp

/-- The largest value for out index 0 is in frame 0, but the result says that there is none. -/
example : Call exDims [0, 1, 0] ([5, 6, 7] : List Int) ∧ sel 2 [0, 1, 0] ([5, 6, 7] : List Int) 0 = [5] ∧
    scatterArgmax (-100) 0 2147483647 (-1) exDims [0, 1, 0] ([5, 6, 7] : List Int) = .ok [-1, 1] :=
  ⟨⟨rfl, by decide, by decide, by decide⟩, by decide, by decide⟩

end Verif.RfScatter
