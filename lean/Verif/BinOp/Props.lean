import Verif.BinOp.Combine
/-
Theorems about `a + b`, `rf.combine`, `rf.compare` and `copy_compatible_to_dims`.
-/
namespace Verif.BinOp

open Verif.Py

variable {α β : Type}

/-! ### C83: broadcasting by named dims -/

theorem opLike_ok {op : α → α → β} {isBool : Bool} {t : Tensor α} {x y : Raw α} {out : Tensor β}
    (h : opLike op isBool t x y = .ok out) :
    ∃ r, rawOp op x y = .ok r ∧ out = ⟨t.dims, t.feat, if isBool then none else t.sparse, r⟩ := by
  unfold opLike at h
  split at h
  · simp at h
  · next r hr => exact ⟨r, hr, (Except.ok.inj h).symm⟩

/-- The operation with the dims of the first operand. -/
theorem opLike_left {sz : Nat → Nat} {op : α → α → β} {isBool : Bool} {a b : Tensor α} {pb : List (Option Nat)}
    {rb : Raw α} (hva : Valid sz a) (hvb : Valid sz b) (hb : Aligned sz a.dims b pb rb) :
    ∃ out, opLike op isBool a a.raw rb = .ok out ∧ out.dims = a.dims ∧ IsBroadcastAxes sz op a b out := by
  obtain ⟨r, h1, h2⟩ := broadcast_of_aligned op hva hvb (aligned_id hva) hb (by
    intro c
    have := count_le_of_matches hb.m c
    omega)
  exact ⟨_, by simp only [opLike, h1, likeTensor]; rfl, rfl, h2 _ _⟩

/-- The operation with the dims of the second operand. -/
theorem opLike_right {sz : Nat → Nat} {op : α → α → β} {isBool : Bool} {a b : Tensor α} {pa : List (Option Nat)}
    {ra : Raw α} (hva : Valid sz a) (hvb : Valid sz b) (ha : Aligned sz b.dims a pa ra) :
    ∃ out, opLike op isBool b ra b.raw = .ok out ∧ out.dims = b.dims ∧ IsBroadcastAxes sz op a b out := by
  obtain ⟨r, h1, h2⟩ := broadcast_of_aligned op hva hvb ha (aligned_id hvb) (by
    intro c
    have := count_le_of_matches ha.m c
    omega)
  exact ⟨_, by simp only [opLike, h1, likeTensor]; rfl, rfl, h2 _ _⟩

theorem opSubset_left {sz : Nat → Nat} {op : α → α → β} {isBool : Bool} {a b : Tensor α} {p : List (Option Nat)}
    (hva : Valid sz a) (hvb : Valid sz b) (hm : Matches b.dims a.dims p) :
    ∃ out, opSubset op isBool true a b p = .ok out ∧ out.dims = a.dims ∧ IsBroadcastAxes sz op a b out := by
  obtain ⟨r, h1, h2⟩ := aligned_native hvb hm
  obtain ⟨out, h3, h4⟩ := opLike_left (op := op) (isBool := isBool) hva hvb h2
  exact ⟨out, by simp only [opSubset, h1, if_true]; exact h3, h4⟩

theorem opSubset_right {sz : Nat → Nat} {op : α → α → β} {isBool : Bool} {a b : Tensor α} {p : List (Option Nat)}
    (hva : Valid sz a) (hvb : Valid sz b) (hm : Matches a.dims b.dims p) :
    ∃ out, opSubset op isBool false a b p = .ok out ∧ out.dims = b.dims ∧ IsBroadcastAxes sz op a b out := by
  obtain ⟨r, h1, h2⟩ := aligned_native hva hm
  obtain ⟨out, h3, h4⟩ := opLike_right (op := op) (isBool := isBool) hva hvb h2
  exact ⟨out, by simp only [opSubset, h1]; exact h3, h4⟩

/-- What a fast path guarantees. -/
def FastResult (sz : Nat → Nat) (op : α → α → β) (a b : Tensor α) (order : Option (List Dim)) (out : Tensor β) : Prop :=
  IsBroadcastAxes sz op a b out ∧ (out.dims = a.dims ∨ out.dims = b.dims) ∧ orderIs order out.dims = true

/-- The native code takes a fast path, with a correct result, or the generic path. -/
theorem opTensors_cases {sz : Nat → Nat} (op : α → α → β) (isBool allow : Bool) {a b : Tensor α}
    (order : Option (List Dim)) (hva : Valid sz a) (hvb : Valid sz b) :
    (∃ out, opTensors op isBool allow a b order = .ok out ∧ FastResult sz op a b order out) ∨
    opTensors op isBool allow a b order = opGeneric op isBool allow a b order := by
  have left : ∀ {p : List (Option Nat)}, orderIs order a.dims = true → Matches b.dims a.dims p →
      ∃ out, opSubset op isBool true a b p = .ok out ∧ FastResult sz op a b order out := by
    intro p ho hm
    obtain ⟨out, h1, h2, h3⟩ := opSubset_left (op := op) (isBool := isBool) hva hvb hm
    exact ⟨out, h1, h3, Or.inl h2, by rw [h2]; exact ho⟩
  have right : ∀ {p : List (Option Nat)}, orderIs order b.dims = true → Matches a.dims b.dims p →
      ∃ out, opSubset op isBool false a b p = .ok out ∧ FastResult sz op a b order out := by
    intro p ho hm
    obtain ⟨out, h1, h2, h3⟩ := opSubset_right (op := op) (isBool := isBool) hva hvb hm
    exact ⟨out, h1, h3, Or.inr h2, by rw [h2]; exact ho⟩
  unfold opTensors
  split
  · next h =>
    left
    have hb : Aligned sz a.dims b ((List.range b.dims.length).map some) b.raw := by
      have := aligned_id hvb
      rw [← h.1] at this
      rw [← h.1]
      exact this
    obtain ⟨out, h1, h2, h3⟩ := opLike_left (op := op) (isBool := isBool) hva hvb hb
    exact ⟨out, h1, h3, Or.inl h2, by rw [h2]; exact h.2⟩
  · split
    · next h =>
      left
      obtain ⟨out, h1, h2, h3⟩ := opLike_left (op := op) (isBool := isBool) hva hvb
        (aligned_scalar hvb (List.length_eq_zero_iff.mp h.1) a.dims)
      exact ⟨out, h1, h3, Or.inl h2, by rw [h2]; exact h.2⟩
    · split
      · next h =>
        left
        obtain ⟨out, h1, h2, h3⟩ := opLike_right (op := op) (isBool := isBool) hva hvb
          (aligned_scalar hva (List.length_eq_zero_iff.mp h.1) b.dims)
        exact ⟨out, h1, h3, Or.inr h2, by rw [h2]; exact h.2⟩
      · split
        · next p hp ho => exact Or.inl (left ho (subsetFast_matches hp))
        · split
          · next p hp ho => exact Or.inl (right ho (subsetFast_matches hp))
          · split
            · next p hp ho => exact Or.inl (left ho (subsetReorder_matches hp))
            · split
              · next p hp ho => exact Or.inl (right ho (subsetReorder_matches hp))
              · exact Or.inr rfl

theorem newTensor_ok {isBool : Bool} {a b : Tensor α} {dims : List Dim} {raw : Raw β} {out : Tensor β}
    (h : newTensor isBool a b dims raw = .ok out) : ∃ f s, out = ⟨dims, f, s, raw⟩ := by
  unfold newTensor at h
  split at h
  · simp at h
  · exact ⟨_, _, (Except.ok.inj h).symm⟩

theorem opGeneric_ok {sz : Nat → Nat} {op : α → α → β} {isBool allow : Bool} {a b : Tensor α}
    {order : Option (List Dim)} {out : Tensor β} (hva : Valid sz a) (hvb : Valid sz b)
    (h : opGeneric op isBool allow a b order = .ok out) :
    IsBroadcastAxes sz op a b out ∧ ∃ all, allDimsNative a.dims b.dims = .ok all ∧ out.dims = sortDims order all := by
  unfold opGeneric at h
  split at h
  · simp at h
  · next all hall =>
    split at h
    · simp at h
    · simp only at h
      split at h
      · simp at h
      · next ra hra =>
        split at h
        · simp at h
        · next rb hrb =>
          split at h
          · simp at h
          · next r hr =>
            obtain ⟨f, s, rfl⟩ := newTensor_ok h
            obtain ⟨pa, hpa⟩ := aligned_copyNative hva hra
            obtain ⟨pb, hpb⟩ := aligned_copyNative hvb hrb
            obtain ⟨r', h1, h2⟩ := broadcast_of_aligned op hva hvb hpa hpb (by
              intro c
              rw [sortDims_count]
              exact allDimsNative_count hall c)
            rw [hr] at h1
            have := Except.ok.inj h1
            subst this
            exact ⟨h2 f s, all, hall, rfl⟩

theorem valid_scalar (sz : Nat → Nat) (v : α) : Valid sz (Arg.scalar v).toTensor := rfl

/-- C83 (native, tensors of any dims, also with equal dims): whenever the native `combine` or `compare` returns, the
result is the operation broadcast over the dims. -/
theorem native_axes {sz : Nat → Nat} {op : α → α → β} {isBool allow : Bool} {a b : Arg α} {order : Option (List Dim)}
    {out : Tensor β} (hva : Valid sz a.toTensor) (hvb : Valid sz b.toTensor)
    (h : opNative op isBool allow a b order = .ok out) : IsBroadcastAxes sz op a.toTensor b.toTensor out := by
  cases a with
  | tensor a =>
    cases b with
    | tensor b =>
      simp only [opNative] at h
      rcases opTensors_cases op isBool allow order hva hvb with ⟨out', h1, h2⟩ | h1
      · rw [Arg.toTensor, Arg.toTensor, h] at h1
        rw [Except.ok.inj h1]
        exact h2.1
      · rw [Arg.toTensor, Arg.toTensor, h] at h1
        exact (opGeneric_ok hva hvb h1.symm).1
    | scalar v =>
      simp only [opNative] at h
      split at h
      · simp at h
      · obtain ⟨out', h1, h2, h3⟩ := opLike_left (op := op) (isBool := isBool) hva hvb (aligned_scalar hvb rfl _)
        simp only [Arg.toTensor] at h1
        rw [h] at h1
        rw [Except.ok.inj h1]
        exact h3
  | scalar v =>
    cases b with
    | tensor b =>
      simp only [opNative] at h
      split at h
      · simp at h
      · obtain ⟨out', h1, h2, h3⟩ := opLike_right (op := op) (isBool := isBool) hva hvb (aligned_scalar hva rfl _)
        simp only [Arg.toTensor] at h1
        rw [h] at h1
        rw [Except.ok.inj h1]
        exact h3
    | scalar w => simp [opNative] at h

theorem opPy_ok {sz : Nat → Nat} {op : α → α → β} {isBool allow : Bool} {a b : Arg α} {order : Option (List Dim)}
    {out : Tensor β} (hva : Valid sz a.toTensor) (hvb : Valid sz b.toTensor)
    (h : opPy op isBool allow a b order = .ok out) :
    IsBroadcastAxes sz op a.toTensor b.toTensor out ∧
    out.dims = sortDims order (allDimsPy a.toTensor.dims b.toTensor.dims) := by
  unfold opPy at h
  simp only at h
  split at h
  · simp at h
  · split at h
    · simp at h
    · next ra hra =>
      split at h
      · simp at h
      · next rb hrb =>
        split at h
        · split at h
          · simp at h
          · next r hr =>
            obtain ⟨f, s, rfl⟩ := newTensor_ok h
            obtain ⟨pa, hpa⟩ := aligned_operandPy hva hra
            obtain ⟨pb, hpb⟩ := aligned_operandPy hvb hrb
            obtain ⟨r', h1, h2⟩ := broadcast_of_aligned op hva hvb hpa hpb (by
              intro c
              rw [sortDims_count]
              exact allDimsPy_count _ _ c)
            rw [hr] at h1
            have := Except.ok.inj h1
            subst this
            exact ⟨h2 f s, rfl⟩
        · simp at h

/-- C83 (Python, tensors of any dims, also with equal dims): whenever the Python `combine` or `compare` returns, the
result is the operation broadcast over the dims. -/
theorem python_axes {sz : Nat → Nat} {op : α → α → β} {isBool allow : Bool} {a b : Arg α} {order : Option (List Dim)}
    {out : Tensor β} (hva : Valid sz a.toTensor) (hvb : Valid sz b.toTensor)
    (h : opPy op isBool allow a b order = .ok out) : IsBroadcastAxes sz op a.toTensor b.toTensor out :=
  (opPy_ok hva hvb h).1

/-! #### They return if no dim occurs twice -/

theorem axisLoop_absent {d : Dim} {l : List Dim} (h : ∀ x ∈ l, x.cls ≠ d.cls) (i j : Nat) (x : Dim) :
    axisLoop d l i (some (j, x)) = .ok j := by
  induction l generalizing i with
  | nil => rfl
  | cons t r ih =>
    have ht : t.eq d = false := by simp [Dim.eq, h t (by simp)]
    simp only [axisLoop, ht]
    exact ih (fun x hx => h x (List.mem_cons_of_mem _ hx)) (i + 1)

theorem axisLoop_unique {d : Dim} {l : List Dim} (hu : (l.map Dim.cls).Nodup) (hd : d.cls ∈ l.map Dim.cls) (i : Nat) :
    ∃ j, axisLoop d l i none = .ok (i + j) ∧ ∃ x, l[j]? = some x ∧ x.cls = d.cls := by
  induction l generalizing i with
  | nil => simp at hd
  | cons t r ih =>
    simp only [List.map_cons, List.nodup_cons] at hu
    by_cases ht : t.cls = d.cls
    · refine ⟨0, ?_, t, rfl, ht⟩
      have : t.eq d = true := by simp [Dim.eq, ht]
      simp only [axisLoop, this, if_true]
      exact axisLoop_absent (fun x hx hc => hu.1 (by rw [ht, ← hc]; exact List.mem_map_of_mem hx)) _ _ _
    · have hf : t.eq d = false := by simp [Dim.eq, ht]
      obtain ⟨j, h1, x, h2, h3⟩ := ih hu.2 (by simpa [Ne.symm ht] using hd) (i + 1)
      refine ⟨j + 1, ?_, x, by simpa using h2, h3⟩
      simp only [axisLoop, hf]
      rw [show i + (j + 1) = i + 1 + j by omega]
      exact h1

theorem featureDim_mem {t : Tensor α} {d : Dim} (h : t.featureDim = some d) : d ∈ t.dims := by
  unfold Tensor.featureDim at h
  rw [Option.bind_eq_some_iff] at h
  obtain ⟨i, _, h⟩ := h
  exact List.mem_of_getElem? h

theorem consistent_some {a b : Option Dim} {d : Dim} (h : consistent a b = some d) : a = some d ∨ b = some d := by
  unfold consistent at h
  split at h
  · exact Or.inl h
  · exact Or.inr h
  · split at h
    · exact Or.inl h
    · simp at h
  · simp at h

theorem newTensor_unique {isBool : Bool} {a b : Tensor α} {outs : List Dim} {raw : Raw β}
    (hu : (outs.map Dim.cls).Nodup)
    (hall : ∀ c, c ∈ outs.map Dim.cls ↔ c ∈ a.dims.map Dim.cls ∨ c ∈ b.dims.map Dim.cls) :
    ∃ out, newTensor isBool a b outs raw = .ok out ∧
      out.sparse = (if isBool then none else consistent a.sparse b.sparse) ∧
      out.featureDim.map Dim.cls = (consistent a.featureDim b.featureDim).map Dim.cls := by
  unfold newTensor
  cases hc : consistent a.featureDim b.featureDim with
  | none => exact ⟨_, rfl, rfl, rfl⟩
  | some d =>
    have hd : d.cls ∈ outs.map Dim.cls := by
      rw [hall]
      rcases consistent_some hc with h | h
      · exact Or.inl (List.mem_map_of_mem (featureDim_mem h))
      · exact Or.inr (List.mem_map_of_mem (featureDim_mem h))
    obtain ⟨j, h1, x, h2, h3⟩ := axisLoop_unique hu hd 0
    simp only [featAxis, h1]
    refine ⟨_, rfl, rfl, ?_⟩
    simp [Tensor.featureDim, h2, h3]

theorem union_mem {a b : List Dim} (ha : (a.map Dim.cls).Nodup) (hb : (b.map Dim.cls).Nodup) (order : Option (List Dim)) :
    ((sortDims order (unionDims a b)).map Dim.cls).Nodup ∧
    ∀ c, c ∈ (sortDims order (unionDims a b)).map Dim.cls ↔ c ∈ a.map Dim.cls ∨ c ∈ b.map Dim.cls := by
  have hcnt : ∀ c, ((sortDims order (unionDims a b)).map Dim.cls).count c =
      max ((a.map Dim.cls).count c) ((b.map Dim.cls).count c) := by
    intro c
    rw [sortDims_count, ← allDimsPy_unique ha hb]
    exact allDimsPy_count a b c
  have hca := List.nodup_iff_count_le_one.mp ha
  have hcb := List.nodup_iff_count_le_one.mp hb
  refine ⟨List.nodup_iff_count_le_one.mpr ?_, ?_⟩
  · intro c
    have := hcnt c
    have h1 := hca c
    have h2 := hcb c
    omega
  · intro c
    rw [← List.count_pos_iff, ← List.count_pos_iff, ← List.count_pos_iff, hcnt c]
    omega

theorem copyNative_complete {sz : Nat → Nat} {t : Tensor α} {outs : List Dim} (hv : Valid sz t) (hu : Unique t)
    (hs : ∀ d ∈ t.dims, d.cls ∈ outs.map Dim.cls) : ∃ r, copyCompatNative t.dims t.raw outs = .ok r := by
  obtain ⟨p, hp⟩ := permNative_complete hu hs
  obtain ⟨r, h1, _⟩ := aligned_native hv (permNative_matches hp)
  exact ⟨r, by simp only [copyCompatNative, hp, h1]⟩

theorem operandPy_complete {sz : Nat → Nat} {t : Tensor α} {outs : List Dim} (hv : Valid sz t) (hu : Unique t)
    (hs : ∀ d ∈ t.dims, d.cls ∈ outs.map Dim.cls) :
    ∃ r, operandPy t outs = .ok r ∧ (r.shape.length = outs.length ∨ r.shape.length = 0) := by
  unfold operandPy
  split
  · next hd => exact ⟨t.raw, rfl, Or.inr (by rw [hv, hd]; rfl)⟩
  · have hn : t.dims.length = t.raw.shape.length := by rw [hv]; simp
    obtain ⟨p, hp⟩ := permPy_complete hu hs
    have hm := permPy_matches hp
    obtain ⟨r, h1, h2⟩ := expanded_py t.raw t.dims outs p hn hp (by rw [← hn]; exact hm.perm)
    exact ⟨r, h1, Or.inl (by rw [h2.shape, List.length_map, hm.length])⟩

theorem opGeneric_complete {sz : Nat → Nat} (op : α → α → β) (isBool allow : Bool) {a b : Tensor α}
    (order : Option (List Dim)) (hva : Valid sz a) (hvb : Valid sz b) (hua : Unique a) (hub : Unique b) :
    ∃ out, opGeneric op isBool allow a b order = .ok out ∧
      out.sparse = (if isBool then none else consistent a.sparse b.sparse) ∧
      out.featureDim.map Dim.cls = (consistent a.featureDim b.featureDim).map Dim.cls := by
  obtain ⟨hu, hmem⟩ := union_mem hua hub order
  obtain ⟨ra, hra⟩ := copyNative_complete hva hua (outs := sortDims order (unionDims a.dims b.dims))
    (fun d hd => (hmem d.cls).mpr (Or.inl (List.mem_map_of_mem hd)))
  obtain ⟨rb, hrb⟩ := copyNative_complete hvb hub (outs := sortDims order (unionDims a.dims b.dims))
    (fun d hd => (hmem d.cls).mpr (Or.inr (List.mem_map_of_mem hd)))
  obtain ⟨pa, hpa⟩ := aligned_copyNative hva hra
  obtain ⟨pb, hpb⟩ := aligned_copyNative hvb hrb
  obtain ⟨r, hr, _⟩ := broadcast_of_aligned op hva hvb hpa hpb (by
    intro c
    rw [sortDims_count]
    exact allDimsNative_count (allDimsNative_unique hua hub) c)
  obtain ⟨out, h1, h2, h3⟩ := newTensor_unique (isBool := isBool) (raw := r) hu hmem
  have hsub : isSubsetList a.dims (unionDims a.dims b.dims) = true := by
    obtain ⟨p, hp⟩ := subsetReorderFast_complete hua (outs := unionDims a.dims b.dims)
      (fun d hd => List.mem_append_left _ hd)
    simp [isSubsetList, hp]
  refine ⟨out, ?_, h2, h3⟩
  unfold opGeneric
  simp only [allDimsNative_unique hua hub, hsub, hra, hrb, hr]
  simp [h1]

/-- C83 (native): on tensors without equal dims the native `combine` and `compare` always return, and the result is the
operation by named dims.  Missing: tensors with equal dims, on which the native code can raise a `SystemError` and pick other
axes than the Python code (`native_system_error`, `native_values_differ`), and a number together with `dim_order`
(`native_scalar_dim_order`). -/
theorem native_broadcast_partial {sz : Nat → Nat} (op : α → α → β) (isBool allow : Bool) {a b : Tensor α}
    (order : Option (List Dim)) (hva : Valid sz a) (hvb : Valid sz b) (hua : Unique a) (hub : Unique b) :
    ∃ out, opNative op isBool allow (.tensor a) (.tensor b) order = .ok out ∧ IsBroadcast sz op a b out := by
  rcases opTensors_cases op isBool allow order hva hvb with ⟨out, h1, h2⟩ | h1
  · exact ⟨out, h1, broadcast_of_axes hua hub h2.1⟩
  · obtain ⟨out, h2, _⟩ := opGeneric_complete op isBool allow order hva hvb hua hub
    rw [h2] at h1
    exact ⟨out, h1, broadcast_of_axes hua hub (opGeneric_ok hva hvb h2).1⟩

/-- C83 (native): a tensor and a number. -/
theorem native_scalar {sz : Nat → Nat} (op : α → α → β) (isBool allow : Bool) {a : Tensor α} (v : α)
    (hva : Valid sz a) (hua : Unique a) :
    (∃ out, opNative op isBool allow (.tensor a) (.scalar v) none = .ok out ∧ out.dims = a.dims ∧ Valid sz out ∧
      ∀ σ : Nat → Nat, (∀ d ∈ a.dims, σ d.cls < sz d.cls) → valueAt out σ = op (valueAt a σ) v) ∧
    (∃ out, opNative op isBool allow (.scalar v) (.tensor a) none = .ok out ∧ out.dims = a.dims ∧ Valid sz out ∧
      ∀ σ : Nat → Nat, (∀ d ∈ a.dims, σ d.cls < sz d.cls) → valueAt out σ = op v (valueAt a σ)) := by
  have hvs := valid_scalar (α := α) sz v
  have hus : Unique (Arg.scalar v).toTensor := by simp [Unique, Arg.toTensor]
  refine ⟨?_, ?_⟩
  · obtain ⟨out, h1, h2, h3⟩ := opLike_left (op := op) (isBool := isBool) hva hvs (aligned_scalar hvs rfl _)
    have hb := broadcast_of_axes hua hus h3
    exact ⟨out, h1, h2, hb.valid, fun σ hσ => hb.value σ (by rw [h2]; exact hσ)⟩
  · obtain ⟨out, h1, h2, h3⟩ := opLike_right (op := op) (isBool := isBool) hvs hva (aligned_scalar hvs rfl _)
    have hb := broadcast_of_axes hus hua h3
    exact ⟨out, h1, h2, hb.valid, fun σ hσ => hb.value σ (by rw [h2]; exact hσ)⟩

/-! ### C84: `allow_broadcast_all_sources` -/

theorem sameDims_iff {x all : List Dim} :
    sameDims x all = true ↔ (∀ d ∈ x, d.cls ∈ all.map Dim.cls) ∧ ∀ d ∈ all, d.cls ∈ x.map Dim.cls := by
  simp [sameDims, Dim.eq]

theorem allDimsPy_mem (a b : List Dim) (c : Nat) :
    c ∈ (allDimsPy a b).map Dim.cls ↔ c ∈ a.map Dim.cls ∨ c ∈ b.map Dim.cls := by
  rw [← List.count_pos_iff, ← List.count_pos_iff, ← List.count_pos_iff, allDimsPy_count]
  omega

theorem sameDims_allDims (a b : Tensor α) :
    (sameDims a.dims (allDimsPy a.dims b.dims) || sameDims b.dims (allDimsPy a.dims b.dims)) = true ↔ OneHasAll a b := by
  have hmem : ∀ d ∈ allDimsPy a.dims b.dims, d.cls ∈ a.dims.map Dim.cls ∨ d.cls ∈ b.dims.map Dim.cls :=
    fun d hd => (allDimsPy_mem a.dims b.dims d.cls).mp (List.mem_map_of_mem hd)
  have hin : ∀ d, d ∈ a.dims ∨ d ∈ b.dims → d.cls ∈ (allDimsPy a.dims b.dims).map Dim.cls := by
    intro d hd
    rw [allDimsPy_mem]
    rcases hd with h | h
    · exact Or.inl (List.mem_map_of_mem h)
    · exact Or.inr (List.mem_map_of_mem h)
  rw [Bool.or_eq_true, sameDims_iff, sameDims_iff]
  unfold OneHasAll
  constructor
  · rintro (⟨_, h⟩ | ⟨_, h⟩)
    · left
      intro d hd
      obtain ⟨e, he, hc⟩ := List.mem_map.mp (hin d (Or.inr hd))
      rw [← hc]
      exact h e he
    · right
      intro d hd
      obtain ⟨e, he, hc⟩ := List.mem_map.mp (hin d (Or.inl hd))
      rw [← hc]
      exact h e he
  · rintro (h | h)
    · left
      refine ⟨fun d hd => hin d (Or.inl hd), ?_⟩
      intro d hd
      rcases hmem d hd with h' | h'
      · exact h'
      · obtain ⟨e, he, hc⟩ := List.mem_map.mp h'
        rw [← hc]
        exact h e he
    · right
      refine ⟨fun d hd => hin d (Or.inr hd), ?_⟩
      intro d hd
      rcases hmem d hd with h' | h'
      · obtain ⟨e, he, hc⟩ := List.mem_map.mp h'
        rw [← hc]
        exact h e he
      · exact h'

/-- C83 (Python): on tensors (and numbers) without equal dims, if one of them has all the dims or broadcasting all
sources is allowed, the Python `combine` and `compare` return, the result is the operation by named dims, and its
feature dim and sparse dim are those on which both agree. -/
theorem python_broadcast {sz : Nat → Nat} (op : α → α → β) (isBool allow : Bool) {a b : Arg α}
    (order : Option (List Dim)) (hva : Valid sz a.toTensor) (hvb : Valid sz b.toTensor) (hua : Unique a.toTensor)
    (hub : Unique b.toTensor) (hallow : allow = true ∨ OneHasAll a.toTensor b.toTensor) :
    ∃ out, opPy op isBool allow a b order = .ok out ∧ IsBroadcast sz op a.toTensor b.toTensor out ∧
      out.sparse = (if isBool then none else consistent a.toTensor.sparse b.toTensor.sparse) ∧
      out.featureDim.map Dim.cls = (consistent a.toTensor.featureDim b.toTensor.featureDim).map Dim.cls := by
  obtain ⟨hu, hmem⟩ := union_mem hua hub order
  have hall := allDimsPy_unique hua hub
  obtain ⟨ra, hra, hla⟩ := operandPy_complete hva hua (outs := sortDims order (unionDims a.toTensor.dims b.toTensor.dims))
    (fun d hd => (hmem d.cls).mpr (Or.inl (List.mem_map_of_mem hd)))
  obtain ⟨rb, hrb, hlb⟩ := operandPy_complete hvb hub (outs := sortDims order (unionDims a.toTensor.dims b.toTensor.dims))
    (fun d hd => (hmem d.cls).mpr (Or.inr (List.mem_map_of_mem hd)))
  obtain ⟨pa, hpa⟩ := aligned_operandPy hva hra
  obtain ⟨pb, hpb⟩ := aligned_operandPy hvb hrb
  obtain ⟨r, hr, _⟩ := broadcast_of_aligned op hva hvb hpa hpb (by
    intro c
    rw [sortDims_count, ← hall]
    exact allDimsPy_count _ _ c)
  obtain ⟨out, h1, h2, h3⟩ := newTensor_unique (isBool := isBool) (raw := r) hu hmem
  have hno : (!sameDims a.toTensor.dims (allDimsPy a.toTensor.dims b.toTensor.dims) &&
      !sameDims b.toTensor.dims (allDimsPy a.toTensor.dims b.toTensor.dims) && !allow) = false := by
    rcases hallow with h | h
    · simp [h]
    · rw [← Bool.not_or, (sameDims_allDims _ _).mpr h]
      rfl
  have hrun : opPy op isBool allow a b order = .ok out := by
    unfold opPy
    simp only
    rw [if_neg (by rw [hno]; simp), hall, hra]
    simp only
    rw [hrb]
    simp only
    rw [if_pos (by omega), hr]
    exact h1
  exact ⟨out, hrun, broadcast_of_axes hua hub (opPy_ok hva hvb hrun).1, h2, h3⟩

/-- C84 (Python): if neither operand has all the dims of the result and broadcasting all sources is not allowed, a
`ValueError` is raised, for all dims. -/
theorem python_rejects (op : α → α → β) (isBool : Bool) {a b : Arg α} (order : Option (List Dim))
    (h : ¬ OneHasAll a.toTensor b.toTensor) : opPy op isBool false a b order = .error .valueError := by
  have hno := fun hx => h ((sameDims_allDims a.toTensor b.toTensor).mp hx)
  have hno : (!sameDims a.toTensor.dims (allDimsPy a.toTensor.dims b.toTensor.dims) &&
      !sameDims b.toTensor.dims (allDimsPy a.toTensor.dims b.toTensor.dims) && !false) = true := by
    rw [← Bool.not_or]
    simpa using hno
  unfold opPy
  simp only
  rw [if_pos hno]

/-- C84 (Python): on tensors without equal dims this is the only error. -/
theorem python_allow_iff {sz : Nat → Nat} (op : α → α → β) (isBool allow : Bool) {a b : Arg α}
    (order : Option (List Dim)) (hva : Valid sz a.toTensor) (hvb : Valid sz b.toTensor) (hua : Unique a.toTensor)
    (hub : Unique b.toTensor) :
    (∃ out, opPy op isBool allow a b order = .ok out) ↔ allow = true ∨ OneHasAll a.toTensor b.toTensor := by
  constructor
  · rintro ⟨out, h⟩
    by_contra hn
    rw [not_or] at hn
    have := python_rejects op isBool order hn.2
    rw [show allow = false by simpa using hn.1, this] at h
    simp at h
  · intro h
    obtain ⟨out, h1, _⟩ := python_broadcast op isBool allow order hva hvb hua hub h
    exact ⟨out, h1⟩

/-! ### The order of the dims -/

theorem orderIndex_eq (o : List Dim) (d : Dim) : orderIndex o d = OrderedBy.orderPos o d := by
  induction o with
  | nil => rfl
  | cons x r ih =>
    unfold orderIndex at ih ⊢
    rw [List.findIdx_cons, OrderedBy.orderPos]
    by_cases h : d.cls = x.cls
    · simp [Dim.eq, h]
    · have hf : d.eq x = false := by simp [Dim.eq, h]
      rw [hf, if_neg h, ← ih]
      rfl

/-- Sorting by `dim_order`. -/
theorem sortDims_ordered (o ds : List Dim) : OrderedBy o ds (sortDims (some o) ds) := by
  refine ⟨sortDims_perm _ _, ?_, ?_⟩
  · intro x y hxy
    have := ListLemmas.stableSort_pairwise (le := fun x y => decide (orderIndex o x ≤ orderIndex o y)) (l := ds)
      (by intro a b c; simp; omega) (by intro a b; simp; omega)
    have h2 := this.sublist hxy
    simp only [List.pairwise_cons, List.mem_singleton, forall_eq, decide_eq_true_eq] at h2
    rw [← orderIndex_eq, ← orderIndex_eq]
    exact h2.1
  · intro x y hxy hle
    exact ListLemmas.pair_sublist_stableSort (by simpa [orderIndex_eq] using hle) hxy

/-- C83 (Python): the dims of the result are the dims of the first operand followed by the other dims of the second, then
sorted by `dim_order`. -/
theorem python_dims {sz : Nat → Nat} {op : α → α → β} {isBool allow : Bool} {a b : Arg α} {order : Option (List Dim)}
    {out : Tensor β} (hva : Valid sz a.toTensor) (hvb : Valid sz b.toTensor) (hua : Unique a.toTensor)
    (hub : Unique b.toTensor) (h : opPy op isBool allow a b order = .ok out) :
    (order = none → out.dims = a.toTensor.dims ++
      b.toTensor.dims.filter (fun d => decide (d.cls ∉ a.toTensor.dims.map Dim.cls))) ∧
    ∀ o, order = some o → OrderedBy o (a.toTensor.dims ++
      b.toTensor.dims.filter (fun d => decide (d.cls ∉ a.toTensor.dims.map Dim.cls))) out.dims := by
  have := (opPy_ok hva hvb h).2
  rw [allDimsPy_unique hua hub] at this
  refine ⟨?_, ?_⟩
  · rintro rfl
    exact this
  · rintro o rfl
    rw [this]
    exact sortDims_ordered o _

theorem orderPos_self {o : List Dim} (hu : (o.map Dim.cls).Nodup) {x y : Dim} (h : [x, y].Sublist o) :
    OrderedBy.orderPos o x ≤ OrderedBy.orderPos o y := by
  induction o with
  | nil => simp at h
  | cons d r ih =>
    simp only [List.map_cons, List.nodup_cons] at hu
    simp only [OrderedBy.orderPos]
    cases h with
    | cons _ h =>
      have hx : x ∈ r := h.subset (by simp)
      have hy : y ∈ r := h.subset (by simp)
      have hxd : ¬ x.cls = d.cls := fun hc => hu.1 (hc ▸ List.mem_map_of_mem hx)
      have hyd : ¬ y.cls = d.cls := fun hc => hu.1 (hc ▸ List.mem_map_of_mem hy)
      rw [if_neg hxd, if_neg hyd]
      have := ih hu.2 h
      omega
    | cons_cons _ h => simp

/-- C83 (native): with `dim_order`, the dims of the result are in this order, dims which are not in it come last. -/
theorem native_dim_order {sz : Nat → Nat} {op : α → α → β} {isBool allow : Bool} {a b : Tensor α} {o : List Dim}
    {out : Tensor β} (hva : Valid sz a) (hvb : Valid sz b) (hua : Unique a) (hub : Unique b)
    (h : opNative op isBool allow (.tensor a) (.tensor b) (some o) = .ok out) (x y : Dim)
    (hxy : [x, y].Sublist out.dims) : OrderedBy.orderPos o x ≤ OrderedBy.orderPos o y := by
  simp only [opNative] at h
  rcases opTensors_cases op isBool allow (some o) hva hvb with ⟨out', h1, h2⟩ | h1
  · rw [h] at h1
    have := Except.ok.inj h1
    subst this
    have ho : out.dims = o := by simpa [orderIs] using h2.2.2
    rw [ho] at hxy
    refine orderPos_self ?_ hxy
    rw [← ho]
    exact (broadcast_of_axes hua hub h2.1).unique
  · rw [h] at h1
    obtain ⟨_, all, _, h3⟩ := opGeneric_ok hva hvb h1.symm
    rw [h3] at hxy
    exact (sortDims_ordered o all).2.1 x y hxy

/-- C83 (native): without `dim_order`, the dims of the result are those of one operand in their order, or those of the
first followed by the other dims of the second. -/
theorem native_dims {sz : Nat → Nat} {op : α → α → β} {isBool allow : Bool} {a b : Tensor α} {out : Tensor β}
    (hva : Valid sz a) (hvb : Valid sz b) (hua : Unique a) (hub : Unique b)
    (h : opNative op isBool allow (.tensor a) (.tensor b) none = .ok out) :
    out.dims = a.dims ∨ out.dims = b.dims ∨
      out.dims = a.dims ++ b.dims.filter (fun d => decide (d.cls ∉ a.dims.map Dim.cls)) := by
  simp only [opNative] at h
  rcases opTensors_cases op isBool allow none hva hvb with ⟨out', h1, h2⟩ | h1
  · rw [h] at h1
    have := Except.ok.inj h1
    subst this
    rcases h2.2.1 with h | h
    · exact Or.inl h
    · exact Or.inr (Or.inl h)
  · rw [h] at h1
    obtain ⟨_, all, h2, h3⟩ := opGeneric_ok hva hvb h1.symm
    rw [allDimsNative_unique hua hub] at h2
    rw [← Except.ok.inj h2] at h3
    exact Or.inr (Or.inr h3)

/-- C83: with and without the native module the results have the same dims and values. -/
theorem native_python_agree {sz : Nat → Nat} {op : α → α → β} {isBool allow allow' : Bool} {a b : Arg α}
    {order order' : Option (List Dim)} {out out' : Tensor β} (hva : Valid sz a.toTensor) (hvb : Valid sz b.toTensor)
    (hua : Unique a.toTensor) (hub : Unique b.toTensor) (h : opNative op isBool allow a b order = .ok out)
    (h' : opPy op isBool allow' a b order' = .ok out') :
    (∀ c, c ∈ out.dims.map Dim.cls ↔ c ∈ out'.dims.map Dim.cls) ∧
    ∀ σ : Nat → Nat, (∀ d ∈ out.dims, σ d.cls < sz d.cls) → valueAt out σ = valueAt out' σ := by
  have h1 := broadcast_of_axes hua hub (native_axes hva hvb h)
  have h2 := broadcast_of_axes hua hub (python_axes hva hvb h')
  refine ⟨fun c => by rw [h1.dims, h2.dims], ?_⟩
  intro σ hσ
  rw [h1.value σ hσ, h2.value σ]
  intro d hd
  obtain ⟨e, he, hc⟩ := List.mem_map.mp ((h1.dims d.cls).mpr ((h2.dims d.cls).mp (List.mem_map_of_mem hd)))
  rw [← hc]
  exact hσ e he

/-! ### `copy_compatible_to_dims` -/

/-- The permutation of the native code is that of the Python code if the target dims are unique; and both fail
otherwise. -/
theorem perm_native_eq_python {ds outs : List Dim} (hu : (outs.map Dim.cls).Nodup) (p : List (Option Nat)) :
    permNative ds outs = .ok p ↔ permPy ds outs = .ok p := by
  have huniq : ∀ {p}, Matches ds outs p → (ds.map Dim.cls).Nodup ∧ ∀ d ∈ ds, d.cls ∈ outs.map Dim.cls := by
    intro p hm
    refine ⟨List.nodup_iff_count_le_one.mpr ?_, ?_⟩
    · intro c
      have h1 := count_le_of_matches hm c
      have h2 := List.nodup_iff_count_le_one.mp hu c
      omega
    · intro d hd
      have h1 := count_le_of_matches hm d.cls
      have h2 := List.count_pos_iff.mpr (List.mem_map_of_mem (f := Dim.cls) hd)
      exact List.count_pos_iff.mp (by omega)
  constructor
  · intro h
    have hm := permNative_matches h
    obtain ⟨q, hq⟩ := permPy_complete (huniq hm).1 (huniq hm).2
    rw [hq, matches_unique hu hm (permPy_matches hq)]
  · intro h
    have hm := permPy_matches h
    obtain ⟨q, hq⟩ := permNative_complete (huniq hm).1 (huniq hm).2
    rw [hq, matches_unique hu hm (permNative_matches hq)]

/-- What `copy_compatible_to_dims` has to give: the dims of the tensor keep their size, the others get size 1, and the
values are those of the tensor. -/
def IsCompatible (sz : Nat → Nat) (t : Tensor α) (outs : List Dim) (r : Raw α) : Prop :=
  r.shape = outs.map (fun o => if o.cls ∈ t.dims.map Dim.cls then sz o.cls else 1) ∧
  ∀ σ : Nat → Nat, (∀ d ∈ t.dims, σ d.cls < sz d.cls) →
    r.get (outs.map (fun o => if o.cls ∈ t.dims.map Dim.cls then σ o.cls else 0)) = valueAt t σ

theorem compatible_of_expanded {sz : Nat → Nat} {t : Tensor α} {outs : List Dim} {p : List (Option Nat)} {r : Raw α}
    (hv : Valid sz t) (hu : (outs.map Dim.cls).Nodup) (hm : Matches t.dims outs p) (he : Expanded t.raw p r) :
    IsCompatible sz t outs r := by
  have hn : t.raw.shape.length = t.dims.length := by rw [hv]; simp
  have hax := axisMap_of_matches hm
  -- an axis is matched iff its dim is a dim of the tensor
  have hsome : ∀ i (hi : i < outs.length), p[i]? = some none ↔ outs[i].cls ∉ t.dims.map Dim.cls := by
    intro i hi
    have hip : i < p.length := by rw [hm.length]; exact hi
    constructor
    · intro hnone hc
      obtain ⟨d, hd, hdc⟩ := List.mem_map.mp hc
      obtain ⟨j, hj, hjd⟩ := List.getElem_of_mem hd
      obtain ⟨o, ho, hoc⟩ := hax.1 j d (by rw [List.getElem?_eq_getElem hj, hjd])
      obtain ⟨hk, ho'⟩ := List.getElem?_eq_some_iff.mp ho
      have : i = p.idxOf (some j) := by
        apply cls_inj hu hi hk
        simp [hi, hk, ho', hoc, hdc]
      have hmem := perm_mem hm.perm hj
      have hlt : p.idxOf (some j) < p.length := List.idxOf_lt_length_of_mem hmem
      rw [this, List.getElem?_eq_getElem hlt, List.getElem_idxOf hlt] at hnone
      simp at hnone
    · intro hc
      rw [List.getElem?_eq_getElem hip]
      cases hq : p[i] with
      | none => rfl
      | some j =>
        exfalso
        apply hc
        have hj : j < t.dims.length :=
          List.mem_range.mp (hm.perm.mem_iff.mp (mem_somes.mpr (hq ▸ List.getElem_mem hip)))
        have := (List.forall₂_iff_get.mp hm.cls).2 i hi hip j (by simpa using hq)
        simp only [List.get_eq_getElem] at this
        rw [← this]
        apply List.mem_map_of_mem
        simp [hj]
  have hshape : r.shape = outs.map (fun o => if o.cls ∈ t.dims.map Dim.cls then sz o.cls else 1) := by
    rw [he.shape]
    apply List.ext_getElem
    · simp [hm.length]
    · intro i h1 h2
      have hi : i < outs.length := by simpa using h2
      have hip : i < p.length := by rw [hm.length]; exact hi
      simp only [List.getElem_map]
      rw [optSize_matches hv hm (List.getElem?_eq_getElem hi) (List.getElem?_eq_getElem hip)]
      have := hsome i hi
      rw [List.getElem?_eq_getElem hip] at this
      simp only [Option.some.injEq] at this
      by_cases hc : p[i] = none
      · rw [if_pos hc, if_neg (this.mp hc)]
      · rw [if_neg hc, if_pos (by
          by_contra hx
          exact hc (this.mpr hx))]
  refine ⟨hshape, ?_⟩
  intro σ hσ
  rw [he.value]
  · unfold valueAt
    congr 1
    rw [hn]
    apply List.ext_getElem
    · simp [along]
    · intro j h1 h2
      have hj : j < t.dims.length := by simpa using h2
      obtain ⟨o, ho, hoc⟩ := hax.1 j _ (List.getElem?_eq_getElem hj)
      have hmem : t.dims[j].cls ∈ t.dims.map Dim.cls := List.mem_map_of_mem (List.getElem_mem hj)
      simp only [along, List.getElem_map, List.getElem_range, List.getD_eq_getElem?_getD, List.getElem?_map, ho,
        Option.map_some, Option.getD_some, hoc]
      rw [if_pos hmem]
  · rw [hshape]
    unfold InB
    rw [List.forall₂_map_left_iff, List.forall₂_map_right_iff]
    apply List.forall₂_same.mpr
    intro o ho
    by_cases hc : o.cls ∈ t.dims.map Dim.cls
    · simp only [if_pos hc]
      obtain ⟨d, hd, hdc⟩ := List.mem_map.mp hc
      rw [← hdc]
      exact hσ d hd
    · simp [hc]

/-- C83: `copy_compatible_to_dims` to unique dims which include those of the tensor, native and Python. -/
theorem copy_compatible {sz : Nat → Nat} {t : Tensor α} {outs : List Dim} (hv : Valid sz t)
    (hu : (outs.map Dim.cls).Nodup) (ht : Unique t) (hs : ∀ d ∈ t.dims, d.cls ∈ outs.map Dim.cls) :
    (∃ r, copyCompatNative t.dims t.raw outs = .ok r ∧ IsCompatible sz t outs r) ∧
    ∃ r, copyCompatPy t.dims t.raw outs = .ok r ∧ IsCompatible sz t outs r := by
  have hn : t.dims.length = t.raw.shape.length := by rw [hv]; simp
  refine ⟨?_, ?_⟩
  · obtain ⟨p, hp⟩ := permNative_complete ht hs
    have hm := permNative_matches hp
    obtain ⟨r, h1, h2⟩ := expanded_native t.raw t.dims outs p hn hm.length (by rw [← hn]; exact hm.perm)
    exact ⟨r, by simp only [copyCompatNative, hp, h1], compatible_of_expanded hv hu hm h2⟩
  · obtain ⟨p, hp⟩ := permPy_complete ht hs
    have hm := permPy_matches hp
    obtain ⟨r, h1, h2⟩ := expanded_py t.raw t.dims outs p hn hp (by rw [← hn]; exact hm.perm)
    exact ⟨r, h1, compatible_of_expanded hv hu hm h2⟩

/-- C83: if a dim of the tensor is missing in the target (or occurs there less often), both raise. -/
theorem copy_compatible_rejects {t : Tensor α} {outs : List Dim} {c : Nat}
    (h : (outs.map Dim.cls).count c < (t.dims.map Dim.cls).count c) :
    (∀ r, copyCompatNative t.dims t.raw outs ≠ .ok r) ∧ ∀ r, copyCompatPy t.dims t.raw outs ≠ .ok r := by
  refine ⟨?_, ?_⟩
  · intro r hr
    unfold copyCompatNative at hr
    split at hr
    · simp at hr
    · next p hp =>
      have := count_le_of_matches (permNative_matches hp) c
      omega
  · intro r hr
    unfold copyCompatPy at hr
    split at hr
    · simp at hr
    · next p hp =>
      have := count_le_of_matches (permPy_matches hp) c
      omega

end Verif.BinOp
