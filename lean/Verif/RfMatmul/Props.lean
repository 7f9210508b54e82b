import Verif.RfMatmul.Lemmas
import Verif.BinOp.Props
/-
`rf.matmul` is the sum of products over the named reduce dims (C86).
-/
namespace Verif.RfMatmul

open Verif.Py Verif.BinOp

/-! ### Axes of dims which occur once -/

theorem inDims_iff (dims : List Dim) (d : Dim) : inDims dims d = true ↔ d.cls ∈ classes dims := by
  simp [inDims, classes, Dim.eq]

theorem index_spec {dims : List Dim} {d : Dim} (h : d.cls ∈ classes dims) :
    index dims d < dims.length ∧ (dims.getD (index dims d) default).cls = d.cls := by
  have hlt : index dims d < dims.length := by
    unfold index
    rw [List.findIdx_lt_length]
    obtain ⟨x, hx, e⟩ := List.mem_map.mp h
    exact ⟨x, hx, by simp [Dim.eq, e]⟩
  refine ⟨hlt, ?_⟩
  have := List.findIdx_getElem (w := hlt)
  rw [List.getD_eq_getElem?_getD, List.getElem?_eq_getElem hlt]
  simpa [Dim.eq, index] using this

theorem index_at {dims : List Dim} (hu : (classes dims).Nodup) {i : Nat} (hi : i < dims.length) {d : Dim}
    (hd : d.cls = (dims.getD i default).cls) : index dims d = i := by
  have hm : d.cls ∈ classes dims := by
    rw [hd]; simp only [classes, List.getD_eq_getElem?_getD, List.getElem?_eq_getElem hi, Option.getD_some]
    exact List.mem_map_of_mem (List.getElem_mem hi)
  obtain ⟨h1, h2⟩ := index_spec hm
  exact cls_inj hu h1 hi (h2.trans hd)

theorem index_inj {dims : List Dim} {d e : Dim} (hd : d.cls ∈ classes dims) (he : e.cls ∈ classes dims)
    (h : index dims d = index dims e) : d.cls = e.cls := by
  rw [← (index_spec hd).2, ← (index_spec he).2, h]

theorem axisOf_index {dims : List Dim} (hu : (classes dims).Nodup) {d : Dim} (hd : d.cls ∈ classes dims) :
    axisOf dims d = .ok (index dims d) := by
  obtain ⟨j, h1, x, h2, h3⟩ := axisLoop_unique hu hd 0
  unfold axisOf
  rw [h1]
  obtain ⟨hj, hx⟩ := List.getElem?_eq_some_iff.mp h2
  rw [index_at hu hj (by rw [List.getD_eq_getElem?_getD, h2]; exact h3.symm)]
  simp

theorem axesOf_index {dims : List Dim} (hu : (classes dims).Nodup) {ds : List Dim} (hd : ∀ d ∈ ds, d.cls ∈ classes dims) :
    axesOf dims ds = .ok (ds.map (index dims)) := by
  induction ds with
  | nil => rfl
  | cons d ds ih =>
    simp only [axesOf, axisOf_index hu (hd d List.mem_cons_self), ih (fun e he => hd e (List.mem_cons_of_mem _ he)),
      List.map_cons]

theorem map_index_nodup {dims ds : List Dim} (hn : (classes ds).Nodup) (hd : ∀ d ∈ ds, d.cls ∈ classes dims) :
    (ds.map (index dims)).Nodup := by
  apply List.Nodup.map_on
  · intro x hx y hy e
    have := index_inj (hd x hx) (hd y hy) e
    exact List.inj_on_of_nodup_map hn hx hy this
  · exact hn.of_map _

theorem mem_map_index {dims : List Dim} (hu : (classes dims).Nodup) {ds : List Dim} (hd : ∀ d ∈ ds, d.cls ∈ classes dims)
    {i : Nat} (hi : i < dims.length) : i ∈ ds.map (index dims) ↔ (dims.getD i default).cls ∈ classes ds := by
  constructor
  · intro h
    obtain ⟨d, hd', e⟩ := List.mem_map.mp h
    rw [← e, (index_spec (hd d hd')).2]
    exact List.mem_map_of_mem hd'
  · intro h
    obtain ⟨d, hd', e⟩ := List.mem_map.mp h
    exact List.mem_map.mpr ⟨d, hd', index_at hu hi e⟩

theorem filter_range_map (l : List Dim) (p : Nat → Bool) (q : Dim → Bool)
    (h : ∀ i < l.length, p i = q (l.getD i default)) :
    ((List.range l.length).filter p).map (fun i => l.getD i default) = l.filter q := by
  have e : l = (List.range l.length).map (fun i => l.getD i default) := by
    conv_lhs => rw [← List.map_id l]
    apply List.ext_getElem (by simp)
    intro i h1 h2
    simp at h1
    simp [h1]
  conv_rhs => rw [e, List.filter_map]
  congr 1
  apply List.filter_congr
  intro i hi
  exact h i (List.mem_range.mp hi)

theorem getD_mem_classes {dims : List Dim} {i : Nat} (hi : i < dims.length) : (dims.getD i default).cls ∈ classes dims := by
  simp only [classes, List.getD_eq_getElem?_getD, List.getElem?_eq_getElem hi, Option.getD_some]
  exact List.mem_map_of_mem (List.getElem_mem hi)

/-- The groups of axes are all axes. -/
theorem groups_perm {n : Nat} {c r : List Nat} (hc : c.Nodup) (hr : r.Nodup) (hd : ∀ i ∈ c, i ∉ r) (hcn : ∀ i ∈ c, i < n)
    (hrn : ∀ i ∈ r, i < n) : (c ++ uniqueAxes n r c ++ r).Perm (List.range n) := by
  rw [List.perm_ext_iff_of_nodup _ List.nodup_range]
  · intro i
    simp only [List.mem_append, uniqueAxes, List.mem_filter, List.mem_range, Bool.and_eq_true, Bool.not_eq_true',
      List.contains_eq_mem, decide_eq_false_iff_not]
    constructor
    · rintro ((h | h) | h)
      · exact hcn i h
      · exact h.1
      · exact hrn i h
    · intro h
      by_cases h1 : i ∈ c
      · exact Or.inl (Or.inl h1)
      · by_cases h2 : i ∈ r
        · exact Or.inr h2
        · exact Or.inl (Or.inr ⟨h, h2, h1⟩)
  · have hu : (uniqueAxes n r c).Nodup := List.nodup_range.filter _
    have hm : ∀ i ∈ uniqueAxes n r c, i ∉ r ∧ i ∉ c := by
      intro i hi
      simp only [uniqueAxes, List.mem_filter, Bool.and_eq_true, Bool.not_eq_true', List.contains_eq_mem,
        decide_eq_false_iff_not] at hi
      exact hi.2
    rw [List.nodup_append', List.nodup_append']
    refine ⟨⟨hc, hu, ?_⟩, hr, ?_⟩
    · intro i h1 h2
      exact (hm i h2).2 h1
    · intro i h1 h2
      rcases List.mem_append.mp h1 with h | h
      · exact hd i h h2
      · exact (hm i h).1 h2

theorem sortReduce_perm (dims reduce : List Dim) : (sortReduce dims reduce).Perm reduce := by
  unfold sortReduce
  split
  · exact ListLemmas.stableSort_perm _ _
  · exact List.Perm.refl _

theorem sizes_valid {α : Type} {sz : Nat → Nat} {t : Tensor α} (hv : Valid sz t) {axes : List Nat}
    (h : ∀ i ∈ axes, i < t.dims.length) :
    sizes t.raw.shape axes = axes.map (fun i => sz (t.dims.getD i default).cls) := by
  unfold sizes
  apply List.map_congr_left
  intro i hi
  rw [hv]
  simp [h i hi]

theorem valueAt_place {α : Type} {sz : Nat → Nat} {t : Tensor α} (hv : Valid sz t) {q : List Nat}
    (hq : q.Perm (List.range t.raw.shape.length)) (τ : Nat → Nat) :
    valueAt t τ = t.raw.get (place t.raw.shape.length q (q.map (fun i => τ (t.dims.getD i default).cls))) := by
  rw [place_map hq]
  unfold valueAt
  congr 1
  have : t.raw.shape.length = t.dims.length := by rw [hv]; simp
  rw [this]
  apply List.ext_getElem (by simp)
  intro i h1 h2
  simp at h1
  simp [h1]

theorem forall₂_map {α : Type} (l : List α) (f g : α → Nat) (h : ∀ x ∈ l, f x < g x) : InB (l.map f) (l.map g) := by
  induction l with
  | nil => exact List.Forall₂.nil
  | cons x l ih =>
    exact List.Forall₂.cons (h x List.mem_cons_self) (ih (fun y hy => h y (List.mem_cons_of_mem _ hy)))

variable {R : Type} [AddCommMonoid R] [Mul R]

/-- **C86** For tensors in which no dim occurs twice, `matmul` gives the product of the named tensors: at each position of
the remaining dims, the sum over all positions of the reduce dims of the product of the values; no matter in which order
the dims are, how many are common, reduced or in only one of the tensors, and which torch function is used. -/
theorem matmul_named_partial (sz : Nat → Nat) (dyn : Dim → Bool) (useMask : Bool) (a b : Tensor R) (reduce : List Dim)
    (ha : Valid sz a) (hb : Valid sz b) (hua : Unique a) (hub : Unique b)
    (hdyn : useMask = true → ∀ d ∈ reduce, dyn d = false) (hn : (classes reduce).Nodup)
    (hra : ∀ d ∈ reduce, d.cls ∈ classes a.dims) (hrb : ∀ d ∈ reduce, d.cls ∈ classes b.dims) :
    ∃ out, matmul dyn useMask a b reduce = .ok out ∧ IsMatmul sz reduce a b out := by
  have hla : a.raw.shape.length = a.dims.length := by rw [ha]; simp
  have hlb : b.raw.shape.length = b.dims.length := by rw [hb]; simp
  obtain ⟨red, hred⟩ : ∃ red, red = sortReduce a.dims reduce := ⟨_, rfl⟩
  have hp : red.Perm reduce := hred ▸ sortReduce_perm _ _
  have hcr : ∀ c, c ∈ classes red ↔ c ∈ classes reduce := fun c => (hp.map Dim.cls).mem_iff
  have hra' : ∀ d ∈ red, d.cls ∈ classes a.dims := fun d hd => hra d (hp.mem_iff.mp hd)
  have hrb' : ∀ d ∈ red, d.cls ∈ classes b.dims := fun d hd => hrb d (hp.mem_iff.mp hd)
  have hn' : (classes red).Nodup := (hp.map Dim.cls).nodup_iff.mpr hn
  unfold matmul
  rw [if_neg (by
      simp only [Bool.and_eq_true, List.any_eq_true, not_and, not_exists]
      intro h d hd
      simp [hdyn h d hd]),
    if_neg (by
      simp only [Bool.not_eq_true', Bool.not_eq_false, List.all_eq_true]
      intro d hd
      exact (inDims_iff _ _).mpr (hra d hd)),
    if_neg (by
      simp only [Bool.not_eq_true', Bool.not_eq_false, List.all_eq_true]
      intro d hd
      exact (inDims_iff _ _).mpr (hrb d hd)),
    ← hred, axesOf_index hua hra', axesOf_index hub hrb']
  simp only
  unfold matmulAxes
  simp only
  -- the common dims
  have hcommon : commonDims a.dims b.dims (red.map (index a.dims)) =
      a.dims.filter (fun d => decide (d.cls ∉ classes reduce ∧ d.cls ∈ classes b.dims)) := by
    unfold commonDims
    apply filter_range_map
    intro i hi
    simp only [List.contains_eq_mem, mem_map_index hua hra' hi, hcr]
    generalize a.dims.getD i default = x
    have e : inDims b.dims x = decide (x.cls ∈ classes b.dims) := by
      rw [Bool.eq_iff_iff, inDims_iff, decide_eq_true_iff]
    rw [e]
    by_cases h1 : x.cls ∈ classes reduce <;> by_cases h2 : x.cls ∈ classes b.dims <;> simp [h1, h2]
  rw [hcommon]
  obtain ⟨common, hco⟩ : ∃ common, common =
      a.dims.filter (fun d => decide (d.cls ∉ classes reduce ∧ d.cls ∈ classes b.dims)) := ⟨_, rfl⟩
  rw [← hco]
  have hcm : ∀ d, d ∈ common ↔ d ∈ a.dims ∧ d.cls ∉ classes reduce ∧ d.cls ∈ classes b.dims := by
    intro d; rw [hco, List.mem_filter]; simp
  have hca : ∀ d ∈ common, d.cls ∈ classes a.dims := fun d hd => List.mem_map_of_mem ((hcm d).mp hd).1
  have hcb : ∀ d ∈ common, d.cls ∈ classes b.dims := fun d hd => ((hcm d).mp hd).2.2
  have hcc : ∀ c, c ∈ classes common ↔ c ∈ classes a.dims ∧ c ∉ classes reduce ∧ c ∈ classes b.dims := by
    intro c
    constructor
    · intro h
      obtain ⟨d, hd, e⟩ := List.mem_map.mp h
      rw [← e]
      exact ⟨hca d hd, ((hcm d).mp hd).2⟩
    · intro ⟨h1, h2⟩
      obtain ⟨d, hd, e⟩ := List.mem_map.mp h1
      exact List.mem_map.mpr ⟨d, (hcm d).mpr ⟨hd, e ▸ h2⟩, e⟩
  have hcn : (classes common).Nodup := by
    rw [hco]; exact hua.sublist (List.Sublist.map _ List.filter_sublist)
  -- the other dims
  have hdisj : ∀ ds : List Dim, (∀ d ∈ red, d.cls ∈ classes ds) → (∀ d ∈ common, d.cls ∈ classes ds) →
      (common.map (index ds) ++ uniqueAxes ds.length (red.map (index ds)) (common.map (index ds)) ++
        red.map (index ds)).Perm (List.range ds.length) := by
    intro ds h1 h2
    apply groups_perm (map_index_nodup hcn h2) (map_index_nodup hn' h1)
    · intro i hi hr
      obtain ⟨d, hd, e⟩ := List.mem_map.mp hi
      obtain ⟨d', hd', e'⟩ := List.mem_map.mp hr
      have := index_inj (h2 d hd) (h1 d' hd') (e.trans e'.symm)
      exact ((hcm d).mp hd).2.1 ((hcr _).mp (this ▸ List.mem_map_of_mem hd'))
    · intro i hi
      obtain ⟨d, hd, e⟩ := List.mem_map.mp hi
      rw [← e]; exact (index_spec (h2 d hd)).1
    · intro i hi
      obtain ⟨d, hd, e⟩ := List.mem_map.mp hi
      rw [← e]; exact (index_spec (h1 d hd)).1
  have huniq : ∀ (ds other : List Dim), (classes ds).Nodup → (∀ d ∈ red, d.cls ∈ classes ds) →
      (∀ d ∈ common, d.cls ∈ classes ds) →
      (∀ c ∈ classes ds, c ∈ classes common ↔ c ∉ classes reduce ∧ c ∈ classes other) →
      (uniqueAxes ds.length (red.map (index ds)) (common.map (index ds))).map (fun i => ds.getD i default) =
        ds.filter (fun d => decide (d.cls ∉ classes reduce ∧ d.cls ∉ classes other)) := by
    intro ds other hu h1 h2 h3
    unfold uniqueAxes
    apply filter_range_map
    intro i hi
    simp only [List.contains_eq_mem, mem_map_index hu h1 hi, mem_map_index hu h2 hi, hcr, h3 _ (getD_mem_classes hi)]
    generalize ds.getD i default = x
    by_cases h1 : x.cls ∈ classes reduce <;> by_cases h2 : x.cls ∈ classes other <;> simp [h1, h2]
  have hUA := huniq a.dims b.dims hua hra' hca (fun c hc => by rw [hcc]; simp [hc])
  have hUB := huniq b.dims a.dims hub hrb' hcb (fun c hc => by rw [hcc]; simp [hc, and_comm])
  have hPA := hdisj a.dims hra' hca
  have hPB := hdisj b.dims hrb' hcb
  obtain ⟨ua, hua'⟩ : ∃ ua, ua = uniqueAxes a.dims.length (red.map (index a.dims)) (common.map (index a.dims)) := ⟨_, rfl⟩
  obtain ⟨ub, hub'⟩ : ∃ ub, ub = uniqueAxes b.dims.length (red.map (index b.dims)) (common.map (index b.dims)) := ⟨_, rfl⟩
  rw [← hua'] at hUA hPA ⊢
  rw [← hub'] at hUB hPB ⊢
  have hPB' : (common.map (index b.dims) ++ red.map (index b.dims) ++ ub).Perm (List.range b.dims.length) := by
    refine List.Perm.trans ?_ hPB
    rw [List.append_assoc, List.append_assoc]
    exact List.Perm.append_left _ List.perm_append_comm
  have lt_ua : ∀ i ∈ ua, i < a.dims.length := fun i hi =>
    List.mem_range.mp (hPA.mem_iff.mp (by simp [hi]))
  have lt_ub : ∀ i ∈ ub, i < b.dims.length := fun i hi =>
    List.mem_range.mp (hPB.mem_iff.mp (by simp [hi]))
  -- sizes of the groups
  have hsz : ∀ (t : Tensor R), Valid sz t → ∀ ds : List Dim, (∀ d ∈ ds, d.cls ∈ classes t.dims) →
      sizes t.raw.shape (ds.map (index t.dims)) = ds.map (fun d => sz d.cls) := by
    intro t hv ds hd
    rw [sizes_valid hv (fun i hi => by
      obtain ⟨d, hd', e⟩ := List.mem_map.mp hi
      rw [← e]; exact (index_spec (hd d hd')).1), List.map_map]
    apply List.map_congr_left
    intro d hd'
    simp only [Function.comp_apply]
    rw [(index_spec (hd d hd')).2]
  have hsu : sizes a.raw.shape ua = (ua.map (fun i => a.dims.getD i default)).map (fun d => sz d.cls) := by
    rw [sizes_valid ha lt_ua, List.map_map]; rfl
  have hsv : sizes b.raw.shape ub = (ub.map (fun i => b.dims.getD i default)).map (fun d => sz d.cls) := by
    rw [sizes_valid hb lt_ub, List.map_map]; rfl
  obtain ⟨r, h1, h2, h3⟩ := matmulRaw_spec (a := a.raw) (b := b.raw) (by rw [hla]; exact hPA) (by rw [hlb]; exact hPB')
    (by rw [hsz a ha common hca, hsz b hb common hcb]) (by rw [hsz a ha red hra', hsz b hb red hrb'])
  rw [h1]
  simp only
  rw [hsz a ha common hca, hsu, hsv] at h2 h3
  rw [hsz a ha red hra'] at h3
  refine ⟨_, rfl, by simp only [hUA, hUB, hco], ?_, ?_⟩
  · unfold Valid
    rw [h2]
    simp only [List.map_append]
  · intro σ hσ
    simp only at hσ
    have hmem : ∀ d ∈ ua.map (fun i => a.dims.getD i default), d.cls ∉ classes reduce := by
      intro d hd
      rw [hUA, List.mem_filter] at hd
      simp only [decide_eq_true_eq] at hd
      exact hd.2.1
    have hmem' : ∀ d ∈ ub.map (fun i => b.dims.getD i default), d.cls ∉ classes reduce := by
      intro d hd
      rw [hUB, List.mem_filter] at hd
      simp only [decide_eq_true_eq] at hd
      exact hd.2.1
    rw [← sumOver_perm sz hp hn', valueAt]
    simp only [List.map_append]
    rw [h3 _ _ _ (forall₂_map _ _ _ (fun d hd => hσ d (by simp [hd])))
      (forall₂_map _ _ _ (fun d hd => hσ d (List.mem_append_left _ (List.mem_append_right _ hd))))
      (forall₂_map _ _ _ (fun d hd => hσ d (List.mem_append_right _ hd)))]
    symm
    apply sumOver_unravel sz red hn' _ (fun l =>
      a.raw.get (place a.raw.shape.length (common.map (index a.dims) ++ ua ++ red.map (index a.dims))
        (common.map (fun d => σ d.cls) ++ (ua.map (fun i => a.dims.getD i default)).map (fun d => σ d.cls) ++ l)) *
      b.raw.get (place b.raw.shape.length (common.map (index b.dims) ++ red.map (index b.dims) ++ ub)
        (common.map (fun d => σ d.cls) ++ l ++ (ub.map (fun i => b.dims.getD i default)).map (fun d => σ d.cls))))
    intro τ hτ
    beta_reduce
    have hτ' : ∀ ds : List Dim, (∀ d ∈ ds, d.cls ∉ classes reduce) →
        ds.map (fun d => τ d.cls) = ds.map (fun d => σ d.cls) := by
      intro ds hd
      apply List.map_congr_left
      intro d hd'
      exact hτ d.cls (fun h => hd d hd' ((hcr _).mp h))
    have hix : ∀ (t : Tensor R) (ds : List Dim), (∀ d ∈ ds, d.cls ∈ classes t.dims) →
        (ds.map (index t.dims)).map (fun i => τ (t.dims.getD i default).cls) = ds.map (fun d => τ d.cls) := by
      intro t ds hd
      rw [List.map_map]
      apply List.map_congr_left
      intro d hd'
      simp only [Function.comp_apply]
      rw [(index_spec (hd d hd')).2]
    rw [valueAt_place ha (q := common.map (index a.dims) ++ ua ++ red.map (index a.dims)) (by rw [hla]; exact hPA) τ,
      valueAt_place hb (q := common.map (index b.dims) ++ red.map (index b.dims) ++ ub) (by rw [hlb]; exact hPB') τ]
    simp only [List.map_append]
    rw [hix a common hca, hix a red hra', hix b common hcb, hix b red hrb',
      ← hτ' common (fun d hd => ((hcm d).mp hd).2.1), ← hτ' _ hmem, ← hτ' _ hmem']
    simp only [List.map_map]
    rfl

end Verif.RfMatmul
