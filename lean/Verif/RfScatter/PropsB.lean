import Verif.RfScatter.Lemmas
import Mathlib.Tactic.Ring
import Mathlib.Tactic.Linarith
/-
C115: log-sum-exp, log-mean-exp, and the masks of the largest values.
-/
namespace Verif.RfScatter
open Verif.Py

theorem flmax_fold (l : List Fl) (h : ∀ x ∈ l, x.isLog) : ∀ a : Fl, a.isLog →
    (l.foldl Fl.max a).isLog ∧ (l.foldl Fl.max a = .ninf ↔ a = .ninf ∧ ∀ x ∈ l, x = .ninf) := by
  induction l with
  | nil => intro a ha; exact ⟨ha, by simp⟩
  | cons x t ih =>
    intro a ha
    have hx := h x (by simp)
    have hm : (Fl.max a x).isLog ∧ (Fl.max a x = .ninf ↔ a = .ninf ∧ x = .ninf) := by
      cases a <;> cases x <;> simp_all [Fl.max, Fl.isLog]
    obtain ⟨h1, h2⟩ := ih (fun y hy => h y (by simp [hy])) _ hm.1
    rw [List.foldl_cons]
    refine ⟨h1, h2.trans ?_⟩
    rw [hm.2]
    simp only [List.mem_cons, forall_eq_or_imp]
    tauto

theorem flmax_reduce {l : List Fl} (h : ∀ x ∈ l, x.isLog) :
    (reduceOr Fl.max .ninf l).isLog ∧ (reduceOr Fl.max .ninf l = .ninf ↔ ∀ x ∈ l, x = .ninf) := by
  cases l with
  | nil => exact ⟨trivial, by simp [reduceOr]⟩
  | cons x t =>
    obtain ⟨h1, h2⟩ := flmax_fold t (fun y hy => h y (by simp [hy])) x (h x (by simp))
    refine ⟨h1, ?_⟩
    simp only [reduceOr, h2, List.mem_cons, forall_eq_or_imp]

theorem fladd_fold (l : List ℝ) : ∀ a : ℝ, (l.map Fl.fin).foldl Fl.add (.fin a) = .fin (a + l.sum) := by
  induction l with
  | nil => intro a; simp
  | cons x t ih =>
    intro a
    simp only [List.map_cons, List.foldl_cons, Fl.add, ih, List.sum_cons]
    congr 1
    ring

theorem rexp_nonneg (x : Fl) : 0 ≤ x.rexp := by
  cases x <;> simp [Fl.rexp, Real.exp_nonneg]

theorem rexp_zero {x : Fl} (h : x.isLog) : x.rexp = 0 ↔ x = .ninf := by
  cases x <;> simp_all [Fl.rexp, Fl.isLog, Real.exp_ne_zero]

theorem sum_zero_iff {l : List Fl} (h : ∀ x ∈ l, x.isLog) : (l.map Fl.rexp).sum = 0 ↔ ∀ x ∈ l, x = .ninf := by
  induction l with
  | nil => simp
  | cons x t ih =>
    have h1 := rexp_nonneg x
    have h2 : 0 ≤ (t.map Fl.rexp).sum := List.sum_nonneg (by
      intro y hy
      obtain ⟨z, _, rfl⟩ := List.mem_map.1 hy
      exact rexp_nonneg z)
    simp only [List.map_cons, List.sum_cons, List.mem_cons, forall_eq_or_imp]
    rw [← ih (fun y hy => h y (by simp [hy])), ← rexp_zero (h x (by simp))]
    constructor
    · intro h3
      constructor <;> linarith
    · rintro ⟨h3, h4⟩
      linarith

theorem sum_nonneg (l : List Fl) : 0 ≤ (l.map Fl.rexp).sum := List.sum_nonneg (by
  intro y hy
  obtain ⟨z, _, rfl⟩ := List.mem_map.1 hy
  exact rexp_nonneg z)

theorem exp_sub {x : Fl} (h : x.isLog) (m : ℝ) : (Fl.add x (Fl.neg (.fin m))).exp = .fin (x.rexp * Real.exp (-m)) := by
  cases x <;> simp_all [Fl.add, Fl.neg, Fl.exp, Fl.rexp, Fl.isLog, Real.exp_add]

theorem map_mul_sum (l : List Fl) (c : ℝ) : (l.map (fun x => x.rexp * c)).sum = (l.map Fl.rexp).sum * c := by
  induction l with
  | nil => simp
  | cons x t ih => simp only [List.map_cons, List.sum_cons, ih]; ring

/-- `scatter_logsumexp` is the log-sum-exp of the values of all valid frames which point to an out index. -/
theorem scatter_logsumexp {d : Dims} {idx : List Nat} {src : List Fl} (hc : Call d idx src) (hlog : ∀ x ∈ src, x.isLog) :
    ∃ out, scatterLogsumexp none d idx src = .ok out ∧ out.length = d.O ∧
      ∀ o, o < d.O → (d.need = true ∧ d.useMask = true → o < d.outLen) →
        out[o]? = some (lse (sel (d.frames src.length) idx src o)) := by
  obtain ⟨m, h1, h2, h3⟩ := scatterMax_get (mx := Fl.max) (bot := .ninf) (zero := .fin 0) (fill := none) hc
  let src' := List.zipWith (fun x m => (Fl.add x (Fl.neg m)).exp) src (gatherIdx m (.fin 0) idx)
  have hl' : src'.length = src.length := by
    simp only [src', List.length_zipWith, gatherIdx, List.length_map, hc.len, Nat.min_self]
  have hc' : Call d idx src' := ⟨by rw [hl']; exact hc.len, by rw [hl']; exact hc.n, hc.bounds, hc.out⟩
  refine ⟨List.zipWith (fun m x => Fl.add (zeroIfNinf m (Fl.log x)) m) m
    ((List.range d.O).map (fun o => (hits idx (maskSrc d (.fin 0) src') o).foldl Fl.add (.fin 0))), ?_, ?_, ?_⟩
  · simp only [scatterLogsumexp, h1, bind, Except.bind, Option.isSome_none, Bool.false_eq_true, if_false, scatterSum, Option.getD_none, if_true]
    rw [scatterAdd_ok hc.bounds]
  · rw [List.length_zipWith, h2, List.length_map, List.length_range, Nat.min_self]
  · intro o ho hm
    have hmo := h3 o ho (by
      intro h
      simp only [Dims.masked, Bool.and_eq_true] at h
      exact hm h)
    generalize hk : (if d.masked = true then (idx.drop d.n).count o else 0) = k at hmo
    rw [List.getElem?_zipWith, hmo, List.getElem?_map, List.getElem?_range ho]
    simp only [Option.map_some, Option.getD_none]
    have hsl : ∀ x ∈ sel (d.frames src.length) idx src o, x.isLog := by
      intro x hx
      obtain ⟨i, _, _, hi⟩ := mem_sel.1 hx
      exact hlog x (List.mem_of_getElem? hi)
    obtain ⟨hM1, hM2⟩ := flmax_reduce (l := sel (d.frames src.length) idx src o ++ List.replicate k .ninf) (by
      intro x hx
      rcases List.mem_append.1 hx with h | h
      · exact hsl x h
      · rw [List.eq_of_mem_replicate h]; trivial)
    have hM3 : (∀ x ∈ sel (d.frames src.length) idx src o ++ List.replicate k .ninf, x = Fl.ninf) ↔
        (∀ x ∈ sel (d.frames src.length) idx src o, x = Fl.ninf) := by
      constructor
      · intro h x hx
        exact h x (by simp [hx])
      · intro h x hx
        rcases List.mem_append.1 hx with h' | h'
        · exact h x h'
        · exact List.eq_of_mem_replicate h'
    rw [hM3, ← sum_zero_iff hsl] at hM2
    congr 1
    simp only [Option.getD_none] at hmo
    generalize hM : reduceOr Fl.max .ninf (sel (d.frames src.length) idx src o ++ List.replicate k .ninf) = M at hM1 hM2 hmo
    cases M with
    | nan => exact absurd hM1 id
    | pinf => exact absurd hM1 id
    | ninf => rw [lse, if_pos (hM2.1 rfl)]; rfl
    | fin x =>
      have hS : ¬ ((sel (d.frames src.length) idx src o).map Fl.rexp).sum = 0 := fun h => by simpa using hM2.2 h
      have hS' : 0 < ((sel (d.frames src.length) idx src o).map Fl.rexp).sum := lt_of_le_of_ne (sum_nonneg _) (Ne.symm hS)
      rw [lse, if_neg hS, maskSrc_hits _ hc', hk, hl']
      have hsm : sel (d.frames src.length) idx src' o = (sel (d.frames src.length) idx src o).map (fun y => Fl.fin (y.rexp * Real.exp (-x))) := by
        rw [sel_map (src := src) (src' := src') (fun y => (Fl.add y (Fl.neg (.fin x))).exp)]
        · apply List.map_congr_left
          intro y hy
          exact exp_sub (hsl y hy) x
        · intro i _ hi
          simp only [src', List.getElem?_zipWith, gatherIdx, List.getElem?_map, hi, Option.map_some, List.getD, hmo, Option.getD_some]
          cases src[i]? <;> rfl
      rw [hsm]
      have : (sel (d.frames src.length) idx src o).map (fun y => Fl.fin (y.rexp * Real.exp (-x))) ++ List.replicate k (.fin 0)
          = ((sel (d.frames src.length) idx src o).map (fun y : Fl => y.rexp * Real.exp (-x)) ++ List.replicate k 0).map Fl.fin := by
        simp [List.map_append, List.map_map, Function.comp_def]
      rw [this, fladd_fold, List.sum_append, map_mul_sum, List.sum_replicate, smul_zero, add_zero, zero_add]
      have hpos := mul_pos hS' (Real.exp_pos (-x))
      simp only [zeroIfNinf, Fl.log, if_neg hpos.ne', if_neg (not_lt.2 hpos.le), Fl.add]
      congr 1
      rw [Real.log_mul hS (Real.exp_ne_zero _), Real.log_exp]
      ring

/-- `scatter_logmeanexp`: what it divides by counts the padding which points to the out index. -/
theorem logmeanexp_counts {d : Dims} {idx : List Nat} {src : List Fl} (hc : Call d idx src) (hlog : ∀ x ∈ src, x.isLog) :
    ∃ out, scatterLogmeanexp none d idx src = .ok out ∧ out.length = d.O ∧
      ∀ o, o < d.O → (d.need = true ∧ d.useMask = true → o < d.outLen) →
        out[o]? = some (if ((sel (d.frames src.length) idx src o).map Fl.rexp).sum = 0 then .ninf
          else .fin (Real.log (((sel (d.frames src.length) idx src o).map Fl.rexp).sum /
            ((sel (d.frames src.length) idx src o).length + (if d.need ∧ d.useMask then (idx.drop d.n).count o else 0 : Nat))))) := by
  obtain ⟨y, h1, h2, h3⟩ := scatter_logsumexp hc hlog
  have hone : (Fl.fin 1) ≠ .fin 0 := by simp
  have hc' : Call d idx (idx.map (fun _ => Fl.fin 1)) := ⟨by simp, by simpa [hc.len] using hc.n, hc.bounds, hc.out⟩
  refine ⟨List.zipWith (fun y c => Fl.add y (Fl.neg (Fl.log c))) y ((List.range d.O).map (fun o => reduceOr Fl.add (.fin 1)
    (hits idx (maskSrc d (.fin 1) (idx.map (fun _ => Fl.fin 1))) o))), ?_, ?_, ?_⟩
  · simp only [scatterLogmeanexp, h1, bind, Except.bind, scatterSum, Option.getD_some, if_neg hone]
    rw [scatterReduce_ok hc.bounds]
  · rw [List.length_zipWith, h2, List.length_map, List.length_range, Nat.min_self]
  · intro o ho hm
    rw [List.getElem?_zipWith, h3 o ho hm, List.getElem?_map, List.getElem?_range ho]
    simp only [Option.map_some]
    rw [maskSrc_hits _ hc']
    have hkk : (if d.masked = true then (idx.drop d.n).count o else 0) = (if d.need = true ∧ d.useMask = true then (idx.drop d.n).count o else 0) := by
      simp [Dims.masked]
    rw [hkk]
    generalize (if d.need = true ∧ d.useMask = true then (idx.drop d.n).count o else 0) = k
    rw [List.length_map, hc.len, sel_map (src := src) (src' := idx.map (fun _ => Fl.fin 1)) (fun _ => Fl.fin 1)]
    · generalize sel (d.frames src.length) idx src o = l
      have hr : l.map (fun _ => Fl.fin 1) ++ List.replicate k (.fin 1) = (List.replicate (l.length + k) (1 : ℝ)).map Fl.fin := by
        rw [List.map_const', List.map_replicate, List.replicate_append_replicate]
      rw [hr]
      congr 1
      by_cases hS : (l.map Fl.rexp).sum = 0
      · rw [if_pos hS, lse, if_pos hS]
        have : ∃ n : ℝ, 0 < n ∧ reduceOr Fl.add (.fin 1) ((List.replicate (l.length + k) (1 : ℝ)).map Fl.fin) = .fin n := by
          cases l.length + k with
          | zero => exact ⟨1, by norm_num, rfl⟩
          | succ j =>
            refine ⟨1 + j, by positivity, ?_⟩
            rw [List.replicate_succ, List.map_cons]
            simp only [reduceOr]
            rw [fladd_fold]
            simp
        obtain ⟨n, hn, he⟩ := this
        rw [he]
        simp only [Fl.log, if_neg hn.ne', if_neg (not_lt.2 hn.le), Fl.neg, Fl.add]
      · rw [if_neg hS, lse, if_neg hS]
        have hl : 0 < l.length := by
          rcases Nat.eq_zero_or_pos l.length with h | h
          · rw [List.length_eq_zero_iff] at h
            subst h
            simp at hS
          · exact h
        have hn : (0 : ℝ) < l.length + k := by
          have : (0 : ℝ) < l.length := by exact_mod_cast hl
          positivity
        have he : reduceOr Fl.add (.fin 1) ((List.replicate (l.length + k) (1 : ℝ)).map Fl.fin) = .fin (l.length + k) := by
          obtain ⟨j, hj⟩ : ∃ j, l.length + k = j + 1 := ⟨l.length + k - 1, by omega⟩
          rw [hj, List.replicate_succ, List.map_cons]
          simp only [reduceOr]
          rw [fladd_fold]
          have : (l.length : ℝ) + k = j + 1 := by exact_mod_cast hj
          rw [this]
          simp only [List.sum_replicate, smul_eq_mul, nsmul_eq_mul, mul_one]
          rw [add_comm]
        rw [he]
        simp only [Fl.log, if_neg hn.ne', if_neg (not_lt.2 hn.le), Fl.neg, Fl.add]
        congr 1
        rw [Real.log_div hS hn.ne']
        ring
    · intro i hi hio
      rw [List.getElem?_map, hio]
      have : i < src.length := by
        rw [← hc.len]
        exact (List.getElem?_eq_some_iff.1 hio).1
      rw [List.getElem?_eq_getElem this]
      rfl

/-- `scatter_logmeanexp` is the log-mean-exp of the values of all valid frames which point to an out index.
Partial: only for out indices to which no frame of padding points, see `logmeanexp_counts`, `logmeanexp_padding`. -/
theorem scatter_logmeanexp_partial {d : Dims} {idx : List Nat} {src : List Fl} (hc : Call d idx src) (hlog : ∀ x ∈ src, x.isLog) :
    ∃ out, scatterLogmeanexp none d idx src = .ok out ∧ out.length = d.O ∧
      ∀ o, o < d.O → (d.need = true ∧ d.useMask = true → o < d.outLen ∧ o ∉ idx.drop d.n) →
        out[o]? = some (lme (sel (d.frames src.length) idx src o)) := by
  obtain ⟨out, h1, h2, h3⟩ := logmeanexp_counts hc hlog
  refine ⟨out, h1, h2, fun o ho hm => ?_⟩
  rw [h3 o ho (fun h => (hm h).1)]
  have : (if d.need = true ∧ d.useMask = true then (idx.drop d.n).count o else 0) = 0 := by
    split
    · rename_i h
      exact List.count_eq_zero.2 (hm h).2
    · rfl
  rw [this, lme]
  simp

/-- One valid frame with 0 and one frame of padding for the same out index: -log 2 instead of 0. -/
theorem logmeanexp_padding : ∃ (d : Dims) (idx : List Nat) (src : List Fl) (out : List Fl), Call d idx src ∧ (∀ x ∈ src, x.isLog) ∧
    scatterLogmeanexp none d idx src = .ok out ∧ lme (sel (d.frames src.length) idx src 0) = .fin 0 ∧
    out[0]? = some (.fin (- Real.log 2)) := by
  have hc : Call (⟨true, true, 1, 1, 1⟩ : Dims) [0, 0] [Fl.fin 0, Fl.fin 5] := ⟨rfl, by simp, by simp, by simp⟩
  have hlog : ∀ x ∈ [Fl.fin 0, Fl.fin 5], x.isLog := by simp [Fl.isLog]
  obtain ⟨out, h1, _, h3⟩ := logmeanexp_counts hc hlog
  have hs : sel 1 [0, 0] [Fl.fin 0, Fl.fin 5] 0 = [Fl.fin 0] := by simp [sel, List.range_succ]
  refine ⟨_, _, _, out, hc, hlog, h1, ?_, ?_⟩
  · simp [Dims.frames, hs, lme, Fl.rexp]
  · rw [h3 0 (by simp) (by simp)]
    simp only [Dims.frames, and_self, if_true, hs]
    simp [Fl.rexp]
    norm_num

/-! ## Masks -/

/-- The mask is true exactly for the positions with a true value. -/
theorem scatter_bool {n : Nat} {order : List Nat} {mask : List Bool} {fill : Option Bool} (hf : fill.getD false = false)
    (hn : order.Nodup) (hb : ∀ i ∈ order, i < n) (hl : mask.length = order.length) :
    ∃ out, scatterSum (fun a b => a || b) false fill ⟨false, false, order.length, n, n⟩ order mask = .ok out ∧ out.length = n ∧
      ∀ o : Nat, o < n → (out[o]? = some true ↔ ∃ k : Nat, order[k]? = some o ∧ mask[k]? = some true) := by
  refine ⟨(List.range n).map (fun o => (hits order mask o).foldl (fun a b => a || b) false), ?_, by simp, ?_⟩
  · simp only [scatterSum, hf, if_true, maskSrc, Dims.masked, Bool.and_self, Bool.false_eq_true, if_false]
    rw [scatterAdd_ok hb]
  · intro o ho
    rw [List.getElem?_map, List.getElem?_range ho, Option.map_some]
    by_cases hm : o ∈ order
    · obtain ⟨k, hk⟩ := List.getElem?_of_mem hm
      have hkl : k < mask.length := by
        rw [hl]
        exact (List.getElem?_eq_some_iff.1 hk).1
      rw [hits_nodup hn hk (List.getElem?_eq_getElem hkl)]
      simp only [List.foldl_cons, List.foldl_nil, Bool.false_or, Option.some.injEq]
      constructor
      · intro h
        exact ⟨k, hk, by rw [List.getElem?_eq_getElem hkl, h]⟩
      · rintro ⟨j, hj1, hj2⟩
        have hjl := (List.getElem?_eq_some_iff.1 hj1).1
        have : j = k := (List.getElem?_inj hjl hn).1 (hj1.trans hk.symm)
        subst this
        rw [List.getElem?_eq_getElem hkl] at hj2
        simpa using hj2
    · have : hits order mask o = [] := by
        rw [hits_eq hl.symm]
        exact sel_none hm
      rw [this]
      constructor
      · intro h; simp at h
      · rintro ⟨k, hk, _⟩
        exact absurd (List.mem_of_getElem? hk) hm

/-- `top_k_mask` is true for exactly `k` positions, and none of the others has a larger value. -/
theorem top_k_mask {l : List ℚ} {k : Nat} {order : List Nat} (h : TopK l k order) :
    ∃ out, topKMask l order = .ok out ∧ out.length = l.length ∧ out.count true = k ∧
      ∀ i j, i < l.length → j < l.length → out[i]? = some true → out[j]? = some false → l.getD j 0 ≤ l.getD i 0 := by
  obtain ⟨h1, h2, h3, h4⟩ := h
  obtain ⟨out, ho1, ho2, ho3⟩ := scatter_bool (n := l.length) (order := order) (mask := order.map (fun _ => true)) (fill := some false) rfl h2 h3 (by simp)
  have hmem : ∀ o, o < l.length → (out[o]? = some true ↔ o ∈ order) := by
    intro o ho
    rw [ho3 o ho]
    constructor
    · rintro ⟨k, hk, _⟩
      exact List.mem_of_getElem? hk
    · intro hm
      obtain ⟨k, hk⟩ := List.getElem?_of_mem hm
      exact ⟨k, hk, by rw [List.getElem?_map, hk]; rfl⟩
  refine ⟨out, ho1, ho2, ?_, ?_⟩
  · have hp : order.Perm ((List.range l.length).filter (fun o => decide (out[o]? = some true))) := by
      rw [List.perm_ext_iff_of_nodup h2 (List.nodup_range.filter _)]
      intro o
      simp only [List.mem_filter, List.mem_range, decide_eq_true_eq]
      constructor
      · intro hm
        exact ⟨h3 o hm, (hmem o (h3 o hm)).2 hm⟩
      · rintro ⟨ho, hm⟩
        exact (hmem o ho).1 hm
    rw [← h1, hp.length_eq, ← List.countP_eq_length_filter, ← ho2]
    rw [List.count_eq_countP]
    conv_lhs => rw [← List.map_id out]
    have : out = (List.range out.length).map (fun o => out.getD o false) := by
      apply List.ext_getElem
      · simp
      · intro i hi1 hi2
        simp [List.getD, List.getElem?_eq_getElem hi1]
    conv_lhs => rw [List.map_id, this, List.countP_map]
    apply List.countP_congr
    intro o ho
    rw [List.mem_range] at ho
    simp [List.getD, List.getElem?_eq_getElem ho]
  · intro i j hi hj hti htj
    apply h4 i ((hmem i hi).1 hti) j hj
    intro hm
    have := (hmem j hj).2 hm
    rw [htj] at this
    simp at this

example : TopK [1, 3, 2] 2 [1, 2] ∧ topKMask [1, 3, 2] [1, 2] = .ok [false, true, true] := by
  refine ⟨⟨rfl, by decide, by decide, ?_⟩, by decide⟩
  intro i hi j hj hn
  simp at hj
  have : j = 0 := by
    simp at hn
    omega
  subst this
  simp at hi
  rcases hi with rfl | rfl <;> norm_num

/-- The sum of the probabilities of the kept positions. -/
def keptMass (probs : List ℚ) (out : List Bool) : ℚ :=
  (((List.range probs.length).filter (fun o => out.getD o false)).map (fun o => probs.getD o 0)).sum

theorem cumsum_get {l : List ℚ} {k : Nat} (h : k < l.length) : (cumsum l)[k]? = some (l.take (k + 1)).sum := by
  simp [cumsum, List.getElem?_range h]

theorem take_sum_mono {l : List ℚ} (h : ∀ x ∈ l, 0 ≤ x) {a b : Nat} (hab : a ≤ b) : (l.take a).sum ≤ (l.take b).sum := by
  obtain ⟨c, rfl⟩ := Nat.exists_eq_add_of_le hab
  rw [List.take_add, List.sum_append]
  have : 0 ≤ ((l.drop a).take c).sum := List.sum_nonneg (fun x hx => h x (List.mem_of_mem_drop (List.mem_of_mem_take hx)))
  linarith

/-- How many sorted positions have a cumulated probability up to `p`. -/
theorem cut_exists {l : List ℚ} (h : ∀ x ∈ l, 0 ≤ x) {p : ℚ} (hp : 0 ≤ p) : ∃ m, m ≤ l.length ∧ (l.take m).sum ≤ p ∧
    (m < l.length → p < (l.take (m + 1)).sum) ∧ ∀ k, k < l.length → ((l.take (k + 1)).sum ≤ p ↔ k < m) := by
  have key : ∀ n, n ≤ l.length → ∃ m, m ≤ n ∧ (l.take m).sum ≤ p ∧ (m < n → p < (l.take (m + 1)).sum) := by
    intro n
    induction n with
    | zero => intro _; exact ⟨0, Nat.le_refl _, by simpa using hp, by omega⟩
    | succ n ih =>
      intro hn
      obtain ⟨m, h1, h2, h3⟩ := ih (by omega)
      rcases Nat.lt_or_ge m n with hmn | hmn
      · exact ⟨m, by omega, h2, fun _ => h3 hmn⟩
      · have : m = n := by omega
        subst this
        by_cases hc : (l.take (m + 1)).sum ≤ p
        · exact ⟨m + 1, by omega, hc, by omega⟩
        · exact ⟨m, by omega, h2, fun _ => not_le.1 hc⟩
  obtain ⟨m, h1, h2, h3⟩ := key l.length (Nat.le_refl _)
  refine ⟨m, h1, h2, h3, fun k hk => ⟨?_, ?_⟩⟩
  · intro hle
    by_contra hge
    have := h3 (by omega)
    have := take_sum_mono h (show m + 1 ≤ k + 1 by omega)
    linarith
  · intro hlt
    exact le_trans (take_sum_mono h (show k + 1 ≤ m by omega)) h2

theorem kept_take {probs : List ℚ} {order : List Nat} (hs : SortedDesc probs order) {out : List Bool} {m : Nat}
    (hm : ∀ o, o < probs.length → (out[o]? = some true ↔ ∃ k, order[k]? = some o ∧ k < m)) :
    keptMass probs out = ((order.map (fun i => probs.getD i 0)).take m).sum := by
  obtain ⟨hp, _⟩ := hs
  have hn : order.Nodup := hp.nodup_iff.2 List.nodup_range
  rw [keptMass, ← List.map_take]
  apply List.Perm.sum_eq
  apply List.Perm.map
  rw [List.perm_ext_iff_of_nodup (List.nodup_range.filter _) (hn.sublist (List.take_sublist _ _))]
  intro o
  simp only [List.mem_filter, List.mem_range]
  have hg : out.getD o false = true ↔ out[o]? = some true := by
    rw [List.getD]
    cases out[o]? <;> simp
  rw [hg]
  constructor
  · rintro ⟨h1, h2⟩
    obtain ⟨k, hk1, hk2⟩ := (hm o h1).1 h2
    apply List.mem_of_getElem? (i := k)
    rw [List.getElem?_take, if_pos hk2, hk1]
  · intro h
    obtain ⟨k, hk⟩ := List.getElem?_of_mem h
    rw [List.getElem?_take] at hk
    split at hk
    · rename_i hkm
      have ho := List.mem_range.1 (hp.mem_iff.1 (List.mem_of_getElem? hk))
      exact ⟨ho, (hm o ho).2 ⟨k, hk, hkm⟩⟩
    · simp at hk

theorem sorted_le {probs : List ℚ} {order : List Nat} (hs : SortedDesc probs order) {a b i j : Nat} (hab : a ≤ b) (ha : order[a]? = some i)
    (hb : order[b]? = some j) : probs.getD j 0 ≤ probs.getD i 0 := by
  rcases Nat.eq_or_lt_of_le hab with h | h
  · subst h
    rw [ha] at hb
    simp only [Option.some.injEq] at hb
    rw [hb]
  · have h1 := hs.2
    rw [List.pairwise_iff_getElem] at h1
    obtain ⟨hal, hae⟩ := List.getElem?_eq_some_iff.1 ha
    obtain ⟨hbl, hbe⟩ := List.getElem?_eq_some_iff.1 hb
    have := h1 a b (by simpa using hal) (by simpa using hbl) h
    simpa [hae, hbe] using this

theorem shiftRight_get {m : List Bool} {k : Nat} (hk : k < m.length) : (shiftRight m)[k]? = if k = 0 then some true else m[k - 1]? := by
  unfold shiftRight
  rw [List.getElem?_take, if_pos hk]
  cases k <;> simp

theorem shiftRight_length (m : List Bool) : (shiftRight m).length = m.length := by simp [shiftRight]

theorem topP_core {probs : List ℚ} {order : List Nat} {p : ℚ} {oneMore : Bool} (hs : SortedDesc probs order) (h0 : ∀ x ∈ probs, 0 ≤ x)
    (hp : 0 ≤ p ∧ p ≤ 1) : ∃ out m, topPMask probs order p oneMore = .ok out ∧ out.length = probs.length ∧ m ≤ probs.length ∧
      (∀ o, o < probs.length → (out[o]? = some true ↔ ∃ k, order[k]? = some o ∧ k < (if oneMore then min (m + 1) probs.length else m))) ∧
      ((order.map (fun i => probs.getD i 0)).take m).sum ≤ p ∧
      (m < probs.length → p < ((order.map (fun i => probs.getD i 0)).take (m + 1)).sum) := by
  have hol : order.length = probs.length := by rw [hs.1.length_eq]; simp
  have hn : order.Nodup := hs.1.nodup_iff.2 List.nodup_range
  have hb : ∀ i ∈ order, i < probs.length := fun i hi => List.mem_range.1 (hs.1.mem_iff.1 hi)
  generalize hL : order.map (fun i => probs.getD i 0) = L
  have hLl : L.length = probs.length := by rw [← hL, List.length_map, hol]
  have hL0 : ∀ x ∈ L, 0 ≤ x := by
    rw [← hL]
    intro x hx
    obtain ⟨i, hi, rfl⟩ := List.mem_map.1 hx
    have := hb i hi
    apply h0
    simp [List.getD, List.getElem?_eq_getElem this]
  obtain ⟨m, h1, h2, h3, h4⟩ := cut_exists hL0 hp.1
  rw [hLl] at h1 h3 h4
  have hM : ∀ k, k < probs.length → ((cumsum L).map (fun c => decide (c ≤ p)))[k]? = some (decide (k < m)) := by
    intro k hk
    rw [List.getElem?_map, cumsum_get (by omega), Option.map_some]
    simp only [h4 k hk]
  have hMl : ((cumsum L).map (fun c => decide (c ≤ p))).length = order.length := by simp [cumsum, hLl, hol]
  let mask := if oneMore then shiftRight ((cumsum L).map (fun c => decide (c ≤ p))) else (cumsum L).map (fun c => decide (c ≤ p))
  have hml : mask.length = order.length := by
    simp only [mask]
    split
    · rw [shiftRight_length, hMl]
    · exact hMl
  obtain ⟨out, ho1, ho2, ho3⟩ := scatter_bool (n := probs.length) (order := order) (mask := mask) (fill := none) rfl hn hb hml
  refine ⟨out, m, ?_, ho2, h1, ?_, h2, h3⟩
  · simp only [topPMask, pyAssert, hL, decide_eq_true hp, if_true, bind, Except.bind]
    exact ho1
  · intro o ho
    rw [ho3 o ho]
    constructor
    · rintro ⟨k, hk1, hk2⟩
      refine ⟨k, hk1, ?_⟩
      have hkl : k < probs.length := by
        rw [← hol]
        exact (List.getElem?_eq_some_iff.1 hk1).1
      simp only [mask] at hk2
      split at hk2
      · rename_i hone
        rw [if_pos hone]
        rw [shiftRight_get (by omega)] at hk2
        split at hk2
        · omega
        · rw [hM _ (by omega)] at hk2
          simp at hk2
          omega
      · rename_i hone
        rw [if_neg hone]
        rw [hM _ hkl] at hk2
        simpa using hk2
    · rintro ⟨k, hk1, hk2⟩
      refine ⟨k, hk1, ?_⟩
      have hkl : k < probs.length := by
        rw [← hol]
        exact (List.getElem?_eq_some_iff.1 hk1).1
      simp only [mask]
      split
      · rename_i hone
        rw [if_pos hone] at hk2
        rw [shiftRight_get (by omega)]
        split
        · rfl
        · rw [hM _ (by omega)]
          simp
          omega
      · rename_i hone
        rw [if_neg hone] at hk2
        rw [hM _ hkl]
        simpa using hk2

theorem topP_order {probs : List ℚ} {order : List Nat} (hs : SortedDesc probs order) {out : List Bool} {m : Nat}
    (hm : ∀ o, o < probs.length → (out[o]? = some true ↔ ∃ k, order[k]? = some o ∧ k < m)) {i j : Nat} (hi : i < probs.length)
    (hj : j < probs.length) (h1 : out[i]? = some true) (h2 : out[j]? = some false) : probs.getD j 0 ≤ probs.getD i 0 := by
  obtain ⟨k, hk1, hk2⟩ := (hm i hi).1 h1
  obtain ⟨k', hk'⟩ := List.getElem?_of_mem (hs.1.mem_iff.2 (List.mem_range.2 hj))
  have : ¬ k' < m := by
    intro h
    have := (hm j hj).2 ⟨k', hk', h⟩
    rw [h2] at this
    simp at this
  exact sorted_le hs (by omega) hk1 hk'

theorem take_succ_sum {probs : List ℚ} {order : List Nat} {m i : Nat} (h : order[m]? = some i) :
    ((order.map (fun i => probs.getD i 0)).take (m + 1)).sum = ((order.map (fun i => probs.getD i 0)).take m).sum + probs.getD i 0 := by
  rw [List.take_succ, List.sum_append, List.getElem?_map, h]
  simp

/-- `top_p_mask(one_more=False)`: positions of the largest probabilities, with a sum up to `p`,
and with the largest one of the others, it would be more than `p`. -/
theorem top_p_mask {probs : List ℚ} {order : List Nat} {p : ℚ} (hs : SortedDesc probs order) (h0 : ∀ x ∈ probs, 0 ≤ x) (hp : 0 ≤ p ∧ p ≤ 1) :
    ∃ out, topPMask probs order p false = .ok out ∧ out.length = probs.length ∧
      (∀ i j, i < probs.length → j < probs.length → out[i]? = some true → out[j]? = some false → probs.getD j 0 ≤ probs.getD i 0) ∧
      keptMass probs out ≤ p ∧
      ∀ j, j < probs.length → out[j]? = some false → (∀ j', j' < probs.length → out[j']? = some false → probs.getD j' 0 ≤ probs.getD j 0) →
        p < keptMass probs out + probs.getD j 0 := by
  obtain ⟨out, m, h1, h2, h3, h4, h5, h6⟩ := topP_core (oneMore := false) hs h0 hp
  simp only [Bool.false_eq_true, if_false] at h4
  refine ⟨out, h1, h2, fun i j hi hj ha hb => topP_order hs h4 hi hj ha hb, by rw [kept_take hs h4]; exact h5, ?_⟩
  intro j hj hjf hmax
  have hol : order.length = probs.length := by rw [hs.1.length_eq]; simp
  obtain ⟨k, hk⟩ := List.getElem?_of_mem (hs.1.mem_iff.2 (List.mem_range.2 hj))
  have hkl := (List.getElem?_eq_some_iff.1 hk).1
  have hkm : m ≤ k := by
    by_contra h
    have := (h4 j hj).2 ⟨k, hk, by omega⟩
    rw [hjf] at this
    simp at this
  have hml : m < order.length := by omega
  have h7 := h6 (by omega)
  rw [take_succ_sum (List.getElem?_eq_getElem hml)] at h7
  have hol2 : order[m] < probs.length := List.mem_range.1 (hs.1.mem_iff.1 (List.getElem_mem hml))
  have hfalse : out[order[m]]? = some false := by
    have hlt : order[m] < out.length := by omega
    rw [List.getElem?_eq_getElem hlt]
    cases hv : out[order[m]] with
    | false => rfl
    | true =>
      obtain ⟨k', hk1, hk2⟩ := (h4 _ hol2).1 (by rw [List.getElem?_eq_getElem hlt, hv])
      have hn : order.Nodup := hs.1.nodup_iff.2 List.nodup_range
      have := (List.getElem?_inj (List.getElem?_eq_some_iff.1 hk1).1 hn).1 (hk1.trans (List.getElem?_eq_getElem hml).symm)
      omega
  have := hmax _ hol2 hfalse
  rw [kept_take hs h4]
  linarith

/-- `top_p_mask(one_more=True)`, the default: positions of the largest probabilities, at least one, with a sum of more than `p` unless all are kept,
and without the smallest one of them, it would be up to `p`. -/
theorem top_p_mask_one_more {probs : List ℚ} {order : List Nat} {p : ℚ} (hs : SortedDesc probs order) (h0 : ∀ x ∈ probs, 0 ≤ x)
    (hp : 0 ≤ p ∧ p ≤ 1) :
    ∃ out, topPMask probs order p true = .ok out ∧ out.length = probs.length ∧
      (∀ i j, i < probs.length → j < probs.length → out[i]? = some true → out[j]? = some false → probs.getD j 0 ≤ probs.getD i 0) ∧
      (probs ≠ [] → ∃ i, i < probs.length ∧ out[i]? = some true) ∧
      (false ∈ out → p < keptMass probs out) ∧
      (∀ i, i < probs.length → out[i]? = some true → (∀ i', i' < probs.length → out[i']? = some true → probs.getD i 0 ≤ probs.getD i' 0) → keptMass probs out - probs.getD i 0 ≤ p) := by
  obtain ⟨out, m, h1, h2, h3, h4, h5, h6⟩ := topP_core (oneMore := true) hs h0 hp
  simp only [if_true] at h4
  have hol : order.length = probs.length := by rw [hs.1.length_eq]; simp
  have hcut : false ∈ out → m < probs.length ∧ min (m + 1) probs.length = m + 1 := by
    intro hf
    obtain ⟨j, hj⟩ := List.getElem?_of_mem hf
    have hjl : j < probs.length := by
      rw [← h2]
      exact (List.getElem?_eq_some_iff.1 hj).1
    obtain ⟨k, hk⟩ := List.getElem?_of_mem (hs.1.mem_iff.2 (List.mem_range.2 hjl))
    have hkl := (List.getElem?_eq_some_iff.1 hk).1
    have hkm : ¬ k < min (m + 1) probs.length := by
      intro h
      have := (h4 j hjl).2 ⟨k, hk, h⟩
      rw [hj] at this
      simp at this
    omega
  refine ⟨out, h1, h2, fun i j hi hj ha hb => topP_order hs h4 hi hj ha hb, ?_, ?_, ?_⟩
  · intro hne
    have hpos : 0 < probs.length := List.length_pos_iff.2 hne
    have h0l : 0 < order.length := by omega
    have ho := List.mem_range.1 (hs.1.mem_iff.1 (List.getElem_mem h0l))
    exact ⟨order[0], ho, (h4 _ ho).2 ⟨0, List.getElem?_eq_getElem h0l, by omega⟩⟩
  · intro hf
    obtain ⟨hml, hmin⟩ := hcut hf
    rw [kept_take hs h4, hmin]
    exact h6 hml
  · intro i hi hit hmin'
    rcases Nat.eq_or_lt_of_le h3 with hml | hml
    · have hmin : min (m + 1) probs.length = m := by omega
      rw [kept_take hs h4, hmin]
      have : 0 ≤ probs.getD i 0 := h0 _ (by simp [List.getD, List.getElem?_eq_getElem hi])
      linarith
    have hmin : min (m + 1) probs.length = m + 1 := by omega
    have hml' : m < order.length := by omega
    rw [kept_take hs h4, hmin, take_succ_sum (List.getElem?_eq_getElem hml')]
    -- the last one is the smallest
    have ho := List.mem_range.1 (hs.1.mem_iff.1 (List.getElem_mem hml'))
    have hlast : out[order[m]]? = some true := (h4 _ ho).2 ⟨m, List.getElem?_eq_getElem hml', by omega⟩
    have h7 := hmin' _ ho hlast
    obtain ⟨k, hk1, hk2⟩ := (h4 i hi).1 hit
    have h8 := sorted_le hs (show k ≤ m by omega) hk1 (List.getElem?_eq_getElem hml')
    have : probs.getD order[m] 0 = probs.getD i 0 := le_antisymm h8 h7
    linarith

example : topPMask [1/10, 6/10, 3/10] [1, 2, 0] (7/10) false = .ok [false, true, false] ∧
    topPMask [1/10, 6/10, 3/10] [1, 2, 0] (7/10) true = .ok [false, true, true] := by decide +kernel

example : SortedDesc [1/10, 6/10, 3/10] [1, 2, 0] := ⟨by decide, by decide +kernel⟩

end Verif.RfScatter
