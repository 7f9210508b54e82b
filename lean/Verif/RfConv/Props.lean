import Verif.RfConv.Lemmas
/-
Convolution and pooling of a padded batch give for every sequence what they give for the sequence alone.
-/
namespace Verif.RfConv

open Verif.Py

variable {X Y : Type}

/-- The options for which the result is right: masked input, the consistent padding for striding, and no dilation with an odd filter,
"same" and no striding. -/
def Good (o : Opts) : Prop :=
  Valid o ∧ o.useMask = true ∧ (o.pad = .same → o.stride ≠ 1 → o.consistent = true)
    ∧ (o.pad = .same → o.stride = 1 → o.size % 2 = 1 → o.size ≠ 1 → o.dil = 1)

theorem odd_half {s d : Nat} (h : s % 2 = 1) : (s - 1) * d / 2 = s / 2 * d ∧ (s - 1) * d = s / 2 * d + s / 2 * d := by
  obtain ⟨q, rfl⟩ : ∃ q, s = 2 * q + 1 := ⟨s / 2, by omega⟩
  have e1 : 2 * q + 1 - 1 = 2 * q := by omega
  have e2 : (2 * q + 1) / 2 = q := by omega
  rw [e1, e2]
  constructor
  · rw [Nat.mul_assoc, Nat.mul_div_cancel_left _ (by omega)]
  · ring

/-- How the output of one row is computed: the frames under the filter are those of the sequence alone, up to fill values. -/
theorem conv_form (agg : List (Option X) → Y) (z : X) (hz : Ignores agg z) (o : Opts) (ho : Good o) (r : Row X)
    (hl : r.len ≤ r.frames.length) (hf : Fits o r.frames.length) :
    convRow agg z o r
      = .ok ((List.range (refLen o r.frames.length)).map
          (fun t => agg (refTaps (r.frames.take r.len) (leftPad o) o.size o.stride o.dil t))) := by
  obtain ⟨⟨hs, hst, hd⟩, hm, hc, hq⟩ := ho
  obtain ⟨s, st, d, pad, um, con⟩ := o
  simp only at hs hst hd hm hc hq
  subst hm
  have hml := mask_length z r hl
  have hcomm : d * (s - 1) = (s - 1) * d := Nat.mul_comm _ _
  have fin : ∀ (L n : Nat) (x : List X) (l' : Nat),
      (∀ t, List.Forall₂ (Rel z) (taps x l' s st d t) (refTaps (r.frames.take r.len) L s st d t)) →
      (List.range n).map (fun t => agg (taps x l' s st d t))
        = (List.range n).map (fun t => agg (refTaps (r.frames.take r.len) L s st d t)) := by
    intro L n x l' hx
    apply List.map_congr_left
    intro t _
    exact hz _ _ (hx t)
  unfold Fits at hf
  unfold convRow input usesConsistent
  simp only [if_true]
  cases pad with
  | same =>
    simp only [totalPad] at hf
    by_cases h1 : st = 1
    · subst h1
      simp only [decide_true, ne_eq, not_true_eq_false, decide_false, Bool.and_false, Bool.false_and, Bool.false_eq_true,
        if_false]
      unfold convBackend
      simp only [Nat.le_refl, true_and, Nat.lt_irrefl, if_false]
      by_cases h2 : s % 2 = 1
      · rw [if_pos h2]
        have hsd : (s - 1) * d = s - 1 := by
          by_cases h3 : s = 1
          · subst h3; simp
          · rw [hq rfl rfl h2 h3, Nat.mul_one]
        rw [torchConv_ok _ _ _ _ _ _ _ (by omega) (by rw [hml]; omega), hml]
        have hlen : r.frames.length + (s - 1) / 2 + (s - 1) / 2 - d * (s - 1) = r.frames.length + (s - 1) * d - (s - 1) * d := by
          omega
        simp only [refLen, totalPad, leftPad, hsd]
        rw [hsd] at hlen
        rw [hlen]
        exact congrArg _ (fin _ _ _ _ (taps_mask z r hl _ _ _ _))
      · rw [if_neg h2, torchConv_ok _ _ _ _ _ _ _ (by omega) (by rw [hml]; omega), hml]
        have hlen : r.frames.length + d * (s - 1) / 2 + (d * (s - 1) - d * (s - 1) / 2) - d * (s - 1)
            = r.frames.length + (s - 1) * d - (s - 1) * d := by omega
        rw [hlen, hcomm]
        exact congrArg _ (fin _ _ _ _ (taps_mask z r hl _ _ _ _))
    · have hcon := hc rfl h1
      subst hcon
      simp only [decide_true, ne_eq, h1, not_false_eq_true, Bool.and_true, if_true]
      unfold consistentOpts consistentPad
      by_cases h2 : s % 2 = 1
      · obtain ⟨e1, e2⟩ := odd_half (s := s) (d := d) h2
        simp only [h2, if_true, convBackend]
        rw [torchConv_ok _ _ _ _ _ _ _ hst (by rw [hml]; omega), hml]
        have hlen : r.frames.length + s / 2 * d + s / 2 * d - d * (s - 1) = r.frames.length + (s - 1) * d - (s - 1) * d := by omega
        rw [hlen]
        simp only [refLen, totalPad, leftPad, e1]
        exact congrArg _ (fin _ _ _ _ (taps_mask z r hl _ _ _ _))
      · simp only [h2, if_false, convBackend]
        rw [torchConv_ok _ _ _ _ _ _ _ hst
          (by simp only [List.length_append, List.length_replicate, hml]; omega)]
        simp only [List.length_append, List.length_replicate, hml]
        have hlen : (s - 1) * d / 2 + r.frames.length + ((s - 1) * d - (s - 1) * d / 2) + 0 + 0 - d * (s - 1)
            = r.frames.length + (s - 1) * d - (s - 1) * d := by omega
        rw [hlen]
        simp only [refLen, totalPad, leftPad]
        exact congrArg _ (fin _ _ _ _ (taps_explicit z r hl _ _ _ _ _))
  | valid =>
    simp only [totalPad] at hf
    simp only [reduceCtorEq, decide_false, Bool.false_and]
    simp only [convBackend, Bool.false_eq_true, if_false]
    rw [torchConv_ok _ _ _ _ _ _ _ hst (by rw [hml]; omega), hml]
    simp only [refLen, totalPad, leftPad]
    rw [hcomm]
    exact congrArg _ (fin _ _ _ _ (taps_mask z r hl _ _ _ _))
  | int p =>
    simp only [totalPad] at hf
    simp only [reduceCtorEq, decide_false, Bool.false_and]
    simp only [convBackend, Bool.false_eq_true, if_false]
    rw [torchConv_ok _ _ _ _ _ _ _ hst (by rw [hml]; omega), hml]
    simp only [refLen, totalPad, leftPad]
    have hlen : r.frames.length + p + p - d * (s - 1) = r.frames.length + 2 * p - (s - 1) * d := by omega
    rw [hlen]
    exact congrArg _ (fin _ _ _ _ (taps_mask z r hl _ _ _ _))

/-- The length of the result which RETURNN calculates is the number of output frames for the sequence alone, with every padding,
stride and dilation (except that for "same" with striding it depends on nothing else than the length). -/
theorem outLen_right (o : Opts) (ho : Valid o) (n : Nat) : outLen o n = refLen o n := by
  obtain ⟨hs, hst, hd⟩ := ho
  obtain ⟨s, st, d, pad, um, con⟩ := o
  simp only at hs hst hd
  have hA : ∀ a b : Nat, a = b → ceildiv a st = (b + st - 1) / st := fun a b h => by rw [h]; rfl
  unfold outLen usesConsistent refLen
  cases pad with
  | same =>
    simp only [decide_true, Bool.true_and, totalPad]
    have hsub : n + (s - 1) * d - (s - 1) * d = n := by omega
    rw [hsub]
    by_cases h1 : st = 1
    · subst h1
      simp [makeOut]
    · cases con with
      | false =>
        simp only [Bool.and_false, Bool.false_eq_true, if_false, makeOut, h1, false_and, and_false, or_self, calcOut]
        rfl
      | true =>
        simp only [ne_eq, h1, not_false_eq_true, decide_true, Bool.and_true, if_true]
        unfold consistentOpts consistentLen
        by_cases h2 : s % 2 = 1
        · obtain ⟨e1, e2⟩ := odd_half (s := s) (d := d) h2
          simp only [h2, if_true, makeOut, h1, false_and, and_false, or_self, if_false, calcOut]
          exact hA _ _ (by omega)
        · simp only [h2, if_false, makeOut, h1, false_and, and_false, or_self, calcOut]
          exact hA _ _ (by omega)
  | valid =>
    simp only [reduceCtorEq, decide_false, Bool.false_and, Bool.false_eq_true, if_false, totalPad, Nat.add_zero, makeOut, calcOut]
    by_cases h : s = 1 ∧ st = 1
    · obtain ⟨h1, h2⟩ := h
      subst h1 h2
      simp
    · rw [if_neg (by tauto)]
      rfl
  | int p =>
    simp only [reduceCtorEq, decide_false, Bool.false_and, Bool.false_eq_true, if_false, totalPad, makeOut, calcOut, Pad.int.injEq]
    by_cases h : s = 1 ∧ st = 1 ∧ p = 0
    · obtain ⟨h1, h2, h3⟩ := h
      subst h1 h2 h3
      simp
    · rw [if_neg (by tauto)]
      exact hA _ _ (by omega)

theorem refLen_mono (o : Opts) {m n : Nat} (h : m ≤ n) : refLen o m ≤ refLen o n := by
  unfold refLen
  exact Nat.div_le_div_right (by omega)

/-- **Convolution of a padded batch.**  For every sequence of the batch, the frames of the result within its length are those of
the convolution of this sequence alone, whatever is in the padding and whatever the other sequences are; the output for the longest
sequence has no other frames. -/
theorem conv_batch_partial (agg : List (Option X) → Y) (z : X) (hz : Ignores agg z) (o : Opts) (ho : Good o) (r : Row X)
    (hl : r.len ≤ r.frames.length) (hf : Fits o r.frames.length) :
    ∃ y, convRow agg z o r = .ok y ∧ y.take (outLen o r.len) = ref agg o (r.frames.take r.len)
      ∧ outLen o r.len ≤ y.length ∧ y.length = outLen o r.frames.length := by
  refine ⟨_, conv_form agg z hz o ho r hl hf, ?_, ?_, ?_⟩
  · rw [outLen_right o ho.1, take_map_range _ _ _ (refLen_mono o hl)]
    unfold ref
    rw [List.length_take, Nat.min_eq_left hl]
  · rw [outLen_right o ho.1, List.length_map, List.length_range]
    exact refLen_mono o hl
  · rw [outLen_right o ho.1, List.length_map, List.length_range]

/-- Two batches with the same sequence: the same result for it. -/
theorem conv_same_seq_partial (agg : List (Option X) → Y) (z : X) (hz : Ignores agg z) (o : Opts) (ho : Good o) (r r' : Row X)
    (hl : r.len ≤ r.frames.length) (hl' : r'.len ≤ r'.frames.length) (hf : Fits o r.frames.length) (hf' : Fits o r'.frames.length)
    (he : r.frames.take r.len = r'.frames.take r'.len) :
    ∃ y y', convRow agg z o r = .ok y ∧ convRow agg z o r' = .ok y' ∧ y.take (outLen o r.len) = y'.take (outLen o r'.len) := by
  obtain ⟨y, h1, h2, _⟩ := conv_batch_partial agg z hz o ho r hl hf
  obtain ⟨y', h1', h2', _⟩ := conv_batch_partial agg z hz o ho r' hl' hf'
  exact ⟨y, y', h1, h1', by rw [h2, h2', he]⟩

/-- With "valid" padding the frames behind the sequence are never used: any operation, also without mask. -/
theorem conv_valid_any (agg : List (Option X) → Y) (z : X) (o : Opts) (hv : Valid o) (hp : o.pad = .valid) (r : Row X)
    (hl : r.len ≤ r.frames.length) (hf : Fits o r.frames.length) :
    ∃ y, convRow agg z o r = .ok y ∧ y.take (outLen o r.len) = ref agg o (r.frames.take r.len) := by
  obtain ⟨hs, hst, hd⟩ := hv
  have hvv : Valid o := ⟨hs, hst, hd⟩
  obtain ⟨s, st, d, pad, um, con⟩ := o
  simp only at hs hst hd hp
  subst hp
  simp only [Fits, totalPad] at hf
  have hcomm : d * (s - 1) = (s - 1) * d := Nat.mul_comm _ _
  rw [outLen_right _ hvv]
  unfold convRow usesConsistent
  simp only [reduceCtorEq, decide_false, Bool.false_and, Bool.false_eq_true, if_false, convBackend]
  have hml := mask_length z r hl
  have hin : (input z ⟨s, st, d, .valid, um, con⟩ r).length = r.frames.length := by
    unfold input; cases um <;> simp [hml]
  have hget : ∀ i, i < r.len → (input z ⟨s, st, d, .valid, um, con⟩ r)[i]? = (r.frames.take r.len)[i]? := by
    intro i hi
    have ht : (r.frames.take r.len).length = r.len := by rw [List.length_take]; omega
    unfold input
    cases um
    · simp only [Bool.false_eq_true, if_false]
      rw [List.getElem?_take, if_pos hi]
    · simp only [if_true]
      unfold maskRow
      rw [List.getElem?_append_left (by omega)]
  rw [torchConv_ok _ _ _ _ _ _ _ hst (by rw [hin]; omega), hin]
  refine ⟨_, rfl, ?_⟩
  have hmono := refLen_mono ⟨s, st, d, .valid, um, con⟩ hl
  have e : ceildiv (r.frames.length + 0 + 0 - d * (s - 1)) st = refLen ⟨s, st, d, .valid, um, con⟩ r.frames.length := by
    unfold refLen ceildiv totalPad
    rw [hcomm]; rfl
  rw [e, take_map_range _ _ _ hmono]
  unfold ref
  rw [List.length_take, Nat.min_eq_left hl]
  apply List.map_congr_left
  intro t ht
  rw [List.mem_range] at ht
  congr 1
  unfold taps refTaps
  apply List.map_congr_left
  intro k hk
  rw [List.mem_range] at hk
  rw [frameAt_sub]
  simp only [leftPad, getPad, Nat.not_lt_zero, if_false, Nat.sub_zero]
  apply hget
  have h1 : t * st < r.len - (s - 1) * d := by
    unfold refLen totalPad at ht
    simp only [Nat.add_zero] at ht
    have h2 := (Nat.le_div_iff_mul_le hst).1 (Nat.succ_le_of_lt ht)
    rw [Nat.succ_eq_add_one, Nat.add_mul] at h2
    omega
  have h3 : k * d ≤ (s - 1) * d := Nat.mul_le_mul_right _ (by omega)
  omega

/-! ### The operations -/

theorem convAgg_ignores {X Y : Type} [Zero X] [Add Y] [Zero Y] (w : List (X → Y)) (b : Y) : Ignores (convAgg w b) (0 : X) := by
  intro l l' h
  unfold convAgg
  congr 1
  induction h generalizing w with
  | nil => rfl
  | @cons a c l l' hac _ ih =>
    cases w with
    | nil => rfl
    | cons f w =>
      simp only [List.zipWith_cons_cons]
      rw [ih]
      congr 2
      rcases hac with h | ⟨h1, h2⟩
      · rw [h]
      · rcases h1 with h1 | h1 <;> rcases h2 with h2 | h2 <;> rw [h1, h2] <;> rfl

theorem maxAgg_ignores : Ignores maxAgg (none : Option ℚ) := by
  intro l l' h
  unfold maxAgg
  have H : ∀ m, List.foldl (fun m x => maxBot m (Option.getD x none)) m l
      = List.foldl (fun m x => maxBot m (Option.getD x none)) m l' := by
    induction h with
    | nil => intro m; rfl
    | @cons a c l l' hac _ ih =>
      intro m
      simp only [List.foldl_cons]
      rw [ih]
      congr 2
      rcases hac with h | ⟨h1, h2⟩
      · rw [h]
      · rcases h1 with h1 | h1 <;> rcases h2 with h2 | h2 <;> rw [h1, h2] <;> rfl
  exact H none

/-! ### Pooling -/

/-- The options for which the result of pooling is right. -/
def PoolGood (o : Opts) : Prop :=
  Valid o ∧ o.useMask = true ∧ (o.pad = .same → o.stride ≠ 1 → o.consistent = true)
    ∧ (o.pad = .same → o.stride = 1 → o.size % 2 = 1 ∧ (o.size = 1 ∨ o.dil = 1))
    ∧ ∀ p, o.pad = .int p → 2 * p ≤ o.dil * (o.size - 1) + 1

theorem poolSize_floor (n p s st d : Nat) (hst : 0 < st) (hf : d * (s - 1) < n + p + p) :
    poolSize n p s st d false = ceildiv (n + p + p - d * (s - 1)) st := by
  unfold poolSize
  simp only [Bool.false_eq_true, if_false, false_and, Nat.add_zero]
  exact div_ceil _ _ (by omega) hst

theorem torchPool_floor (agg : List (Option X) → Y) (x : List X) (p s st d : Nat) (hst : 0 < st)
    (hp : 2 * p ≤ d * (s - 1) + 1) (hf : d * (s - 1) < x.length + p + p) :
    torchPool agg x p s st d false
      = .ok ((List.range (ceildiv (x.length + p + p - d * (s - 1)) st)).map (fun t => agg (taps x p s st d t))) := by
  unfold torchPool
  rw [if_neg (by omega), if_neg (by omega), poolSize_floor _ _ _ _ _ hst hf]

theorem poolBackend_int (agg : List (Option X) → Y) (s st d p : Nat) (um con : Bool) (x : List X) (hs : 0 < s) (hst : 0 < st)
    (hd : 0 < d) (hp : 2 * p ≤ d * (s - 1) + 1) (hf : d * (s - 1) < x.length + p + p) :
    poolBackend agg ⟨s, st, d, .int p, um, con⟩ x
      = .ok ((List.range (ceildiv (x.length + p + p - d * (s - 1)) st)).map (fun t => agg (taps x p s st d t))) := by
  unfold poolBackend poolPad
  simp only [Int.natCast_nonneg, not_lt, Int.toNat_natCast]
  rw [if_neg (by omega), torchPool_floor _ _ _ _ _ _ hst hp hf]
  have h := outLen_right ⟨s, st, d, .int p, um, con⟩ ⟨hs, hst, hd⟩ x.length
  simp only [outLen, usesConsistent, reduceCtorEq, decide_false, Bool.false_and, Bool.false_eq_true, if_false] at h
  show checkSize _ _ = _
  unfold checkSize
  rw [if_pos]
  rw [h, List.length_map, List.length_range]
  unfold ceildiv refLen totalPad
  simp only
  rw [Nat.mul_comm d]
  congr 3
  omega

theorem poolBackend_valid (agg : List (Option X) → Y) (s st d : Nat) (um con : Bool) (x : List X) (hs : 0 < s) (hst : 0 < st)
    (hd : 0 < d) (hf : d * (s - 1) < x.length) :
    poolBackend agg ⟨s, st, d, .valid, um, con⟩ x
      = .ok ((List.range (ceildiv (x.length - d * (s - 1)) st)).map (fun t => agg (taps x 0 s st d t))) := by
  unfold poolBackend poolPad
  simp only [Int.toNat_zero]
  rw [if_neg (by omega), torchPool_floor _ _ _ _ _ _ hst (by omega) (by omega)]
  have h := outLen_right ⟨s, st, d, .valid, um, con⟩ ⟨hs, hst, hd⟩ x.length
  simp only [outLen, usesConsistent, reduceCtorEq, decide_false, Bool.false_and, Bool.false_eq_true, if_false] at h
  show checkSize _ _ = _
  unfold checkSize
  rw [if_pos]
  · simp only [Nat.add_zero]
  rw [h, List.length_map, List.length_range]
  unfold ceildiv refLen totalPad
  simp only [Nat.add_zero]
  rw [Nat.mul_comm d]

theorem pool_form (agg : List (Option X) → Y) (z : X) (hz : Ignores agg z) (o : Opts) (ho : PoolGood o) (r : Row X)
    (hl : r.len ≤ r.frames.length) (hf : Fits o r.frames.length) :
    poolRow agg z o r
      = .ok ((List.range (refLen o r.frames.length)).map
          (fun t => agg (refTaps (r.frames.take r.len) (leftPad o) o.size o.stride o.dil t))) := by
  obtain ⟨⟨hs, hst, hd⟩, hm, hc, hq, hi⟩ := ho
  obtain ⟨s, st, d, pad, um, con⟩ := o
  simp only at hs hst hd hm hc hq hi
  subst hm
  have hml := mask_length z r hl
  have hcomm : d * (s - 1) = (s - 1) * d := Nat.mul_comm _ _
  have fin : ∀ (L n : Nat) (x : List X) (l' : Nat),
      (∀ t, List.Forall₂ (Rel z) (taps x l' s st d t) (refTaps (r.frames.take r.len) L s st d t)) →
      (List.range n).map (fun t => agg (taps x l' s st d t))
        = (List.range n).map (fun t => agg (refTaps (r.frames.take r.len) L s st d t)) := by
    intro L n x l' hx
    apply List.map_congr_left
    intro t _
    exact hz _ _ (hx t)
  unfold Fits at hf
  unfold poolRow input usesConsistent
  simp only [if_true]
  cases pad with
  | same =>
    simp only [totalPad] at hf
    by_cases h1 : st = 1
    · subst h1
      simp only [decide_true, ne_eq, not_true_eq_false, decide_false, Bool.and_false, Bool.false_and, Bool.false_eq_true,
        if_false]
      obtain ⟨h2, h3⟩ := hq rfl rfl
      have hsd : (s - 1) * d = s - 1 := by
        rcases h3 with h3 | h3
        · subst h3; simp
        · rw [h3, Nat.mul_one]
      have hpp : (((s : Int) - 1 - ((r.frames.length : Int) - 1) % 1) / 2) = (((s - 1) / 2 : Nat) : Int) := by
        rw [Int.emod_one]; omega
      unfold poolBackend poolPad
      simp only [hml, Nat.cast_one]
      rw [hpp, if_neg (by omega), Int.toNat_natCast]
      unfold torchPool
      rw [if_neg (by rw [hcomm, hsd]; omega), if_neg (by rw [hcomm, hsd, hml]; omega)]
      have hps : poolSize (maskRow z r).length ((s - 1) / 2) s 1 d true = r.frames.length := by
        unfold poolSize
        rw [hcomm, hsd, hml]
        simp only [if_true, Nat.sub_self, Nat.add_zero, Nat.div_one, Nat.mul_one, true_and]
        rw [if_neg (by omega)]
        omega
      rw [hps]
      show checkSize _ _ = _
      unfold checkSize
      rw [if_pos (by simp [makeOut])]
      have hr : refLen ⟨s, 1, d, .same, true, con⟩ r.frames.length = r.frames.length := by
        unfold refLen totalPad; simp
      have hL : leftPad ⟨s, 1, d, .same, true, con⟩ = (s - 1) / 2 := by unfold leftPad; simp only [hsd]
      rw [hr, hL]
      exact congrArg _ (fin _ _ _ _ (taps_mask z r hl _ _ _ _))
    · have hcon := hc rfl h1
      subst hcon
      simp only [decide_true, ne_eq, h1, not_false_eq_true, Bool.and_true, if_true]
      unfold consistentOpts consistentPad
      by_cases h2 : s % 2 = 1
      · obtain ⟨e1, e2⟩ := odd_half (s := s) (d := d) h2
        simp only [h2, if_true]
        rw [poolBackend_int _ _ _ _ _ _ _ _ hs hst hd (by omega) (by rw [hml]; omega), hml]
        have hlen : r.frames.length + s / 2 * d + s / 2 * d - d * (s - 1) = r.frames.length + (s - 1) * d - (s - 1) * d := by omega
        rw [hlen]
        simp only [refLen, totalPad, leftPad, e1]
        exact congrArg _ (fin _ _ _ _ (taps_mask z r hl _ _ _ _))
      · simp only [h2, if_false]
        rw [poolBackend_int _ _ _ _ _ _ _ _ hs hst hd (by omega)
          (by simp only [List.length_append, List.length_replicate, hml]; omega)]
        simp only [List.length_append, List.length_replicate, hml]
        have hlen : (s - 1) * d / 2 + r.frames.length + ((s - 1) * d - (s - 1) * d / 2) + 0 + 0 - d * (s - 1)
            = r.frames.length + (s - 1) * d - (s - 1) * d := by omega
        rw [hlen]
        simp only [refLen, totalPad, leftPad]
        exact congrArg _ (fin _ _ _ _ (taps_explicit z r hl _ _ _ _ _))
  | valid =>
    simp only [totalPad] at hf
    simp only [reduceCtorEq, decide_false, Bool.false_and, Bool.false_eq_true, if_false]
    rw [poolBackend_valid _ _ _ _ _ _ _ hs hst hd (by rw [hml]; omega), hml]
    simp only [refLen, totalPad, leftPad]
    rw [hcomm]
    exact congrArg _ (fin _ _ _ _ (taps_mask z r hl _ _ _ _))
  | int p =>
    simp only [totalPad] at hf
    simp only [reduceCtorEq, decide_false, Bool.false_and, Bool.false_eq_true, if_false]
    rw [poolBackend_int _ _ _ _ _ _ _ _ hs hst hd (hi p rfl) (by rw [hml]; omega), hml]
    simp only [refLen, totalPad, leftPad]
    have hlen : r.frames.length + p + p - d * (s - 1) = r.frames.length + 2 * p - (s - 1) * d := by omega
    rw [hlen]
    exact congrArg _ (fin _ _ _ _ (taps_mask z r hl _ _ _ _))

/-- **Max pooling of a padded batch.** -/
theorem pool_batch_partial (agg : List (Option X) → Y) (z : X) (hz : Ignores agg z) (o : Opts) (ho : PoolGood o) (r : Row X)
    (hl : r.len ≤ r.frames.length) (hf : Fits o r.frames.length) :
    ∃ y, poolRow agg z o r = .ok y ∧ y.take (outLen o r.len) = ref agg o (r.frames.take r.len)
      ∧ outLen o r.len ≤ y.length ∧ y.length = outLen o r.frames.length := by
  refine ⟨_, pool_form agg z hz o ho r hl hf, ?_, ?_, ?_⟩
  · rw [outLen_right o ho.1, take_map_range _ _ _ (refLen_mono o hl)]
    unfold ref
    rw [List.length_take, Nat.min_eq_left hl]
  · rw [outLen_right o ho.1, List.length_map, List.length_range]
    exact refLen_mono o hl
  · rw [outLen_right o ho.1, List.length_map, List.length_range]

/-- **Pooling with "valid" padding**: every operation (also the average), with and without mask. -/
theorem pool_valid_any (agg : List (Option X) → Y) (z : X) (o : Opts) (hv : Valid o) (hp : o.pad = .valid) (r : Row X)
    (hl : r.len ≤ r.frames.length) (hf : Fits o r.frames.length) :
    ∃ y, poolRow agg z o r = .ok y ∧ y.take (outLen o r.len) = ref agg o (r.frames.take r.len) := by
  obtain ⟨y, h1, h2⟩ := conv_valid_any agg z o hv hp r hl hf
  refine ⟨y, ?_, h2⟩
  rw [← h1]
  obtain ⟨hs, hst, hd⟩ := hv
  obtain ⟨s, st, d, pad, um, con⟩ := o
  simp only at hs hst hd hp
  subst hp
  simp only [Fits, totalPad] at hf
  have hcomm : d * (s - 1) = (s - 1) * d := Nat.mul_comm _ _
  have hin : (input z ⟨s, st, d, .valid, um, con⟩ r).length = r.frames.length := by
    unfold input; cases um <;> simp [mask_length z r hl]
  unfold poolRow convRow usesConsistent
  simp only [reduceCtorEq, decide_false, Bool.false_and, Bool.false_eq_true, if_false, convBackend]
  rw [poolBackend_valid _ _ _ _ _ _ _ hs hst hd (by omega), torchConv_ok _ _ _ _ _ _ _ hst (by omega)]
  simp only [Nat.add_zero]

/-! ### Where the result is not the one of the sequence alone -/

def w2 : List (ℚ → ℚ) := [fun x => x, fun x => x]
def w3 : List (ℚ → ℚ) := [fun x => x, fun x => 2 * x, fun x => 3 * x]

/-- Without mask, the last frames depend on the content of the padding. -/
theorem unmasked_depends :
    convRow (convAgg w3 0) 0 ⟨3, 1, 1, .same, false, true⟩ ⟨[1, 2, 0], 2⟩ = .ok [8, 5, 2]
    ∧ convRow (convAgg w3 0) 0 ⟨3, 1, 1, .same, false, true⟩ ⟨[1, 2, 7], 2⟩ = .ok [8, 26, 16] := by
  decide +kernel

/-- With striding and "same", without the consistent padding: the result for a sequence depends on the longest sequence. -/
theorem strided_depends :
    convRow (convAgg w3 0) 0 ⟨3, 2, 1, .same, true, false⟩ ⟨[1, 2, 3], 3⟩ = .ok [8, 8]
    ∧ convRow (convAgg w3 0) 0 ⟨3, 2, 1, .same, true, false⟩ ⟨[1, 2, 3, 9], 3⟩ = .ok [14, 3] := by
  decide +kernel

/-- The stride larger than the filter: for an even number of frames the first frame is dropped, and the second one is used. -/
theorem strided_crops :
    convRow (convAgg [fun x => x] (0 : ℚ)) 0 ⟨1, 2, 1, .same, true, false⟩ ⟨[(1 : ℚ), 2, 3], 3⟩ = .ok [1, 3]
    ∧ convRow (convAgg [fun x => x] (0 : ℚ)) 0 ⟨1, 2, 1, .same, true, false⟩ ⟨[(1 : ℚ), 2, 3, 4], 4⟩ = .ok [2, 4] := by
  decide +kernel

/-- Dilation with "same", an odd filter and no striding: the padding is the one without dilation, so that the result has fewer frames
than its sequence length says. -/
theorem dilated_same_short :
    convRow (convAgg w3 0) 0 ⟨3, 1, 2, .same, true, true⟩ ⟨[1, 2, 3, 4, 5], 5⟩ = .ok [16, 22, 10]
    ∧ outLen ⟨3, 1, 2, .same, true, true⟩ 5 = 5
    ∧ ref (convAgg w3 0) ⟨3, 1, 2, .same, true, true⟩ [1, 2, 3, 4, 5] = [11, 16, 22, 10, 13] := by
  decide +kernel

/-- "valid" with a batch of sequences shorter than the filter: an error, although the length of the result is 0. -/
theorem valid_short_raises :
    convRow (convAgg w3 0) 0 ⟨3, 1, 1, .valid, true, true⟩ ⟨[1, 2], 2⟩
      = .error (.other "kernel size can't be greater than actual input size")
    ∧ outLen ⟨3, 1, 1, .valid, true, true⟩ 2 = 0 := by
  decide +kernel

/-- Average pooling with "same": the frames behind a shorter sequence are counted as zeros, those behind the longest are not. -/
theorem avg_depends :
    poolRow avgAgg 0 ⟨3, 2, 1, .same, true, true⟩ ⟨[6, 6, 6], 3⟩ = .ok [6, 6]
    ∧ poolRow avgAgg 0 ⟨3, 2, 1, .same, true, true⟩ ⟨[6, 6, 6, 5], 3⟩ = .ok [6, 4] := by
  decide +kernel

/-- Average pooling with "same" and an even pool size: also the explicit padding of a sequence alone is counted. -/
theorem avg_even_counts :
    poolRow avgAgg 0 ⟨2, 3, 1, .same, true, true⟩ ⟨[6], 1⟩ = .ok [3] ∧ ref avgAgg ⟨2, 3, 1, .same, true, true⟩ [6] = [6] := by
  decide +kernel

/-- Pooling with "same", stride 1 and an even pool size raises an error. -/
theorem pool_even_raises :
    poolRow maxAgg none ⟨2, 1, 1, .same, true, true⟩ ⟨[some 1, some 2, some 3], 3⟩ = .error (.other "shape is invalid for input") := by
  decide +kernel

/-- Pooling with "same" and a stride larger than the pool size, without the consistent padding, raises an error. -/
theorem pool_stride_raises :
    poolRow maxAgg none ⟨1, 3, 1, .same, true, false⟩ ⟨[some 1, some 2, some 3], 3⟩ = .error (.other "pad must be non-negative") := by
  decide +kernel

/-! ### Examples -/

example : Good ⟨3, 2, 2, .same, true, true⟩ := by
  refine ⟨⟨by decide, by decide, by decide⟩, rfl, fun _ _ => rfl, fun _ h => by cases h⟩

example : Good ⟨4, 1, 3, .same, true, false⟩ := by
  refine ⟨⟨by decide, by decide, by decide⟩, rfl, fun _ h => absurd rfl h, fun _ _ h => by cases h⟩

example : PoolGood ⟨3, 2, 1, .same, true, true⟩ := by
  refine ⟨⟨by decide, by decide, by decide⟩, rfl, fun _ _ => rfl, fun _ h => (by cases h), fun p h => (by cases h)⟩

example : Fits ⟨3, 2, 2, .same, true, true⟩ 4 := by unfold Fits; decide

/-- The shorter of two sequences, with other things in its padding. -/
theorem ex_conv :
    convRow (convAgg w3 1) 0 ⟨3, 2, 1, .same, true, true⟩ ⟨[1, 2, 3, 99, 98], 3⟩ = .ok [9, 9, 1]
    ∧ outLen ⟨3, 2, 1, .same, true, true⟩ 3 = 2
    ∧ ref (convAgg w3 1) ⟨3, 2, 1, .same, true, true⟩ [1, 2, 3] = [9, 9] := by
  decide +kernel

theorem ex_max :
    poolRow maxAgg none ⟨2, 2, 1, .same, true, true⟩ ⟨[some (-1), some (-2), some (-3), some 9], 3⟩ = .ok [some (-1), some (-3)]
    ∧ ref maxAgg ⟨2, 2, 1, .same, true, true⟩ [some (-1), some (-2), some (-3)] = [some (-1), some (-3)] := by
  decide +kernel

end Verif.RfConv
