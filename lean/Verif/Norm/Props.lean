import Verif.Norm.Spec
import Verif.RfSeq.PropsReduce
import Mathlib.Data.List.Forall2
import Mathlib.Data.List.Nodup
import Mathlib.Tactic.FinCases
import Mathlib.Algebra.CharZero.Defs
import Mathlib.Algebra.Order.Field.Rat
import Mathlib.Tactic.FieldSimp
import Mathlib.Tactic.Linarith
import Mathlib.Tactic.Ring
import Mathlib.Algebra.Order.BigOperators.Group.List
import Mathlib.Algebra.BigOperators.Ring.List
/-
C101: normalization.
-/
namespace Verif.Norm
open Verif.Py Verif.RfSeq

variable {K : Type} [Field K] [DecidableEq K]

theorem valid_mapF {α β : Type} (f : α → β) (x : Padded α) : (mapF f x).valid = x.valid.map (List.map f) := by
  unfold mapF Padded.valid
  simp [List.map_map, Function.comp_def, List.map_take]

theorem frames_mapF {α β : Type} (f : α → β) (x : Padded α) : frames (mapF f x) = (frames x).map f := by
  unfold frames
  rw [valid_mapF, List.map_flatten]

theorem cells_mapF {α β : Type} (f : α → β) (x : Padded α) : cells (mapF f x) = (cells x).map f := by
  unfold cells mapF
  simp only
  induction x.seqs with
  | nil => rfl
  | cons p l ih => simp [ih]

theorem ok_mapF {α β : Type} (f : α → β) (x : Padded α) (h : x.Ok) : (mapF f x).Ok := by
  intro p hp
  unfold mapF at hp
  simp only [List.mem_map] at hp
  obtain ⟨q, hq, rfl⟩ := hp
  simpa [mapF] using h q hq

theorem numElements_valid {α : Type} (x : Padded α) (hx : x.Ok) (useMask : Bool) (hu : x.masked = true → useMask = true) : numElements x useMask = (frames x).length := by
  have h1 : (x.seqs.map Prod.fst).sum = (frames x).length := by
    unfold frames Padded.valid
    rw [List.length_flatten, List.map_map]
    congr 1
    apply List.map_congr_left
    intro p hp
    simp only [Function.comp_apply, List.length_take, (hx p hp).1]
    have := (hx p hp).2.1
    omega
  unfold numElements
  by_cases hc : useMask = true
  · rw [if_pos hc, h1]
  · rw [if_neg hc, ← h1]
    have hm : x.masked = false := by
      cases h : x.masked with
      | false => rfl
      | true => exact absurd (hu h) hc
    have : ∀ l : List (Nat × List α), (∀ p ∈ l, p ∈ x.seqs) → l.length * x.T = (l.map Prod.fst).sum := by
      intro l
      induction l with
      | nil => intro _; simp
      | cons p l ih =>
        intro h
        have h2 := (hx p (h p List.mem_cons_self)).2.2 hm
        rw [List.map_cons, List.sum_cons, List.length_cons, Nat.succ_mul, ih (fun q hq => h q (List.mem_cons_of_mem _ hq)), h2, Nat.add_comm]
    exact this x.seqs (fun p hp => hp)

theorem mean_avg {l : List K} (h : l ≠ []) : mean l = some (avg l) := by simp [mean, avg, h]

theorem length_ne_zero' [CharZero K] {l : List K} (h : l ≠ []) : (l.length : K) ≠ 0 := by
  rw [Nat.cast_ne_zero]; simpa using h

/-- C101: mean and variance are over all frames of all sequences, and only over these, with the given correction. -/
theorem moments_right [CharZero K] (x : Padded K) (hx : x.Ok) (useMask : Bool) (hu : x.masked = true → useMask = true) (hne : frames x ≠ []) (corr : K)
    (hc : ((frames x).length : K) ≠ corr) : moments x useMask corr = some (avg (frames x), varianceC corr (frames x)) := by
  have h1 : reduceMeanAll x true = some (avg (frames x)) := by
    rw [reduceMeanAll_valid x hx true (fun _ => rfl)]; exact mean_avg hne
  have hl := length_ne_zero' hne
  have h2 : reduceMeanAll (mapF (fun v => (v - avg (frames x)) * (v - avg (frames x))) x) useMask = some (variance (frames x)) := by
    rw [reduceMeanAll_valid _ (ok_mapF _ _ hx) useMask hu]
    have : (mapF (fun v => (v - avg (frames x)) * (v - avg (frames x))) x).valid.flatten = (frames x).map (fun v => (v - avg (frames x)) * (v - avg (frames x))) := frames_mapF _ x
    rw [this, mean_avg (by simpa using hne)]
    simp [avg, variance, pow_two]
  unfold moments
  rw [h1]
  simp only [bind, Option.bind_some, h2, numElements_valid x hx useMask hu, corrected, pure]
  by_cases h0 : corr = 0
  · subst h0
    simp [variance, varianceC]
  · have hs : ((frames x).length : K) - corr ≠ 0 := sub_ne_zero.2 hc
    rw [if_neg h0, if_neg hs]
    simp only [Option.bind_some, Option.some.injEq, Prod.mk.injEq, true_and, variance, varianceC]
    field_simp

theorem normCell_eq (rsqrt : K → K) (eps : K) (s : K × K) (aff : Option (K × K)) : normCell rsqrt eps s aff = normalized rsqrt eps s.1 s.2 aff := by
  funext v
  cases aff with
  | none => rfl
  | some gb => obtain ⟨g, b⟩ := gb; simp [normCell, normalized, mul_comm]

theorem update_eq (m : K) (cur s : K × K) : update m cur s = ema m s cur := by
  simp only [update, ema, Prod.mk.injEq]
  constructor <;> ring

theorem varianceC_zero (l : List K) : varianceC 0 l = variance l := by simp [varianceC, variance]

/-- C101: with masking, in training (or without running statistics): every cell is normalized with mean and variance of the frames of the batch, padding not counted, and the
running statistics move towards them as documented. -/
theorem bn_masked [CharZero K] (rsqrt : K → K) (c : Cfg K) (train : Bool) (st aff : Option (K × K)) (x : Padded K) (hx : x.Ok) (hm : x.masked = true)
    (hc : c.useMask = some true ∨ (c.useMask = none ∧ c.configMask = true)) (ht : train = true ∨ st = none) (hne : frames x ≠ []) :
    bnCall rsqrt c train st aff x = .ok (mapF (normalized rsqrt c.eps (avg (frames x)) (variance (frames x)) aff) x,
      st.map (fun s => ema c.momentum s (avg (frames x), variance (frames x)))) := by
  have he : effMask c x.masked = true := by
    unfold effMask
    rw [hm]
    rcases hc with h | ⟨h, h'⟩ <;> simp [h, *]
  have hmo : moments x true 0 = some (avg (frames x), variance (frames x)) := by
    rw [moments_right x hx true (fun _ => rfl) hne 0 (length_ne_zero' hne), varianceC_zero]
  unfold bnCall
  rw [if_pos he]
  have : maskedStats c train st x = some ((avg (frames x), variance (frames x)), st.map (fun s => ema c.momentum s (avg (frames x), variance (frames x)))) := by
    unfold maskedStats
    cases st with
    | none => simp [hmo]
    | some s =>
      rcases ht with h | h
      · simp [hmo, h, update_eq]
      · cases h
  rw [this]
  simp only [ofNan, bind, Except.bind, pure, Except.pure, normCell_eq]

/-- C101: if all sequences have the full length (or the mask is not to be used), the statistics are over all cells. The running variance moves towards the unbiased variance
of the batch, not the one which is used. A batch with one cell raises. -/
theorem bn_unmasked [CharZero K] (rsqrt : K → K) (c : Cfg K) (train : Bool) (st aff : Option (K × K)) (x : Padded K)
    (hc : x.masked = false ∨ c.useMask = some false ∨ (c.useMask = none ∧ c.configMask = false)) (ht : train = true ∨ st = none) (hne : 2 ≤ (cells x).length) :
    bnCall rsqrt c train st aff x = .ok (mapF (normalized rsqrt c.eps (avg (cells x)) (variance (cells x)) aff) x,
      st.map (fun s => ema c.momentum s (avg (cells x), varianceC 1 (cells x)))) := by
  have he : effMask c x.masked = false := by
    unfold effMask
    rcases hc with h | h | ⟨h, h'⟩ <;> simp [h, *]
  have ht' : (train || st.isNone) = true := by rcases ht with h | h <;> simp [h]
  have h1 : (cells x).length ≠ 1 := by omega
  have h2 : cells x ≠ [] := by intro h; rw [h] at hne; simp at hne
  unfold bnCall
  rw [if_neg (by simp [he])]
  have : fusedStats c train st (x.seqs.flatMap Prod.snd) = .ok ((avg (cells x), variance (cells x)), st.map (fun s => ema c.momentum s (avg (cells x), varianceC 1 (cells x)))) := by
    show fusedStats c train st (cells x) = _
    unfold fusedStats
    rw [if_pos ht', if_neg h1, if_neg h2]
    simp only [avg, variance, varianceC, ema, pow_two]
  rw [this]
  simp only [bind, Except.bind, pure, Except.pure, normCell_eq]

/-- All sequences have the full length: there is no padding. -/
theorem cells_frames {α : Type} (x : Padded α) (hx : x.Ok) (hm : x.masked = false) : cells x = frames x := by
  unfold cells frames Padded.valid
  rw [List.flatMap_def]
  congr 1
  apply List.map_congr_left
  intro p hp
  rw [List.take_of_length_le]
  rw [(hx p hp).1, (hx p hp).2.2 hm]

/-- C101: not in training, with running statistics: these are used for every cell and do not change, whatever the batch is. -/
theorem bn_eval (rsqrt : K → K) (c : Cfg K) (s : K × K) (aff : Option (K × K)) (x : Padded K) :
    bnCall rsqrt c false (some s) aff x = .ok (mapF (normalized rsqrt c.eps s.1 s.2 aff) x, some s) := by
  unfold bnCall
  by_cases he : effMask c x.masked = true
  · rw [if_pos he]
    simp [maskedStats, ofNan, bind, Except.bind, pure, Except.pure, normCell_eq]
  · rw [if_neg he]
    simp [fusedStats, bind, Except.bind, pure, Except.pure, normCell_eq]

/-- C101: not in training, each sequence gets what it gets alone in a batch. -/
theorem bn_eval_alone (rsqrt : K → K) (c : Cfg K) (s : K × K) (aff : Option (K × K)) (x : Padded K) (p : Nat × List K) (i : Nat) (hi : x.seqs[i]? = some p) :
    ∃ y y' q, bnCall rsqrt c false (some s) aff x = .ok (y, some s) ∧ bnCall rsqrt c false (some s) aff { T := p.1, masked := false, seqs := [(p.1, p.2.take p.1)] } = .ok (y', some s) ∧
      y.seqs[i]? = some q ∧ q.1 = p.1 ∧ y'.valid = [q.2.take q.1] := by
  refine ⟨_, _, (p.1, p.2.map (normalized rsqrt c.eps s.1 s.2 aff)), bn_eval rsqrt c s aff x, bn_eval rsqrt c s aff _, ?_, rfl, ?_⟩
  · simp [mapF, hi]
  · simp [mapF, Padded.valid, List.map_take]

/-- C101: with masking, the content of the padding has no influence, neither on the frames nor on the running statistics. -/
theorem bn_padding [CharZero K] (rsqrt : K → K) (c : Cfg K) (train : Bool) (st aff : Option (K × K)) (x x' : Padded K) (hx : x.Ok) (hx' : x'.Ok) (hm : x.masked = true) (hm' : x'.masked = true)
    (hc : c.useMask = some true ∨ (c.useMask = none ∧ c.configMask = true)) (hv : x.valid = x'.valid) (hne : frames x ≠ []) :
    ∃ y y' r, bnCall rsqrt c train st aff x = .ok (y, r) ∧ bnCall rsqrt c train st aff x' = .ok (y', r) ∧ y.valid = y'.valid := by
  have hf : frames x = frames x' := by unfold frames; rw [hv]
  by_cases ht : train = true ∨ st = none
  · refine ⟨_, mapF (normalized rsqrt c.eps (avg (frames x)) (variance (frames x)) aff) x', _, bn_masked rsqrt c train st aff x hx hm hc ht hne, ?_, ?_⟩
    · rw [bn_masked rsqrt c train st aff x' hx' hm' hc ht (hf ▸ hne), hf]
    · rw [valid_mapF, valid_mapF, hv]
  · have h1 : train = false := by cases train <;> simp_all
    obtain ⟨s, rfl⟩ : ∃ s, st = some s := by cases st with
      | none => exact absurd (Or.inr rfl) ht
      | some s => exact ⟨s, rfl⟩
    subst h1
    exact ⟨_, _, _, bn_eval rsqrt c s aff x, bn_eval rsqrt c s aff x', by rw [valid_mapF, valid_mapF, hv]⟩

/-- C101, any history of calls with masking: the running statistics are the documented moving average over the batches of the calls in training, in this order; other
calls do not matter. -/
theorem bn_history [CharZero K] (rsqrt : K → K) (c : Cfg K) (aff : Option (K × K)) (hc : c.useMask = some true ∨ (c.useMask = none ∧ c.configMask = true)) :
    ∀ (calls : List (Bool × Padded K)) (s : K × K), (∀ q ∈ calls, q.1 = true → q.2.Ok ∧ q.2.masked = true ∧ frames q.2 ≠ []) →
      ∃ ys, bnRun rsqrt c aff (some s) calls = .ok (ys, some (((calls.filter Prod.fst).map (fun q => (avg (frames q.2), variance (frames q.2)))).foldl (ema c.momentum) s))
        ∧ ys.length = calls.length
  | [], s, _ => ⟨[], rfl, rfl⟩
  | (train, x) :: rest, s, h => by
    cases train with
    | true =>
      obtain ⟨h1, h2, h3⟩ := h (true, x) List.mem_cons_self rfl
      obtain ⟨ys, h4, h5⟩ := bn_history rsqrt c aff hc rest (ema c.momentum s (avg (frames x), variance (frames x))) (fun q hq => h q (List.mem_cons_of_mem _ hq))
      refine ⟨mapF (normalized rsqrt c.eps (avg (frames x)) (variance (frames x)) aff) x :: ys, ?_, by simp [h5]⟩
      unfold bnRun
      rw [bn_masked rsqrt c true (some s) aff x h1 h2 hc (Or.inl rfl) h3]
      simp only [bind, Except.bind, Option.map_some, h4, pure, Except.pure, List.filter_cons_of_pos, List.map_cons, List.foldl_cons]
    | false =>
      obtain ⟨ys, h4, h5⟩ := bn_history rsqrt c aff hc rest s (fun q hq => h q (List.mem_cons_of_mem _ hq))
      refine ⟨mapF (normalized rsqrt c.eps s.1 s.2 aff) x :: ys, ?_, by simp [h5]⟩
      unfold bnRun
      rw [bn_eval]
      simp only [bind, Except.bind, h4, pure, Except.pure]
      rw [List.filter_cons_of_neg (by simp)]

/-- C101: a moving average with momentum between 0 and 1 stays within the bounds of the start and of the batches. -/
theorem ema_bounds [LinearOrder K] [IsStrictOrderedRing K] (m : K) (h0 : 0 ≤ m) (h1 : m ≤ 1) (lo hi : K) : ∀ (l : List (K × K)) (s : K × K), lo ≤ s.1 → s.1 ≤ hi →
    (∀ q ∈ l, lo ≤ q.1 ∧ q.1 ≤ hi) → lo ≤ (l.foldl (ema m) s).1 ∧ (l.foldl (ema m) s).1 ≤ hi
  | [], _, h2, h3, _ => ⟨h2, h3⟩
  | q :: l, s, h2, h3, h => by
    obtain ⟨h4, h5⟩ := h q List.mem_cons_self
    refine ema_bounds m h0 h1 lo hi l (ema m s q) ?_ ?_ (fun q hq => h q (List.mem_cons_of_mem _ hq))
    · simp only [ema]; nlinarith
    · simp only [ema]; nlinarith

/-- C101: a batch without any frame gives NaN in training with masking. -/
theorem bn_empty [CharZero K] (rsqrt : K → K) (c : Cfg K) (st aff : Option (K × K)) (x : Padded K) (hx : x.Ok) (hm : x.masked = true)
    (hc : c.useMask = some true ∨ (c.useMask = none ∧ c.configMask = true)) (he : frames x = []) : bnCall rsqrt c true st aff x = .error (.other "nan") := by
  have h0 : effMask c x.masked = true := by
    unfold effMask
    rw [hm]
    rcases hc with h | ⟨h, h'⟩ <;> simp [h, *]
  have h1 : moments x true 0 = none := by
    unfold moments
    rw [reduceMeanAll_valid x hx true (fun _ => rfl), show x.valid.flatten = [] from he]
    simp [mean]
  unfold bnCall
  rw [if_pos h0]
  simp [maskedStats, h1, ofNan, bind, Except.bind]

/-! ### Raw layout -/

theorem ravel_append : ∀ (pre a post b : List Nat) (C ch : Nat), pre.length = a.length → ravel (pre ++ C :: post) (a ++ ch :: b) = (ravel pre a * C + ch) * post.prod + ravel post b
  | [], [], post, b, C, ch, _ => by simp [ravel]
  | d :: pre, i :: a, post, b, C, ch, h => by
    have ih := ravel_append pre a post b C ch (by simpa using h)
    simp only [List.cons_append, ravel, ih, List.prod_append, List.prod_cons]
    ring
  | [], _ :: _, _, _, _, _, h => by simp at h
  | _ :: _, [], _, _, _, _, h => by simp at h

theorem ravel_lt : ∀ {shape idx : List Nat}, IsIndex shape idx → ravel shape idx < shape.prod
  | [], [], _ => by simp [ravel]
  | d :: ds, i :: is, h => by
    unfold IsIndex at h
    cases h with
    | cons h1 h2 =>
      have := ravel_lt h2
      simp only [ravel, List.prod_cons]
      calc i * ds.prod + ravel ds is < i * ds.prod + ds.prod := by omega
        _ = (i + 1) * ds.prod := by ring
        _ ≤ d * ds.prod := Nat.mul_le_mul_right _ h1
  | [], _ :: _, h => by cases h
  | _ :: _, [], h => by cases h

theorem ravel_surj : ∀ (shape : List Nat) (n : Nat), n < shape.prod → ∃ idx, IsIndex shape idx ∧ ravel shape idx = n
  | [], n, h => ⟨[], .nil, by simp at h; simp [ravel, h]⟩
  | d :: ds, n, h => by
    rw [List.prod_cons] at h
    have hp : 0 < ds.prod := by
      rcases Nat.eq_zero_or_pos ds.prod with h0 | h0
      · rw [h0] at h; omega
      · exact h0
    obtain ⟨is, h1, h2⟩ := ravel_surj ds (n % ds.prod) (Nat.mod_lt _ hp)
    refine ⟨n / ds.prod :: is, .cons ?_ h1, ?_⟩
    · exact Nat.div_lt_of_lt_mul (by rw [Nat.mul_comm]; exact h)
    · simp only [ravel, h2]
      rw [Nat.mul_comm]; exact Nat.div_add_mod _ _

theorem channelCells_eq (pre post : List Nat) (C ch : Nat) (hpre : 0 < pre.prod) (hC : 0 < C) :
    channelCells (pre ++ C :: post) pre.length ch = (List.range pre.prod).flatMap (fun n => (List.range post.prod).map (fun j => (n * C + ch) * post.prod + j)) := by
  have h1 : (if pre.length = 0 then 1 else ((pre ++ C :: post).take pre.length).prod) = pre.prod := by
    cases pre with
    | nil => simp
    | cons a l =>
      rw [if_neg (by simp), List.take_left]
  unfold channelCells
  simp only [h1, List.getD_append_right, Nat.le_refl, Nat.sub_self, List.getD_cons_zero, List.prod_append, List.prod_cons]
  rw [← Nat.mul_assoc, Nat.mul_div_cancel_left _ (Nat.mul_pos hpre hC)]

/-- C101: wherever the feature axis is in the raw tensor, the cells which make up the statistics of a feature are exactly the cells with this feature index, each once. -/
theorem channel_right (pre post : List Nat) (C ch : Nat) (hpre : 0 < pre.prod) (hch : ch < C) :
    (∀ n, n ∈ channelCells (pre ++ C :: post) pre.length ch ↔ ∃ idx, IsIndex (pre ++ C :: post) idx ∧ idx[pre.length]? = some ch ∧ ravel (pre ++ C :: post) idx = n) ∧
    (channelCells (pre ++ C :: post) pre.length ch).Nodup := by
  rw [channelCells_eq pre post C ch hpre (by omega)]
  constructor
  · intro n
    simp only [List.mem_flatMap, List.mem_range, List.mem_map]
    constructor
    · rintro ⟨a, ha, j, hj, rfl⟩
      obtain ⟨ia, h1, h2⟩ := ravel_surj pre a ha
      obtain ⟨ib, h3, h4⟩ := ravel_surj post j hj
      have hl : pre.length = ia.length := (List.Forall₂.length_eq h1).symm
      refine ⟨ia ++ ch :: ib, List.rel_append h1 (.cons hch h3), ?_, ?_⟩
      · rw [hl]; simp
      · rw [ravel_append _ _ _ _ _ _ hl, h2, h4]
    · rintro ⟨idx, h1, h2, rfl⟩
      have hl := List.Forall₂.length_eq h1
      simp only [List.length_append, List.length_cons] at hl
      have hs : idx = idx.take pre.length ++ ch :: idx.drop (pre.length + 1) := by
        obtain ⟨hlt, he⟩ := List.getElem?_eq_some_iff.1 h2
        rw [← he, ← List.drop_eq_getElem_cons hlt, List.take_append_drop]
      have ht : (idx.take pre.length).length = pre.length := by rw [List.length_take]; omega
      have h3 : List.Forall₂ (fun i d => i < d) (idx.take pre.length) pre := by
        have := List.forall₂_take pre.length h1
        rwa [List.take_left] at this
      have h4 : List.Forall₂ (fun i d => i < d) (idx.drop (pre.length + 1)) post := by
        have := List.forall₂_drop (pre.length + 1) h1
        rwa [show pre ++ C :: post = (pre ++ [C]) ++ post by simp, List.drop_left' (by simp)] at this
      refine ⟨ravel pre (idx.take pre.length), ravel_lt h3, ravel post (idx.drop (pre.length + 1)), ravel_lt h4, ?_⟩
      conv_rhs => rw [hs]
      rw [ravel_append _ _ _ _ _ _ ht.symm]
  · rw [List.nodup_flatMap]
    constructor
    · intro a _
      refine List.Nodup.map ?_ List.nodup_range
      intro j j' h
      simpa using h
    · have : (List.range pre.prod).Pairwise (· ≠ ·) := List.nodup_range
      refine this.imp ?_
      intro a b hab
      rw [Function.onFun, List.disjoint_left]
      intro n h1 h2
      simp only [List.mem_map, List.mem_range] at h1 h2
      obtain ⟨j, hj, rfl⟩ := h1
      obtain ⟨j', hj', h⟩ := h2
      have hpp : 0 < post.prod := by omega
      have e1 : ((a * C + ch) * post.prod + j) / post.prod = a * C + ch := by
        rw [Nat.mul_comm, Nat.mul_add_div hpp, Nat.div_eq_of_lt hj, Nat.add_zero]
      have e2 : ((b * C + ch) * post.prod + j') / post.prod = b * C + ch := by
        rw [Nat.mul_comm, Nat.mul_add_div hpp, Nat.div_eq_of_lt hj', Nat.add_zero]
      rw [h] at e2
      have : a * C = b * C := by omega
      exact hab (Nat.eq_of_mul_eq_mul_right (by omega) this)

/-! ### Per frame -/

theorem sum_map_sub_avg [CharZero K] (l : List K) (h : l ≠ []) : (l.map (fun v => v - avg l)).sum = 0 := by
  have h1 : ∀ (l : List K) (a : K), (l.map (fun v => v - a)).sum = l.sum - (l.length : K) * a := by
    intro l a
    induction l with
    | nil => simp
    | cons b l ih => simp only [List.map_cons, List.sum_cons, ih, List.length_cons, Nat.cast_add, Nat.cast_one]; ring
  rw [h1, avg]
  have := length_ne_zero' h
  field_simp
  ring

theorem sum_map_mul_const (l : List K) (f : K → K) (a : K) : (l.map (fun v => f v * a)).sum = (l.map f).sum * a := by
  induction l with
  | nil => simp
  | cons b l ih => simp only [List.map_cons, List.sum_cons, ih]; ring

theorem momentsRow_right (row : List K) (h : row ≠ []) : momentsRow row = some (avg row, variance row) := by
  have hl : row.length ≠ 0 := by simpa using h
  simp [momentsRow, meanRow, fdiv, hl, avg, variance, pow_two]

theorem normRow_right (rsqrt : K → K) (eps : K) (row : List K) (h : row ≠ []) :
    normRow rsqrt eps row = some (row.map (normalized rsqrt eps (avg row) (variance row) none)) := by
  simp [normRow, momentsRow_right row h, normalized]

/-- C101: layer norm of a frame: each value is normalized with mean and variance of the frame, then scaled and shifted per feature. -/
theorem layerNorm_right (rsqrt : K → K) (eps : K) (scale bias row : List K) (h : row ≠ []) (hs : scale.length = row.length) (hb : bias.length = row.length) :
    ∃ out : List K, layerNorm rsqrt eps scale (some bias) row = some out ∧ out.length = row.length ∧
      ∀ (i : Nat) v g b, row[i]? = some v → scale[i]? = some g → bias[i]? = some b → out[i]? = some (normalized rsqrt eps (avg row) (variance row) (some (g, b)) v) := by
  refine ⟨_, by rw [layerNorm, normRow_right rsqrt eps row h]; rfl, ?_, ?_⟩
  · simp [affineRow, hs, hb]
  · intro i v g b h1 h2 h3
    simp [affineRow, List.getElem?_zipWith, h1, h2, h3, normalized, mul_comm]

/-- C101: without scale and shift, the result has mean 0 and variance `v / (v + eps)`, where `v` is the variance of the frame: 1 up to epsilon. -/
theorem layerNorm_moments [LinearOrder K] [IsStrictOrderedRing K] (rsqrt : K → K) (eps : K) (he : 0 < eps) (row : List K) (h : row ≠ [])
    (hr : rsqrt (variance row + eps) * rsqrt (variance row + eps) * (variance row + eps) = 1) :
    ∃ out : List K, normRow rsqrt eps row = some out ∧ avg out = 0 ∧ variance out = variance row / (variance row + eps) := by
  have hz : avg (row.map (normalized rsqrt eps (avg row) (variance row) none)) = 0 := by
    have : row.map (normalized rsqrt eps (avg row) (variance row) none) = row.map (fun v => (v - avg row) * rsqrt (variance row + eps)) := rfl
    rw [this, avg, sum_map_mul_const row (fun v => v - avg row), sum_map_sub_avg row h]; simp
  refine ⟨_, normRow_right rsqrt eps row h, hz, ?_⟩
  have hv : 0 ≤ variance row := by
    unfold variance
    apply div_nonneg
    · apply List.sum_nonneg
      intro a ha
      obtain ⟨v, _, rfl⟩ := List.mem_map.1 ha
      exact pow_two_nonneg _
    · exact Nat.cast_nonneg _
  have hpos : 0 < variance row + eps := by linarith
  generalize hw : variance row = w at *
  rw [variance, hz, List.map_map, List.length_map]
  have e : ((fun v => (v - 0) ^ 2) ∘ normalized rsqrt eps (avg row) w none) = fun v => (v - avg row) ^ 2 * (rsqrt (w + eps) * rsqrt (w + eps)) := by
    funext v; simp only [Function.comp_apply, normalized]; ring
  rw [e, sum_map_mul_const row (fun v => (v - avg row) ^ 2)]
  have hrr := hr
  have e2 : rsqrt (w + eps) * rsqrt (w + eps) = 1 / (w + eps) := by
    field_simp; linarith
  rw [e2, ← hw]
  unfold variance
  ring

/-- C101: RMS norm: no mean is subtracted. -/
theorem rmsNorm_right (rsqrt : K → K) (eps : K) (scale row : List K) (h : row ≠ []) (hs : scale.length = row.length) :
    ∃ out : List K, rmsNorm rsqrt eps scale none row = some out ∧ out.length = row.length ∧
      ∀ (i : Nat) v g, row[i]? = some v → scale[i]? = some g → out[i]? = some (v * rsqrt (avg (row.map (fun a => a ^ 2)) + eps) * g) := by
  have hl : row.length ≠ 0 := by simpa using h
  refine ⟨_, by simp only [rmsNorm, meanRow, fdiv, List.length_map, if_neg hl, bind, Option.bind_some, pure]; rfl, ?_, ?_⟩
  · simp [affineRow, hs]
  · intro i v g h1 h2
    simp [affineRow, List.getElem?_zipWith, h1, h2, avg, pow_two]

theorem chunks_flatten {α : Type} : ∀ (n m : Nat) (row : List α), row.length = n * m → (chunks n m row).flatten = row
  | 0, m, row, h => by simp at h; simp [chunks, h]
  | n + 1, m, row, h => by
    have ih := chunks_flatten n m (row.drop m) (by rw [List.length_drop, h, Nat.succ_mul]; omega)
    unfold chunks at ih ⊢
    rw [List.range_succ_eq_map, List.map_cons, List.flatten_cons, List.map_map]
    have : ((fun i => (row.drop (i * m)).take m) ∘ Nat.succ) = fun i => ((row.drop m).drop (i * m)).take m := by
      funext i
      simp only [Function.comp_apply, List.drop_drop, Nat.succ_mul, Nat.add_comm]
    rw [this, ih]
    simp

theorem mem_chunks_length {α : Type} {n m : Nat} {row r : List α} (h : row.length = n * m) (hr : r ∈ chunks n m row) : r.length = m := by
  unfold chunks at hr
  obtain ⟨i, hi, rfl⟩ := List.mem_map.1 hr
  rw [List.mem_range] at hi
  have : (i + 1) * m ≤ n * m := Nat.mul_le_mul_right _ hi
  rw [Nat.succ_mul] at this
  rw [List.length_take, List.length_drop, h]
  omega

theorem mapM_some {α β : Type} {f : α → Option β} {g : α → β} : ∀ (l : List α), (∀ x ∈ l, f x = some (g x)) → l.mapM f = some (l.map g)
  | [], _ => rfl
  | a :: l, h => by
    rw [List.mapM_cons, h a List.mem_cons_self, mapM_some l (fun x hx => h x (List.mem_cons_of_mem _ hx))]
    rfl

/-- C101: group norm: if the number of groups divides the number of features, the features are cut into groups of the same size, and each group is normalized with its own mean and variance. -/
theorem groupNorm_right (rsqrt : K → K) (eps : K) (groups m : Nat) (scale bias : List K) (parts : List (List K)) (hg : parts.length = groups) (hm : 0 < m) (hp : ∀ p ∈ parts, p.length = m)
    (h0 : 0 < groups) :
    groupNorm rsqrt eps groups scale bias parts.flatten =
      .ok (List.zipWith (· + ·) (List.zipWith (· * ·) (parts.map (fun p => p.map (normalized rsqrt eps (avg p) (variance p) none))).flatten scale) bias) := by
  have hlen : parts.flatten.length = groups * m := by
    rw [List.length_flatten, ← hg]
    have : ∀ l : List (List K), (∀ p ∈ l, p.length = m) → (l.map List.length).sum = l.length * m := by
      intro l
      induction l with
      | nil => intro _; simp
      | cons p l ih => intro h; simp [h p List.mem_cons_self, ih (fun q hq => h q (List.mem_cons_of_mem _ hq)), Nat.succ_mul, Nat.add_comm]
    exact this parts hp
  have hdiv : (parts.flatten.length + groups - 1) / groups = m := by
    rw [hlen]
    rw [show groups * m + groups - 1 = groups * m + (groups - 1) by omega, Nat.mul_add_div h0, Nat.div_eq_of_lt (by omega), Nat.add_zero]
  have hch : chunks groups m parts.flatten = parts := by
    subst hg
    clear hlen hdiv h0
    induction parts with
    | nil => rfl
    | cons p l ih =>
      have ih := ih (fun q hq => hp q (List.mem_cons_of_mem _ hq))
      have hpl := hp p List.mem_cons_self
      unfold chunks at ih ⊢
      rw [List.length_cons, List.range_succ_eq_map, List.map_cons, List.map_map]
      have : ((fun i => (((p :: l).flatten).drop (i * m)).take m) ∘ Nat.succ) = fun i => ((l.flatten).drop (i * m)).take m := by
        funext i
        simp only [Function.comp_apply, List.flatten_cons, Nat.succ_mul]
        rw [Nat.add_comm, ← List.drop_drop, List.drop_left' hpl]
      rw [this, ih]
      simp [List.take_left' hpl]
  unfold groupNorm
  simp only [hdiv, hch]
  rw [if_neg (by simpa using hlen.symm), mapM_some (g := fun p => p.map (normalized rsqrt eps (avg p) (variance p) none)) parts]
  · rfl
  · intro p hp'
    apply normRow_right
    intro h
    have := hp p hp'
    rw [h] at this
    simp at this
    omega

/-- C101: group norm raises if the number of groups does not divide the number of features. -/
theorem groupNorm_raises (rsqrt : K → K) (eps : K) (groups : Nat) (scale bias row : List K) (h : ¬ groups ∣ row.length) : ∃ e, groupNorm rsqrt eps groups scale bias row = .error e := by
  refine ⟨.other "reshape", ?_⟩
  unfold groupNorm
  rw [if_pos]
  · rfl
  · intro h'
    exact h ⟨_, h'.symm⟩

/-- C101: `normalize` over batch and time. -/
theorem normalize_right [CharZero K] (rsqrt : K → K) (eps : K) (x : Padded K) (hx : x.Ok) (hne : frames x ≠ []) :
    normalize rsqrt eps x = some (mapF (normalized rsqrt eps (avg (frames x)) (variance (frames x)) none) x) := by
  unfold normalize
  rw [moments_right x hx true (fun _ => rfl) hne 0 (length_ne_zero' hne), varianceC_zero]
  rfl

/-! ### Disagreements and examples -/

def exCfg : Cfg Rat := { useMask := none, configMask := true, momentum := 1/2, eps := 1 }
/-- Two sequences of length 1, once with a static axis, once with a dynamic one. -/
def exS : Padded Rat := { T := 1, masked := false, seqs := [(1, [0]), (1, [2])] }
def exD : Padded Rat := { T := 1, masked := true, seqs := [(1, [0]), (1, [2])] }

/-- The same frames give another running variance if the time axis is dynamic: without the mask, it is the unbiased variance of the batch which is tracked, which is not the documented update. -/
theorem running_var_differs : frames exS = frames exD ∧ (∃ y, bnCall (fun a => a) exCfg true (some (0, 1)) none exS = .ok (y, some (1/2, 3/2))) ∧
    (∃ y, bnCall (fun a => a) exCfg true (some (0, 1)) none exD = .ok (y, some (1/2, 1))) ∧ ema (1/2) ((0 : Rat), 1) (avg (frames exS), variance (frames exS)) = (1/2, 1) := by
  refine ⟨by decide +kernel, ⟨{ T := 1, masked := false, seqs := [(1, [-2]), (1, [2])] }, ?_⟩, ⟨{ T := 1, masked := true, seqs := [(1, [-2]), (1, [2])] }, ?_⟩, ?_⟩ <;> decide +kernel

/-- `moments` with `use_mask=False`: the mean ignores the padding, the variance does not, so it is neither the one nor the other. -/
theorem moments_mixed : ∃ x : Padded Rat, x.Ok ∧ moments x false 0 = some (1, 19/2) ∧ (avg (frames x), variance (frames x)) = (1, 2/3) ∧ (avg (cells x), variance (cells x)) = (5/2, 29/4) := by
  refine ⟨{ T := 2, masked := true, seqs := [(2, [0, 2]), (1, [1, 7])] }, ?_, ?_, ?_, ?_⟩
  · intro p hp; fin_cases hp <;> simp
  all_goals decide +kernel

/-- One frame: with the mask it gives zero (and variance 0), without it raises. -/
theorem one_frame : (∃ y, bnCall (fun a => a) exCfg true (some (0, 1)) none { T := 1, masked := true, seqs := [(1, [4])] } = .ok (y, some (2, 1/2))) ∧
    bnCall (fun a => a) exCfg true (some (0, 1)) none { T := 1, masked := false, seqs := [(1, [4])] } = .error .valueError := by
  refine ⟨⟨{ T := 1, masked := true, seqs := [(1, [0])] }, ?_⟩, ?_⟩ <;> decide +kernel

/-- A padded batch: hypotheses of `bn_masked`. -/
def exP : Padded Rat := { T := 3, masked := true, seqs := [(3, [1, 2, 6]), (1, [7, 100, 100])] }

example : exP.Ok ∧ exP.masked = true ∧ frames exP ≠ [] := by
  refine ⟨?_, rfl, by decide +kernel⟩
  intro p hp; fin_cases hp <;> simp [exP]

example : (bnCall (fun a => a) exCfg true (some (0, 1)) (some (2, 3)) exP).toOption.map Prod.snd = some (some (2, 15/4)) := by decide +kernel

/-- Hypotheses of `channel_right`: shape [2,3,2], feature axis 1. -/
example : channelCells ([2] ++ 3 :: [2]) 1 2 = [4, 5, 10, 11] := by decide +kernel

/-- Hypotheses of `layerNorm_moments`: variance 3, epsilon 1. -/
example : variance [(3 : Rat), -1, -1, -1] = 3 ∧ normRow (fun a : Rat => if a = 4 then 1/2 else 0) 1 [3, -1, -1, -1] = some [3/2, -1/2, -1/2, -1/2] := by decide +kernel

end Verif.Norm
