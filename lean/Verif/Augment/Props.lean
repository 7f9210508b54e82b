import Verif.Augment.Spec
import Mathlib.Tactic.Common
import Mathlib.Data.List.Nodup
import Mathlib.Data.List.Perm.Subperm
import Mathlib.Algebra.Order.Ring.Rat
/-
C106: SpecAugment masks whole frames and whole features, in blocks, and nothing else.
-/
namespace Verif.Augment
open Verif.Py

variable {V : Type}

/-! ### Lemmas -/

theorem randInt_bounds {lo hi : Nat} (h : lo < hi) (u : Nat) : lo ≤ randInt lo hi u ∧ randInt lo hi u < hi := by
  unfold randInt
  have := Nat.mod_lt u (show 0 < hi - lo by omega)
  omega

theorem maskTime_comp (mv : V) (p q : Nat → Bool) (x : List (List V)) : maskTime mv q (maskTime mv p x) = maskTime mv (fun t => p t || q t) x := by
  unfold maskTime
  apply List.ext_getElem?
  intro t
  simp only [List.getElem?_mapIdx, Option.map_map]
  cases x[t]? with
  | none => rfl
  | some row =>
  simp only [Option.map_some, Option.some.injEq]
  simp only [Function.comp_apply, List.map_map]
  apply List.map_congr_left
  intro v _
  simp only [Function.comp_apply]
  rcases Bool.eq_false_or_eq_true (p t) with h1 | h1 <;> rcases Bool.eq_false_or_eq_true (q t) with h2 | h2 <;> simp [h1, h2]

theorem maskFeat_comp (mv : V) (p q : Nat → Bool) (x : List (List V)) : maskFeat mv q (maskFeat mv p x) = maskFeat mv (fun t => p t || q t) x := by
  unfold maskFeat
  rw [List.map_map]
  apply List.map_congr_left
  intro row _
  simp only [Function.comp_apply]
  apply List.ext_getElem?
  intro f
  simp only [List.getElem?_mapIdx, Option.map_map]
  cases row[f]? with
  | none => rfl
  | some v =>
  simp only [Option.map_some, Option.some.injEq]
  simp only [Function.comp_apply]
  rcases Bool.eq_false_or_eq_true (p f) with h1 | h1 <;> rcases Bool.eq_false_or_eq_true (q f) with h2 | h2 <;> simp [h1, h2]

theorem maskTime_false (mv : V) (x : List (List V)) : maskTime mv (fun _ => false) x = x := by
  unfold maskTime
  apply List.ext_getElem?
  intro t
  simp [List.getElem?_mapIdx]

theorem maskFeat_false (mv : V) (x : List (List V)) : maskFeat mv (fun _ => false) x = x := by
  unfold maskFeat
  conv_rhs => rw [← List.map_id x]
  apply List.map_congr_left
  intro row _
  apply List.ext_getElem?
  intro f
  simp [List.getElem?_mapIdx]

/-- What the masks do together. -/
def anyBlock (dim : Nat) (bs : List Block) (t : Nat) : Bool := bs.any (fun b => blockMask dim b.start b.num t)

theorem anyBlock_iff (dim : Nat) (bs : List Block) (t : Nat) : anyBlock dim bs t = true ↔ Covered dim bs t := by
  unfold anyBlock Covered Block.has blockMask
  simp only [List.any_eq_true, Bool.and_eq_true, decide_eq_true_eq]
  constructor
  · rintro ⟨b, hb, h1, h2⟩
    exact ⟨by omega, b, hb, h1, by omega⟩
  · rintro ⟨h1, b, hb, h2, h3⟩
    exact ⟨b, hb, h2, by omega⟩

def blocksOf (idxs amounts : List Nat) (maxDims n : Nat) : List Block := (List.range n).map (fun i => ⟨idxs.getD i 0, randInt 1 (maxDims + 1) (amounts.getD i 0)⟩)

theorem maskLoop_eq {X : Type} (apply : (Nat → Bool) → X → X) (hc : ∀ p q x, apply q (apply p x) = apply (fun t => p t || q t) x) (hf : ∀ x, apply (fun _ => false) x = x)
    (dim maxDims : Nat) (idxs amounts : List Nat) (num : Nat) (x : X) : ∀ maxNum, maskLoop apply dim maxDims idxs amounts num maxNum x = apply (anyBlock dim (blocksOf idxs amounts maxDims (min num maxNum))) x
  | 0 => by
    have : anyBlock dim (blocksOf idxs amounts maxDims (min num 0)) = fun _ => false := by
      funext t
      simp [anyBlock, blocksOf]
    rw [this, hf]
    rfl
  | m + 1 => by
    have ih := maskLoop_eq apply hc hf dim maxDims idxs amounts num x m
    unfold maskLoop at ih ⊢
    rw [List.range_succ, List.foldl_append, ih]
    simp only [List.foldl_cons, List.foldl_nil]
    by_cases h : m < num
    · rw [if_pos h, hc]
      have e1 : min num m = m := by omega
      have e2 : min num (m + 1) = m + 1 := by omega
      rw [e1, e2]
      congr 1
      funext t
      unfold anyBlock blocksOf
      rw [List.range_succ, List.map_append, List.any_append]
      simp
    · rw [if_neg h]
      have e1 : min num m = num := by omega
      have e2 : min num (m + 1) = num := by omega
      rw [e1, e2]

theorem le_foldl_max : ∀ (l : List Nat) (m x : Nat), (x ∈ l ∨ x ≤ m) → x ≤ l.foldl max m
  | [], m, x, h => by simpa using h
  | a :: l, m, x, h => by
    rw [List.foldl_cons]
    apply le_foldl_max l
    simp only [List.mem_cons] at h
    rcases h with (rfl | h) | h
    · right; omega
    · left; exact h
    · right; omega

theorem foldl_max_le : ∀ (l : List Nat) (m n : Nat), m ≤ n → (∀ x ∈ l, x ≤ n) → l.foldl max m ≤ n
  | [], m, n, h, _ => h
  | a :: l, m, n, h, hl => by
    rw [List.foldl_cons]
    exact foldl_max_le l _ n (by have := hl a List.mem_cons_self; omega) (fun x hx => hl x (List.mem_cons_of_mem _ hx))

theorem topkInput_get (dim : Nat) (noise : List Rat) (t : Nat) (ht : t < noise.length) : (topkInput dim noise)[t]? = some (if t < dim then some noise[t] else none) := by
  simp [topkInput, List.getElem?_mapIdx, ht]

/-- Positions within the sequence come first. -/
theorem topk_inside {dim k : Nat} {noise : List Rat} {idxs : List Nat} (h : IsTopK (topkInput dim noise) k idxs) (hd : dim ≤ noise.length) (i : Nat) (hi : i < min k dim) : idxs.getD i 0 < dim := by
  have hil : i < idxs.length := by rw [h.len]; omega
  rw [List.getD_eq_getElem?_getD, List.getElem?_eq_getElem hil, Option.getD_some]
  by_contra hcon
  have hlen : (topkInput dim noise).length = noise.length := by simp [topkInput]
  have hb : ∀ j (hj : j < idxs.length), idxs[j] < noise.length := fun j hj => by rw [← hlen]; exact h.bound _ (List.getElem_mem hj)
  have hvi : (topkInput dim noise)[idxs[i]]? = some none := by rw [topkInput_get _ _ _ (hb i hil), if_neg hcon]
  -- all indices within the sequence are among the first `i`
  have hall : ∀ t, t < dim → t ∈ idxs.take i := by
    intro t ht
    have hvt : (topkInput dim noise)[t]? = some (some noise[t]) := by rw [topkInput_get _ _ _ (by omega), if_pos ht]
    by_contra htake
    by_cases hmem : t ∈ idxs
    · obtain ⟨j, hj, hjt⟩ := List.getElem_of_mem hmem
      have hij : i < j := by
        rcases Nat.lt_trichotomy i j with h' | h' | h'
        · exact h'
        · subst h'; rw [hjt] at hcon; exact absurd ht hcon
        · exfalso
          apply htake
          rw [List.mem_take_iff_getElem]
          exact ⟨j, by omega, hjt⟩
      have := List.pairwise_iff_getElem.1 h.sorted i j hil hj hij none (some noise[t]) hvi (by rw [hjt]; exact hvt)
      simp at this
    · have := h.largest _ (List.getElem_mem hil) t hmem none (some noise[t]) hvi hvt
      simp at this
  have hsub : List.range dim ⊆ idxs.take i := fun t ht => hall t (List.mem_range.1 ht)
  have h1 := (List.nodup_range.subperm hsub).length_le
  rw [List.length_range, List.length_take] at h1
  omega

/-! ### Theorems -/

/-- C106: one call of `random_mask`: for each entry there are blocks, in the right number and of the right sizes, so that the result is the masked entry; it never raises if there are enough positions. -/
theorem randomMask_right {X : Type} (apply : (Nat → Bool) → X → X) (hc : ∀ p q x, apply q (apply p x) = apply (fun t => p t || q t) x) (hf : ∀ x, apply (fun _ => false) x = x)
    {topk : List (Option Rat) → Nat → List Nat} (ht : TopKOk topk) {minNum maxNum maxDims full : Nat} {draws : List Draw} {batch : List (Nat × X)} (hl : draws.length = batch.length)
    (hn : ∀ d ∈ draws, d.noise.length = full) (hb : ∀ e ∈ batch, e.1 ≤ full) (hd : 0 < maxDims) (hm : minNum ≤ maxNum) (hfull : maxNum ≤ full) :
    ∃ ys, randomMask topk apply minNum maxNum maxDims full draws batch = .ok ys ∧ ys.length = batch.length ∧
      ∀ (b : Nat) e y, batch[b]? = some e → ys[b]? = some y → ∃ n bs, minNum ≤ n ∧ n ≤ maxNum ∧ Blocks e.1 n maxDims bs ∧ y = apply (anyBlock e.1 bs) e.2 := by
  unfold randomMask
  simp only
  have hk : (draws.map (fun d => randInt minNum (maxNum + 1) d.num)).foldl max 0 ≤ maxNum := by
    apply foldl_max_le _ _ _ (Nat.zero_le _)
    intro x hx
    obtain ⟨d, _, rfl⟩ := List.mem_map.1 hx
    have := randInt_bounds (show minNum < maxNum + 1 by omega) d.num
    omega
  have hk2 : ∀ d ∈ draws, randInt minNum (maxNum + 1) d.num ≤ (draws.map (fun d => randInt minNum (maxNum + 1) d.num)).foldl max 0 :=
    fun d hd => le_foldl_max _ _ _ (Or.inl (List.mem_map.2 ⟨d, hd, rfl⟩))
  generalize (draws.map (fun d => randInt minNum (maxNum + 1) d.num)).foldl max 0 = k at hk hk2 ⊢
  rw [if_neg (by omega)]
  refine ⟨_, rfl, by simp [hl], ?_⟩
  intro b e y hbe hy
  rw [List.getElem?_zipWith, hbe] at hy
  cases hdb : draws[b]? with
  | none => rw [hdb] at hy; simp at hy
  | some d =>
    rw [hdb] at hy
    simp only [Option.some.injEq] at hy
    subst hy
    have hdm := List.mem_of_getElem? hdb
    have hnum := randInt_bounds (show minNum < maxNum + 1 by omega) d.num
    have htk := ht (topkInput e.1 d.noise) k (by simp [topkInput, hn d hdm]; omega)
    rw [maskLoop_eq apply hc hf, Nat.min_eq_left (hk2 d hdm)]
    have hnk := hk2 d hdm
    have hdim : e.1 ≤ d.noise.length := by rw [hn d hdm]; exact hb e (List.mem_of_getElem? hbe)
    generalize randInt minNum (maxNum + 1) d.num = n at hnum hnk ⊢
    refine ⟨n, _, hnum.1, by omega, ⟨by simp [blocksOf], ?_, ?_, ?_⟩, rfl⟩
    · rw [blocksOf, List.map_map]
      apply List.Nodup.map_on _ List.nodup_range
      intro i hi j hj hij
      rw [List.mem_range] at hi hj
      simp only [Function.comp_apply] at hij
      have hil : i < (topk (topkInput e.1 d.noise) k).length := by rw [htk.len]; omega
      have hjl : j < (topk (topkInput e.1 d.noise) k).length := by rw [htk.len]; omega
      rw [List.getD_eq_getElem?_getD, List.getD_eq_getElem?_getD, List.getElem?_eq_getElem hil, List.getElem?_eq_getElem hjl] at hij
      exact (List.Nodup.getElem_inj_iff htk.nodup).1 hij
    · intro b hb
      obtain ⟨i, _, rfl⟩ := List.mem_map.1 hb
      have := randInt_bounds (show 1 < maxDims + 1 by omega) (d.amounts.getD i 0)
      simp only
      omega
    · intro b hb
      rw [blocksOf, ← List.map_take, List.take_range] at hb
      obtain ⟨i, hi, rfl⟩ := List.mem_map.1 hb
      rw [List.mem_range] at hi
      exact topk_inside htk hdim i (by omega)

theorem countP_or_le {α : Type} (p q : α → Bool) : ∀ l : List α, l.countP (fun a => p a || q a) ≤ l.countP p + l.countP q
  | [] => by simp
  | a :: l => by
    have := countP_or_le p q l
    simp only [List.countP_cons]
    cases p a <;> cases q a <;> simp <;> omega

theorem countP_block (s n : Nat) : ∀ dim, (List.range dim).countP (fun t => decide (s ≤ t) && decide (t < s + n)) ≤ min n (dim - s)
  | 0 => by simp
  | d + 1 => by
    have := countP_block s n d
    rw [List.range_succ, List.countP_append]
    by_cases h : s ≤ d ∧ d < s + n
    · have h1 : (decide (s ≤ d) && decide (d < s + n)) = true := by simp [h]
      simp only [List.countP_cons, List.countP_nil, h1, if_true]
      omega
    · have h1 : (decide (s ≤ d) && decide (d < s + n)) = false := by
        rw [Bool.eq_false_iff]
        intro h'
        simp only [Bool.and_eq_true, decide_eq_true_eq] at h'
        exact h h'
      simp only [List.countP_cons, List.countP_nil, h1, Bool.false_eq_true, if_false]
      omega

/-- C106: how much is masked: at most the number of blocks times their largest size. -/
theorem masked_le {dim n maxDims : Nat} {bs : List Block} (h : Blocks dim n maxDims bs) : numMasked dim bs ≤ n * maxDims := by
  have key : ∀ (bs : List Block), (∀ b ∈ bs, b.num ≤ maxDims) → numMasked dim bs ≤ bs.length * maxDims := by
    intro bs
    induction bs with
    | nil => intro _; simp [numMasked, Covered]
    | cons b bs ih =>
      intro hb
      have h1 := ih (fun x hx => hb x (List.mem_cons_of_mem _ hx))
      have h2 : numMasked dim (b :: bs) ≤ (List.range dim).countP (fun t => (decide (b.start ≤ t) && decide (t < b.start + b.num)) || decide (Covered dim bs t)) := by
        unfold numMasked
        apply List.countP_mono_left
        intro t ht hcov
        simp only [decide_eq_true_eq, Bool.or_eq_true, Bool.and_eq_true] at hcov ⊢
        obtain ⟨h3, c, hc, h4⟩ := hcov
        rcases List.mem_cons.1 hc with rfl | hc
        · left; exact h4
        · right; exact ⟨h3, c, hc, h4⟩
      have h3 := countP_or_le (fun t => decide (b.start ≤ t) && decide (t < b.start + b.num)) (fun t => decide (Covered dim bs t)) (List.range dim)
      have h4 := countP_block b.start b.num dim
      have h5 := hb b List.mem_cons_self
      unfold numMasked at h1 h2 ⊢
      rw [List.length_cons, Nat.add_mul, Nat.one_mul]
      omega
  have := key bs (fun b hb => (h.size b hb).2)
  rw [h.len] at this
  exact this

/-- C106: and at least one position for each block, or the whole sequence if it has fewer positions. -/
theorem masked_ge {dim n maxDims : Nat} {bs : List Block} (h : Blocks dim n maxDims bs) : min n dim ≤ numMasked dim bs := by
  unfold numMasked
  rw [List.countP_eq_length_filter]
  have hsub : ((bs.take dim).map Block.start) ⊆ (List.range dim).filter (fun t => decide (Covered dim bs t)) := by
    intro t ht
    obtain ⟨b, hb, rfl⟩ := List.mem_map.1 ht
    have h1 := h.inside b hb
    have h2 := h.size b (List.mem_of_mem_take hb)
    rw [List.mem_filter, List.mem_range, decide_eq_true_eq]
    exact ⟨h1, h1, b, List.mem_of_mem_take hb, le_refl _, by omega⟩
  have hnd : ((bs.take dim).map Block.start).Nodup := by
    rw [List.map_take]
    exact List.Sublist.nodup (List.take_sublist _ _) h.starts
  have := (hnd.subperm hsub).length_le
  rw [List.length_map, List.length_take, h.len] at this
  omega

/-- Enough noise for each entry. -/
def DrawsOk (full : Nat) (draws : List Draw) (n : Nat) : Prop := draws.length = n ∧ ∀ d ∈ draws, d.noise.length = full

/-- The numbers of masks are those of the table. -/
theorem nums_table (c : SpecCfg) (step T : Nat) (hs : c.steps.1 ≤ c.steps.2.1 ∧ c.steps.2.1 ≤ c.steps.2.2) :
    timeNums c (stepFlags c step) T = (min (table (phase c step)).1 T, min (max (T / c.timeFactor) 2 * (table (phase c step)).2.1) T) ∧
    featNums (stepFlags c step) = ((table (phase c step)).2.2.1, (table (phase c step)).2.2.2) := by
  unfold stepFlags phase
  by_cases hd : c.stepDependent
  · simp only [hd, if_true, List.countP_cons, List.countP_nil]
    by_cases h0 : c.steps.1 ≤ step
    · by_cases h1 : c.steps.2.1 ≤ step
      · by_cases h2 : c.steps.2.2 ≤ step
        · simp [h0, h1, h2, timeNums, featNums, table]
        · simp [h0, h1, h2, timeNums, featNums, table]
      · have h2 : ¬ c.steps.2.2 ≤ step := by omega
        simp [h0, h1, h2, timeNums, featNums, table]
    · have h1 : ¬ c.steps.2.1 ≤ step := by omega
      have h2 : ¬ c.steps.2.2 ≤ step := by omega
      simp [h0, h1, h2, timeNums, featNums, table]
  · simp [hd, timeNums, featNums, table]

/-- C106: SpecAugment in training: for each entry there are blocks of frames and blocks of features, in the numbers of the current phase, and the output is zero exactly there, and unchanged elsewhere. -/
theorem specaugment_right (mv : V) {topk : List (Option Rat) → Nat → List Nat} (ht : TopKOk topk) (c : SpecCfg) (train : Bool) (htr : train = true ∨ c.onlyOnTrain = false) (step T D : Nat)
    (hs : c.steps.1 ≤ c.steps.2.1 ∧ c.steps.2.1 ≤ c.steps.2.2) (hmt : 0 < c.maxTime) (htf : 0 < c.timeFactor) (hmf : 0 < maxFeatOf c D) (hD : (table (phase c step)).2.2.2 ≤ D)
    {tDraws fDraws : List Draw} {batch : List (Ent V)} (hdt : DrawsOk T tDraws batch.length) (hdf : DrawsOk D fDraws batch.length) (hb : ∀ e ∈ batch, e.1 ≤ T) :
    ∃ ys, specaugment mv topk c train step T D tDraws fDraws batch = .ok ys ∧ ys.length = batch.length ∧
      ∀ (b : Nat) e y, batch[b]? = some e → ys[b]? = some y → ∃ nT nF tb fb,
        (min (table (phase c step)).1 T ≤ nT ∧ nT ≤ min (max (T / c.timeFactor) 2 * (table (phase c step)).2.1) T) ∧
        ((table (phase c step)).2.2.1 ≤ nF ∧ nF ≤ (table (phase c step)).2.2.2) ∧
        Blocks e.1 nT c.maxTime tb ∧ Blocks D nF (maxFeatOf c D) fb ∧ MaskedAt mv (fun t f => Covered e.1 tb t ∨ Covered D fb f) e.2 y := by
  obtain ⟨hn1, hn2⟩ := nums_table c step T hs
  have htab : (table (phase c step)).1 ≤ 2 * (table (phase c step)).2.1 ∧ (table (phase c step)).2.2.1 ≤ (table (phase c step)).2.2.2 := by
    generalize phase c step = n
    rcases n with _ | _ | _ | n <;> simp [table]
  obtain ⟨xs, h1, h2, h3⟩ := randomMask_right (maskTime mv) (maskTime_comp mv) (maskTime_false mv) ht (minNum := (timeNums c (stepFlags c step) T).1) (maxNum := (timeNums c (stepFlags c step) T).2)
    (maxDims := c.maxTime) (full := T) (draws := tDraws) (batch := batch) hdt.1 hdt.2 hb hmt
    (by
      rw [hn1]
      simp only
      have : 2 * (table (phase c step)).2.1 ≤ max (T / c.timeFactor) 2 * (table (phase c step)).2.1 := Nat.mul_le_mul_right _ (Nat.le_max_right _ _)
      omega)
    (by rw [hn1]; simp only; omega)
  obtain ⟨ys, h4, h5, h6⟩ := randomMask_right (maskFeat mv) (maskFeat_comp mv) (maskFeat_false mv) ht (minNum := (featNums (stepFlags c step)).1) (maxNum := (featNums (stepFlags c step)).2)
    (maxDims := maxFeatOf c D) (full := D) (draws := fDraws) (batch := xs.map (fun x => (D, x))) (by rw [List.length_map, h2]; exact hdf.1) hdf.2
    (by intro e he; obtain ⟨x, _, rfl⟩ := List.mem_map.1 he; simp) hmf (by rw [hn2]; exact htab.2) (by rw [hn2]; exact hD)
  refine ⟨ys, ?_, by rw [h5, List.length_map, h2], ?_⟩
  · unfold specaugment
    rw [if_pos (by rcases htr with h | h <;> simp [h])]
    simp only [timeBranch, featBranch, if_pos hmf, if_pos (And.intro hmt htf), h1, bind, Except.bind]
    exact h4
  · intro b e y he hy
    have hbl : b < xs.length := by rw [h2]; exact (List.getElem?_eq_some_iff.1 he).1
    obtain ⟨nT, tb, q1, q2, q3, q4⟩ := h3 b e xs[b] he (List.getElem?_eq_getElem hbl)
    obtain ⟨nF, fb, r1, r2, r3, r4⟩ := h6 b (D, xs[b]) y (by rw [List.getElem?_map, List.getElem?_eq_getElem hbl]; rfl) hy
    rw [hn1] at q1 q2
    rw [hn2] at r1 r2
    refine ⟨nT, nF, tb, fb, ⟨q1, q2⟩, ⟨r1, r2⟩, q3, r3, ?_⟩
    rw [r4, q4]
    simp only
    refine ⟨by simp [maskFeat, maskTime], ?_⟩
    intro t row hrow
    refine ⟨(row.map (fun v => if anyBlock e.1 tb t then mv else v)).mapIdx (fun f v => if anyBlock D fb f then mv else v),
      by simp only [maskFeat, maskTime, List.getElem?_map, List.getElem?_mapIdx, hrow, Option.map_some], by simp, ?_⟩
    intro f v hv
    refine ⟨if anyBlock D fb f then mv else if anyBlock e.1 tb t then mv else v, by simp only [List.getElem?_mapIdx, List.getElem?_map, hv, Option.map_some], ?_, ?_⟩
    · intro hp
      by_cases hfc : anyBlock D fb f = true
      · simp [hfc]
      · rcases hp with hp | hp
        · rw [← anyBlock_iff] at hp
          simp [hp]
        · rw [← anyBlock_iff] at hp
          exact absurd hp hfc
    · intro hp
      rw [not_or] at hp
      rw [← anyBlock_iff, ← anyBlock_iff] at hp
      simp [hp.1, hp.2]

/-- C106: outside of training nothing is changed. -/
theorem specaugment_eval (mv : V) (topk : List (Option Rat) → Nat → List Nat) (c : SpecCfg) (hc : c.onlyOnTrain = true) (step T D : Nat) (tDraws fDraws : List Draw) (batch : List (Ent V)) :
    specaugment mv topk c false step T D tDraws fDraws batch = .ok (batch.map Prod.snd) := by
  simp [specaugment, hc]

/-- C106: and nothing before the first of the three steps. -/
theorem specaugment_start (mv : V) (topk : List (Option Rat) → Nat → List Nat) (c : SpecCfg) (hd : c.stepDependent = true) (step T D : Nat) (hs0 : step < c.steps.1)
    (hs : c.steps.1 ≤ c.steps.2.1 ∧ c.steps.2.1 ≤ c.steps.2.2) (train : Bool) (tDraws fDraws : List Draw) (batch : List (Ent V)) (hlt : tDraws.length = batch.length) (hlf : fDraws.length = batch.length) :
    specaugment mv topk c train step T D tDraws fDraws batch = .ok (batch.map Prod.snd) := by
  have hfl : stepFlags c step = (0, 0, 0) := by
    unfold stepFlags
    rw [if_pos hd, if_neg (by omega), if_neg (by omega), if_neg (by omega)]
  have key : ∀ {X : Type} (apply : (Nat → Bool) → X → X) (maxDims full : Nat) (draws : List Draw) (batch : List (Nat × X)), draws.length = batch.length →
      randomMask topk apply 0 0 maxDims full draws batch = .ok (batch.map Prod.snd) := by
    intro X apply maxDims full draws batch hl
    have hr : ∀ u, randInt 0 (0 + 1) u = 0 := by
      intro u
      have := randInt_bounds (show 0 < 0 + 1 by omega) u
      omega
    unfold randomMask
    have hk : (draws.map (fun d => randInt 0 (0 + 1) d.num)).foldl max 0 = 0 := by
      have := foldl_max_le (draws.map (fun d => randInt 0 (0 + 1) d.num)) 0 0 (le_refl _) (by
        intro x hx
        obtain ⟨d, _, rfl⟩ := List.mem_map.1 hx
        rw [hr])
      omega
    simp only [hk]
    rw [if_neg (by omega)]
    congr 1
    apply List.ext_getElem?
    intro b
    rw [List.getElem?_zipWith, List.getElem?_map]
    by_cases hb : b < batch.length
    · rw [List.getElem?_eq_getElem hb, List.getElem?_eq_getElem (show b < draws.length by omega)]
      rfl
    · rw [List.getElem?_eq_none (show batch.length ≤ b by omega)]
      cases draws[b]? <;> rfl
  have h1 : timeBranch mv topk c (0, 0, 0) T tDraws batch = .ok (batch.map Prod.snd) := by
    unfold timeBranch
    split
    · simp only [timeNums, Nat.mul_zero, Nat.add_zero, Nat.zero_mul, Nat.zero_min]
      exact key _ _ _ _ _ hlt
    · rfl
  have h2 : featBranch mv topk c (0, 0, 0) D fDraws (batch.map Prod.snd) = .ok (batch.map Prod.snd) := by
    unfold featBranch
    split
    · simp only [featNums, Nat.zero_mul, Nat.add_zero]
      rw [key _ _ _ _ _ (by simpa using hlf)]
      simp
    · rfl
  unfold specaugment
  split
  · simp only [hfl, h1, h2, bind, Except.bind]
  · rfl

/-- C106: the default number of features in a block never makes too many masks for the feature dim. -/
theorem default_fits (c : SpecCfg) (hc : c.maxFeat = none) (step D : Nat) (hmf : 0 < maxFeatOf c D) : (table (phase c step)).2.2.2 ≤ D := by
  unfold maxFeatOf at hmf
  rw [hc] at hmf
  simp only at hmf
  have h5 : 5 ≤ D := by
    by_contra h
    have : D / 5 = 0 := Nat.div_eq_of_lt (by omega)
    omega
  generalize phase c step = n
  rcases n with _ | _ | _ | n <;> simp [table] <;> omega

/-- C106: with fewer than 5 features and a number given, it may raise. -/
theorem small_raises (mv : V) (topk : List (Option Rat) → Nat → List Nat) (x : V) :
    specaugment mv topk { maxFeat := some 1, timeFactor := 0 } true 5000 1 3 [⟨0, [0], []⟩] [⟨3, [0, 0, 0], []⟩] [(1, [[x, x, x]])] = .error (.other "topk") := by
  simp [specaugment, timeBranch, featBranch, maxFeatOf, randomMask, stepFlags, featNums, randInt, bind, Except.bind]

/-- C106: a short sequence in a batch with longer ones may be masked completely: with as many blocks as it has frames, all its frames are masked. -/
theorem short_all {dim n maxDims : Nat} {bs : List Block} (h : Blocks dim n maxDims bs) (hn : dim ≤ n) : ∀ t, t < dim → Covered dim bs t := by
  have h1 := masked_ge h
  rw [Nat.min_eq_right hn] at h1
  unfold numMasked at h1
  have h2 : (List.range dim).countP (fun t => decide (Covered dim bs t)) = (List.range dim).length := by
    have := List.countP_le_length (p := fun t => decide (Covered dim bs t)) (l := List.range dim)
    rw [List.length_range] at this ⊢
    omega
  rw [List.countP_eq_length] at h2
  intro t ht
  have := h2 t (List.mem_range.2 ht)
  simpa using this

/-! ### Examples -/

example : Blocks 5 2 2 [⟨3, 2⟩, ⟨0, 1⟩] := ⟨rfl, by decide, by decide, by decide⟩

example : numMasked 5 [⟨3, 2⟩, ⟨0, 1⟩] = 3 := by decide

/-- The order of topk. -/
def vle (v w : Option Rat) : Bool := match v, w with
  | _, none => true
  | none, some _ => false
  | some a, some b => decide (b ≤ a)

/-- There is such a topk (a stable sort). -/
def sortTopk (vals : List (Option Rat)) (k : Nat) : List Nat := ((List.range vals.length).mergeSort (fun i j => vle (vals.getD i none) (vals.getD j none))).take k

theorem sortTopk_ok : TopKOk sortTopk := by
  intro vals k hk
  have hp := List.mergeSort_perm (List.range vals.length) (fun i j => vle (vals.getD i none) (vals.getD j none))
  have hs := List.pairwise_mergeSort (le := fun i j => vle (vals.getD i none) (vals.getD j none))
    (by
      intro a b c
      generalize vals.getD a none = x, vals.getD b none = y, vals.getD c none = z
      cases x <;> cases y <;> cases z <;> simp [vle]
      intro h1 h2
      exact le_trans h2 h1)
    (by
      intro a b
      generalize vals.getD a none = x, vals.getD b none = y
      cases x <;> cases y <;> simp [vle]
      exact le_total _ _) (List.range vals.length)
  have hrel : ∀ i j, vle (vals.getD i none) (vals.getD j none) = true → ∀ v w, vals[i]? = some v → vals[j]? = some w → w = none ∨ ∃ a b, v = some a ∧ w = some b ∧ b ≤ a := by
    intro i j h v w hv hw
    rw [List.getD_eq_getElem?_getD, List.getD_eq_getElem?_getD, hv, hw, Option.getD_some, Option.getD_some] at h
    cases v <;> cases w <;> simp_all [vle]
  unfold sortTopk
  generalize (List.range vals.length).mergeSort (fun i j => vle (vals.getD i none) (vals.getD j none)) = l at hp hs
  have hlen : l.length = vals.length := by rw [hp.length_eq, List.length_range]
  refine ⟨by rw [List.length_take, hlen]; omega, List.Sublist.nodup (List.take_sublist _ _) (hp.nodup_iff.2 List.nodup_range), ?_, ?_, ?_⟩
  · intro i hi
    exact List.mem_range.1 (hp.mem_iff.1 (List.mem_of_mem_take hi))
  · exact (hs.sublist (List.take_sublist _ _)).imp (fun h => hrel _ _ h)
  · intro i hi j hj v w hv hw
    have hjl : j ∈ l := hp.mem_iff.2 (List.mem_range.2 (List.getElem?_eq_some_iff.1 hw).1)
    rw [← List.take_append_drop k l] at hs hjl
    rcases List.mem_append.1 hjl with h | h
    · exact absurd h hj
    · exact hrel i j ((List.pairwise_append.1 hs).2.2 i hi j h) v w hv hw

example : DrawsOk 5 [⟨3, [1/2, 1/4, 3/4, 0, 1/8], [1, 2]⟩] 1 := ⟨rfl, by simp⟩

/-- The hypotheses of the main theorem are met with the defaults, 20 frames and 10 features in the last phase. -/
example : ∃ ys, specaugment (0 : Rat) sortTopk {} true 5000 20 10 [⟨3, List.replicate 20 0, [1]⟩] [⟨3, List.replicate 10 0, [1]⟩] [(15, List.replicate 20 (List.replicate 10 1))] = .ok ys := by
  obtain ⟨ys, h, _⟩ := specaugment_right (0 : Rat) sortTopk_ok {} true (Or.inl rfl) 5000 20 10 (by decide) (by decide) (by decide) (by decide) (by decide)
    (tDraws := [⟨3, List.replicate 20 0, [1]⟩]) (fDraws := [⟨3, List.replicate 10 0, [1]⟩]) (batch := [(15, List.replicate 20 (List.replicate 10 1))]) ⟨rfl, by simp⟩ ⟨rfl, by simp⟩ (by simp)
  exact ⟨ys, h⟩

end Verif.Augment
