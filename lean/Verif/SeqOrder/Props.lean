import Verif.SeqOrder.Lemmas
import Mathlib.Data.List.Nodup
import Mathlib.Data.List.Perm.Subperm
/-
Property theorems C01-C05 about the sequence ordering.
-/
namespace Verif.SeqOrder
open Verif.Py Verif.ListLemmas Spec

/-! ## C01: partitions and shards tile the epoch -/

/-- C01. In the full epoch number `f` (epochs `f*P+1 .. f*P+P`), all `P*S` slices exist, and concatenated in
(sub-epoch, shard) order they are the full order. -/
theorem partition_tiles {α : Type} (l : List α) (P S f : Nat) (hP : 0 < P) (hS : 0 < S) :
    ∃ parts : Nat → Nat → List α,
      (∀ e < P, ∀ s < S, applyPartition l P (some ((f * P + e + 1 : Nat) : Int)) S s = .ok (parts e s)) ∧
      (List.range P).flatMap (fun e => (List.range S).flatMap (fun s => parts e s)) = l := by
  refine ⟨fun e s => slice l (off l.length (P * S) (e * S + s)) (off l.length (P * S) (e * S + s + 1)), ?_,
    slices_tile l P S hP hS⟩
  intro e he s hs
  rw [applyPartition_ok l P _ S s hP hs (by omega), partIdx_full P f e S s he]

/-- C01. Any two slices (of any epochs and shards) differ in size by at most one. -/
theorem partition_balanced {α : Type} (l : List α) (P S : Nat) (e₁ e₂ : Int) (s₁ s₂ : Nat) (a b : List α)
    (h₁ : applyPartition l P (some e₁) S s₁ = .ok a) (h₂ : applyPartition l P (some e₂) S s₂ = .ok b) :
    a.length ≤ b.length + 1 := by
  have key : ∀ (e : Int) (s : Nat) (a : List α), applyPartition l P (some e) S s = .ok a →
      l.length / (P * S) ≤ a.length ∧ a.length ≤ l.length / (P * S) + 1 := by
    intro e s a h
    have hs : s < S := by
      by_cases hs : s < S
      · exact hs
      · simp [applyPartition, pyAssert, hs, bind, Except.bind] at h
    have hP : 0 < P := by
      by_cases hP : P = 0
      · simp [applyPartition, pyAssert, hs, hP, bind, Except.bind] at h
      · omega
    have hN : 0 < P * S := Nat.mul_pos hP (by omega)
    by_cases he : e = 0
    · subst he
      have h' : applyPartition l P (some 1) S s = .ok a := h
      rw [applyPartition_ok l P 1 S s hP hs (by omega)] at h'
      injection h' with h'
      rw [← h', slice_length l (P * S) _ hN]
      · split <;> omega
      · simp [partIdx]
        calc s < S := hs
          _ ≤ P * S := Nat.le_mul_of_pos_left S hP
    · rw [applyPartition_ok l P e S s hP hs he] at h
      injection h with h
      rw [← h, slice_length l (P * S) _ hN]
      · split <;> omega
      · have h1 : ((e - 1) % (P : Int)) < P := Int.emod_lt_of_pos _ (by omega)
        have h2 : 0 ≤ ((e - 1) % (P : Int)) := Int.emod_nonneg _ (by omega)
        have h3 : ((e - 1) % (P : Int)).toNat < P := by omega
        calc partIdx P e S s < ((e - 1) % (P : Int)).toNat * S + S := by unfold partIdx; omega
          _ = (((e - 1) % (P : Int)).toNat + 1) * S := by rw [Nat.add_mul, Nat.one_mul]
          _ ≤ P * S := Nat.mul_le_mul_right S h3
  have := key e₁ s₁ a h₁
  have := key e₂ s₂ b h₂
  omega

/-- C01. The only failures are an invalid shard index or `partition_epoch = 0`. -/
theorem partition_fails_iff {α : Type} (l : List α) (P S : Nat) (e : Int) (s : Nat) :
    (∃ err, applyPartition l P (some e) S s = .error err) ↔ (S ≤ s ∨ P = 0) := by
  constructor
  · rintro ⟨err, h⟩
    by_cases hs : s < S
    · right
      by_cases hP : P = 0
      · exact hP
      · exfalso
        by_cases he : e = 0
        · subst he
          have h' : applyPartition l P (some 1) S s = .error err := h
          rw [applyPartition_ok l P 1 S s (by omega) hs (by omega)] at h'
          cases h'
        · rw [applyPartition_ok l P e S s (by omega) hs he] at h
          cases h
    · left; omega
  · rintro (h | h)
    · exact ⟨.assertion, by simp [applyPartition, pyAssert, Nat.not_lt.mpr h, bind, Except.bind]⟩
    · by_cases hs : s < S
      · exact ⟨.zeroDivision, by simp [applyPartition, pyAssert, hs, h, bind, Except.bind]⟩
      · exact ⟨.assertion, by simp [applyPartition, pyAssert, hs, bind, Except.bind]⟩

-- non-vacuity: 5 seqs, P=2, S=2, sub-epoch 2, shard 0 of full epoch 1
example : applyPartition [10, 11, 12, 13, 14] 2 (some 4) 2 0 = .ok [13] := by decide
example : applyPartition [10, 11, 12, 13, 14] 2 (some 3) 2 0 = .ok [10, 11] := by decide

/-! ## C02: every ordering is a permutation -/

/-- The configured ordering can be computed: lengths are available where needed, the number of bins is
positive; `default_every_n` is treated separately. -/
def ValidOrdering (o : Ordering) (len : Option (Nat → Int)) : Prop :=
  match o with
  | .default | .reverse | .random _ => True
  | .defaultEveryN _ => False
  | .sorted | .sortedReverse => len.isSome
  | .sortBinShuffle _ b _ | .laplace b _ => len.isSome ∧ match b with
    | .absent => True
    | .approx c => c ≠ 0
    | .count k => 0 < k

theorem numBins_valid (b : Bins) (n : Nat)
    (h : match b with | .absent => True | .approx c => c ≠ 0 | .count k => 0 < k) :
    ∃ k, numBins b n = .ok k ∧ 0 < k := by
  cases b with
  | absent => exact ⟨2, rfl, by omega⟩
  | approx c => exact ⟨_, by simp only [numBins]; rw [if_neg h], by omega⟩
  | count k => exact ⟨k, rfl, h⟩

theorem map_sub_range (n : Nat) : (List.range n).map (fun i => n - 1 - i) = (List.range n).reverse := by
  apply List.ext_getElem
  · simp
  · intro i h1 h2; simp

theorem baseOrder_perm {Tag : Type} (c : Cfg Tag) (rng : Rng) (e : Int) (n : Nat) (len : Option (Nat → Int))
    (hv : ValidOrdering c.ordering len) :
    ∃ o, baseOrder c rng e n len = .ok o ∧ o.idxs.Perm (List.range n) := by
  unfold baseOrder
  cases ho : c.ordering with
  | default => exact ⟨_, rfl, List.Perm.refl _⟩
  | defaultEveryN num => simp [ho, ValidOrdering] at hv
  | reverse =>
    refine ⟨_, rfl, ?_⟩
    simp only [map_sub_range]
    exact List.reverse_perm _
  | sorted =>
    simp only [ho, ValidOrdering] at hv
    obtain ⟨l, rfl⟩ := Option.isSome_iff_exists.mp hv
    exact ⟨_, rfl, by simpa using argsort_perm ((List.range n).map l)⟩
  | sortedReverse =>
    simp only [ho, ValidOrdering] at hv
    obtain ⟨l, rfl⟩ := Option.isSome_iff_exists.mp hv
    exact ⟨_, rfl, by simpa using argsort_perm ((List.range n).map (fun i => -1 * l i))⟩
  | random nth => exact ⟨_, rfl, rng.isPerm _ _ _⟩
  | sortBinShuffle x2 b nth =>
    simp only [ho, ValidOrdering] at hv
    obtain ⟨l, rfl⟩ := Option.isSome_iff_exists.mp hv.1
    obtain ⟨k, hk, hpos⟩ := numBins_valid b n hv.2
    obtain ⟨o, h1, h2, _⟩ := sortBinShuffle_ok rng (getRandomSeedForEpoch c (some e) nth) x2 b n l k hk hpos
    exact ⟨o, h1, h2⟩
  | laplace b nth =>
    simp only [ho, ValidOrdering] at hv
    obtain ⟨l, rfl⟩ := Option.isSome_iff_exists.mp hv.1
    obtain ⟨k, hk, hpos⟩ := numBins_valid b n hv.2
    refine ⟨_, laplace_ok rng _ b n l k hk hpos, ?_⟩
    exact (laplace_perm _ l k.toNat (by omega)).trans (rng.isPerm _ _ _)

/-- No partitioning, sharding, repetition, uniqueness or filter option is set. -/
def PlainOptions {Tag : Type} (c : Cfg Tag) : Prop :=
  (c.partitionEpoch = none ∨ c.partitionEpoch = some 1) ∧ c.numShards = 1 ∧
  (c.repeatEpoch = none ∨ c.repeatEpoch = some 1) ∧ c.uniqueSeqTags = false ∧ c.seqTagsFilter = none

theorem orOne_plain {x : Option Nat} (h : x = none ∨ x = some 1) : orOne x = 1 := by
  rcases h with rfl | rfl <;> rfl

theorem plain_eq {Tag : Type} [DecidableEq Tag] (c : Cfg Tag) (rng : Rng) (e : Int) (n : Nat)
    (len : Option (Nat → Int)) (hn : 0 < n) (hc : PlainOptions c) :
    getSeqOrderForEpoch c rng (some e) n len = baseOrder c rng e n len := by
  obtain ⟨hP, hS, hr, hu, hf⟩ := hc
  have hP := orOne_plain hP
  have hr := orOne_plain hr
  cases hb : baseOrder c rng e n len <;>
  simp [getSeqOrderForEpoch, pyAssert, hn, hb, postprocess, uniqueStage, partitionStage, repeatStage, filterStage,
    hu, hP, hS, hr, hf, bind, Except.bind]

/-- C02. Without partitioning, repetition or filters, every valid ordering yields each corpus index exactly once,
for every outcome of the random generator. -/
theorem order_is_permutation_partial {Tag : Type} [DecidableEq Tag] (c : Cfg Tag) (rng : Rng) (e : Int) (n : Nat)
    (len : Option (Nat → Int)) (hn : 0 < n) (hv : ValidOrdering c.ordering len) (hc : PlainOptions c) :
    ∃ o, getSeqOrderForEpoch c rng (some e) n len = .ok o ∧ o.idxs.Perm (List.range n) := by
  rw [plain_eq c rng e n len hn hc]
  exact baseOrder_perm c rng e n len hv

/-- C02. `default` is the corpus order. -/
theorem default_order {Tag : Type} [DecidableEq Tag] (c : Cfg Tag) (rng : Rng) (e : Int) (n : Nat)
    (len : Option (Nat → Int)) (hn : 0 < n) (hc : PlainOptions c) (ho : c.ordering = .default) :
    getSeqOrderForEpoch c rng (some e) n len = .ok ⟨List.range n, true⟩ := by
  rw [plain_eq c rng e n len hn hc]; simp only [baseOrder, ho]

/-- C02. `sorted`: ascending lengths, equal lengths in corpus order. -/
theorem sorted_stable {Tag : Type} [DecidableEq Tag] (c : Cfg Tag) (rng : Rng) (e : Int) (n : Nat)
    (len : Nat → Int) (o : Order) (hn : 0 < n) (hc : PlainOptions c) (ho : c.ordering = .sorted)
    (h : getSeqOrderForEpoch c rng (some e) n (some len) = .ok o) : StableSorted len o.idxs := by
  rw [plain_eq c rng e n _ hn hc] at h
  simp only [baseOrder, ho] at h
  injection h with h; subst h
  exact argsort_stable n len

/-- C02. `sorted_reverse`: descending lengths, equal lengths in corpus order. -/
theorem sorted_reverse_stable {Tag : Type} [DecidableEq Tag] (c : Cfg Tag) (rng : Rng) (e : Int) (n : Nat)
    (len : Nat → Int) (o : Order) (hn : 0 < n) (hc : PlainOptions c) (ho : c.ordering = .sortedReverse)
    (h : getSeqOrderForEpoch c rng (some e) n (some len) = .ok o) : StableSorted (fun i => - len i) o.idxs := by
  rw [plain_eq c rng e n _ hn hc] at h
  simp only [baseOrder, ho] at h
  injection h with h; subst h
  have := argsort_stable n (fun i => -1 * len i)
  simpa using this

/-- C02. `reverse` is the reversed corpus order. -/
theorem reverse_order {Tag : Type} [DecidableEq Tag] (c : Cfg Tag) (rng : Rng) (e : Int) (n : Nat)
    (len : Option (Nat → Int)) (hn : 0 < n) (hc : PlainOptions c) (ho : c.ordering = .reverse) :
    getSeqOrderForEpoch c rng (some e) n len = .ok ⟨(List.range n).reverse, true⟩ := by
  rw [plain_eq c rng e n len hn hc]; simp only [baseOrder, ho, map_sub_range]

/-- C02. `sort_bin_shuffle`: a length-sorted order of the corpus is cut into `bins` contiguous bins (bin `i` is
`[i*n/bins, (i+1)*n/bins)`); the result concatenates the bins in a permuted order, where with `_x2` each bin is itself
shuffled and otherwise kept sorted. -/
theorem sort_bin_shuffle_structure (rng : Rng) (seed : Int) (x2 : Bool) (b : Bins) (n : Nat) (len : Nat → Int)
    (bins : Nat) (o : Order) (hb : numBins b n = .ok (bins : Int)) (hpos : 0 < bins)
    (h : sortBinShuffle rng seed x2 b n len = .ok o) :
    ∃ (sorted binOrder : List Nat) (parts : List (List Nat)),
      sorted.Perm (List.range n) ∧ Ascending len sorted ∧ binOrder.Perm (List.range bins) ∧
      o.idxs = parts.flatten ∧
      List.Forall₂ (fun i p => p.Perm ((sorted.take ((i + 1) * n / bins)).drop (i * n / bins)) ∧
        (x2 = false → p = (sorted.take ((i + 1) * n / bins)).drop (i * n / bins))) binOrder parts := by
  have hnp : ¬ ((bins : Int) ≤ 0) := by omega
  unfold sortBinShuffle at h
  simp only [hb, bind, Except.bind, hnp, if_false, Int.toNat_natCast] at h
  injection h with h
  subst h
  generalize hsi : stableSort (fun i j => decide (len i ≤ len j)) (rng.perm seed 0 n) = l
  have hl : l.Perm (List.range n) := by
    rw [← hsi]; exact (stableSort_perm _ _).trans (rng.isPerm _ _ _)
  have hlen : l.length = n := by simpa using hl.length_eq
  refine ⟨l, rng.perm seed 1 bins, _, hl, ?_, rng.isPerm _ _ _, rfl, ?_⟩
  · rw [← hsi]
    exact (stableSort_pairwise (le_trans_key len) (le_total_key len) _).imp (by
      intro a b hab; simpa using hab)
  · rw [List.forall₂_iff_get]
    refine ⟨by simp, ?_⟩
    intro j h1 h2
    have hmem : (rng.perm seed 1 bins)[j] ∈ rng.perm seed 1 bins := List.getElem_mem h1
    have hi : (rng.perm seed 1 bins)[j] < bins := by simpa using (rng.isPerm seed 1 bins).mem_iff.mp hmem
    simp only [List.get_eq_getElem, List.getElem_mapIdx]
    have := sortBinPart_perm rng seed x2 bins l j _ hi
    rw [hlen] at this
    refine ⟨this, ?_⟩
    intro hx
    have hns := sortBinPart_noshuffle rng seed bins l j _ hi
    rw [hlen] at hns
    subst hx; exact hns

/-- C02. `sort_bin_shuffle`: the returned indices are integers (usable as indices) iff there are at most as many
bins as seqs; otherwise an empty Python list turns the numpy array into floats. -/
theorem sort_bin_shuffle_int_iff (rng : Rng) (seed : Int) (x2 : Bool) (b : Bins) (n : Nat) (len : Nat → Int)
    (bins : Int) (o : Order) (hb : numBins b n = .ok bins) (hpos : 0 < bins)
    (h : sortBinShuffle rng seed x2 b n len = .ok o) : o.isInt = true ↔ bins ≤ n := by
  obtain ⟨o', h1, _, h3⟩ := sortBinShuffle_ok rng seed x2 b n len bins hb hpos
  rw [h] at h1; injection h1 with h1; subst h1; exact h3

/-- C02, refuted part: with more bins than seqs, `sort_bin_shuffle` (a valid ordering) does not give usable
indices, for every generator and all lengths. -/
theorem sort_bin_shuffle_float_indices (rng : Rng) (seed : Int) (len : Nat → Int) :
    ∃ o, sortBinShuffle rng seed false (.count 3) 2 len = .ok o ∧ o.isInt = false := by
  obtain ⟨o, h1, _, h3⟩ := sortBinShuffle_ok rng seed false (.count 3) 2 len 3 rfl (by omega)
  refine ⟨o, h1, ?_⟩
  cases hb : o.isInt with
  | false => rfl
  | true => exact absurd (h3.mp hb) (by decide)

/-- C02 (`default_every_n:k`). Position `p` holds corpus index `(p % k) * q + p / k` with `q = n // k`:
batch slot `i = p % k` walks through the contiguous block `[i*q, (i+1)*q)` of the corpus. -/
theorem default_every_n_layout (k n : Nat) (hk : 0 < k) :
    ∃ l, defaultEveryN k n = .ok l ∧ l.length = n / k * k ∧
      ∀ p, p < l.length → l[p]? = some (p % k * (n / k) + p / k) := by
  have : ∃ l, defaultEveryN k n = .ok l := by
    unfold defaultEveryN
    have h1 : ¬ ((k : Int) = 0) := by omega
    have h2 : ¬ ((k : Int) < 0) := by omega
    simp only [h1, h2, if_false]
    exact ⟨_, rfl⟩
  obtain ⟨l, h⟩ := this
  refine ⟨l, h, everyN_length k n hk l h, ?_⟩
  intro p hp
  rw [everyN_length k n hk l h] at hp
  exact everyN_getElem? k n p hk hp l h

/-- C02, refuted part: `default_every_n:k` drops the last `n % k` seqs: it is a permutation of the
first `n // k * k` seqs only. -/
theorem default_every_n_perm (k n : Nat) (hk : 0 < k) (l : List Nat) (h : defaultEveryN k n = .ok l) :
    l.Perm (List.range (n / k * k)) := by
  have hl := everyN_length k n hk l h
  have hget := fun p hp => everyN_getElem? k n p hk hp l h
  generalize hq : n / k = q at *
  have hnd : l.Nodup := by
    rw [List.nodup_iff_injective_get]
    intro a b hab
    have ha := hget a.val (by omega)
    have hb := hget b.val (by omega)
    rw [List.getElem?_eq_getElem a.isLt] at ha
    rw [List.getElem?_eq_getElem b.isLt] at hb
    injection ha with ha
    injection hb with hb
    rw [List.get_eq_getElem, List.get_eq_getElem] at hab
    have heq : a.val % k * q + a.val / k = b.val % k * q + b.val / k := by omega
    have ha2 : a.val / k < q := Nat.div_lt_of_lt_mul (by rw [Nat.mul_comm]; omega)
    have hb2 : b.val / k < q := Nat.div_lt_of_lt_mul (by rw [Nat.mul_comm]; omega)
    have hq0 : 0 < q := Nat.lt_of_le_of_lt (Nat.zero_le _) ha2
    have hm : a.val / k = b.val / k := by
      have := congrArg (· % q) heq
      simpa [Nat.mul_add_mod_self_right, Nat.mod_eq_of_lt ha2, Nat.mod_eq_of_lt hb2] using this
    have hd : a.val % k = b.val % k := by
      have : a.val % k * q = b.val % k * q := by omega
      exact Nat.eq_of_mul_eq_mul_right hq0 this
    have h1 := Nat.div_add_mod a.val k
    have h2 := Nat.div_add_mod b.val k
    rw [hm, hd] at h1
    exact Fin.ext (by omega)
  have hsub : ∀ x ∈ l, x ∈ List.range (q * k) := by
    intro x hx
    obtain ⟨p, hp, rfl⟩ := List.getElem_of_mem hx
    have hg := hget p (by omega)
    rw [List.getElem?_eq_getElem hp] at hg
    injection hg with hg
    rw [hg, List.mem_range]
    have hp2 : p / k < q := Nat.div_lt_of_lt_mul (by rw [Nat.mul_comm]; omega)
    have hp3 : p % k < k := Nat.mod_lt _ hk
    calc p % k * q + p / k < p % k * q + q := by omega
      _ = (p % k + 1) * q := by rw [Nat.add_mul, Nat.one_mul]
      _ ≤ k * q := Nat.mul_le_mul_right q hp3
      _ = q * k := Nat.mul_comm _ _
  exact (List.subperm_of_subset hnd hsub).perm_of_length_le (by simp [hl])

/-- C02, refuted part, witness: with 5 seqs, `default_every_n:2` never yields the last sequence. -/
theorem default_every_n_drops : ∃ l, defaultEveryN 2 5 = .ok l ∧ 4 ∉ l := ⟨[0, 2, 1, 3], by decide, by decide⟩

/-- A generator which never shuffles, for the examples. -/
def idRng : Rng := ⟨fun _ _ n => List.range n, fun _ _ _ => List.Perm.refl _⟩

example : baseOrder ({ ordering := .sorted } : Cfg Nat) idRng 1 4 (some (fun i => [5, 3, 5, 1].getD i 0))
    = .ok ⟨[3, 1, 0, 2], true⟩ := by decide
example : ValidOrdering (.laplace (.approx 2) 1) (some (fun _ => 1)) := ⟨rfl, by decide⟩

/-! ## C03: every sequence exactly once per full epoch -/

/-- C03. The seed is the same for all sub-epochs of a full epoch. -/
theorem seed_constant_in_full_epoch {Tag : Type} (c : Cfg Tag) (f e₁ e₂ : Nat) (nth : Int)
    (h₁ : e₁ < orOne c.partitionEpoch) (h₂ : e₂ < orOne c.partitionEpoch) :
    getRandomSeedForEpoch c (some ((f * orOne c.partitionEpoch + e₁ + 1 : Nat) : Int)) nth
      = getRandomSeedForEpoch c (some ((f * orOne c.partitionEpoch + e₂ + 1 : Nat) : Int)) nth := by
  rw [getRandomSeed_const c _ f e₁ rfl h₁, getRandomSeed_const c _ f e₂ rfl h₂]

/-- C03. Without a fixed seed, different full epochs have different seeds. -/
theorem seed_differs_between_full_epochs {Tag : Type} (c : Cfg Tag) (f₁ f₂ : Nat)
    (hs : c.fixedRandomSeed = none)
    (h : getRandomSeedForEpoch c (some ((f₁ * orOne c.partitionEpoch + 1 : Nat) : Int))
       = getRandomSeedForEpoch c (some ((f₂ * orOne c.partitionEpoch + 1 : Nat) : Int))) : f₁ = f₂ := by
  have hP := orOne_pos c.partitionEpoch
  generalize hPe : orOne c.partitionEpoch = P at *
  have key : ∀ f : Nat, getRandomSeedForEpoch c (some ((f * P + 1 : Nat) : Int)) = f + 1 + c.randomSeedOffset := by
    intro f
    unfold getRandomSeedForEpoch
    simp only [hs, hPe]
    have h1 : epochOrOne (some ((f * P + 1 : Nat) : Int)) = ((f * P + 1 : Nat) : Int) := by
      simp only [epochOrOne]; rw [if_neg (by omega)]
    rw [h1]
    by_cases hP1 : P > 1
    · simp only [hP1, if_true]
      have h3 : (((f * P + 1 : Nat) : Int) - 1) = ((f * P : Nat) : Int) := by omega
      rw [h3, ← Int.natCast_ediv, Nat.mul_div_cancel _ hP]
      simp
    · have : P = 1 := by omega
      subst this
      simp
  rw [key f₁, key f₂] at h
  omega

theorem postprocess_plain {Tag : Type} [DecidableEq Tag] (c : Cfg Tag) (e : Int) (n : Nat) (o : Order)
    (he : e ≠ 0) (hs : c.shardIndex < c.numShards) (hu : c.uniqueSeqTags = false) (hf : c.seqTagsFilter = none) :
    postprocess c e n o = .ok ⟨(List.replicate (orOne c.repeatEpoch)
      (slice o.idxs
        (off o.idxs.length (orOne c.partitionEpoch * c.numShards)
          (partIdx (orOne c.partitionEpoch) e c.numShards c.shardIndex))
        (off o.idxs.length (orOne c.partitionEpoch * c.numShards)
          (partIdx (orOne c.partitionEpoch) e c.numShards c.shardIndex + 1)))).flatten, o.isInt⟩ := by
  have hP := orOne_pos c.partitionEpoch
  have hr := orOne_pos c.repeatEpoch
  have hpart : partitionStage c e o.idxs
      = applyPartition o.idxs (orOne c.partitionEpoch) (some e) c.numShards c.shardIndex := by
    unfold partitionStage
    split
    · rfl
    · rename_i h
      have h1 : orOne c.partitionEpoch = 1 := by omega
      have h2 : c.numShards = 1 := by omega
      have h3 : c.shardIndex = 0 := by omega
      rw [applyPartition_ok _ _ _ _ _ hP hs he, h1, h2, h3]
      simp [partIdx, off, slice, Nat.mod_one]
  have hu' : uniqueStage c o = .ok o.idxs := by simp [uniqueStage, hu]
  have hrep : ∀ l, repeatStage c l = (List.replicate (orOne c.repeatEpoch) l).flatten := by
    intro l; unfold repeatStage
    split
    · rfl
    · have : orOne c.repeatEpoch = 1 := by omega
      rw [this]; simp
  unfold postprocess
  simp only [hu', bind, Except.bind, hpart, applyPartition_ok _ _ _ _ _ hP hs he, filterStage, hf, hrep]

theorem count_flatten_replicate (r : Nat) (l : List Nat) (i : Nat) :
    (List.replicate r l).flatten.count i = r * l.count i := by
  induction r with
  | zero => simp
  | succ r ih => rw [List.replicate_succ, List.flatten_cons, List.count_append, ih, Nat.succ_mul, Nat.add_comm]

theorem count_flatMap_mul (r : Nat) (f : Nat → List Nat) (g : Nat → List Nat) (i : Nat)
    (h : ∀ k, (f k).count i = r * (g k).count i) (l : List Nat) :
    (l.flatMap f).count i = r * (l.flatMap g).count i := by
  induction l with
  | nil => simp
  | cons a l ih => simp only [List.flatMap_cons, List.count_append, ih, h a, Nat.mul_add]

/-- C03. Over the `P` sub-epochs of any full epoch `f` and all `S` shards, every call succeeds and every corpus
sequence is visited exactly `repeat_epoch` times (once by default), for every random generator. -/
theorem full_epoch_coverage {Tag : Type} [DecidableEq Tag] (c : Cfg Tag) (rng : Rng) (n f : Nat)
    (len : Option (Nat → Int)) (hn : 0 < n) (hS : 0 < c.numShards) (hv : ValidOrdering c.ordering len)
    (hu : c.uniqueSeqTags = false) (hf : c.seqTagsFilter = none) :
    ∃ parts : Nat → Nat → Order,
      (∀ e < orOne c.partitionEpoch, ∀ s < c.numShards,
        getSeqOrderForEpoch { c with shardIndex := s } rng
          (some ((f * orOne c.partitionEpoch + e + 1 : Nat) : Int)) n len = .ok (parts e s)) ∧
      ∀ i, ((List.range (orOne c.partitionEpoch)).flatMap (fun e =>
          (List.range c.numShards).flatMap (fun s => (parts e s).idxs))).count i
        = if i < n then orOne c.repeatEpoch else 0 := by
  have hP := orOne_pos c.partitionEpoch
  obtain ⟨o, ho, hperm⟩ := baseOrder_perm c rng ((f * orOne c.partitionEpoch + 1 : Nat) : Int) n len hv
  generalize hPe : orOne c.partitionEpoch = P at *
  refine ⟨fun e s => ⟨(List.replicate (orOne c.repeatEpoch)
      (slice o.idxs (off o.idxs.length (P * c.numShards) (e * c.numShards + s))
        (off o.idxs.length (P * c.numShards) (e * c.numShards + s + 1)))).flatten, o.isInt⟩, ?_, ?_⟩
  · intro e he s hs
    have hb : baseOrder { c with shardIndex := s } rng ((f * P + e + 1 : Nat) : Int) n len = .ok o := by
      have h1 : baseOrder { c with shardIndex := s } rng ((f * P + e + 1 : Nat) : Int) n len
          = baseOrder c rng ((f * P + e + 1 : Nat) : Int) n len := rfl
      rw [h1, baseOrder_const c rng P f e n hPe he len, ho]
    have hpp := postprocess_plain { c with shardIndex := s } ((f * P + e + 1 : Nat) : Int) n o (by omega) hs hu hf
    simp only [hPe, partIdx_full P f e c.numShards s he] at hpp
    unfold getSeqOrderForEpoch
    simp only [pyAssert, hn, gt_iff_lt, decide_true, if_true, bind, Except.bind, hb]
    exact hpp
  · intro i
    have h2 : ∀ e, ((List.range c.numShards).flatMap (fun s => (List.replicate (orOne c.repeatEpoch)
      (slice o.idxs (off o.idxs.length (P * c.numShards) (e * c.numShards + s))
        (off o.idxs.length (P * c.numShards) (e * c.numShards + s + 1)))).flatten)).count i
        = orOne c.repeatEpoch * ((List.range c.numShards).flatMap (fun s =>
      (slice o.idxs (off o.idxs.length (P * c.numShards) (e * c.numShards + s))
        (off o.idxs.length (P * c.numShards) (e * c.numShards + s + 1))))).count i := by
      intro e
      exact count_flatMap_mul _ _ _ i (fun k => count_flatten_replicate _ _ _) _
    simp only
    rw [count_flatMap_mul _ _ _ i h2, slices_tile o.idxs P c.numShards hP hS, hperm.count_eq, List.count_range]
    split <;> simp

example : ∃ c : Cfg Nat, 0 < c.numShards ∧ ValidOrdering c.ordering none ∧ orOne c.partitionEpoch = 3 ∧
    getSeqOrderForEpoch c idRng (some 2) 5 none = .ok ⟨[2, 3], true⟩ :=
  ⟨{ ordering := .random 1, partitionEpoch := some 3 }, by decide, trivial, rfl, by decide⟩

/-! ## C04: laplace -/

/-- C04. The `laplace` order is a concatenation of bins; bin `i` consists of the seqs at positions
`[i*n/bins, (i+1)*n/bins)` of the shuffled order (so it has `n/bins` or `n/bins + 1` seqs), even bins are ascending
and odd bins descending in length. -/
theorem laplace_structure (rng : Rng) (seed : Int) (b : Bins) (n : Nat) (len : Nat → Int) (bins : Nat) (o : Order)
    (hb : numBins b n = .ok (bins : Int)) (hpos : 0 < bins) (h : laplace rng seed b n len = .ok o) :
    ∃ bin : Nat → List Nat, o.idxs = (List.range bins).flatMap bin ∧ o.isInt = true ∧
      ∀ i < bins,
        (bin i).Perm (((rng.perm seed 0 n).take ((i + 1) * n / bins)).drop (i * n / bins)) ∧
        (n / bins ≤ (bin i).length ∧ (bin i).length ≤ n / bins + 1) ∧
        (i % 2 = 0 → Ascending len (bin i)) ∧ (i % 2 = 1 → Descending len (bin i)) := by
  rw [laplace_ok rng seed b n len bins hb (by omega)] at h
  injection h with h
  subst h
  have hlen : (rng.perm seed 0 n).length = n := by simpa using (rng.isPerm seed 0 n).length_eq
  refine ⟨laplacePart bins (rng.perm seed 0 n) len, by simp, rfl, ?_⟩
  intro i hi
  have hp := laplacePart_perm bins (rng.perm seed 0 n) len i
  rw [hlen] at hp
  refine ⟨hp, ?_, laplacePart_even _ _ _ _, laplacePart_odd _ _ _ _⟩
  rw [hp.length_eq]
  have h2 : (i + 1) * n / bins ≤ n := by
    calc (i + 1) * n / bins ≤ bins * n / bins := Nat.div_le_div_right (Nat.mul_le_mul_right _ hi)
      _ = n := Nat.mul_div_cancel_left _ hpos
  simp only [slice, List.length_drop, List.length_take, hlen]
  rw [Nat.min_eq_left h2, Nat.add_mul, Nat.one_mul]
  have h3 := Nat.div_add_mod (i * n) bins
  have h4 := Nat.div_add_mod n bins
  have h5 := Nat.mod_lt (i * n) hpos
  have h6 := Nat.mod_lt n hpos
  have h7 : (i * n + n) / bins = i * n / bins + n / bins + (i * n % bins + n % bins) / bins := by
    have : i * n + n
        = (i * n % bins + n % bins) + bins * (i * n / bins + n / bins) := by rw [Nat.mul_add]; omega
    rw [this, Nat.add_mul_div_left _ _ hpos]; omega
  have h8 : (i * n % bins + n % bins) / bins ≤ 1 := by
    have : (i * n % bins + n % bins) / bins < 2 := Nat.div_lt_of_lt_mul (by omega)
    omega
  rw [h7]
  generalize (i * n % bins + n % bins) / bins = d at *
  generalize i * n / bins = x at *
  generalize n / bins = y at *
  omega

/-- C04. `bins <= 0` is an error, as is the chunk size 0. -/
theorem laplace_fails (rng : Rng) (seed : Int) (n : Nat) (len : Nat → Int) (k : Int) (hk : k ≤ 0) :
    laplace rng seed (.count k) n len = .error .valueError ∧
    laplace rng seed (.approx 0) n len = .error .zeroDivision := by
  constructor
  · simp [laplace, numBins, bind, Except.bind, hk]
  · simp [laplace, numBins, bind, Except.bind]

example : laplace idRng 1 (.count 2) 5 (fun i => [3, 1, 4, 1, 5].getD i 0) = .ok ⟨[1, 0, 4, 2, 3], true⟩ := by decide

/-! ## C05: repeat_epoch, unique_seq_tags, seq_tags_filter -/

/-- C05. `repeat_epoch = r` yields the order of the same dataset without repetition, `r` times in a row. -/
theorem repeat_epoch_repeats {Tag : Type} [DecidableEq Tag] (c : Cfg Tag) (rng : Rng) (e : Int) (n : Nat)
    (len : Option (Nat → Int)) (o : Order) (hf : c.seqTagsFilter = none)
    (h : getSeqOrderForEpoch { c with repeatEpoch := none } rng (some e) n len = .ok o) :
    getSeqOrderForEpoch c rng (some e) n len
      = .ok ⟨(List.replicate (orOne c.repeatEpoch) o.idxs).flatten, o.isInt⟩ := by
  have hr := orOne_pos c.repeatEpoch
  generalize hc : ({ c with repeatEpoch := none } : Cfg Tag) = c' at h
  have hb : baseOrder c' rng e n len = baseOrder c rng e n len := by subst hc; rfl
  have hrep : ∀ l, repeatStage c l = (List.replicate (orOne c.repeatEpoch) l).flatten := by
    intro l; unfold repeatStage
    split
    · rfl
    · have : orOne c.repeatEpoch = 1 := by omega
      rw [this]; simp
  have hrep' : ∀ l, repeatStage c' l = l := by subst hc; exact fun l => rfl
  have hu : ∀ o, uniqueStage c' o = uniqueStage c o := by subst hc; exact fun l => rfl
  have hp : ∀ l, partitionStage c' e l = partitionStage c e l := by subst hc; exact fun l => rfl
  have hf' : c'.seqTagsFilter = none := by subst hc; exact hf
  unfold getSeqOrderForEpoch at h ⊢
  simp only [bind, Except.bind, hb] at h ⊢
  cases ha : pyAssert (decide (n > 0)) with
  | error x => simp [ha] at h
  | ok _ =>
    simp only [ha] at h ⊢
    cases hbo : baseOrder c rng e n len with
    | error x => simp [hbo] at h
    | ok b =>
      simp only [hbo] at h ⊢
      simp only [postprocess, bind, Except.bind, hu, hp, hrep, hrep', filterStage, hf, hf'] at h ⊢
      cases h1 : uniqueStage c b with
      | error x => simp [h1] at h
      | ok u =>
        simp only [h1] at h ⊢
        cases h2 : partitionStage c e u with
        | error x => simp [h2] at h
        | ok v => simp only [h2] at h ⊢; injection h with h; subst h; rfl

theorem map_eq_filterMap_some {Tag : Type} (tags : List Tag) (out : List Nat) (h : ∀ i ∈ out, i < tags.length) :
    out.map (fun i => tags[i]?) = (out.filterMap (fun i => tags[i]?)).map some := by
  induction out with
  | nil => rfl
  | cons a out ih =>
    have : tags[a]? = some (tags[a]'(h a (by simp))) := List.getElem?_eq_getElem _
    simp only [List.map_cons, List.filterMap_cons, this, ih (fun i hi => h i (by simp [hi]))]

theorem mem_slice {α : Type} {l : List α} {a b : Nat} {x : α} (h : x ∈ slice l a b) : x ∈ l :=
  List.mem_of_mem_take (List.mem_of_mem_drop h)

/-- C05. With `seq_tags_filter` (and matching tags list), the result consists of exactly those entries of the
unfiltered order whose tag is in the filter, in the same order; if that is empty, it fails. -/
theorem seq_tags_filter_filters {Tag : Type} [DecidableEq Tag] (c : Cfg Tag) (rng : Rng) (e : Int) (n : Nat)
    (len : Option (Nat → Int)) (flt : List Tag) (l : List Nat) (hn : c.allTags.length = n)
    (ht : n = c.totalNumSeqs) (hl : ∀ i ∈ l, i < n)
    (h : getSeqOrderForEpoch { c with seqTagsFilter := none } rng (some e) n len = .ok ⟨l, true⟩) :
    getSeqOrderForEpoch { c with seqTagsFilter := some flt } rng (some e) n len
      = let keep := l.filter (tagIn c.allTags flt)
        if keep = [] then .error .assertion else .ok ⟨keep, true⟩ := by
  have hb : ∀ x, baseOrder { c with seqTagsFilter := x } rng e n len = baseOrder c rng e n len := fun _ => rfl
  have hu : ∀ x o, uniqueStage { c with seqTagsFilter := x } o = uniqueStage c o := fun _ _ => rfl
  have hp : ∀ x l, partitionStage { c with seqTagsFilter := x } e l = partitionStage c e l := fun _ _ => rfl
  have hrp : ∀ x l, repeatStage { c with seqTagsFilter := x } l = repeatStage c l := fun _ _ => rfl
  unfold getSeqOrderForEpoch at h ⊢
  simp only [bind, Except.bind, hb] at h ⊢
  cases ha : pyAssert (decide (n > 0)) with
  | error x => simp [ha] at h
  | ok _ =>
    simp only [ha] at h ⊢
    cases hbo : baseOrder c rng e n len with
    | error x => simp [hbo] at h
    | ok b =>
      simp only [hbo] at h ⊢
      simp only [postprocess, bind, Except.bind, hu, hp, hrp, filterStage] at h ⊢
      cases h1 : uniqueStage c b with
      | error x => simp [h1] at h
      | ok u =>
        simp only [h1] at h ⊢
        cases h2 : partitionStage c e u with
        | error x => simp [h2] at h
        | ok v =>
          simp only [h2] at h ⊢
          injection h with h
          injection h with h3 h4
          rw [h3, h4]
          have hfs := filterTags_spec c.allTags flt l (fun i hi => by rw [hn]; exact hl i hi)
          simp only [hfs, if_true]
          by_cases hnil : l = []
          · subst hnil; simp [pyAssert]
          · by_cases hk : l.filter (tagIn c.allTags flt) = []
            · rw [if_pos hk]; rw [hk]; simp [pyAssert, hnil, ← ht, hn]
            · rw [if_neg hk]
              generalize l.filter (tagIn c.allTags flt) = k
                at *
              simp [pyAssert, hk, ← ht, hn, hnil]

/-- C05. `unique_seq_tags` keeps exactly the first sequence of every tag. -/
theorem unique_seq_tags_first {Tag : Type} [DecidableEq Tag] (c : Cfg Tag) (rng : Rng) (e : Int) (n : Nat)
    (len : Option (Nat → Int)) (l : List Nat) (hn : c.allTags.length = n) (hl : ∀ i ∈ l, i < n)
    (hu : c.uniqueSeqTags = true)
    (hP : orOne c.partitionEpoch = 1) (hS : c.numShards = 1) (hr : orOne c.repeatEpoch = 1)
    (hf : c.seqTagsFilter = none)
    (h : getSeqOrderForEpoch { c with uniqueSeqTags := false } rng (some e) n len = .ok ⟨l, true⟩) :
    ∃ out, getSeqOrderForEpoch c rng (some e) n len = .ok ⟨out, true⟩ ∧
      FirstOfEachTag (fun i => c.allTags[i]?) l out := by
  have hb : baseOrder { c with uniqueSeqTags := false } rng e n len = baseOrder c rng e n len := rfl
  unfold getSeqOrderForEpoch at h ⊢
  simp only [bind, Except.bind, hb] at h ⊢
  cases ha : pyAssert (decide (n > 0)) with
  | error x => simp [ha] at h
  | ok _ =>
    simp only [ha] at h ⊢
    cases hbo : baseOrder c rng e n len with
    | error x => simp [hbo] at h
    | ok b =>
      simp only [hbo] at h ⊢
      simp [postprocess, uniqueStage, partitionStage, repeatStage, filterStage, bind, Except.bind, hP, hS, hr, hf,
        hu] at h ⊢
      obtain ⟨hl1, hl2⟩ := h
      rw [hl1, hl2]
      obtain ⟨out, h1, h2, h3, _, h5⟩ := uniqueTags_spec c.allTags l [] (fun i hi => by rw [hn]; exact hl i hi)
      have hmem : ∀ i ∈ out, i < c.allTags.length := fun i hi => by rw [hn]; exact hl i (h2.subset hi)
      refine ⟨out, ?_, h2, ?_, ?_⟩
      · simp [h1]
      · rw [map_eq_filterMap_some c.allTags out hmem]
        exact h3.map (fun a b hab => by injection hab)
      · intro pre i post heq
        have hi : i < c.allTags.length := by rw [hn]; exact hl i (by rw [heq]; simp)
        rcases h5 pre i post _ heq (List.getElem?_eq_getElem hi) with h | h | h
        · exact Or.inl h
        · simp at h
        · obtain ⟨j, hj, hj2⟩ := h
          exact Or.inr ⟨j, hj, hj2.trans (List.getElem?_eq_getElem hi).symm⟩

/-- Example config. -/
def exCfg : Cfg Nat :=
  { ordering := .default, allTags := [7, 8, 7], totalNumSeqs := 3, repeatEpoch := some 2 }

example : getSeqOrderForEpoch { exCfg with ordering := .reverse, uniqueSeqTags := true, repeatEpoch := none }
    idRng (some 1) 3 none = .ok ⟨[2, 1], true⟩ := by decide
example : getSeqOrderForEpoch { exCfg with seqTagsFilter := some [7] }
    idRng (some 1) 3 none = .ok ⟨[0, 2, 0, 2], true⟩ := by decide

end Verif.SeqOrder
