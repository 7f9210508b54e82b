import Verif.MultiProc.Model
import Verif.SeqWorker.Props
import Verif.SeqOrder.Props
/-
Property theorems C24 about MultiProcDataset.
-/
namespace Verif.MultiProc
open Verif.Py

theorem filterMap_prefix_getElem? {α : Type} (f : Nat → Option α) (hf : ∀ k, f k = none → f (k + 1) = none) :
    ∀ (n k : Nat), ((List.range n).filterMap f)[k]? = if k < n then f k else none := by
  have hf' : ∀ d k, f k = none → f (k + d) = none := by
    intro d
    induction d with
    | zero => intro k h; exact h
    | succ d ih => intro k h; exact hf _ (ih k h)
  intro n
  induction n with
  | zero => intro k; simp
  | succ n ih =>
    intro k
    rw [List.range_succ, List.filterMap_append]
    by_cases hn : f n = none
    · have : List.filterMap f [n] = [] := by simp [hn]
      rw [this, List.append_nil, ih k]
      by_cases hk : k < n
      · rw [if_pos hk, if_pos (by omega)]
      · rw [if_neg hk]
        split
        · have : k = n := by omega
          rw [this, hn]
        · rfl
    · obtain ⟨x, hx⟩ := Option.ne_none_iff_exists'.mp hn
      have hall : ∀ k, k < n → f k ≠ none := by
        intro k hk h
        have := hf' (n - k) k h
        rw [show k + (n - k) = n by omega] at this
        exact hn this
      have hlen : ((List.range n).filterMap f).length = n := by
        have : ∀ m, m ≤ n → ((List.range m).filterMap f).length = m := by
          intro m
          induction m with
          | zero => intro _; rfl
          | succ m ih2 =>
            intro hm
            obtain ⟨y, hy⟩ := Option.ne_none_iff_exists'.mp (hall m (by omega))
            rw [List.range_succ, List.filterMap_append, List.length_append, ih2 (by omega)]
            simp [hy]
        exact this n (Nat.le_refl _)
      by_cases hk : k < n
      · rw [List.getElem?_append_left (by omega), ih k, if_pos hk, if_pos (by omega)]
      · rw [List.getElem?_append_right (by omega), hlen]
        by_cases hk2 : k = n
        · subst hk2; simp [hx]
        · rw [if_neg (by omega), List.getElem?_eq_none]; simp [hx]; omega

theorem stride_getElem? {α : Type} (l : List α) (i W k : Nat) (hW : 0 < W) : (stride l i W)[k]? = l[i + k * W]? := by
  unfold stride
  rw [filterMap_prefix_getElem? (fun k => l[i + k * W]?)]
  · split
    · rfl
    · rename_i h
      symm; apply List.getElem?_eq_none
      have : k * 1 ≤ k * W := Nat.mul_le_mul_left _ hW
      omega
  · intro k h
    rw [List.getElem?_eq_none_iff] at h ⊢
    rw [Nat.add_mul]; omega

/-- How many of the indices `0 .. idx-1` go to worker `j`. -/
def sent (W idx j : Nat) : Nat := if j < idx % W then idx / W + 1 else idx / W

theorem divmod_of (W q r : Nat) (hr : r < W) : (W * q + r) / W = q ∧ (W * q + r) % W = r := by
  constructor
  · rw [Nat.mul_add_div (by omega), Nat.div_eq_of_lt hr]; omega
  · rw [Nat.mul_add_mod, Nat.mod_eq_of_lt hr]

theorem succ_divmod (W idx : Nat) (hW : 0 < W) :
    (idx % W + 1 = W ∧ (idx + 1) / W = idx / W + 1 ∧ (idx + 1) % W = 0) ∨
    (idx % W + 1 < W ∧ (idx + 1) / W = idx / W ∧ (idx + 1) % W = idx % W + 1) := by
  have hlt : idx % W < W := Nat.mod_lt _ hW
  have hdm := Nat.div_add_mod idx W
  by_cases h : idx % W + 1 = W
  · left
    have : idx + 1 = W * (idx / W + 1) + 0 := by rw [Nat.mul_add]; omega
    have h2 := divmod_of W (idx / W + 1) 0 hW
    rw [← this] at h2
    exact ⟨h, h2⟩
  · right
    have : idx + 1 = W * (idx / W) + (idx % W + 1) := by omega
    have h2 := divmod_of W (idx / W) (idx % W + 1) (by omega)
    rw [← this] at h2
    exact ⟨by omega, h2⟩

theorem sent_succ (W idx j : Nat) (hW : 0 < W) (hj : j < W) :
    sent W (idx + 1) j = if j = idx % W then sent W idx j + 1 else sent W idx j := by
  unfold sent
  rcases succ_divmod W idx hW with ⟨h1, h2, h3⟩ | ⟨h1, h2, h3⟩
  all_goals
    rw [h2, h3]
    generalize idx / W = q at *
    generalize idx % W = r at *
    (split <;> split <;> split) <;> omega

/-- Reading the seqs one by one gives `shard (idx % W)` at `idx / W`, whatever the prefetching does. -/
theorem collectAll_eq {α : Type} (shard : Nat → List α) (buffer W : Nat) (hb : 0 < buffer) (hW : 0 < W) :
    ∀ (pres : List (Nat → Nat)) (idx : Nat) (ws : Nat → SeqWorker.W α),
      (∀ j < W, SeqWorker.Inv (shard j) (sent W idx j - 1) (sent W idx j) (ws j)) →
      collectAll shard buffer W pres idx ws
        = .ok ((List.range' idx pres.length).map (fun k => (shard (k % W))[k / W]?)) := by
  intro pres
  induction pres with
  | nil => intro idx ws _; rfl
  | cons pre pres ih =>
    intro idx ws h
    have hj : idx % W < W := Nat.mod_lt _ hW
    have hs : sent W idx (idx % W) = idx / W := by simp [sent]
    have hI := SeqWorker.prefetch_inv (shard (idx % W)) buffer _ _ (pre (idx % W)) _ (h _ hj)
    obtain ⟨w', r1, r2, _⟩ := SeqWorker.request_ok (shard (idx % W)) buffer _ _ (idx / W) _ hI (by omega) (by omega)
    have hnext : ∀ j < W, SeqWorker.Inv (shard j) (sent W (idx + 1) j - 1) (sent W (idx + 1) j)
        (if j = idx % W then w' else SeqWorker.prefetch (shard j) buffer (pre j) (ws j)) := by
      intro j hjW
      rw [sent_succ W idx j hW hjW]
      by_cases he : j = idx % W
      · subst he
        simp only [if_true]
        rw [hs]; simpa using r2
      · simp only [he, if_false]
        exact SeqWorker.prefetch_inv (shard j) buffer _ _ (pre j) _ (h j hjW)
    have hr := ih (idx + 1) _ hnext
    simp only [collectAll, collect, bind, Except.bind, r1, hr, List.length_cons, List.range'_succ, List.map_cons]

theorem inv_start {α : Type} (shard : Nat → List α) (W : Nat) :
    ∀ j < W, SeqWorker.Inv (shard j) (sent W 0 j - 1) (sent W 0 j) ((fun _ => {}) j : SeqWorker.W α) := by
  intro j _
  have : sent W 0 j = 0 := by simp [sent]
  rw [this]
  exact SeqWorker.inv_init (shard j)

/-- C24, sharding method "seq_order": for every order of the wrapped dataset, every number of workers, buffer size and
prefetch schedule, the `i`-th seq read is the `i`-th seq of the wrapped dataset (`None` past the end), and `num_seqs`
is that of the wrapped dataset. -/
theorem seq_order_sharding_equiv_partial {α : Type} (order : List α) (buffer W : Nat) (hb : 0 < buffer) (hW : 0 < W)
    (pres : List (Nat → Nat)) :
    collectAll (seqOrderShard order W) buffer W pres 0 (fun _ => {})
      = .ok ((List.range pres.length).map (fun i => order[i]?)) ∧
    numSeqsSeqOrder order = order.length := by
  refine ⟨?_, rfl⟩
  rw [collectAll_eq _ buffer W hb hW pres 0 _ (inv_start _ W), ← List.range_eq_range']
  congr 1
  apply List.map_congr_left
  intro i _
  rw [seqOrderShard, stride_getElem? _ _ _ _ hW, Nat.mul_comm, Nat.mod_add_div]

example : stride [10, 11, 12, 13, 14] 1 2 = [11, 13] := by decide
example : collectAll (seqOrderShard [10, 11, 12, 13, 14] 2) 1 2 [fun _ => 1, fun _ => 0, fun _ => 3, fun _ => 0, fun _ => 0, fun _ => 0]
    0 (fun _ => {}) = .ok [some 10, some 11, some 12, some 13, some 14, none] := by decide

/-! ### Sharding method "dedicated" -/

theorem shard_index_perm (W q t : Nat) (hW : 0 < W) (ht : t ≤ W) :
    ((List.range (W * q + t)).map (fun i => (i % W, i / W))).Perm
      ((List.range W).flatMap (fun j => (List.range (if j < t then q + 1 else q)).map (fun k => (j, k)))) := by
  rw [List.perm_ext_iff_of_nodup]
  · rintro ⟨j, k⟩
    simp only [List.mem_map, List.mem_range, List.mem_flatMap, Prod.mk.injEq]
    constructor
    · rintro ⟨i, hi, rfl, rfl⟩
      have hlt : i % W < W := Nat.mod_lt _ hW
      have hdm := Nat.div_add_mod i W
      refine ⟨i % W, hlt, i / W, ?_, rfl, rfl⟩
      split
      · rename_i h
        by_contra hc
        have : W * (q + 1) ≤ W * (i / W) := Nat.mul_le_mul_left _ (by omega)
        rw [Nat.mul_add] at this
        omega
      · rename_i h
        by_contra hc
        have : W * q ≤ W * (i / W) := Nat.mul_le_mul_left _ (by omega)
        by_cases heq : i / W = q
        · rw [heq] at hdm; omega
        · have : W * (q + 1) ≤ W * (i / W) := Nat.mul_le_mul_left _ (by omega)
          rw [Nat.mul_add] at this
          omega
    · rintro ⟨j', hj, k', hk, rfl, rfl⟩
      have h2 := divmod_of W k' j' hj
      refine ⟨W * k' + j', ?_, h2.2, h2.1⟩
      split at hk
      · have : W * k' ≤ W * q := Nat.mul_le_mul_left _ (by omega)
        omega
      · have : W * (k' + 1) ≤ W * q := Nat.mul_le_mul_left _ (by omega)
        rw [Nat.mul_add] at this
        omega
  · refine List.Nodup.map_on ?_ List.nodup_range
    intro x _ y _ hxy
    injection hxy with h1 h2
    rw [← Nat.div_add_mod x W, ← Nat.div_add_mod y W, h1, h2]
  · rw [List.nodup_flatMap]
    refine ⟨fun j _ => List.Nodup.map (fun a b h => by injection h) List.nodup_range, ?_⟩
    refine List.Pairwise.imp ?_ (List.nodup_range (n := W))
    intro a b hab x hx hy
    simp only [List.mem_map] at hx hy
    obtain ⟨_, _, rfl⟩ := hx
    obtain ⟨_, _, h⟩ := hy
    injection h with h1 _
    exact hab h1.symm

theorem map_getElem?_range {α : Type} (l : List α) : (List.range l.length).map (fun k => l[k]?) = l.map some := by
  apply List.ext_getElem
  · simp
  · intro i h1 h2; simp at h1; simp [List.getElem?_eq_getElem h1]

theorem eq_map_some_of_perm {α : Type} (r : List (Option α)) (m : List α) (h : r.Perm (m.map some)) :
    ∃ l : List α, r = l.map some ∧ l.Perm m := by
  refine ⟨r.filterMap id, ?_, ?_⟩
  · have hall : ∀ x ∈ r, ∃ a, x = some a := by
      intro x hx
      have := h.mem_iff.mp hx
      simp only [List.mem_map] at this
      obtain ⟨a, _, rfl⟩ := this
      exact ⟨a, rfl⟩
    clear h
    induction r with
    | nil => rfl
    | cons x r ih =>
      obtain ⟨a, rfl⟩ := hall x (by simp)
      simp only [List.filterMap_cons, id, List.map_cons]
      exact congrArg (some a :: ·) (ih (fun y hy => hall y (by simp [hy])))
  · have := h.filterMap id
    rwa [List.filterMap_map, show (id ∘ some : α → Option α) = some from rfl, List.filterMap_some] at this

/-- If the shard sizes are `q+1` for the first `t` workers and `q` for the others, then reading as many seqs as the
shards have in total reads each seq of each shard exactly once. -/
theorem reads_cover {α : Type} (shard : Nat → List α) (W q t : Nat) (hW : 0 < W) (ht : t ≤ W)
    (hlen : ∀ j < W, (shard j).length = if j < t then q + 1 else q) :
    ((List.range (W * q + t)).map (fun i => (shard (i % W))[i / W]?)).Perm
      (((List.range W).flatMap shard).map some) := by
  have h := (shard_index_perm W q t hW ht).map (fun p : Nat × Nat => (shard p.1)[p.2]?)
  rw [List.map_map] at h
  refine h.trans (List.Perm.of_eq ?_)
  rw [List.map_flatMap, List.map_flatMap]
  apply Verif.ListLemmas.flatMap_congr'
  intro j hj
  rw [List.map_map, ← map_getElem?_range, hlen j (by simpa using hj)]
  rfl

theorem shard_sum (W q t : Nat) (ht : t ≤ W) :
    ((List.range W).map (fun j => if j < t then q + 1 else q)).sum = W * q + t := by
  induction W generalizing t with
  | zero => simp; omega
  | succ W ih =>
    rw [List.range_succ, List.map_append, List.sum_append]
    by_cases h : t = W + 1
    · subst h
      have : ((List.range W).map (fun j => if j < W + 1 then q + 1 else q))
          = (List.range W).map (fun j => if j < W then q + 1 else q) := by
        apply List.map_congr_left
        intro j hj; simp at hj; simp [hj, Nat.lt_succ_of_lt hj]
      rw [this, ih W (Nat.le_refl _)]
      simp [Nat.succ_mul]; omega
    · rw [ih t (by omega)]
      have : ¬ W < t := by omega
      simp [this, Nat.succ_mul]; omega

open SeqOrder in
/-- C24, sharding method "dedicated", without `repeat_epoch` and filters: every worker gets its shard; reading
`num_seqs` seqs (with any prefetching) never gives `None` and yields each seq of each shard exactly once. -/
theorem dedicated_sharding_covers {Tag : Type} [DecidableEq Tag] (c : Cfg Tag) (rng : Rng) (n f e : Nat)
    (len : Option (Nat → Int)) (W buffer : Nat) (hn : 0 < n) (hW : 0 < W) (hb : 0 < buffer)
    (he : e < orOne c.partitionEpoch) (hv : ValidOrdering c.ordering len)
    (hu : c.uniqueSeqTags = false) (hf : c.seqTagsFilter = none) (hr : c.repeatEpoch = none) :
    ∃ shard : Nat → List Nat,
      (∀ j < W, dedicatedShard c rng ((f * orOne c.partitionEpoch + e + 1 : Nat) : Int) n len W j = .ok (shard j)) ∧
      ∃ l : List Nat, l.Perm ((List.range W).flatMap shard) ∧
        ∀ pres : List (Nat → Nat), pres.length = numSeqsDedicated ((List.range W).map shard) →
          collectAll shard buffer W pres 0 (fun _ => {}) = .ok (l.map some) := by
  have hP := orOne_pos c.partitionEpoch
  obtain ⟨o, ho, hperm⟩ := baseOrder_perm c rng ((f * orOne c.partitionEpoch + e + 1 : Nat) : Int) n len hv
  generalize hPe : orOne c.partitionEpoch = P at *
  have hlen : o.idxs.length = n := by simpa using hperm.length_eq
  let shard : Nat → List Nat := fun s => slice o.idxs (off n (P * W) (e * W + s)) (off n (P * W) (e * W + s + 1))
  have hN : 0 < P * W := Nat.mul_pos hP hW
  have hkN : ∀ j < W, e * W + j + 1 ≤ P * W := by
    intro j hj
    calc e * W + j + 1 ≤ e * W + W := by omega
      _ = (e + 1) * W := by rw [Nat.add_mul]; omega
      _ ≤ P * W := Nat.mul_le_mul_right _ he
  have hsz : ∀ j < W, (shard j).length
      = if j < min W (n % (P * W) - e * W) then n / (P * W) + 1 else n / (P * W) := by
    intro j hj
    have h1 := off_le n (P * W) (e * W + j + 1) hN (hkN j hj)
    have h2 : (shard j).length = off n (P * W) (e * W + j + 1) - off n (P * W) (e * W + j) := by
      simp only [shard, slice, List.length_drop, List.length_take, hlen]
      rw [Nat.min_eq_left h1]
    rw [h2]
    unfold off
    rw [Nat.add_mul (e * W + j) 1]
    generalize (e * W + j) * (n / (P * W)) = a
    generalize n / (P * W) = b
    generalize n % (P * W) = r
    generalize e * W = x
    split <;> omega
  refine ⟨shard, ?_, ?_⟩
  · intro s hs
    have hb' : baseOrder { c with numShards := W, shardIndex := s } rng ((f * P + e + 1 : Nat) : Int) n len = .ok o := by
      rw [← ho]; rfl
    have hpp := postprocess_plain { c with numShards := W, shardIndex := s } ((f * P + e + 1 : Nat) : Int) n o
      (by omega) hs hu hf
    have hr1 : orOne c.repeatEpoch = 1 := by rw [hr]; rfl
    simp only [hPe, partIdx_full P f e W s he, hr1, hlen] at hpp
    unfold dedicatedShard getSeqOrderForEpoch
    simp only [pyAssert, hn, gt_iff_lt, decide_true, if_true, bind, Except.bind, hb', hpp]
    simp [shard]
  · have ht : min W (n % (P * W) - e * W) ≤ W := by omega
    have hnum : numSeqsDedicated ((List.range W).map shard) = W * (n / (P * W)) + min W (n % (P * W) - e * W) := by
      rw [← shard_sum W _ _ ht]
      unfold numSeqsDedicated
      rw [List.map_map]
      congr 1
      apply List.map_congr_left
      intro j hj
      exact hsz j (by simpa using hj)
    have hcov := reads_cover shard W (n / (P * W)) _ hW ht hsz
    obtain ⟨l, hl1, hl2⟩ := eq_map_some_of_perm _ _ hcov
    refine ⟨l, hl2, ?_⟩
    intro pres hpres
    rw [← hl1, ← hnum, ← hpres, collectAll_eq _ buffer W hb hW pres 0 _ (inv_start _ W), ← List.range_eq_range']

open SeqOrder in
/-- C24, sharding method "dedicated", without `repeat_epoch` and filters, over a full epoch: the seqs read in the
`partition_epoch` sub-epochs (`num_seqs` reads in each) are each seq of the corpus exactly once, for every prefetch
schedule. -/
theorem dedicated_full_epoch {Tag : Type} [DecidableEq Tag] (c : Cfg Tag) (rng : Rng) (n f : Nat)
    (len : Option (Nat → Int)) (W buffer : Nat) (hn : 0 < n) (hW : 0 < W) (hb : 0 < buffer)
    (hv : ValidOrdering c.ordering len)
    (hu : c.uniqueSeqTags = false) (hf : c.seqTagsFilter = none) (hr : c.repeatEpoch = none) :
    ∃ reads : Nat → List Nat,
      (∀ e < orOne c.partitionEpoch, ∃ shard : Nat → List Nat,
        (∀ j < W, dedicatedShard c rng ((f * orOne c.partitionEpoch + e + 1 : Nat) : Int) n len W j = .ok (shard j)) ∧
        ∀ pres : List (Nat → Nat), pres.length = numSeqsDedicated ((List.range W).map shard) →
          collectAll shard buffer W pres 0 (fun _ => {}) = .ok ((reads e).map some)) ∧
      ∀ i, ((List.range (orOne c.partitionEpoch)).flatMap reads).count i = if i < n then 1 else 0 := by
  obtain ⟨parts, h1, h2⟩ := full_epoch_coverage { c with numShards := W } rng n f len hn hW hv hu hf
  have hx : ∀ e, ∃ l : List Nat, e < orOne c.partitionEpoch →
      l.Perm ((List.range W).flatMap (fun s => (parts e s).idxs)) ∧ ∃ shard : Nat → List Nat,
        (∀ j < W, dedicatedShard c rng ((f * orOne c.partitionEpoch + e + 1 : Nat) : Int) n len W j = .ok (shard j)) ∧
        ∀ pres : List (Nat → Nat), pres.length = numSeqsDedicated ((List.range W).map shard) →
          collectAll shard buffer W pres 0 (fun _ => {}) = .ok (l.map some) := by
    intro e
    by_cases he : e < orOne c.partitionEpoch
    · obtain ⟨shard, hs, l, hl, hp⟩ := dedicated_sharding_covers c rng n f e len W buffer hn hW hb he hv hu hf hr
      refine ⟨l, fun _ => ⟨?_, shard, hs, hp⟩⟩
      refine hl.trans (List.Perm.of_eq ?_)
      apply Verif.ListLemmas.flatMap_congr'
      intro j hj
      have hj' : j < W := by simpa using hj
      have ha := hs j hj'
      have hb' := h1 e he j hj'
      unfold dedicatedShard at ha
      simp only [bind, Except.bind] at ha
      simp only at hb'
      rw [hb'] at ha
      injection ha with ha
      exact ha.symm
    · exact ⟨[], fun h => absurd h he⟩
  choose reads hreads using hx
  refine ⟨reads, fun e he => (hreads e he).2, ?_⟩
  intro i
  have hperm : ((List.range (orOne c.partitionEpoch)).flatMap reads).Perm
      ((List.range (orOne c.partitionEpoch)).flatMap (fun e => (List.range W).flatMap (fun s => (parts e s).idxs))) := by
    apply List.Perm.flatMap_left
    intro e he
    exact (hreads e (by simpa using he)).1
  rw [hperm.count_eq i, h2 i]
  simp [hr, orOne]

/-- Non-vacuity, and: the sub-epochs differ from those of the unsharded dataset (C24 asks for equality, which
therefore fails for "dedicated"): 6 seqs, `partition_epoch = 2`, 2 workers: sub-epoch 1 has 4 seqs with the workers
(2 per shard), 3 seqs without. -/
theorem dedicated_subepoch_differs :
    dedicatedShard ({ ordering := .default, partitionEpoch := some 2 } : SeqOrder.Cfg Nat) SeqOrder.idRng 1 6 none 2 0
      = .ok [0, 1] ∧
    dedicatedShard ({ ordering := .default, partitionEpoch := some 2 } : SeqOrder.Cfg Nat) SeqOrder.idRng 1 6 none 2 1
      = .ok [2, 3] ∧
    SeqOrder.getSeqOrderForEpoch ({ ordering := .default, partitionEpoch := some 2 } : SeqOrder.Cfg Nat)
      SeqOrder.idRng (some 1) 6 none = .ok ⟨[0, 1, 2], true⟩ := by decide

/-- Disagreement with C24: with `repeat_epoch = 2`, 3 seqs and 2 workers with dedicated sharding, `num_seqs` is 6 but
the 6th read gives `None` (the dataset then fails), and one visit of seq 1 never happens. -/
theorem dedicated_repeat_loses_seqs :
    let c : SeqOrder.Cfg Nat := { ordering := .default, repeatEpoch := some 2 }
    dedicatedShard c SeqOrder.idRng 1 3 none 2 0 = .ok [0, 1, 0, 1] ∧
    dedicatedShard c SeqOrder.idRng 1 3 none 2 1 = .ok [2, 2] ∧
    numSeqsDedicated [[0, 1, 0, 1], [2, 2]] = 6 ∧
    collectAll (fun j => if j = 0 then [0, 1, 0, 1] else [2, 2]) 1 2 (List.replicate 6 (fun _ => 0)) 0 (fun _ => {})
      = .ok [some 0, some 2, some 1, some 2, some 0, none] := by decide

end Verif.MultiProc
