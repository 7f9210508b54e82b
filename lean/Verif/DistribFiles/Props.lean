import Verif.DistribFiles.Lemmas
/-
Property theorems C06, C07 about DistributeFilesDataset.
-/
namespace Verif.DistribFiles
open Verif.Py

/-! ## C06 -/

/-- C06. For all files, sizes and size comparisons: with `1 <= num_bins <= n`, the distribution succeeds with
exactly `num_bins` non-empty bins whose concatenation is the list of files. -/
theorem distribute_covers {F Q : Type} (ar : Arith Q) (size : F → Int) (numBins : Nat) (files : List F)
    (h0 : 0 < numBins) (hn : numBins ≤ files.length) :
    ∃ bins, distribute ar size numBins files = .ok bins ∧ bins.length = numBins ∧ (∀ b ∈ bins, b ≠ []) ∧
      bins.flatten = files :=
  distribute_ok ar size numBins files h0 hn

/-- C06. Otherwise it raises: `ZeroDivisionError` for no bins, else `AssertionError`. -/
theorem distribute_fails {F Q : Type} (ar : Arith Q) (size : F → Int) (numBins : Nat) (files : List F)
    (h : ¬ (0 < numBins ∧ numBins ≤ files.length)) :
    distribute ar size numBins files = .error (if numBins = 0 then .zeroDivision else .assertion) := by
  by_cases h0 : numBins = 0
  · simp [distribute, h0]
  · have h1 : ¬ (numBins ≤ files.length) := by omega
    simp [distribute, h0, pyAssert, h1, bind, Except.bind]

example : distribute ratArith id 4 [1, 1, 78, 120] = .ok [[1], [1], [78], [120]] := by decide
-- the expectations of the test of the repo (tests/test_Dataset.py 923-932)
example : distribute ratArith id 3 [1, 10, 1, 1] = .ok [[1], [10], [1, 1]] := by decide
example : distribute ratArith id 5 [1, 1, 1, 56, 141] = .ok [[1], [1], [1], [56], [141]] := by decide
example : distribute ratArith id 4 [1, 1, 1, 56, 141] = .ok [[1, 1], [1], [56], [141]] := by decide
example : distribute ratArith id 5 [5, 5, 10, 10, 10, 10, 10, 10, 10]
    = .ok [[5, 5, 10], [10, 10], [10], [10], [10, 10]] := by decide
example : (distribute ratArith id 8 (List.replicate 29 1)).map (fun bs => bs.map List.length)
    = .ok [4, 4, 4, 3, 3, 3, 4, 4] := by decide +kernel

/-! ## C07 -/

theorem flatMap_getD {F : Type} (bins : List (List F)) :
    (List.range bins.length).flatMap (fun k => bins.getD k []) = bins.flatten := by
  have : (List.range bins.length).map (fun k => bins.getD k []) = bins := by
    apply List.ext_getElem
    · simp
    · intro i h1 h2; simp at h1; simp [List.getElem?_eq_getElem h1]
  rw [List.flatMap_def, this]

theorem full_of {F : Type} (d : Ds F) (f e : Nat) (he : e < d.P) :
    d.full (f * d.P + e + 1) = f ∧ (f * d.P + e + 1 - 1) % d.P = e := by
  have hP := P_pos d
  unfold Ds.full
  have : f * d.P + e + 1 - 1 = e + d.P * f := by rw [Nat.mul_comm]; omega
  rw [this, Nat.add_mul_div_left _ _ hP, Nat.div_eq_of_lt he, Nat.add_mul_mod_self_left, Nat.mod_eq_of_lt he]
  simp

/-- C07. In every full epoch `f` there is an assignment of non-empty file lists to the `P` sub-epochs and `S` shards
such that (1) whatever calls were made before, initialising sub-epoch `e` on shard `sh` serves exactly the assigned
files, and (2) over all shards and sub-epochs every file of the corpus occurs exactly once. -/
theorem files_covered_once {F Q : Type} (ar : Arith Q) (d : Ds F) (rng : SeqOrder.Rng) (f : Nat)
    (hS : 0 < d.numShards) (hn : d.numShards * d.P ≤ d.files.length) :
    ∃ assign : Nat → Nat → List F,
      (∀ sh < d.numShards, ∀ e < d.P, assign sh e ≠ [] ∧
        ∀ history : List Call, ∃ s s' pid,
          runCalls ar { d with shardIndex := sh } rng history {} = .ok s ∧
          initSeqOrder ar { d with shardIndex := sh } rng s (f * d.P + e + 1) = .ok s' ∧
          currentFiles s' = some { files := assign sh e, innerEpoch := f + 1, pid := pid }) ∧
      ((List.range d.numShards).flatMap (fun sh => (List.range d.P).flatMap (fun e => assign sh e))).Perm d.files := by
  have hP := P_pos d
  obtain ⟨bins, h1, h2, h3, h4⟩ := distribute_ok ar d.size (d.numShards * d.P) (filesOrder d rng f)
    (Nat.mul_pos hS hP) (by rw [(filesOrder_perm d rng f).length_eq]; exact hn)
  refine ⟨fun sh e => bins.getD (sh * d.P + e) [], ?_, ?_⟩
  · intro sh hsh e he
    have hlt : sh * d.P + e < bins.length := by
      rw [h2]
      calc sh * d.P + e < sh * d.P + d.P := by omega
        _ = (sh + 1) * d.P := by rw [Nat.add_mul]; omega
        _ ≤ d.numShards * d.P := Nat.mul_le_mul_right _ hsh
    have hget : bins.getD (sh * d.P + e) [] = bins[sh * d.P + e] := by
      simp [List.getElem?_eq_getElem hlt]
    refine ⟨?_, ?_⟩
    · show bins.getD (sh * d.P + e) [] ≠ []
      rw [hget]; exact h3 _ (List.getElem_mem hlt)
    · intro history
      obtain ⟨s, r1, r2⟩ := runCalls_ok ar { d with shardIndex := sh } rng hsh hn history {} ⟨by simp, by simp⟩
      obtain ⟨s', r3, r4, r5, w, r6⟩ := initSeqOrder_ok ar { d with shardIndex := sh } rng s (f * d.P + e + 1) hsh hn r2
      refine ⟨s, s', w.pid, r1, r3, ?_⟩
      obtain ⟨en, t1, t2, t3⟩ := r4.workers _ _ r6
      obtain ⟨bins', u1, u2, u3, u4, u5, u6⟩ := orderEntry_ok ar { d with shardIndex := sh } rng
        (Ds.full { d with shardIndex := sh } (f * d.P + e + 1)) hsh hn
      have hf := full_of { d with shardIndex := sh } f e he
      have hPd : Ds.P { d with shardIndex := sh } = d.P := rfl
      rw [hPd] at hf
      rw [hf.1] at t1 t3 u1 u5
      rw [t1] at u5
      injection u5 with u5
      have hbins : bins' = bins := by
        have : distribute ar d.size (d.numShards * d.P) (filesOrder d rng f) = .ok bins' := u1
        rw [h1] at this; injection this with this; exact this.symm
      rw [hPd, hf.2, u5, u6 e he, hbins] at t2
      have t2' : bins[sh * d.P + e]? = some w.files := by
        have : Ds.P { d with shardIndex := sh } * sh + e = sh * d.P + e := by rw [hPd, Nat.mul_comm]
        rw [← this]; exact t2
      rw [List.getElem?_eq_getElem hlt] at t2'
      injection t2' with t2'
      simp only [currentFiles, r5, r6, hget]
      rw [t2', ← t3]
  · rw [Verif.ListLemmas.flatMap_range_mul (fun k => bins.getD k []), ← h2, flatMap_getD, h4]
    exact filesOrder_perm d rng f

/-- An example dataset: 7 files, 3 sub-epochs, 2 shards. -/
def exDs : Ds Int where
  files := [5, 1, 4, 2, 3, 9, 7]
  size := id
  random := true
  seedCfg := { ordering := .default, partitionEpoch := some 3 }
  numShards := 2
  shardIndex := 1
  preload := 1

example : 0 < exDs.numShards ∧ exDs.numShards * exDs.P ≤ exDs.files.length := by decide
example : (match initSeqOrder ratArith exDs SeqOrder.idRng {} 2 with
    | .ok s => currentFiles s
    | .error _ => none) = some ⟨[9], 1, 0⟩ := by decide

/-- With fewer files than `P * S`, initialising any epoch fails, although the constructor only checks `P`. -/
theorem too_few_files_fails {F Q : Type} (ar : Arith Q) (d : Ds F) (rng : SeqOrder.Rng) (ep : Nat)
    (hS : 0 < d.numShards) (hn : d.files.length < d.numShards * d.P) :
    initSeqOrder ar d rng {} ep = .error .assertion := by
  have hP := P_pos d
  have h0 : ¬ (d.numShards * d.P = 0) := by omega
  have hd : distribute ar d.size (d.numShards * d.P) (filesOrder d rng (d.full ep)) = .error .assertion := by
    rw [distribute_fails ar d.size _ _ (by rw [(filesOrder_perm d rng _).length_eq]; omega), if_neg h0]
  simp [initSeqOrder, foldRes, fillOrder, orderEntry, hd, bind, Except.bind, List.range'_succ]

theorem fillWorker_keeps {F : Type} (d : Ds F) (orders : List (Nat × List (List F))) (e : Nat) (w : Worker F) :
    ∀ (l : List Nat) (ws ws' : List (Nat × Worker F) × Nat), foldRes (fillWorker d orders) l ws = .ok ws' →
      ws.1.lookup e = some w → ws'.1.lookup e = some w := by
  intro l
  induction l with
  | nil => intro ws ws' h hw; simp [foldRes] at h; subst h; exact hw
  | cons a l ih =>
    intro ws ws' h hw
    simp only [foldRes, bind, Except.bind] at h
    cases h1 : fillWorker d orders ws a with
    | error e => simp [h1] at h
    | ok s1 =>
      simp only [h1] at h
      refine ih s1 ws' h ?_
      unfold fillWorker at h1
      cases hl : ws.1.lookup a with
      | some e' => simp only [hl] at h1; injection h1 with h1; subst h1; exact hw
      | none =>
        simp only [hl, bind, Except.bind] at h1
        split at h1
        · simp at h1
        · split at h1
          · simp at h1
          · injection h1 with h1; subst h1; simp only; rw [lookup_append, hw]

/-- C42, refuted part for DistributeFilesDataset: `finish_epoch()` without `free_resources` does not stop the worker
of the epoch (the base class resets `self.epoch` before it is looked up), so initialising the same epoch again
continues with the same process, which cannot be rewound (`SeqWorker.worker_no_rewind`). -/
theorem reinit_same_epoch_reuses_worker {F Q : Type} (ar : Arith Q) (d : Ds F) (rng : SeqOrder.Rng) (e : Nat)
    (s : State F) (hs : d.shardIndex < d.numShards) (hn : d.numShards * d.P ≤ d.files.length)
    (history : List Call) (hrun : runCalls ar d rng history {} = .ok s) :
    ∃ s₁ s₂ w, initSeqOrder ar d rng s e = .ok s₁ ∧ currentFiles s₁ = some w ∧
      initSeqOrder ar d rng (finishEpoch s₁ false) e = .ok s₂ ∧ currentFiles s₂ = some w := by
  obtain ⟨s', r1, r2⟩ := runCalls_ok ar d rng hs hn history {} ⟨by simp, by simp⟩
  rw [hrun] at r1; injection r1 with r1; subst r1
  obtain ⟨s₁, h1, h2, h3, w, h4⟩ := initSeqOrder_ok ar d rng s e hs hn r2
  obtain ⟨s₂, h5, h6, h7, w', h8⟩ := initSeqOrder_ok ar d rng (finishEpoch s₁ false) e hs hn (finishEpoch_inv ar d rng s₁ false h2)
  refine ⟨s₁, s₂, w, h1, by simp [currentFiles, h3, h4], h5, ?_⟩
  simp only [currentFiles, h7]
  simp only [initSeqOrder, bind, Except.bind] at h5
  split at h5
  · simp at h5
  · split at h5
    · simp at h5
    · rename_i ws hws
      injection h5 with h5
      subst h5
      refine fillWorker_keeps d _ e w _ _ _ hws ?_
      simp only [finishEpoch]
      rw [lookup_filter (fun k => !decide (k < e))]
      simp [h4]

end Verif.DistribFiles
