import Verif.StereoPart.Model
/-
C142: partitions of the stereo dataset.
-/
namespace Verif.StereoPart
open Verif Verif.Py

theorem offset_eq (t p part : Nat) (h : part < p) : offset t p part = part * (t / p) := by
  induction part with
  | zero => simp [offset]
  | succ n ih =>
    have := ih (by omega)
    unfold offset at this ⊢
    rw [List.range_succ, List.map_append, List.sum_append, this]
    have hne : ¬ n + 1 = p := by omega
    simp only [List.map_cons, List.map_nil, List.sum_cons, List.sum_nil, partSize, seqsPerEpoch, if_neg hne]
    rw [Nat.add_mul]; omega

/-- The partitions follow each other, and together are all sequences: each begins where the one before ends, and the last one ends at the end. -/
theorem partitions_tile (t p : Nat) (hp : 0 < p) :
    offset t p 0 = 0 ∧ (∀ part, offset t p (part + 1) = offset t p part + partSize t p part) ∧ offset t p p = t := by
  have hsucc : ∀ part, offset t p (part + 1) = offset t p part + partSize t p part := by
    intro part
    unfold offset
    rw [List.range_succ, List.map_append, List.sum_append]; simp
  refine ⟨rfl, hsucc, ?_⟩
  obtain ⟨q, rfl⟩ : ∃ q, p = q + 1 := ⟨p - 1, by omega⟩
  rw [hsucc, offset_eq t (q + 1) q (by omega)]
  have hdm := Nat.div_add_mod t (q + 1)
  rw [Nat.add_mul] at hdm
  simp only [partSize, seqsPerEpoch, overhead, if_true]
  omega

/-- All partitions but the last one have the same size; the last one has the rest in addition. -/
theorem partition_sizes (t p part : Nat) (h : part < p) :
    (part + 1 < p → partSize t p part = t / p) ∧ (part + 1 = p → partSize t p part = t / p + t % p) := by
  unfold partSize seqsPerEpoch overhead
  exact ⟨fun h' => by rw [if_neg (by omega)]; rfl, fun h' => by rw [if_pos h']⟩

/-- The epochs go over the partitions in turn. -/
theorem epoch_partition (p k : Nat) (hp : 0 < p) (r : Nat) (hr : r < p) : curPart p (k * p + r + 1) = r := by
  unfold curPart
  have h1 : k * p + r + 1 - 1 = r + p * k := by rw [Nat.mul_comm]; omega
  rw [h1, Nat.add_mul_mod_self_left, Nat.mod_eq_of_lt hr]

/-- The number is that of the sequence at a position of the epoch: never an error, never the end before the end of the partition, and within the partition. -/
theorem collect_ok (files : List (List String)) (p epoch : Nat) (hp : 0 < p) (order : List Nat)
    (ho : order.Perm (List.range (partSize (total files) p (curPart p epoch)))) (i : Nat) :
    (∀ k, order[i]? = some k → ∃ x, collect files p epoch order i = .ok (some x) ∧
      (seqMap files)[offset (total files) p (curPart p epoch) + k]? = some x ∧ k < partSize (total files) p (curPart p epoch)) ∧
    (order[i]? = none → collect files p epoch order i = .ok none) := by
  constructor
  · intro k hk
    have hmem : k ∈ List.range (partSize (total files) p (curPart p epoch)) := ho.mem_iff.1 (List.mem_of_getElem? hk)
    have hlt := List.mem_range.1 hmem
    have hpart : curPart p epoch < p := Nat.mod_lt _ hp
    obtain ⟨_, hs, he⟩ := partitions_tile (total files) p hp
    have hmono : ∀ a n, offset (total files) p a ≤ offset (total files) p (a + n) := by
      intro a n
      induction n with
      | zero => exact Nat.le_refl _
      | succ n ih => have := hs (a + n); rw [← Nat.add_assoc]; omega
    have hle := hmono (curPart p epoch + 1) (p - (curPart p epoch + 1))
    have e : curPart p epoch + 1 + (p - (curPart p epoch + 1)) = p := by omega
    rw [e, he, hs] at hle
    have hin : offset (total files) p (curPart p epoch) + k < (seqMap files).length := by
      have : total files = (seqMap files).length := rfl
      omega
    obtain ⟨x, hx⟩ : ∃ x, (seqMap files)[offset (total files) p (curPart p epoch) + k]? = some x := ⟨_, List.getElem?_eq_getElem hin⟩
    refine ⟨x, ?_, hx, hlt⟩
    rw [Nat.add_comm] at hx
    simp only [collect, hk, lookup, hx]
  · intro h
    simp only [collect, h]

/-- What an epoch reads. -/
theorem epoch_count (files : List (List String)) (p epoch : Nat) (order : List Nat) : (readEpoch files p epoch order).length = total files / p := by
  simp [readEpoch, numSeqs, seqsPerEpoch]

/-- The rest is never read: in every epoch only `total / p` sequences, also in the last partition which has more. With less sequences than partitions nothing at all is
read. -/
theorem rest_dropped (files : List (List String)) (p epoch : Nat) (order : List Nat) :
    (∀ r, 0 < total files % p → r + 1 = p → curPart p epoch = r → (readEpoch files p epoch order).length < partSize (total files) p (curPart p epoch)) ∧
    (total files < p → readEpoch files p epoch order = []) := by
  constructor
  · intro r h hr hc
    rw [epoch_count, hc, (partition_sizes (total files) p r (by omega)).2 hr]
    omega
  · intro h
    simp [readEpoch, numSeqs, seqsPerEpoch, Nat.div_eq_of_lt h]

/-- If the number of sequences is a multiple of the partitions, an epoch reads exactly its partition, each sequence of it once. -/
theorem epoch_reads (files : List (List String)) (p epoch : Nat) (hp : 0 < p) (hdvd : total files % p = 0) (order : List Nat)
    (ho : order.Perm (List.range (partSize (total files) p (curPart p epoch)))) :
    (readEpoch files p epoch order).Perm
      ((((seqMap files).drop (curPart p epoch * (total files / p))).take (total files / p)).map fun x => .ok (some x)) := by
  have hpart : curPart p epoch < p := Nat.mod_lt _ hp
  have hsize : partSize (total files) p (curPart p epoch) = total files / p := by
    unfold partSize seqsPerEpoch overhead; rw [hdvd]; simp
  have hoff := offset_eq (total files) p (curPart p epoch) hpart
  have hlen : order.length = total files / p := by rw [ho.length_eq, hsize, List.length_range]
  have hbound : curPart p epoch * (total files / p) + total files / p ≤ total files := by
    have h1 : (curPart p epoch + 1) * (total files / p) ≤ p * (total files / p) := Nat.mul_le_mul_right _ hpart
    have h2 := Nat.mul_div_le (total files) p
    rw [Nat.add_mul] at h1
    omega
  -- by position in the partition
  let f : Nat → Res (Option (Nat × String)) := fun k => lookup files (k + offset (total files) p (curPart p epoch))
  have h1 : readEpoch files p epoch order = order.map f := by
    apply List.ext_getElem
    · simp [readEpoch, numSeqs, seqsPerEpoch, hlen]
    · intro i hi1 hi2
      simp only [List.length_map] at hi2
      simp only [readEpoch, List.getElem_map, List.getElem_range, collect, List.getElem?_eq_getElem hi2, f]
  have h2 : (List.range (total files / p)).map f =
      (((seqMap files).drop (curPart p epoch * (total files / p))).take (total files / p)).map fun x => .ok (some x) := by
    have ht : total files = (seqMap files).length := rfl
    apply List.ext_getElem
    · simp only [List.length_map, List.length_range, List.length_take, List.length_drop, ← ht]; omega
    · intro i hi1 hi2
      simp only [List.length_map, List.length_range] at hi1
      have hin : i + offset (total files) p (curPart p epoch) < (seqMap files).length := by rw [hoff, ← ht]; omega
      simp only [List.getElem_map, List.getElem_range, List.getElem_take, List.getElem_drop, f, lookup, List.getElem?_eq_getElem hin]
      congr 3
      rw [hoff]; omega
  rw [h1, ← h2, ← hsize]
  exact ho.map f

theorem seqMapFrom_length (files : List (List String)) (n : Nat) : (seqMapFrom n files).length = (files.map List.length).sum := by
  induction files generalizing n with
  | nil => rfl
  | cons f fs ih => simp [seqMapFrom, ih]

/-- The numbers of the sequences go through the files in order: there are as many as the files have together, and the sequence `j` of file `i` has the number of all
sequences in the files before plus `j`. -/
theorem sequence_numbers (files : List (List String)) :
    total files = (files.map List.length).sum ∧
    ∀ i f j name, files[i]? = some f → f[j]? = some name → lookup files (((files.take i).map List.length).sum + j) = .ok (some (i, name)) := by
  refine ⟨seqMapFrom_length files 0, ?_⟩
  have key : ∀ (files : List (List String)) (n i : Nat) (f : List String) (j : Nat) (name : String), files[i]? = some f → f[j]? = some name →
      (seqMapFrom n files)[((files.take i).map List.length).sum + j]? = some (n + i, name) := by
    intro files
    induction files with
    | nil => intro n i f j name h; cases h
    | cons g gs ih =>
      intro n i f j name hf hj
      cases i with
      | zero =>
        simp only [List.getElem?_cons_zero, Option.some.injEq] at hf
        subst hf
        have hlt : j < g.length := (List.getElem?_eq_some_iff.1 hj).1
        simp only [seqMapFrom, List.take_zero, List.map_nil, List.sum_nil, Nat.zero_add, Nat.add_zero]
        rw [List.getElem?_append_left (by simpa using hlt), List.getElem?_map, hj]; rfl
      | succ i =>
        simp only [List.getElem?_cons_succ] at hf
        have := ih (n + 1) i f j name hf hj
        simp only [seqMapFrom, List.take_succ_cons, List.map_cons, List.sum_cons]
        rw [List.getElem?_append_right (by simp; omega)]
        have e : g.length + ((gs.take i).map List.length).sum + j - (g.map fun k => (n, k)).length = ((gs.take i).map List.length).sum + j := by simp; omega
        rw [e, this]
        congr 2; omega
  intro i f j name hf hj
  have := key files 0 i f j name hf hj
  rw [Nat.zero_add] at this
  simp only [lookup, seqMap, this]

/-- A number from the order for which there is no sequence is an error and not the end of the epoch. -/
theorem no_such_sequence (files : List (List String)) (p epoch : Nat) (order : List Nat) (i k : Nat) (hk : order[i]? = some k) (h : total files ≤ k) :
    collect files p epoch order i = .error .keyError := by
  have : (seqMap files)[k + offset (total files) p (curPart p epoch)]? = none := List.getElem?_eq_none (by unfold total at h ⊢; omega)
  simp only [collect, hk, lookup, this]

def exFiles : List (List String) := [["0", "1", "10"], ["0", "1"]]
-- five sequences in two partitions: two and three, but only two are read of the three
example : partSize (total exFiles) 2 0 = 2 ∧ partSize (total exFiles) 2 1 = 3 := by decide +kernel
example : readEpoch exFiles 2 2 [0, 1, 2] = [.ok (some (0, "10")), .ok (some (1, "0"))] := by decide +kernel
example : readEpoch exFiles 5 2 [0] = [.ok (some (0, "1"))] ∧ readEpoch exFiles 6 6 [0, 1, 2, 3, 4] = [] := by decide +kernel

end Verif.StereoPart
