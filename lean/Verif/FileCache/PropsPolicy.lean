import Verif.FileCache.Policy
import Verif.Util.ListLemmas
import Mathlib.Data.List.Basic
import Mathlib.Data.List.Induction
import Mathlib.Algebra.Order.Field.Rat
import Mathlib.Algebra.Order.Floor.Ring
import Mathlib.Data.Rat.Floor
import Mathlib.Tactic.Linarith
/-
C27 (retries), C28 (cleanup), C30 (usage counters), C47 (parent directories) of `FileCache`.
-/
namespace Verif.FileCache
open Verif Verif.Py Verif.ListLemmas

/-! Retries -/

theorem tryLoop_some (att : Nat → Attempt) (n i : Nat) (x : Nat) : tryLoop att n i (some x) ≠ .ok none := by
  induction n generalizing i x with
  | zero => simp [tryLoop]
  | succ n ih =>
    simp only [tryLoop]
    split
    · simp
    · exact ih _ _
    · simp

/-- C27, what holds: `get_file` returns iff its first attempt succeeds. Missing: it should also return if the first attempts fail because
the disk is full and a later one succeeds. -/
theorem getFile_partial (att : Nat → Attempt) (n : Nat) (hn : 0 < n) : getFile att n = .returned ↔ att 0 = .ok := by
  obtain ⟨n, rfl⟩ : ∃ m, n = m + 1 := ⟨n - 1, by omega⟩
  unfold getFile
  simp only [tryLoop]
  cases h : att 0 with
  | ok => simp
  | full id =>
    simp only [reduceCtorEq, iff_false]
    have := tryLoop_some att n (0 + 1) id
    split <;> simp_all
  | other id => simp

/-- C27, the errors: if all attempts fail because the disk is full, the last error is raised. -/
theorem getFile_all_full (att : Nat → Attempt) (n : Nat) (ids : Nat → Nat) (h : ∀ i ≤ n, att i = .full (ids i)) :
    getFile att (n + 1) = .raised (ids n) := by
  have gen : ∀ k i last, i + k = n → tryLoop att (k + 1) i last = .ok (some (ids n)) := by
    intro k
    induction k with
    | zero => intro i last hi; obtain rfl : i = n := by omega
              simp [tryLoop, h i (Nat.le_refl _)]
    | succ k ih =>
      intro i last hi
      rw [tryLoop, h i (by omega)]
      exact ih (i + 1) _ (by omega)
  unfold getFile
  rw [gen n 0 none (by omega)]

/-- C27, the errors: the first error of another kind is raised at once. -/
theorem getFile_other (att : Nat → Attempt) (n k id : Nat) (hk : k < n) (h : ∀ i < k, ∃ id, att i = .full id) (ho : att k = .other id) :
    getFile att n = .raised id := by
  have gen : ∀ j i last, i + j = k → ∀ m, j < m → tryLoop att m i last = .error id := by
    intro j
    induction j with
    | zero =>
      intro i last hi m hm
      obtain ⟨m, rfl⟩ : ∃ m', m = m' + 1 := ⟨m - 1, by omega⟩
      have : i = k := by omega
      subst this
      simp [tryLoop, ho]
    | succ j ih =>
      intro i last hi m hm
      obtain ⟨m, rfl⟩ : ∃ m', m = m' + 1 := ⟨m - 1, by omega⟩
      obtain ⟨e, he⟩ := h i (by omega)
      rw [tryLoop, he]
      exact ih (i + 1) _ (by omega) m (by omega)
  unfold getFile
  rw [gen k 0 none (by omega) n hk]

/-- C27 fails: if the first attempt fails because the disk is full, `get_file` raises, also if the second one succeeds: it raises the
error of the first. -/
theorem getFile_retry_useless (att : Nat → Attempt) (n id : Nat) (h0 : att 0 = .full id) (h1 : att 1 = .ok) (hn : 1 < n) :
    getFile att n = .raised id := by
  obtain ⟨n, rfl⟩ : ∃ m, n = m + 2 := ⟨n - 2, by omega⟩
  simp [getFile, tryLoop, h0, h1]

example : getFile (fun i => if i = 0 then .full 7 else .ok) 3 = .raised 7 := by decide

/-! Cleanup -/

/-- The space which is freed by the deletion of the files. -/
def freed (rmOk : File → Bool) (fs : List File) : Int := (fs.map (fun f => if rmOk f then (f.size : Int) else 0)).sum

theorem freed_append (rmOk : File → Bool) (a b : List File) : freed rmOk (a ++ b) = freed rmOk a + freed rmOk b := by
  simp [freed]

structure LoopSpec (cfg : Cfg) (now need want : Int) (rmOk : File → Bool) (fs : List File) (att : List File) (free : Int) (o : Out)
    (new rest : List File) : Prop where
  split : fs = new ++ rest
  attempted : o.attempted = att ++ new
  freeEq : o.free = free + freed rmOk new
  reason : ∀ pre f post, new = pre ++ f :: post → now - f.mtime > cfg.always ∨
    (need > free + freed rmOk pre ∧ now - f.mtime > cfg.used) ∨
    (need ≤ free + freed rmOk pre ∧ want > free + freed rmOk pre ∧ now - f.mtime > cfg.wanted)
  raised : o.raised = decide (need > o.free)
  young : ∀ g ∈ rest, now - g.mtime ≤ cfg.always
  stop : rest = [] ∨ (need > o.free ∧ ∀ g ∈ rest, now - g.mtime ≤ cfg.used) ∨
    (need ≤ o.free ∧ want > o.free ∧ ∀ g ∈ rest, now - g.mtime ≤ cfg.wanted) ∨ want ≤ o.free

theorem loop_spec (cfg : Cfg) (now need want : Int) (hnw : need ≤ want) (rmOk : File → Bool) (fs : List File) :
    ∀ (reached : Bool) (att : List File) (free : Int), fs.Pairwise (fun a b => a.mtime ≤ b.mtime) →
      (reached = true → ∀ g ∈ fs, now - g.mtime ≤ cfg.always) →
      ∃ new rest, LoopSpec cfg now need want rmOk fs att free (cleanupLoop cfg now need want rmOk fs reached att free) new rest := by
  induction fs with
  | nil =>
    intro reached att free _ _
    refine ⟨[], [], rfl, ?_, ?_, ?_, ?_, by simp, Or.inl rfl⟩ <;> simp [cleanupLoop, finish, freed]
  | cons f fs ih =>
    intro reached att free hs hr
    rw [List.pairwise_cons] at hs
    have hlater : ∀ (t : Int), now - f.mtime ≤ t → ∀ g ∈ f :: fs, now - g.mtime ≤ t := by
      intro t ht g hg
      rcases List.mem_cons.mp hg with rfl | hg
      · exact ht
      · have := hs.1 g hg; omega
    rw [cleanupLoop]
    simp only
    have nil_case : ∀ o : Out, o.attempted = att → o.free = free → o.raised = decide (need > free) → now - f.mtime ≤ cfg.always →
        ((need > free ∧ now - f.mtime ≤ cfg.used) ∨ (need ≤ free ∧ want > free ∧ now - f.mtime ≤ cfg.wanted) ∨ want ≤ free) →
        ∃ new rest, LoopSpec cfg now need want rmOk (f :: fs) att free o new rest := by
      intro o h1 h2 h3 h4 h5
      refine ⟨[], f :: fs, rfl, by simp [h1], by simp [h2, freed], by simp, by rw [h3, h2], hlater _ h4, Or.inr ?_⟩
      rw [h2]
      rcases h5 with ⟨a, b⟩ | ⟨a, b, c⟩ | a
      · exact Or.inl ⟨a, hlater _ b⟩
      · exact Or.inr (Or.inl ⟨a, b, hlater _ c⟩)
      · exact Or.inr (Or.inr a)
    by_cases hold : now - f.mtime > cfg.always
    · -- always deleted
      have hreached : reached = false := by
        cases hb : reached
        · rfl
        · have := hr hb f (List.mem_cons_self ..); omega
      simp only [hold, decide_true, Bool.not_true, Bool.false_and, Bool.false_eq_true, if_false, hreached, Bool.or_false, Bool.true_or,
        Bool.true_and, if_true]
      obtain ⟨new, rest, h⟩ := ih false (att ++ [f]) (if rmOk f then free + f.size else free) hs.2 (by simp)
      have hf : (if rmOk f then free + (f.size : Int) else free) = free + freed rmOk [f] := by
        unfold freed; simp only [List.map_cons, List.map_nil, List.sum_cons, List.sum_nil]; split <;> omega
      refine ⟨f :: new, rest, by simp [h.split], by rw [h.attempted]; simp, ?_, ?_, h.raised, h.young, h.stop⟩
      · rw [h.freeEq, hf, show f :: new = [f] ++ new from rfl, freed_append]; omega
      · intro pre g post he
        cases pre with
        | nil =>
          simp only [List.nil_append, List.cons.injEq] at he
          left; rw [← he.1]; exact hold
        | cons p pre =>
          simp only [List.cons_append, List.cons.injEq] at he
          have := h.reason pre g post he.2
          rw [hf] at this
          rw [← he.1, show f :: pre = [f] ++ pre from rfl, freed_append, ← Int.add_assoc]
          exact this
    · have hold' : now - f.mtime ≤ cfg.always := by omega
      simp only [hold, decide_false, Bool.not_false, Bool.true_and, Bool.or_true, Bool.false_or]
      -- deleting `f` for space
      have del : ((need > free ∧ now - f.mtime > cfg.used) ∨ (need ≤ free ∧ want > free ∧ now - f.mtime > cfg.wanted)) →
          ∃ new rest, LoopSpec cfg now need want rmOk (f :: fs) att free
            (if decide (want ≤ if rmOk f then free + (f.size : Int) else free) = true then
              finish need (if rmOk f then free + (f.size : Int) else free) (att ++ [f])
            else cleanupLoop cfg now need want rmOk fs true (att ++ [f]) (if rmOk f then free + (f.size : Int) else free)) new rest := by
        intro hreason
        have hf : (if rmOk f then free + (f.size : Int) else free) = free + freed rmOk [f] := by
          unfold freed; simp only [List.map_cons, List.map_nil, List.sum_cons, List.sum_nil]; split <;> omega
        rw [hf]
        by_cases hw : want ≤ free + freed rmOk [f]
        · simp only [hw, decide_true, if_true]
          refine ⟨[f], fs, rfl, rfl, rfl, ?_, rfl, fun g hg => hlater _ hold' g (List.mem_cons_of_mem _ hg), Or.inr (Or.inr (Or.inr hw))⟩
          intro pre g post he
          cases pre with
          | nil =>
            simp only [List.nil_append, List.cons.injEq] at he
            right
            rw [← he.1]
            simpa [freed] using hreason
          | cons p pre => simp at he
        · simp only [hw, decide_false, Bool.false_eq_true, if_false]
          obtain ⟨new, rest, h⟩ := ih true (att ++ [f]) (free + freed rmOk [f]) hs.2 (fun _ g hg => hlater _ hold' g (List.mem_cons_of_mem _ hg))
          refine ⟨f :: new, rest, by simp [h.split], by rw [h.attempted]; simp, ?_, ?_, h.raised, h.young, h.stop⟩
          · rw [h.freeEq, show f :: new = [f] ++ new from rfl, freed_append]; omega
          · intro pre g post he
            cases pre with
            | nil =>
              simp only [List.nil_append, List.cons.injEq] at he
              right; rw [← he.1]
              simpa [freed] using hreason
            | cons p pre =>
              simp only [List.cons_append, List.cons.injEq] at he
              have := h.reason pre g post he.2
              rw [← he.1, show f :: pre = [f] ++ pre from rfl, freed_append, ← Int.add_assoc]
              exact this
      by_cases hneed : need > free
      · simp only [hneed, decide_true, Bool.true_and, Bool.not_true, Bool.false_and, Bool.false_eq_true, if_false, Bool.true_or, if_true]
        by_cases hu : now - f.mtime > cfg.used
        · simp only [hu, decide_true, Bool.not_true, Bool.false_eq_true, if_false]
          exact del (Or.inl ⟨hneed, hu⟩)
        · simp only [hu, decide_false, Bool.not_false, if_true]
          exact nil_case _ rfl rfl (by simp [hneed]) hold' (Or.inl ⟨hneed, by omega⟩)
      · simp only [hneed, decide_false, Bool.false_and, Bool.false_eq_true, if_false, Bool.not_false, Bool.true_and, Bool.false_or]
        by_cases hw : want > free
        · simp only [hw, decide_true, Bool.true_and, if_true]
          by_cases hwa : now - f.mtime > cfg.wanted
          · simp only [hwa, decide_true, Bool.not_true, Bool.false_eq_true, if_false]
            exact del (Or.inr ⟨by omega, hw, hwa⟩)
          · simp only [hwa, decide_false, Bool.not_false, if_true]
            exact nil_case _ rfl rfl (by simp [finish]) hold' (Or.inr (Or.inl ⟨by omega, hw, by omega⟩))
        · have hw' : want ≤ free := by omega
          simp only [hw, decide_false, Bool.false_and, Bool.false_eq_true, if_false, hw', decide_true, if_true]
          exact nil_case _ rfl rfl (by simp [finish]) hold' (Or.inr (Or.inr hw'))

theorem fileLe_total (a b : File) : (fileLe a b || fileLe b a) = true := by
  simp only [fileLe, Bool.or_eq_true, decide_eq_true_eq]; omega

theorem fileLe_trans (a b c : File) (h1 : fileLe a b = true) (h2 : fileLe b c = true) : fileLe a c = true := by
  simp only [fileLe, decide_eq_true_eq] at *; omega

theorem sorted_mtime (files : List File) : (stableSort fileLe files).Pairwise (fun a b => a.mtime ≤ b.mtime) := by
  refine (stableSort_pairwise fileLe_trans fileLe_total files).imp ?_
  intro a b h
  simp only [fileLe, decide_eq_true_eq] at h
  omega

/-- C28. What a full cleanup (not enough free space, or no full cleanup recently) does, for any cache directory, free space and failing
removals. `files` is sorted to `new ++ rest`. It tries to delete `new` in this order. -/
theorem cleanup_spec (cfg : Cfg) (recent now : Int) (last : Option Int) (need want : Int) (hnw : need ≤ want) (rmOk : File → Bool)
    (files : List File) (free : Int)
    (hfull : want > free ∨ ∀ t, last = some t → now - t ≥ recent) :
    let o := cleanup cfg recent now last need want rmOk files free
    ∃ new rest, List.Perm files (new ++ rest) ∧ (new ++ rest).Pairwise (fun a b => a.mtime ≤ b.mtime) ∧ o.attempted = new ∧
      o.free = free + freed rmOk new ∧
      -- it fails iff there is not enough space
      (o.raised = true ↔ o.free < need) ∧
      -- too old files are always deleted
      (∀ g ∈ files, now - g.mtime > cfg.always → g ∈ new) ∧
      -- other files only as long as space is needed or wanted
      (∀ pre f post, new = pre ++ f :: post → now - f.mtime ≤ cfg.always →
        (free + freed rmOk pre < need ∧ now - f.mtime > cfg.used) ∨ (free + freed rmOk pre < want ∧ now - f.mtime > cfg.wanted)) ∧
      -- if it fails, all that may be deleted was tried
      (o.free < need → ∀ g ∈ rest, now - g.mtime ≤ cfg.used) ∧
      -- if there is less space than wanted, all that may be deleted for that was tried
      (o.free < want → ∀ g ∈ rest, now - g.mtime ≤ max cfg.used cfg.wanted) := by
  intro o
  have ho : o = cleanupLoop cfg now need want rmOk (stableSort fileLe files) false [] free := by
    simp only [o, cleanup]
    rw [if_neg]
    rcases hfull with h | h
    · simp only [Bool.and_eq_true, decide_eq_true_eq, not_and]
      intro h'; omega
    · simp only [Bool.and_eq_true, not_and]
      intro _
      cases last with
      | none => simp
      | some t => have := h t rfl; simp; omega
  rw [ho]
  obtain ⟨new, rest, h⟩ := loop_spec cfg now need want hnw rmOk (stableSort fileLe files) false [] free (sorted_mtime files) (by simp)
  have hperm : List.Perm files (new ++ rest) := by rw [← h.split]; exact (stableSort_perm files fileLe).symm
  refine ⟨new, rest, hperm, by rw [← h.split]; exact sorted_mtime files, by rw [h.attempted]; rfl, h.freeEq, by rw [h.raised]; simp, ?_, ?_, ?_, ?_⟩
  · intro g hg hold
    rcases List.mem_append.mp (hperm.mem_iff.mp hg) with h' | h'
    · exact h'
    · have := h.young g h'; omega
  · intro pre f post he hle
    rcases h.reason pre f post he with h1 | h1 | h1
    · omega
    · exact Or.inl h1
    · exact Or.inr h1.2
  · intro hlt g hg
    rcases h.stop with h1 | h1 | h1 | h1
    · rw [h1] at hg; exact absurd hg (by simp)
    · exact h1.2 g hg
    · omega
    · omega
  · intro hlt g hg
    rcases h.stop with h1 | h1 | h1 | h1
    · rw [h1] at hg; exact absurd hg (by simp)
    · have := h1.2 g hg; omega
    · have := h1.2.2 g hg; omega
    · omega

/-- C28. A file which was used within the safety window is never deleted, if the other age limits are not smaller than it. -/
theorem cleanup_keeps_used (cfg : Cfg) (recent now : Int) (last : Option Int) (need want : Int) (hnw : need ≤ want) (rmOk : File → Bool)
    (files : List File) (free : Int) (h1 : cfg.used ≤ cfg.always) (h2 : cfg.used ≤ cfg.wanted) (f : File)
    (hf : f ∈ (cleanup cfg recent now last need want rmOk files free).attempted) : now - f.mtime > cfg.used := by
  by_cases hfull : want > free ∨ ∀ t, last = some t → now - t ≥ recent
  · obtain ⟨new, rest, _, _, h3, _, _, _, h6, _⟩ := cleanup_spec cfg recent now last need want hnw rmOk files free hfull
    rw [h3] at hf
    obtain ⟨pre, post, he⟩ := List.append_of_mem hf
    by_cases hold : now - f.mtime ≤ cfg.always
    · rcases h6 pre f post he hold with h | h <;> omega
    · omega
  · push Not at hfull
    obtain ⟨hw, t, ht, hlt⟩ := hfull
    simp [cleanup, hw, ht, hlt] at hf

/-- C28. With enough space and a recent full cleanup nothing is done. -/
theorem cleanup_skip (cfg : Cfg) (recent now t : Int) (need want : Int) (rmOk : File → Bool) (files : List File) (free : Int)
    (hw : want ≤ free) (ht : now - t < recent) : cleanup cfg recent now (some t) need want rmOk files free = ⟨false, [], free⟩ := by
  simp [cleanup, hw, ht]

/-- The wanted space is at least the needed space, as the multiplier is at least 1 (checked at 80). -/
theorem need_le_want (multiplier ratio : Rat) (need total : Nat) (h : 1 ≤ multiplier) : (need : Int) ≤ wantFree multiplier ratio need total := by
  unfold wantFree
  refine le_trans ?_ (le_max_left _ _)
  rw [show (multiplier * (need : Rat)).floor = ⌊multiplier * (need : Rat)⌋ from rfl, Int.le_floor]
  have : (0 : Rat) ≤ need := by exact_mod_cast Nat.zero_le need
  push_cast
  nlinarith

example : cleanup ⟨100, 50, 10⟩ 5 1000 none 30 40 (fun _ => true) [⟨995, 7, 1⟩, ⟨800, 5, 2⟩, ⟨940, 8, 3⟩, ⟨960, 9, 4⟩, ⟨980, 9, 5⟩] 10 =
    ⟨false, [⟨800, 5, 2⟩, ⟨940, 8, 3⟩, ⟨960, 9, 4⟩], 32⟩ := by decide +kernel

example : (cleanup ⟨100, 50, 10⟩ 5 1000 none 50 50 (fun _ => true) [⟨995, 7, 1⟩, ⟨800, 5, 2⟩] 10).raised = true := by decide +kernel

/-! Usage counters -/

/-- The number of users of the file `f` after some calls, as long as nobody removes more than was added. -/
def uses {κ : Type} [DecidableEq κ] (f : κ) : List (TouchOp κ) → Int
  | [] => 0
  | .extend fs :: ops => fs.count f + uses f ops
  | .remove fs :: ops => -fs.count f + uses f ops

theorem fileAdd_get {κ : Type} [DecidableEq κ] (files : Dict κ Int) (f g : κ) :
    ((fileAdd files f).get? g).getD 0 = (files.get? g).getD 0 + if f = g then 1 else 0 := by
  unfold fileAdd
  rw [Dict.get?_set]
  by_cases h : f = g
  · subst h; simp
  · simp [h]

/-- The invariant of the counters. -/
def CInv {κ : Type} [DecidableEq κ] (files : Dict κ Int) : Prop := files.Wf ∧ ∀ k v, files.get? k = some v → 0 < v

theorem fileAdd_inv {κ : Type} [DecidableEq κ] (files : Dict κ Int) (f : κ) (h : CInv files) : CInv (fileAdd files f) := by
  refine ⟨Dict.wf_set h.1 _ _, ?_⟩
  intro k v hk
  unfold fileAdd at hk
  rw [Dict.get?_set] at hk
  split at hk
  · simp only [Option.some.injEq] at hk
    cases hg : files.get? f with
    | none => rw [hg] at hk; simp at hk; omega
    | some w => rw [hg] at hk; have := h.2 f w hg; simp at hk; omega
  · exact h.2 k v hk

theorem fileRemove_inv {κ : Type} [DecidableEq κ] (files : Dict κ Int) (f : κ) (h : CInv files) : CInv (fileRemove files f) := by
  unfold fileRemove
  simp only
  have hself : ((files.set f ((files.get? f).getD 0 - 1)).get? f) = some ((files.get? f).getD 0 - 1) := by rw [Dict.get?_set]; simp
  have hw : (files.set f ((files.get? f).getD 0 - 1)).Wf := Dict.wf_set h.1 _ _
  split
  · refine ⟨Dict.wf_erase hw _, ?_⟩
    intro k v hk
    rw [Dict.get?_erase hw] at hk
    split at hk
    · simp at hk
    · rename_i hne
      rw [Dict.get?_set, if_neg hne] at hk
      exact h.2 k v hk
  · rename_i hpos
    refine ⟨hw, ?_⟩
    intro k v hk
    rw [Dict.get?_set] at hk
    split at hk
    · simp only [Option.some.injEq] at hk
      rw [hself] at hpos
      simp at hpos; omega
    · exact h.2 k v hk

theorem fileRemove_get {κ : Type} [DecidableEq κ] (files : Dict κ Int) (f g : κ) (h : CInv files) :
    ((fileRemove files f).get? g).getD 0 = if f = g then max 0 ((files.get? g).getD 0 - 1) else (files.get? g).getD 0 := by
  unfold fileRemove
  simp only
  have hself : ((files.set f ((files.get? f).getD 0 - 1)).get? f) = some ((files.get? f).getD 0 - 1) := by rw [Dict.get?_set]; simp
  have hw : (files.set f ((files.get? f).getD 0 - 1)).Wf := Dict.wf_set h.1 _ _
  by_cases hfg : f = g
  · subst hfg
    rw [if_pos rfl]
    split
    · rename_i hle
      rw [hself] at hle
      rw [Dict.get?_erase hw]
      simp at hle ⊢; omega
    · rename_i hle
      rw [hself] at hle ⊢
      simp at hle ⊢; omega
  · rw [if_neg hfg]
    split
    · rw [Dict.get?_erase hw, if_neg hfg, Dict.get?_set, if_neg hfg]
    · rw [Dict.get?_set, if_neg hfg]

/-- The counter of a file: adding is exact, and removing stops at 0. -/
def counter {κ : Type} [DecidableEq κ] (f : κ) : Int → List (TouchOp κ) → Int
  | c, [] => c
  | c, .extend fs :: ops => counter f (c + fs.count f) ops
  | c, .remove fs :: ops => counter f (max 0 (c - fs.count f)) ops

theorem foldl_add {κ : Type} [DecidableEq κ] (fs : List κ) (f : κ) : ∀ files : Dict κ Int, CInv files →
    CInv (fs.foldl fileAdd files) ∧ ((fs.foldl fileAdd files).get? f).getD 0 = (files.get? f).getD 0 + fs.count f := by
  induction fs with
  | nil => intro files h; exact ⟨h, by simp⟩
  | cons g fs ih =>
    intro files h
    obtain ⟨h1, h2⟩ := ih _ (fileAdd_inv files g h)
    refine ⟨h1, ?_⟩
    rw [List.foldl_cons, h2, fileAdd_get, List.count_cons]
    by_cases hg : g = f
    · simp [hg]; omega
    · simp [hg]

theorem foldl_remove {κ : Type} [DecidableEq κ] (fs : List κ) (f : κ) : ∀ files : Dict κ Int, CInv files →
    CInv (fs.foldl fileRemove files) ∧ ((fs.foldl fileRemove files).get? f).getD 0 = max 0 ((files.get? f).getD 0 - fs.count f) := by
  induction fs with
  | nil =>
    intro files h
    refine ⟨h, ?_⟩
    cases hg : files.get? f with
    | none => simp [hg]
    | some v => have := h.2 f v hg; simp [hg]; omega
  | cons g fs ih =>
    intro files h
    obtain ⟨h1, h2⟩ := ih _ (fileRemove_inv files g h)
    refine ⟨h1, ?_⟩
    rw [List.foldl_cons, h2, fileRemove_get files g f h, List.count_cons]
    by_cases hg : g = f
    · simp [hg]; omega
    · simp [hg]

theorem touchRun_counter {κ : Type} [DecidableEq κ] (f : κ) (ops : List (TouchOp κ)) : ∀ files : Dict κ Int, CInv files →
    CInv (ops.foldl touchStep files) ∧ ((ops.foldl touchStep files).get? f).getD 0 = counter f ((files.get? f).getD 0) ops := by
  induction ops with
  | nil => intro files h; exact ⟨h, rfl⟩
  | cons o ops ih =>
    intro files h
    cases o with
    | extend fs =>
      obtain ⟨h1, h2⟩ := foldl_add fs f files h
      obtain ⟨h3, h4⟩ := ih _ h1
      exact ⟨h3, by rw [List.foldl_cons]; simp only [touchStep, counter]; rw [h4, h2]⟩
    | remove fs =>
      obtain ⟨h1, h2⟩ := foldl_remove fs f files h
      obtain ⟨h3, h4⟩ := ih _ h1
      exact ⟨h3, by rw [List.foldl_cons]; simp only [touchStep, counter]; rw [h4, h2]⟩

theorem counter_exact {κ : Type} [DecidableEq κ] (f : κ) (ops : List (TouchOp κ)) (c : Int)
    (h : ∀ p, p <+: ops → 0 ≤ c + uses f p) : counter f c ops = c + uses f ops := by
  induction ops generalizing c with
  | nil => simp [counter, uses]
  | cons o ops ih =>
    cases o with
    | extend fs =>
      simp only [counter, uses]
      rw [ih]
      · omega
      · intro p hp
        have := h (.extend fs :: p) (by simpa using hp)
        simp only [uses] at this; omega
    | remove fs =>
      have h1 := h [.remove fs] (by simp)
      simp only [uses] at h1
      simp only [counter, uses]
      rw [Int.max_eq_right (by omega), ih]
      · omega
      · intro p hp
        have := h (.remove fs :: p) (by simpa using hp)
        simp only [uses] at this; omega

/-- C30. After any history in which no file is removed more often than it was added, exactly the files which were added more often than
removed are kept alive, and the others are forgotten. -/
theorem touch_exact {κ : Type} [DecidableEq κ] (ops : List (TouchOp κ)) (f : κ) (h : ∀ p, p <+: ops → 0 ≤ uses f p) :
    f ∈ (touchRun ops).keys ↔ 0 < uses f ops := by
  obtain ⟨hI, hc⟩ := touchRun_counter f ops ([] : Dict κ Int) ⟨by simp [Dict.Wf, Dict.keys], by simp [Dict.get?]⟩
  have h0 : (Dict.get? ([] : Dict κ Int) f).getD 0 = 0 := rfl
  rw [h0, counter_exact f ops 0 (by simpa using h)] at hc
  unfold touchRun
  rw [← Dict.get?_isSome]
  cases hg : (ops.foldl touchStep ([] : Dict κ Int)).get? f with
  | none => rw [hg] at hc; simp at hc; simp; omega
  | some v => rw [hg] at hc; have := hI.2 f v hg; simp at hc; simp; omega

/-- A removal without an add is not remembered: the next add counts. -/
theorem touch_underflow {κ : Type} [DecidableEq κ] (f : κ) : touchRun [.remove [f], .extend [f]] = [(f, 1)] := by
  simp [touchRun, touchStep, fileAdd, fileRemove, Dict.get?, Dict.set, Dict.erase]

example : (touchRun [.extend ["a", "b"], .extend ["a"], .remove ["a", "b"], .extend ["c"]]).keys = ["a", "c"] := by decide +kernel

/-! Parent directories -/

/-- A path below `base`. -/
def below (base : Path) (comps : List Path) : Path := base ++ (comps.map (fun c => '/' :: c)).flatten

/-- A name of a file or directory. -/
def IsName (c : Path) : Prop := c ≠ [] ∧ '/' ∉ c

theorem below_snoc (base : Path) (comps : List Path) (c : Path) : below base (comps ++ [c]) = below base comps ++ '/' :: c := by
  simp [below]

theorem dropWhile_of_none {α : Type} (p : α → Bool) (l m : List α) (x : α) (hl : ∀ y ∈ l, p y = true) (hx : p x = false) :
    (l ++ x :: m).dropWhile p = x :: m := by
  induction l with
  | nil => simp [hx]
  | cons y ys ih =>
    rw [List.cons_append, List.dropWhile_cons, if_pos (hl y (List.mem_cons_self ..))]
    exact ih (fun z hz => hl z (List.mem_cons_of_mem _ hz))

theorem dirname_below (q c : Path) (hc : '/' ∉ c) (hq : q ≠ []) (hlast : q.getLast hq ≠ '/') : dirname (q ++ '/' :: c) = q := by
  have hup : upToSlash (q ++ '/' :: c) = q ++ ['/'] := by
    unfold upToSlash
    have hr : (q ++ '/' :: c).reverse = c.reverse ++ '/' :: q.reverse := by simp
    rw [hr, dropWhile_of_none]
    · simp
    · intro y hy
      simp only [List.mem_reverse] at hy
      simp only [decide_eq_true_eq]
      rintro rfl
      exact hc hy
    · simp
  obtain ⟨init, z, rfl⟩ : ∃ init z, q = init ++ [z] := ⟨q.dropLast, q.getLast hq, (List.dropLast_append_getLast hq).symm⟩
  have hz : z ≠ '/' := by simpa using hlast
  unfold dirname
  simp only [hup]
  rw [if_pos]
  · unfold rstripSlash
    have hr : (init ++ [z] ++ ['/']).reverse = '/' :: z :: init.reverse := by simp
    rw [hr]
    simp [hz]
  · refine ⟨by simp, ?_⟩
    intro he
    have : z ∈ List.replicate (init ++ [z] ++ ['/']).length '/' := by
      rw [← he]; simp
    rw [List.mem_replicate] at this
    exact hz this.2

theorem below_last (base : Path) (comps : List Path) (hb : ∃ i z, base = i ++ [z] ∧ z ≠ '/') (hn : ∀ c ∈ comps, IsName c) :
    ∃ i z, below base comps = i ++ [z] ∧ z ≠ '/' := by
  rcases List.eq_nil_or_concat comps with rfl | ⟨cs, c, rfl⟩
  · simpa [below] using hb
  · rw [List.concat_eq_append] at *
    have hc := hn c (by simp)
    rcases List.eq_nil_or_concat c with rfl | ⟨i, z, rfl⟩
    · exact absurd rfl hc.1
    · rw [List.concat_eq_append] at *
      refine ⟨below base cs ++ '/' :: i, z, by rw [below_snoc]; simp, ?_⟩
      rintro rfl
      exact hc.2 (by simp)

theorem below_ne_base (base : Path) (comps : List Path) (h : comps ≠ []) : below base comps ≠ base := by
  intro he
  have := congrArg List.length he
  cases comps with
  | nil => exact h rfl
  | cons c cs => simp [below] at this

/-- The directories from `below base comps` up, but not `base`. -/
def dirsUp (base : Path) : List Path → List Path
  | comps => (List.range comps.length).reverse.map (fun n => below base (comps.take (n + 1)))

theorem parentLoop_spec (base : Path) (hb : ∃ i z, base = i ++ [z] ∧ z ≠ '/') (comps : List Path) :
    ∀ (c : Path) (acc : List Path) (fuel : Nat), (∀ x ∈ comps, IsName x) → IsName c → comps.length < fuel →
      parentLoop base fuel (below base (comps ++ [c])) acc = some (acc ++ dirsUp base comps) := by
  induction comps using List.reverseRecOn with
  | nil =>
    intro c acc fuel _ hc hf
    obtain ⟨fuel, rfl⟩ : ∃ n, fuel = n + 1 := ⟨fuel - 1, by simp at hf; omega⟩
    obtain ⟨i, z, rfl, hz⟩ := hb
    rw [parentLoop, below_snoc, dirname_below _ c hc.2 (by simp [below]) (by simp [below, hz])]
    simp [below, dirsUp]
  | append_singleton cs x ih =>
    intro c acc fuel hn hc hf
    obtain ⟨fuel, rfl⟩ : ∃ n, fuel = n + 1 := ⟨fuel - 1, by simp at hf; omega⟩
    obtain ⟨i, z, hbl, hz⟩ := below_last base (cs ++ [x]) hb hn
    have hd : dirname (below base (cs ++ [x] ++ [c])) = below base (cs ++ [x]) := by
      rw [below_snoc base (cs ++ [x]) c]
      refine dirname_below _ c hc.2 (by rw [hbl]; simp) ?_
      simp only [hbl, List.getLast_append_singleton]
      exact hz
    rw [parentLoop]
    simp only [hd, below_ne_base base (cs ++ [x]) (by simp), if_false]
    rw [ih x _ fuel (fun y hy => hn y (by simp [hy])) (hn x (by simp)) (by simp at hf; omega)]
    simp only [List.append_assoc, List.cons_append, List.nil_append]
    congr 1
    simp only [dirsUp, List.length_append, List.length_cons, List.length_nil, Nat.zero_add, List.range_succ, List.reverse_append,
      List.reverse_cons, List.reverse_nil, List.nil_append, List.map_cons, List.cons_append]
    congr 2
    · rw [List.take_of_length_le (by simp)]
    · apply List.map_congr_left
      intro n hnm
      simp only [List.mem_reverse, List.mem_range] at hnm
      rw [List.take_append_of_le_length (by omega)]

/-- C47. For a file below the base directory (whose name has no slash at the end) the loop ends and gives exactly the directories
between. -/
theorem parent_dirs_spec_partial (base : Path) (hb : ∃ i z, base = i ++ [z] ∧ z ≠ '/') (comps : List Path) (c : Path)
    (hn : ∀ x ∈ comps, IsName x) (hc : IsName c) (fuel : Nat) (hf : comps.length < fuel) :
    allParentDirs base fuel (below base (comps ++ [c])) = .ok (some (dirsUp base comps)) := by
  unfold allParentDirs
  rw [if_pos, parentLoop_spec base hb comps c [] fuel hn hc hf]
  · rfl
  · rw [List.isPrefixOf_iff_prefix]
    cases comps with
    | nil => exact ⟨c, by simp [below]⟩
    | cons x xs => exact ⟨x ++ (List.map (fun c => '/' :: c) (xs ++ [c])).flatten, by simp [below]⟩

theorem rstrip_last (p : Path) : ∀ q, rstripSlash p ≠ q ++ ['/'] := by
  intro q he
  unfold rstripSlash at he
  have h := congrArg List.reverse he
  simp only [List.reverse_reverse, List.reverse_append, List.reverse_cons, List.reverse_nil, List.nil_append, List.cons_append] at h
  have := List.head?_dropWhile_not (fun c => decide (c = '/')) p.reverse
  rw [h] at this
  simp at this

/-- C47 fails if the cache directory is given with a slash at the end (as in `cache_directory="/tmp/cache/"`): the loop in the thread never
ends. -/
theorem parent_dirs_diverge (b : Path) (hb : ∃ c ∈ b, c ≠ '/') (fuel : Nat) (p : Path) (acc : List Path) :
    parentLoop (b ++ ['/']) fuel p acc = none := by
  induction fuel generalizing p acc with
  | zero => rfl
  | succ fuel ih =>
    rw [parentLoop]
    have hne : dirname p ≠ b ++ ['/'] := by
      unfold dirname
      simp only
      split
      · exact rstrip_last _ b
      · rename_i hcond
        intro he
        rw [he] at hcond
        have hcond' : ¬ (b ++ ['/'] ≠ List.replicate (b ++ ['/']).length '/') := fun hx => hcond ⟨by simp, hx⟩
        rw [not_not] at hcond'
        obtain ⟨c, hc, hcs⟩ := hb
        have hm : c ∈ List.replicate (b ++ ['/']).length '/' := by rw [← hcond']; simp [hc]
        rw [List.mem_replicate] at hm
        exact hcs hm.2
    simp only [hne, if_false]
    exact ih _ _

/-- C47 fails for the directory of a file directly in the root: `files_added_context(dst_dir)` adds the base directory itself (352), and the
thread dies of the assertion. -/
theorem parent_dirs_base (base : Path) (fuel : Nat) : allParentDirs base fuel base = .error .assertion := by
  unfold allParentDirs
  rw [if_neg]
  rw [List.isPrefixOf_iff_prefix]
  intro h
  have := h.length_le
  simp at this

example : allParentDirs "/c".toList 9 "/c/a/b/f".toList = .ok (some ["/c/a/b".toList, "/c/a".toList]) := by decide +kernel

end Verif.FileCache
