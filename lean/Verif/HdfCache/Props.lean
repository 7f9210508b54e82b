import Verif.HdfCache.Inv
import Mathlib.Tactic.Common
/-
C113, C114: the sequence cache of `HDFDataset`.
-/
namespace Verif.HdfCache
open Verif.Py

variable {F T : Type}

/-! ## Runs on concrete data -/

/-- The first `n` actions of a thread. -/
def runN (c : Cfg F T) : Nat → St F T → List Act → Res (St F T × List Act)
  | 0, st, r => .ok (st, r)
  | _ + 1, st, [] => .ok (st, [])
  | n + 1, st, a :: r =>
    match exec c st a with
    | .error e => .error e
    | .ok (st', more) => runN c n st' (more ++ r)

theorem runN_run (c : Cfg F T) (al : List Nat → Prop) (j : Bool) : ∀ (n : Nat) (s : Sys F T) (t1 t2 : List (List Act)) (th r : List Act) (st' : St F T),
    s.threads = t1 ++ th :: t2 → runN c n s.st th = .ok (st', r) → Run c al j s { s with st := st', threads := t1 ++ r :: t2 }
  | 0, s, t1, t2, th, r, st', ht, h => by
    simp only [runN, Except.ok.injEq, Prod.mk.injEq] at h
    obtain ⟨rfl, rfl⟩ := h
    rw [← ht]
    exact .refl
  | n + 1, s, t1, t2, [], r, st', ht, h => by
    simp only [runN, Except.ok.injEq, Prod.mk.injEq] at h
    obtain ⟨rfl, rfl⟩ := h
    rw [← ht]
    exact .refl
  | n + 1, s, t1, t2, a :: q, r, st', ht, h => by
    rw [runN] at h
    split at h
    · cases h
    · rename_i st'' more hx
      exact Relation.ReflTransGen.head (.act ht hx)
        (runN_run c al j n { s with st := st'', threads := t1 ++ (more ++ q) :: t2 } t1 t2 (more ++ q) r st' rfl h)

/-- What the reader and the threads do one after the other. -/
inductive Cmd where
  | epoch (si : List Nat)
  | load (a b : Nat)
  | go (t n : Nat)
  | ret

/-- One command. -/
def interp1 (c : Cfg F T) (j : Bool) (s : Sys F T) : Cmd → Option (Sys F T)
  | .epoch si =>
    if j && !(s.threads.all (fun t => t.isEmpty)) then none
    else
      match s.main, initSeqOrder c s.st si with
      | .idle, .ok (st', th, _) => some { st := st', threads := s.threads ++ th.toList, main := .idle, win := none, order := si }
      | _, _ => none
  | .load a b =>
    if (j && !(s.threads.all (fun t => t.isEmpty))) || !(decide (b ≤ s.order.length)) then none
    else
      match s.main, loadSeqs c s.st a b with
      | .idle, .ok (st', none) => some { s with st := st', win := some (a, b) }
      | .idle, .ok (st', some th) => some { s with st := st', threads := s.threads ++ [th], main := .waiting a b, win := none }
      | _, _ => none
  | .go t n =>
    match s.threads[t]? with
    | none => none
    | some th =>
      match runN c n s.st th with
      | .ok (st', r) => some { s with st := st', threads := s.threads.take t ++ r :: s.threads.drop (t + 1) }
      | .error _ => none
  | .ret =>
    match s.main with
    | .idle => none
    | .waiting a b =>
      match waitCached s.st a b with
      | some _ => some { s with main := .idle, win := some (a, b) }
      | none => none

/-- All commands. -/
def interp (c : Cfg F T) (j : Bool) : List Cmd → Sys F T → Option (Sys F T)
  | [], s => some s
  | x :: r, s => (interp1 c j s x).bind (interp c j r)

theorem quiet_of {j : Bool} {s : Sys F T} (h : ¬((j && !(s.threads.all (fun t => t.isEmpty))) = true)) : j = true → s.quiet := by
  intro hj t ht
  subst hj
  simp only [Bool.true_and, Bool.not_eq_true', Bool.not_eq_false] at h
  have := List.all_eq_true.1 h t ht
  simpa using this

theorem interp_run (c : Cfg F T) (al : List Nat → Prop) (j : Bool) : ∀ (l : List Cmd) (s s' : Sys F T),
    (∀ si, Cmd.epoch si ∈ l → al si) → interp c j l s = some s' → Run c al j s s'
  | [], s, s', _, h => by
    simp only [interp, Option.some.injEq] at h
    subst h
    exact .refl
  | x :: r, s, s', ha, h => by
    rw [interp] at h
    obtain ⟨s1, h1, h2⟩ := Option.bind_eq_some_iff.1 h
    refine Relation.ReflTransGen.trans ?_ (interp_run c al j r s1 s' (fun si hsi => ha si (by simp [hsi])) h2)
    cases x with
    | epoch si =>
      rw [interp1] at h1
      split at h1
      · cases h1
      · rename_i hq
        split at h1
        · rename_i hm hx
          cases h1
          exact .single (.epoch hm (quiet_of hq) (ha si (by simp)) hx)
        · cases h1
    | load a b =>
      rw [interp1] at h1
      split at h1
      · cases h1
      · rename_i hq
        simp only [Bool.or_eq_true, not_or] at hq
        have hb : b ≤ s.order.length := by simpa using hq.2
        split at h1
        · rename_i hm hx
          cases h1
          exact .single (.loadCached hm (quiet_of hq.1) hb hx)
        · rename_i hm hx
          cases h1
          exact .single (.load hm (quiet_of hq.1) hb hx)
        · cases h1
    | go t n =>
      rw [interp1] at h1
      split at h1
      · cases h1
      · rename_i th hth
        split at h1
        · rename_i st' q hx
          cases h1
          obtain ⟨hlt, he⟩ := List.getElem?_eq_some_iff.1 hth
          refine runN_run c al j n s _ _ th q st' ?_ hx
          rw [← he, ← List.drop_eq_getElem_cons hlt, List.take_append_drop]
        · cases h1
    | ret =>
      rw [interp1] at h1
      split at h1
      · cases h1
      · rename_i hm
        split at h1
        · rename_i hw
          cases h1
          exact .single (.ret hm hw)
        · cases h1

theorem exists_run {c : Cfg F T} {al : List Nat → Prop} {j : Bool} {P : Sys F T → Prop} (l : List Cmd)
    (ha : ∀ si, Cmd.epoch si ∈ l → al si) {s : Sys F T} (h : interp c j l (start c) = some s) (hp : P s) :
    ∃ s, Run c al j (start c) s ∧ P s := ⟨s, interp_run c al j l _ _ ha h, hp⟩

/-- A corpus of four sequences in two files. -/
def exCfg (limit free : Nat) : Cfg Nat Nat where
  corpus := [⟨[1, 2], [11]⟩, ⟨[3, 4], [12]⟩, ⟨[5, 6], [13]⟩, ⟨[7, 8], [14]⟩]
  fileOf := fun i => if i < 2 then 0 else 1
  numFiles := 2
  limitAtStart := limit
  nbytes := 1
  framesFree := free
  z := 0
  t0 := 99

theorem exFiles (l f : Nat) : FilesOk (exCfg l f) := by
  intro i _
  simp only [exCfg]
  split <;> decide

theorem exBase (l f : Nat) : BaseOk (exCfg l f) [2, 0, 3, 1] := by
  refine ⟨by simp, by decide, ?_⟩
  simp [exCfg]

/-! ## C113 -/

/-- The reader gets the data of the epoch: whenever the last `load_seqs(x, y)` has returned, `get_data` for a sequence in this range gives
exactly the input and the target stored for the sequence which the order of the epoch names at this position. This holds for every number of
epochs, every permutation in each of them, every sequence of `load_seqs` calls, all cache limits, and every interleaving with the loading
thread, which may still be running when the reader gets its data.
Partial: the reader starts a new epoch or a new `load_seqs` only when no loading thread is running, and all epochs have the same sequences.
What happens otherwise: `race_wrong_data`, `other_seqs_keyError`, `short_epoch_fails`. -/
theorem cache_correct_partial {c : Cfg F T} {base : List Nat} (hb : BaseOk c base) (hf : FilesOk c) {s : Sys F T}
    (hr : Run c (fun si => si.Perm base) true (start c) s) {x y i : Nat} (hw : s.win = some (x, y)) (h1 : x ≤ i) (h2 : i < y) :
    ∃ r item, s.order[i]? = some r ∧ c.corpus[r]? = some item ∧
      getInputData c s.st i = .ok item.inp ∧ getTargets c s.st i = .ok item.tgt := by
  rcases inv_run hb hf hr with ⟨_, _, _, _, h⟩ | ⟨a, b, th, hok, _, _, h⟩
  · have := h x y hw
    omega
  · obtain ⟨h3, h4⟩ := h x y hw
    exact read_ok hb hok (by omega) (h4 i h1 h2)

/-- No loading thread ends by an exception.
Partial: as for `cache_correct_partial`. -/
theorem thread_no_error_partial {c : Cfg F T} {base : List Nat} (hb : BaseOk c base) (hf : FilesOk c) {s : Sys F T}
    (hr : Run c (fun si => si.Perm base) true (start c) s) {t1 t2 : List (List Act)} {a : Act} {r : List Act}
    (ht : s.threads = t1 ++ (a :: r) :: t2) : ∃ res, exec c s.st a = .ok res := by
  rcases inv_run hb hf hr with ⟨_, h, _⟩ | ⟨p, q, th, hok, hsh, _, _⟩
  · rw [h] at ht
    simp at ht
  · obtain ⟨rfl, _, _⟩ := shape_split hsh ht
    obtain ⟨st', more, he, _⟩ := exec_ok hb hf hok
    exact ⟨_, he⟩

/-- `load_seqs` and `init_seq_order` start without an exception.
Partial: as for `cache_correct_partial`. -/
theorem calls_no_error_partial {c : Cfg F T} {base : List Nat} (hb : BaseOk c base) (hf : FilesOk c) {s : Sys F T}
    (hr : Run c (fun si => si.Perm base) true (start c) s) (hq : ∀ t ∈ s.threads, t = []) :
    (∀ x y, x ≤ y → y ≤ s.order.length → ∃ res, loadSeqs c s.st x y = .ok res) ∧
    (∀ si : List Nat, si.Perm base → ∃ res, initSeqOrder c s.st si = .ok res) := by
  rcases inv_run hb hf hr with ⟨h0, _, _, ho, _⟩ | ⟨p, q, th, hok, hsh, _, _⟩
  · constructor
    · intro x y h1 h2
      rw [ho] at h2
      have hy : y = 0 := by simpa using h2
      have hx : x = 0 := by omega
      subst hy hx
      exact ⟨_, by simp [loadSeqs, pyAssert, isCached, bind, Except.bind]; rfl⟩
    · intro si hsi
      obtain ⟨_, _, _, he, _⟩ := initSeqOrder_ok (order := []) (a := 0) (b := 0) hb hsi (.inl h0)
      exact ⟨_, he⟩
  · have := shape_quiet hsh hq
    subst this
    constructor
    · intro x y h1 h2
      rcases loadSeqs_ok hb hok h1 (by rw [← olen hok]; exact h2) with ⟨_, he⟩ | ⟨_, _, he, _⟩
      · exact ⟨_, he⟩
      · exact ⟨_, he⟩
    · intro si hsi
      obtain ⟨_, _, _, he, _⟩ := initSeqOrder_ok hb hsi (.inr hok)
      exact ⟨_, he⟩

/-- The reader waits only while a loading thread has something left to do, and then `is_cached(..., blocking=True)` tells that all is there.
Partial: as for `cache_correct_partial`. -/
theorem wait_ends_partial {c : Cfg F T} {base : List Nat} (hb : BaseOk c base) (hf : FilesOk c) {s : Sys F T}
    (hr : Run c (fun si => si.Perm base) true (start c) s) {x y : Nat} (hm : s.main = .waiting x y) :
    waitCached s.st x y = some true ∨
      (waitCached s.st x y = none ∧ ∃ t1 a r t2, s.threads = t1 ++ (a :: r) :: t2) := by
  rcases inv_run hb hf hr with ⟨_, _, h, _⟩ | ⟨p, q, th, hok, hsh, h, _⟩
  · rw [h] at hm
    cases hm
  · obtain ⟨h1, h2, _, h4, _⟩ := h x y hm
    rcases wait_ok hok h1 h2 h4 with ⟨h, _⟩ | ⟨h, hne⟩
    · exact .inl h
    · refine .inr ⟨h, ?_⟩
      rcases hsh with ⟨h', _⟩ | ⟨t1, t2, he, _, _⟩
      · exact absurd h' hne
      · cases th with
        | nil => exact absurd rfl hne
        | cons a r => exact ⟨t1, a, r, t2, he⟩

/-- How many actions may follow from an action. -/
def work : Act → Nat
  | .check a b => 3 * (b - a) + 3
  | .insert a b => 3 * (b - a) + 2
  | _ => 1

theorem loadOrder_length (c : Cfg F T) (si sel : List Nat) : (loadOrder c si sel).length ≤ sel.length := by
  unfold loadOrder
  have key : ∀ (k : Nat), ((List.range k).flatMap (fun f => sel.filter (fun idc => c.fileOf (si.getD idc 0) == f))).length =
      (sel.filter (fun idc => decide (c.fileOf (si.getD idc 0) < k))).length := by
    intro k
    induction k with
    | zero => simp
    | succ k ih =>
      rw [List.range_succ, List.flatMap_append, List.length_append, ih]
      simp only [List.flatMap_cons, List.flatMap_nil, List.append_nil]
      clear ih
      induction sel with
      | nil => rfl
      | cons a t ih =>
        simp only [List.filter_cons]
        generalize c.fileOf (si.getD a 0) = m at *
        rcases Nat.lt_trichotomy m k with h | h | h
        · simp [h, show m < k + 1 by omega, show m ≠ k by omega]; simp at ih; omega
        · simp [h]; simp at ih; omega
        · simp [show ¬ m < k by omega, show ¬ m < k + 1 by omega, show m ≠ k by omega]; simp at ih; omega
  rw [key]
  exact List.length_filter_le _ _

/-- Every loading thread comes to its end, whatever the other threads do: each of its actions leaves it with less to do. -/
theorem thread_ends (c : Cfg F T) (st st' : St F T) (a : Act) (more : List Act) (h : exec c st a = .ok (st', more)) :
    (more.map work).sum < work a := by
  cases a with
  | check p q =>
    simp only [exec, Except.ok.injEq, Prod.mk.injEq] at h
    rw [← h.2]
    split <;> simp [work]
  | insert p q =>
    simp only [exec, bind, Except.bind, pyAssert] at h
    repeat' split at h
    all_goals first | (cases h; done) | skip
    rename_i v _ _ _ hs
    have hlen : v.2.length ≤ q - p := by
      split at hs
      · rename_i h'
        simpa using h'
      · cases hs
    simp only [Except.ok.injEq, Prod.mk.injEq] at h
    rw [← h.2]
    have h3 := loadOrder_length c st.seqIndex v.2
    have h4 : ∀ l : List Nat, ((l.flatMap (fun i => [Act.wrT i, Act.wrI i, Act.mark i])).map work).sum = 3 * l.length := by
      intro l
      induction l with
      | nil => rfl
      | cons x t ih =>
        simp only [List.flatMap_cons, List.map_append, List.sum_append, ih, List.length_cons]
        simp [work]
        omega
    simp only [List.map_cons, List.sum_cons, h4]
    simp only [work]
    omega
  | markRest p q sel => simp [exec] at h; simp [h.2, work]
  | wrT i =>
    simp only [exec, bind, Except.bind] at h
    repeat' split at h
    all_goals first | (cases h; done) | skip
    simp only [Except.ok.injEq, Prod.mk.injEq] at h
    simp [← h.2, work]
  | wrI i =>
    simp only [exec, bind, Except.bind] at h
    repeat' split at h
    all_goals first | (cases h; done) | skip
    simp only [Except.ok.injEq, Prod.mk.injEq] at h
    simp [← h.2, work]
  | mark i => simp [exec] at h; simp [h.2, work]
  | done => simp [exec] at h; simp [h.2, work]

/-- After the last action of a loading thread, `is_cached(..., blocking=True)` never waits for sequences behind those of the start: nobody would
load them. -/
theorem no_wait_after_thread {c : Cfg F T} {st st' : St F T} {more : List Act} (h : exec c st .done = .ok (st', more)) {x y : Nat}
    (hy : st.ncs < y) : ∃ b, waitCached st' x y = some b := by
  simp only [exec, Except.ok.injEq, Prod.mk.injEq] at h
  unfold waitCached
  rw [← h.1]
  by_cases hxy : x = y
  · exact ⟨true, if_pos hxy⟩
  · rw [if_neg hxy, if_neg (show ¬ y ≤ st.ncs by omega)]
    exact ⟨_, rfl⟩

/-- The hypotheses can be met: two epochs with another order, a part of the cache filled at the start, reading while the thread still runs. -/
def exScript : List Cmd := [.epoch [2, 0, 3, 1], .go 0 20, .load 0 2, .go 1 6, .ret]

example : ∃ s, Run (exCfg 2 2) (fun si => si.Perm [2, 0, 3, 1]) true (start (exCfg 2 2)) s ∧
    s.win = some (0, 2) ∧ s.threads = [[], [.wrT 2, .wrI 2, .mark 2, .done]] ∧
    getInputData (exCfg 2 2) s.st 1 = .ok [1, 2] ∧ getTargets (exCfg 2 2) s.st 1 = .ok [11] := by
  refine exists_run exScript ?_ (s := (interp (exCfg 2 2) true exScript (start (exCfg 2 2))).get (by decide +kernel)) (by simp) ?_
  · intro si h
    simp [exScript] at h
    subst h
    exact .refl _
  · decide +kernel

/-- A reader which does not wait for the thread of the start cache can get wrong data: the first thread has allocated the memory but not yet
filled it, the second one finds it allocated and takes the sequences for loaded, `load_seqs` returns, and `get_data` gives zeros and the fill
value. -/
theorem race_wrong_data : ∃ s, Run (exCfg 8 0) (fun si => si.Perm [0, 1, 2, 3]) false (start (exCfg 8 0)) s ∧
    s.win = some (0, 1) ∧ s.order[0]? = some 0 ∧ (exCfg 8 0).corpus[0]? = some ⟨[1, 2], [11]⟩ ∧
    getInputData (exCfg 8 0) s.st 0 = .ok [0, 0] ∧ getTargets (exCfg 8 0) s.st 0 = .ok [99] := by
  refine exists_run [.epoch [0, 1, 2, 3], .go 0 2, .load 0 1, .go 1 3, .ret] ?_
    (s := (interp (exCfg 8 0) false [.epoch [0, 1, 2, 3], .go 0 2, .load 0 1, .go 1 3, .ret] (start (exCfg 8 0))).get (by decide +kernel))
    (by simp) ?_
  · intro si h
    simp at h
    subst h
    exact .refl _
  · decide +kernel

/-- With all sequences cached at the start, an epoch of the same length with another sequence is refused with a `KeyError`. -/
theorem other_seqs_keyError : ∃ s, Run (exCfg 4 0) (fun _ => True) true (start (exCfg 4 0)) s ∧ s.order = [0, 1] ∧
    initSeqOrder (exCfg 4 0) s.st [0, 2] = .error .keyError := by
  refine exists_run [.epoch [0, 1], .go 0 20] (fun _ _ => trivial)
    (s := (interp (exCfg 4 0) true [.epoch [0, 1], .go 0 20] (start (exCfg 4 0))).get (by decide +kernel)) (by simp) ?_
  decide +kernel

/-- When two of three sequences are cached at the start, an epoch with two of them is taken for a reordering of a full cache: `load_seqs`
returns at once, and `get_data` fails for a sequence which is not in the cache. -/
theorem short_epoch_fails : ∃ s, Run (exCfg 4 0) (fun _ => True) true (start (exCfg 4 0)) s ∧ s.order = [2, 0] ∧ s.win = some (0, 2) ∧
    getInputData (exCfg 4 0) s.st 0 = .error .assertion := by
  refine exists_run [.epoch [0, 1, 2], .go 0 20, .epoch [2, 0], .load 0 2] (fun _ _ => trivial)
    (s := (interp (exCfg 4 0) true [.epoch [0, 1, 2], .go 0 20, .epoch [2, 0], .load 0 2] (start (exCfg 4 0))).get (by decide +kernel))
    (by simp) ?_
  decide +kernel

/-- `init_seq_order` tells that the order has not changed when it goes back from another order to the first one. -/
theorem changed_order_false : ∃ s, Run (exCfg 8 0) (fun si => si.Perm [0, 1, 2, 3]) true (start (exCfg 8 0)) s ∧ s.order = [1, 0, 2, 3] ∧
    ∃ st', initSeqOrder (exCfg 8 0) s.st [0, 1, 2, 3] = .ok (st', none, false) := by
  refine exists_run [.epoch [0, 1, 2, 3], .go 0 20, .epoch [1, 0, 2, 3]] ?_
    (s := (interp (exCfg 8 0) true [.epoch [0, 1, 2, 3], .go 0 20, .epoch [1, 0, 2, 3]] (start (exCfg 8 0))).get (by decide +kernel)) (by simp) ?_
  · intro si h
    simp at h
    rcases h with rfl | rfl
    · exact .refl _
    · exact .swap _ _ _
  · exact ⟨by decide +kernel, _, rfl⟩

/-! ## C114 -/

/-- The start cache is the longest prefix of the epoch within its limit. -/
theorem start_cache_limit (limit nbytes : Nat) (ls : List Nat) {num bytes : Nat}
    (h : startCache limit nbytes ls 0 0 0 = (num, bytes)) :
    num ≤ ls.length ∧ bytes = (ls.take num).sum * nbytes ∧ bytes ≤ limit ∧
      (num < ls.length → limit < (ls.take (num + 1)).sum * nbytes) := by
  have := startCache_spec limit nbytes ls [] 0 0 0 rfl (Nat.le_refl _) (by simp) (Nat.zero_le _) (fun h => absurd h (Nat.lt_irrefl _))
  rw [h] at this
  simpa using this

example : startCache 5 1 [2, 2, 2, 1] 0 0 0 = (2, 4) := by decide

/-- `insert_alloc_interval(a, b)`: exactly the sequences of the range which had no memory get some, all others keep their data, and the
result names them in order. -/
theorem insert_alloc {ls : List Nat} (z : F) {ivs : List (Iv F)} (hp : Proper ls ivs) {a b : Nat} (hs : a < b) (hb : b ≤ ls.length) :
    ∃ ivs' sel, modifyAlloc ls z true ivs a b = .ok (ivs', sel) ∧ Proper ls ivs' ∧
      (∀ i, held ls ivs' i = match held ls ivs i with
        | some d => some d
        | none => if a ≤ i ∧ i < b then some (List.replicate (ls.getD i 0) z) else none) ∧
      sel.Pairwise (· < ·) ∧ (∀ i, i ∈ sel ↔ held ls ivs i = none ∧ a ≤ i ∧ i < b) := by
  obtain ⟨ivs', sel, h1, h2, h3, h4, h5⟩ := modifyAlloc_ins z hp hs hb
  refine ⟨ivs', sel, h1, h2, fun i => ?_, h4, h5⟩
  rw [h3 i]
  cases held ls ivs i <;> rfl

/-- `remove_alloc_interval(a, b)`: exactly the sequences of the range lose their memory, all others keep their data, and the result names those
which had some, in order. The exception is the whole epoch with the last sequence not in memory, see `remove_all_indexError`. -/
theorem remove_alloc {ls : List Nat} (z : F) {ivs : List (Iv F)} (hp : Proper ls ivs) {a b : Nat} (hs : a < b) (hb : b ≤ ls.length)
    (hne : ¬(a = 0 ∧ b = ls.length ∧ held ls ivs (b - 1) = none)) :
    ∃ ivs' sel, modifyAlloc ls z false ivs a b = .ok (ivs', sel) ∧ Proper ls ivs' ∧
      (∀ i, held ls ivs' i = if a ≤ i ∧ i < b then none else held ls ivs i) ∧
      sel.Pairwise (· < ·) ∧ (∀ i, i ∈ sel ↔ held ls ivs i ≠ none ∧ a ≤ i ∧ i < b) :=
  modifyAlloc_rem z hp hs hb hne

/-- `remove_alloc_interval(0, num_seqs)` fails when the last sequence is not in memory: no interval is left, and the code looks at the first. -/
theorem remove_all_indexError {ls : List Nat} (z : F) {ivs : List (Iv F)} (hp : Proper ls ivs) (hn : 0 < ls.length)
    (hh : held ls ivs (ls.length - 1) = none) : modifyAlloc ls z false ivs 0 ls.length = .error .indexError :=
  modifyAlloc_rem_err z hp hn hh

example : Proper [1, 2] ([⟨0, 0, [0]⟩, ⟨0, 1, [5]⟩, ⟨2, 2, [0]⟩] : List (Iv Nat)) := ⟨[0], [0], [⟨0, 1, [5]⟩], rfl, by simp [Sorted]⟩

/-- The frames in memory for the sequences beyond the start cache. -/
def extra (ls : List Nat) (ncs : Nat) (ivs : List (Iv F)) : Nat :=
  (((List.range ls.length).filter (fun i => decide (ncs ≤ i) && (held ls ivs i).isSome)).map (fun i => ls.getD i 0)).sum

/-- The account of free frames: a call of `load_seqs` which loads something gives back all frames beyond the start cache, and pays only for
the sequences after those which were asked for. So those which were asked for are never paid, and are given back with the next call.
Partial: as for `cache_correct_partial`. -/
theorem load_accounts_partial {c : Cfg F T} {base : List Nat} (hb : BaseOk c base) (hf : FilesOk c) {s : Sys F T}
    (hr : Run c (fun si => si.Perm base) true (start c) s) (hq : ∀ t ∈ s.threads, t = []) {x y : Nat} {st' : St F T} {th : List Act}
    (hy : y ≤ s.order.length) (h : loadSeqs c s.st x y = .ok (st', some th)) :
    y ≤ st'.preloadEnd ∧ st'.preloadEnd ≤ s.order.length ∧
    st'.free + (((lens c s.st.seqIndex).drop y).take (st'.preloadEnd - y)).sum =
      s.st.free + extra (lens c s.st.seqIndex) s.st.ncs s.st.ivs ∧
    extra (lens c s.st.seqIndex) s.st.ncs st'.ivs = 0 := by
  rcases inv_run hb hf hr with ⟨h0, _, _, ho, _⟩ | ⟨p, q, th', hok, hsh, _, _⟩
  · rw [ho] at hy
    have := loadSeqs_empty (by simpa using hy) h
    simp at this
  · have := shape_quiet hsh hq
    subst this
    have hv := hok.valid hb
    have hll := lens_length hv
    have hle := loadSeqs_le h
    have hn := olen hok
    obtain ⟨ivs', R, hd, hp', hh', hnd, hR⟩ := delete_spec c.z s.st.ncs s.st.preload hok.proper
    by_cases hc : isCached s.st x y = true
    · simp [loadSeqs, pyAssert, hle, hc, bind, Except.bind] at h
    have hid : s.st.indexMap = List.range s.st.seqIndex.length := by
      rcases hok.idmap with h' | ⟨_, h'⟩
      · exact h'
      · exact absurd (isCached_iff.2 (fun i _ _ => h' i (by omega))) hc
    have hsl : sortedLens c s.st = lens c s.st.seqIndex := by
      rw [sortedLens, hid]
      apply List.ext_getElem
      · simp [hll]
      · intro i h1 h2
        simp [List.getD, List.getElem?_eq_getElem h2]
    simp only [loadSeqs, pyAssert, hle, decide_true, if_true, hc, bind, Except.bind, hd, hsl] at h
    simp only [Bool.false_eq_true, if_false, Except.ok.injEq, Prod.mk.injEq] at h
    have hx := extend_sum ((lens c s.st.seqIndex).drop y) (s.st.free + ((R.map (fun j => (lens c s.st.seqIndex).getD j 0)).sum : Nat)) y
    have hx2 := extend_spec ((lens c s.st.seqIndex).drop y) (s.st.free + ((R.map (fun j => (lens c s.st.seqIndex).getD j 0)).sum : Nat)) y
    rw [List.length_drop] at hx2
    obtain ⟨h, _⟩ := h
    subst h
    have hE : ∀ ivs : List (Iv F), (∀ j, j < (lens c s.st.seqIndex).length → (held (lens c s.st.seqIndex) ivs j ≠ none ∧ s.st.ncs ≤ j ↔ j ∈ R)) →
        (∀ j ∈ R, j < (lens c s.st.seqIndex).length) →
        extra (lens c s.st.seqIndex) s.st.ncs ivs = (R.map (fun j => (lens c s.st.seqIndex).getD j 0)).sum := by
      intro ivs h1 h2
      refine List.Perm.sum_nat (List.Perm.map _ ?_)
      refine (List.perm_ext_iff_of_nodup (List.nodup_range.filter _) hnd).2 (fun j => ?_)
      rw [List.mem_filter, List.mem_range, Bool.and_eq_true, decide_eq_true_eq, Option.isSome_iff_ne_none]
      constructor
      · rintro ⟨a1, a2, a3⟩
        exact (h1 j a1).1 ⟨a3, a2⟩
      · intro a
        have b := (h1 j (h2 j a)).2 a
        exact ⟨h2 j a, b.2, b.1⟩
    have hRlt : ∀ j ∈ R, j < (lens c s.st.seqIndex).length := by
      intro j hj
      have h1 := hok.fin.2 j ((hR j).1 hj).1
      have h2 := (hok.good j h1).1
      omega
    refine ⟨hx2.1, ?_, ?_, ?_⟩
    · show _ ≤ s.order.length
      have := hx2.2
      dsimp only at *
      omega
    · rw [hE s.st.ivs (fun j _ => (hR j).symm) hRlt]
      exact hx
    · unfold extra
      rw [List.filter_eq_nil_iff.2]
      · rfl
      · intro j _
        show ¬ (decide (s.st.ncs ≤ j) && (held (lens c s.st.seqIndex) ivs' j).isSome) = true
        rw [hh' j]
        by_cases hj : s.st.ncs ≤ j <;> simp [hj]

/-- So the limit is not kept: there is room for 2 frames beyond those which are asked for, the reader always asks for a single sequence of 2
frames, and in the second epoch all 8 frames of the epoch are in memory. -/
theorem limit_not_kept : ∃ s, Run (exCfg 1 2) (fun si => si.Perm [0, 1, 2, 3]) true (start (exCfg 1 2)) s ∧
    s.win = some (0, 1) ∧ (exCfg 1 2).framesFree = 2 ∧ extra (lens (exCfg 1 2) s.st.seqIndex) s.st.ncs s.st.ivs = 8 := by
  refine exists_run [.epoch [0, 1, 2, 3], .load 0 1, .go 0 20, .ret, .load 2 3, .go 1 20, .ret, .epoch [0, 1, 2, 3], .load 0 1, .go 2 20, .ret] ?_
    (s := (interp (exCfg 1 2) true [.epoch [0, 1, 2, 3], .load 0 1, .go 0 20, .ret, .load 2 3, .go 1 20, .ret, .epoch [0, 1, 2, 3],
      .load 0 1, .go 2 20, .ret] (start (exCfg 1 2))).get (by decide +kernel)) (by simp) ?_
  · intro si h
    simp at h
    subst h
    exact .refl _
  · decide +kernel

end Verif.HdfCache
