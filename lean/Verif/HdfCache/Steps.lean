import Verif.HdfCache.Alloc
import Verif.Util.ListLemmas
import Mathlib.Data.List.Forall2
import Mathlib.Data.List.Perm.Subperm
/-
The invariant of the cache with at most one loading thread.
-/
namespace Verif.HdfCache
open Verif.Py

variable {F T : Type}

theorem items_length {c : Cfg F T} {si : List Nat} (h : ∀ r ∈ si, r < c.corpus.length) : (items c si).length = si.length := by
  induction si with
  | nil => rfl
  | cons r t ih =>
    have hr := h r (by simp)
    have e : items c (r :: t) = c.corpus[r] :: items c t := by
      simp [items, List.getElem?_eq_getElem hr]
    rw [e, List.length_cons, List.length_cons, ih (fun x hx => h x (by simp [hx]))]

theorem items_get {c : Cfg F T} {si : List Nat} (h : ∀ r ∈ si, r < c.corpus.length) (i : Nat) :
    (items c si)[i]? = (si[i]?).bind (fun r => c.corpus[r]?) := by
  induction si generalizing i with
  | nil => simp [items]
  | cons r t ih =>
    have hr := h r (by simp)
    have e : items c (r :: t) = c.corpus[r] :: items c t := by
      simp [items, List.getElem?_eq_getElem hr]
    rw [e]
    cases i with
    | zero => simp [List.getElem?_eq_getElem hr]
    | succ i => simpa using ih (fun x hx => h x (by simp [hx])) i

theorem lens_length {c : Cfg F T} {si : List Nat} (h : ∀ r ∈ si, r < c.corpus.length) : (lens c si).length = si.length := by
  rw [lens, List.length_map, items_length h]

theorem lens_get {c : Cfg F T} {si : List Nat} {i : Nat} {x : Item F T} (h : (items c si)[i]? = some x) :
    (lens c si).getD i 0 = x.inp.length := by
  simp [lens, List.getD, h]

theorem tlens_get {c : Cfg F T} {si : List Nat} {i : Nat} {x : Item F T} (h : (items c si)[i]? = some x) :
    (tlens c si).getD i 0 = x.tgt.length := by
  simp [tlens, List.getD, h]

theorem seqStart_le_sum (ls : List Nat) (i : Nat) : seqStart ls i ≤ ls.sum := by
  have : ls.sum = seqStart ls i + (ls.drop i).sum := by
    rw [seqStart, ← List.sum_append, List.take_append_drop]
  omega

theorem tlens_sum_le {c : Cfg F T} {si : List Nat} (hn : si.Nodup) (h : ∀ r ∈ si, r < c.corpus.length) :
    (tlens c si).sum ≤ (c.corpus.map (fun x => x.tgt.length)).sum := by
  have hsub : si.Subperm (List.range c.corpus.length) := hn.subperm (fun r hr => List.mem_range.2 (h r hr))
  obtain ⟨l, hl, hs⟩ := hsub
  obtain ⟨r, hr⟩ := hs.exists_perm_append
  have hp : (List.range c.corpus.length).Perm (si ++ r) := hr.trans (hl.append_right r)
  have h1 : (tlens c (List.range c.corpus.length)).Perm (tlens c (si ++ r)) := (hp.filterMap _).map _
  have h2 : tlens c (List.range c.corpus.length) = c.corpus.map (fun x => x.tgt.length) := by
    unfold tlens items
    rw [Verif.ListLemmas.filterMap_range_getElem?]
  rw [← h2, h1.sum_nat]
  simp [tlens, items]

/-- The sequence `i` is right in memory. -/
def GoodSeq (c : Cfg F T) (st : St F T) (i : Nat) : Prop :=
  ∃ x, (items c st.seqIndex)[i]? = some x ∧ held (lens c st.seqIndex) st.ivs i = some x.inp ∧
    (st.targets.drop (seqStart (tlens c st.seqIndex) i)).take x.tgt.length = x.tgt

/-- The target of sequence `i` is right in memory. -/
def GoodT (c : Cfg F T) (st : St F T) (i : Nat) : Prop :=
  ∃ x, (items c st.seqIndex)[i]? = some x ∧
    (st.targets.drop (seqStart (tlens c st.seqIndex) i)).take x.tgt.length = x.tgt

/-- What is to be done for the sequences `o`. -/
def trips (o : List Nat) : List Act := o.flatMap (fun i => [.wrT i, .wrI i, .mark i])

/-- A thread which loads `a` to `b` has still to load `o`. -/
structure Load (c : Cfg F T) (st : St F T) (a b : Nat) (o : List Nat) : Prop where
  lt : a < b
  le : b ≤ st.seqIndex.length
  pend : st.preloadEnd = b
  todo : ∀ i, a ≤ i → i < b → i ∈ st.preload ∨ i ∈ o
  alloc : ∀ i ∈ o, i < st.seqIndex.length ∧ held (lens c st.seqIndex) st.ivs i ≠ none
  cov : ∀ i, held (lens c st.seqIndex) st.ivs i ≠ none → i ∈ st.preload ∨ i ∈ o

/-- Where a thread which loads `a` to `b` is. -/
inductive TOk (c : Cfg F T) (st : St F T) (a b : Nat) : List Act → Prop
  | fin (h1 : ∀ i, a ≤ i → i < b → i ∈ st.preload) (h2 : ∀ i, held (lens c st.seqIndex) st.ivs i ≠ none → i ∈ st.preload) : TOk c st a b []
  | check (h1 : a < b) (h2 : b ≤ st.seqIndex.length) (h3 : st.preloadEnd = b)
      (h4 : ∀ i, held (lens c st.seqIndex) st.ivs i ≠ none → i ∈ st.preload) : TOk c st a b [.check a b, .done]
  | insert (h1 : a < b) (h2 : b ≤ st.seqIndex.length) (h3 : st.preloadEnd = b)
      (h4 : ∀ i, held (lens c st.seqIndex) st.ivs i ≠ none → i ∈ st.preload) : TOk c st a b [.insert a b, .done]
  | markRest {sel o : List Nat} (h1 : Load c st a b o) (h2 : ∀ i, a ≤ i → i < b → i ∉ sel → i ∈ st.preload) :
      TOk c st a b (.markRest a b sel :: (trips o ++ [.done]))
  | loop {o : List Nat} (h1 : Load c st a b o) : TOk c st a b (trips o ++ [.done])
  | wrI {i : Nat} {o : List Nat} (h1 : Load c st a b (i :: o)) (h2 : GoodT c st i) : TOk c st a b (.wrI i :: .mark i :: (trips o ++ [.done]))
  | mark {i : Nat} {o : List Nat} (h1 : Load c st a b (i :: o)) (h2 : GoodSeq c st i) : TOk c st a b (.mark i :: (trips o ++ [.done]))

/-- The invariant. -/
structure Ok (c : Cfg F T) (base : List Nat) (st : St F T) (order : List Nat) (a b : Nat) (th : List Act) : Prop where
  ready : st.ready = true
  perm : st.seqIndex.Perm base
  operm : order.Perm base
  mlen : st.indexMap.length = st.seqIndex.length
  map : ∀ i, i < st.seqIndex.length → ∃ k, k < st.seqIndex.length ∧ st.indexMap[i]? = some k ∧ st.seqIndex[k]? = order[i]?
  idmap : st.indexMap = List.range st.seqIndex.length ∨ (st.ncs = st.seqIndex.length ∧ ∀ i, i < st.seqIndex.length → i ∈ st.preload)
  proper : Proper (lens c st.seqIndex) st.ivs
  good : ∀ i ∈ st.preload, i < st.seqIndex.length ∧ GoodSeq c st i
  tlen : st.targets.length = (c.corpus.map (fun x => x.tgt.length)).sum
  ncsle : st.ncs ≤ st.seqIndex.length
  ncspre : ∀ i, i < st.ncs → i ∈ st.preload ∨ (a ≤ i ∧ i < b)
  thread : TOk c st a b th

theorem Ok.valid {c : Cfg F T} {base : List Nat} (hb : BaseOk c base) {st : St F T} {order : List Nat} {a b : Nat} {th : List Act}
    (h : Ok c base st order a b th) : ∀ r ∈ st.seqIndex, r < c.corpus.length :=
  fun r hr => hb.2.2 r (h.perm.mem_iff.1 hr)

theorem Ok.nodup {c : Cfg F T} {base : List Nat} (hb : BaseOk c base) {st : St F T} {order : List Nat} {a b : Nat} {th : List Act}
    (h : Ok c base st order a b th) : st.seqIndex.Nodup := h.perm.nodup_iff.2 hb.2.1

theorem mem_loadOrder {c : Cfg F T} (hf : FilesOk c) {si sel : List Nat} (hv : ∀ r ∈ si, r < c.corpus.length)
    (hs : ∀ i ∈ sel, i < si.length) (i : Nat) : i ∈ loadOrder c si sel ↔ i ∈ sel := by
  unfold loadOrder
  rw [List.mem_flatMap]
  constructor
  · rintro ⟨f, _, h⟩
    exact (List.mem_filter.1 h).1
  · intro h
    have hi := hs i h
    refine ⟨c.fileOf (si.getD i 0), List.mem_range.2 (hf _ (hv _ ?_)), List.mem_filter.2 ⟨h, by simp⟩⟩
    simp [List.getD, List.getElem?_eq_getElem hi]

theorem isCached_iff {st : St F T} {a b : Nat} : isCached st a b = true ↔ ∀ i, a ≤ i → i < b → i ∈ st.preload := by
  unfold isCached
  split
  · simp only [true_iff]
    intro i _ _
    omega
  · rw [List.all_eq_true]
    constructor
    · intro h i h1 h2
      have := h i (List.mem_range'_1.2 ⟨h1, by omega⟩)
      simpa using this
    · intro h i hi
      rw [List.mem_range'_1] at hi
      simpa using h i hi.1 (by omega)

theorem GoodSeq.congr {c : Cfg F T} {st st' : St F T} {i : Nat} (h : GoodSeq c st i) (h1 : st'.seqIndex = st.seqIndex)
    (h2 : held (lens c st.seqIndex) st'.ivs i = held (lens c st.seqIndex) st.ivs i) (h3 : st'.targets = st.targets) : GoodSeq c st' i := by
  unfold GoodSeq at *
  rw [h1, h2, h3]
  exact h

theorem nodup_length_le {sel : List Nat} {a b : Nat} (hp : sel.Pairwise (· < ·)) (h : ∀ i ∈ sel, a ≤ i ∧ i < b) : sel.length ≤ b - a := by
  have hn : sel.Nodup := hp.imp (fun h => Nat.ne_of_lt h)
  have := (hn.subperm (l₂ := List.range' a (b - a)) (fun i hi => List.mem_range'_1.2 (by have := h i hi; omega))).length_le
  simpa using this

/-- One action of the thread. -/
theorem exec_ok {c : Cfg F T} {base : List Nat} (hb : BaseOk c base) (hf : FilesOk c) {st : St F T} {order : List Nat} {a b : Nat}
    {x : Act} {r : List Act} (h : Ok c base st order a b (x :: r)) :
    ∃ st' more, exec c st x = .ok (st', more) ∧ Ok c base st' order a b (more ++ r) ∧ (∀ i ∈ st.preload, i ∈ st'.preload) := by
  have hv := h.valid hb
  have hll := lens_length hv
  have hth := h.thread
  generalize hx : x :: r = th at hth
  cases hth with
  | fin => simp at hx
  | check h1 h2 h3 h4 =>
    simp only [List.cons.injEq] at hx
    obtain ⟨rfl, rfl⟩ := hx
    by_cases hc : isCached st a b = true
    · refine ⟨st, [], by simp [exec, hc], { h with thread := ?_ }, fun i hi => hi⟩
      have hall := isCached_iff.1 hc
      exact TOk.loop (o := []) ⟨h1, h2, h3, fun i x y => .inl (hall i x y), by simp, fun i hi => .inl (h4 i hi)⟩
    · refine ⟨st, [.insert a b], by simp [exec, hc], { h with thread := TOk.insert h1 h2 h3 h4 }, fun i hi => hi⟩
  | insert h1 h2 h3 h4 =>
    simp only [List.cons.injEq] at hx
    obtain ⟨rfl, rfl⟩ := hx
    obtain ⟨ivs', sel, hm, hp', hh', hinc, hmem⟩ := modifyAlloc_ins c.z h.proper h1 (by rw [hll]; exact h2)
    have hlen : sel.length ≤ b - a := nodup_length_le hinc (fun i hi => ((hmem i).1 hi).2)
    have hlo := mem_loadOrder hf hv (sel := sel) (fun i hi => by have := ((hmem i).1 hi).2; omega)
    refine ⟨{ st with ivs := ivs' }, .markRest a b sel :: trips (loadOrder c st.seqIndex sel), ?_, ?_, fun i hi => hi⟩
    · simp only [exec, bind, Except.bind, pyAssert]
      rw [h.mlen]
      simp only [show a < st.seqIndex.length by omega, h2, decide_true, if_true, hm, hlen]
      rfl
    · have hkeep : ∀ i, held (lens c st.seqIndex) st.ivs i ≠ none →
          held (lens c st.seqIndex) ivs' i = held (lens c st.seqIndex) st.ivs i := by
        intro i hi
        rw [hh' i]
        cases hq : held (lens c st.seqIndex) st.ivs i with
        | none => exact absurd hq hi
        | some y => rfl
      refine { h with proper := hp', good := ?_, thread := ?_ }
      · intro i hi
        have hg := h.good i hi
        refine ⟨hg.1, hg.2.congr rfl (hkeep i ?_) rfl⟩
        obtain ⟨y, _, hy, _⟩ := hg.2
        rw [hy]; simp
      · refine TOk.markRest (o := loadOrder c st.seqIndex sel) ⟨h1, h2, h3, ?_, ?_, ?_⟩ ?_
        · intro i hi1 hi2
          by_cases hq : held (lens c st.seqIndex) st.ivs i = none
          · exact .inr ((hlo i).2 ((hmem i).2 ⟨hq, hi1, hi2⟩))
          · exact .inl (h4 i hq)
        · intro i hi
          have := (hmem i).1 ((hlo i).1 hi)
          refine ⟨by show i < st.seqIndex.length; omega, ?_⟩
          show held (lens c st.seqIndex) ivs' i ≠ none
          rw [hh' i, if_pos this.2]
          simp [this.1]
        · intro i hi
          change held (lens c st.seqIndex) ivs' i ≠ none at hi
          by_cases hq : held (lens c st.seqIndex) st.ivs i = none
          · rw [hh' i, hq, Option.none_or] at hi
            split at hi
            · rename_i hr
              exact .inr ((hlo i).2 ((hmem i).2 ⟨hq, hr⟩))
            · exact absurd rfl hi
          · exact .inl (h4 i hq)
        · intro i hi1 hi2 hi3
          by_cases hq : held (lens c st.seqIndex) st.ivs i = none
          · exact absurd ((hmem i).2 ⟨hq, hi1, hi2⟩) hi3
          · exact h4 i hq
  | markRest h1 h2 =>
    rename_i sel o
    simp only [List.cons.injEq] at hx
    obtain ⟨rfl, rfl⟩ := hx
    refine ⟨_, [], rfl, ?_, fun i hi => List.mem_append_left _ hi⟩
    have hmem : ∀ i, i ∈ st.preload ++ (List.range' a (b - a)).filter (fun i => !sel.contains i) ↔ i ∈ st.preload := by
      intro i
      rw [List.mem_append]
      constructor
      · rintro (h | h)
        · exact h
        · rw [List.mem_filter, List.mem_range'_1] at h
          exact h2 i h.1.1 (by omega) (by simpa using h.2)
      · exact .inl
    refine { h with idmap := ?_, good := ?_, ncspre := ?_, thread := ?_ }
    · rcases h.idmap with h | ⟨h, h'⟩
      · exact .inl h
      · exact .inr ⟨h, fun i hi => (hmem i).2 (h' i hi)⟩
    · intro i hi
      exact h.good i ((hmem i).1 hi)
    · intro i hi
      rcases h.ncspre i hi with h | h
      · exact .inl ((hmem i).2 h)
      · exact .inr h
    · refine TOk.loop ⟨h1.lt, h1.le, h1.pend, ?_, h1.alloc, ?_⟩
      · intro i x y
        rcases h1.todo i x y with h | h
        · exact .inl ((hmem i).2 h)
        · exact .inr h
      · intro i x
        rcases h1.cov i x with h | h
        · exact .inl ((hmem i).2 h)
        · exact .inr h
  | loop h1 =>
    rename_i o
    cases o with
    | nil =>
      simp only [trips, List.flatMap_nil, List.nil_append, List.cons.injEq] at hx
      obtain ⟨rfl, rfl⟩ := hx
      refine ⟨_, [], rfl, { h with thread := ?_ }, fun i hi => hi⟩
      refine TOk.fin ?_ ?_
      · intro i x y
        rcases h1.todo i x y with h | h
        · exact h
        · simp at h
      · intro i x
        rcases h1.cov i x with h | h
        · exact h
        · simp at h
    | cons i o =>
      simp only [trips, List.flatMap_cons, List.cons_append, List.nil_append, List.cons.injEq] at hx
      obtain ⟨rfl, rfl⟩ := hx
      have hi := h1.alloc i (by simp)
      have hil : i < (items c st.seqIndex).length := by rw [items_length hv]; exact hi.1
      have hit := List.getElem?_eq_getElem hil
      generalize hxi : (items c st.seqIndex)[i] = x at hit
      have hts := tlens_get hit
      have hfit : seqStart (tlens c st.seqIndex) i + x.tgt.length ≤ st.targets.length := by
        rw [h.tlen, ← hts, ← seqStart_succ]
        exact Nat.le_trans (seqStart_le_sum _ _) (tlens_sum_le (h.nodup hb) hv)
      have hw := writeAt_ok hfit
      refine ⟨{ st with targets := st.targets.take (seqStart (tlens c st.seqIndex) i) ++ x.tgt ++ st.targets.drop (seqStart (tlens c st.seqIndex) i + x.tgt.length) }, [], ?_, ?_, fun i hi => hi⟩
      · simp only [exec, hit, hw, bind, Except.bind]
      · have hself : GoodT c { st with targets := st.targets.take (seqStart (tlens c st.seqIndex) i) ++ x.tgt ++ st.targets.drop (seqStart (tlens c st.seqIndex) i + x.tgt.length) } i := ⟨x, hit, write_same hfit⟩
        refine { h with good := ?_, tlen := ?_, thread := ?_ }
        · intro j hj
          obtain ⟨hjl, y, hy1, hy2, hy3⟩ := h.good j hj
          refine ⟨hjl, ?_⟩
          by_cases hji : j = i
          · subst hji
            obtain ⟨x', e1, e2⟩ := hself
            have : x' = y := by
              change (items c st.seqIndex)[j]? = some x' at e1
              rw [hy1] at e1
              exact (Option.some.inj e1).symm
            subst this
            exact ⟨x', hy1, hy2, e2⟩
          · refine ⟨y, hy1, hy2, ?_⟩
            show (List.drop (seqStart (tlens c st.seqIndex) j) _).take y.tgt.length = y.tgt
            have hyl := tlens_get hy1
            rcases Nat.lt_or_ge j i with hlt | hge
            · have := seqStart_lt (tlens c st.seqIndex) hlt
              rw [write_before hfit (by omega)]
              exact hy3
            · have := seqStart_lt (tlens c st.seqIndex) (show i < j by omega)
              rw [write_after hfit (by omega)]
              exact hy3
        · show List.length (_ ++ _ ++ _) = _
          rw [write_length hfit]
          exact h.tlen
        · exact TOk.wrI ⟨h1.lt, h1.le, h1.pend, h1.todo, h1.alloc, h1.cov⟩ hself
  | wrI h1 h2 =>
    rename_i i o
    simp only [List.cons.injEq] at hx
    obtain ⟨rfl, rfl⟩ := hx
    obtain ⟨x, hit, hx2⟩ := h2
    have hi := h1.alloc i (by simp)
    obtain ⟨ivs', hs, hp', hself, hother⟩ := setData_spec h.proper hi.2 (data := x.inp) (lens_get hit).symm
    refine ⟨{ st with ivs := ivs' }, [], ?_, ?_, fun i hi => hi⟩
    · simp only [exec, hit, hs, bind, Except.bind]
    · have hnone : ∀ j, held (lens c st.seqIndex) ivs' j ≠ none ↔ held (lens c st.seqIndex) st.ivs j ≠ none := by
        intro j
        by_cases hji : j = i
        · subst hji
          simp [hself, hi.2]
        · rw [hother j hji]
      refine { h with proper := hp', good := ?_, thread := ?_ }
      · intro j hj
        obtain ⟨hjl, hg⟩ := h.good j hj
        refine ⟨hjl, ?_⟩
        by_cases hji : j = i
        · subst hji
          exact ⟨x, hit, hself, hx2⟩
        · exact hg.congr rfl (hother j hji) rfl
      · refine TOk.mark ⟨h1.lt, h1.le, h1.pend, h1.todo, ?_, ?_⟩ ⟨x, hit, hself, hx2⟩
        · intro j hj
          exact ⟨(h1.alloc j hj).1, (hnone j).2 (h1.alloc j hj).2⟩
        · intro j hj
          exact h1.cov j ((hnone j).1 hj)
  | mark h1 h2 =>
    rename_i i o
    simp only [List.cons.injEq] at hx
    obtain ⟨rfl, rfl⟩ := hx
    refine ⟨_, [], rfl, ?_, fun i hi => List.mem_append_left _ hi⟩
    have hmem : ∀ j, j ∈ st.preload ++ [i] ↔ j ∈ st.preload ∨ j = i := by simp
    have hi := h1.alloc i (by simp)
    refine { h with idmap := ?_, good := ?_, ncspre := ?_, thread := ?_ }
    · rcases h.idmap with h | ⟨h, h'⟩
      · exact .inl h
      · exact .inr ⟨h, fun j hj => (hmem j).2 (.inl (h' j hj))⟩
    · intro j hj
      rcases (hmem j).1 hj with hj | rfl
      · exact h.good j hj
      · exact ⟨hi.1, h2.congr rfl rfl rfl⟩
    · intro j hj
      rcases h.ncspre j hj with h | h
      · exact .inl ((hmem j).2 (.inl h))
      · exact .inr h
    · refine TOk.loop ⟨h1.lt, h1.le, h1.pend, ?_, fun j hj => h1.alloc j (by simp [hj]), ?_⟩
      · intro j x y
        rcases h1.todo j x y with h | h
        · exact .inl ((hmem j).2 (.inl h))
        · rcases List.mem_cons.1 h with rfl | h
          · exact .inl ((hmem j).2 (.inr rfl))
          · exact .inr h
      · intro j x
        rcases h1.cov j x with h | h
        · exact .inl ((hmem j).2 (.inl h))
        · rcases List.mem_cons.1 h with rfl | h
          · exact .inl ((hmem j).2 (.inr rfl))
          · exact .inr h

theorem extend_spec (l : List Nat) : ∀ (free : Int) (stop : Nat), stop ≤ (extend l free stop).2 ∧ (extend l free stop).2 ≤ stop + l.length := by
  induction l with
  | nil => intro free stop; simp [extend]
  | cons x r ih =>
    intro free stop
    rw [extend]
    split
    · simp
    · have := ih (free - x) (stop + 1)
      simp only [List.length_cons]
      omega

/-- A call of `load_seqs` without a running thread. -/
theorem loadSeqs_ok {c : Cfg F T} {base : List Nat} (hb : BaseOk c base) {st : St F T} {order : List Nat} {a b s e : Nat}
    (h : Ok c base st order a b []) (hse : s ≤ e) (he : e ≤ st.seqIndex.length) :
    (isCached st s e = true ∧ loadSeqs c st s e = .ok (st, none)) ∨
    (∃ st' e', loadSeqs c st s e = .ok (st', some [.check s e', .done]) ∧ e ≤ e' ∧ Ok c base st' order s e' [.check s e', .done]) := by
  have hv := h.valid hb
  have hll := lens_length hv
  obtain ⟨hpre, hcov⟩ : (∀ i, i < st.ncs → i ∈ st.preload) ∧ (∀ i, held (lens c st.seqIndex) st.ivs i ≠ none → i ∈ st.preload) := by
    have ht := h.thread
    generalize hx : ([] : List Act) = th at ht
    cases ht with
    | fin h1 h2 =>
      refine ⟨fun i hi => ?_, h2⟩
      rcases h.ncspre i hi with h' | h'
      · exact h'
      · exact h1 i h'.1 h'.2
    | check => simp at hx
    | insert => simp at hx
    | markRest => simp at hx
    | loop => simp at hx
    | wrI => simp at hx
    | mark => simp at hx
  by_cases hc : isCached st s e = true
  · left
    refine ⟨hc, ?_⟩
    simp [loadSeqs, pyAssert, hse, hc, bind, Except.bind]
  · right
    obtain ⟨ivs', R, hd, hp', hh', hnd, hR⟩ := delete_spec c.z st.ncs st.preload h.proper
    have hlt : s < e := by
      rcases Nat.lt_or_ge s e with h' | h'
      · exact h'
      · exact absurd (isCached_iff.2 (fun i _ _ => by omega)) hc
    have hid : st.indexMap = List.range st.seqIndex.length := by
      rcases h.idmap with h' | ⟨_, h'⟩
      · exact h'
      · exact absurd (isCached_iff.2 (fun i _ _ => h' i (by omega))) hc
    have hext := extend_spec ((sortedLens c st).drop e) (st.free + ((R.map (fun j => (lens c st.seqIndex).getD j 0)).sum : Nat)) e
    have hsl : (sortedLens c st).length = st.seqIndex.length := by
      rw [sortedLens, List.length_map, h.mlen]
    rw [List.length_drop, hsl] at hext
    generalize hE : extend ((sortedLens c st).drop e) (st.free + ((R.map (fun j => (lens c st.seqIndex).getD j 0)).sum : Nat)) e = E at hext
    have hmem : ∀ j, j ∈ st.preload.filter (fun j => !R.contains j) ↔ j ∈ st.preload ∧ j < st.ncs := by
      intro j
      rw [List.mem_filter]
      constructor
      · rintro ⟨h1, h2⟩
        refine ⟨h1, ?_⟩
        have h3 : j ∉ R := by simpa using h2
        rw [hR j] at h3
        obtain ⟨y, _, hy, _⟩ := (h.good j h1).2
        by_contra hcon
        exact h3 ⟨by rw [hy]; simp, by omega⟩
      · rintro ⟨h1, h2⟩
        refine ⟨h1, ?_⟩
        have h3 : j ∉ R := by
          rw [hR j]
          intro h4
          omega
        simpa using h3
    refine ⟨{ st with ivs := ivs', preload := st.preload.filter (fun j => !R.contains j), free := E.1, preloadEnd := E.2 }, E.2, ?_, hext.1, ?_⟩
    · simp only [loadSeqs, pyAssert, hse, decide_true, if_true, hc, bind, Except.bind, hd, hE]
      rfl
    · refine { h with idmap := .inl hid, proper := hp', good := ?_, ncspre := ?_, thread := ?_ }
      · intro j hj
        obtain ⟨h1, h2⟩ := (hmem j).1 hj
        have hg := h.good j h1
        refine ⟨hg.1, hg.2.congr rfl ?_ rfl⟩
        show held (lens c st.seqIndex) ivs' j = _
        rw [hh' j, if_neg (by omega)]
      · intro j hj
        exact .inl ((hmem j).2 ⟨hpre j hj, hj⟩)
      · refine TOk.check (by omega) (by show E.2 ≤ st.seqIndex.length; omega) rfl ?_
        intro j hj
        change held (lens c st.seqIndex) ivs' j ≠ none at hj
        rw [hh' j] at hj
        split at hj
        · exact absurd rfl hj
        · exact (hmem j).2 ⟨hcov j hj, by omega⟩

theorem startCache_le (limit nbytes : Nat) (l : List Nat) : ∀ (i num bytes : Nat), num ≤ i → (startCache limit nbytes l i num bytes).1 ≤ i + l.length := by
  induction l with
  | nil => intro i num bytes h; simpa [startCache] using h
  | cons x r ih =>
    intro i num bytes h
    rw [startCache]
    split
    · have := ih (i + 1) (i + 1) (bytes + x * nbytes) (Nat.le_refl _)
      simp only [List.length_cons]; omega
    · have := ih (i + 1) num bytes (by omega)
      simp only [List.length_cons]; omega

theorem reinit_ok {c : Cfg F T} {base : List Nat} (hb : BaseOk c base) {st : St F T} {si : List Nat} (hsi : si.Perm base)
    (ht : st.targets.length = (c.corpus.map (fun x => x.tgt.length)).sum) :
    ((reinit c st si).2 = none ∧ Ok c base (reinit c st si).1 si 0 0 []) ∨
    (∃ m, (reinit c st si).2 = some [.check 0 m, .done] ∧ Ok c base (reinit c st si).1 si 0 m [.check 0 m, .done]) := by
  have hv : ∀ r ∈ si, r < c.corpus.length := fun r hr => hb.2.2 r (hsi.mem_iff.1 hr)
  have hll := lens_length hv
  have hle : (startCache c.limitAtStart c.nbytes (lens c si) 0 0 0).1 ≤ si.length := by
    have := startCache_le c.limitAtStart c.nbytes (lens c si) 0 0 0 (Nat.le_refl _)
    omega
  generalize hnum : (startCache c.limitAtStart c.nbytes (lens c si) 0 0 0).1 = num at hle
  have hprop : Proper (lens c si) [⟨0, 0, [c.z]⟩, ⟨si.length, si.length, [c.z]⟩] :=
    ⟨[c.z], [c.z], [], by rw [hll]; rfl, Nat.zero_le _⟩
  have hheld : ∀ i, held (lens c si) ([⟨0, 0, [c.z]⟩, ⟨si.length, si.length, [c.z]⟩] : List (Iv F)) i = none := by
    intro i
    have := held_proper (lens c si) [c.z] [c.z] [] si.length i
    simpa [held] using this
  have hmap : ∀ i, i < si.length → ∃ k, k < si.length ∧ (List.range si.length)[i]? = some k ∧ si[k]? = si[i]? := by
    intro i hi
    exact ⟨i, hi, by simp [hi], rfl⟩
  unfold reinit
  simp only [hnum]
  by_cases h0 : 0 < num
  · right
    rw [if_pos h0]
    refine ⟨num, rfl, rfl, hsi, hsi, by simp, hmap, .inl rfl, hprop, by simp, ht, hle, ?_, ?_⟩
    · intro i hi; exact .inr ⟨Nat.zero_le _, hi⟩
    · refine TOk.check h0 hle rfl ?_
      intro i hi
      exact absurd (hheld i) hi
  · left
    rw [if_neg h0]
    refine ⟨rfl, rfl, hsi, hsi, by simp, hmap, .inl rfl, hprop, by simp, ht, hle, ?_, ?_⟩
    · intro i hi
      change i < num at hi
      omega
    · refine TOk.fin (fun i _ hi => absurd hi (Nat.not_lt_zero _)) ?_
      intro i hi
      exact absurd (hheld i) hi

theorem mapM_some {α β : Type} {f : α → Option β} {P : α → β → Prop} (l : List α) (h : ∀ r ∈ l, ∃ k, f r = some k ∧ P r k) :
    ∃ m, l.mapM f = some m ∧ List.Forall₂ P l m := by
  induction l with
  | nil => exact ⟨[], rfl, .nil⟩
  | cons a t ih =>
    obtain ⟨k, hk, hp⟩ := h a (by simp)
    obtain ⟨m, hm, hf⟩ := ih (fun r hr => h r (by simp [hr]))
    exact ⟨k :: m, by simp [List.mapM_cons, hk, hm], .cons hp hf⟩

theorem idx_back {l : List Nat} {r : Nat} (h : r ∈ l) :
    ∃ k, (l.reverse.idxOf? r).map (fun k => l.length - 1 - k) = some k ∧ k < l.length ∧ l[k]? = some r := by
  have h' : r ∈ l.reverse := by simpa using h
  cases he : l.reverse.idxOf? r with
  | none => exact absurd h' (List.idxOf?_eq_none_iff.1 he)
  | some k =>
    obtain ⟨hlt, hk, _⟩ := List.idxOf?_eq_some_iff.1 he
    have hg : l.reverse[k]? = some r := by rw [List.getElem?_eq_getElem hlt, hk]
    rw [List.length_reverse] at hlt
    rw [List.getElem?_reverse hlt] at hg
    exact ⟨l.length - 1 - k, rfl, by omega, hg⟩

/-- A call of `init_seq_order` without a running thread. -/
theorem initSeqOrder_ok {c : Cfg F T} {base : List Nat} (hb : BaseOk c base) {st : St F T} {order : List Nat} {a b : Nat} {si : List Nat}
    (hsi : si.Perm base) (h : st = init c ∨ Ok c base st order a b []) :
    ∃ st' th r, initSeqOrder c st si = .ok (st', th, r) ∧ ∃ a' b', Ok c base st' si a' b' (th.getD []) := by
  have hne : si.length ≠ 0 := by
    rw [hsi.length_eq]
    intro h0
    exact hb.1 (List.length_eq_zero_iff.1 h0)
  have hre : st.targets.length = (c.corpus.map (fun x => x.tgt.length)).sum →
      ∃ st' th r, (Except.ok ((reinit c st si).1, (reinit c st si).2, true) : Res (St F T × Option (List Act) × Bool)) = .ok (st', th, r) ∧
        ∃ a' b', Ok c base st' si a' b' (th.getD []) := by
    intro ht
    rcases reinit_ok hb hsi ht with ⟨h1, h2⟩ | ⟨m, h1, h2⟩
    · exact ⟨_, _, _, rfl, 0, 0, by rw [h1]; exact h2⟩
    · exact ⟨_, _, _, rfl, 0, m, by rw [h1]; exact h2⟩
  rcases h with rfl | h
  · have : initSeqOrder c (init c) si = .ok ((reinit c (init c) si).1, (reinit c (init c) si).2, true) := by
      unfold initSeqOrder
      rw [if_neg (by simp [init]), if_pos (by simp [init]), if_neg hne]
    rw [this]
    exact hre (by simp [init])
  · unfold initSeqOrder
    have hlen : si.length = st.seqIndex.length := by rw [hsi.length_eq, h.perm.length_eq]
    split
    · rename_i hc
      refine ⟨_, _, _, rfl, a, b, ?_⟩
      refine { h with operm := hsi, mlen := by rw [hlen]; simp, map := ?_, idmap := .inl (by rw [hlen]), thread := ?_ }
      · intro i hi
        change i < st.seqIndex.length at hi
        exact ⟨i, hi, by show (List.range si.length)[i]? = some i; rw [List.getElem?_range (by omega)], by show st.seqIndex[i]? = si[i]?; rw [hc.1]⟩
      · have ht := h.thread
        generalize hx : ([] : List Act) = th at ht
        cases ht with
        | fin h1 h2 => exact TOk.fin h1 h2
        | check => simp at hx
        | insert => simp at hx
        | markRest => simp at hx
        | loop => simp at hx
        | wrI => simp at hx
        | mark => simp at hx
    · split
      · exact hre h.tlen
      · rename_i hc
        have hncs : st.ncs = st.seqIndex.length := by
          by_contra hcon
          exact hc (.inl (by rw [hlen]; exact hcon))
        obtain ⟨m, hm, hf⟩ := mapM_some (P := fun r k => k < st.seqIndex.length ∧ st.seqIndex[k]? = some r) si (fun r hr =>
          idx_back (h.perm.mem_iff.2 (hsi.mem_iff.1 hr)))
        rw [hm]
        refine ⟨_, _, _, rfl, a, b, ?_⟩
        have hTfin : (∀ i, a ≤ i → i < b → i ∈ st.preload) ∧ (∀ i, held (lens c st.seqIndex) st.ivs i ≠ none → i ∈ st.preload) := by
          have ht := h.thread
          generalize hx : ([] : List Act) = th at ht
          cases ht with
          | fin h1 h2 => exact ⟨h1, h2⟩
          | check => simp at hx
          | insert => simp at hx
          | markRest => simp at hx
          | loop => simp at hx
          | wrI => simp at hx
          | mark => simp at hx
        refine { h with operm := hsi, mlen := ?_, map := ?_, idmap := .inr ⟨hncs, ?_⟩, thread := TOk.fin hTfin.1 hTfin.2 }
        · show m.length = _
          rw [← hf.length_eq, hlen]
        · intro i hi
          change i < st.seqIndex.length at hi
          have h1 : i < si.length := by omega
          have h2 : i < m.length := by rw [← hf.length_eq]; exact h1
          have := hf.get h1 h2
          simp only [List.get_eq_getElem] at this
          exact ⟨m[i], this.1, List.getElem?_eq_getElem h2, by
            show st.seqIndex[m[i]]? = si[i]?
            rw [this.2, List.getElem?_eq_getElem h1]⟩
        · intro i hi
          rcases h.ncspre i (by show i < st.ncs; rw [hncs]; exact hi) with h' | h'
          · exact h'
          · exact hTfin.1 i h'.1 h'.2

end Verif.HdfCache
