import Verif.MetaDs.Props
/-
C42 for `MetaDataset`: the order after `init_seq_order`.
-/
namespace Verif.MetaDs
open Verif.Py Spec
variable {T D : Type} [DecidableEq T]

/-- What `init_seq_order` gives if it re-initialises. -/
theorem init_reinit {c : Config T D} {s s' : State T D} {e : Int} {l : Option (List T)} {q : Option (List Nat)} {b : Bool}
    (hn : needReinit s (some e) l q = true) (h : init c s (some e) l q = (.ok b, s')) :
    b = true ∧ ∃ idx o, seqIndex c e l q = .ok idx ∧ orderLists c.orig idx = .ok o ∧ s'.ordered = some o ∧
      s'.num = some idx.length ∧ s'.epoch = some e ∧ s'.start = 0 ∧ s'.added = [] ∧
      s'.subs = initSubs c e (byControl c l q) o (initControl c e l q (reset s (some e))).subs := by
  unfold init at h
  simp only [hn, Bool.not_true, Bool.false_eq_true, if_false] at h
  obtain ⟨_, _, f3, f4, f5⟩ := initControl_facts c e l q (reset s (some e))
  cases h1 : seqIndex c e l q with
  | error err => rw [h1] at h; cases h
  | ok idx =>
    rw [h1] at h
    simp only at h
    cases h2 : orderLists c.orig idx with
    | error err => rw [h2] at h; cases h
    | ok o =>
      rw [h2] at h
      simp only at h
      injection h with h3 h4
      injection h3 with h3
      subst h4
      exact ⟨h3.symm, idx, o, rfl, h2, rfl, rfl, f4, f5, f3, rfl⟩

theorem tagIdx_ok {l : List T} {t : T} {i : Nat} (h : tagIdx l t = .ok i) :
    l[i]? = some t ∧ ∀ j, i < j → l[j]? ≠ some t := by
  unfold tagIdx at h
  cases hf : l.zipIdx.reverse.find? (fun p => decide (p.1 = t)) with
  | none => rw [hf] at h; cases h
  | some p =>
    rw [hf] at h
    injection h with h
    subst h
    rw [List.find?_eq_some_iff_append] at hf
    obtain ⟨h1, as, bs, h2, h3⟩ := hf
    simp only [decide_eq_true_eq] at h1
    have hmem : p ∈ l.zipIdx := by
      rw [← List.mem_reverse, h2]; simp
    rw [List.mem_zipIdx_iff_getElem?] at hmem
    refine ⟨by rw [hmem, h1], ?_⟩
    intro j hj hc
    have hm : (t, j) ∈ l.zipIdx := by rw [List.mem_zipIdx_iff_getElem?]; exact hc
    rw [← List.mem_reverse, h2, List.mem_append, List.mem_cons] at hm
    have hsorted : (l.zipIdx.reverse).Pairwise (fun a b => b.2 < a.2) := by
      rw [List.pairwise_reverse]
      have : (l.zipIdx.map Prod.snd).Pairwise (· < ·) := by
        rw [List.zipIdx_map_snd]
        exact List.pairwise_lt_range'
      exact List.pairwise_map.1 this
    rcases hm with hm | hm | hm
    · have := h3 _ hm; simp at this
    · rw [← hm] at hj; simp at hj
    · rw [h2] at hsorted
      have := (List.pairwise_cons.1 (List.pairwise_append.1 hsorted).2.1).1 _ hm
      simp only at this
      omega

theorem tagIdx_error {l : List T} {t : T} : t ∉ l ↔ tagIdx l t = .error .keyError := by
  unfold tagIdx
  cases hf : l.zipIdx.reverse.find? (fun p => decide (p.1 = t)) with
  | none =>
    simp only [iff_true]
    intro hm
    obtain ⟨i, hi⟩ := List.getElem?_of_mem hm
    rw [List.find?_eq_none] at hf
    have := hf (t, i) (by rw [List.mem_reverse, List.mem_zipIdx_iff_getElem?]; exact hi)
    simp at this
  | some p =>
    simp only [reduceCtorEq, iff_false, not_not]
    have h1 := List.find?_some hf
    simp only [decide_eq_true_eq] at h1
    have h2 := List.mem_of_find?_eq_some hf
    rw [List.mem_reverse, List.mem_zipIdx_iff_getElem?] at h2
    rw [← h1]
    exact List.mem_of_getElem? h2

/-- C42. With an explicit list of tags, whatever happened before, the dataset has exactly the sequences with these tags, in
this order. -/
theorem init_list (c : Config T D) (hd : c.dflt < c.orig.length) (s : State T D) (e : Int) (l : List T) {b : Bool}
    {s' : State T D} (h : init c s (some e) (some l) none = (.ok b, s')) :
    ∃ o, s'.ordered = some o ∧ o.getD c.dflt [] = l ∧ s'.num = some l.length := by
  obtain ⟨_, idx, o, h1, h2, h3, h4, _⟩ := init_reinit (by simp [needReinit]) h
  simp only [seqIndex] at h1
  obtain ⟨m1, m2⟩ := mapM_ok h1
  obtain ⟨o1, o2, o3⟩ := orderLists_get h2
  refine ⟨o, h3, ?_, by rw [h4, m1]⟩
  apply List.ext_getElem?
  intro i
  by_cases hi : i < l.length
  · obtain ⟨j, hj1, hj2⟩ := m2 i l[i] (List.getElem?_eq_getElem hi)
    obtain ⟨t, ht1, ht2⟩ := o3 c.dflt i j hd hj1
    rw [(tagIdx_ok hj2).1] at ht2
    rw [ht1, List.getElem?_eq_getElem hi, ht2]
  · rw [List.getElem?_eq_none (by rw [o2 c.dflt hd]; omega), List.getElem?_eq_none (by omega)]

/-- C42. A tag which is not in the list of the default dataset is a `KeyError`. -/
theorem init_list_fails (c : Config T D) (s : State T D) (e : Int) (l : List T)
    (h : ∃ t ∈ l, t ∉ c.orig.getD c.dflt []) : (init c s (some e) (some l) none).1 = .error .keyError := by
  have : l.mapM (tagIdx (c.orig.getD c.dflt [])) = .error .keyError := by
    obtain ⟨t, ht, hn⟩ := h
    induction l with
    | nil => cases ht
    | cons a l ih =>
      simp only [List.mapM_cons, bind, Except.bind]
      by_cases ha : a ∈ c.orig.getD c.dflt []
      · cases hta : tagIdx (c.orig.getD c.dflt []) a with
        | error e =>
          simp only
          unfold tagIdx at hta
          split at hta
          · cases hta
          · injection hta with hta
            rw [← hta]
        | ok i =>
          simp only
          rcases List.mem_cons.1 ht with rfl | ht
          · exact absurd ha hn
          · rw [ih ht]
      · rw [tagIdx_error.1 ha]
  unfold init
  simp only [needReinit, Option.isSome_some, Bool.or_true, Bool.true_or, Bool.not_true, Bool.false_eq_true, if_false, seqIndex, this]

/-- C42. With an explicit order (corpus indices), whatever happened before, sequence `i` is the line `q[i]` of the lists of
tags, for every sub-dataset. -/
theorem init_order (c : Config T D) (s : State T D) (e : Int) (l : Option (List T)) (q : List Nat) {b : Bool}
    {s' : State T D} (h : init c s (some e) l (some q) = (.ok b, s')) :
    ∃ o, s'.ordered = some o ∧ s'.num = some q.length ∧
      ∀ d < c.orig.length, (o.getD d []).map some = q.map (fun j => (c.orig.getD d [])[j]?) := by
  obtain ⟨_, idx, o, h1, h2, h3, h4, _⟩ := init_reinit (by simp [needReinit]) h
  simp only [seqIndex] at h1
  have hq : q = idx := by
    cases l <;> (injection h1)
  subst hq
  obtain ⟨o1, o2, o3⟩ := orderLists_get h2
  refine ⟨o, h3, h4, fun d hd => ?_⟩
  apply List.ext_getElem (by rw [List.length_map, List.length_map, o2 d hd])
  intro i g1 g2
  simp only [List.length_map] at g1 g2
  obtain ⟨t, ht1, ht2⟩ := o3 d i _ hd (List.getElem?_eq_getElem g2)
  rw [List.getElem?_eq_getElem g1] at ht1
  rw [List.getElem_map, List.getElem_map, ht2, ht1]

/-- The states after calls of `init_seq_order` without explicit list which were successful, and `load_seqs`. -/
inductive Plain (c : Config T D) : State T D → Prop
  | new : Plain c (new c.orig.length)
  | init (s s' : State T D) (epoch : Option Int) (b : Bool) : Plain c s → init c s epoch none none = (.ok b, s') → Plain c s'
  | load (s s' : State T D) (start fin : Nat) : Plain c s → load c s start fin = .ok s' → Plain c s'

/-- The order for an epoch. -/
def freshOrder (c : Config T D) (e : Int) : Res (List (List T)) :=
  (if c.control then .ok (c.ctrlOrder e) else c.order e).bind (orderLists c.orig)

theorem fresh_of_plain {c : Config T D} {s : State T D} (h : Plain c s) :
    ∀ e o, s.epoch = some e → s.ordered = some o → freshOrder c e = .ok o := by
  induction h with
  | new => intro e o h; simp [new] at h
  | init s s' epoch b _ hi ih =>
    intro e o he ho
    cases epoch with
    | none =>
      unfold init at hi
      injection hi with _ hi
      subst hi
      simp [reset] at he
    | some e' =>
      cases hn : needReinit s (some e') none none with
      | true =>
        obtain ⟨_, idx, o', h1, h2, h3, _, h5, _⟩ := init_reinit hn hi
        rw [h5] at he
        injection he with he
        subst he
        rw [h3] at ho
        injection ho with ho
        subst ho
        simp only [seqIndex] at h1
        unfold freshOrder
        rw [h1]
        exact h2
      | false =>
        unfold init at hi
        simp only [hn, Bool.not_false, if_true] at hi
        injection hi with _ hi
        subst hi
        simp only [needReinit, Bool.or_eq_false_iff, decide_eq_false_iff_not, not_not] at hn
        apply ih e o
        · rw [hn.1.1.1.1.2]; exact he
        · exact ho
  | load s s' start fin _ hl ih =>
    obtain ⟨h1, h2, _⟩ := load_ok hl
    rw [h1, h2]
    exact ih

/-- C42. If no explicit list was given before (and nothing failed), the order after `init_seq_order(epoch)` only depends on
the epoch. -/
theorem init_fresh_partial (c : Config T D) (s : State T D) (hp : Plain c s) (e : Int) {b : Bool} {s' : State T D}
    (h : init c s (some e) none none = (.ok b, s')) :
    ∃ o, freshOrder c e = .ok o ∧ s'.ordered = some o ∧ (c.dflt < c.orig.length → s'.num = some (o.getD c.dflt []).length) := by
  have hp' := Plain.init s s' (some e) b hp h
  cases hn : needReinit s (some e) none none with
  | true =>
    obtain ⟨_, idx, o, h1, h2, h3, h4, h5, _⟩ := init_reinit hn h
    refine ⟨o, fresh_of_plain hp' e o h5 h3, h3, fun hd => ?_⟩
    rw [h4, (orderLists_get h2).2.1 c.dflt hd]
  | false =>
    have h' := h
    unfold init at h
    simp only [hn, Bool.not_false, if_true] at h
    injection h with _ h
    simp only [needReinit, Bool.or_eq_false_iff, decide_eq_false_iff_not, not_not] at hn
    cases ho : s.ordered with
    | none => rw [ho] at hn; simp at hn
    | some o =>
      have h3 : s'.ordered = some o := by rw [← h]; exact ho
      refine ⟨o, fresh_of_plain hp' e o (by rw [← h]; rfl) h3, h3, fun _ => ?_⟩
      rw [← h]
      simp [reset, ho]

/-- Two sub-datasets with the same sequences. -/
def exC : Config Nat Nat :=
  { orig := [[10, 11, 12], [20, 21, 22]], dflt := 0, control := false,
    react := fun d _ l => (l.getD []).map (fun t => (t, 100 * d + t)), ctrlOrder := fun _ => [], order := fun e => .ok (if e = 1 then [0, 1, 2] else [2, 1, 0]) }

/-- The ordered list of the default dataset. -/
def tagsOf (c : Config Nat Nat) (s : State Nat Nat) : List Nat := (s.ordered.getD []).getD c.dflt []

/-- C42 violated: after an explicit list, `init_seq_order` for the same epoch without a list keeps the explicit list. -/
theorem init_keeps_list :
    tagsOf exC ([.init (some 1) (some [12]) none, .init (some 1) none none].foldl (step exC) (new 2)) = [12] ∧
    tagsOf exC ([.init (some 1) none none].foldl (step exC) (new 2)) = [10, 11, 12] := by decide +kernel

/-- C42 violated: after a call which failed, the next call for this epoch gives the order of the epoch before. -/
theorem init_after_failure :
    tagsOf exC ([.init (some 1) none none, .init (some 2) (some [99]) none, .init (some 2) none none].foldl (step exC) (new 2)) =
      [10, 11, 12] ∧
    tagsOf exC ([.init (some 2) none none].foldl (step exC) (new 2)) = [12, 11, 10] := by decide +kernel

/-- Whether a call fails. -/
def failsWith (c : Config Nat Nat) (s : State Nat Nat) (a b : Nat) : Option Err :=
  match load c s a b with
  | .ok _ => none
  | .error e => some e

/-- C42 violated: `init_seq_order` for the same epoch does not rewind the sub-datasets, if only the own window did not
move. The first sequence cannot be loaded again then. -/
theorem init_not_rewound :
    failsWith exC ([.init (some 1) none none, .load 0 1, .load 0 2, .init (some 1) none none].foldl (step exC) (new 2)) 0 1 =
      some .assertion ∧
    failsWith exC ([.init (some 1) none none, .load 0 1].foldl (step exC) (new 2)) 0 2 = none := by decide +kernel

/-! ### Loading works -/

/-- The state after re-initialisation and loading. -/
structure Ready (s : State T D) (o : List (List T)) (n : Nat) : Prop where
  ord : s.ordered = some o
  tags : ∀ (d : Nat) (b : Sub T D), s.subs[d]? = some b → b.cur.map Prod.fst = o.getD d [] ∧ (o.getD d []).length = n
  win : ∀ b ∈ s.subs, b.start ≤ firstNew s s.start
  add : ∃ k, s.added.map Seq.idx = List.range' s.start k

omit [DecidableEq T] in
theorem firstNew_eq {s : State T D} {k : Nat} (h : s.added.map Seq.idx = List.range' s.start k) (start : Nat) :
    firstNew s start = max (s.start + k) start ∨ (k = 0 ∧ firstNew s start = start) := by
  unfold firstNew
  cases hl : s.added.getLast? with
  | none =>
    right
    have : s.added = [] := List.getLast?_eq_none_iff.1 hl
    rw [this] at h
    have := congrArg List.length h
    simp at this
    exact ⟨this.symm, rfl⟩
  | some x =>
    left
    have h1 : (s.added.map Seq.idx).getLast? = some x.idx := by rw [List.getLast?_map, hl]; rfl
    rw [h] at h1
    cases k with
    | zero => simp at h1
    | succ k =>
      rw [List.getLast?_range'] at h1
      simp at h1
      simp only
      omega

omit [DecidableEq T] in
theorem range'_dropWhile (a k start : Nat) (added : List (Seq T D)) (h : added.map Seq.idx = List.range' a k) (hs : a ≤ start) :
    (added.dropWhile (fun x => decide (x.idx < start))).map Seq.idx = List.range' start (a + k - start) := by
  induction added generalizing a k with
  | nil =>
    have := congrArg List.length h
    simp at this
    subst this
    rw [show a + 0 - start = 0 from by omega]
    rfl
  | cons x l ih =>
    cases k with
    | zero => simp at h
    | succ k =>
      rw [List.range'_succ, List.map_cons] at h
      injection h with h1 h2
      by_cases hx : x.idx < start
      · rw [List.dropWhile_cons_of_pos (by simpa using hx), ih (a + 1) k h2 (by omega)]
        congr 1
        omega
      · rw [List.dropWhile_cons_of_neg (by simpa using hx), List.map_cons, h1, h2]
        rw [show start = a from by omega, Nat.add_sub_cancel_left, List.range'_succ]

/-- C50. After a re-initialisation, if the sub-datasets do what they are asked for, the sequences can be loaded: no window
with increasing start fails, and the sequences of the window are there. -/
theorem load_succeeds (c : Config T D) (hd : c.dflt < c.orig.length) {s : State T D} {o : List (List T)} {n : Nat}
    (hi : Inv c s) (hr : Ready s o n) {start fin : Nat} (hs : s.start ≤ start) (hsf : start ≤ fin)
    (hf : fin ≤ n) :
    ∃ s', load c s start fin = .ok s' ∧ Ready s' o n ∧ Inv c s' ∧
      ∀ i, start ≤ i → i < fin → ∃ x ∈ s'.added, x.idx = i ∧ (o.getD c.dflt [])[i]? = some x.tag := by
  have hlen := hi.len
  obtain ⟨k, hk⟩ := hr.add
  have hfn := firstNew_eq hk start
  have hfn0 := firstNew_eq hk s.start
  have hwin : ∀ b ∈ s.subs, b.start ≤ firstNew s start := by
    intro b hb
    have := hr.win b hb
    rcases hfn with h | ⟨h, h'⟩ <;> rcases hfn0 with g | ⟨g, g'⟩ <;> omega
  have hdef : ∀ (d : Nat) (b : Sub T D), s.subs[d]? = some b → ∀ i : Nat, i < fin →
      ∃ x : T × D, b.cur[i]? = some x ∧ ((s.ordered.getD []).getD d [])[i]? = some x.1 := by
    intro d b hb i hi
    obtain ⟨h1, h2⟩ := hr.tags d b hb
    have hl : b.cur.length = n := by rw [← h2, ← h1]; simp
    refine ⟨b.cur[i]'(by omega), List.getElem?_eq_getElem (by omega), ?_⟩
    rw [hr.ord, Option.getD_some, ← h1, List.getElem?_map, List.getElem?_eq_getElem (by omega)]
    rfl
  -- the sub-datasets
  have h1 : ∃ subs1, loadDatasets s start fin = .ok { s with subs := subs1 } ∧ subs1.map Sub.cur = s.subs.map Sub.cur ∧
      ∀ b ∈ subs1, b.start ≤ firstNew s start := by
    unfold loadDatasets
    by_cases hlt : firstNew s start < fin
    · rw [if_pos hlt]
      have := (loadSubs_ok (start := firstNew s start) (fin := fin) (bs := s.subs) (tags := s.ordered.getD [])
        (bs' := s.subs.map (fun b => { b with start := firstNew s start }))).2
        ⟨rfl, fun d b hb => ⟨hwin b (List.mem_of_getElem? hb), fun i _ hi => hdef d b hb i hi⟩⟩
      refine ⟨s.subs.map (fun b => { b with start := firstNew s start }), ?_, ?_, ?_⟩
      · simp only [bind, Except.bind, this]
      · rw [List.map_map]; rfl
      · intro b hb
        rw [List.mem_map] at hb
        obtain ⟨b', _, rfl⟩ := hb
        simp
    · rw [if_neg hlt]
      exact ⟨s.subs, rfl, rfl, hwin⟩
  obtain ⟨subs1, g1, g2, g3⟩ := h1
  have hget : ∀ (d : Nat) (b : Sub T D), subs1[d]? = some b → ∃ b', s.subs[d]? = some b' ∧ b.cur = b'.cur := by
    intro d b hb
    have h1 : (subs1.map Sub.cur)[d]? = some b.cur := by rw [List.getElem?_map, hb]; rfl
    rw [g2, List.getElem?_map] at h1
    cases hb' : s.subs[d]? with
    | none => rw [hb'] at h1; cases h1
    | some b' =>
      rw [hb'] at h1
      injection h1 with h1
      exact ⟨b', rfl, h1.symm⟩
  have hmv : (moveWindow { s with subs := subs1 } start).ordered = some o ∧
      (moveWindow { s with subs := subs1 } start).subs = subs1 ∧ (moveWindow { s with subs := subs1 } start).start = start ∧
      ((moveWindow { s with subs := subs1 } start).added.map Seq.idx = List.range' start (s.start + k - start)) := by
    unfold moveWindow
    simp only
    split
    · refine ⟨hr.ord, rfl, rfl, ?_⟩
      exact range'_dropWhile s.start k start s.added hk hs
    · have he : s.start = start := by omega
      refine ⟨hr.ord, rfl, he, ?_⟩
      simp only
      rw [hk, he, Nat.add_sub_cancel_left]
  obtain ⟨v1, v2, v3, v4⟩ := hmv
  have hfm : firstNew (moveWindow { s with subs := subs1 } start) start = firstNew s start := by
    rw [firstNew_move]; rfl
  have hcol : ∃ new, (List.range' (firstNew s start) (fin - firstNew s start)).mapM
      (collect c (moveWindow { s with subs := subs1 } start)) = .ok new := by
    apply mapM_total
    intro i hi
    rw [List.mem_range'_1] at hi
    have hin : i < fin := by omega
    have hlen1 : subs1.length = s.subs.length := by have := congrArg List.length g2; simpa using this
    have ht : ∃ t, (o.getD c.dflt [])[i]? = some t := by
      obtain ⟨h2, h3⟩ := hr.tags c.dflt (s.subs[c.dflt]'(by omega)) (List.getElem?_eq_getElem _)
      exact ⟨(o.getD c.dflt [])[i]'(by omega), List.getElem?_eq_getElem _⟩
    obtain ⟨t, ht⟩ := ht
    have hdata : ∃ data, subs1.mapM (fun b => (b.get i).map Prod.snd) = .ok data := by
      apply mapM_total
      intro b hb
      obtain ⟨d, hd'⟩ := List.getElem?_of_mem hb
      obtain ⟨b', hb1, hb2⟩ := hget d b hd'
      obtain ⟨x, hx, _⟩ := hdef d b' hb1 i hin
      refine ⟨x.2, ?_⟩
      rw [Sub.get_ok.2 ⟨by have := g3 b hb; omega, by rw [hb2]; exact hx⟩]
      rfl
    obtain ⟨data, hdata⟩ := hdata
    refine ⟨{ idx := i, tag := t, data := data }, ?_⟩
    simp only [collect, bind, Except.bind, v1, Option.getD_some, v2, hdata, getItem_ok.2 ht]
  obtain ⟨new, hnew⟩ := hcol
  have hload : load c s start fin = .ok { moveWindow { s with subs := subs1 } start with
      added := (moveWindow { s with subs := subs1 } start).added ++ new } := by
    simp only [load, bind, Except.bind, g1, pyAssert, decide_eq_true hs, if_true, hfm, hnew]
  have hspec := load_ok hload
  obtain ⟨_, _, _, _, _, p6, new', p7, p8, p9⟩ := hspec
  refine ⟨_, hload, ?_, ?_, ?_⟩
  · have hadd : ∃ k', ((moveWindow { s with subs := subs1 } start).added ++ new).map Seq.idx = List.range' start k' := by
      have hnewidx : new.map Seq.idx = List.range' (firstNew s start) (fin - firstNew s start) := by
        have : new' = new := by
          have e : (moveWindow { s with subs := subs1 } start).added = (moveWindow s start).added := by
            unfold moveWindow; simp only; split <;> rfl
          rw [e] at p7
          exact (List.append_cancel_left p7).symm
        rw [← this]; exact p8
      rw [List.map_append, v4, hnewidx]
      have hfnv : firstNew s start = start + (s.start + k - start) := by
        rcases hfn with h | ⟨h, h'⟩ <;> omega
      rw [hfnv, List.range'_append_1]
      exact ⟨_, rfl⟩
    refine ⟨v1, ?_, ?_, by simp only [v3]; exact hadd⟩
    · intro d b hb
      simp only [v2] at hb
      obtain ⟨b', hb1, hb2⟩ := hget d b hb
      rw [hb2]
      exact hr.tags d b' hb1
    · intro b hb
      simp only [v2] at hb
      have := g3 b hb
      obtain ⟨k', hk'⟩ := hadd
      have hlenk : k' = (s.start + k - start) + new.length := by
        have := congrArg List.length hk'
        rw [List.length_map, List.length_append, List.length_range'] at this
        have h5 := congrArg List.length v4
        rw [List.length_map, List.length_range'] at h5
        omega
      have h6 : ∀ (t : State T D), t.added = (moveWindow { s with subs := subs1 } start).added ++ new →
          firstNew t start = max (start + k') start ∨ (k' = 0 ∧ firstNew t start = start) := by
        intro t ht
        exact firstNew_eq (s := { t with start := start }) (k := k') (by simp only [ht]; exact hk') start
      have h7 : firstNew s start ≤ start + k' ∧ start ≤ firstNew s start := by
        rcases hfn with h | ⟨h, h'⟩ <;> omega
      show b.start ≤ firstNew _ (moveWindow { s with subs := subs1 } start).start
      rw [v3]
      rcases h6 { moveWindow { s with subs := subs1 } start with
        added := (moveWindow { s with subs := subs1 } start).added ++ new } rfl with h | ⟨h, h'⟩
      · refine Nat.le_trans ?_ (Nat.le_of_eq h.symm); omega
      · refine Nat.le_trans ?_ (Nat.le_of_eq h'.symm); omega
  · exact inv_load hi hload
  · intro i h1 h2
    have e : (moveWindow { s with subs := subs1 } start).added = (moveWindow s start).added := by
      unfold moveWindow; simp only; split <;> rfl
    have hnn : new' = new := by
      rw [e] at p7
      exact (List.append_cancel_left p7).symm
    subst hnn
    have hidx : i ∈ ((moveWindow { s with subs := subs1 } start).added ++ new').map Seq.idx := by
      rw [List.map_append, v4, p8, List.mem_append, List.mem_range'_1, List.mem_range'_1]
      rcases hfn with h | ⟨h, h'⟩ <;> omega
    rw [List.mem_map] at hidx
    obtain ⟨x, hx, rfl⟩ := hidx
    refine ⟨x, hx, rfl, ?_⟩
    have := ((inv_load hi hload).add x hx).1
    simp only [v1, Option.getD_some] at this
    exact this

/-- C50. After a re-initialisation, if the sub-datasets do what they are asked for, everything is ready for loading. -/
theorem ready_after_init (c : Config T D) (ho : Obey c) (hd : c.dflt < c.orig.length) {s s' : State T D} (hi : Inv c s)
    {e : Int} {l : Option (List T)} {q : Option (List Nat)} {b : Bool} (hn : needReinit s (some e) l q = true)
    (h : init c s (some e) l q = (.ok b, s')) :
    ∃ o n, Ready s' o n ∧ Inv c s' ∧ s'.num = some n := by
  have hi' := inv_init hi (some e) l q
  rw [h] at hi'
  obtain ⟨_, idx, o, h1, h2, h3, h4, _, h6, h7, h8⟩ := init_reinit hn h
  obtain ⟨o1, o2, o3⟩ := orderLists_get h2
  refine ⟨o, idx.length, ⟨h3, ?_, ?_, ⟨0, by rw [h7]; rfl⟩⟩, hi', h4⟩
  · intro d b hb
    have hdl : d < c.orig.length := by
      have := (List.getElem?_eq_some_iff.1 hb).1
      rw [hi'.len] at this
      exact this
    refine ⟨?_, o2 d hdl⟩
    rw [h8, initSubs, List.getElem?_mapIdx] at hb
    cases hb0 : (initControl c e l q (reset s (some e))).subs[d]? with
    | none => rw [hb0] at hb; cases hb
    | some b0 =>
      rw [hb0] at hb
      injection hb with hb
      simp only at hb
      by_cases hc : (byControl c l q && decide (d = c.dflt)) = true
      · rw [if_pos hc] at hb
        subst hb
        simp only [Bool.and_eq_true, decide_eq_true_eq] at hc
        obtain ⟨hc1, rfl⟩ := hc
        have hb1 : b0.cur = c.react c.dflt e none := by
          unfold initControl at hb0
          rw [if_pos hc1] at hb0
          simp only at hb0
          rw [List.getElem?_set_self (by show c.dflt < (reset s (some e)).subs.length; simp only [reset]; rw [hi.len]; exact hd)] at hb0
          injection hb0 with hb0
          rw [← hb0]
        have hidx : idx = c.ctrlOrder e := by
          simp only [byControl, Bool.and_eq_true, Option.isNone_iff_eq_none] at hc1
          obtain ⟨⟨rfl, rfl⟩, hc2⟩ := hc1
          simp only [seqIndex, hc2, if_true] at h1
          injection h1 with h1
          exact h1.symm
        have hobey := ho.2 e
        rw [← hidx] at hobey
        apply List.ext_getElem?
        intro i
        have hoi := congrArg (fun l => l[i]?) hobey
        simp only [List.getElem?_map] at hoi
        rw [List.getElem?_map, hb1]
        by_cases hil : i < idx.length
        · obtain ⟨t, ht1, ht2⟩ := o3 c.dflt i _ hd (List.getElem?_eq_getElem hil)
          rw [List.getElem?_eq_getElem hil] at hoi
          simp only [Option.map_some, ht2] at hoi
          rw [ht1]
          cases hr : (c.react c.dflt e none)[i]? with
          | none => rw [hr] at hoi; simp at hoi
          | some p => rw [hr] at hoi; simp at hoi; simp [hoi]
        · rw [List.getElem?_eq_none (show idx.length ≤ i by omega)] at hoi
          rw [List.getElem?_eq_none (show (o.getD c.dflt []).length ≤ i by rw [o2 _ hd]; omega)]
          cases hr : (c.react c.dflt e none)[i]? with
          | none => rfl
          | some p => rw [hr] at hoi; simp at hoi
      · rw [if_neg hc] at hb
        subst hb
        exact ho.1 d e _
  · intro b hb
    have hz : b.start = 0 := by
      rw [h8, initSubs, List.mem_mapIdx] at hb
      obtain ⟨d, hdlt, hb⟩ := hb
      by_cases hc : (byControl c l q && decide (d = c.dflt)) = true
      · rw [if_pos hc] at hb
        simp only [Bool.and_eq_true, decide_eq_true_eq] at hc
        obtain ⟨hc1, rfl⟩ := hc
        have h9 : (initControl c e l q (reset s (some e))).subs[c.dflt]? = some b := by
          rw [List.getElem?_eq_getElem hdlt, hb]
        unfold initControl at h9
        rw [if_pos hc1] at h9
        simp only at h9
        rw [List.getElem?_set_self (by show c.dflt < (reset s (some e)).subs.length; simp only [reset]; rw [hi.len]; exact hd)] at h9
        injection h9 with h9
        rw [← h9]
      · rw [if_neg hc] at hb
        rw [← hb]
    omega

/-! ### Examples -/

example : Obey exC := by
  refine ⟨fun d e l => ?_, fun e => rfl⟩
  simp only [exC, Option.getD_some, List.map_map]
  exact List.map_id l
example : ((([.init (some 2) none none, .load 0 1, .load 1 3].foldl (step exC) (new 2)).added).map (fun x => (x.idx, x.tag, x.data))) =
    [(1, 11, [11, 121]), (2, 10, [10, 120])] := by decide +kernel
example : Plain exC (step exC (new 2) (.init (some 2) none none)) := Plain.init _ _ (some 2) true Plain.new rfl

end Verif.MetaDs
