import Verif.HdfCache.Remove
/-
Lemmas on the whole list of intervals: insert, remove, look up, write, delete.
-/
namespace Verif.HdfCache
open Verif.Py

variable {F T : Type}

theorem Sorted.held_mem {ls : List Nat} {mid : List (Iv F)} {v : Iv F} {i : Nat} (hv : v ∈ mid) (hi : v.s ≤ i ∧ i < v.e) :
    held ls mid i ≠ none := by
  induction mid with
  | nil => simp at hv
  | cons u r ih =>
    rw [held_cons]
    split
    · simp
    · rename_i hc
      rcases List.mem_cons.1 hv with rfl | h
      · exact absurd hi hc
      · exact ih h

theorem Sorted.mem {ls : List Nat} {mid : List (Iv F)} {v : Iv F} : ∀ {lo hi : Nat}, Sorted ls lo hi mid → v ∈ mid →
    lo ≤ v.s ∧ v.s < v.e ∧ v.e ≤ hi ∧ v.d.length = seqStart ls v.e - seqStart ls v.s := by
  induction mid with
  | nil => intro lo hi _ h; simp at h
  | cons u r ih =>
    intro lo hi h hv
    rcases List.mem_cons.1 hv with rfl | hv
    · exact ⟨h.1, h.2.1, h.2.2.2.le, h.2.2.1⟩
    · have := ih h.2.2.2 hv
      have := h.1
      have := h.2.1
      omega

theorem held_proper (ls : List Nat) (z1 z2 : List F) (mid : List (Iv F)) (n i : Nat) :
    held ls (⟨0, 0, z1⟩ :: mid ++ [⟨n, n, z2⟩]) i = held ls mid i := by
  have : ((⟨0, 0, z1⟩ :: mid ++ [⟨n, n, z2⟩]) : List (Iv F)) = [⟨0, 0, z1⟩] ++ (mid ++ [⟨n, n, z2⟩]) := rfl
  rw [this, held_append, held_append, held_empty, held_empty]
  simp

theorem Sorted.adj {ls : List Nat} {z2 : List F} {mid : List (Iv F)} : ∀ {a : Iv F}, Sorted ls a.e ls.length mid →
    Adj (a :: mid ++ [⟨ls.length, ls.length, z2⟩]) := by
  induction mid with
  | nil => intro a h; exact ⟨h, trivial⟩
  | cons v r ih => intro a h; exact ⟨h.1, ih h.2.2.2⟩

theorem getLast?_concat' {α : Type} (a : α) (l : List α) (w : α) : (a :: l ++ [w]).getLast? = some w := by
  rw [List.getLast?_append]; simp

theorem modifyAlloc_ins {ls : List Nat} (z : F) {ivs : List (Iv F)} (hp : Proper ls ivs) {start stop : Nat} (hs : start < stop)
    (hstop : stop ≤ ls.length) :
    ∃ ivs' sel, modifyAlloc ls z true ivs start stop = .ok (ivs', sel) ∧ Proper ls ivs' ∧
      (∀ i, held ls ivs' i = (held ls ivs i).or
        (if start ≤ i ∧ i < stop then some (List.replicate (ls.getD i 0) z) else none)) ∧
      sel.Pairwise (· < ·) ∧ (∀ i, i ∈ sel ↔ held ls ivs i = none ∧ start ≤ i ∧ i < stop) := by
  obtain ⟨z1, z2, mid, rfl, hsort⟩ := hp
  obtain ⟨mid', sel, he, hI⟩ := insRec_spec ls z start stop hs hstop z2 mid ⟨0, 0, z1⟩ hsort
  have hloop := modLoop_ins ls z start stop (⟨0, 0, z1⟩ :: mid ++ [⟨ls.length, ls.length, z2⟩]) [] []
    ((⟨0, 0, z1⟩ :: mid ++ [⟨ls.length, ls.length, z2⟩] : List (Iv F)).length + 1) (Sorted.adj (a := ⟨0, 0, z1⟩) hsort) (by omega)
  rw [he] at hloop
  simp only [List.nil_append, List.length_nil] at hloop
  have hfix : fixEnds z ls.length (⟨0, 0, z1⟩ :: mid' ++ [⟨ls.length, ls.length, z2⟩]) =
      .ok (⟨0, 0, z1⟩ :: mid' ++ [⟨ls.length, ls.length, z2⟩]) := by
    have h : ∀ (t : List (Iv F)), fixEnds z ls.length (⟨0, 0, z1⟩ :: (t ++ [⟨ls.length, ls.length, z2⟩])) =
        .ok (⟨0, 0, z1⟩ :: (t ++ [⟨ls.length, ls.length, z2⟩])) := by
      intro t
      have := getLast?_concat' (⟨0, 0, z1⟩ : Iv F) t ⟨ls.length, ls.length, z2⟩
      rw [List.cons_append] at this
      simp [fixEnds, this]
    exact h mid'
  refine ⟨_, sel, ?_, ⟨z1, z2, mid', rfl, hI.sorted⟩, ?_, hI.inc, ?_⟩
  · unfold modifyAlloc
    rw [if_neg (by omega)]
    simp only [pyAssert, hs, decide_true, if_true, bind, Except.bind, hloop, hfix]
  · intro i
    rw [held_proper, held_proper, hI.heldEq i]
    simp
  · intro i
    rw [hI.mem i, held_proper]
    simp

/-- Where the removal starts, the empty interval at the start goes if it starts at `0`. -/
theorem remRec_head (ls : List Nat) (start stop : Nat) (hs : start < stop) (z1 : List F) (l : List (Iv F)) :
    remRec ls start stop (⟨0, 0, z1⟩ :: l) =
      ((if start = 0 then [] else [⟨0, 0, z1⟩]) ++ (remRec ls start stop l).1, (remRec ls start stop l).2) := by
  rw [remRec]
  simp only
  rw [if_neg (by omega), if_neg (by omega)]
  by_cases h : start = 0
  · subst h
    rw [if_neg (by omega)]
    simp [cut]
  · rw [if_pos (by omega), if_neg h]
    simp

theorem modLoop_rem_proper {ls : List Nat} (z : F) (start stop : Nat) (hs : start < stop) (z1 z2 : List F) (mid : List (Iv F))
    (hsort : Sorted ls 0 ls.length mid) :
    modLoop ls z false start stop ((⟨0, 0, z1⟩ :: mid ++ [⟨ls.length, ls.length, z2⟩] : List (Iv F)).length + 1) 0
      (⟨0, 0, z1⟩ :: mid ++ [⟨ls.length, ls.length, z2⟩]) [] =
      .ok ((if start = 0 then [] else [⟨0, 0, z1⟩]) ++ (remRec ls start stop (mid ++ [⟨ls.length, ls.length, z2⟩])).1,
        (remRec ls start stop (mid ++ [⟨ls.length, ls.length, z2⟩])).2) := by
  have hloop := modLoop_rem ls z start stop (⟨0, 0, z1⟩ :: mid ++ [⟨ls.length, ls.length, z2⟩]) [] []
    ((⟨0, 0, z1⟩ :: mid ++ [⟨ls.length, ls.length, z2⟩] : List (Iv F)).length + 1) (by
      intro v hv
      simp only [List.cons_append, List.mem_cons, List.mem_append, List.not_mem_nil, or_false] at hv
      rcases hv with rfl | hv | rfl
      · exact Nat.le_refl _
      · have := hsort.mem hv; omega
      · exact Nat.le_refl _) (by omega)
  simp only [List.nil_append, List.length_nil] at hloop
  rw [hloop, List.cons_append, remRec_head ls start stop hs]

theorem modifyAlloc_rem {ls : List Nat} (z : F) {ivs : List (Iv F)} (hp : Proper ls ivs) {start stop : Nat} (hs : start < stop)
    (hstop : stop ≤ ls.length) (hne : ¬(start = 0 ∧ stop = ls.length ∧ held ls ivs (stop - 1) = none)) :
    ∃ ivs' sel, modifyAlloc ls z false ivs start stop = .ok (ivs', sel) ∧ Proper ls ivs' ∧
      (∀ i, held ls ivs' i = if start ≤ i ∧ i < stop then none else held ls ivs i) ∧
      sel.Pairwise (· < ·) ∧ (∀ i, i ∈ sel ↔ held ls ivs i ≠ none ∧ start ≤ i ∧ i < stop) := by
  obtain ⟨z1, z2, mid, rfl, hsort⟩ := hp
  rw [held_proper] at hne
  obtain ⟨mid', t, sel, he, ht, hI⟩ := remRec_spec ls start stop hs hstop z2 mid 0 hsort
  have hloop := modLoop_rem_proper z start stop hs z1 z2 mid hsort
  rw [he] at hloop
  have hgone : ∀ v ∈ mid', ∀ i, v.s ≤ i → i < v.e → ¬(start ≤ i ∧ i < stop) := by
    intro v hv i h1 h2 h3
    have := Sorted.held_mem (ls := ls) hv ⟨h1, h2⟩
    rw [hI.heldEq i, if_pos h3] at this
    exact this rfl
  have hfix : ∃ z1' z2', fixEnds z ls.length ((if start = 0 then [] else [⟨0, 0, z1⟩]) ++ (mid' ++ t)) =
      .ok (⟨0, 0, z1'⟩ :: mid' ++ [⟨ls.length, ls.length, z2'⟩]) := by
    rcases ht with rfl | ⟨rfl, h2, h3⟩
    · by_cases h0 : start = 0
      · refine ⟨[z], z2, ?_⟩
        rw [if_pos h0, List.nil_append]
        cases mid' with
        | nil =>
          have : ls.length ≠ 0 := by omega
          have : ls ≠ [] := by intro h; rw [h] at this; simp at this
          simp [fixEnds, this]
        | cons v r =>
          have hv : v.s ≠ 0 := by
            intro hc
            have h1 := hI.sorted.mem (v := v) (by simp)
            exact hgone v (by simp) v.s (Nat.le_refl _) h1.2.1 (by omega)
          have hl := getLast?_concat' (⟨0, 0, [z]⟩ : Iv F) (v :: r) ⟨ls.length, ls.length, z2⟩
          rw [List.cons_append, List.cons_append] at hl
          simp [fixEnds, hv, hl]
      · refine ⟨z1, z2, ?_⟩
        rw [if_neg h0]
        have hl := getLast?_concat' (⟨0, 0, z1⟩ : Iv F) mid' ⟨ls.length, ls.length, z2⟩
        rw [List.cons_append] at hl
        simp [fixEnds, hl]
    · have h0 : start ≠ 0 := fun h => hne ⟨h, h2, h3⟩
      refine ⟨z1, [z], ?_⟩
      rw [if_neg h0, List.append_nil]
      have hl : ∀ x, ((⟨0, 0, z1⟩ : Iv F) :: mid').getLast? = some x → x.e ≠ ls.length := by
        intro x hx
        have hx' := List.mem_of_getLast? hx
        rcases List.mem_cons.1 hx' with rfl | hx'
        · simp only; omega
        · have h1 := hI.sorted.mem hx'
          have := hgone x hx' (x.e - 1) (by omega) (by omega)
          omega
      cases hg : ((⟨0, 0, z1⟩ : Iv F) :: mid').getLast? with
      | none => simp at hg
      | some x =>
        have hxe := hl x hg
        simp [fixEnds, hg, hxe]
  obtain ⟨z1', z2', hfix⟩ := hfix
  refine ⟨_, sel, ?_, ⟨z1', z2', mid', rfl, hI.sorted⟩, ?_, hI.inc, ?_⟩
  · unfold modifyAlloc
    rw [if_neg (by omega)]
    simp only [pyAssert, hs, decide_true, if_true, bind, Except.bind, hloop, hfix]
  · intro i
    rw [held_proper, held_proper, hI.heldEq i]
  · intro i
    rw [hI.mem i, held_proper]

theorem modifyAlloc_rem_err {ls : List Nat} (z : F) {ivs : List (Iv F)} (hp : Proper ls ivs) (hn : 0 < ls.length)
    (hh : held ls ivs (ls.length - 1) = none) : modifyAlloc ls z false ivs 0 ls.length = .error .indexError := by
  obtain ⟨z1, z2, mid, rfl, hsort⟩ := hp
  rw [held_proper] at hh
  obtain ⟨mid', t, sel, he, ht, hI⟩ := remRec_spec ls 0 ls.length hn (Nat.le_refl _) z2 mid 0 hsort
  have hloop := modLoop_rem_proper z 0 ls.length hn z1 z2 mid hsort
  rw [he] at hloop
  have hm : mid' = [] := by
    cases mid' with
    | nil => rfl
    | cons v r =>
      have h1 := hI.sorted.mem (v := v) (by simp)
      have := Sorted.held_mem (ls := ls) (v := v) (mid := v :: r) (i := v.s) (by simp) ⟨Nat.le_refl _, h1.2.1⟩
      rw [hI.heldEq, if_pos (by omega)] at this
      exact absurd rfl this
  -- the empty interval at the end is reached and goes as well
  have ht0 : t = [] := by
    rcases ht with rfl | ⟨rfl, _⟩
    · exfalso
      clear hloop hI
      have key : ∀ (m : List (Iv F)) (lo : Nat), Sorted ls lo ls.length m → held ls m (ls.length - 1) = none →
          ∀ u ∈ (remRec ls 0 ls.length (m ++ [⟨ls.length, ls.length, z2⟩])).1, False := by
        intro m
        induction m with
        | nil =>
          intro lo _ _ u hu
          simp only [List.nil_append, remRec] at hu
          rw [if_neg (by omega), if_neg (by omega), if_neg (by omega)] at hu
          simp [cut] at hu
        | cons v r ih =>
          intro lo hs hh u hu
          have hv := hs.2.1
          have hle := hs.2.2.2.le
          have hne : ¬(v.s ≤ ls.length - 1 ∧ ls.length - 1 < v.e) := by
            intro hc
            exact Sorted.held_mem (ls := ls) (v := v) (mid := v :: r) (by simp) hc hh
          have hr : held ls r (ls.length - 1) = none := by
            rw [held_cons, if_neg hne] at hh
            exact hh
          simp only [List.cons_append, remRec] at hu
          rw [if_neg (by omega)] at hu
          split at hu
          · rename_i h0
            have : v.s = 0 := by omega
            simp only [cut, this, true_and, if_true, List.nil_append] at hu
            exact ih v.e hs.2.2.2 hr u hu
          · rw [if_neg (by omega)] at hu
            simp only [cut, true_and, if_true, List.nil_append] at hu
            exact ih v.e hs.2.2.2 hr u hu
      have := key mid 0 hsort hh ⟨ls.length, ls.length, z2⟩ (by rw [he]; simp)
      exact this
    · rfl
  subst hm ht0
  unfold modifyAlloc
  rw [if_neg (by omega)]
  simp only [pyAssert, hn, decide_true, if_true, bind, Except.bind, hloop, List.nil_append, fixEnds]

theorem idxLoop_sound {ivs : List (Iv F)} {ids : Nat} : ∀ {fuel s e k : Nat}, idxLoop ivs ids fuel s e = some k →
    ∃ v, ivs[k]? = some v ∧ v.s ≤ ids ∧ ids < v.e := by
  intro fuel
  induction fuel with
  | zero => intro s e k h; simp [idxLoop] at h
  | succ fuel ih =>
    intro s e k h
    rw [idxLoop] at h
    split at h
    · split at h
      · simp at h
      · rename_i v hv
        split at h
        · rename_i hc
          simp only [Option.some.injEq] at h
          subst h
          exact ⟨v, hv, hc⟩
        · split at h
          · split at h
            · simp at h
            · exact ih h
          · split at h
            · simp at h
            · exact ih h
    · simp at h

theorem idxLoop_complete {ivs : List (Iv F)} {ids : Nat} (hpw : ivs.Pairwise (fun a b => a.e ≤ b.s)) (hle : ∀ v ∈ ivs, v.s ≤ v.e)
    {k : Nat} {v : Iv F} (hk : ivs[k]? = some v) (hv : v.s ≤ ids ∧ ids < v.e) : ∀ {fuel s e : Nat}, e ≤ ivs.length → e - s ≤ fuel →
    s ≤ k → k < e → idxLoop ivs ids fuel s e = some k := by
  have hord : ∀ i u, ivs[i]? = some u → (i < k → u.e ≤ v.s) ∧ (k < i → v.e ≤ u.s) := by
    intro i u hu
    rw [List.getElem?_eq_some_iff] at hu hk
    obtain ⟨hi, rfl⟩ := hu
    obtain ⟨hk', rfl⟩ := hk
    rw [List.pairwise_iff_getElem] at hpw
    exact ⟨fun h => hpw i k hi hk' h, fun h => hpw k i hk' hi h⟩
  intro fuel
  induction fuel with
  | zero => intro s e _ h1 h2 h3; omega
  | succ fuel ih =>
    intro s e he h1 h2 h3
    rw [idxLoop, if_pos (by omega)]
    have hm : (s + e) / 2 < ivs.length := by omega
    rw [List.getElem?_eq_getElem hm]
    simp only
    have ho := hord ((s + e) / 2) ivs[(s + e) / 2] (List.getElem?_eq_getElem hm)
    have hl := hle ivs[(s + e) / 2] (List.getElem_mem hm)
    rcases Nat.lt_trichotomy ((s + e) / 2) k with hlt | heq | hgt
    · have := ho.1 hlt
      rw [if_neg (by omega), if_pos (by omega), if_neg (by omega)]
      exact ih he (by omega) (by omega) h3
    · have : ivs[(s + e) / 2] = v := by
        rw [← Option.some.injEq, ← List.getElem?_eq_getElem hm, heq, hk]
      rw [this, if_pos hv, heq]
    · have := ho.2 hgt
      rw [if_neg (by omega), if_neg (by omega), if_neg (by omega)]
      exact ih (by omega) (by omega) h2 hgt

theorem Sorted.pairwise {ls : List Nat} {mid : List (Iv F)} : ∀ {lo hi : Nat}, Sorted ls lo hi mid →
    mid.Pairwise (fun a b => a.e ≤ b.s) := by
  induction mid with
  | nil => intros; exact List.Pairwise.nil
  | cons v r ih =>
    intro lo hi h
    rw [List.pairwise_cons]
    exact ⟨fun u hu => (h.2.2.2.mem hu).1, ih h.2.2.2⟩

theorem proper_pairwise {ls : List Nat} {z1 z2 : List F} {mid : List (Iv F)} (hsort : Sorted ls 0 ls.length mid) :
    (⟨0, 0, z1⟩ :: mid ++ [⟨ls.length, ls.length, z2⟩] : List (Iv F)).Pairwise (fun a b => a.e ≤ b.s) ∧
      ∀ v ∈ (⟨0, 0, z1⟩ :: mid ++ [⟨ls.length, ls.length, z2⟩] : List (Iv F)), v.s ≤ v.e := by
  constructor
  · rw [List.cons_append, List.pairwise_cons, List.pairwise_append]
    refine ⟨fun _ _ => Nat.zero_le _, hsort.pairwise, List.pairwise_singleton _ _, ?_⟩
    intro a ha b hb
    simp only [List.mem_cons, List.not_mem_nil, or_false] at hb
    subst hb
    exact (hsort.mem ha).2.2.1
  · intro v hv
    simp only [List.cons_append, List.mem_cons, List.mem_append, List.not_mem_nil, or_false] at hv
    rcases hv with rfl | hv | rfl
    · exact Nat.le_refl _
    · have := hsort.mem hv; omega
    · exact Nat.le_refl _

theorem held_split {ls : List Nat} {mid : List (Iv F)} {i : Nat} (h : held ls mid i ≠ none) :
    ∃ m1 v m2, mid = m1 ++ v :: m2 ∧ v.s ≤ i ∧ i < v.e ∧ held ls m1 i = none := by
  induction mid with
  | nil => simp [held] at h
  | cons u r ih =>
    rw [held_cons] at h
    split at h
    · rename_i hc
      exact ⟨[], u, r, rfl, hc.1, hc.2, rfl⟩
    · rename_i hc
      obtain ⟨m1, v, m2, e, h1, h2, h3⟩ := ih h
      refine ⟨u :: m1, v, m2, by rw [e]; rfl, h1, h2, ?_⟩
      rw [held_cons, if_neg hc]
      exact h3

theorem allocIdx_of {ls : List Nat} {z1 z2 : List F} {m1 m2 : List (Iv F)} {v : Iv F} {i : Nat}
    (hsort : Sorted ls 0 ls.length (m1 ++ v :: m2)) (hi : v.s ≤ i ∧ i < v.e) :
    allocIntervalIndex (⟨0, 0, z1⟩ :: (m1 ++ v :: m2) ++ [⟨ls.length, ls.length, z2⟩]) i = some (m1.length + 1) := by
  obtain ⟨hpw, hle⟩ := proper_pairwise (z1 := z1) (z2 := z2) hsort
  refine idxLoop_complete hpw hle (k := m1.length + 1) (v := v) ?_ hi (Nat.le_refl _) (by omega) (Nat.zero_le _) ?_
  · simp
  · simp

theorem allocIdx_none {ls : List Nat} {ivs : List (Iv F)} {i : Nat} (h : held ls ivs i = none) : allocIntervalIndex ivs i = none := by
  cases hk : allocIntervalIndex ivs i with
  | none => rfl
  | some k =>
    obtain ⟨v, hv, h1⟩ := idxLoop_sound hk
    exact absurd h (Sorted.held_mem (List.mem_of_getElem? hv) h1)

theorem writeAt_ok {α : Type} {x y : List α} {o : Nat} (h : o + y.length ≤ x.length) :
    writeAt x o y = .ok (x.take o ++ y ++ x.drop (o + y.length)) := by
  unfold writeAt
  rw [if_pos h]

theorem write_length {α : Type} {x y : List α} {o : Nat} (h : o + y.length ≤ x.length) :
    (x.take o ++ y ++ x.drop (o + y.length)).length = x.length := by
  simp; omega

theorem write_same {α : Type} {x y : List α} {o : Nat} (h : o + y.length ≤ x.length) :
    ((x.take o ++ y ++ x.drop (o + y.length)).drop o).take y.length = y := by
  have : (x.take o).length = o := by rw [List.length_take]; omega
  rw [List.append_assoc, List.drop_left' this, List.take_left' rfl]

theorem write_before {α : Type} {x y : List α} {o p l : Nat} (h : o + y.length ≤ x.length) (hp : p + l ≤ o) :
    ((x.take o ++ y ++ x.drop (o + y.length)).drop p).take l = (x.drop p).take l := by
  have hl : (x.take o).length = o := by rw [List.length_take]; omega
  rw [List.append_assoc, List.drop_append_of_le_length (by omega),
    List.take_append_of_le_length (by rw [List.length_drop]; omega), List.drop_take, List.take_take]
  congr 1
  omega

theorem write_after {α : Type} {x y : List α} {o p l : Nat} (h : o + y.length ≤ x.length) (hp : o + y.length ≤ p) :
    ((x.take o ++ y ++ x.drop (o + y.length)).drop p).take l = (x.drop p).take l := by
  have hl : (x.take o ++ y).length = o + y.length := by rw [List.length_append, List.length_take]; omega
  obtain ⟨k, rfl⟩ := Nat.exists_eq_add_of_le hp
  rw [← hl, ← List.drop_drop, List.drop_left, hl, List.drop_drop]

theorem Sorted.replace {ls : List Nat} {m2 : List (Iv F)} {v : Iv F} {d : List F} (hd : d.length = v.d.length) {m1 : List (Iv F)} :
    ∀ {lo hi : Nat}, Sorted ls lo hi (m1 ++ v :: m2) → Sorted ls lo hi (m1 ++ { v with d := d } :: m2) := by
  induction m1 with
  | nil => intro lo hi h; exact ⟨h.1, h.2.1, by rw [← h.2.2.1]; exact hd, h.2.2.2⟩
  | cons u r ih => intro lo hi h; exact ⟨h.1, h.2.1, h.2.2.1, ih h.2.2.2⟩

theorem setData_spec {ls : List Nat} {ivs : List (Iv F)} (hp : Proper ls ivs) {i : Nat} (hh : held ls ivs i ≠ none) {data : List F}
    (hd : data.length = ls.getD i 0) :
    ∃ ivs', setData ls ivs i data = .ok ivs' ∧ Proper ls ivs' ∧ held ls ivs' i = some data ∧
      ∀ j, j ≠ i → held ls ivs' j = held ls ivs j := by
  obtain ⟨z1, z2, mid, rfl, hsort⟩ := hp
  rw [held_proper] at hh
  obtain ⟨m1, v, m2, rfl, h1, h2, hm1⟩ := held_split hh
  have hidx := allocIdx_of (z1 := z1) (z2 := z2) hsort ⟨h1, h2⟩
  have hv := hsort.mem (v := v) (by simp)
  have hlt := seqStart_lt ls h2
  have hmo := seqStart_mono ls h1
  have hw : seqStart ls i - seqStart ls v.s + data.length ≤ v.d.length := by
    rw [hv.2.2.2, hd]; omega
  have hget : (⟨0, 0, z1⟩ :: (m1 ++ v :: m2) ++ [⟨ls.length, ls.length, z2⟩] : List (Iv F))[m1.length + 1]? = some v := by
    simp
  have hset : ∀ (w : Iv F), (⟨0, 0, z1⟩ :: (m1 ++ v :: m2) ++ [⟨ls.length, ls.length, z2⟩] : List (Iv F)).set (m1.length + 1) w =
      ⟨0, 0, z1⟩ :: (m1 ++ w :: m2) ++ [⟨ls.length, ls.length, z2⟩] := by
    intro w
    simp [List.set_append]
  refine ⟨_, ?_, ⟨z1, z2, _, rfl, Sorted.replace (write_length hw) hsort⟩, ?_, ?_⟩
  · unfold setData
    simp only [hidx, hget, writeAt_ok hw, bind, Except.bind, hset]
  · rw [held_proper, held_append, hm1, Option.none_or, held_cons]
    simp only
    rw [if_pos ⟨h1, h2⟩, ← hd, write_same hw]
  · intro j hj
    rw [held_proper, held_proper, held_append, held_append, held_cons, held_cons]
    congr 1
    simp only
    split
    · rename_i hc
      congr 1
      have a1 := seqStart_mono ls hc.1
      rcases Nat.lt_or_ge j i with hji | hji
      · have := seqStart_lt ls hji
        rw [write_before hw (by omega)]
      · have := seqStart_lt ls (show i < j by omega)
        rw [write_after hw (by rw [hd]; omega)]
    · rfl

theorem lookup_spec {ls : List Nat} {ivs : List (Iv F)} (hp : Proper ls ivs) {i : Nat} {x : List F} (hh : held ls ivs i = some x) :
    ∃ k v, allocIntervalIndex ivs i = some k ∧ ivs[k]? = some v ∧
      seqStart ls i - seqStart ls v.s + ls.getD i 0 ≤ v.d.length ∧
      slice v.d (seqStart ls i - seqStart ls v.s) (seqStart ls i - seqStart ls v.s + ls.getD i 0) = x := by
  obtain ⟨z1, z2, mid, rfl, hsort⟩ := hp
  rw [held_proper] at hh
  obtain ⟨m1, v, m2, rfl, h1, h2, hm1⟩ := held_split (ls := ls) (mid := mid) (i := i) (by rw [hh]; simp)
  have hv := hsort.mem (v := v) (by simp)
  have hlt := seqStart_lt ls h2
  have hmo := seqStart_mono ls h1
  refine ⟨_, v, allocIdx_of hsort ⟨h1, h2⟩, by simp, by rw [hv.2.2.2]; omega, ?_⟩
  rw [held_append, hm1, Option.none_or, held_cons, if_pos ⟨h1, h2⟩, Option.some.injEq] at hh
  unfold slice
  rw [← hh, List.drop_take]
  congr 1
  omega

theorem remRec_pre (ls : List Nat) (start stop : Nat) (m1 : List (Iv F)) (l : List (Iv F)) (h : ∀ u ∈ m1, u.s < u.e ∧ u.e ≤ start)
    (hs : start < stop) :
    remRec ls start stop (m1 ++ l) = (m1 ++ (remRec ls start stop l).1, (remRec ls start stop l).2) := by
  induction m1 with
  | nil => rfl
  | cons u r ih =>
    have hu := h u (by simp)
    rw [List.cons_append, remRec, if_neg (by omega), if_neg (by omega), if_pos (by omega), ih (fun w hw => h w (by simp [hw]))]
    rfl

/-- The list after one round of `delete`. -/
theorem modifyAlloc_del {ls : List Nat} (z : F) {z1 z2 : List F} {m1 m2 : List (Iv F)} {v : Iv F} {ncs : Nat}
    (hsort : Sorted ls 0 ls.length (m1 ++ v :: m2)) (hm1 : ∀ u ∈ m1, u.e ≤ ncs) (hv : ncs < v.e) :
    ∃ z1' c sel, modifyAlloc ls z false (⟨0, 0, z1⟩ :: (m1 ++ v :: m2) ++ [⟨ls.length, ls.length, z2⟩]) (max v.s ncs) v.e =
      .ok (⟨0, 0, z1'⟩ :: (m1 ++ c ++ m2) ++ [⟨ls.length, ls.length, z2⟩], sel) ∧ c.length ≤ 1 ∧ (∀ u ∈ c, u.e ≤ ncs) := by
  have hvm := hsort.mem (v := v) (by simp)
  have hs : max v.s ncs < v.e := by omega
  have hloop := modLoop_rem_proper z (max v.s ncs) v.e hs z1 z2 _ hsort
  have hrem : remRec ls (max v.s ncs) v.e ((m1 ++ v :: m2) ++ [⟨ls.length, ls.length, z2⟩]) =
      (m1 ++ (cut ls v (max v.s ncs) v.e ++ (m2 ++ [⟨ls.length, ls.length, z2⟩])),
        List.range' (max v.s ncs) (v.e - max v.s ncs)) := by
    rw [List.append_assoc, remRec_pre ls _ _ m1 _ _ hs]
    · rw [List.cons_append, remRec, if_pos (by omega), if_pos (by omega)]
    · intro u hu
      have h1 := hsort.mem (v := u) (by simp [hu])
      have h2 := hm1 u hu
      exact ⟨h1.2.1, by omega⟩
  rw [hrem] at hloop
  have hc1 : (cut ls v (max v.s ncs) v.e).length ≤ 1 := by
    unfold cut
    repeat' split
    all_goals first | (simp; done) | omega
  have hc2 : ∀ u ∈ cut ls v (max v.s ncs) v.e, u.e ≤ ncs := by
    intro u hu
    unfold cut at hu
    split at hu
    · simp at hu
    · split at hu
      · exfalso; simp_all
      · split at hu
        · simp at hu; subst hu; simp only; omega
        · omega
  have hfix : ∃ z1', fixEnds z ls.length ((if max v.s ncs = 0 then [] else [⟨0, 0, z1⟩]) ++
      (m1 ++ (cut ls v (max v.s ncs) v.e ++ (m2 ++ [⟨ls.length, ls.length, z2⟩])))) =
      .ok (⟨0, 0, z1'⟩ :: (m1 ++ cut ls v (max v.s ncs) v.e ++ m2) ++ [⟨ls.length, ls.length, z2⟩]) := by
    have hl : ∀ (y : List F), ((⟨0, 0, y⟩ : Iv F) :: (m1 ++ (cut ls v (max v.s ncs) v.e ++ (m2 ++ [⟨ls.length, ls.length, z2⟩])))).getLast? =
        some ⟨ls.length, ls.length, z2⟩ := by
      intro y
      have := getLast?_concat' (⟨0, 0, y⟩ : Iv F) (m1 ++ cut ls v (max v.s ncs) v.e ++ m2) ⟨ls.length, ls.length, z2⟩
      simpa using this
    by_cases h0 : max v.s ncs = 0
    · refine ⟨[z], ?_⟩
      rw [if_pos h0, List.nil_append]
      have hne : ∀ h t, m1 ++ (cut ls v (max v.s ncs) v.e ++ (m2 ++ [⟨ls.length, ls.length, z2⟩])) = h :: t → h.s ≠ 0 := by
        intro h t he
        have e1 : m1 = [] := by
          cases m1 with
          | nil => rfl
          | cons u r =>
            have h1 := hsort.mem (v := u) (by simp)
            have h2 := hm1 u (by simp)
            omega
        have e2 : cut ls v (max v.s ncs) v.e = [] := by
          unfold cut
          rw [if_pos (by omega)]
        rw [e1, e2] at he
        subst e1
        cases m2 with
        | nil =>
          simp only [List.nil_append, List.cons.injEq] at he
          rw [← he.1]
          simp only; omega
        | cons u r =>
          simp only [List.nil_append, List.cons_append, List.cons.injEq] at he
          rw [← he.1]
          have h1 := hsort.2.2.2.1
          omega
      cases hl2 : m1 ++ (cut ls v (max v.s ncs) v.e ++ (m2 ++ [⟨ls.length, ls.length, z2⟩])) with
      | nil => simp at hl2
      | cons h t =>
        have hh := hne h t hl2
        have hl3 := hl [z]
        rw [hl2] at hl3
        have : m1 ++ cut ls v (max v.s ncs) v.e ++ m2 ++ [⟨ls.length, ls.length, z2⟩] = h :: t := by
          rw [← hl2]; simp
        rw [List.cons_append, this]
        simp [fixEnds, hh, hl3]
    · refine ⟨z1, ?_⟩
      rw [if_neg h0]
      have hl3 := hl z1
      simp [fixEnds, hl3]
  obtain ⟨z1', hfix⟩ := hfix
  refine ⟨z1', cut ls v (max v.s ncs) v.e, List.range' (max v.s ncs) (v.e - max v.s ncs), ?_, hc1, hc2⟩
  unfold modifyAlloc
  rw [if_neg (by omega)]
  simp only [pyAssert, hs, decide_true, if_true, bind, Except.bind, hloop, hfix]

theorem deleteLoop_spec {ls : List Nat} (z : F) (ncs : Nat) : ∀ (fuel i : Nat) (ivs : List (Iv F)) (pre : List Nat) (del : Nat),
    Proper ls ivs → (∀ k u, k < i → ivs[k]? = some u → u.s < u.e → u.e ≤ ncs) →
    (ivs.length - i) + ivs.countP (fun u => decide (ncs < u.e)) < fuel →
    ∃ (ivs' : List (Iv F)) (R : List Nat), deleteLoop ls z ncs fuel i ivs pre del =
        .ok (ivs', pre.filter (fun j => !R.contains j), del + (R.map (fun j => ls.getD j 0)).sum) ∧
      Proper ls ivs' ∧ (∀ j, held ls ivs' j = if ncs ≤ j then none else held ls ivs j) ∧
      R.Nodup ∧ ∀ j, j ∈ R ↔ held ls ivs j ≠ none ∧ ncs ≤ j := by
  intro fuel
  induction fuel with
  | zero => intro i ivs pre del _ _ h; omega
  | succ fuel ih =>
    intro i ivs pre del hp hk hf
    rw [deleteLoop]
    cases hi : ivs[i]? with
    | none =>
      simp only
      have hlow : ∀ j, ncs ≤ j → held ls ivs j = none := by
        intro j hj
        by_contra hc
        obtain ⟨m1, v, m2, e, h1, h2, _⟩ := held_split hc
        have hv : v ∈ ivs := by rw [e]; simp
        obtain ⟨k, hk1, hk2⟩ := List.getElem_of_mem hv
        have hlen : ivs.length ≤ i := by simpa using hi
        have := hk k v (by omega) (by rw [List.getElem?_eq_getElem hk1, hk2]) (by omega)
        omega
      refine ⟨ivs, [], by simp [List.filter_eq_self.2], hp, ?_, List.nodup_nil, ?_⟩
      · intro j
        split
        · rename_i h; exact hlow j h
        · rfl
      · intro j
        simp only [List.not_mem_nil, false_iff, not_and]
        intro h1 h2
        exact h1 (hlow j h2)
    | some ai =>
      simp only
      have hilt : i < ivs.length := by
        rw [List.getElem?_eq_some_iff] at hi
        exact hi.1
      split
      · rename_i hc
        obtain ⟨z1, z2, mid, rfl, hsort⟩ := hp
        -- the interval is one of those between the ends
        have hsp : ∃ m1 m2, mid = m1 ++ ai :: m2 ∧ i = m1.length + 1 := by
          cases i with
          | zero => simp at hi; subst hi; simp at hc
          | succ i' =>
            rw [List.cons_append, List.getElem?_cons_succ] at hi
            rcases Nat.lt_or_ge i' mid.length with hl | hl
            · rw [List.getElem?_append_left hl] at hi
              rw [List.getElem?_eq_some_iff] at hi
              obtain ⟨h1, h2⟩ := hi
              refine ⟨mid.take i', mid.drop (i' + 1), ?_, by rw [List.length_take]; omega⟩
              rw [← h2, List.getElem_cons_drop, List.take_append_drop]
            · rw [List.getElem?_append_right hl] at hi
              have h0 : i' - mid.length = 0 := by
                simp at hilt; omega
              rw [h0] at hi
              simp at hi
              subst hi
              simp at hc
        obtain ⟨m1, m2, rfl, rfl⟩ := hsp
        have hm1 : ∀ u ∈ m1, u.e ≤ ncs := by
          intro u hu
          obtain ⟨k, hk1, hk2⟩ := List.getElem_of_mem hu
          refine hk (k + 1) u (by omega) ?_ (hsort.mem (v := u) (by simp [hu])).2.1
          rw [List.cons_append, List.getElem?_cons_succ, List.append_assoc, List.getElem?_append_left hk1,
            List.getElem?_eq_getElem hk1, hk2]
        have hai := hsort.mem (v := ai) (by simp)
        obtain ⟨z1', c, sel, hmod, hc1, hc2⟩ := modifyAlloc_del z (z1 := z1) (z2 := z2) hsort hm1 hc.1
        have hhai : held ls (⟨0, 0, z1⟩ :: (m1 ++ ai :: m2) ++ [⟨ls.length, ls.length, z2⟩]) (ai.e - 1) ≠ none := by
          rw [held_proper]
          exact Sorted.held_mem (v := ai) (by simp) ⟨by omega, by omega⟩
        obtain ⟨ivs1, sel1, hmod', hp1, hh1, hinc1, hmem1⟩ := modifyAlloc_rem z ⟨z1, z2, _, rfl, hsort⟩
          (show max ai.s ncs < ai.e by omega) hai.2.2.1 (by
            rintro ⟨_, _, h3⟩
            exact hhai h3)
        rw [hmod] at hmod'
        obtain ⟨rfl, rfl⟩ : _ ∧ sel = sel1 := by
          simp only [Except.ok.injEq, Prod.mk.injEq] at hmod'
          exact hmod'
        obtain ⟨ivs', R, hdel, hp', hh', hnd, hR⟩ := ih (m1.length + 1) _
          (pre.filter (fun j => !sel.contains j)) (del + (sel.map (fun j => ls.getD j 0)).sum) hp1 (by
            intro k u hk1 hk2 hk3
            cases k with
            | zero => simp at hk2; subst hk2; simp
            | succ k =>
              rw [List.cons_append, List.getElem?_cons_succ, List.append_assoc, List.append_assoc,
                List.getElem?_append_left (by omega)] at hk2
              exact hm1 u (List.mem_of_getElem? hk2)) (by
            have hcc : c.countP (fun u => decide (ncs < u.e)) = 0 := by
              rw [List.countP_eq_zero]
              intro u hu
              have := hc2 u hu
              simp; omega
            have ha1 : decide (ncs < ai.e) = true := by simpa using hc.1
            simp only [List.cons_append, List.length_cons, List.length_append, List.countP_cons, List.countP_append, ha1, hcc,
              List.countP_nil, List.length_nil, if_true] at hf ⊢
            omega)
        refine ⟨ivs', sel ++ R, ?_, hp', ?_, ?_, ?_⟩
        · rw [hmod]
          simp only [bind, Except.bind]
          rw [hdel, List.filter_filter]
          congr 2
          · congr 1
            · congr 1
              funext j
              simp [List.contains_append, Bool.and_comm]
            · simp; omega
        · intro j
          rw [hh' j, hh1 j]
          split
          · rfl
          · rw [if_neg (by omega)]
        · rw [List.nodup_append]
          refine ⟨hinc1.imp (fun h => Nat.ne_of_lt h), hnd, ?_⟩
          intro a ha b hb hab
          subst hab
          have h1 := ((hmem1 a).1 ha).2
          have h2 := ((hR a).1 hb).1
          rw [hh1 a, if_pos h1] at h2
          exact h2 rfl
        · intro j
          rw [List.mem_append, hmem1 j, hR j, hh1 j]
          constructor
          · rintro (⟨h1, h2, _⟩ | ⟨h1, h2⟩)
            · exact ⟨h1, by omega⟩
            · refine ⟨?_, h2⟩
              split at h1
              · exact absurd rfl h1
              · exact h1
          · rintro ⟨h1, h2⟩
            by_cases hj : max ai.s ncs ≤ j ∧ j < ai.e
            · exact .inl ⟨h1, hj⟩
            · rw [if_neg hj]
              exact .inr ⟨h1, h2⟩
      · rename_i hc
        obtain ⟨ivs', R, h1, h2, h3, h4, h5⟩ := ih (i + 1) ivs pre del hp (by
          intro k u hk1 hk2 hk3
          rcases Nat.lt_or_ge k i with h | h
          · exact hk k u h hk2 hk3
          · have : k = i := by omega
            subst this
            rw [hi] at hk2
            simp only [Option.some.injEq] at hk2
            subst hk2
            omega) (by omega)
        exact ⟨ivs', R, h1, h2, h3, h4, h5⟩

theorem delete_spec {ls : List Nat} (z : F) (ncs : Nat) {ivs : List (Iv F)} (pre : List Nat) (hp : Proper ls ivs) :
    ∃ (ivs' : List (Iv F)) (R : List Nat), delete ls z ncs ivs pre =
        .ok (ivs', pre.filter (fun j => !R.contains j), (R.map (fun j => ls.getD j 0)).sum) ∧
      Proper ls ivs' ∧ (∀ j, held ls ivs' j = if ncs ≤ j then none else held ls ivs j) ∧
      R.Nodup ∧ ∀ j, j ∈ R ↔ held ls ivs j ≠ none ∧ ncs ≤ j := by
  have := deleteLoop_spec z ncs (2 * ivs.length + 1) 0 ivs pre 0 hp (fun k u h => absurd h (Nat.not_lt_zero _)) (by
    have := List.countP_le_length (p := fun u : Iv F => decide (ncs < u.e)) (l := ivs)
    omega)
  simpa [delete] using this

end Verif.HdfCache
