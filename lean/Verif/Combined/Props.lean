import Verif.Combined.Lemmas
/-
C39: `CombinedDataset` serves the sequences which the joint order selects.
-/
namespace Verif.Combined
open Verif.Py Spec

/-! ### A known number of sequences -/

/-- C39. For every joint order: the combined dataset has as many sequences as the order, and sequence `j` is the one with
index `order[j]` in the list of all sequences. The sub-datasets only load their selected sequences, in this order. -/
theorem init_serves {α : Type} (first : List (List α)) (est : List Int) (order : List Nat)
    (h : ∀ i ∈ order, i < (flat first).length) :
    ∃ s, initKnown first est order = .ok s ∧ s.sorted.length = order.length ∧
      (∀ j (hj : j < order.length), ∃ x, (flat first)[order[j]]? = some x ∧ collect s j = .ok x) ∧
      (s.subs.length = first.length ∧ ∀ d, s.subs.getD d [] =
        order.filterMap (fun i => ((flat first)[i]?).bind (fun p => if p.1 = d then some p.2 else none))) := by
  rw [flat, flatFrom_length] at h
  obtain ⟨sorted, subs, h1, h2, h3, h4, h5, h6, h7⟩ := build_spec first order (List.replicate first.length []) (by simp) h
  have hrep : (List.replicate first.length ([] : List α)).map List.length = List.replicate first.length 0 := by simp
  rw [hrep] at h1
  refine ⟨{ sorted := sorted, subs := subs, used := subs.map List.length, est := est,
            expected := List.replicate first.length 0 }, ?_, h3, ?_, h4, ?_⟩
  · simp only [initKnown, bind, Except.bind, h1, h2]
  · intro j hj
    have hj' : j < sorted.length := by omega
    obtain ⟨i, x, a1, a2, a3⟩ := h7 j sorted[j] (List.getElem?_eq_getElem hj')
    rw [List.getElem?_eq_getElem hj] at a1
    injection a1 with a1
    refine ⟨(sorted[j].1, x), by rw [a1]; exact a2, ?_⟩
    have hd : sorted[j].1 < subs.length := by rw [h4]; exact h5 _ (List.getElem_mem hj')
    have hg : subs.getD sorted[j].1 [] = subs[sorted[j].1] := by
      simp [List.getD_eq_getElem?_getD, List.getElem?_eq_getElem hd]
    rw [hg] at a3
    simp only [collect, bind, Except.bind, getItem_eq hj', getItem_eq hd]
    simp only [getItem, a3]
  · intro d
    obtain ⟨new, b1, _, b3⟩ := h6 d
    simp only
    rw [b1, ← b3]
    by_cases hd : d < first.length
    · simp [List.getD_eq_getElem?_getD, List.getElem?_replicate, hd]
    · simp [List.getD_eq_getElem?_getD, List.getElem?_replicate, hd]

/-- C39. An index which does not exist is an `AssertionError`. -/
theorem init_fails {α : Type} (first : List (List α)) (est : List Int) (i : Nat) (order : List Nat)
    (h : (flat first).length ≤ i) : initKnown first est (i :: order) = .error .assertion := by
  rw [flat, flatFrom_length] at h
  simp only [initKnown, buildSorted, bind, Except.bind, locate_fails h]

/-! ### The invariant of the state -/

/-- What holds of the state between the calls. -/
structure Inv {α : Type} (s : State α) : Prop where
  lenU : s.used.length = s.subs.length
  lenX : s.expected.length = s.subs.length
  dom : ∀ p ∈ s.sorted, p.1 < s.subs.length
  seq : ∀ d, (s.sorted.filter (fun p => decide (p.1 = d))).map Prod.snd = List.range (s.used.getD d 0)
  le : ∀ d, s.used.getD d 0 ≤ (s.subs.getD d []).length
  win : ∀ d, s.expected.getD d 0 ≤ countOf d (s.sorted.take s.start)

theorem getD_of_lt {β : Type} {l : List β} {i : Nat} {x : β} (h : i < l.length) : l.getD i x = l[i] := by
  simp [List.getD_eq_getElem?_getD, List.getElem?_eq_getElem h]

theorem getD_of_ge {β : Type} {l : List β} {i : Nat} {x : β} (h : l.length ≤ i) : l.getD i x = x := by
  simp [List.getD_eq_getElem?_getD, List.getElem?_eq_none h]

theorem getD_set {β : Type} (l : List β) (i j : Nat) (v x : β) (h : i < l.length) :
    (l.set i v).getD j x = if i = j then v else l.getD j x := by
  rw [List.getD_eq_getElem?_getD, List.getElem?_set]
  by_cases hij : i = j
  · subst hij; simp [h]
  · simp [hij]

theorem getD_replicate {β : Type} (n i : Nat) (x : β) : (List.replicate n x).getD i x = x := by
  by_cases h : i < n
  · simp [List.getD_eq_getElem?_getD, List.getElem?_replicate, h]
  · simp [List.getD_eq_getElem?_getD, List.getElem?_replicate, h]

theorem inv_known {α : Type} {first : List (List α)} {est : List Int} {order : List Nat}
    (h : ∀ i ∈ order, i < (flat first).length) {s : State α} (hs : initKnown first est order = .ok s) :
    Inv s ∧ s.used = s.subs.map List.length := by
  rw [flat, flatFrom_length] at h
  obtain ⟨sorted, subs, h1, h2, h3, h4, h5, h6, h7⟩ := build_spec first order (List.replicate first.length []) (by simp) h
  have hrep : (List.replicate first.length ([] : List α)).map List.length = List.replicate first.length 0 := by simp
  rw [hrep] at h1
  simp only [initKnown, bind, Except.bind, h1, h2] at hs
  injection hs with hs
  subst hs
  have hused : ∀ d, (subs.map List.length).getD d 0 = (subs.getD d []).length := by
    intro d
    rw [List.getD_eq_getElem?_getD, List.getElem?_map, List.getD_eq_getElem?_getD]
    cases subs[d]? <;> simp
  refine ⟨⟨by simp, by simp [h4], by simpa [h4] using h5, fun d => ?_, fun d => by simp only [hused]; exact Nat.le_refl _, fun d => ?_⟩, rfl⟩
  · obtain ⟨new, b1, b2, _⟩ := h6 d
    rw [getD_replicate] at b1 b2
    simp only [hused]
    rw [b2, b1, List.range_eq_range']
    simp
  · simp only [getD_replicate]; omega

theorem inv_unknown {α : Type} (first : List (List α)) (est : List Int) : Inv (initUnknown first est) := by
  refine ⟨by simp [initUnknown], by simp [initUnknown], by simp [initUnknown], fun d => ?_, fun d => ?_, fun d => ?_⟩ <;>
    simp [initUnknown, getD_replicate, -List.getD_eq_getElem?_getD]

theorem hasMore_iff {α : Type} {s : State α} (hi : Inv s) (d : Nat) :
    hasMore s d = true ↔ s.used.getD d 0 < (s.subs.getD d []).length := by
  unfold hasMore
  by_cases hd : d < s.subs.length
  · have hu : d < s.used.length := by rw [hi.lenU]; exact hd
    rw [getD_of_lt hu, getD_of_lt hd, List.getElem?_eq_getElem hu, List.getElem?_eq_getElem hd]
    simp
  · rw [List.getElem?_eq_none (show s.subs.length ≤ d by omega), getD_of_ge (show s.subs.length ≤ d by omega)]
    cases s.used[d]? <;> simp

theorem countOf_eq {β : Type} (d : Nat) (l : List (Nat × β)) : countOf d l = (l.filter (fun p => decide (p.1 = d))).length := by
  unfold countOf
  rw [List.countP_eq_length_filter]
  congr 1

theorem inv_addSeq {α : Type} {s : State α} (hi : Inv s) {d : Nat} (hm : hasMore s d = true) : Inv (addSeq s d) := by
  have hlt := (hasMore_iff hi d).1 hm
  have hd : d < s.subs.length := by
    by_contra hc
    rw [getD_of_ge (show s.subs.length ≤ d by omega)] at hlt
    simp at hlt
  have hu : d < s.used.length := by rw [hi.lenU]; exact hd
  refine ⟨by simp [addSeq, hi.lenU], hi.lenX, ?_, fun d' => ?_, fun d' => ?_, fun d' => ?_⟩
  · intro p hp
    simp only [addSeq, List.mem_append, List.mem_singleton] at hp
    rcases hp with hp | rfl
    · exact hi.dom p hp
    · exact hd
  · simp only [addSeq]
    rw [getD_set _ _ _ _ _ hu, List.filter_append, List.map_append, hi.seq]
    by_cases h : d = d'
    · subst h
      rw [if_pos rfl, List.range_succ]
      simp
    · simp [h]
  · simp only [addSeq]
    rw [getD_set _ _ _ _ _ hu]
    by_cases h : d = d'
    · subst h; rw [if_pos rfl]; omega
    · rw [if_neg h]; exact hi.le d'
  · have := hi.win d'
    simp only [addSeq]
    refine Nat.le_trans this ?_
    rw [List.take_append, countOf, countOf, List.countP_append]
    omega

/-- A choice function: `numpy.random.choice` gives one of the candidates. -/
def Chooses {α : Type} (choose : State α → List Nat → Nat) : Prop := ∀ s l, l ≠ [] → choose s l ∈ l

theorem inv_est {α : Type} {s : State α} (hi : Inv s) (e : List Int) : Inv { s with est := e } :=
  ⟨hi.lenU, hi.lenX, hi.dom, hi.seq, hi.le, hi.win⟩

theorem find_more {α : Type} {s : State α} (hi : Inv s) {l : List Nat} (hl : ∀ d, d < s.subs.length → d ∈ l) :
    (∃ d, l.find? (hasMore s) = some d ∧ hasMore s d = true) ∨
    (l.find? (hasMore s) = none ∧ ∀ d, hasMore s d = false) := by
  cases h : l.find? (hasMore s) with
  | none =>
    right
    refine ⟨rfl, fun d => ?_⟩
    by_contra hc
    simp only [Bool.not_eq_false] at hc
    have hd : d < s.subs.length := by
      by_contra hd
      have := (hasMore_iff hi d).1 hc
      rw [getD_of_ge (show s.subs.length ≤ d by omega)] at this
      simp at this
    exact absurd (List.find?_eq_none.1 h d (hl d hd)) (by simp [hc])
  | some d => exact Or.inl ⟨d, rfl, List.find?_some h⟩

/-- One choice of a sub-dataset: it has more sequences; nothing is chosen only if no sub-dataset has more. -/
theorem randomPick_spec {α : Type} {choose : State α → List Nat → Nat} (hc : Chooses choose) :
    ∀ (fuel : Nat) (s : State α), Inv s → s.est.length = s.subs.length →
      ((List.range s.subs.length).filter (fun d => decide (0 < (remaining s).getD d 0))).length < fuel →
      let r := randomPick choose fuel s
      (∃ e, r.2 = { s with est := e } ∧ e.length = s.subs.length) ∧
      ((∃ d, r.1 = .ok (some d) ∧ hasMore s d = true) ∨ (r.1 = .ok none ∧ ∀ d, hasMore s d = false) ∨
        r.1 = .error .valueError) := by
  intro fuel
  induction fuel with
  | zero => intro s _ _ h; omega
  | succ fuel ih =>
    intro s hi he hf
    simp only [randomPick]
    by_cases h1 : (remaining s).sum ≤ 0
    · rw [if_pos h1]
      by_cases h2 : (List.range s.subs.length).filter (hasMore s) = []
      · rw [if_pos h2]
        refine ⟨⟨s.est, rfl, he⟩, Or.inr (Or.inl ⟨rfl, fun d => ?_⟩)⟩
        by_contra hcon
        simp only [Bool.not_eq_false] at hcon
        have hd : d < s.subs.length := by
          by_contra hd
          have := (hasMore_iff hi d).1 hcon
          rw [getD_of_ge (show s.subs.length ≤ d by omega)] at this
          simp at this
        have : d ∈ (List.range s.subs.length).filter (hasMore s) := by
          rw [List.mem_filter, List.mem_range]; exact ⟨hd, hcon⟩
        rw [h2] at this
        cases this
      · rw [if_neg h2]
        have := hc s _ h2
        rw [List.mem_filter] at this
        exact ⟨⟨_, rfl, by simp [he]⟩, Or.inl ⟨_, rfl, this.2⟩⟩
    · rw [if_neg h1]
      by_cases h2 : (remaining s).any (fun r => decide (r < 0)) = true
      · rw [if_pos h2]
        exact ⟨⟨s.est, rfl, he⟩, Or.inr (Or.inr rfl)⟩
      · rw [if_neg h2]
        -- some sub-dataset has a positive weight
        have hlenR : (remaining s).length = s.subs.length := by simp [remaining, he, hi.lenU]
        have hne : (List.range s.subs.length).filter (fun d => decide (0 < (remaining s).getD d 0)) ≠ [] := by
          intro hnil
          apply h1
          have hall : ∀ x ∈ remaining s, x ≤ 0 := by
            intro x hx
            obtain ⟨d, hd, rfl⟩ := List.getElem_of_mem hx
            by_contra hcon
            have : d ∈ (List.range s.subs.length).filter (fun d => decide (0 < (remaining s).getD d 0)) := by
              rw [List.mem_filter, List.mem_range, getD_of_lt hd]
              exact ⟨by omega, by simpa using hcon⟩
            rw [hnil] at this
            cases this
          clear hnil h2 hlenR h1
          generalize remaining s = l at hall
          induction l with
          | nil => simp
          | cons a l ihl =>
            have a1 := hall a (by simp)
            have a2 := ihl (fun x hx => hall x (by simp [hx]))
            rw [List.sum_cons]; omega
        have hmem := hc s _ hne
        generalize hdd : choose s ((List.range s.subs.length).filter (fun d => decide (0 < (remaining s).getD d 0))) = d at hmem
        rw [List.mem_filter, List.mem_range] at hmem
        obtain ⟨hd, hpos⟩ := hmem
        by_cases h3 : hasMore s d = true
        · rw [if_pos h3]
          exact ⟨⟨s.est, rfl, he⟩, Or.inl ⟨d, rfl, h3⟩⟩
        · rw [if_neg h3]
          have hde : d < s.est.length := by omega
          have hdu : d < s.used.length := by rw [hi.lenU]; exact hd
          have hrem : ∀ d', (remaining { s with est := s.est.set d ((s.used.getD d 0 : Nat) : Int) }).getD d' 0 =
              if d = d' then 0 else (remaining s).getD d' 0 := by
            intro d'
            by_cases hd' : d' < s.subs.length
            · have e1 : d' < s.est.length := by omega
              have e2 : d' < s.used.length := by rw [hi.lenU]; exact hd'
              simp only [remaining]
              rw [getD_of_lt hdu, getD_of_lt (by rw [List.length_zipWith, List.length_set]; omega),
                getD_of_lt (l := List.zipWith _ s.est s.used) (by rw [List.length_zipWith]; omega), List.getElem_zipWith, List.getElem_zipWith,
                List.getElem_set]
              by_cases hdd' : d = d'
              · subst hdd'; simp
              · simp [hdd']
            · rw [getD_of_ge (by simp [remaining, he, hi.lenU]; omega), getD_of_ge (by simp [remaining, he, hi.lenU]; omega)]
              simp
          have hlt : ((List.range s.subs.length).filter (fun d' => decide (0 < (remaining { s with est := s.est.set d ((s.used.getD d 0 : Nat) : Int) }).getD d' 0))).length <
              ((List.range s.subs.length).filter (fun d => decide (0 < (remaining s).getD d 0))).length := by
            simp only [hrem]
            have hsub : ((List.range s.subs.length).filter (fun d' => decide (0 < if d = d' then (0 : Int) else (remaining s).getD d' 0))) =
                ((List.range s.subs.length).filter (fun d => decide (0 < (remaining s).getD d 0))).filter (fun d' => decide (d' ≠ d)) := by
              rw [List.filter_filter]
              apply List.filter_congr
              intro x _
              by_cases hx : d = x
              · subst hx; simp
              · simp [hx, Ne.symm hx]
            rw [hsub, List.length_filter_lt_length_iff_exists]
            exact ⟨d, by rw [List.mem_filter, List.mem_range]; exact ⟨hd, hpos⟩, by simp⟩
          have hi' := inv_est hi (s.est.set d ((s.used.getD d 0 : Nat) : Int))
          have := ih { s with est := s.est.set d ((s.used.getD d 0 : Nat) : Int) } hi' (by simp [he])
            (by
              have e : ({ s with est := s.est.set d ((s.used.getD d 0 : Nat) : Int) } : State α).subs = s.subs := rfl
              rw [e]; omega)
          exact this

/-- C39. The choice of the next sub-dataset, for every ordering. -/
theorem pick_spec {α : Type} {choose : State α → List Nat → Nat} (hc : Chooses choose) (ord : Ordering) {s : State α}
    (hi : Inv s) (he : s.est.length = s.subs.length) :
    (∃ e, (pick choose ord s).2 = { s with est := e } ∧ e.length = s.subs.length) ∧
    ((∃ d, (pick choose ord s).1 = .ok (some d) ∧ hasMore s d = true) ∨
      ((pick choose ord s).1 = .ok none ∧ ∀ d, hasMore s d = false) ∨
      (ord = .randomDataset ∧ (pick choose ord s).1 = .error .valueError) ∨
      (ord = .other ∧ (pick choose ord s).1 = .error (.other "Exception") ∧ ∃ d, hasMore s d = true)) := by
  cases ord with
  | default =>
    simp only [pick]
    refine ⟨⟨s.est, rfl, he⟩, ?_⟩
    rcases find_more hi (l := List.range s.subs.length) (fun d hd => List.mem_range.2 hd) with ⟨d, h1, h2⟩ | ⟨h1, h2⟩
    · rw [h1]; exact Or.inl ⟨d, rfl, h2⟩
    · rw [h1]; exact Or.inr (Or.inl ⟨rfl, h2⟩)
  | reversed =>
    simp only [pick]
    refine ⟨⟨s.est, rfl, he⟩, ?_⟩
    rcases find_more hi (l := (List.range s.subs.length).reverse) (fun d hd => by simpa using hd) with ⟨d, h1, h2⟩ | ⟨h1, h2⟩
    · rw [h1]; exact Or.inl ⟨d, rfl, h2⟩
    · rw [h1]; exact Or.inr (Or.inl ⟨rfl, h2⟩)
  | randomDataset =>
    simp only [pick]
    have := randomPick_spec hc (s.subs.length + 1) s hi he
      (Nat.lt_succ_of_le (by have := List.length_filter_le (fun d => decide (0 < (remaining s).getD d 0)) (List.range s.subs.length); simpa using this))
    refine ⟨this.1, ?_⟩
    rcases this.2 with h | h | h
    · exact Or.inl h
    · exact Or.inr (Or.inl h)
    · exact Or.inr (Or.inr (Or.inl ⟨trivial, h⟩))
  | other =>
    simp only [pick]
    by_cases h : (List.range s.subs.length).any (hasMore s) = true
    · rw [if_pos h]
      refine ⟨⟨s.est, rfl, he⟩, Or.inr (Or.inr (Or.inr ⟨trivial, rfl, ?_⟩))⟩
      rw [List.any_eq_true] at h
      obtain ⟨d, _, hd⟩ := h
      exact ⟨d, hd⟩
    · rw [if_neg h]
      refine ⟨⟨s.est, rfl, he⟩, Or.inr (Or.inl ⟨rfl, fun d => ?_⟩)⟩
      by_contra hcon
      simp only [Bool.not_eq_false] at hcon
      apply h
      rw [List.any_eq_true]
      refine ⟨d, ?_, hcon⟩
      rw [List.mem_range]
      by_contra hd
      have := (hasMore_iff hi d).1 hcon
      rw [getD_of_ge (show s.subs.length ≤ d by omega)] at this
      simp at this

theorem hasMore_est {α : Type} (s : State α) (e : List Int) (d : Nat) : hasMore { s with est := e } d = hasMore s d := rfl

/-- What a call may change: the sub-datasets stay, the list grows. -/
structure Grows {α : Type} (s t : State α) : Prop where
  inv : Inv t
  est : t.est.length = t.subs.length
  subs : t.subs = s.subs
  pre : s.sorted <+: t.sorted
  expd : t.expected = s.expected
  start : t.start = s.start

/-- The number of sequences in the list and of those which are left. -/
theorem sorted_length {α : Type} {s : State α} (hi : Inv s) : s.sorted.length = s.used.sum := by
  have key : ∀ (n : Nat) (l : List (Nat × Nat)) (u : List Nat), u.length = n → (∀ p ∈ l, p.1 < n) →
      (∀ d, (l.filter (fun p => decide (p.1 = d))).length = u.getD d 0) → l.length = u.sum := by
    intro n
    induction n with
    | zero =>
      intro l u hu hl _
      have : u = [] := List.length_eq_zero_iff.1 hu
      subst this
      cases l with
      | nil => rfl
      | cons p l => exact absurd (hl p (by simp)) (by omega)
    | succ n ih =>
      intro l u hu hl hc
      obtain ⟨u', a, rfl⟩ : ∃ u' a, u = u' ++ [a] := by
        rcases List.eq_nil_or_concat u with rfl | ⟨u', a, h⟩
        · simp at hu
        · exact ⟨u', a, by simpa using h⟩
      have hu' : u'.length = n := by simpa using hu
      have h1 := ih (l.filter (fun p => decide (p.1 ≠ n))) u' hu' (by
        intro p hp
        rw [List.mem_filter] at hp
        have := hl p hp.1
        have h2 := hp.2
        simp only [ne_eq, decide_eq_true_eq] at h2
        omega) (by
        intro d
        rw [List.filter_filter]
        by_cases hd : d < n
        · have := hc d
          rw [getD_of_lt (by simp; omega), List.getElem_append_left (by omega)] at this
          rw [getD_of_lt (by omega), ← this]
          congr 1
          apply List.filter_congr
          intro p _
          by_cases hp : p.1 = d
          · simp [hp]; omega
          · simp [hp]
        · rw [getD_of_ge (by omega)]
          rw [List.length_eq_zero_iff, List.filter_eq_nil_iff]
          intro p hp hcon
          have := hl p hp
          simp only [ne_eq, Bool.and_eq_true, decide_eq_true_eq] at hcon
          omega)
      have h2 := hc n
      rw [getD_of_lt (by simp; omega), List.getElem_append_right (by omega)] at h2
      simp only [hu', Nat.sub_self, List.getElem_cons_zero] at h2
      have h3 : l.length = (l.filter (fun p => decide (p.1 ≠ n))).length + (l.filter (fun p => decide (p.1 = n))).length := by
        have := List.length_eq_length_filter_add (l := l) (fun p => decide (p.1 = n))
        simp only [ne_eq, decide_not]
        omega
      rw [h3, h1, h2]
      simp
  refine key s.subs.length s.sorted s.used hi.lenU hi.dom (fun d => ?_)
  have := congrArg List.length (hi.seq d)
  simpa using this

/-- C39. `expand`: it adds sequences; `True` means all were added, `False` that there are no more. -/
theorem expand_spec {α : Type} {choose : State α → List Nat → Nat} (hc : Chooses choose) (ord : Ordering) :
    ∀ (k : Nat) (s : State α), Inv s → s.est.length = s.subs.length →
    let r := expand choose ord k s
    Grows s r.2 ∧
    ((r.1 = .ok true ∧ r.2.sorted.length = s.sorted.length + k) ∨
     (r.1 = .ok false ∧ r.2.sorted.length < s.sorted.length + k ∧ ∀ d, hasMore r.2 d = false) ∨
     (ord = .randomDataset ∧ r.1 = .error .valueError) ∨
     (ord = .other ∧ r.1 = .error (.other "Exception") ∧ ∃ d, hasMore r.2 d = true)) := by
  intro k
  induction k with
  | zero =>
    intro s hi he
    exact ⟨⟨hi, he, rfl, List.prefix_rfl, rfl, rfl⟩, Or.inl ⟨rfl, rfl⟩⟩
  | succ k ih =>
    intro s hi he
    obtain ⟨⟨e, h1, h2⟩, h3⟩ := pick_spec hc ord hi he
    have hg : Grows s { s with est := e } := ⟨inv_est hi e, h2, rfl, List.prefix_rfl, rfl, rfl⟩
    cases hp : pick choose ord s with
    | mk r s' =>
      rw [hp] at h1 h3
      simp only at h1 h3
      subst h1
      simp only [expand, hp]
      rcases h3 with ⟨d, h3, h4⟩ | ⟨h3, h4⟩ | ⟨h3, h4⟩ | ⟨h3, h4, h5⟩
      · subst h3
        simp only
        have hi' := inv_addSeq hg.inv (d := d) h4
        obtain ⟨hg', hr⟩ := ih (addSeq { s with est := e } d) hi' (by simpa [addSeq] using h2)
        have hl : (addSeq { s with est := e } d).sorted.length = s.sorted.length + 1 := by simp [addSeq]
        refine ⟨⟨hg'.inv, hg'.est, hg'.subs, List.IsPrefix.trans (List.prefix_append _ _) hg'.pre, hg'.expd, hg'.start⟩, ?_⟩
        rcases hr with ⟨a1, a2⟩ | ⟨a1, a2, a3⟩ | h | h
        · exact Or.inl ⟨a1, by omega⟩
        · exact Or.inr (Or.inl ⟨a1, by omega, a3⟩)
        · exact Or.inr (Or.inr (Or.inl h))
        · exact Or.inr (Or.inr (Or.inr h))
      · subst h3
        exact ⟨hg, Or.inr (Or.inl ⟨rfl, by simp, h4⟩)⟩
      · subst h4
        exact ⟨hg, Or.inr (Or.inr (Or.inl ⟨h3, rfl⟩))⟩
      · subst h4
        exact ⟨hg, Or.inr (Or.inr (Or.inr ⟨h3, rfl, h5⟩))⟩

/-- If no sub-dataset has more, all sequences are in the list. -/
theorem complete_of_no_more {α : Type} {s : State α} (hi : Inv s) (h : ∀ d, hasMore s d = false) :
    s.sorted.length = (s.subs.map List.length).sum ∧ s.used = s.subs.map List.length := by
  have hu : s.used = s.subs.map List.length := by
    apply List.ext_getElem (by simp [hi.lenU])
    intro d h1 h2
    have a := hi.le d
    have b : ¬ s.used.getD d 0 < (s.subs.getD d []).length := fun hc => by
      have := (hasMore_iff hi d).2 hc; rw [h d] at this; cases this
    rw [getD_of_lt h1, getD_of_lt (by simpa using h2)] at a b
    rw [List.getElem_map]
    omega
  exact ⟨by rw [sorted_length hi, hu], hu⟩

theorem sum_le_of_le : ∀ (u v : List Nat), u.length = v.length → (∀ d, u.getD d 0 ≤ v.getD d 0) → u.sum ≤ v.sum
  | [], [], _, _ => by simp
  | a :: u, b :: v, hl, h => by
    have h0 := h 0
    have ih := sum_le_of_le u v (by simpa using hl) (fun d => by simpa using h (d + 1))
    simp at h0 ⊢
    omega

theorem sorted_le_total {α : Type} {s : State α} (hi : Inv s) : s.sorted.length ≤ (s.subs.map List.length).sum := by
  rw [sorted_length hi]
  refine sum_le_of_le _ _ (by simp [hi.lenU]) (fun d => ?_)
  have := hi.le d
  refine Nat.le_trans this ?_
  rw [List.getD_eq_getElem?_getD, List.getD_eq_getElem?_getD, List.getElem?_map]
  cases s.subs[d]? <;> simp

/-- C39. `is_less_than_num_seqs(n)` is right: `n` is less than the number of all sequences of the sub-datasets. For
`default` and `reversed` order this holds in every state; for the random choice of sub-datasets there may be an exception
(of numpy), and for other orders there is an exception if the order is not known in advance. -/
theorem isLess_spec {α : Type} {choose : State α → List Nat → Nat} (hc : Chooses choose) (ord : Ordering) {s : State α}
    (hi : Inv s) (he : s.est.length = s.subs.length) (n : Nat) :
    Grows s (isLess choose ord s n).2 ∧
    (((isLess choose ord s n).1 = .ok (decide (n < (s.subs.map List.length).sum)) ∧
        (n < (s.subs.map List.length).sum → n < (isLess choose ord s n).2.sorted.length)) ∨
      (ord = .randomDataset ∧ (isLess choose ord s n).1 = .error .valueError) ∨
      (ord = .other ∧ (isLess choose ord s n).1 = .error (.other "Exception") ∧
        s.sorted.length < (s.subs.map List.length).sum)) := by
  unfold isLess
  have htot := sorted_le_total hi
  by_cases h : n < s.sorted.length
  · rw [if_pos h]
    refine ⟨⟨hi, he, rfl, List.prefix_rfl, rfl, rfl⟩, Or.inl ⟨?_, fun _ => h⟩⟩
    rw [decide_eq_true (by omega)]
  · rw [if_neg h]
    obtain ⟨hg, hr⟩ := expand_spec hc ord (n - s.sorted.length + 1) s hi he
    refine ⟨hg, ?_⟩
    rcases hr with ⟨a1, a2⟩ | ⟨a1, a2, a3⟩ | h' | ⟨h1, h2, d, h3⟩
    · left
      have := sorted_le_total hg.inv
      rw [hg.subs] at this
      rw [a1, decide_eq_true (by omega)]
      exact ⟨rfl, fun _ => by omega⟩
    · left
      have := (complete_of_no_more hg.inv a3).1
      rw [hg.subs] at this
      rw [a1, decide_eq_false (by omega)]
      exact ⟨rfl, fun hcon => by omega⟩
    · exact Or.inr (Or.inl h')
    · right; right
      refine ⟨h1, h2, ?_⟩
      have h4 := (hasMore_iff hg.inv d).1 h3
      have h5 := sorted_length hg.inv
      have h6 := hg.pre.length_le
      have h7 : (expand choose ord (n - s.sorted.length + 1) s).2.used.sum < (s.subs.map List.length).sum := by
        rw [← hg.subs]
        have key : ∀ (u v : List Nat), u.length = v.length → (∀ d, u.getD d 0 ≤ v.getD d 0) →
            (∃ d, u.getD d 0 < v.getD d 0) → u.sum < v.sum := by
          intro u
          induction u with
          | nil =>
            intro v hv _ ⟨d, hd⟩
            have : v = [] := List.length_eq_zero_iff.1 (by simpa using hv.symm)
            subst this
            simp at hd
          | cons a u ihu =>
            intro v hv hle ⟨d, hd⟩
            cases v with
            | nil => simp at hv
            | cons b v =>
              have h0 := hle 0
              simp at h0
              have hle' : ∀ d, u.getD d 0 ≤ v.getD d 0 := fun d => by simpa using hle (d + 1)
              cases d with
              | zero =>
                have := sum_le_of_le u v (by simpa using hv) hle'
                simp at hd ⊢
                omega
              | succ d =>
                have := ihu v (by simpa using hv) hle' ⟨d, by simpa using hd⟩
                simp
                omega
        have hlen : ∀ d, ((expand choose ord (n - s.sorted.length + 1) s).2.subs.map List.length).getD d 0 =
            ((expand choose ord (n - s.sorted.length + 1) s).2.subs.getD d []).length := by
          intro d
          rw [List.getD_eq_getElem?_getD, List.getElem?_map, List.getD_eq_getElem?_getD]
          cases (expand choose ord (n - s.sorted.length + 1) s).2.subs[d]? <;> simp
        refine key _ _ (by simp [hg.inv.lenU]) (fun d => ?_) ⟨d, ?_⟩
        · rw [hlen]; exact hg.inv.le d
        · rw [hlen]; exact h4
      omega

/-- C39. After an order was made: exactly the indices of this order are less than the number of sequences. -/
theorem isLess_known {α : Type} {choose : State α → List Nat → Nat} (hc : Chooses choose) (ord : Ordering)
    {first : List (List α)} {est : List Int} {order : List Nat} (h : ∀ i ∈ order, i < (flat first).length)
    (hest : est.length = first.length) {s : State α} (hs : initKnown first est order = .ok s) (n : Nat) :
    (isLess choose ord s n).1 = .ok (decide (n < order.length)) ∨
    (ord = .randomDataset ∧ (isLess choose ord s n).1 = .error .valueError ∧ order.length ≤ n) := by
  obtain ⟨hi, hu⟩ := inv_known h hs
  obtain ⟨s', hs', hl, _, hsub, _⟩ := init_serves first est order h
  rw [hs] at hs'
  injection hs' with hs'
  subst hs'
  have hse : s.est = est := by
    simp only [initKnown, bind, Except.bind] at hs
    split at hs
    · cases hs
    · split at hs
      · cases hs
      · injection hs with hs; rw [← hs]
  have htot : (s.subs.map List.length).sum = order.length := by rw [← hu, ← sorted_length hi, hl]
  rcases (isLess_spec hc ord hi (by rw [hse, hest, hsub]) n).2 with h1 | h1 | ⟨_, _, h1⟩
  · left; rw [h1.1, htot]
  · by_cases hn : n < order.length
    · left
      simp only [isLess, hl, hn, if_true]
      rfl
    · exact Or.inr ⟨h1.1, h1.2, by omega⟩
  · rw [htot, hl] at h1; omega

end Verif.Combined
