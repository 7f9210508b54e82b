import Verif.Combined.Props
import Mathlib.Data.List.Nodup
/-
C39: the order if the number of sequences is not known, the random choice, and loading.
-/
namespace Verif.Combined
open Verif.Py Spec

/-! ### The order of `default` and `reversed`, made on demand -/

/-- Every sub-dataset which comes before a used one is used up. -/
def Before {α : Type} (R : Nat → Nat → Prop) (s : State α) : Prop :=
  (∀ p ∈ s.sorted, ∀ d, R d p.1 → hasMore s d = false) ∧
  s.sorted.Pairwise (fun p q => R p.1 q.1 ∨ (p.1 = q.1 ∧ p.2 < q.2))

theorem before_addSeq {α : Type} {R : Nat → Nat → Prop} (htri : ∀ a b, R a b ∨ a = b ∨ R b a) {s : State α} (hi : Inv s)
    (hb : Before R s) {d : Nat} (hm : hasMore s d = true) (hfirst : ∀ d', R d' d → hasMore s d' = false) :
    Before R (addSeq s d) := by
  have hlt := (hasMore_iff hi d).1 hm
  have hi' := inv_addSeq hi hm
  have hd : d < s.used.length := by
    rw [hi.lenU]
    by_contra hc
    rw [getD_of_ge (show s.subs.length ≤ d by omega)] at hlt
    simp at hlt
  have hmono : ∀ d', hasMore s d' = false → hasMore (addSeq s d) d' = false := by
    intro d' h
    by_contra hc
    simp only [Bool.not_eq_false] at hc
    have h1 := (hasMore_iff hi' d').1 hc
    simp only [addSeq] at h1
    rw [getD_set _ _ _ _ _ hd] at h1
    have h2 : ¬ s.used.getD d' 0 < (s.subs.getD d' []).length := fun hcc => by
      have := (hasMore_iff hi d').2 hcc; rw [h] at this; cases this
    split at h1
    · rename_i he; subst he; omega
    · omega
  refine ⟨?_, ?_⟩
  · intro p hp d' hR
    simp only [addSeq, List.mem_append, List.mem_singleton] at hp
    rcases hp with hp | rfl
    · exact hmono d' (hb.1 p hp d' hR)
    · exact hmono d' (hfirst d' hR)
  · simp only [addSeq]
    rw [List.pairwise_append]
    refine ⟨hb.2, by simp, ?_⟩
    intro p hp q hq
    simp only [List.mem_singleton] at hq
    subst hq
    simp only
    rcases htri p.1 d with h | h | h
    · exact Or.inl h
    · right
      refine ⟨h, ?_⟩
      have : p.2 ∈ (s.sorted.filter (fun p => decide (p.1 = d))).map Prod.snd :=
        List.mem_map.2 ⟨p, List.mem_filter.2 ⟨hp, by simpa using h⟩, rfl⟩
      rw [hi.seq, List.mem_range] at this
      exact this
    · exact absurd (hb.1 p hp d h) (by simp [hm])

theorem find_range_first {p : Nat → Bool} {n d : Nat} (h : (List.range n).find? p = some d) : ∀ d' < d, p d' = false := by
  intro d' hd'
  rw [List.find?_eq_some_iff_append] at h
  obtain ⟨_, as, bs, h1, h2⟩ := h
  have hlen : as.length = d := by
    have h3 : (List.range n)[as.length]? = some d := by rw [h1]; simp
    have h4 : as.length < n := by
      have := congrArg List.length h1
      simp at this
      omega
    rw [List.getElem?_range h4] at h3
    injection h3
  have : d' ∈ as := by
    have h3 : (List.range n)[d']? = as[d']? := by rw [h1, List.getElem?_append_left (by omega)]
    have h4 : d' < n := by
      have := congrArg List.length h1
      simp at this
      omega
    rw [List.getElem?_range h4] at h3
    exact List.mem_of_getElem? h3.symm
  have := h2 d' this
  simpa using this

theorem find_rev_first {p : Nat → Bool} {n d : Nat} (h : (List.range n).reverse.find? p = some d) :
    ∀ d', d < d' → d' < n → p d' = false := by
  intro d' hd' hn
  rw [List.find?_eq_some_iff_append] at h
  obtain ⟨_, as, bs, h1, h2⟩ := h
  have hsorted : ((List.range n).reverse).Pairwise (fun a b => b < a) := by
    rw [List.pairwise_reverse]; exact List.pairwise_lt_range
  have hmem : d' ∈ (List.range n).reverse := by simpa using hn
  rw [h1] at hsorted hmem
  rw [List.mem_append, List.mem_cons] at hmem
  rcases hmem with h | rfl | h
  · have := h2 d' h; simpa using this
  · omega
  · have := (List.pairwise_append.1 hsorted).2.1
    have := (List.pairwise_cons.1 this).1 d' h
    omega

/-- Which sub-dataset comes first. -/
def First : Ordering → Nat → Nat → Prop
  | .reversed, a, b => b < a
  | _, a, b => a < b

theorem first_tri (ord : Ordering) (a b : Nat) : First ord a b ∨ a = b ∨ First ord b a := by
  cases ord <;> simp only [First] <;> omega

theorem before_expand {α : Type} {choose : State α → List Nat → Nat} {ord : Ordering}
    (hord : ord = .default ∨ ord = .reversed) : ∀ (k : Nat) (s : State α), Inv s → Before (First ord) s →
    Before (First ord) (expand choose ord k s).2 := by
  intro k
  induction k with
  | zero => intro s _ hb; exact hb
  | succ k ih =>
    intro s hi hb
    rcases hord with rfl | rfl
    · simp only [expand, pick]
      cases hf : (List.range s.subs.length).find? (hasMore s) with
      | none => exact hb
      | some d =>
        have hm := List.find?_some hf
        exact ih _ (inv_addSeq hi hm) (before_addSeq (first_tri _) hi hb hm (fun d' hd' => find_range_first hf d' hd'))
    · simp only [expand, pick]
      cases hf : (List.range s.subs.length).reverse.find? (hasMore s) with
      | none => exact hb
      | some d =>
        have hm := List.find?_some hf
        refine ih _ (inv_addSeq hi hm) (before_addSeq (first_tri _) hi hb hm (fun d' hd' => ?_))
        by_cases hn : d' < s.subs.length
        · exact find_rev_first hf d' hd' hn
        · by_contra hc
          simp only [Bool.not_eq_false] at hc
          have := (hasMore_iff hi d').1 hc
          rw [getD_of_ge (show s.subs.length ≤ d' by omega)] at this
          simp at this

theorem flatFrom_mem {β : Type} : ∀ (L : List (List β)) (d0 d : Nat) (x : β), (d, x) ∈ flatFrom d0 L ↔
    d0 ≤ d ∧ x ∈ L.getD (d - d0) []
  | [], d0, d, x => by simp [flatFrom]
  | o :: L, d0, d, x => by
    simp only [flatFrom, List.mem_append, List.mem_map, Prod.mk.injEq, flatFrom_mem L]
    constructor
    · rintro (⟨y, hy, rfl, rfl⟩ | ⟨h1, h2⟩)
      · simp [hy]
      · refine ⟨by omega, ?_⟩
        rw [show d - d0 = (d - (d0 + 1)) + 1 from by omega]
        simpa using h2
    · rintro ⟨h1, h2⟩
      by_cases h : d = d0
      · subst h
        left
        simp at h2
        exact ⟨x, h2, rfl, rfl⟩
      · right
        refine ⟨by omega, ?_⟩
        rw [show d - d0 = (d - (d0 + 1)) + 1 from by omega] at h2
        simpa using h2

theorem flatFrom_pairwise : ∀ (L : List (List Nat)) (d0 : Nat), (∀ o ∈ L, o.Pairwise (· < ·)) →
    (flatFrom d0 L).Pairwise (fun p q => p.1 < q.1 ∨ (p.1 = q.1 ∧ p.2 < q.2))
  | [], _, _ => by simp [flatFrom]
  | o :: L, d0, h => by
    simp only [flatFrom]
    rw [List.pairwise_append]
    refine ⟨?_, flatFrom_pairwise L (d0 + 1) (fun o ho => h o (by simp [ho])), ?_⟩
    · rw [List.pairwise_map]
      exact (h o (by simp)).imp (fun h => by simp [h])
    · intro p hp q hq
      rw [List.mem_map] at hp
      obtain ⟨x, _, rfl⟩ := hp
      left
      have := (flatFrom_mem L (d0 + 1) q.1 q.2).1 hq
      simp only
      omega

/-- In a state without more sequences, the list has every sequence of every sub-dataset exactly once. -/
theorem complete_mem {α : Type} {s : State α} (hi : Inv s) (h : ∀ d, hasMore s d = false) (p : Nat × Nat) :
    p ∈ s.sorted ↔ p.2 < (s.subs.getD p.1 []).length := by
  have hu : s.used.getD p.1 0 = (s.subs.getD p.1 []).length := by
    have a := hi.le p.1
    have b : ¬ s.used.getD p.1 0 < (s.subs.getD p.1 []).length := fun hc => by
      have := (hasMore_iff hi p.1).2 hc; rw [h] at this; cases this
    omega
  have hs := hi.seq p.1
  rw [hu] at hs
  constructor
  · intro hp
    have : p.2 ∈ (s.sorted.filter (fun q => decide (q.1 = p.1))).map Prod.snd :=
      List.mem_map.2 ⟨p, List.mem_filter.2 ⟨hp, by simp⟩, rfl⟩
    rw [hs, List.mem_range] at this
    exact this
  · intro hp
    have : p.2 ∈ (s.sorted.filter (fun q => decide (q.1 = p.1))).map Prod.snd := by
      rw [hs, List.mem_range]; exact hp
    obtain ⟨q, hq, hqe⟩ := List.mem_map.1 this
    rw [List.mem_filter] at hq
    have hq1 : q.1 = p.1 := by simpa using hq.2
    rw [show p = q from Prod.ext hq1.symm hqe.symm]
    exact hq.1

/-- C39. If the number of sequences is not known, the list made on demand for `default` is, at the end, the list of all
sequences of the first sub-dataset, then of the second, and so on. -/
theorem default_complete {α : Type} {choose : State α → List Nat → Nat} (hc : Chooses choose) (first : List (List α))
    (est : List Int) (he : est.length = first.length) (n : Nat) (hn : (flat first).length ≤ n) :
    (isLess choose .default (initUnknown first est) n).1 = .ok false ∧
    (isLess choose .default (initUnknown first est) n).2.sorted = flat (first.map (fun o => List.range o.length)) := by
  rw [flat, flatFrom_length] at hn
  have hi := inv_unknown first est
  obtain ⟨hg, hr⟩ := isLess_spec hc .default hi (by simpa [initUnknown] using he) n
  rcases hr with ⟨h1, _⟩ | ⟨h, _⟩ | ⟨h, _⟩
  · have h1' : (isLess choose .default (initUnknown first est) n).1 = .ok false := by
      rw [h1, decide_eq_false (by simp only [initUnknown]; omega)]
    refine ⟨h1', ?_⟩
    have hb : Before (First .default) (isLess choose .default (initUnknown first est) n).2 := by
      unfold isLess
      rw [if_neg (by simp [initUnknown])]
      exact before_expand (Or.inl rfl) _ _ hi ⟨by simp [initUnknown], by simp [initUnknown]⟩
    have hno : ∀ d, hasMore (isLess choose .default (initUnknown first est) n).2 d = false := by
      unfold isLess at h1' ⊢
      rw [if_neg (by simp [initUnknown])] at h1' ⊢
      rcases (expand_spec hc .default _ _ hi (by simpa [initUnknown] using he)).2 with ⟨a, _⟩ | ⟨_, _, a⟩ | ⟨a, _⟩ | ⟨a, _⟩
      · rw [a] at h1'; cases h1'
      · exact a
      · cases a
      · cases a
    generalize (isLess choose .default (initUnknown first est) n).2 = t at hg hb hno
    have hsub : t.subs = first := hg.subs
    have hpw := flatFrom_pairwise (first.map (fun o => List.range o.length)) 0 (by
      intro o ho
      rw [List.mem_map] at ho
      obtain ⟨x, _, rfl⟩ := ho
      exact List.pairwise_lt_range)
    have hirr : ∀ {l : List (Nat × Nat)}, l.Pairwise (fun p q => p.1 < q.1 ∨ (p.1 = q.1 ∧ p.2 < q.2)) → l.Nodup :=
      fun h => h.imp (fun {a b} hab => by rintro rfl; omega)
    have hperm : t.sorted.Perm (flat (first.map (fun o => List.range o.length))) := by
      unfold flat
      rw [List.perm_ext_iff_of_nodup (hirr hb.2) (hirr hpw)]
      intro p
      rw [complete_mem hg.inv hno p, show p = (p.1, p.2) from rfl, flatFrom_mem, hsub]
      simp only [Nat.zero_le, Nat.sub_zero, true_and, List.getD_eq_getElem?_getD, List.getElem?_map]
      cases first[p.1]? <;> simp
    exact hperm.eq_of_pairwise (fun a b _ _ h1 h2 => by simp only [First] at h1 h2; exfalso; omega) hb.2 hpw
  · cases h
  · cases h

/-- C39. For `reversed`: the last sub-dataset first (but every sub-dataset in its own order). -/
theorem reversed_order {α : Type} {choose : State α → List Nat → Nat} (first : List (List α)) (est : List Int) (n : Nat) :
    (isLess choose .reversed (initUnknown first est) n).2.sorted.Pairwise
      (fun p q => q.1 < p.1 ∨ (p.1 = q.1 ∧ p.2 < q.2)) := by
  have hb : Before (First .reversed) (isLess choose .reversed (initUnknown first est) n).2 := by
    unfold isLess
    rw [if_neg (by simp [initUnknown])]
    exact before_expand (Or.inr rfl) _ _ (inv_unknown first est) ⟨by simp [initUnknown], by simp [initUnknown]⟩
  exact hb.2

/-! ### The random choice of sub-datasets -/

/-- The estimate is at least the number of used sequences. -/
def EstOk {α : Type} (s : State α) : Prop := s.est.length = s.subs.length ∧ ∀ d, (s.used.getD d 0 : Int) ≤ s.est.getD d 0

theorem remaining_getD {α : Type} {s : State α} (hi : Inv s) (he : s.est.length = s.subs.length) (d : Nat) :
    (remaining s).getD d 0 = s.est.getD d 0 - (s.used.getD d 0 : Int) := by
  have hu := hi.lenU
  by_cases hd : d < s.subs.length
  · unfold remaining
    rw [getD_of_lt (l := s.est) (by omega), getD_of_lt (l := s.used) (by omega),
      getD_of_lt (by rw [List.length_zipWith]; omega), List.getElem_zipWith]
  · rw [getD_of_ge (l := s.est) (by omega), getD_of_ge (l := s.used) (by omega),
      getD_of_ge (by unfold remaining; rw [List.length_zipWith]; omega)]
    simp

theorem not_any_neg {α : Type} {s : State α} (hi : Inv s) (he : EstOk s) :
    (remaining s).any (fun r => decide (r < 0)) = false := by
  rw [List.any_eq_false]
  intro x hx
  obtain ⟨d, hd, rfl⟩ := List.getElem_of_mem hx
  have h1 := remaining_getD hi he.1 d
  have h2 := he.2 d
  rw [getD_of_lt hd] at h1
  simp only [decide_eq_true_eq]
  omega

/-- If the estimates are not too small, the choice does not fail and the estimates stay. -/
theorem randomPick_ok {α : Type} {choose : State α → List Nat → Nat} (hc : Chooses choose) : ∀ (fuel : Nat) (s : State α),
    Inv s → EstOk s →
    ((List.range s.subs.length).filter (fun d => decide (0 < (remaining s).getD d 0))).length < fuel →
    let r := randomPick choose fuel s
    r.1 ≠ .error .valueError ∧ (∀ d, r.1 = .ok (some d) → hasMore s d = true ∧ EstOk (addSeq r.2 d)) ∧ EstOk r.2 := by
  intro fuel
  induction fuel with
  | zero => intro s _ _ h; omega
  | succ fuel ih =>
    intro s hi he hf
    have hlenR : (remaining s).length = s.subs.length := by simp [remaining, he.1, hi.lenU]
    simp only [randomPick]
    by_cases h1 : (remaining s).sum ≤ 0
    · rw [if_pos h1]
      by_cases h2 : (List.range s.subs.length).filter (hasMore s) = []
      · rw [if_pos h2]
        exact ⟨by simp, by simp, he⟩
      · rw [if_neg h2]
        have hmem := hc s _ h2
        generalize choose s ((List.range s.subs.length).filter (hasMore s)) = d at hmem
        rw [List.mem_filter, List.mem_range] at hmem
        have hde : d < s.est.length := by rw [he.1]; exact hmem.1
        have hdu : d < s.used.length := by rw [hi.lenU]; exact hmem.1
        have hEst : EstOk { s with est := s.est.set d (s.est.getD d 0 + 1) } := by
          refine ⟨by simp [he.1], fun d' => ?_⟩
          simp only
          rw [getD_set _ _ _ _ _ hde]
          have := he.2 d'
          split
          · rename_i h; subst h; omega
          · exact this
        refine ⟨by simp, ?_, hEst⟩
        intro d2 hd2
        injection hd2 with hd2
        injection hd2 with hd2
        subst hd2
        refine ⟨hmem.2, by simp [addSeq, he.1], fun d' => ?_⟩
        simp only [addSeq]
        rw [getD_set _ _ _ _ _ hde, getD_set _ _ _ _ _ hdu]
        have a := he.2 d'
        split
        · rename_i h; subst h; push_cast; omega
        · exact a
    · rw [if_neg h1, if_neg (by rw [not_any_neg hi he]; simp)]
      have hne : (List.range s.subs.length).filter (fun d => decide (0 < (remaining s).getD d 0)) ≠ [] := by
        intro hnil
        apply h1
        have hall : ∀ x ∈ remaining s, x ≤ 0 := by
          intro x hx
          obtain ⟨d, hd, rfl⟩ := List.getElem_of_mem hx
          by_contra hcon
          have : d ∈ (List.range s.subs.length).filter (fun d => decide (0 < (remaining s).getD d 0)) := by
            rw [List.mem_filter, List.mem_range, getD_of_lt hd]
            exact ⟨by omega, by simpa using hcon⟩
          rw [hnil] at this
          cases this
        clear hnil h1 hlenR hf
        generalize remaining s = l at hall
        induction l with
        | nil => simp
        | cons a l ihl =>
          have a1 := hall a (by simp)
          have a2 := ihl (fun x hx => hall x (by simp [hx]))
          rw [List.sum_cons]; omega
      have hmem := hc s _ hne
      generalize hdd : choose s ((List.range s.subs.length).filter (fun d => decide (0 < (remaining s).getD d 0))) = d at hmem
      rw [List.mem_filter, List.mem_range] at hmem
      obtain ⟨hd, hpos⟩ := hmem
      have hde : d < s.est.length := by rw [he.1]; exact hd
      have hdu : d < s.used.length := by rw [hi.lenU]; exact hd
      by_cases h3 : hasMore s d = true
      · rw [if_pos h3]
        refine ⟨by simp, ?_, he⟩
        intro d2 hd2
        injection hd2 with hd2
        injection hd2 with hd2
        subst hd2
        refine ⟨h3, he.1, fun d' => ?_⟩
        simp only [addSeq]
        rw [getD_set _ _ _ _ _ hdu]
        have a := he.2 d'
        split
        · rename_i h
          subst h
          rw [remaining_getD hi he.1] at hpos
          simp only [decide_eq_true_eq] at hpos
          push_cast
          omega
        · exact a
      · rw [if_neg h3]
        have hEst : EstOk { s with est := s.est.set d ((s.used.getD d 0 : Nat) : Int) } := by
          refine ⟨by simp [he.1], fun d' => ?_⟩
          simp only
          rw [getD_set _ _ _ _ _ hde]
          have := he.2 d'
          split
          · rename_i h; subst h; omega
          · exact this
        have hi' := inv_est hi (s.est.set d ((s.used.getD d 0 : Nat) : Int))
        have hrem : ∀ d', (remaining { s with est := s.est.set d ((s.used.getD d 0 : Nat) : Int) }).getD d' 0 =
            if d = d' then 0 else (remaining s).getD d' 0 := by
          intro d'
          rw [remaining_getD hi' hEst.1, remaining_getD hi he.1]
          simp only
          rw [getD_set _ _ _ _ _ hde]
          split
          · rename_i h; subst h; omega
          · rfl
        have hlt : ((List.range s.subs.length).filter (fun d' => decide (0 < (remaining { s with est := s.est.set d ((s.used.getD d 0 : Nat) : Int) }).getD d' 0))).length <
            ((List.range s.subs.length).filter (fun d => decide (0 < (remaining s).getD d 0))).length := by
          simp only [hrem]
          have hsub : ((List.range s.subs.length).filter (fun d' => decide (0 < if d = d' then (0 : Int) else (remaining s).getD d' 0))) =
              ((List.range s.subs.length).filter (fun d => decide (0 < (remaining s).getD d 0))).filter (fun d' => decide (d' ≠ d)) := by
            rw [List.filter_filter]
            apply List.filter_congr
            intro x _
            by_cases hx : d = x
            · subst hx; simp
            · simp [hx, Ne.symm hx]
          rw [hsub, List.length_filter_lt_length_iff_exists]
          exact ⟨d, by rw [List.mem_filter, List.mem_range]; exact ⟨hd, hpos⟩, by simp⟩
        have := ih { s with est := s.est.set d ((s.used.getD d 0 : Nat) : Int) } hi' hEst
          (by
            have e : ({ s with est := s.est.set d ((s.used.getD d 0 : Nat) : Int) } : State α).subs = s.subs := rfl
            rw [e]; omega)
        exact this

theorem expand_random_ok {α : Type} {choose : State α → List Nat → Nat} (hc : Chooses choose) :
    ∀ (k : Nat) (s : State α), Inv s → EstOk s →
    (expand choose .randomDataset k s).1 ≠ .error .valueError ∧ EstOk (expand choose .randomDataset k s).2 := by
  intro k
  induction k with
  | zero => intro s _ he; exact ⟨by simp [expand], he⟩
  | succ k ih =>
    intro s hi he
    have hp := randomPick_ok hc (s.subs.length + 1) s hi he
      (Nat.lt_succ_of_le (by have := List.length_filter_le (fun d => decide (0 < (remaining s).getD d 0)) (List.range s.subs.length); simpa using this))
    have hs := pick_spec hc .randomDataset hi he.1
    simp only [pick] at hs
    simp only [expand, pick]
    cases hr : randomPick choose (s.subs.length + 1) s with
    | mk r s' =>
      rw [hr] at hp hs
      simp only at hp hs ⊢
      obtain ⟨⟨e, hse, hel⟩, _⟩ := hs
      subst hse
      cases r with
      | error e' => exact ⟨by simpa using hp.1, hp.2.2⟩
      | ok o =>
        cases o with
        | none => exact ⟨by simp, hp.2.2⟩
        | some d =>
          obtain ⟨h1, h2⟩ := hp.2.1 d rfl
          exact ih _ (inv_addSeq (inv_est hi e) h1) h2

/-- C39. With the random choice, if the number of sequences is not known: every sequence comes exactly once, in any case
(whatever the estimates, as long as they are not negative). -/
theorem random_complete {α : Type} {choose : State α → List Nat → Nat} (hc : Chooses choose) (first : List (List α))
    (est : List Int) (he : est.length = first.length) (hpos : ∀ e ∈ est, 0 ≤ e) (n : Nat) :
    (isLess choose .randomDataset (initUnknown first est) n).1 = .ok (decide (n < (flat first).length)) ∧
    ((flat first).length ≤ n → ∀ p : Nat × Nat,
      (isLess choose .randomDataset (initUnknown first est) n).2.sorted.count p =
        if p.2 < (first.getD p.1 []).length then 1 else 0) := by
  have hi := inv_unknown first est
  have hEst : EstOk (initUnknown first est) := by
    refine ⟨by simpa [initUnknown] using he, fun d => ?_⟩
    simp only [initUnknown]
    rw [getD_replicate]
    by_cases hd : d < est.length
    · rw [getD_of_lt hd]; exact hpos _ (List.getElem_mem hd)
    · rw [getD_of_ge (by omega)]; simp
  have hf : (flat first).length = ((initUnknown first est).subs.map List.length).sum := by
    rw [flat, flatFrom_length]; rfl
  have hne : (isLess choose .randomDataset (initUnknown first est) n).1 ≠ .error .valueError := by
    unfold isLess
    rw [if_neg (by simp [initUnknown])]
    exact (expand_random_ok hc _ _ hi hEst).1
  obtain ⟨hg, hr⟩ := isLess_spec hc .randomDataset hi hEst.1 n
  rcases hr with ⟨h1, _⟩ | ⟨_, h⟩ | ⟨h, _⟩
  · rw [hf]
    refine ⟨h1, fun hn p => ?_⟩
    have h1' : (isLess choose .randomDataset (initUnknown first est) n).1 = .ok false := by
      rw [h1, decide_eq_false (by omega)]
    have hno : ∀ d, hasMore (isLess choose .randomDataset (initUnknown first est) n).2 d = false := by
      unfold isLess at h1' ⊢
      rw [if_neg (by simp [initUnknown])] at h1' ⊢
      rcases (expand_spec hc .randomDataset _ _ hi hEst.1).2 with ⟨a, _⟩ | ⟨_, _, a⟩ | ⟨_, a⟩ | ⟨a, _⟩
      · rw [a] at h1'; cases h1'
      · exact a
      · rw [a] at h1'; cases h1'
      · cases a
    generalize (isLess choose .randomDataset (initUnknown first est) n).2 = t at hg hno
    have hnd : t.sorted.Nodup := by
      rw [List.nodup_iff_count_le_one]
      intro q
      have hs := hg.inv.seq q.1
      have h2 : ((t.sorted.filter (fun p => decide (p.1 = q.1))).map Prod.snd).count q.2 ≤ 1 := by
        rw [hs]; exact List.nodup_iff_count_le_one.1 List.nodup_range q.2
      have h3 : t.sorted.count q = (t.sorted.filter (fun p => decide (p.1 = q.1))).count q := by
        rw [List.count_filter (by simp)]
      rw [h3]
      exact Nat.le_trans (List.count_le_count_map (f := Prod.snd)) h2
    have hm := complete_mem hg.inv hno p
    rw [show t.subs = first from hg.subs] at hm
    have hcount : t.sorted.count p = if p ∈ t.sorted then 1 else 0 := by
      split
      · exact List.count_eq_one_of_mem hnd ‹_›
      · exact List.count_eq_zero_of_not_mem ‹_›
    rw [hcount]
    by_cases hp : p ∈ t.sorted
    · rw [if_pos hp, if_pos (hm.1 hp)]
    · rw [if_neg hp, if_neg (fun h => hp (hm.2 h))]
  · exact absurd h hne
  · cases h

/-- C39 violated: with the random choice, if an order was made in advance and an estimate is too small for one
sub-dataset and too large for another one, the end of the epoch is a `ValueError`. -/
theorem random_end_fails : ∃ (first : List (List Nat)) (est : List Int) (order : List Nat) (s : State Nat),
    est.length = first.length ∧ (∀ e ∈ est, 0 ≤ e) ∧ (∀ i ∈ order, i < (flat first).length) ∧
    initKnown first est order = .ok s ∧
    ∀ choose, (isLess choose .randomDataset s order.length).1 = .error .valueError :=
  ⟨[[0, 1], [0, 1, 2]], [0, 3], [0, 2], { sorted := [(0, 0), (1, 0)], subs := [[0], [0]], used := [1, 1], est := [0, 3], expected := [0, 0] },
    rfl, by decide, by decide, by decide +kernel, fun choose => by rfl⟩

/-! ### Loading -/

theorem foldl_min_range' (a n : Nat) : (List.range' (a + 1) n).foldl min a = a := by
  have : ∀ (l : List Nat), (∀ x ∈ l, a ≤ x) → l.foldl min a = a := by
    intro l
    induction l with
    | nil => intro _; rfl
    | cons b l ih =>
      intro h
      rw [List.foldl_cons, Nat.min_eq_left (h b (by simp))]
      exact ih (fun x hx => h x (by simp [hx]))
  exact this _ (fun x hx => by rw [List.mem_range'_1] at hx; omega)

theorem foldl_max_range' : ∀ (n a : Nat), (List.range' (a + 1) n).foldl max a = a + n
  | 0, a => rfl
  | n + 1, a => by
    rw [List.range'_succ, List.foldl_cons, Nat.max_eq_right (by omega), foldl_max_range' n (a + 1)]
    omega

theorem take_split {β : Type} (l : List β) {a b : Nat} (h : a ≤ b) : l.take b = l.take a ++ slice l a b := by
  unfold slice
  conv_lhs => rw [← List.take_append_drop a (l.take b)]
  rw [List.take_take, Nat.min_eq_left h]

/-- C39. The window which is loaded from a sub-dataset is exactly the part of it which is used by the sequences `start`
to `end`: from the number of its sequences before `start` to the number before `end`. -/
theorem subWindow_exact {α : Type} {s : State α} (hi : Inv s) {start fin : Nat} (h : start ≤ fin) (d : Nat) :
    subWindow s start fin d = if countOf d (s.sorted.take start) < countOf d (s.sorted.take fin) then
      some (countOf d (s.sorted.take start), countOf d (s.sorted.take fin)) else none := by
  have hpre : ∀ k, ((s.sorted.take k).filter (fun p => decide (p.1 = d))).map Prod.snd =
      List.range (countOf d (s.sorted.take k)) := by
    intro k
    have h1 : ((s.sorted.take k).filter (fun p => decide (p.1 = d))).map Prod.snd <+: List.range (s.used.getD d 0) := by
      rw [← hi.seq d]
      exact ((List.take_prefix k s.sorted).filter _).map _
    have h2 := List.prefix_iff_eq_take.1 h1
    rw [h2, List.take_range]
    congr 1
    have hlen : (((s.sorted.take k).filter (fun p => decide (p.1 = d))).map Prod.snd).length = countOf d (s.sorted.take k) := by
      rw [List.length_map, countOf_eq]
    rw [hlen]
    have := h1.length_le
    rw [hlen, List.length_range] at this
    omega
  have hf := hpre fin
  rw [take_split s.sorted h, List.filter_append, List.map_append, hpre start] at hf
  have hle : countOf d (s.sorted.take start) ≤ countOf d (s.sorted.take fin) := by
    rw [take_split s.sorted h, countOf, countOf, List.countP_append]; omega
  have hsl : ((slice s.sorted start fin).filter (fun p => decide (p.1 = d))).map Prod.snd =
      List.range' (countOf d (s.sorted.take start)) (countOf d (s.sorted.take fin) - countOf d (s.sorted.take start)) := by
    have h3 : List.range (countOf d (s.sorted.take fin)) = List.range (countOf d (s.sorted.take start)) ++
        List.range' (countOf d (s.sorted.take start)) (countOf d (s.sorted.take fin) - countOf d (s.sorted.take start)) := by
      rw [List.range_eq_range', List.range_eq_range']
      have := List.range'_append (s := 0) (m := countOf d (s.sorted.take start)) (n := countOf d (s.sorted.take fin) - countOf d (s.sorted.take start)) (step := 1)
      simp only [Nat.one_mul, Nat.zero_add] at this
      rw [this]
      congr 1
      omega
    rw [← take_split s.sorted h, h3] at hf
    exact List.append_cancel_left hf
  unfold subWindow
  rw [hsl]
  by_cases hlt : countOf d (s.sorted.take start) < countOf d (s.sorted.take fin)
  · rw [if_pos hlt]
    obtain ⟨m, hm⟩ : ∃ m, countOf d (s.sorted.take fin) - countOf d (s.sorted.take start) = m + 1 := ⟨_, by
      have : countOf d (s.sorted.take fin) - countOf d (s.sorted.take start) ≠ 0 := by omega
      exact (Nat.succ_pred_eq_of_ne_zero this).symm⟩
    rw [hm, List.range'_succ]
    simp only
    rw [foldl_min_range', foldl_max_range']
    congr 2
    omega
  · rw [if_neg hlt]
    rw [show countOf d (s.sorted.take fin) - countOf d (s.sorted.take start) = 0 from by omega]
    rfl

/-- Loading the sub-datasets does not fail, if their windows did not move past the start. -/
theorem loadSubs_ok {α : Type} {s : State α} (hi : Inv s) {start fin : Nat} (h : start ≤ fin) : ∀ (ds : List Nat)
    (ex : List Nat), ex.length = s.subs.length → (∀ d ∈ ds, d < s.subs.length) →
    (∀ d, ex.getD d 0 ≤ countOf d (s.sorted.take start)) →
    ∃ ex', loadSubs s start fin ds ex = .ok ex' ∧ ex'.length = s.subs.length ∧
      (∀ d, ex'.getD d 0 ≤ countOf d (s.sorted.take start)) := by
  intro ds
  induction ds with
  | nil => intro ex h1 _ h3; exact ⟨ex, rfl, h1, h3⟩
  | cons d ds ih =>
    intro ex h1 h2 h3
    simp only [loadSubs]
    rw [subWindow_exact hi h d]
    by_cases hlt : countOf d (s.sorted.take start) < countOf d (s.sorted.take fin)
    · rw [if_pos hlt]
      have hd : d < ex.length := by rw [h1]; exact h2 d (by simp)
      have h4 := h3 d
      rw [getD_of_lt hd] at h4
      simp only [bind, Except.bind, getItem_eq hd, pyAssert, decide_eq_true h4, if_true]
      refine ih _ (by simpa using h1) (fun d' hd' => h2 d' (by simp [hd'])) (fun d' => ?_)
      rw [getD_set _ _ _ _ _ hd]
      split
      · rename_i he; subst he; exact Nat.le_refl _
      · exact h3 d'
    · rw [if_neg hlt]
      exact ih ex h1 (fun d' hd' => h2 d' (by simp [hd'])) h3

/-- C39. `load_seqs` with increasing start never fails in a sub-dataset (for `default`/`reversed` orders, and if the order
was made in advance and is long enough), and every sequence in the window is loaded: its index in the sub-dataset is in
the window loaded there. -/
theorem loadSeqs_ok {α : Type} {choose : State α → List Nat → Nat} (hc : Chooses choose) (ord : Ordering) {s : State α}
    (hi : Inv s) (he : s.est.length = s.subs.length) {start fin : Nat} (hs : s.start ≤ start) (hf : start ≤ fin)
    (hord : fin ≤ s.sorted.length ∨ ord = .default ∨ ord = .reversed) :
    ∃ t, loadSeqs choose ord s start fin = (.ok (), t) ∧ Inv t ∧ t.subs = s.subs ∧ s.sorted <+: t.sorted ∧ t.start = start ∧
      t.sorted.length ≥ min fin (s.subs.map List.length).sum ∧
      ∀ i p, start ≤ i → i < fin → t.sorted[i]? = some p →
        ∃ a b, subWindow t start fin p.1 = some (a, b) ∧ a ≤ p.2 ∧ p.2 < b := by
  have hex : ∃ b t, (if s.sorted.length < fin then expand choose ord (fin - s.sorted.length) s else (.ok true, s)) = (.ok b, t) ∧
      Grows s t ∧ t.sorted.length ≥ min fin (s.subs.map List.length).sum := by
    by_cases hlt : s.sorted.length < fin
    · rw [if_pos hlt]
      obtain ⟨hg, hr⟩ := expand_spec hc ord (fin - s.sorted.length) s hi he
      have hmin : min fin (s.subs.map List.length).sum ≤ fin ∧
          min fin (s.subs.map List.length).sum ≤ (s.subs.map List.length).sum := ⟨Nat.min_le_left _ _, Nat.min_le_right _ _⟩
      generalize min fin (s.subs.map List.length).sum = m at hmin
      rcases hr with ⟨a1, a2⟩ | ⟨a1, a2, a3⟩ | ⟨a1, _⟩ | ⟨a1, _⟩
      · exact ⟨true, _, Prod.ext a1 rfl, hg, (by rw [a2]; omega)⟩
      · refine ⟨false, _, Prod.ext a1 rfl, hg, ?_⟩
        have := (complete_of_no_more hg.inv a3).1
        rw [hg.subs] at this
        rw [this]; exact hmin.2
      · rcases hord with h | h | h
        · omega
        · rw [h] at a1; cases a1
        · rw [h] at a1; cases a1
      · rcases hord with h | h | h
        · omega
        · rw [h] at a1; cases a1
        · rw [h] at a1; cases a1
    · rw [if_neg hlt]
      exact ⟨true, s, rfl, ⟨hi, he, rfl, List.prefix_rfl, rfl, rfl⟩, by omega⟩
  obtain ⟨b, t, ht, hg, hlen⟩ := hex
  have hmono : ∀ d, t.expected.getD d 0 ≤ countOf d (t.sorted.take start) := by
    intro d
    refine Nat.le_trans (hg.inv.win d) ?_
    rw [take_split t.sorted (show t.start ≤ start by rw [hg.start]; exact hs), countOf, countOf, List.countP_append]
    omega
  obtain ⟨ex', h1, h2, h3⟩ := loadSubs_ok hg.inv hf (List.range t.subs.length) t.expected hg.inv.lenX
    (fun d hd => List.mem_range.1 hd) hmono
  refine ⟨{ t with expected := ex', start := start }, ?_, ?_, hg.subs, hg.pre, rfl, hlen, ?_⟩
  · unfold loadSeqs
    rw [ht]
    simp only [h1, hg.start, if_pos hs]
  · exact ⟨hg.inv.lenU, h2, hg.inv.dom, hg.inv.seq, hg.inv.le, h3⟩
  · intro i p hi1 hi2 hp
    have hInv : Inv { t with expected := ex', start := start } := ⟨hg.inv.lenU, h2, hg.inv.dom, hg.inv.seq, hg.inv.le, h3⟩
    have hp' : t.sorted[i]? = some p := hp
    have hmem : p ∈ slice t.sorted start fin := by
      unfold slice
      rw [List.mem_iff_getElem?]
      refine ⟨i - start, ?_⟩
      rw [List.getElem?_drop, show start + (i - start) = i from by omega, List.getElem?_take, if_pos hi2, hp']
    have hp2 : p.2 ∈ ((slice t.sorted start fin).filter (fun q => decide (q.1 = p.1))).map Prod.snd :=
      List.mem_map.2 ⟨p, List.mem_filter.2 ⟨hmem, by simp⟩, rfl⟩
    unfold subWindow
    simp only
    cases hl : ((slice t.sorted start fin).filter (fun q => decide (q.1 = p.1))).map Prod.snd with
    | nil => rw [hl] at hp2; cases hp2
    | cons a l =>
      rw [hl] at hp2
      have hmin : ∀ (l : List Nat) (a : Nat), l.foldl min a ≤ a ∧ ∀ x ∈ l, l.foldl min a ≤ x := by
        intro l
        induction l with
        | nil => intro a; simp
        | cons c l ih =>
          intro a
          rw [List.foldl_cons]
          obtain ⟨u, v⟩ := ih (min a c)
          refine ⟨by omega, fun x hx => ?_⟩
          rcases List.mem_cons.1 hx with rfl | hx
          · omega
          · exact v x hx
      have hmax : ∀ (l : List Nat) (a : Nat), a ≤ l.foldl max a ∧ ∀ x ∈ l, x ≤ l.foldl max a := by
        intro l
        induction l with
        | nil => intro a; simp
        | cons c l ih =>
          intro a
          rw [List.foldl_cons]
          obtain ⟨u, v⟩ := ih (max a c)
          refine ⟨by omega, fun x hx => ?_⟩
          rcases List.mem_cons.1 hx with rfl | hx
          · omega
          · exact v x hx
      refine ⟨_, _, rfl, ?_, ?_⟩
      · rcases List.mem_cons.1 hp2 with h | h
        · rw [h]; exact (hmin l a).1
        · exact (hmin l a).2 _ h
      · rcases List.mem_cons.1 hp2 with h | h
        · rw [h]; have := (hmax l a).1; omega
        · have := (hmax l a).2 _ h; omega

/-- C42 violated: `init_seq_order` for the same epoch again does not rewind the sub-datasets. Loading from the beginning
is then an `AssertionError`. -/
theorem reinit_same_epoch_fails : ∃ (s : State Nat), initKnown [[0, 1, 2]] [3] [0, 1, 2] = .ok s ∧
    ∀ choose, ∃ t, loadSeqs choose .default s 1 2 = (.ok (), t) ∧
      (loadSeqs choose .default (reinitSame t) 0 1).1 = .error .assertion :=
  ⟨{ sorted := [(0, 0), (0, 1), (0, 2)], subs := [[0, 1, 2]], used := [3], est := [3], expected := [0] }, by decide +kernel,
    fun choose => ⟨{ sorted := [(0, 0), (0, 1), (0, 2)], subs := [[0, 1, 2]], used := [3], est := [3], expected := [1], start := 1 },
      by rfl, by rfl⟩⟩

/-! ### Examples -/

example : initKnown [[7, 5], [], [9, 8, 6]] [2, 0, 3] [4, 0, 2, 4] =
    .ok { sorted := [(2, 0), (0, 0), (2, 1), (2, 2)], subs := [[7], [], [6, 9, 6]], used := [1, 0, 3], est := [2, 0, 3],
          expected := [0, 0, 0] } := by decide +kernel
example : (∀ i ∈ [4, 0, 2, 4], i < (flat [[7, 5], [], [9, 8, 6]]).length) := by decide
example : Inv (initUnknown [[7, 5], [], [9, 8, 6]] [2, 0, 3]) := inv_unknown _ _
example : Chooses (fun (_ : State Nat) l => l.headD 0) := by
  intro s l h
  cases l with
  | nil => exact absurd rfl h
  | cons a l => simp
example : (isLess (fun _ l => l.headD 0) .default (initUnknown [[7, 5], [], [9, 8, 6]] [2, 0, 3]) 9).2.sorted =
    [(0, 0), (0, 1), (2, 0), (2, 1), (2, 2)] := by decide +kernel

end Verif.Combined
