import Verif.LearningRate.Model
import Verif.Util.ListLemmas
import Mathlib.Tactic.Linarith
import Mathlib.Data.List.Forall2
import Mathlib.Tactic.Push
/-
Specification vocabulary and lemmas for the learning rate control.
-/
namespace Verif.LearningRate
open Verif.Py Verif.ListLemmas

/-- `p` is the latest epoch with data before `e`. -/
def IsPrev (d : Data) (e p : Int) : Prop := p ∈ d.keys ∧ p < e ∧ ∀ q ∈ d.keys, q < e → q ≤ p

/-- There is no epoch with data before `e`. -/
def NoPrev (d : Data) (e : Int) : Prop := ∀ q ∈ d.keys, ¬ q < e

theorem mem_epochsBefore (d : Data) (e p : Int) : p ∈ epochsBefore d e ↔ p ∈ d.keys ∧ p < e := by
  unfold epochsBefore
  rw [(stableSort_perm _ _).mem_iff]
  simp

theorem epochsBefore_sorted (d : Data) (e : Int) : (epochsBefore d e).Pairwise (· ≤ ·) := by
  unfold epochsBefore
  refine (stableSort_pairwise (le := fun a b : Int => decide (a ≤ b)) ?_ ?_ _).imp ?_
  · intro a b c h1 h2; simp at *; omega
  · intro a b; simp; omega
  · intro a b h; simpa using h

theorem epochsBefore_nodup {d : Data} (hw : d.Wf) (e : Int) : (epochsBefore d e).Nodup := by
  unfold epochsBefore
  rw [(stableSort_perm _ _).nodup_iff]
  exact List.Nodup.sublist List.filter_sublist hw

theorem getLastEpoch_some (d : Data) (e p : Int) : getLastEpoch d e = some p ↔ IsPrev d e p := by
  unfold getLastEpoch IsPrev
  constructor
  · intro h
    have hm := (mem_epochsBefore d e p).1 (List.mem_of_getLast? h)
    refine ⟨hm.1, hm.2, fun q hq hqe => ?_⟩
    have hq' := (mem_epochsBefore d e q).2 ⟨hq, hqe⟩
    obtain ⟨l, hl⟩ := List.getLast?_eq_some_iff.1 h
    rw [hl] at hq'
    have hs := epochsBefore_sorted d e
    rw [hl, List.pairwise_append] at hs
    rcases List.mem_append.1 hq' with h1 | h1
    · exact hs.2.2 q h1 p (by simp)
    · simp at h1; omega
  · rintro ⟨h1, h2, h3⟩
    have hm := (mem_epochsBefore d e p).2 ⟨h1, h2⟩
    cases hl : (epochsBefore d e).getLast? with
    | none => rw [List.getLast?_eq_none_iff] at hl; rw [hl] at hm; simp at hm
    | some q =>
      have hq := (mem_epochsBefore d e q).1 (List.mem_of_getLast? hl)
      have h4 := h3 q hq.1 hq.2
      obtain ⟨l, hl'⟩ := List.getLast?_eq_some_iff.1 hl
      have hs := epochsBefore_sorted d e
      rw [hl'] at hm hs
      rw [List.pairwise_append] at hs
      rcases List.mem_append.1 hm with h5 | h5
      · have := hs.2.2 p h5 q (by simp); congr 1; omega
      · simp at h5; rw [h5]

theorem getLastEpoch_none (d : Data) (e : Int) : getLastEpoch d e = none ↔ NoPrev d e := by
  unfold getLastEpoch NoPrev
  rw [List.getLast?_eq_none_iff]
  constructor
  · intro h q hq hqe
    have := (mem_epochsBefore d e q).2 ⟨hq, hqe⟩
    rw [h] at this; simp at this
  · intro h
    apply List.eq_nil_iff_forall_not_mem.2
    intro q hq
    have := (mem_epochsBefore d e q).1 hq
    exact h q this.1 this.2

/-- What `find?` sees in `reversed(sorted(items))`. -/
theorem sorted_items (d : Data) :
    ((stableSort (fun a b => decide (a.1 ≤ b.1)) d).reverse).Pairwise (fun a b => b.1 ≤ a.1) := by
  rw [List.pairwise_reverse]
  refine (stableSort_pairwise (le := fun a b : Int × EpochData => decide (a.1 ≤ b.1)) ?_ ?_ _).imp ?_
  · intro a b c h1 h2; simp at *; omega
  · intro a b; simp; omega
  · intro a b h; simpa using h

theorem mem_keys_of_mem {d : Data} {p : Int × EpochData} (h : p ∈ d) : p.1 ∈ d.keys :=
  List.mem_map.2 ⟨p, h, rfl⟩

/-- The most recent rate up to (or before) an epoch. -/
theorem mostRecentLr_eq {d : Data} (hw : d.Wf) (c : Cfg) (e : Int) (ex : Bool) {p : Int} {x : EpochData}
    (hp : IsPrev d (if ex then e else e + 1) p) (hx : d.get? p = some x) : mostRecentLr c d e ex = x.lr := by
  unfold mostRecentLr
  have hpm : (p, x) ∈ (stableSort (fun a b => decide (a.1 ≤ b.1)) d).reverse := by
    rw [List.mem_reverse, (stableSort_perm _ _).mem_iff]; exact Dict.mem_of_get? hx
  have hpred : (fun p : Int × EpochData => !(decide (p.1 > e) || (ex && decide (p.1 = e)))) (p, x) = true := by
    obtain ⟨_, h2, _⟩ := hp
    cases ex <;> simp at * <;> omega
  split
  · rename_i y hy
    obtain ⟨hy1, as, bs, hy2, hy3⟩ := List.find?_eq_some_iff_append.1 hy
    have hym : y ∈ d := by
      rw [← (stableSort_perm d (fun a b => decide (a.1 ≤ b.1))).mem_iff, ← List.mem_reverse, hy2]; simp
    have hyk := mem_keys_of_mem hym
    have hle : y.1 ≤ p := by
      apply hp.2.2 _ hyk
      cases ex <;> simp at hy1 ⊢ <;> omega
    have hge : p ≤ y.1 := by
      have hs := sorted_items d
      rw [hy2] at hpm hs
      rw [List.pairwise_append, List.pairwise_cons] at hs
      rcases List.mem_append.1 hpm with h | h
      · have := hy3 _ h; beta_reduce at hpred; rw [hpred] at this; simp at this
      · rcases List.mem_cons.1 h with h | h
        · rw [← h]
        · exact hs.2.1.1 _ h
    have : y.1 = p := by omega
    have h1 := Dict.get?_of_mem hw (k := y.1) (v := y.2) hym
    rw [this, hx] at h1
    injection h1 with h1
    rw [h1]
  · rename_i hn
    have := List.find?_eq_none.1 hn _ hpm
    exact absurd hpred this

theorem mostRecentLr_default {d : Data} (c : Cfg) (e : Int) (ex : Bool)
    (hp : NoPrev d (if ex then e else e + 1)) : mostRecentLr c d e ex = c.defaultLr := by
  unfold mostRecentLr
  split
  · rename_i y hy
    have hy1 := List.find?_some hy
    have hym := List.mem_of_find?_eq_some hy
    rw [List.mem_reverse, (stableSort_perm _ _).mem_iff] at hym
    exfalso
    apply hp _ (mem_keys_of_mem hym)
    cases ex <;> simp at hy1 ⊢ <;> omega
  · rfl

theorem getItem_ok {d : Data} {e : Int} {x : EpochData} : d.getItem e = .ok x ↔ d.get? e = some x := by
  unfold Dict.getItem
  cases d.get? e <;> simp

theorem exists_get? {d : Data} {e : Int} (h : e ∈ d.keys) : ∃ x, d.get? e = some x := by
  have := (Dict.get?_isSome d e).2 h
  exact Option.isSome_iff_exists.1 this

/-- What `calc_learning_rate_decay_or_grow` can return. -/
theorem decayOrGrow_cases {c : Cfg} {lr r : ℚ} {dec : Bool} {g : Option Bool} (h : decayOrGrow c lr dec g = .ok r) :
    r = lr ∨ (∃ y, calcUpdate lr c.decay = .ok y ∧ r = max y c.minLr) ∨ calcUpdate lr c.growth = .ok r := by
  unfold decayOrGrow at h
  have hmax : ∀ y : ℚ, (if y < c.minLr then c.minLr else y) = max y c.minLr := by
    intro y; split
    · rw [max_eq_right]; exact le_of_lt ‹_›
    · rw [max_eq_left]; exact not_lt.1 ‹_›
  rcases dec with _ | _ <;> rcases g with _ | _ | _ <;>
    simp [pyAssert, bind, Except.bind, pure, Except.pure] at h
  · exact Or.inr (Or.inr h)
  · exact Or.inl h.symm
  · exact Or.inr (Or.inr h)
  · cases hy : calcUpdate lr c.decay with
    | error e => rw [hy] at h; simp at h
    | ok y => rw [hy] at h; simp at h; right; left; exact ⟨y, rfl, by rw [← hmax, h]⟩
  · cases hy : calcUpdate lr c.decay with
    | error e => rw [hy] at h; simp at h
    | ok y => rw [hy] at h; simp at h; right; left; exact ⟨y, rfl, by rw [← hmax, h]⟩

/-- How a new learning rate is related to the previous one. -/
def Change (c : Cfg) (old new : ℚ) : Prop :=
  new = old ∨ (∃ y, calcUpdate old c.decay = .ok y ∧ new = max y c.minLr) ∨ calcUpdate old c.growth = .ok new

theorem calcLr_cases {k : Control} {c : Cfg} {d : Data} (hw : d.Wf) {e : Int} {lr : ℚ}
    (h : calcLr k c d e = .ok lr) :
    (NoPrev d e ∧ lr = c.defaultLr) ∨ ∃ p x, IsPrev d e p ∧ d.get? p = some x ∧ Change c x.lr lr := by
  cases hg : getLastEpoch d e with
  | none =>
    left
    have hn := (getLastEpoch_none d e).1 hg
    refine ⟨hn, ?_⟩
    cases k with
    | constant => simp only [calcLr, hg] at h; injection h with h; exact h.symm
    | relative thr => simp only [calcLr, hg] at h; injection h with h; exact h.symm
    | abs thr => simp only [calcLr, hg] at h; injection h with h; exact h.symm
    | multi num iv thr gt =>
      simp only [calcLr] at h
      have h0 := mostRecentLr_default c e true (d := d) (by simpa using hn)
      rw [h0] at h
      have he : epochsBefore d e = [] := by
        apply List.eq_nil_iff_forall_not_mem.2
        intro q hq; have := (mem_epochsBefore d e q).1 hq; exact hn q this.1 this.2
      have hr : recentMean c d num e = .ok none := by simp [recentMean, lastEpochs, he]
      rw [hr] at h
      split at h
      · injection h with h; exact h.symm
      · simp only [bind, Except.bind, pure, Except.pure] at h; injection h with h; exact h.symm
  | some p =>
    right
    have hp := (getLastEpoch_some d e p).1 hg
    obtain ⟨x, hx⟩ := exists_get? hp.1
    have hgi := getItem_ok.2 hx
    refine ⟨p, x, hp, hx, ?_⟩
    cases k with
    | constant =>
      simp only [calcLr, hg, hgi, bind, Except.bind, pure, Except.pure] at h; injection h with h; exact Or.inl h.symm
    | relative thr =>
      simp only [calcLr, hg, hgi, bind, Except.bind, pure, Except.pure] at h
      split at h
      · injection h with h; exact Or.inl h.symm
      · split at h
        · cases h
        · split at h
          · injection h with h; exact Or.inl h.symm
          · exact decayOrGrow_cases h
    | abs thr =>
      simp only [calcLr, hg, hgi, bind, Except.bind, pure, Except.pure] at h
      split at h
      · injection h with h; exact Or.inl h.symm
      · split at h
        · cases h
        · split at h
          · cases h
          · split at h
            · split at h
              · injection h with h; exact Or.inl h.symm
              · exact decayOrGrow_cases h
            · injection h with h; exact Or.inl h.symm
    | multi num iv thr gt =>
      simp only [calcLr] at h
      rw [mostRecentLr_eq hw c e true (p := p) (x := x) (by simpa using hp) hx] at h
      split at h
      · injection h with h; exact Or.inl h.symm
      · simp only [bind, Except.bind, pure, Except.pure] at h
        split at h
        · cases h
        · split at h
          · injection h with h; exact Or.inl h.symm
          · exact decayOrGrow_cases h

theorem lrsOf_ok {d : Data} : ∀ {l : List Int} {r : List ℚ}, lrsOf d l = .ok r →
    List.Forall₂ (fun e v => ∃ x, d.get? e = some x ∧ x.lr = v) l r
  | [], r, h => by simp only [lrsOf] at h; injection h with h; subst h; exact .nil
  | e :: l, r, h => by
    simp only [lrsOf, bind, Except.bind, pure, Except.pure] at h
    cases h1 : d.getItem e with
    | error _ => rw [h1] at h; cases h
    | ok x =>
      rw [h1] at h
      cases h2 : lrsOf d l with
      | error _ => rw [h2] at h; cases h
      | ok r' =>
        rw [h2] at h
        injection h with h; subst h
        exact .cons ⟨x, getItem_ok.1 h1, rfl⟩ (lrsOf_ok h2)

theorem lrsOf_total {d : Data} : ∀ {l : List Int}, (∀ e ∈ l, e ∈ d.keys) → ∃ r, lrsOf d l = .ok r
  | [], _ => ⟨[], rfl⟩
  | e :: l, h => by
    obtain ⟨x, hx⟩ := exists_get? (h e (by simp))
    obtain ⟨r, hr⟩ := lrsOf_total (l := l) (fun a ha => h a (by simp [ha]))
    exact ⟨x.lr :: r, by simp only [lrsOf, getItem_ok.2 hx, hr, bind, Except.bind, pure, Except.pure]⟩

theorem lastEpochs_suffix (d : Data) (e : Int) (n : Nat) : lastEpochs d e n <:+ epochsBefore d e := List.drop_suffix _ _

theorem lastEpochs_mem {d : Data} {e : Int} {n : Nat} {p : Int} (h : p ∈ lastEpochs d e n) : p ∈ d.keys ∧ p < e :=
  (mem_epochsBefore d e p).1 ((lastEpochs_suffix d e n).subset h)

theorem lastEpochs_length (d : Data) (e : Int) (n : Nat) :
    (lastEpochs d e n).length = min n (epochsBefore d e).length := by
  unfold lastEpochs; rw [List.length_drop]; omega

theorem lastEpochs_getLast? {d : Data} {e : Int} {n : Nat} (hn : 0 < n) :
    (lastEpochs d e n).getLast? = getLastEpoch d e := by
  unfold lastEpochs getLastEpoch
  rw [List.getLast?_drop]
  split
  · cases h : epochsBefore d e with
    | nil => rfl
    | cons a l => rename_i h2; rw [h] at h2; simp at h2; omega
  · rfl

/-- `calc_new_learning_rate_for_epoch` gives the default, or is related to the last epoch's rate. -/
theorem calcNewLr_cases {k : Control} {c : Cfg} {d : Data} (hw : d.Wf) {e : Int} {lr : ℚ}
    (h : calcNewLr k c d e = .ok lr) :
    (NoPrev d e ∧ lr = c.defaultLr) ∨ ∃ p x, IsPrev d e p ∧ d.get? p = some x ∧ Change c x.lr lr := by
  unfold calcNewLr at h
  split at h
  · rename_i hN
    simp only [bind, Except.bind, pure, Except.pure] at h
    split at h
    · cases h
    · rename_i lrs hl
      have hf := lrsOf_ok hl
      split at h
      · split at h
        · rename_i v hv
          injection h with h; subst h
          right
          obtain ⟨r', hr'⟩ := List.getLast?_eq_some_iff.1 hv
          rw [hr'] at hf
          rw [← List.reverse_reverse (lastEpochs d e c.minNum.toNat)] at hf
          cases hrev : (lastEpochs d e c.minNum.toNat).reverse with
          | nil => rw [hrev] at hf; have := hf.length_eq; simp at this
          | cons p l' =>
            have hle : lastEpochs d e c.minNum.toNat = l'.reverse ++ [p] := by
              rw [← List.reverse_reverse (lastEpochs d e c.minNum.toNat), hrev]; simp
            have hlast := lastEpochs_getLast? (d := d) (e := e) (n := c.minNum.toNat) (by omega)
            rw [hle, List.getLast?_append] at hlast
            simp at hlast
            have hp := (getLastEpoch_some d e p).1 hlast.symm
            rw [List.reverse_reverse, hle] at hf
            have hlen := hf.length_eq
            simp only [List.length_append, List.length_cons, List.length_nil] at hlen
            have h2 := (List.forall₂_iff_get.1 hf).2 (l'.reverse.length) (by simp) (by simp; simp at hlen; omega)
            simp only [List.get_eq_getElem] at h2
            have hlen' : r'.length = l'.reverse.length := by omega
            rw [List.getElem_append_right (by simp), List.getElem_append_right (by omega)] at h2
            simp at h2
            obtain ⟨x, hx, hxv⟩ := h2
            exact ⟨p, x, hp, hx, Or.inl hxv.symm⟩
        · cases h
      · exact calcLr_cases hw h
  · exact calcLr_cases hw h

theorem wf_setDefault {d : Data} (hw : d.Wf) (e : Int) (lr : ℚ) : (setDefault d e lr).Wf := by
  unfold setDefault
  split
  · split
    · exact Dict.wf_set hw _ _
    · exact hw
  · exact Dict.wf_set hw _ _

theorem wf_initData {d : Data} (hw : d.Wf) (lrs : List (Int × ℚ)) : (initData d lrs).Wf := by
  unfold initData
  induction lrs generalizing d with
  | nil => exact hw
  | cons p l ih => exact ih (wf_setDefault hw _ _)

end Verif.LearningRate
