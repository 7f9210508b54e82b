import Verif.Postproc.Spec
/-
Lemmas on the generators and on `_collect_single_seq`.
-/
namespace Verif.Postproc

open Verif.Py

variable {V R : Type}

/-- The state after `k` items. -/
def at_ (items : List (TD V)) (err : Option Err) (ns : Option Nat) (k : Nat) : St V := ⟨items.drop k, err, k, k, ns⟩

theorem collect_item {items : List (TD V)} {err : Option Err} {ns : Option Nat} {k i : Nat} (hk : k ≤ i) (t : TD V)
    (hi : items[i]? = some t) (hn : ∀ n, ns = some n → i + 1 ≤ n) :
    (collect i (at_ items err ns k)).1 = (toSeq i t).map some ∧ (collect i (at_ items err ns k)).2 = at_ items err ns (i + 1) := by
  have hlt : i < items.length := by
    by_contra hc
    rw [List.getElem?_eq_none (by omega)] at hi
    simp at hi
  obtain ⟨d, hd⟩ : ∃ d, i = k + d := ⟨i - k, by omega⟩
  induction d generalizing k with
  | zero =>
    obtain rfl : i = k := by omega
    have hdrop : items.drop i = t :: items.drop (i + 1) := by
      rw [List.drop_eq_getElem_cons hlt]
      congr
      rw [List.getElem?_eq_getElem hlt] at hi
      simpa using hi
    unfold collect at_
    simp only [hdrop, collectLoop]
    have hall : ns.all (fun n => decide (i + 1 ≤ n)) = true := by
      cases ns with
      | none => rfl
      | some n => simpa using hn n rfl
    rw [if_pos hall, if_pos (Nat.le_refl _), if_neg (by simp)]
    cases toSeq i t with
    | error e => exact ⟨rfl, rfl⟩
    | ok s => exact ⟨rfl, rfl⟩
  | succ d ih =>
    have hklt : k < items.length := by omega
    have hdrop : items.drop k = items[k] :: items.drop (k + 1) := List.drop_eq_getElem_cons hklt
    have hstep : collect i (at_ items err ns k) = collect i (at_ items err ns (k + 1)) := by
      conv_lhs => unfold collect at_
      simp only [hdrop, collectLoop]
      have hall : ns.all (fun n => decide (k + 1 ≤ n)) = true := by
        cases ns with
        | none => rfl
        | some n => have := hn n rfl; simp; omega
      rw [if_pos hall, if_pos hk, if_pos (by omega)]
      rfl
    rw [hstep]
    exact ih (k := k + 1) (by omega) (by omega)

/-- Past the end. -/
theorem collect_end {items : List (TD V)} {err : Option Err} {ns : Option Nat} {k i : Nat} (hk : k ≤ items.length) (hki : k ≤ i)
    (hi : items.length ≤ i) (hn : ∀ n, ns = some n → items.length ≤ n) :
    collect i (at_ items err ns k) =
      (match err with
        | some e => .error e
        | none => if ns.all (fun n => items.length = n) then .ok none else .error .assertion,
        at_ items none ns items.length) := by
  obtain ⟨d, hd⟩ : ∃ d, items.length = k + d := ⟨items.length - k, by omega⟩
  induction d generalizing k with
  | zero =>
    obtain rfl : k = items.length := by omega
    unfold collect at_
    simp only [List.drop_length, collectLoop]
    cases err with
    | some e => rfl
    | none =>
      simp only
      split <;> rfl
  | succ d ih =>
    have hklt : k < items.length := by omega
    have hdrop : items.drop k = items[k] :: items.drop (k + 1) := List.drop_eq_getElem_cons hklt
    have hstep : collect i (at_ items err ns k) = collect i (at_ items err ns (k + 1)) := by
      conv_lhs => unfold collect at_
      simp only [hdrop, collectLoop]
      have hall : ns.all (fun n => decide (k + 1 ≤ n)) = true := by
        cases ns with
        | none => rfl
        | some n => have := hn n rfl; simp; omega
      rw [if_pos hall, if_pos hki, if_pos (by omega)]
      rfl
    rw [hstep]
    exact ih (k := k + 1) (by omega) (by omega) (by omega)

/-- A sequence which is returned is the item of that index. -/
theorem collect_right {items : List (TD V)} {err : Option Err} {ns : Option Nat} {k i : Nat} (hki : k ≤ i) {s : DSeq V}
    (h : (collect i (at_ items err ns k)).1 = .ok (some s)) :
    (∃ t, items[i]? = some t ∧ toSeq i t = .ok s) ∧ (collect i (at_ items err ns k)).2 = at_ items err ns (i + 1) := by
  by_cases hk : k < items.length
  · obtain ⟨d, hd⟩ : ∃ d, items.length = k + 1 + d := ⟨items.length - (k + 1), by omega⟩
    have hdrop : items.drop k = items[k] :: items.drop (k + 1) := List.drop_eq_getElem_cons hk
    induction d using Nat.strongRecOn generalizing k with
    | ind d ih =>
      by_cases e : k = i
      · subst e
        unfold collect at_ at h ⊢
        simp only [hdrop, collectLoop] at h ⊢
        split at h
        · next h1 =>
          rw [if_pos h1, if_pos (Nat.le_refl _), if_neg (by simp)]
          rw [if_neg (by simp)] at h
          split at h
          · simp at h
          · next s' hs' =>
            simp only [Except.ok.injEq, Option.some.injEq] at h
            subst h
            refine ⟨⟨items[k], by simp [List.getElem?_eq_getElem hk], hs'⟩, rfl⟩
        · simp at h
      · have hstep : (∃ st, collect i (at_ items err ns k) = (.error .assertion, st)) ∨
            collect i (at_ items err ns k) = collect i (at_ items err ns (k + 1)) := by
          by_cases hall : ns.all (fun n => decide (k + 1 ≤ n)) = true
          · right
            conv_lhs => unfold collect at_
            simp only [hdrop, collectLoop]
            rw [if_pos hall, if_pos hki, if_pos e]
            rfl
          · left
            unfold collect at_
            simp only [hdrop, collectLoop]
            rw [if_neg hall]
            exact ⟨_, rfl⟩
        rcases hstep with ⟨st, hs⟩ | hs
        · rw [hs] at h; simp at h
        · rw [hs] at h ⊢
          by_cases hk1 : k + 1 < items.length
          · exact ih (d - 1) (by omega) (k := k + 1) (by omega) h hk1 (by omega) (List.drop_eq_getElem_cons hk1)
          · exfalso
            unfold collect at_ at h
            rw [List.drop_eq_nil_of_le (by omega)] at h
            simp only [collectLoop] at h
            cases err with
            | some e => simp at h
            | none =>
              simp only at h
              split at h <;> simp at h
  · exfalso
    unfold collect at_ at h
    rw [List.drop_eq_nil_of_le (by omega)] at h
    simp only [collectLoop] at h
    cases err with
    | some e => simp at h
    | none =>
      simp only at h
      split at h <;> simp at h

/-- The state stays one of these. -/
theorem collect_state {items : List (TD V)} {err : Option Err} {ns : Option Nat} {k i : Nat} (hki : k ≤ i) :
    ∃ err' k', (collect i (at_ items err ns k)).2 = at_ items err' ns k' ∧ k' ≤ i + 1 ∧ (k ≤ items.length → k' ≤ items.length) := by
  obtain ⟨d, hd⟩ : ∃ d, i = k + d := ⟨i - k, by omega⟩
  induction d generalizing k with
  | zero =>
    obtain rfl : i = k := by omega
    by_cases hk : i < items.length
    · have hdrop : items.drop i = items[i] :: items.drop (i + 1) := List.drop_eq_getElem_cons hk
      refine ⟨err, i + 1, ?_, Nat.le_refl _, fun _ => hk⟩
      unfold collect at_
      simp only [hdrop, collectLoop]
      split
      · rw [if_neg (by simp)]
        cases toSeq i items[i] <;> rfl
      · rfl
    · refine ⟨none, i, ?_, by omega, id⟩
      unfold collect at_
      rw [List.drop_eq_nil_of_le (by omega)]
      simp only [collectLoop]
      cases err with
      | some e => rfl
      | none => simp only; split <;> rfl
  | succ d ih =>
    by_cases hk : k < items.length
    · have hdrop : items.drop k = items[k] :: items.drop (k + 1) := List.drop_eq_getElem_cons hk
      by_cases hall : ns.all (fun n => decide (k + 1 ≤ n)) = true
      · have : collect i (at_ items err ns k) = collect i (at_ items err ns (k + 1)) := by
          conv_lhs => unfold collect at_
          simp only [hdrop, collectLoop]
          rw [if_pos hall, if_pos hki, if_pos (by omega)]
          rfl
        rw [this]
        obtain ⟨err', k', h1, h2, h3⟩ := ih (k := k + 1) (by omega) (by omega)
        exact ⟨err', k', h1, h2, fun _ => h3 hk⟩
      · refine ⟨err, k + 1, ?_, by omega, fun _ => hk⟩
        unfold collect at_
        simp only [hdrop, collectLoop]
        rw [if_neg hall]
    · refine ⟨none, k, ?_, by omega, id⟩
      unfold collect at_
      rw [List.drop_eq_nil_of_le (by omega)]
      simp only [collectLoop]
      cases err with
      | some e => rfl
      | none => simp only; split <;> rfl

/-- What was validated: a prefix of the items, with checked fractions. -/
theorem validate_prefix (check : Dict String V → Res Unit) (l : List (TD V)) (e : Option Err) (last : Rat) :
    ∃ r, l = (validate check l e last).items ++ r ∧ (∀ t ∈ (validate check l e last).items, check t.data = .ok () ∧ t.frac ≠ some none) ∧
      (∀ x ∈ (validate check l e last).items.filterMap (fun t => t.frac.getD none), last ≤ x ∧ 0 ≤ x ∧ x ≤ 1) ∧
      ((validate check l e last).items.filterMap (fun t => t.frac.getD none)).Pairwise (· ≤ ·) := by
  induction l generalizing last with
  | nil => exact ⟨[], by simp [validate]⟩
  | cons t r ih =>
    unfold validate
    cases hf : checkFrac last t with
    | error e' => exact ⟨t :: r, by simp⟩
    | ok last' =>
      cases hc : check t.data with
      | error e' => exact ⟨t :: r, by simp⟩
      | ok u =>
        simp only
        obtain ⟨r', h1, h2, h3, h4⟩ := ih last'
        have hfr : (t.frac = none ∧ last' = last) ∨ ∃ f, t.frac = some (some f) ∧ 0 ≤ f ∧ f ≤ 1 ∧ last ≤ f ∧ last' = f := by
          unfold checkFrac at hf
          split at hf
          · next h => left; simp only [Except.ok.injEq] at hf; exact ⟨h, hf.symm⟩
          · simp at hf
          · next f h =>
            right
            split at hf
            · next h01 =>
              split at hf
              · next hle => simp only [Except.ok.injEq] at hf; exact ⟨f, h, h01.1, h01.2, hle, hf.symm⟩
              · simp at hf
            · simp at hf
        refine ⟨r', by simpa using h1, ?_, ?_, ?_⟩
        · intro x hx
          rcases List.mem_cons.mp hx with rfl | hx
          · refine ⟨hc, ?_⟩
            rcases hfr with ⟨a, _⟩ | ⟨f, a, _⟩ <;> rw [a] <;> simp
          · exact h2 x hx
        · intro x hx
          simp only [List.filterMap_cons] at hx
          rcases hfr with ⟨a, b⟩ | ⟨f, a, b1, b2, b3, b4⟩
          · subst b; rw [a] at hx; exact h3 x (by simpa using hx)
          · rw [a] at hx
            simp only [Option.getD_some, List.mem_cons] at hx
            rcases hx with rfl | hx
            · exact ⟨b3, b1, b2⟩
            · have := h3 x hx
              rw [b4] at this
              exact ⟨Rat.le_trans b3 this.1, this.2⟩
        · simp only [List.filterMap_cons]
          rcases hfr with ⟨a, b⟩ | ⟨f, a, b1, b2, b3, b4⟩
          · rw [a]; exact h4
          · rw [a]
            simp only [Option.getD_some, List.pairwise_cons]
            refine ⟨fun x hx => ?_, h4⟩
            have := (h3 x hx).1
            rw [b4] at this
            exact this

/-- If everything is right, then all is passed on. -/
theorem validate_ok (check : Dict String V → Res Unit) (l : List (TD V)) (e : Option Err) (last : Rat)
    (hc : ∀ t ∈ l, check t.data = .ok () ∧ t.frac ≠ some none)
    (h1 : ∀ x ∈ l.filterMap (fun t => t.frac.getD none), last ≤ x ∧ 0 ≤ x ∧ x ≤ 1)
    (h2 : (l.filterMap (fun t => t.frac.getD none)).Pairwise (· ≤ ·)) : validate check l e last = ⟨l, e⟩ := by
  induction l generalizing last with
  | nil => rfl
  | cons t r ih =>
    unfold validate
    obtain ⟨c1, c2⟩ := hc t (by simp)
    cases hfr : t.frac with
    | none =>
      simp only [checkFrac, hfr, c1]
      simp only [List.filterMap_cons, hfr, Option.getD_none] at h1 h2
      rw [ih last (fun t ht => hc t (by simp [ht])) h1 h2]
    | some o =>
      cases o with
      | none => exact absurd hfr c2
      | some f =>
        simp only [List.filterMap_cons, hfr, Option.getD_some] at h1 h2
        have hf := h1 f (by simp)
        simp only [checkFrac, hfr, c1]
        rw [if_pos hf.2, if_pos hf.1]
        simp only
        rw [List.pairwise_cons] at h2
        rw [ih f (fun t ht => hc t (by simp [ht])) (fun x hx => ⟨h2.1 x hx, (h1 x (by simp [hx])).2⟩) h2.2]

end Verif.Postproc
