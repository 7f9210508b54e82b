import Verif.BinOp.Axes
/-
The match priority (C83): which axis is chosen if several are equal to a dim of the target, as for square matrices.
-/
namespace Verif.BinOp

open Verif.Py

/-- The best candidate has strictly the highest priority, if the count is 1. -/
theorem bestLoop_max {ds : List Dim} (js : List Nat) : ∀ (S : List Nat) (k : Nat) (m : Int) (c : Nat),
    k ∈ S → (ds.getD k default).prio = m → (∀ x ∈ S, (ds.getD x default).prio ≤ m) →
    (¬ c > 1 → ∀ x ∈ S, x ≠ k → (ds.getD x default).prio < m) → 1 ≤ c →
    ∀ k' m' c', bestLoop ds js (some (k, m, c)) = some (k', m', c') → ¬ c' > 1 →
      ∀ x ∈ S ++ js, x ≠ k' → (ds.getD x default).prio < (ds.getD k' default).prio := by
  induction js with
  | nil =>
    intro S k m c hk hm _ h2 _ k' m' c' h hc x hx hne
    simp only [bestLoop, Option.some.injEq, Prod.mk.injEq] at h
    obtain ⟨e1, e2, e3⟩ := h
    subst e1 e2 e3
    rw [List.append_nil] at hx
    rw [hm]
    exact h2 hc x hx hne
  | cons j js ih =>
    intro S k m c hk hm h1 h2 hc1 k' m' c' h hc x hx hne
    have hx' : x ∈ (S ++ [j]) ++ js := by simpa using hx
    simp only [bestLoop] at h
    split at h
    · next hgt =>
      refine ih (S ++ [j]) j _ 1 (by simp) rfl ?_ ?_ (by omega) k' m' c' h hc x hx' hne
      · intro y hy
        rcases List.mem_append.mp hy with hy | hy
        · have := h1 y hy; omega
        · rw [List.mem_singleton.mp hy]
      · intro _ y hy hyj
        rcases List.mem_append.mp hy with hy | hy
        · have := h1 y hy; omega
        · exact absurd (List.mem_singleton.mp hy) hyj
    · next hgt =>
      split at h
      · next heq =>
        refine ih (S ++ [j]) k m (c + 1) (by simp [hk]) hm ?_ (by omega) (by omega) k' m' c' h hc x hx' hne
        intro y hy
        rcases List.mem_append.mp hy with hy | hy
        · exact h1 y hy
        · rw [List.mem_singleton.mp hy]; omega
      · next hne' =>
        refine ih (S ++ [j]) k m c (by simp [hk]) hm ?_ ?_ hc1 k' m' c' h hc x hx' hne
        · intro y hy
          rcases List.mem_append.mp hy with hy | hy
          · exact h1 y hy
          · rw [List.mem_singleton.mp hy]; omega
        · intro hc' y hy hyk
          rcases List.mem_append.mp hy with hy | hy
          · exact h2 hc' y hy hyk
          · rw [List.mem_singleton.mp hy]; omega

/-- What the choice of one axis means. -/
theorem pickGeneric_best {ds : List Dim} {taken : List Bool} {d : Dim} {j : Nat}
    (h : pickGeneric ds taken d = .ok (some j)) :
    ((∃ k < ds.length, taken.getD k false = false ∧ ds.getD k default = d) → ds.getD j default = d) ∧
    ((∀ k < ds.length, taken.getD k false = false → ds.getD k default ≠ d) →
      ∀ k < ds.length, taken.getD k false = false → (ds.getD k default).cls = d.cls → k ≠ j →
        (ds.getD k default).prio < (ds.getD j default).prio) := by
  unfold pickGeneric at h
  constructor
  · rintro ⟨k, k1, k2, k3⟩
    have hm : k ∈ freeAxes ds taken (fun x => decide (x = d)) := mem_freeAxes.mpr ⟨k1, k2, by rw [k3]; simp⟩
    unfold candidates at h
    cases hf : freeAxes ds taken (fun x => decide (x = d)) with
    | nil => rw [hf] at hm; cases hm
    | cons a r =>
      rw [hf] at h
      simp only [Except.ok.injEq, Option.some.injEq] at h
      have : a ∈ freeAxes ds taken (fun x => decide (x = d)) := by rw [hf]; simp
      have := (mem_freeAxes.mp this).2.2
      rw [h] at this
      exact of_decide_eq_true this
  · intro hno k k1 k2 k3 kj
    have hf : freeAxes ds taken (fun x => decide (x = d)) = [] := by
      rw [List.eq_nil_iff_forall_not_mem]
      intro x hx
      obtain ⟨x1, x2, x3⟩ := mem_freeAxes.mp hx
      exact hno x x1 x2 (of_decide_eq_true x3)
    have hm : k ∈ candidates ds taken d := by
      unfold candidates
      rw [hf]
      exact mem_freeAxes.mpr ⟨k1, k2, by unfold Dim.eq; rw [k3]; exact beq_self_eq_true _⟩
    cases hc : candidates ds taken d with
    | nil => rw [hc] at hm; cases hm
    | cons a r =>
      rw [hc] at h hm
      cases r with
      | nil =>
        simp only [Except.ok.injEq, Option.some.injEq] at h
        exact absurd ((List.mem_singleton.mp hm).trans h) kj
      | cons b r =>
        simp only [bestLoop] at h
        have hb : ∃ k' m' c', bestLoop ds (b :: r) (some (a, (ds.getD a default).prio, 1)) = some (k', m', c') ∧
            ¬ c' > 1 ∧ k' = j := by
          simp only [bestLoop]
          split at h
          · next e => exact absurd h (by simp)
          · next k' m' c' e =>
            split at h
            · exact absurd h (by simp)
            · next hc' =>
              simp only [Except.ok.injEq, Option.some.injEq] at h
              exact ⟨k', m', c', e, hc', h⟩
        obtain ⟨k', m', c', e1, e2, e3⟩ := hb
        rw [← e3] at kj ⊢
        exact bestLoop_max (b :: r) [a] a _ 1 (by simp) rfl (by simp)
          (by intro _ x hx hne; exact absurd (List.mem_singleton.mp hx) hne) (by omega) k' m' c' e1 e2 k (by simpa using hm) kj

/-- What the whole loop means. -/
theorem permLoop_best {ds : List Dim} (outs : List Dim) : ∀ (taken : List Bool), taken.length = ds.length → ∀ p t,
    permLoop (pickGeneric ds) outs taken = .ok (p, t) → ∀ (i j : Nat), p[i]? = some (some j) →
    ∃ d, outs[i]? = some d ∧
    ((∃ k < ds.length, taken.getD k false = false ∧ (∀ i' < i, p[i']? ≠ some (some k)) ∧ ds.getD k default = d) →
      ds.getD j default = d) ∧
    ((∀ k < ds.length, taken.getD k false = false → (∀ i' < i, p[i']? ≠ some (some k)) → ds.getD k default ≠ d) →
      ∀ k < ds.length, taken.getD k false = false → (∀ i' < i, p[i']? ≠ some (some k)) →
        (ds.getD k default).cls = d.cls → k ≠ j → (ds.getD k default).prio < (ds.getD j default).prio) := by
  induction outs with
  | nil =>
    intro taken _ p t h i j hi
    simp only [permLoop, Except.ok.injEq, Prod.mk.injEq] at h
    rw [← h.1] at hi
    simp at hi
  | cons d outs ih =>
    intro taken hlen p t h i j hi
    simp only [permLoop] at h
    split at h
    · exact absurd h (by simp)
    · next ho =>
      split at h
      · exact absurd h (by simp)
      · next p' t' hp' =>
        simp only [Except.ok.injEq, Prod.mk.injEq] at h
        rw [← h.1] at hi
        cases i with
        | zero => simp at hi
        | succ i =>
          simp only [List.getElem?_cons_succ] at hi
          have hcond : ∀ k, (∀ i' < i + 1, p[i']? ≠ some (some k)) ↔ (∀ i' < i, p'[i']? ≠ some (some k)) := by
            intro k
            rw [← h.1]
            constructor
            · intro hh i' hi'
              have := hh (i' + 1) (by omega)
              simpa using this
            · intro hh i' hi'
              cases i' with
              | zero => simp
              | succ i' => simpa using hh i' (by omega)
          simp only [hcond, List.getElem?_cons_succ]
          exact ih taken hlen p' t' hp' i j hi
    · next j0 ho =>
      split at h
      · exact absurd h (by simp)
      · next p' t' hp' =>
        simp only [Except.ok.injEq, Prod.mk.injEq] at h
        rw [← h.1] at hi
        cases i with
        | zero =>
          simp only [List.getElem?_cons_zero, Option.some.injEq] at hi
          subst hi
          refine ⟨d, rfl, ?_⟩
          simp only [Nat.not_lt_zero, IsEmpty.forall_iff, implies_true, true_and, forall_const]
          exact pickGeneric_best ho
        | succ i =>
          simp only [List.getElem?_cons_succ] at hi
          have hset : ∀ k < ds.length, (taken.set j0 true).getD k false = false ↔ taken.getD k false = false ∧ k ≠ j0 := by
            intro k hk
            rw [List.getD_eq_getElem?_getD, List.getD_eq_getElem?_getD, List.getElem?_set]
            by_cases e : j0 = k
            · subst e
              simp [hlen, hk]
            · simp [e, Ne.symm e]
          have hcond : ∀ k < ds.length, (taken.getD k false = false ∧ ∀ i' < i + 1, p[i']? ≠ some (some k)) ↔
              ((taken.set j0 true).getD k false = false ∧ ∀ i' < i, p'[i']? ≠ some (some k)) := by
            intro k hk
            rw [hset k hk, ← h.1]
            constructor
            · rintro ⟨h1, hh⟩
              refine ⟨⟨h1, ?_⟩, ?_⟩
              · have := hh 0 (by omega)
                simp only [List.getElem?_cons_zero, ne_eq, Option.some.injEq] at this
                exact fun e => this e.symm
              · intro i' hi'
                have := hh (i' + 1) (by omega)
                simpa using this
            · rintro ⟨⟨h1, h2⟩, hh⟩
              refine ⟨h1, ?_⟩
              intro i' hi'
              cases i' with
              | zero => simpa using Ne.symm h2
              | succ i' => simpa using hh i' (by omega)
          obtain ⟨d', e1, e2, e3⟩ := ih (taken.set j0 true) (by simpa using hlen) p' t' hp' i j hi
          refine ⟨d', by simpa using e1, ?_, ?_⟩
          · rintro ⟨k, k1, k2, k3, k4⟩
            obtain ⟨c1, c2⟩ := (hcond k k1).mp ⟨k2, k3⟩
            exact e2 ⟨k, k1, c1, c2, k4⟩
          · intro hno k k1 k2 k3
            obtain ⟨c1, c2⟩ := (hcond k k1).mp ⟨k2, k3⟩
            refine e3 ?_ k k1 c1 c2
            intro y y1 y2 y3
            obtain ⟨c1, c2⟩ := (hcond y y1).mpr ⟨y2, y3⟩
            exact hno y y1 c1 c2

/-- **C83** Which axis of a tensor becomes the axis of a target dim, also for tensors in which a dim occurs twice: among the
axes which no earlier target dim got, an axis with this very dim if there is one; otherwise the one equal to it with the
highest match priority, and there is no other with the same priority (an ambiguous match is an error). -/
theorem match_priority {ds outs : List Dim} {p : List (Option Nat)} (h : permPy ds outs = .ok p) (i j : Nat)
    (hi : p[i]? = some (some j)) :
    ∃ d, outs[i]? = some d ∧
    ((∃ k < ds.length, (∀ i' < i, p[i']? ≠ some (some k)) ∧ ds.getD k default = d) → ds.getD j default = d) ∧
    ((∀ k < ds.length, (∀ i' < i, p[i']? ≠ some (some k)) → ds.getD k default ≠ d) →
      ∀ k < ds.length, (∀ i' < i, p[i']? ≠ some (some k)) → (ds.getD k default).cls = d.cls → k ≠ j →
        (ds.getD k default).prio < (ds.getD j default).prio) := by
  unfold permPy at h
  split at h
  · exact absurd h (by simp)
  · next p' t hp =>
    split at h
    · simp only [Except.ok.injEq] at h
      subst h
      obtain ⟨d, e1, e2, e3⟩ := permLoop_best outs _ (by simp) _ t hp i j hi
      have hfree : ∀ k < ds.length, (List.replicate ds.length false).getD k false = false := by
        intro k hk
        simp [List.getD_eq_getElem?_getD, hk]
      refine ⟨d, e1, ?_, ?_⟩
      · rintro ⟨k, k1, k2, k3⟩
        exact e2 ⟨k, k1, hfree k k1, k2, k3⟩
      · intro hno k k1 k2
        exact e3 (fun y y1 _ y3 => hno y y1 y3) k k1 (hfree k k1) k2
    · exact absurd h (by simp)

/-- **C83** The same for the native code, when it does not find the dims themselves in the target. -/
theorem match_priority_native {ds outs : List Dim} {p : List (Option Nat)} (h : permNative ds outs = .ok p)
    (h1 : subsetFast 0 ds outs = none) (h2 : subsetReorderFast ds outs = none) : permPy ds outs = .ok p := by
  unfold permNative at h
  rw [h1, h2] at h
  unfold permPy
  simp only at h
  split at h
  · exact absurd h (by simp)
  · next p' t hp =>
    split at h
    · next hm => rw [if_pos hm]; exact h
    · exact absurd h (by simp)

/-- A square matrix whose second dim has the higher priority: it becomes the first axis; with equal priorities the match is
ambiguous. -/
example : permPy [⟨1, 0, 0⟩, ⟨2, 0, 1⟩] [⟨3, 0, 0⟩, ⟨4, 0, 0⟩] = .ok [some 1, some 0] ∧
    permNative [⟨1, 0, 0⟩, ⟨2, 0, 1⟩] [⟨3, 0, 0⟩, ⟨4, 0, 0⟩] = .ok [some 1, some 0] ∧
    permPy [⟨1, 0, 0⟩, ⟨2, 0, 0⟩] [⟨3, 0, 0⟩, ⟨4, 0, 0⟩] = .error .valueError := by
  refine ⟨rfl, rfl, rfl⟩

end Verif.BinOp
