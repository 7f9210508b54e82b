import Verif.DimMath.Props
/-
C52: sums, differences and products of dims never raise (other than by the recursion limit).
-/
namespace Verif.DimMath
open Verif.Py

variable {P : Params}

/-- The recursion limit of Python was reached. -/
def recErr : Err := .other "RecursionError"

theorem multDimension_const : ∀ (t : List D), multIsConst t = true → ∃ n, multDimension t = some n
  | [], _ => ⟨1, rfl⟩
  | d :: t, h => by
    simp only [multIsConst, List.all_cons, Bool.and_eq_true] at h
    obtain ⟨n, hn⟩ := multDimension_const t h.2
    cases d with
    | const v => exact ⟨v * n, by simp [multDimension, D.dimension, lift2, hn]⟩
    | _ => simp [D.isConst] at h

structure AddErr (P : Params) (fuel : Nat) : Prop where
  lin : ∀ (other : D) (sub right : Bool) (ts : List (List D)) (e : Err), linAdd P fuel other sub right ts = .error e → e = recErr
  lin1 : ∀ (term neg : List D) (right : Bool) (ts : List (List D)) (e : Err), linAdd1 P fuel term neg right ts = .error e → e = recErr
  merged : ∀ (right : Bool) (a b : D) (e : Err), addMerged P fuel right a b = .error e → e = recErr
  add : ∀ (a b : D) (e : Err), dAdd P fuel a b = .error e → e = recErr
  radd : ∀ (a b : D) (e : Err), dRadd P fuel a b = .error e → e = recErr

theorem addErr : ∀ fuel, AddErr P fuel
  | 0 => by
    refine ⟨?_, ?_, ?_, ?_, ?_⟩
    · intro other sub right ts e h; simp only [linAdd] at h; injection h with h; exact h.symm
    · intro term neg right ts e h; simp only [linAdd1] at h; injection h with h; exact h.symm
    · intro right a b e h; simp only [addMerged] at h; injection h with h; exact h.symm
    · intro a b e h; simp only [dAdd] at h; injection h with h; exact h.symm
    · intro a b e h; simp only [dRadd] at h; injection h with h; exact h.symm
  | fuel + 1 => by
    have ih := addErr fuel
    refine ⟨?_, ?_, ?_, ?_, ?_⟩
    · intro other sub right ts e h
      rw [linAdd.eq_def] at h
      simp only at h
      split at h
      · cases h
      · split at h
        · simp only [bind, Except.bind] at h
          split at h
          · rename_i e' h'
            injection h with h
            subst h
            exact ih.lin _ _ _ _ _ h'
          · exact ih.lin _ _ _ _ _ h
        · simp only [bind, Except.bind] at h
          split at h
          · rename_i e' h'
            injection h with h
            subst h
            exact ih.lin _ _ _ _ _ h'
          · exact ih.lin _ _ _ _ _ h
      · exact ih.lin1 _ _ _ _ _ h
    · intro term neg right ts e h
      simp only [linAdd1] at h
      split at h
      · cases h
      · split at h
        · cases h
        · split at h
          · rename_i m _ _ hc
            simp only [Bool.and_eq_true] at hc
            obtain ⟨n, hn⟩ := multDimension_const _ hc.1
            obtain ⟨k, hk⟩ := multDimension_const _ hc.2
            rw [hn, hk] at h
            cases h
          · split at h
            · simp only [bind, Except.bind] at h
              split at h
              · rename_i e' h'
                injection h with h
                subst h
                exact ih.merged _ _ _ _ h'
              · cases h
            · cases h
    · intro right a b e h
      simp only [addMerged] at h
      split at h
      · split at h
        · exact ih.radd _ _ _ h
        · exact ih.add _ _ _ h
      · split at h
        · split at h
          · exact ih.add _ _ _ h
          · exact ih.radd _ _ _ h
        · split at h
          · exact ih.add _ _ _ h
          · exact ih.add _ _ _ h
    · intro a b e h
      simp only [dAdd] at h
      split at h
      · cases h
      · simp only [bind, Except.bind] at h
        split at h
        · rename_i e' h'
          injection h with h
          subst h
          exact ih.lin _ _ _ _ _ h'
        · split at h
          · rename_i e' h'
            injection h with h
            subst h
            exact ih.lin _ _ _ _ _ h'
          · cases h
    · intro a b e h
      simp only [dRadd] at h
      split at h
      · cases h
      · simp only [bind, Except.bind] at h
        split at h
        · rename_i e' h'
          injection h with h
          subst h
          exact ih.lin _ _ _ _ _ h'
        · split at h
          · rename_i e' h'
            injection h with h
            subst h
            exact ih.lin _ _ _ _ _ h'
          · cases h

theorem linMul_err {fuel : Nat} {other : D} {right : Bool} {ts : List (List D)} {e : Err} (h : linMul P fuel other right ts = .error e) :
    e = recErr := by
  unfold linMul swapMul at h
  split at h
  · cases hf : linFromDim P fuel other with
    | error e' =>
      rw [hf] at h
      injection h with h
      subst h
      exact (addErr fuel).lin _ _ _ _ _ hf
    | ok ts' =>
      rw [hf] at h
      simp only [Except.bind] at h
      split at h <;> cases h
  · simp only [Except.bind] at h
    split at h <;> cases h

/-- **C52** Sums, differences and products of any dims never raise an exception, other than by the recursion limit. -/
theorem add_sub_mul_total (fuel : Nat) (a b : D) (e : Err)
    (h : dAdd P fuel a b = .error e ∨ dRadd P fuel a b = .error e ∨ dSub P fuel a b = .error e ∨ dSubLeft P fuel a b = .error e ∨
      dMul P fuel a b = .error e ∨ dRmul P fuel a b = .error e) : e = .other "RecursionError" := by
  have key : ∀ (o : Option D) (f : List (List D) → Res (List (List D))), (∀ t e, f t = .error e → e = recErr) →
      (match o with
        | some r => (.ok r : Res D)
        | none => do
          let t ← linFromDim P fuel a
          let t ← f t
          .ok (linAsDim P t)) = .error e → e = recErr := by
    intro o f hf h
    split at h
    · cases h
    · simp only [bind, Except.bind] at h
      split at h
      · rename_i e' h'
        injection h with h
        subst h
        exact (addErr fuel).lin _ _ _ _ _ h'
      · split at h
        · rename_i e' h'
          injection h with h
          subst h
          exact hf _ _ h'
        · cases h
  rcases h with h | h | h | h | h | h
  · exact (addErr fuel).add _ _ _ h
  · exact (addErr fuel).radd _ _ _ h
  · exact key _ _ (fun t e h => (addErr fuel).lin _ _ _ _ _ h) h
  · exact key _ _ (fun t e h => (addErr fuel).lin _ _ _ _ _ h) h
  · exact key _ _ (fun t e h => linMul_err h) h
  · exact key _ _ (fun t e h => linMul_err h) h

end Verif.DimMath
