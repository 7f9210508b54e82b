import Verif.EditDist.Model
import Verif.EditDist.Spec
import Mathlib.Data.List.Induction
import Mathlib.Order.MinMax
import Mathlib.Data.Int.Order.Basic
/-
The edit distance by dynamic programming over prefixes is the least number of edits.
-/
namespace Verif.EditDist

/-! ### Edits at the end -/

section
variable {α : Type}

theorem edit_append {a b : List α} (h : Edit a b) (t : List α) : Edit (a ++ t) (b ++ t) := by
  cases h with
  | ins p s x => simp only [List.append_assoc, List.cons_append]; exact .ins p (s ++ t) x
  | del p s x => simp only [List.append_assoc, List.cons_append]; exact .del p (s ++ t) x
  | sub p s x y => simp only [List.append_assoc, List.cons_append]; exact .sub p (s ++ t) x y

theorem edits_append {a b : List α} {n : Nat} (h : Edits a b n) (t : List α) : Edits (a ++ t) (b ++ t) n := by
  induction h with
  | refl => exact .refl _
  | step _ he ih => exact .step ih (edit_append he t)

theorem edits_ins {a b : List α} {n : Nat} (h : Edits a b n) (y : α) : Edits a (b ++ [y]) (n + 1) :=
  .step h (by have := Edit.ins b [] y; simpa using this)

theorem edits_del {a b : List α} {n : Nat} (h : Edits a b n) (x : α) : Edits (a ++ [x]) b (n + 1) :=
  .step (edits_append h [x]) (by have := Edit.del b [] x; simpa using this)

theorem edits_sub {a b : List α} {n : Nat} (h : Edits a b n) (x y : α) : Edits (a ++ [x]) (b ++ [y]) (n + 1) :=
  .step (edits_append h [x]) (Edit.sub b [] x y)

/-- Alignments, from left to right. -/
inductive Al : List α → List α → Nat → Prop
  | nil : Al [] [] 0
  | keep {a b : List α} {n : Nat} (x : α) : Al a b n → Al (a ++ [x]) (b ++ [x]) n
  | sub {a b : List α} {n : Nat} (x y : α) : Al a b n → Al (a ++ [x]) (b ++ [y]) (n + 1)
  | ins {a b : List α} {n : Nat} (y : α) : Al a b n → Al a (b ++ [y]) (n + 1)
  | del {a b : List α} {n : Nat} (x : α) : Al a b n → Al (a ++ [x]) b (n + 1)

theorem al_refl (a : List α) : Al a a 0 := by
  induction a using List.reverseRecOn with
  | nil => exact .nil
  | append_singleton a x ih => exact .keep x ih

theorem nil_or_snoc (s : List α) : s = [] ∨ ∃ s' z, s = s' ++ [z] := by
  induction s using List.reverseRecOn with
  | nil => exact Or.inl rfl
  | append_singleton s z _ => exact Or.inr ⟨s, z, rfl⟩

theorem snoc_inj {a b : List α} {x y : α} (h : a ++ [x] = b ++ [y]) : a = b ∧ x = y := by
  have := List.append_inj' h rfl
  exact ⟨this.1, by simpa using this.2⟩

theorem al_ins {a b : List α} {n : Nat} (h : Al a b n) (x : α) : ∀ p s, b = p ++ s → ∃ m, m ≤ n + 1 ∧ Al a (p ++ x :: s) m := by
  have hend : ∀ {a b : List α} {n : Nat}, Al a b n → ∃ m, m ≤ n + 1 ∧ Al a (b ++ [x]) m := fun h => ⟨_, le_refl _, .ins x h⟩
  induction h with
  | nil =>
    intro p s h
    obtain ⟨rfl, rfl⟩ := List.append_eq_nil_iff.1 h.symm
    exact hend .nil
  | @keep a b n y h ih =>
    intro p s hb
    rcases nil_or_snoc s with rfl | ⟨s', z, rfl⟩
    · rw [List.append_nil] at hb; subst hb; exact hend (.keep y h)
    · rw [← List.append_assoc] at hb
      obtain ⟨h1, h2⟩ := snoc_inj hb
      subst h2
      obtain ⟨m, hm, h3⟩ := ih p s' h1
      refine ⟨m, hm, ?_⟩
      have := Al.keep y h3
      simpa using this
  | @sub a b n w y h ih =>
    intro p s hb
    rcases nil_or_snoc s with rfl | ⟨s', z, rfl⟩
    · rw [List.append_nil] at hb; subst hb; exact hend (.sub w y h)
    · rw [← List.append_assoc] at hb
      obtain ⟨h1, h2⟩ := snoc_inj hb
      subst h2
      obtain ⟨m, hm, h3⟩ := ih p s' h1
      refine ⟨m + 1, by omega, ?_⟩
      have := Al.sub w y h3
      simpa using this
  | @ins a b n y h ih =>
    intro p s hb
    rcases nil_or_snoc s with rfl | ⟨s', z, rfl⟩
    · rw [List.append_nil] at hb; subst hb; exact hend (.ins y h)
    · rw [← List.append_assoc] at hb
      obtain ⟨h1, h2⟩ := snoc_inj hb
      subst h2
      obtain ⟨m, hm, h3⟩ := ih p s' h1
      refine ⟨m + 1, by omega, ?_⟩
      have := Al.ins y h3
      simpa using this
  | @del a b n w h ih =>
    intro p s hb
    obtain ⟨m, hm, h3⟩ := ih p s hb
    exact ⟨m + 1, by omega, .del w h3⟩

theorem al_del {a b : List α} {n : Nat} (h : Al a b n) (x : α) : ∀ p s, b = p ++ x :: s → ∃ m, m ≤ n + 1 ∧ Al a (p ++ s) m := by
  induction h with
  | nil => intro p s h; simp at h
  | @keep a b n y h ih =>
    intro p s hb
    rcases nil_or_snoc s with rfl | ⟨s', z, rfl⟩
    · obtain ⟨h1, h2⟩ := snoc_inj hb
      subst h1
      exact ⟨n + 1, le_refl _, by rw [List.append_nil]; exact .del y h⟩
    · have hb' : b ++ [y] = (p ++ x :: s') ++ [z] := by simpa using hb
      obtain ⟨h1, h2⟩ := snoc_inj hb'
      subst h2
      obtain ⟨m, hm, h3⟩ := ih p s' h1
      refine ⟨m, hm, ?_⟩
      have := Al.keep y h3
      simpa using this
  | @sub a b n w y h ih =>
    intro p s hb
    rcases nil_or_snoc s with rfl | ⟨s', z, rfl⟩
    · obtain ⟨h1, h2⟩ := snoc_inj hb
      subst h1
      exact ⟨n + 1, by omega, by rw [List.append_nil]; exact .del w h⟩
    · have hb' : b ++ [y] = (p ++ x :: s') ++ [z] := by simpa using hb
      obtain ⟨h1, h2⟩ := snoc_inj hb'
      subst h2
      obtain ⟨m, hm, h3⟩ := ih p s' h1
      refine ⟨m + 1, by omega, ?_⟩
      have := Al.sub w y h3
      simpa using this
  | @ins a b n y h ih =>
    intro p s hb
    rcases nil_or_snoc s with rfl | ⟨s', z, rfl⟩
    · obtain ⟨h1, h2⟩ := snoc_inj hb
      subst h1
      exact ⟨n, by omega, by rw [List.append_nil]; exact h⟩
    · have hb' : b ++ [y] = (p ++ x :: s') ++ [z] := by simpa using hb
      obtain ⟨h1, h2⟩ := snoc_inj hb'
      subst h2
      obtain ⟨m, hm, h3⟩ := ih p s' h1
      refine ⟨m + 1, by omega, ?_⟩
      have := Al.ins y h3
      simpa using this
  | @del a b n w h ih =>
    intro p s hb
    obtain ⟨m, hm, h3⟩ := ih p s hb
    exact ⟨m + 1, by omega, .del w h3⟩

theorem al_sub {a b : List α} {n : Nat} (h : Al a b n) (x x' : α) : ∀ p s, b = p ++ x :: s → ∃ m, m ≤ n + 1 ∧ Al a (p ++ x' :: s) m := by
  induction h with
  | nil => intro p s h; simp at h
  | @keep a b n y h ih =>
    intro p s hb
    rcases nil_or_snoc s with rfl | ⟨s', z, rfl⟩
    · obtain ⟨h1, h2⟩ := snoc_inj hb
      subst h1
      exact ⟨n + 1, le_refl _, .sub y x' h⟩
    · have hb' : b ++ [y] = (p ++ x :: s') ++ [z] := by simpa using hb
      obtain ⟨h1, h2⟩ := snoc_inj hb'
      subst h2
      obtain ⟨m, hm, h3⟩ := ih p s' h1
      refine ⟨m, hm, ?_⟩
      have := Al.keep y h3
      simpa using this
  | @sub a b n w y h ih =>
    intro p s hb
    rcases nil_or_snoc s with rfl | ⟨s', z, rfl⟩
    · obtain ⟨h1, h2⟩ := snoc_inj hb
      subst h1
      exact ⟨n + 1, by omega, .sub w x' h⟩
    · have hb' : b ++ [y] = (p ++ x :: s') ++ [z] := by simpa using hb
      obtain ⟨h1, h2⟩ := snoc_inj hb'
      subst h2
      obtain ⟨m, hm, h3⟩ := ih p s' h1
      refine ⟨m + 1, by omega, ?_⟩
      have := Al.sub w y h3
      simpa using this
  | @ins a b n y h ih =>
    intro p s hb
    rcases nil_or_snoc s with rfl | ⟨s', z, rfl⟩
    · obtain ⟨h1, h2⟩ := snoc_inj hb
      subst h1
      exact ⟨n + 1, by omega, .ins x' h⟩
    · have hb' : b ++ [y] = (p ++ x :: s') ++ [z] := by simpa using hb
      obtain ⟨h1, h2⟩ := snoc_inj hb'
      subst h2
      obtain ⟨m, hm, h3⟩ := ih p s' h1
      refine ⟨m + 1, by omega, ?_⟩
      have := Al.ins y h3
      simpa using this
  | @del a b n w h ih =>
    intro p s hb
    obtain ⟨m, hm, h3⟩ := ih p s hb
    exact ⟨m + 1, by omega, .del w h3⟩

theorem al_of_edits {a b : List α} {n : Nat} (h : Edits a b n) : ∃ m, m ≤ n ∧ Al a b m := by
  induction h with
  | refl => exact ⟨0, le_refl _, al_refl _⟩
  | step _ he ih =>
    obtain ⟨m, hm, hal⟩ := ih
    cases he with
    | ins p s x => obtain ⟨k, hk, h⟩ := al_ins hal x p s rfl; exact ⟨k, by omega, h⟩
    | del p s x => obtain ⟨k, hk, h⟩ := al_del hal x p s rfl; exact ⟨k, by omega, h⟩
    | sub p s x y => obtain ⟨k, hk, h⟩ := al_sub hal x y p s rfl; exact ⟨k, by omega, h⟩

end

/-! ### Dynamic programming -/

/-- The distance of the prefixes of length `i`, `j`. -/
def dp (f g : Nat → Int) : Nat → Nat → Int
  | 0, j => j
  | i + 1, 0 => i + 1
  | i + 1, j + 1 => min (min (dp f g (i + 1) j + 1) (dp f g i (j + 1) + 1)) (dp f g i j + if f i ≠ g j then 1 else 0)

def pre (f : Nat → Int) (n : Nat) : List Int := (List.range n).map f

@[simp] theorem pre_zero (f : Nat → Int) : pre f 0 = [] := rfl
theorem pre_succ (f : Nat → Int) (n : Nat) : pre f (n + 1) = pre f n ++ [f n] := by simp [pre, List.range_succ]

theorem dp_edits (f g : Nat → Int) : ∀ i j, ∃ m : Nat, dp f g i j = m ∧ Edits (pre f i) (pre g j) m
  | 0, 0 => ⟨0, by simp [dp], .refl _⟩
  | 0, j + 1 => by
    obtain ⟨m, h1, h2⟩ := dp_edits f g 0 j
    refine ⟨m + 1, ?_, by rw [pre_succ]; exact edits_ins h2 _⟩
    simp only [dp] at h1 ⊢
    omega
  | i + 1, 0 => by
    obtain ⟨m, h1, h2⟩ := dp_edits f g i 0
    refine ⟨m + 1, ?_, by rw [pre_succ]; exact edits_del h2 _⟩
    cases i <;> simp only [dp] at h1 ⊢ <;> omega
  | i + 1, j + 1 => by
    obtain ⟨m1, h1, e1⟩ := dp_edits f g (i + 1) j
    obtain ⟨m2, h2, e2⟩ := dp_edits f g i (j + 1)
    obtain ⟨m3, h3, e3⟩ := dp_edits f g i j
    rw [dp]
    rcases min_choice (min (dp f g (i + 1) j + 1) (dp f g i (j + 1) + 1)) (dp f g i j + if f i ≠ g j then 1 else 0) with h | h
    · rw [h]
      rcases min_choice (dp f g (i + 1) j + 1) (dp f g i (j + 1) + 1) with h | h
      · exact ⟨m1 + 1, by rw [h, h1]; rfl, by rw [pre_succ g]; exact edits_ins e1 _⟩
      · exact ⟨m2 + 1, by rw [h, h2]; rfl, by rw [pre_succ f]; exact edits_del e2 _⟩
    · rw [h]
      by_cases hfg : f i = g j
      · exact ⟨m3, by rw [h3]; simp [hfg], by rw [pre_succ, pre_succ, hfg]; exact edits_append e3 _⟩
      · exact ⟨m3 + 1, by rw [h3]; simp [hfg], by rw [pre_succ, pre_succ]; exact edits_sub e3 _ _⟩

theorem pre_snoc {f : Nat → Int} {i : Nat} {a : List Int} {x : Int} (h : a ++ [x] = pre f i) : ∃ i', i = i' + 1 ∧ a = pre f i' ∧ x = f i' := by
  cases i with
  | zero => simp at h
  | succ i =>
    rw [pre_succ] at h
    obtain ⟨h1, h2⟩ := snoc_inj h
    exact ⟨i, rfl, h1, h2⟩

theorem pre_nil {f : Nat → Int} {i : Nat} (h : [] = pre f i) : i = 0 := by
  cases i with
  | zero => rfl
  | succ i => rw [pre_succ] at h; simp at h

theorem dp_ins_le (f g : Nat → Int) (i j : Nat) : dp f g i (j + 1) ≤ dp f g i j + 1 := by
  cases i with
  | zero => simp only [dp]; omega
  | succ i => rw [dp]; exact le_trans (min_le_left _ _) (min_le_left _ _)

theorem dp_del_le (f g : Nat → Int) (i j : Nat) : dp f g (i + 1) j ≤ dp f g i j + 1 := by
  cases j with
  | zero => cases i <;> simp only [dp] <;> omega
  | succ j => rw [dp]; exact le_trans (min_le_left _ _) (min_le_right _ _)

theorem dp_al {f g : Nat → Int} {a b : List Int} {n : Nat} (h : Al a b n) : ∀ i j, a = pre f i → b = pre g j → dp f g i j ≤ n := by
  induction h with
  | nil =>
    intro i j h1 h2
    rw [pre_nil h1, pre_nil h2]
    simp [dp]
  | keep x _ ih =>
    intro i j h1 h2
    obtain ⟨i', rfl, h3, h4⟩ := pre_snoc h1
    obtain ⟨j', rfl, h5, h6⟩ := pre_snoc h2
    refine le_trans ?_ (ih i' j' h3 h5)
    rw [dp]
    refine le_trans (min_le_right _ _) ?_
    rw [← h4, ← h6]
    simp
  | sub x y _ ih =>
    intro i j h1 h2
    obtain ⟨i', rfl, h3, h4⟩ := pre_snoc h1
    obtain ⟨j', rfl, h5, h6⟩ := pre_snoc h2
    have := ih i' j' h3 h5
    rw [dp]
    refine le_trans (min_le_right _ _) ?_
    push_cast
    split <;> omega
  | ins y _ ih =>
    intro i j h1 h2
    obtain ⟨j', rfl, h5, h6⟩ := pre_snoc h2
    have := ih i j' h1 h5
    have := dp_ins_le f g i j'
    push_cast
    omega
  | del x _ ih =>
    intro i j h1 h2
    obtain ⟨i', rfl, h3, h4⟩ := pre_snoc h1
    have := ih i' j h3 h2
    have := dp_del_le f g i' j
    push_cast
    omega

theorem dp_isDist (f g : Nat → Int) (i j : Nat) : IsDist (pre f i) (pre g j) (dp f g i j) := by
  refine ⟨dp_edits f g i j, ?_⟩
  intro m hm
  obtain ⟨k, hk, hal⟩ := al_of_edits hm
  have := dp_al hal i j rfl rfl
  omega

end Verif.EditDist
