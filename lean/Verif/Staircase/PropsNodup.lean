import Verif.Staircase.Props
/-
C145: no edge is there twice.
-/
namespace Verif.Staircase
open Verif Verif.Py Spec

theorem edgesTo_nodup (loop : Bool) (q : Seq) (off b i j : Nat) : (edgesTo loop q off b i j).Nodup := by
  unfold edgesTo
  by_cases hi : 0 < i
  · rw [if_pos hi]; simp
  · rw [if_neg hi]
    refine List.pairwise_append.2 ⟨?_, ?_, ?_⟩
    · rw [List.pairwise_map]
      refine List.Pairwise.imp ?_ (List.Pairwise.filter _ (List.nodup_range (n := j)))
      intro a b' h e
      simp only [Prod.mk.injEq, true_and, and_true] at e
      exact h e
    · split <;> simp
    · intro x hx y hy e
      rw [List.mem_map] at hx
      obtain ⟨t, ht, rfl⟩ := hx
      rw [List.mem_filter, List.mem_range] at ht
      split at hy
      · rw [List.mem_singleton] at hy
        rw [hy] at e
        simp only [Prod.mk.injEq, true_and, and_true] at e
        omega
      · cases hy

theorem edgesAt_nodup (loop : Bool) (q : Seq) (off b i : Nat) : (edgesAt loop q off b i).Nodup := by
  unfold edgesAt
  refine List.pairwise_append.2 ⟨?_, ?_, ?_⟩
  · split <;> simp
  · rw [List.pairwise_flatMap]
    refine ⟨fun j _ => edgesTo_nodup loop q off b i j, ?_⟩
    refine List.Pairwise.imp ?_ (List.nodup_range' (s := i + 1) (n := jMax q i - i))
    intro j1 j2 hj x hx y hy e
    rw [mem_edgesTo] at hx hy
    obtain ⟨_, rfl, _⟩ := hx
    obtain ⟨_, rfl, _⟩ := hy
    simp only [Prod.mk.injEq] at e
    omega
  · intro x hx y hy e
    split at hx
    · rw [List.mem_singleton] at hx
      rw [List.mem_flatMap] at hy
      obtain ⟨j, hj, hy⟩ := hy
      rw [List.mem_range'_1] at hj
      rw [mem_edgesTo] at hy
      obtain ⟨_, rfl, _⟩ := hy
      rw [hx] at e
      simp only [Prod.mk.injEq] at e
      omega
    · cases hx

theorem build_nodup (loop : Bool) (qs : List Seq) (off b : Nat) (E : List Edge) (se : List (Nat × Nat)) (h : build loop off b qs = .ok (E, se)) : E.Nodup := by
  induction qs generalizing off b E se with
  | nil => cases h; exact List.nodup_nil
  | cons q qs ih =>
    obtain ⟨_, E', se', hb, rfl, rfl⟩ := build_cons loop off b q qs E se h
    refine List.pairwise_append.2 ⟨?_, ih _ _ _ _ hb, ?_⟩
    · rw [List.pairwise_flatMap]
      refine ⟨fun i _ => edgesAt_nodup loop q off b i, ?_⟩
      refine List.Pairwise.imp ?_ (List.nodup_range (n := q.len))
      have src : ∀ i x, x ∈ edgesAt loop q off b i → x.1 = off + i := by
        intro i x hx
        rw [mem_edgesAt] at hx
        rcases hx with ⟨_, rfl⟩ | ⟨j, _, _, hx⟩
        · rfl
        · rw [mem_edgesTo] at hx; obtain ⟨_, rfl, _⟩ := hx; rfl
      intro i1 i2 hi x hx y hy e
      have h1 := src _ _ hx
      have h2 := src _ _ hy
      rw [e] at h1; omega
    · intro x hx y hy e
      subst e
      obtain ⟨s, m, em, b'⟩ := x
      rw [mem_one] at hx
      obtain ⟨_, i, hi, rfl, _⟩ := hx
      have := build_from loop qs _ _ _ _ hb _ _ _ _ hy
      omega

/-- No edge is there twice, so that no path counts twice in a sum over all paths. -/
theorem edges_nodup (loop : Bool) (qs : List Seq) (E : List Edge) (se : List (Nat × Nat)) (h : staircase loop qs = .ok (E, se)) : E.Nodup :=
  build_nodup loop qs 0 0 E se h

example : ∃ p, staircase true exQ = .ok p := (accepted_iff true exQ).2 (by decide)

end Verif.Staircase
