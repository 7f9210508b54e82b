import Verif.Distrib.Spec
/-
Schedules: if one schedule finishes, all do, with the same states.
-/
namespace Verif.Distrib

variable {V O E D S : Type} [AddCommGroup V] [Module ℚ V] {n : Nat}

theorem step_comm {a b c : Fin (n + 1) → Proc V E S} (h1 : Step a b) (h2 : Step a c) : b = c ∨ ∃ d, Step b d ∧ Step c d := by
  cases h1 with
  | tau r p h =>
    cases h2 with
    | tau r' p' h' =>
      by_cases hr : r = r'
      · subst hr
        rw [h] at h'
        cases h'
        exact .inl rfl
      · right
        refine ⟨Function.update (Function.update a r p) r' p', .tau r' p' ?_, ?_⟩
        · rw [Function.update_of_ne (Ne.symm hr)]; exact h'
        · rw [Function.update_comm hr]
          exact .tau r p (by rw [Function.update_of_ne hr]; exact h)
    | coll k x next h' =>
      have := h' r
      rw [h] at this
      simp [offer] at this
  | coll k x next h =>
    cases h2 with
    | tau r p h' =>
      have := h r
      rw [h'] at this
      simp [offer] at this
    | coll k' x' next' h' =>
      left
      have h0 := (h 0).symm.trans (h' 0)
      simp only [Option.some.injEq, Offer.mk.injEq] at h0
      obtain ⟨rfl, -⟩ := h0
      have hx : x = x' := by
        funext r
        have := (h r).symm.trans (h' r)
        simp only [Option.some.injEq, Offer.mk.injEq, heq_eq_eq, true_and] at this
        exact this.1
      have hn : next = next' := by
        funext r
        have := (h r).symm.trans (h' r)
        simp only [Option.some.injEq, Offer.mk.injEq, heq_eq_eq, true_and] at this
        exact this.2
      rw [hx, hn]

theorem done_stuck (F : Fin (n + 1) → S) : Stuck (fun r => (.done (F r) : Proc V E S)) := by
  rintro ⟨b, h⟩
  cases h with
  | tau r p h => simp at h
  | coll k x next h => have := h 0; simp [offer] at this

theorem steps_diamond {F : Fin (n + 1) → S} (m : Nat) {a b : Fin (n + 1) → Proc V E S} (h : Steps m a (fun r => .done (F r)))
    (hb : Step a b) : ∃ m', m = m' + 1 ∧ Steps m' b (fun r => .done (F r)) := by
  induction m generalizing a b with
  | zero =>
    have h : a = _ := h
    rw [h] at hb
    exact absurd ⟨b, hb⟩ (done_stuck F)
  | succ m ih =>
    obtain ⟨a', ha, hs⟩ := h
    refine ⟨m, rfl, ?_⟩
    rcases step_comm ha hb with rfl | ⟨d, h1, h2⟩
    · exact hs
    · obtain ⟨m', rfl, hd⟩ := ih hs h1
      exact ⟨d, h2, hd⟩

theorem ends_of_steps {F : Fin (n + 1) → S} {N : Nat} {a : Fin (n + 1) → Proc V E S} (h : Steps N a (fun r => .done (F r))) :
    Ends a F := by
  refine ⟨N, ?_⟩
  intro m b hb
  induction m generalizing a N with
  | zero =>
    have hb : a = b := hb
    subst hb
    refine ⟨Nat.zero_le _, ?_⟩
    cases N with
    | zero => exact .inl h
    | succ N => obtain ⟨a', ha, -⟩ := h; exact .inr ⟨a', ha⟩
  | succ m ih =>
    obtain ⟨a', ha, hs⟩ := hb
    obtain ⟨N', rfl, h'⟩ := steps_diamond N h ha
    obtain ⟨h1, h2⟩ := ih h' hs
    exact ⟨by omega, h2⟩

/-- A state with `Q` can be reached. -/
def Good (a : Fin (n + 1) → Proc V E S) (Q : (Fin (n + 1) → Proc V E S) → Prop) : Prop := ∃ m b, Steps m a b ∧ Q b

theorem good_step {a b : Fin (n + 1) → Proc V E S} {Q} (h : Step a b) (hb : Good b Q) : Good a Q := by
  obtain ⟨m, c, hs, hq⟩ := hb
  exact ⟨m + 1, c, ⟨b, h, hs⟩, hq⟩

/-- A process after all its local steps. -/
def settle : Proc V E S → Proc V E S
  | .tau p => settle p
  | p => p

theorem good_settle1 {Q} (a : Fin (n + 1) → Proc V E S) (r : Fin (n + 1)) (p : Proc V E S)
    (h : Good (Function.update a r (settle p)) Q) : Good (Function.update a r p) Q := by
  induction p with
  | tau p ih =>
    refine good_step (b := Function.update a r p) ?_ (ih h)
    have := Step.tau (a := Function.update a r (.tau p)) r p (by simp)
    rwa [Function.update_idem] at this
  | _ => exact h

theorem good_settle {Q} (a : Fin (n + 1) → Proc V E S) (h : Good (fun r => settle (a r)) Q) : Good a Q := by
  have key : ∀ l : List (Fin (n + 1)), Good (fun r => if r ∈ l then settle (a r) else a r) Q → Good a Q := by
    intro l
    induction l with
    | nil => intro h; simpa using h
    | cons r l ih =>
      intro h
      apply ih
      by_cases hr : r ∈ l
      · convert h using 2 with r'
        by_cases hr' : r' = r
        · subst hr'; simp [hr]
        · simp [hr']
      · have e1 : (fun r' => if r' ∈ r :: l then settle (a r') else a r') =
            Function.update (fun r' => if r' ∈ l then settle (a r') else a r') r (settle (a r)) := by
          funext r'
          by_cases hr' : r' = r
          · subst hr'; simp
          · simp [hr']
        have e2 : (fun r' => if r' ∈ l then settle (a r') else a r') =
            Function.update (fun r' => if r' ∈ l then settle (a r') else a r') r (a r) := by
          funext r'
          by_cases hr' : r' = r
          · subst hr'; simp [hr]
          · simp [hr']
        rw [e1] at h
        rw [e2]
        exact good_settle1 _ r _ h
  apply key (List.finRange (n + 1))
  simpa using h

theorem good_coll {Q} (a : Fin (n + 1) → Proc V E S) (k : Kind) (x : Fin (n + 1) → Val V E k)
    (next : Fin (n + 1) → Val V E k → Proc V E S) (h : ∀ r, offer (settle (a r)) = some ⟨k, x r, next r⟩)
    (hq : Good (fun r => next r (combine k x)) Q) : Good a Q :=
  good_settle a (good_step (.coll k x next h) hq)

theorem good_ends {F : Fin (n + 1) → S} {a : Fin (n + 1) → Proc V E S} (h : Good a (fun b => b = fun r => .done (F r))) : Ends a F := by
  obtain ⟨m, b, hs, rfl⟩ := h
  exact ends_of_steps hs

theorem good_refl {a : Fin (n + 1) → Proc V E S} {Q} (h : Q a) : Good a Q := ⟨0, a, rfl, h⟩

end Verif.Distrib
