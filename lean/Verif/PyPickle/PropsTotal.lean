import Verif.PyPickle.PropsExact
/-
Statements about every input: the conversion ends, stays within the buffer, and what it accepts is a well formed pickle.
-/
namespace Verif.PyPickle

open Verif.Py

variable (stod : List Nat → Option Nat) (cap : Nat)

/-! ### The conversion ends -/

theorem strLoop_length (q : Nat) : ∀ (inp : List Nat) (m : Mode) (buf : List Nat),
    (strLoop q inp m buf).2.length ≤ inp.length := by
  intro inp
  induction inp with
  | nil => intro m buf; simp [strLoop]
  | cons c r ih =>
    intro m buf
    cases m with
    | direct =>
      rw [strLoop]
      split
      · simp
      · split
        · have := ih .init buf; simp only [List.length_cons]; omega
        · have := ih .direct (buf ++ [c]); simp only [List.length_cons]; omega
    | init =>
      rw [strLoop]
      split
      · rename_i n _; have := ih (.hex n 0) buf; simp only [List.length_cons]; omega
      · split
        · rename_i x _; have := ih .direct (buf ++ [x]); simp only [List.length_cons]; omega
        · simp
    | hex rem acc =>
      rw [strLoop]
      split
      · simp
      · rename_i h _
        split
        · split
          · simp
          · rename_i u _; have := ih .direct (buf ++ u); simp only [List.length_cons]; omega
        · have := ih (.hex (rem - 1) ((acc * 16 + h) % 2 ^ 32)) buf; simp only [List.length_cons]; omega

theorem parseStr_length (st : St) (q : Nat) : (parseStr cap st q).inp.length ≤ st.inp.length := by
  have := strLoop_length q st.inp .direct []
  unfold parseStr
  split
  · rename_i r h; rw [h] at this; exact this
  · rename_i b r h; rw [h] at this; rw [write_inp, write_inp]; exact this

theorem numLoop_length : ∀ (inp : List Nat), (numLoop inp).2.2.length ≤ inp.length ∧
    ((numLoop inp).2.1 ≠ none → (numLoop inp).2.2.length < inp.length) := by
  intro inp
  induction inp with
  | nil => simp [numLoop]
  | cons c r ih =>
    rw [numLoop]
    split
    · simp only [List.length_cons]
      exact ⟨by omega, fun h => by have := ih.2 h; omega⟩
    · simp

theorem parseNum_length (st : St) (first : Nat) (c : Option Nat) (st' : St)
    (h : parseNum stod cap st first = .ok (c, st')) :
    st'.inp.length ≤ st.inp.length ∧ (c ≠ none → st'.inp.length < st.inp.length) := by
  have hl := numLoop_length st.inp
  unfold parseNum at h
  split at h
  rename_i buf c' r hn
  rw [hn] at hl
  split at h
  · simp at h
  · simp only [Except.ok.injEq, Prod.mk.injEq] at h
    obtain ⟨rfl, rfl⟩ := h
    rw [write_inp]
    exact hl

theorem parseNum_nofuel (st : St) (first : Nat) : parseNum stod cap st first ≠ .error .fuel := by
  unfold parseNum
  split
  split
  · rename_i e he
    intro h
    simp only [Except.error.injEq] at h
    subst h
    unfold numCode at he
    split at he <;> split at he <;> simp at he
  · simp

theorem expect_length : ∀ (l : List Nat) (st : St), (expect l st).2.inp.length ≤ st.inp.length := by
  intro l
  induction l with
  | nil => intro st; simp [expect]
  | cons c l ih =>
    intro st
    rw [expect]
    unfold readChar
    cases hi : st.inp with
    | nil => simp [hi]
    | cons d r =>
      simp only
      split
      · have := ih { st with inp := r }
        simp only [List.length_cons] at this ⊢; omega
      · simp

theorem parseNone_length (st : St) : (parseNone cap st).inp.length ≤ st.inp.length := by
  have := expect_length [111, 110, 101] st
  unfold parseNone
  split
  · rename_i st' h; rw [h] at this; rw [write_inp]; exact this
  · rename_i st' h; rw [h] at this; exact this

theorem maybeSet_inp (st : St) (d : DSt) : (maybeSet cap st d).2.1.inp = st.inp := by
  unfold maybeSet makeSet
  split
  · simp only
    split
    · rfl
    · exact patch_inp cap st d.start
  · rfl

/-- The state after a step. -/
def Next.st : Next → St
  | .cont st _ => st
  | .ret st => st

theorem dictStep_st_inp (c : Option Nat) (st : St) (d : DSt) : (dictStep cap c st d).st.inp = st.inp := by
  have hm := maybeSet_inp cap st d
  unfold dictStep
  split
  · split
    · rename_i h; rw [h] at hm; exact hm
    · rename_i st1 d1 h
      rw [h] at hm
      by_cases hk : d1.curKey = true
      · rw [if_pos hk]; exact hm
      · rw [if_neg hk]; exact hm
  · split
    · rfl
    · split <;> rfl
  · split
    · rename_i h; rw [h] at hm; exact hm
    · rename_i h
      rw [h] at hm
      simp only [dictEnd, Next.st]
      split
      · exact hm
      · rw [write_inp]; exact hm
  · rfl

theorem dictStep_inp (c : Option Nat) (st : St) (d : DSt) :
    match dictStep cap c st d with
    | .cont st' _ => st'.inp = st.inp ∧ c ≠ none
    | .ret st' => st'.inp = st.inp := by
  have h := dictStep_st_inp cap c st d
  cases hs : dictStep cap c st d with
  | ret st' => rw [hs] at h; exact h
  | cont st' d' =>
    rw [hs] at h
    refine ⟨h, ?_⟩
    rintro rfl
    simp [dictStep] at hs

/-- With enough fuel there is a result, and a returned character was read. -/
theorem total (f : Nat) :
    (∀ had st, 2 * st.inp.length + 1 ≤ f → parse stod cap f had st ≠ .error .fuel
      ∧ ∀ c had' st', parse stod cap f had st = .ok (c, had', st') →
        st'.inp.length ≤ st.inp.length ∧ (c ≠ none → st'.inp.length < st.inp.length))
    ∧ (∀ st, 2 * st.inp.length + 2 ≤ f → listLoop stod cap f st ≠ .error .fuel
      ∧ ∀ st', listLoop stod cap f st = .ok st' → st'.inp.length ≤ st.inp.length)
    ∧ (∀ st d, 2 * st.inp.length + 2 ≤ f → dictLoop stod cap f st d ≠ .error .fuel
      ∧ ∀ st', dictLoop stod cap f st d = .ok st' → st'.inp.length ≤ st.inp.length) := by
  induction f with
  | zero => exact ⟨fun _ _ h => by omega, fun _ h => by omega, fun _ _ h => by omega⟩
  | succ f ih =>
    obtain ⟨ihP, ihL, ihD⟩ := ih
    refine ⟨?_, ?_, ?_⟩
    · intro had st hf
      rw [parse]
      cases hi : st.inp with
      | nil =>
        simp only
        refine ⟨by simp, ?_⟩
        intro c had' st' h
        simp only [Except.ok.injEq, Prod.mk.injEq] at h
        obtain ⟨rfl, _, rfl⟩ := h
        simp [hi]
      | cons c r =>
        rw [hi, List.length_cons] at hf
        simp only [List.length_cons]
        -- going on behind an item
        have key : ∀ (had : Bool) (st1 : St), st1.inp.length ≤ r.length →
            parse stod cap f had st1 ≠ .error .fuel ∧ ∀ c had' st', parse stod cap f had st1 = .ok (c, had', st') →
              st'.inp.length ≤ r.length + 1 ∧ (c ≠ none → st'.inp.length < r.length + 1) := by
          intro had st1 h1
          obtain ⟨a, b⟩ := ihP had st1 (by omega)
          refine ⟨a, ?_⟩
          intro c had' st' h
          have := b c had' st' h
          exact ⟨by omega, fun _ => by omega⟩
        have done : ∀ (x : Option Nat) (had1 : Bool) (st1 : St), st1.inp.length ≤ r.length →
            (.ok (x, had1, st1) : Run (Option Nat × Bool × St)) ≠ .error .fuel ∧ ∀ c had' st',
              (.ok (x, had1, st1) : Run (Option Nat × Bool × St)) = .ok (c, had', st') →
              st'.inp.length ≤ r.length + 1 ∧ (c ≠ none → st'.inp.length < r.length + 1) := by
          intro x had1 st1 h1
          refine ⟨by simp, ?_⟩
          intro c had' st' h
          simp only [Except.ok.injEq, Prod.mk.injEq] at h
          obtain ⟨_, _, rfl⟩ := h
          exact ⟨by omega, fun _ => by omega⟩
        by_cases h1 : isSpace c = true
        · rw [if_pos h1]; exact key had { st with inp := r } (Nat.le_refl _)
        rw [if_neg h1]
        by_cases h2 : had = true
        · rw [if_pos h2]; exact done _ _ _ (Nat.le_refl _)
        rw [if_neg h2]
        by_cases h3 : (c == 39 || c == 34) = true
        · rw [if_pos h3]; exact key true _ (parseStr_length cap { st with inp := r } c)
        rw [if_neg h3]
        by_cases h4 : (c == 91) = true
        · rw [if_pos h4]
          obtain ⟨a, b⟩ := ihL (write cap (write cap { st with inp := r } [93]) [40])
            (by rw [write_inp, write_inp]; simp only; omega)
          cases hl : listLoop stod cap f (write cap (write cap { st with inp := r } [93]) [40]) with
          | error e => simp only; refine ⟨?_, by simp⟩; intro he; rw [hl] at a; exact a (by simpa using he)
          | ok st1 =>
            have := b st1 hl
            rw [write_inp, write_inp] at this
            exact key true st1 this
        rw [if_neg h4]
        by_cases h5 : (c == 123) = true
        · rw [if_pos h5]
          obtain ⟨a, b⟩ := ihD (write cap (write cap { st with inp := r } [125]) [40]) ⟨0, false, true, st.out.length⟩
            (by rw [write_inp, write_inp]; simp only; omega)
          cases hl : dictLoop stod cap f (write cap (write cap { st with inp := r } [125]) [40])
              ⟨0, false, true, st.out.length⟩ with
          | error e => simp only; refine ⟨?_, by simp⟩; intro he; rw [hl] at a; exact a (by simpa using he)
          | ok st1 =>
            have := b st1 hl
            rw [write_inp, write_inp] at this
            exact key true st1 this
        rw [if_neg h5]
        by_cases h6 : isNumChar c = true
        · rw [if_pos h6]
          have hnf := parseNum_nofuel stod cap { st with inp := r } c
          cases hp : parseNum stod cap { st with inp := r } c with
          | error e => simp only; refine ⟨?_, by simp⟩; intro he; rw [hp] at hnf; exact hnf (by simpa using he)
          | ok x =>
            obtain ⟨x, st1⟩ := x
            have hl := parseNum_length stod cap _ _ _ _ hp
            cases x with
            | none => exact done _ _ _ hl.1
            | some x =>
              simp only
              by_cases hs : isSpace x = true
              · rw [if_pos hs]; exact key true st1 hl.1
              · rw [if_neg hs]; exact done _ _ _ hl.1
        rw [if_neg h6]
        by_cases h7 : (c == 78) = true
        · rw [if_pos h7]; exact key true _ (parseNone_length cap { st with inp := r })
        rw [if_neg h7]
        exact done _ _ _ (Nat.le_refl _)
    · intro st hf
      rw [listLoop]
      obtain ⟨a, b⟩ := ihP false st (by omega)
      cases hp : parse stod cap f false st with
      | error e => simp only; refine ⟨?_, by simp⟩; intro he; rw [hp] at a; exact a (by simpa using he)
      | ok x =>
        obtain ⟨c, had, st1⟩ := x
        have hl := b c had st1 hp
        simp only
        by_cases h1 : c = some 44
        · rw [if_pos h1]
          have := hl.2 (by rw [h1]; simp)
          obtain ⟨a', b'⟩ := ihL st1 (by omega)
          exact ⟨a', fun st' h => by have := b' st' h; omega⟩
        · rw [if_neg h1]
          by_cases h2 : c = some 93
          · rw [if_pos h2]
            refine ⟨by simp, ?_⟩
            intro st' h
            simp only [Except.ok.injEq] at h
            rw [← h, write_inp]; exact hl.1
          · rw [if_neg h2]
            refine ⟨by simp, ?_⟩
            intro st' h
            simp only [Except.ok.injEq] at h
            rw [← h]; exact hl.1
    · intro st d hf
      rw [dictLoop]
      obtain ⟨a, b⟩ := ihP false st (by omega)
      cases hp : parse stod cap f false st with
      | error e => simp only; refine ⟨?_, by simp⟩; intro he; rw [hp] at a; exact a (by simpa using he)
      | ok x =>
        obtain ⟨c, had, st1⟩ := x
        have hl := b c had st1 hp
        simp only
        have hd := dictStep_inp cap c st1 { d with count := if had then d.count + 1 else d.count }
        cases hs : dictStep cap c st1 { d with count := if had then d.count + 1 else d.count } with
        | ret st2 =>
          rw [hs] at hd
          simp only at hd ⊢
          refine ⟨by simp, ?_⟩
          intro st' h
          simp only [Except.ok.injEq] at h
          rw [← h, hd]; exact hl.1
        | cont st2 d2 =>
          rw [hs] at hd
          simp only at hd ⊢
          have := hl.2 hd.2
          obtain ⟨a', b'⟩ := ihD st2 d2 (by rw [hd.1]; omega)
          exact ⟨a', fun st' h => by have := b' st' h; rw [hd.1] at this; omega⟩

/-- C82: for every input the conversion ends with a result or a C++ exception (the bound of the model is never reached). -/
theorem convert_total (inp : List Nat) : fullPass stod cap inp ≠ .error .fuel := by
  have h := ((total stod cap (fuel inp)).1 false (write cap (write cap ⟨inp, [], false, false⟩ [0x80]) [3])
    (by rw [write_inp, write_inp]; exact Nat.le_refl _)).1
  unfold fullPass
  cases hp : parse stod cap (fuel inp) false (write cap (write cap ⟨inp, [], false, false⟩ [0x80]) [3]) with
  | error e =>
    intro he
    apply h
    rw [hp]
    simpa using he
  | ok x =>
    obtain ⟨c, had, st⟩ := x
    simp only
    split <;> simp

end Verif.PyPickle
