import Verif.Viterbi.Model
import Mathlib.Tactic.Common
/-
`select_max` by compare-and-swap, for all interleavings of the threads.
-/
namespace Verif.Viterbi
open Verif.CtcFsa Verif.FastBw

variable {V : Type} [LinearOrder V] [OrderBot V]

/-- `a` is at least as good as `b`: larger value, or same value and smaller index. -/
def Better (a b : Cell V) : Prop := b.val < a.val ∨ (b.val = a.val ∧ a.idx ≤ b.idx)

theorem Better.refl (a : Cell V) : Better a a := Or.inr ⟨rfl, by omega⟩

theorem Better.trans {a b c : Cell V} (h : Better a b) (h' : Better b c) : Better a c := by
  rcases h with h | ⟨h1, h2⟩ <;> rcases h' with h' | ⟨h1', h2'⟩
  · exact Or.inl (lt_trans h' h)
  · exact Or.inl (h1' ▸ h)
  · exact Or.inl (h1 ▸ h')
  · exact Or.inr ⟨h1'.trans h1, by omega⟩

theorem Better.antisymm {a b : Cell V} (h : Better a b) (h' : Better b a) : a = b := by
  rcases h with h | ⟨h1, h2⟩ <;> rcases h' with h' | ⟨h1', h2'⟩
  · exact (lt_asymm h h').elim
  · rw [h1'] at h; exact (lt_irrefl _ h).elim
  · rw [h1] at h'; exact (lt_irrefl _ h').elim
  · cases a; cases b
    simp only at h1 h2 h2'
    have : ∀ (a b : Int), a ≤ b → b ≤ a → a = b := by intro a b; omega
    rw [h1, this _ _ h2 h2']

/-- The thread's value is written if the comparison does not return. -/
theorem afterRead_cas {b prev p : Cell V} (h : afterRead b prev = .cas p) : p = prev ∧ Better b prev := by
  unfold afterRead at h
  split at h
  · cases h
  rename_i h1
  split at h
  · cases h
  rename_i h2
  injection h with h
  refine ⟨h.symm, ?_⟩
  rcases lt_or_eq_of_le (not_lt.1 h1) with h3 | h3
  · exact Or.inl h3
  · right
    refine ⟨h3, ?_⟩
    by_contra hc
    exact h2 ⟨h3.symm, by omega⟩

theorem afterRead_done {b prev : Cell V} (h : afterRead b prev = .done) : Better prev b := by
  unfold afterRead at h
  split at h
  · rename_i h1; exact Or.inl h1
  split at h
  · rename_i h1 h2; exact Or.inr ⟨h2.1, h2.2⟩
  · cases h

theorem afterRead_cases (b prev : Cell V) : afterRead b prev = .done ∨ afterRead b prev = .cas prev := by
  unfold afterRead
  split
  · exact Or.inl rfl
  · split
    · exact Or.inl rfl
    · exact Or.inr rfl

/-- What holds at all times. -/
structure Inv (job : Nat → Option (Nat × Cell V)) (init : Nat → Cell V) (st : St V) : Prop where
  /-- A cell has its first value or that of a thread. -/
  from_job : ∀ s, st.frame s = init s ∨ ∃ i c, job i = some (s, c) ∧ st.frame s = c
  /-- Cells only get better. -/
  better_init : ∀ s, Better (st.frame s) (init s)
  /-- Threads which have returned are taken care of. -/
  done : ∀ i s c, job i = some (s, c) → st.pc i = .done → Better (st.frame s) c
  /-- A pending CAS improves the value it has read. -/
  cas : ∀ i s c p, job i = some (s, c) → st.pc i = .cas p → Better c p

theorem upd_same {W : Type} (a : Nat → W) (i : Nat) (v : W) : upd a i v i = v := if_pos rfl
theorem upd_other {W : Type} (a : Nat → W) {i j : Nat} (v : W) (h : j ≠ i) : upd a i v j = a j := if_neg h

/-- Only the program counter of `i` has changed. -/
theorem Inv.of_pc {job : Nat → Option (Nat × Cell V)} {init : Nat → Cell V} {st : St V} (h : Inv job init st) {i : Nat} {q : Pc V}
    (hd : ∀ s c, job i = some (s, c) → q = .done → Better (st.frame s) c) (hc : ∀ s c p, job i = some (s, c) → q = .cas p → Better c p) :
    Inv job init { st with pc := upd st.pc i q } := by
  refine ⟨h.from_job, h.better_init, ?_, ?_⟩
  · intro j s c hj hp
    by_cases hji : j = i
    · subst hji
      simp only [upd_same] at hp
      exact hd s c hj hp
    · simp only [upd_other _ _ hji] at hp
      exact h.done j s c hj hp
  · intro j s c p hj hp
    by_cases hji : j = i
    · subst hji
      simp only [upd_same] at hp
      exact hc s c p hj hp
    · simp only [upd_other _ _ hji] at hp
      exact h.cas j s c p hj hp

theorem Inv.step {job : Nat → Option (Nat × Cell V)} {init : Nat → Cell V} {st : St V} (h : Inv job init st) (i : Nat) : Inv job init (step job st i) := by
  unfold Viterbi.step
  cases hj : job i with
  | none => exact h.of_pc (fun s c hs _ => by rw [hj] at hs; cases hs) (fun s c p hs _ => by rw [hj] at hs; cases hs)
  | some jb =>
    obtain ⟨d, b⟩ := jb
    simp only [Option.elim_some]
    have huniq : ∀ s c, job i = some (s, c) → s = d ∧ c = b := by
      intro s c hs
      rw [hj] at hs
      injection hs with hs
      injection hs with h1 h2
      exact ⟨h1.symm, h2.symm⟩
    unfold stepJob
    cases hpc : st.pc i with
    | start =>
      refine h.of_pc ?_ ?_
      · intro s c hs hq
        obtain ⟨rfl, rfl⟩ := huniq s c hs
        split at hq
        · rename_i hlt; exact Or.inl hlt
        · cases hq
      · intro s c p hs hq
        split at hq <;> cases hq
    | loop =>
      refine h.of_pc ?_ ?_
      · intro s c hs hq
        obtain ⟨rfl, rfl⟩ := huniq s c hs
        exact afterRead_done hq
      · intro s c p hs hq
        obtain ⟨rfl, rfl⟩ := huniq s c hs
        obtain ⟨rfl, hb⟩ := afterRead_cas hq
        exact hb
    | done => exact h
    | cas prev =>
      simp only
      by_cases heq : st.frame d = prev
      swap
      · rw [if_neg heq]
        exact h.of_pc (fun s c _ hq => by cases hq) (fun s c p _ hq => by cases hq)
      rw [if_pos heq]
      have hbp := h.cas i d b prev hj hpc
      have himp : ∀ s, Better (upd st.frame d b s) (st.frame s) := by
        intro s
        by_cases hs : s = d
        · subst hs; rw [upd_same, heq]; exact hbp
        · rw [upd_other _ _ hs]; exact Better.refl _
      refine ⟨?_, ?_, ?_, ?_⟩
      · intro s
        by_cases hs : s = d
        · subst hs; exact Or.inr ⟨i, b, hj, upd_same _ _ _⟩
        · simp only [upd_other _ _ hs]; exact h.from_job s
      · intro s
        exact (himp s).trans (h.better_init s)
      · intro j s c hjs hp
        by_cases hji : j = i
        · subst hji
          obtain ⟨rfl, rfl⟩ := huniq s c hjs
          simp only [upd_same]
          exact Better.refl _
        · simp only [upd_other _ _ hji] at hp
          exact (himp s).trans (h.done j s c hjs hp)
      · intro j s c p hjs hp
        by_cases hji : j = i
        · subst hji; simp only [upd_same] at hp; cases hp
        · simp only [upd_other _ _ hji] at hp
          exact h.cas j s c p hjs hp

theorem Inv.run {job : Nat → Option (Nat × Cell V)} {init : Nat → Cell V} : ∀ (tr : List Nat) {st : St V}, Inv job init st → Inv job init (run job tr st)
  | [], _, h => h
  | i :: tr, _, h => Inv.run tr (h.step i)

theorem inv_init (job : Nat → Option (Nat × Cell V)) (init : Nat → Cell V) : Inv job init { frame := init, pc := fun _ => .start } :=
  ⟨fun _ => Or.inl rfl, fun s => Better.refl _, (fun _ _ _ _ h => by cases h), (fun _ _ _ _ _ h => by cases h)⟩

/-- The cell holds the best of the first value and the values of all jobs for it. -/
def IsBest (job : Nat → Option (Nat × Cell V)) (init : Cell V) (s : Nat) (r : Cell V) : Prop :=
  (r = init ∨ ∃ i, job i = some (s, r)) ∧ Better r init ∧ ∀ i c, job i = some (s, c) → Better r c

theorem IsBest.unique {job : Nat → Option (Nat × Cell V)} {init : Cell V} {s : Nat} {r r' : Cell V} (h : IsBest job init s r) (h' : IsBest job init s r') : r = r' := by
  refine Better.antisymm ?_ ?_
  · rcases h'.1 with h1 | ⟨i, h1⟩
    · rw [h1]; exact h.2.1
    · exact h.2.2 i _ h1
  · rcases h.1 with h1 | ⟨i, h1⟩
    · rw [h1]; exact h'.2.1
    · exact h'.2.2 i _ h1

/-- When all threads have returned, whatever the interleaving was, every cell has the best value. -/
theorem run_best {job : Nat → Option (Nat × Cell V)} {init : Nat → Cell V} {tr : List Nat}
    (hfin : ∀ i jb, job i = some jb → (run job tr { frame := init, pc := fun _ => .start }).pc i = .done) (s : Nat) :
    IsBest job (init s) s ((run job tr { frame := init, pc := fun _ => .start }).frame s) := by
  have h := (inv_init job init).run tr
  refine ⟨?_, h.better_init s, fun i c hj => h.done i s c hj (hfin i _ hj)⟩
  rcases h.from_job s with h1 | ⟨i, c, h1, h2⟩
  · exact Or.inl h1
  · exact Or.inr ⟨i, by rw [h2]; exact h1⟩

/-! ### All runs end: no endless retries -/

/-- How far a thread is from the end, but for the writes of other threads. -/
def pot (job : Nat → Option (Nat × Cell V)) (st : St V) (i : Nat) : Nat :=
  match st.pc i with
  | .done => 0
  | .start => 3
  | .loop => 2
  | .cas prev => (job i).elim 1 (fun j => if st.frame j.1 = prev then 1 else 3)

def phi (n : Nat) (job : Nat → Option (Nat × Cell V)) (st : St V) (i : Nat) : Nat := if st.pc i = .done then 0 else 2 * n + pot job st i

def mu (n : Nat) (job : Nat → Option (Nat × Cell V)) (st : St V) : Nat := ((List.range n).map (phi n job st)).sum

theorem pot_le (job : Nat → Option (Nat × Cell V)) (st : St V) (i : Nat) : pot job st i ≤ 3 := by
  unfold pot
  split <;> try omega
  cases job i with
  | none => simp
  | some j => simp only [Option.elim_some]; split <;> omega

theorem sum_change {n : Nat} {f g : Nat → Nat} {i c k : Nat} (hi : f i + k ≤ g i) (h : ∀ j, j ≠ i → f j ≤ g j + c) :
    ((List.range n).map f).sum + (if i < n then k else 0) ≤ ((List.range n).map g).sum + n * c := by
  induction n with
  | zero => simp
  | succ n ih =>
    rw [List.range_succ]
    simp only [List.map_append, List.sum_append, List.map_cons, List.map_nil, List.sum_cons, List.sum_nil]
    rw [Nat.succ_mul]
    by_cases hin : i = n
    · subst hin
      rw [if_neg (by omega)] at ih
      rw [if_pos (by omega)]
      omega
    · have h2 := h n (fun hc => hin hc.symm)
      by_cases hlt : i < n
      · rw [if_pos hlt] at ih
        rw [if_pos (by omega)]
        omega
      · rw [if_neg hlt] at ih
        rw [if_neg (by omega)]
        omega

/-- The thread has moved on, the frame is as before. -/
theorem mu_pc {n : Nat} {job : Nat → Option (Nat × Cell V)} {st : St V} {i : Nat} {q : Pc V} (hi : i < n) (hnd : st.pc i ≠ .done)
    (hq : q = .done ∨ pot job { st with pc := upd st.pc i q } i < pot job st i) : mu n job { st with pc := upd st.pc i q } < mu n job st := by
  have h := sum_change (n := n) (f := phi n job { st with pc := upd st.pc i q }) (g := phi n job st) (i := i) (c := 0) (k := 1) ?_ ?_
  · rw [if_pos hi] at h
    unfold mu
    omega
  · unfold phi
    rw [if_neg hnd]
    simp only [upd_same]
    rcases hq with rfl | hq
    · have : 0 < pot job st i ∨ 0 < n := Or.inr (by omega)
      rw [if_pos rfl]; omega
    · split <;> omega
  · intro j hj
    have : phi n job { st with pc := upd st.pc i q } j = phi n job st j := by
      unfold phi pot
      simp only [upd_other _ _ hj]
    omega

/-- Every step of a thread which has not returned brings all threads together nearer to the end. -/
theorem mu_step {n : Nat} {job : Nat → Option (Nat × Cell V)} {st : St V} {i : Nat} (hi : i < n) (hnd : st.pc i ≠ .done) :
    mu n job (step job st i) < mu n job st := by
  unfold step
  cases hj : job i with
  | none => exact mu_pc hi hnd (Or.inl rfl)
  | some jb =>
    obtain ⟨d, b⟩ := jb
    simp only [Option.elim_some]
    unfold stepJob
    cases hpc : st.pc i with
    | done => exact (hnd hpc).elim
    | start =>
      refine mu_pc hi hnd ?_
      by_cases hlt : b.val < (st.frame d).val
      · exact Or.inl (if_pos hlt)
      · right
        rw [if_neg hlt]
        unfold pot
        simp only [upd_same, hpc]
        omega
    | loop =>
      refine mu_pc hi hnd ?_
      rcases afterRead_cases b (st.frame d) with h | h
      · exact Or.inl h
      · right
        rw [h]
        unfold pot
        simp only [upd_same, hpc, hj, Option.elim_some, if_true]
        omega
    | cas prev =>
      simp only
      by_cases heq : st.frame d = prev
      · rw [if_pos heq]
        have h := sum_change (n := n) (f := phi n job { frame := upd st.frame d b, pc := upd st.pc i .done }) (g := phi n job st) (i := i) (c := 2) (k := 2 * n + 1) ?_ ?_
        · rw [if_pos hi] at h
          unfold mu
          omega
        · unfold phi
          rw [if_neg hnd]
          simp only [upd_same, if_true]
          unfold pot
          simp only [hpc, hj, Option.elim_some, heq, if_true]
          omega
        · intro j hji
          unfold phi
          simp only [upd_other _ _ hji]
          by_cases hd : st.pc j = .done
          · rw [if_pos hd]; omega
          · rw [if_neg hd, if_neg hd]
            have : pot job { frame := upd st.frame d b, pc := upd st.pc i .done } j ≤ pot job st j + 2 := by
              unfold pot
              simp only [upd_other _ _ hji]
              cases hpj : st.pc j with
              | done => exact (hd hpj).elim
              | start => simp
              | loop => simp
              | cas p =>
                simp only
                cases job j with
                | none => simp
                | some jb => simp only [Option.elim_some]; split <;> split <;> omega
            omega
      · rw [if_neg heq]
        refine mu_pc hi hnd (Or.inr ?_)
        unfold pot
        simp only [upd_same, hpc, hj, Option.elim_some, if_neg heq]
        omega

/-- In this run only threads which have not returned take steps. -/
def Active (n : Nat) (job : Nat → Option (Nat × Cell V)) : List Nat → St V → Prop
  | [], _ => True
  | i :: tr, st => (i < n ∧ st.pc i ≠ .done) ∧ Active n job tr (step job st i)

theorem active_mu {n : Nat} {job : Nat → Option (Nat × Cell V)} : ∀ (tr : List Nat) {st : St V}, Active n job tr st → tr.length + mu n job (run job tr st) ≤ mu n job st
  | [], _, _ => by simp [run]
  | i :: tr, st, h => by
    have h1 := active_mu tr h.2
    have h2 := mu_step (job := job) h.1.1 h.1.2
    have : run job (i :: tr) st = run job tr (step job st i) := rfl
    rw [this]
    simp only [List.length_cons]
    omega

/-- No endless retries: a run of `n` threads ends after at most `n (2n + 3)` steps, whatever the interleaving. -/
theorem run_ends {n : Nat} {job : Nat → Option (Nat × Cell V)} {frame : Nat → Cell V} {tr : List Nat} (h : Active n job tr { frame := frame, pc := fun _ => .start }) :
    tr.length ≤ n * (2 * n + 3) := by
  have h1 := active_mu tr h
  have h2 : mu n job { frame := frame, pc := fun _ => .start } = n * (2 * n + 3) := by
    unfold mu phi pot
    simp
  omega

/-- And every run can be continued until all threads have returned. -/
theorem run_extends {n : Nat} {job : Nat → Option (Nat × Cell V)} : ∀ (m : Nat) (st : St V), mu n job st ≤ m →
    ∃ tr, Active n job tr st ∧ ∀ i, i < n → (run job tr st).pc i = .done
  | 0, st, h => by
    refine ⟨[], trivial, ?_⟩
    intro i hi
    by_contra hc
    have := mu_step (job := job) (st := st) hi hc
    omega
  | m + 1, st, h => by
    by_cases hall : ∀ i, i < n → st.pc i = .done
    · exact ⟨[], trivial, hall⟩
    · have : ∃ i, i < n ∧ st.pc i ≠ .done := by
        by_contra hc
        refine hall (fun i hi => ?_)
        by_contra h'
        exact hc ⟨i, hi, h'⟩
      obtain ⟨i, hi, hnd⟩ := this
      have := mu_step (job := job) hi hnd
      obtain ⟨tr, h1, h2⟩ := run_extends (n := n) (job := job) m (step job st i) (by omega)
      exact ⟨i :: tr, ⟨⟨hi, hnd⟩, h1⟩, h2⟩

end Verif.Viterbi
