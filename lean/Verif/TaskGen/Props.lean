import Verif.TaskGen.Model
import Verif.TaskGen.Spec
/-
C144: targets of generated tasks.
-/
namespace Verif.TaskGen
open Verif Verif.Py Spec

theorem lastOf_snoc (w h : List Char) (c : Char) : lastOf w (h ++ [c]) = if c ∈ w then some c else lastOf w h := by
  unfold lastOf
  rw [List.reverse_append, List.reverse_cons, List.reverse_nil, List.nil_append, List.singleton_append, List.find?_cons]
  by_cases e : c ∈ w
  · simp [e]
  · simp [e]

/-- The inner state is the last of A, B, X, Y if that is A or B. -/
def innerOf (h : List Char) : Option Char :=
  match lastOf ['A', 'B', 'X', 'Y'] h with
  | none => none
  | some c => if c = 'A' ∨ c = 'B' then some c else none

theorem innerOf_iff (h : List Char) (c : Char) (hc : c = 'A' ∨ c = 'B') : innerOf h = some c ↔ lastOf ['A', 'B', 'X', 'Y'] h = some c := by
  unfold innerOf
  cases hl : lastOf ['A', 'B', 'X', 'Y'] h with
  | none => simp
  | some d =>
    by_cases e : d = 'A' ∨ d = 'B'
    · simp [e]
    · simp only [if_neg e, Option.some.injEq]
      constructor
      · intro hh; cases hh
      · rintro rfl; exact absurd hc e

theorem ite_iff {p q : Prop} [Decidable p] [Decidable q] (h : p ↔ q) : (if p then 'R' else 'L') = if q then 'R' else 'L' := by
  by_cases e : p
  · rw [if_pos e, if_pos (h.1 e)]
  · rw [if_neg e, if_neg (fun x => e (h.2 x))]

theorem step_spec (h : List Char) (c : Char) :
    step12AX (lastOf ['1', '2'] h) (innerOf h) c =
      (lastOf ['1', '2'] (h ++ [c]), innerOf (h ++ [c]), if WantsR h c then 'R' else 'L') := by
  have hi : innerOf (h ++ [c]) = if c = 'A' ∨ c = 'B' then some c else if c = 'X' ∨ c = 'Y' then none else innerOf h := by
    unfold innerOf
    rw [lastOf_snoc]
    by_cases e1 : c = 'A' ∨ c = 'B'
    · rcases e1 with rfl | rfl <;> simp
    · by_cases e2 : c = 'X' ∨ c = 'Y'
      · rcases e2 with rfl | rfl <;> simp
      · have : c ∉ (['A', 'B', 'X', 'Y'] : List Char) := by
          simp only [not_or] at e1 e2
          simp [e1, e2]
        rw [if_neg this, if_neg e1, if_neg e2]
  rw [lastOf_snoc, hi]
  unfold step12AX WantsR
  by_cases h1 : c = '1' ∨ c = '2'
  · have : c ∈ (['1', '2'] : List Char) := by simpa using h1
    rcases h1 with rfl | rfl <;> simp
  · have hm : c ∉ (['1', '2'] : List Char) := by simpa using h1
    rw [if_neg h1, if_neg hm]
    by_cases h2 : c = 'A' ∨ c = 'B'
    · rcases h2 with rfl | rfl <;> simp
    · rw [if_neg h2, if_neg h2]
      by_cases h3 : c = 'X' ∨ c = 'Y'
      · rw [if_pos h3, if_pos h3]
        refine Prod.ext rfl (Prod.ext rfl (ite_iff ?_))
        rw [innerOf_iff h 'A' (Or.inl rfl), innerOf_iff h 'B' (Or.inr rfl)]
      · simp only [not_or] at h3
        simp [h3]

theorem run_spec (cs h : List Char) (k : Nat) (c : Char) (hc : cs[k]? = some c) :
    (run12AX (lastOf ['1', '2'] h) (innerOf h) cs)[k]? = some (if WantsR (h ++ cs.take k) c then 'R' else 'L') := by
  induction cs generalizing h k with
  | nil => cases hc
  | cons d cs ih =>
    simp only [run12AX, step_spec]
    cases k with
    | zero => simp only [List.getElem?_cons_zero, Option.some.injEq] at hc; subst hc; simp
    | succ k =>
      simp only [List.getElem?_cons_succ] at hc ⊢
      rw [ih (h ++ [d]) k hc, List.append_assoc]
      rfl

/-- The 12AX task: the output has one character for every one of the input, `R` exactly where the rule says so, by what was before. -/
theorem task_12ax (cs : List Char) :
    (out12AX cs).length = cs.length ∧ ∀ k c, cs[k]? = some c → (out12AX cs)[k]? = some (if WantsR (cs.take k) c then 'R' else 'L') := by
  constructor
  · have : ∀ (cs : List Char) (o i : Option Char), (run12AX o i cs).length = cs.length := by
      intro cs
      induction cs with
      | nil => intros; rfl
      | cons c cs ih => intro o i; simp [run12AX, ih]
    exact this cs none none
  · intro k c hc
    have := run_spec cs [] k c hc
    simpa [out12AX, lastOf, innerOf] using this

theorem copy_recall (mem rest : List Char) :
    runCopy true mem rest = (mem ++ List.replicate rest.length '.').take rest.length := by
  induction rest generalizing mem with
  | nil => rfl
  | cons c cs ih =>
    cases mem with
    | nil =>
      simp only [runCopy, ih, List.nil_append, List.length_cons, List.replicate_succ, List.take_succ_cons]
    | cons m mem =>
      simp only [runCopy, ih, List.cons_append, List.length_cons, List.take_succ_cons, List.cons.injEq, true_and]
      rw [List.take_append, List.take_append]
      congr 1
      rw [List.take_replicate, List.take_replicate]
      congr 1
      omega

theorem copy_collect (pre : List Char) (hp : '.' ∉ pre) (mem rest : List Char) :
    runCopy false mem (pre ++ '.' :: rest) = List.replicate (pre.length + 1) ' ' ++ runCopy true (mem ++ pre.filter fun c => decide (c ≠ ' ')) rest := by
  induction pre generalizing mem with
  | nil => simp [runCopy]
  | cons c cs ih =>
    simp only [List.mem_cons, not_or] at hp
    simp only [List.cons_append, runCopy, List.length_cons]
    by_cases e : c = ' '
    · rw [if_pos e, ih hp.2, e]
      simp [List.replicate_succ]
    · rw [if_neg e, if_neg (fun h => hp.1 h.symm), ih hp.2]
      simp [List.replicate_succ, e]

/-- The episodic copy task, for any input: blanks up to the delimiter, and then the characters from before it without blanks, then delimiters. -/
theorem task_copy (pre rest : List Char) (hp : '.' ∉ pre) :
    outCopy (pre ++ '.' :: rest) = List.replicate (pre.length + 1) ' ' ++
      ((pre.filter fun c => decide (c ≠ ' ')) ++ List.replicate rest.length '.').take rest.length := by
  rw [outCopy, copy_collect pre hp, copy_recall, List.nil_append]

/-- In particular for the generated inputs: all characters are given back completely and in order, with one delimiter at the end, and there is time for exactly that. -/
theorem task_copy_generated (chars : List Char) (blanks : Nat) (hc : ∀ c ∈ chars, c ≠ ' ' ∧ c ≠ '.') :
    outCopy (inCopy chars blanks) = List.replicate (chars.length + blanks + 1) ' ' ++ chars ++ ['.'] ∧
    (outCopy (inCopy chars blanks)).length = (inCopy chars blanks).length := by
  have hpre : '.' ∉ chars ++ List.replicate blanks ' ' := by
    intro h
    rcases List.mem_append.1 h with h | h
    · exact (hc '.' h).2 rfl
    · have := List.eq_of_mem_replicate h; cases this
  have hfil : (chars ++ List.replicate blanks ' ').filter (fun c => decide (c ≠ ' ')) = chars := by
    rw [List.filter_append]
    have h1 : chars.filter (fun c => decide (c ≠ ' ')) = chars := List.filter_eq_self.2 fun c h => by simpa using (hc c h).1
    have h2 : (List.replicate blanks ' ').filter (fun c => decide (c ≠ ' ')) = [] := by
      rw [List.filter_eq_nil_iff]; intro c h; have := List.eq_of_mem_replicate h; simp [this]
    rw [h1, h2, List.append_nil]
  have hin : inCopy chars blanks = (chars ++ List.replicate blanks ' ') ++ '.' :: List.replicate (chars.length + 1) '.' := by
    simp [inCopy]
  have hout : outCopy (inCopy chars blanks) = List.replicate (chars.length + blanks + 1) ' ' ++ chars ++ ['.'] := by
    rw [hin, task_copy _ _ hpre, hfil]
    simp only [List.length_append, List.length_replicate, List.append_assoc]
    congr 1
    rw [List.take_append, List.take_of_length_le (by omega), List.take_replicate]
    have : min (chars.length + 1 - chars.length) (chars.length + 1) = 1 := by omega
    rw [this]; rfl
  refine ⟨hout, ?_⟩
  rw [hout, hin]
  simp; omega

theorem foldl_value (base : Nat) (ds : List Nat) (n : Nat) : ds.foldl (fun n d => n * base + d) n = n * base ^ ds.length + value base ds := by
  unfold value
  induction ds generalizing n with
  | nil => simp
  | cons d ds ih =>
    simp only [List.foldl_cons, List.length_cons]
    rw [ih, ih (0 * base + d)]
    rw [Nat.pow_succ, Nat.add_mul, Nat.zero_mul, Nat.zero_add, Nat.mul_assoc n, Nat.mul_comm base]
    omega

theorem value_cons (base d : Nat) (ds : List Nat) : value base (d :: ds) = d * base ^ ds.length + value base ds := by
  have : value base (d :: ds) = ds.foldl (fun n d => n * base + d) (0 * base + d) := rfl
  rw [this, foldl_value]; simp

theorem sum_append (base i : Nat) (as bs : List Nat) : sumDigits base i (as ++ bs) = sumDigits base i as + sumDigits base (i + as.length) bs := by
  induction as generalizing i with
  | nil => simp [sumDigits]
  | cons a as ih =>
    simp only [List.cons_append, sumDigits, ih, List.length_cons]
    rw [Nat.add_assoc i 1, Nat.add_comm 1]; omega

theorem number_value (base : Nat) (ds : List Nat) : number base ds = value base ds := by
  induction ds with
  | nil => rfl
  | cons d ds ih =>
    rw [value_cons, ← ih]
    simp only [number, List.reverse_cons, sum_append, sumDigits, List.length_reverse]
    simp; omega

theorem loop_spec (base : Nat) (hb : 2 ≤ base) (n : Nat) (acc : List Nat) :
    value base (digitsLoop base hb n acc) = n * base ^ acc.length + value base acc ∧
    ((∀ d ∈ acc, d < base) → ∀ d ∈ digitsLoop base hb n acc, d < base) ∧
    (0 < n → ∃ d ds, digitsLoop base hb n acc = d :: ds ∧ 0 < d) := by
  induction n using Nat.strongRecOn generalizing acc with
  | ind n ih =>
    rw [digitsLoop]
    by_cases h : n = 0
    · rw [dif_pos h, h]
      refine ⟨by simp, fun h => h, fun h => by omega⟩
    · rw [dif_neg h]
      obtain ⟨i1, i2, i3⟩ := ih (n / base) (Nat.div_lt_self (by omega) (by omega)) (n % base :: acc)
      refine ⟨?_, ?_, ?_⟩
      · rw [i1, value_cons, List.length_cons, Nat.pow_succ]
        have hdm := Nat.div_add_mod n base
        have : n / base * (base ^ acc.length * base) + n % base * base ^ acc.length = n * base ^ acc.length := by
          conv => rhs; rw [← hdm]
          rw [Nat.add_mul, Nat.mul_comm base (n / base), Nat.mul_assoc, Nat.mul_comm base]
        omega
      · intro hacc
        apply i2
        intro d hd
        rcases List.mem_cons.1 hd with rfl | hd
        · exact Nat.mod_lt _ (by omega)
        · exact hacc d hd
      · intro hn
        by_cases hq : n / base = 0
        · rw [hq, digitsLoop, dif_pos rfl]
          refine ⟨_, _, rfl, ?_⟩
          have := Nat.div_add_mod n base
          rw [hq] at this; omega
        · exact i3 (Nat.pos_of_ne_zero hq)

/-- The base conversion task: the output stands for the same number as the input; its digits are digits of the base; there is at least one; and none is a leading zero,
but for the number zero. -/
theorem task_convert (inBase outBase : Nat) (hb : 2 ≤ outBase) (ds : List Nat) :
    value outBase (convert inBase outBase hb ds) = value inBase ds ∧ (∀ d ∈ convert inBase outBase hb ds, d < outBase) ∧
    (value inBase ds = 0 → convert inBase outBase hb ds = [0]) ∧ (0 < value inBase ds → ∃ d rest, convert inBase outBase hb ds = d :: rest ∧ 0 < d) := by
  obtain ⟨h1, h2, h3⟩ := loop_spec outBase hb (number inBase ds) []
  rw [number_value] at h1 h2 h3
  have h2 := h2 (by simp)
  unfold convert
  rw [number_value]
  by_cases hz : value inBase ds = 0
  · have e : digitsLoop outBase hb (value inBase ds) [] = [] := by rw [hz, digitsLoop, dif_pos rfl]
    rw [e]
    refine ⟨by rw [hz]; simp [value], ?_, fun _ => rfl, fun h => by omega⟩
    intro d hd; simp only [List.mem_singleton] at hd; omega
  · obtain ⟨d, rest, e, hd⟩ := h3 (by omega)
    rw [e] at h1 h2 ⊢
    refine ⟨by rw [h1]; simp [value], h2, fun h => absurd h hz, fun _ => ⟨d, rest, rfl, hd⟩⟩

example : out12AX "1AX2BYAX1ACX".toList = "LLRLLRLLLLLR".toList := by decide +kernel
example : outCopy (inCopy "35".toList 2) = "     35.".toList := by decide +kernel
example : value 8 [1, 7] = 15 ∧ value 2 [1, 1, 1, 1] = 15 := by decide
example : convert 8 2 (by decide) [1, 7] = [1, 1, 1, 1] := by simp [convert, number, sumDigits, digitsLoop]

end Verif.TaskGen
