import Verif.EnvVars.Model
/-
C148: environment variables in strings.
-/
namespace Verif.EnvVars
open Verif Verif.Py Spec

theorem dollar_not_ident : identChar '$' = false := by decide

theorem take_name (r rest : List Char) (hr : ∀ x ∈ r, identChar x = true) (h : ¬ Continues rest) :
    (r ++ rest).takeWhile identChar = r ∧ (r ++ rest).dropWhile identChar = rest := by
  induction r with
  | nil =>
    cases rest with
    | nil => simp
    | cons c rest => simp only [Continues, Bool.not_eq_true] at h; simp [h]
  | cons c r ih =>
    have := ih fun x hx => hr x (by simp [hx])
    simp [hr c (by simp), this]

theorem expand_lit (env : List Char → Option (List Char)) (c : Char) (r : List Char) (h : c ≠ '$') : expand env (c :: r) = app [c] (expand env r) := by
  rw [expand.eq_def]
  simp only [if_neg h]

theorem expand_dollar (env : List Char → Option (List Char)) (r : List Char) : expand env ('$' :: '$' :: r) = app ['$'] (expand env r) := by
  rw [expand, if_pos rfl]
  simp

theorem start_ne {c : Char} (h : identStart c = true) : c ≠ '$' := by
  rintro rfl
  revert h; decide

theorem expand_var (env : List Char → Option (List Char)) (n rest : List Char) (hn : Name n) (h : ¬ Continues rest) :
    expand env ('$' :: n ++ rest) = sub (env n) (expand env rest) := by
  obtain ⟨c, r, rfl, hc, hr⟩ := hn
  rw [List.cons_append, List.cons_append, expand, if_pos rfl]
  simp only [if_neg (start_ne hc), hc, if_true]
  obtain ⟨h1, h2⟩ := take_name r rest hr h
  rw [h1, h2]

/-- The result: the value of the parts, or a ValueError. -/
def result (v : Option (List Char)) : Res (List Char) :=
  match v with
  | none => .error .valueError
  | some l => .ok l

/-- Every text with well-formed parts becomes its value: variables are replaced by their values, which are not expanded again, and two dollars by one; with an undefined variable
it is a ValueError. Missing from the documented property: the form with braces, which the code refuses (`braces_refused`). -/
theorem expand_parts_partial (env : List Char → Option (List Char)) (ps : List Part) (h : Parts ps) : expand env (render ps) = result (value env ps) := by
  induction ps with
  | nil => simp [render, value, result, expand]
  | cons p ps ih =>
    cases p with
    | lit c =>
      simp only [Parts] at h
      simp only [render, value]
      rw [expand_lit env c _ h.1, ih h.2]
      cases value env ps <;> simp [result, app]
    | dollar =>
      simp only [Parts] at h
      simp only [render, value]
      rw [expand_dollar, ih h]
      cases value env ps <;> simp [result, app]
    | var n =>
      simp only [Parts] at h
      simp only [render, value]
      rw [expand_var env n _ h.1 h.2.1, ih h.2.2]
      cases env n with
      | none => simp [sub, result]
      | some v => cases value env ps <;> simp [sub, result, app]

theorem take_all (l : List Char) (x : Char) (h : x ∈ l.takeWhile identChar) : identChar x = true := by
  induction l with
  | nil => simp at h
  | cons c l ih =>
    rw [List.takeWhile_cons] at h
    split at h
    · rename_i hc
      rcases List.mem_cons.1 h with rfl | h
      · exact hc
      · exact ih h
    · simp at h

theorem not_continues (l : List Char) : ¬ Continues (l.dropWhile identChar) := by
  induction l with
  | nil => simp [Continues]
  | cons c l ih =>
    rw [List.dropWhile_cons]
    split
    · exact ih
    · rename_i h; simpa [Continues] using h

/-- Every other text is refused. -/
theorem other_refused (env : List Char → Option (List Char)) (s : List Char) : (∃ ps, Parts ps ∧ render ps = s) ∨ expand env s = .error .valueError := by
  suffices ∀ n, ∀ s : List Char, s.length ≤ n → (∃ ps, Parts ps ∧ render ps = s) ∨ expand env s = .error .valueError from this s.length s (Nat.le_refl _)
  intro n
  induction n with
  | zero => intro s hs; exact Or.inl ⟨[], trivial, by
      have : s = [] := List.length_eq_zero_iff.1 (by omega)
      rw [this]; rfl⟩
  | succ n ih =>
    intro s hs
    cases s with
    | nil => exact Or.inl ⟨[], trivial, rfl⟩
    | cons c r =>
      by_cases hc : c = '$'
      · subst hc
        cases r with
        | nil => right; rw [expand, if_pos rfl]
        | cons d r =>
          simp only [List.length_cons] at hs
          by_cases hd : d = '$'
          · subst hd
            rcases ih r (by omega) with ⟨ps, h1, h2⟩ | h
            · exact Or.inl ⟨.dollar :: ps, h1, by simp [render, h2]⟩
            · right; rw [expand_dollar, h]; rfl
          · by_cases hi : identStart d = true
            · have hl := (List.dropWhile_sublist identChar (l := r)).length_le
              have hname : Name (d :: r.takeWhile identChar) := ⟨d, _, rfl, hi, fun x hx => take_all r x hx⟩
              have htext : '$' :: d :: r = '$' :: (d :: r.takeWhile identChar) ++ r.dropWhile identChar := by
                simp [List.takeWhile_append_dropWhile]
              rcases ih (r.dropWhile identChar) (by omega) with ⟨ps, h1, h2⟩ | h
              · exact Or.inl ⟨.var (d :: r.takeWhile identChar) :: ps, ⟨hname, by rw [h2]; exact not_continues r, h1⟩, by
                  rw [render, h2, htext]⟩
              · right
                rw [htext, expand_var env _ _ hname (not_continues r), h]
                cases env (d :: r.takeWhile identChar) <;> rfl
            · right
              rw [expand, if_pos rfl]
              simp only [if_neg hd, hi]
              rfl
      · simp only [List.length_cons] at hs
        rcases ih r (by omega) with ⟨ps, h1, h2⟩ | h
        · exact Or.inl ⟨.lit c :: ps, ⟨hc, h1⟩, by simp [render, h2]⟩
        · right; rw [expand_lit env c r hc, h]; rfl

/-- In particular a text without dollars stays, and doubling the dollars of any text gives it back. -/
theorem escaped (env : List Char → Option (List Char)) (s : List Char) :
    ('$' ∉ s → expand env s = .ok s) ∧ expand env (s.flatMap fun c => if c = '$' then ['$', '$'] else [c]) = .ok s := by
  induction s with
  | nil => simp [expand]
  | cons c s ih =>
    constructor
    · intro h
      simp only [List.mem_cons, not_or] at h
      rw [expand_lit env c s (fun e => h.1 e.symm), ih.1 h.2]; rfl
    · rw [List.flatMap_cons]
      by_cases hc : c = '$'
      · rw [if_pos hc, hc, List.cons_append, List.cons_append, List.nil_append, expand_dollar, ih.2]; rfl
      · rw [if_neg hc, List.cons_append, List.nil_append, expand_lit env c _ hc, ih.2]; rfl

/-- The form with braces, which is documented, is always refused, even for defined variables. -/
theorem braces_refused (env : List Char → Option (List Char)) (rest : List Char) (pre : List Char) (h : '$' ∉ pre) :
    expand env (pre ++ '$' :: '{' :: rest) = .error .valueError := by
  induction pre with
  | nil =>
    rw [List.nil_append, expand, if_pos rfl]
    have h1 : ¬ ('{' = '$') := by decide
    have h2 : identStart '{' = false := by decide
    simp [h1, h2]
  | cons c pre ih =>
    simp only [List.mem_cons, not_or] at h
    rw [List.cons_append, expand_lit env c _ (fun e => h.1 e.symm), ih h.2]; rfl

/-- The environment goes before the defaults; others have none. -/
theorem lookup_spec (environ : List Char → Option (List Char)) (tmp user n : List Char) :
    (∀ v, environ n = some v → lookup environ tmp user n = some v) ∧
    (environ n = none → n ∈ ["TMPDIR".toList, "TEMP".toList, "TMP".toList] → lookup environ tmp user n = some tmp) ∧
    (environ n = none → n = "USER".toList → lookup environ tmp user n = some user) ∧
    (environ n = none → n ∉ ["TMPDIR".toList, "TEMP".toList, "TMP".toList, "USER".toList] → lookup environ tmp user n = none) := by
  refine ⟨fun v h => by simp only [lookup, h], fun h hn => ?_, fun h hn => ?_, fun h hn => ?_⟩
  · simp only [lookup, h]
    exact if_pos (by simpa using hn)
  · subst hn
    simp only [lookup, h]
    rw [if_neg (by decide), if_pos trivial]
  · simp only [List.mem_cons, List.not_mem_nil, or_false, not_or] at hn
    simp only [lookup, h, hn, or_self, if_false]

def exEnv (n : List Char) : Option (List Char) := lookup (fun n => if n = "HOME".toList then some "/h$x".toList else none) "/tmp".toList "me".toList n
def exParts : List Part := [.var "HOME".toList, .lit '/', .var "USER".toList, .dollar, .lit 'x']
example : render exParts = "$HOME/$USER$$x".toList := by decide +kernel
example : value exEnv exParts = some "/h$x/me$x".toList := by decide +kernel
example : Parts exParts := by
  refine ⟨⟨'H', "OME".toList, rfl, by decide, by decide⟩, by simp [render, Continues]; decide, by decide, ⟨'U', "SER".toList, rfl, by decide, by decide⟩, ?_, by decide, trivial⟩
  simp [render, Continues]; decide

end Verif.EnvVars
