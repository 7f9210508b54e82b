import Verif.TaskGen.Xml
/-
C144: the XML task.
-/
namespace Verif.TaskGen
open Verif Verif.Py

/-- A tag of the task: not empty, of letters. -/
def Tag (t : List Char) : Prop := t ≠ [] ∧ ∀ c ∈ t, c ≠ ' ' ∧ c ≠ '<' ∧ c ≠ '>' ∧ c ≠ '/'

/-- The choices are possible: tags are tags, and only open ones are closed. -/
def Possible : List (List Char) → List Ev → Prop
  | _, [] => True
  | st, .opn tag :: evs => Tag tag ∧ Possible (tag :: st) evs
  | [], .cls :: _ => False
  | _ :: st, .cls :: evs => Possible st evs

/-- What is to be predicted: nothing in an opening tag but the begin of the next one; in a closing tag after the slash the tag and its end, and the begin of the next one. -/
def want : List (List Char) → List Ev → List Char
  | _, [] => []
  | st, .opn tag :: evs => List.replicate (tag.length + 1) ' ' ++ '<' :: want (tag :: st) evs
  | [], .cls :: evs => want [] evs
  | tag :: st, .cls :: evs => ' ' :: tag ++ '>' :: '<' :: want st evs

def prepend (l : List Char) (r : Res (List Char)) : Res (List Char) :=
  match r with
  | .error e => .error e
  | .ok l' => .ok (l ++ l')

theorem run_step (state : Nat) (stack : List (List Char)) (c : Char) (cs : List Char) (state' : Nat) (stack' : List (List Char)) (x : Char)
    (h : stepXml state stack c = .ok (state', stack', x)) : runXml state stack (c :: cs) = prepend [x] (runXml state' stack' cs) := by
  rw [runXml, h]
  simp only [prepend]
  cases runXml state' stack' cs <;> rfl

theorem prepend_prepend (a b : List Char) (r : Res (List Char)) : prepend a (prepend b r) = prepend (a ++ b) r := by
  cases r <;> simp [prepend]

theorem run_open_rest (t : List Char) (ht : ∀ c ∈ t, c ≠ ' ' ∧ c ≠ '<' ∧ c ≠ '>' ∧ c ≠ '/') (done : List Char) (st : List (List Char)) (rest : List Char) :
    runXml 3 (done :: st) (t ++ '>' :: rest) = prepend (List.replicate t.length ' ' ++ ['<']) (runXml 1 ((done ++ t) :: st) rest) := by
  induction t generalizing done with
  | nil =>
    rw [List.nil_append, run_step 3 _ '>' rest 1 (done :: st) '<' (by simp [stepXml])]
    simp
  | cons c t ih =>
    obtain ⟨h1, h2, h3, h4⟩ := ht c (by simp)
    rw [List.cons_append, run_step 3 _ c _ 3 ((done ++ [c]) :: st) ' ' (by simp [stepXml, h1, h3]), ih (fun c hc => ht c (by simp [hc])), prepend_prepend]
    simp [List.replicate_succ]

theorem run_open (t : List Char) (ht : Tag t) (st : List (List Char)) (rest : List Char) :
    runXml 1 st ('<' :: t ++ '>' :: rest) = prepend (List.replicate (t.length + 1) ' ' ++ ['<']) (runXml 1 (t :: st) rest) := by
  cases t with
  | nil => exact absurd rfl ht.1
  | cons c t =>
    obtain ⟨h1, h2, h3, h4⟩ := ht.2 c (by simp)
    rw [List.cons_append, run_step 1 st '<' _ 2 st ' ' (by simp [stepXml]), List.cons_append,
      run_step 2 st c _ 3 ([c] :: st) ' ' (by simp [stepXml, h1, h2, h3, h4]), run_open_rest t (fun c hc => ht.2 c (by simp [hc])), prepend_prepend, prepend_prepend]
    simp [List.replicate_succ]

theorem run_close_rest (t : List Char) (ht : ∀ c ∈ t, c ≠ ' ' ∧ c ≠ '<' ∧ c ≠ '>' ∧ c ≠ '/') (x : Char) (hx : x ≠ ' ' ∧ x ≠ '>') (st : List (List Char)) (rest : List Char) :
    runXml 4 (t :: st) (x :: t ++ '>' :: rest) = prepend (t ++ ['>', '<']) (runXml 1 st rest) := by
  induction t generalizing x with
  | nil =>
    rw [List.cons_append, List.nil_append, run_step 4 _ x _ 0 st '>' (by simp [stepXml, hx.1, hx.2]), run_step 0 st '>' rest 1 st '<' (by simp [stepXml]), prepend_prepend]
    rfl
  | cons c t ih =>
    obtain ⟨h1, _, h3, _⟩ := ht c (by simp)
    rw [List.cons_append, run_step 4 _ x _ 4 (t :: st) c (by simp [stepXml, hx.1, hx.2]), ih (fun c hc => ht c (by simp [hc])) c ⟨h1, h3⟩, prepend_prepend]
    simp

theorem run_close (t : List Char) (ht : Tag t) (st : List (List Char)) (rest : List Char) :
    runXml 1 (t :: st) ('<' :: '/' :: t ++ '>' :: rest) = prepend (' ' :: t ++ ['>', '<']) (runXml 1 st rest) := by
  cases t with
  | nil => exact absurd rfl ht.1
  | cons c t =>
    obtain ⟨h1, _, h3, _⟩ := ht.2 c (by simp)
    have hr := run_close_rest t (fun c hc => ht.2 c (by simp [hc])) c ⟨h1, h3⟩ st rest
    rw [List.cons_append, run_step 1 ((c :: t) :: st) '<' _ 2 ((c :: t) :: st) ' ' (by simp [stepXml]), List.cons_append, run_step 2 ((c :: t) :: st) '/' _ 4 (t :: st) c (by simp [stepXml]),
      hr, prepend_prepend, prepend_prepend]
    simp

theorem run_events (evs : List Ev) (st : List (List Char)) (hst : ∀ t ∈ st, Tag t) (hp : Possible st evs) : runXml 1 st (inXml st evs) = .ok (want st evs) := by
  induction evs generalizing st with
  | nil => simp [inXml, want, runXml]
  | cons e evs ih =>
    cases e with
    | opn t =>
      simp only [Possible] at hp
      have := ih (t :: st) (fun x hx => (List.mem_cons.1 hx).elim (fun h => h ▸ hp.1) (hst x)) hp.2
      simp only [inXml, want]
      rw [run_open t hp.1, this]
      simp [prepend]
    | cls =>
      cases st with
      | nil => exact absurd hp (by simp [Possible])
      | cons t st =>
        have := ih st (fun x hx => hst x (by simp [hx])) (by simpa [Possible] using hp)
        simp only [inXml, want]
        rw [run_close t (hst t (by simp)), this]
        simp [prepend]

/-- The XML task: no generated input is refused, and the output is what can be predicted of it. -/
theorem task_xml (evs : List Ev) (hp : Possible [] evs) : outXml (' ' :: inXml [] evs) = .ok ('<' :: want [] evs) := by
  rw [outXml, run_step 0 [] ' ' _ 1 [] '<' (by simp [stepXml]), run_events evs [] (by simp) hp]
  rfl

/-- Every character is to be predicted as the next one or as unknown; the last one is the begin of a next tag. -/
theorem want_predicts (evs : List Ev) (st : List (List Char)) (hp : Possible st evs) :
    (want st evs).length = (inXml st evs).length ∧
    ∀ (k : Nat) (x : Char), ('<' :: want st evs)[k]? = some x → x ≠ ' ' → (inXml st evs)[k]? = some x ∨ (k = (inXml st evs).length ∧ x = '<') := by
  induction evs generalizing st with
  | nil =>
    refine ⟨rfl, ?_⟩
    intro k x hk _
    cases k with
    | zero => simp only [List.getElem?_cons_zero, Option.some.injEq] at hk; exact Or.inr ⟨rfl, hk.symm⟩
    | succ k => simp [want] at hk
  | cons e evs ih =>
    -- one event: the text `a`, which begins a tag, and the output `b` before the next begin
    have key : ∀ (a b : List Char) (st' : List (List Char)), Possible st' evs → a.length = b.length + 1 → a[0]? = some '<' →
        (∀ k x, b[k]? = some x → x ≠ ' ' → a[k + 1]? = some x) → inXml st (e :: evs) = a ++ inXml st' evs → want st (e :: evs) = b ++ '<' :: want st' evs →
        (want st (e :: evs)).length = (inXml st (e :: evs)).length ∧
        ∀ (k : Nat) (x : Char), ('<' :: want st (e :: evs))[k]? = some x → x ≠ ' ' →
          (inXml st (e :: evs))[k]? = some x ∨ (k = (inXml st (e :: evs)).length ∧ x = '<') := by
      intro a b st' hp' hlen h0 hb hi hw
      obtain ⟨i1, i2⟩ := ih st' hp'
      rw [hi, hw]
      refine ⟨by simp [i1]; omega, ?_⟩
      intro k x hk hx
      cases k with
      | zero =>
        simp only [List.getElem?_cons_zero, Option.some.injEq] at hk
        left
        rw [List.getElem?_append_left (by omega), h0, hk]
      | succ k =>
        simp only [List.getElem?_cons_succ] at hk
        by_cases hkb : k < b.length
        · rw [List.getElem?_append_left hkb] at hk
          left
          rw [List.getElem?_append_left (by omega)]
          exact hb k x hk hx
        · rw [List.getElem?_append_right (by omega)] at hk
          rcases i2 (k - b.length) x hk hx with h | ⟨h, h'⟩
          · left
            rw [List.getElem?_append_right (by omega), ← h]
            congr 1; omega
          · right
            refine ⟨?_, h'⟩
            rw [List.length_append]; omega
    cases e with
    | opn t =>
      simp only [Possible] at hp
      refine key ('<' :: t ++ ['>']) (List.replicate (t.length + 1) ' ') (t :: st) hp.2 (by simp) rfl ?_ (by simp [inXml]) (by simp [want])
      intro k x hk hx
      have := List.eq_of_mem_replicate (List.mem_of_getElem? hk)
      exact absurd this hx
    | cls =>
      cases st with
      | nil => exact absurd hp (by simp [Possible])
      | cons t st =>
        refine key ('<' :: '/' :: t ++ ['>']) (' ' :: t ++ ['>']) st (by simpa [Possible] using hp) (by simp) rfl ?_ (by simp [inXml]) (by simp [want])
        intro k x hk hx
        cases k with
        | zero => simp at hk; exact absurd hk.symm hx
        | succ k => simpa using hk

example : Possible [] [.opn ['a', 'b'], .opn ['c'], .cls, .cls] := by simp [Possible, Tag]
example : inXml [] [.opn ['a', 'b'], .opn ['c'], .cls, .cls] = "<ab><c></c></ab>".toList := by decide +kernel
example : outXml " <ab><c></c></ab>".toList = .ok "<   <  < c>< ab><".toList := by decide +kernel
example : outXml " <a></a></a>".toList = .error .assertion := by decide +kernel

end Verif.TaskGen
