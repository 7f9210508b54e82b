import Verif.ConfigPy.Props
import Mathlib.Data.List.Forall2
/-
C105: reading values gives the same whether they come typed or as strings, copies, and the global config.
-/
namespace Verif.ConfigPy
open Verif.Py

/-! ### Lemmas -/

theorem contains_iff {V : Type} (d : Dict Str V) (k : Str) : d.contains k = (d.get? k).isSome := rfl

/-! ### Theorems -/

/-- C105: a key which is not there gives the default, for each way to read. -/
theorem read_missing (P : Python) (c : Cfg) (k : Str) (ht : c.typed.get? k = none) (hu : c.untyped.get? k = none) (d : Val) (i : Nat) (oi : Option Nat) (sep : Str) (dl : List Atom) (db : Bool) :
    c.has k = false ∧ c.value P k d oi sep = .ok d ∧ c.int P k d i = .ok d ∧ c.bool P k d i = .ok d ∧ c.list k dl = dl ∧ c.isTrue P k db = .ok (.at (.bool db)) := by
  simp [Cfg.has, Cfg.value, Cfg.int, Cfg.bool, Cfg.list, Cfg.isTrue, contains_iff, ht, hu, pure, Except.pure]

/-- C105: the default of `float` may be a string, and must be a number, else it raises. -/
theorem float_missing (P : Python) (c : Cfg) (k : Str) (ht : c.typed.get? k = none) (hu : c.untyped.get? k = none) (i : Nat) :
    (∀ q, c.float P k (.at (.flt q)) i = .ok (.at (.flt q))) ∧ (∀ n, c.float P k (.at (.int n)) i = .ok (.at (.int n))) ∧ c.float P k (.at .none) i = .ok (.at .none) ∧
      ∀ s q, P.toFloat s = some q → c.float P k (.at (.str s)) i = .ok (.at (.flt q)) := by
  refine ⟨?_, ?_, ?_, ?_⟩ <;> intros <;> simp_all [Cfg.float, Cfg.value, contains_iff, castFloat, assertOrNone, isNumber, bind, Except.bind]

/-- C105: an int: it makes no difference whether the config file has `k = n`, or the command line has its digits. -/
theorem int_same (P : Python) (c c' : Cfg) (k s : Str) (n : Int) (ht : c.typed.get? k = some (.at (.int n))) (ht' : c'.typed.get? k = none) (hu' : c'.untyped.get? k = some [s])
    (h1 : P.toInt s = some n) (h2 : P.strAtom (.int n) = s) (hs : s ≠ []) (d : Val) (sep : Str) (dl : List Atom) (db : Bool) :
    c.int P k d = c'.int P k d ∧ c.value P k d none sep = c'.value P k d none sep ∧ c.bool P k d = c'.bool P k d ∧ c.isTrue P k db = c'.isTrue P k db ∧
      c.intList P k dl = c'.intList P k dl ∧ c.int P k d = .ok (.at (.int n)) ∧ c.intList P k dl = .ok [.int n] := by
  have e1 : c.int P k d = .ok (.at (.int n)) := by
    simp [Cfg.int, contains_iff, ht, Cfg.typedValue, indexVal, assertOrNone, isInt, bind, Except.bind]
  have e2 : c'.int P k d = .ok (.at (.int n)) := by
    simp [Cfg.int, contains_iff, ht', hu', Cfg.value, parseInt, h1, bind, Except.bind]
  have e3 : c.bool P k d = .ok (.at (.bool (n ≠ 0))) := by
    simp [Cfg.bool, contains_iff, ht, Cfg.typedValue, indexVal, assertOrNone, intToBool, isBool, bind, Except.bind]
  have e4 : ∀ d, c'.bool P k d = .ok (.at (.bool (n ≠ 0))) := by
    intro d
    cases s with
    | nil => exact absurd rfl hs
    | cons a s =>
      simp [Cfg.bool, contains_iff, ht', hu', Cfg.value, untypedBool, toBool, h1, bind, Except.bind, Except.map]
  refine ⟨by rw [e1, e2], ?_, by rw [e3, e4], ?_, ?_, e1, ?_⟩
  · simp [Cfg.value, ht, ht', hu', join, Python.str, h2]
  · simp only [Cfg.isTrue, ht, ht', e4, truth]
  · simp [Cfg.intList, ht, ht', asList, Cfg.list, hu', atomToInt, h1, atomIsInt, Except.map, bind, Except.bind, pure, Except.pure, List.mapM_cons, List.mapM_nil]
  · simp [Cfg.intList, ht, asList, atomIsInt]

/-- C105: a string which is no int raises (and does not give some other number); neither does a string which is no bool; an empty string is the default as bool. -/
theorem text_raises (P : Python) (c : Cfg) (k s : Str) (ht : c.typed.get? k = none) (hu : c.untyped.get? k = some [s]) (h : P.toInt s = none) (d : Val) :
    c.int P k d = .error .valueError ∧
      (s = [] → c.bool P k d = .ok d) ∧
      (s ≠ [] → (∀ w ∈ ["true", "yes", "on", "1", "false", "no", "off", "0"], s.map Char.toLower ≠ w.toList) → c.bool P k d = .error .valueError) := by
  refine ⟨?_, ?_, ?_⟩
  · simp [Cfg.int, contains_iff, ht, hu, Cfg.value, parseInt, h, bind, Except.bind]
  · rintro rfl
    simp [Cfg.bool, contains_iff, ht, hu, Cfg.value, untypedBool, bind, Except.bind]
  · intro hs hw
    have e : toBool P s = .error .valueError := by
      unfold toBool
      rw [h]
      simp only
      rw [if_neg, if_neg]
      · simp only [List.mem_cons, List.not_mem_nil, or_false, lower] at hw ⊢
        rintro (h' | h' | h' | h')
        · exact hw "false" (by simp) h'
        · exact hw "no" (by simp) h'
        · exact hw "off" (by simp) h'
        · exact hw "0" (by simp) h'
      · simp only [List.mem_cons, List.not_mem_nil, or_false, lower] at hw ⊢
        rintro (h' | h' | h' | h')
        · exact hw "true" (by simp) h'
        · exact hw "yes" (by simp) h'
        · exact hw "on" (by simp) h'
        · exact hw "1" (by simp) h'
    cases s with
    | nil => exact absurd rfl hs
    | cons a s =>
      simp only [Cfg.bool, contains_iff, ht, hu, Option.isSome_some, Option.isSome_none, if_true, Cfg.value, bind, Except.bind, List.getElem?_cons_zero, untypedBool, e, Except.map]
      rfl

/-- C105: the same for a list of ints, of any length, read as a list, as string or by index. -/
theorem int_list_same (P : Python) (c c' : Cfg) (k : Str) (l : List Int) (ss : List Str) (ht : c.typed.get? k = some (.list (l.map Atom.int)) ∨ c.typed.get? k = some (.tuple (l.map Atom.int)))
    (ht' : c'.typed.get? k = none) (hu' : c'.untyped.get? k = some ss) (h1 : List.Forall₂ (fun n s => P.toInt s = some n ∧ P.strAtom (.int n) = s) l ss) (d : Val) (sep : Str) (dl : List Atom) (i : Nat) :
    c.intList P k dl = .ok (l.map Atom.int) ∧ c'.intList P k dl = .ok (l.map Atom.int) ∧ c.value P k d none sep = c'.value P k d none sep ∧
      (i < l.length → c.int P k d i = c'.int P k d i ∧ c.value P k d (some i) sep = c'.value P k d (some i) sep) := by
  have hmap : l.map (fun n => P.strAtom (.int n)) = ss := by
    clear ht ht' hu'
    induction h1 with
    | nil => rfl
    | cons h _ ih => rw [List.map_cons, h.2, ih]
  have hall : (l.map Atom.int).all atomIsInt = true := by simp [atomIsInt]
  have hm : (ss.map Atom.str).mapM (fun a => (atomToInt P a).map Atom.int) = .ok (l.map Atom.int) := by
    clear ht ht' hu' hmap hall
    induction h1 with
    | nil => rfl
    | cons h _ ih =>
      rw [List.map_cons, List.mapM_cons, ih]
      simp [atomToInt, h.1, Except.map, bind, Except.bind, pure, Except.pure]
  have hl : l.length = ss.length := h1.length_eq
  refine ⟨?_, ?_, ?_, ?_⟩
  · rcases ht with ht | ht <;> simp only [Cfg.intList, ht, asList, hall, if_true]
  · simp only [Cfg.intList, ht', Cfg.list, hu', hm]
  · have : (l.map Atom.int).map P.str = ss := by rw [List.map_map, ← hmap]; rfl
    rcases ht with ht | ht <;> simp only [Cfg.value, ht, ht', hu', this]
  · intro hi
    have hi' : i < ss.length := by omega
    have hp := (List.forall₂_iff_get.1 h1).2 i hi hi'
    simp only [List.get_eq_getElem] at hp
    have e : (l.map Atom.int)[i]? = some (.int l[i]) := by simp [hi]
    have e' : ss[i]? = some ss[i] := List.getElem?_eq_getElem hi'
    constructor
    · rcases ht with ht | ht <;>
      simp only [Cfg.int, contains_iff, ht, ht', hu', Option.isSome_some, Option.isSome_none, if_true, Cfg.typedValue, Option.getD_some, indexVal, e, Cfg.value, e', parseInt, hp.1, bind, Except.bind,
        assertOrNone, isInt] <;> simp
    · rcases ht with ht | ht <;> simp only [Cfg.value, ht, ht', hu', e, e', Python.str, hp.2]

/-- C105: a bool: `True` in the config file is the same as one of the words on the command line. -/
theorem bool_same (P : Python) (c c' : Cfg) (k s : Str) (b : Bool) (ht : c.typed.get? k = some (.at (.bool b))) (ht' : c'.typed.get? k = none) (hu' : c'.untyped.get? k = some [s])
    (hs : lower s ∈ (if b then ["true".toList, "yes".toList, "on".toList] else ["false".toList, "no".toList, "off".toList])) (hn : P.toInt s = none) (d : Val) (db : Bool) :
    c.bool P k d = .ok (.at (.bool b)) ∧ c'.bool P k d = .ok (.at (.bool b)) ∧ c.isTrue P k db = .ok (.at (.bool b)) ∧ c'.isTrue P k db = .ok (.at (.bool b)) := by
  have e1 : c.bool P k d = .ok (.at (.bool b)) := by
    simp [Cfg.bool, contains_iff, ht, Cfg.typedValue, indexVal, assertOrNone, intToBool, isBool, bind, Except.bind]
  have hs0 : s ≠ [] := by
    intro h
    subst h
    cases b <;> simp [lower] at hs
  have e2 : ∀ d, c'.bool P k d = .ok (.at (.bool b)) := by
    intro d
    have hb : toBool P s = .ok b := by
      unfold toBool
      rw [hn]
      cases b with
      | true =>
        simp only [if_true] at hs
        rw [if_pos]
        simp only [List.mem_cons, List.not_mem_nil, or_false] at hs ⊢
        tauto
      | false =>
        simp only [Bool.false_eq_true, if_false] at hs
        rw [if_neg, if_pos]
        · simp only [List.mem_cons, List.not_mem_nil, or_false] at hs ⊢
          tauto
        · simp only [List.mem_cons, List.not_mem_nil, or_false] at hs ⊢
          rcases hs with hs | hs | hs <;> rw [hs] <;> decide
    cases s with
    | nil => exact absurd rfl hs0
    | cons a s =>
      simp only [Cfg.bool, contains_iff, ht', hu', Option.isSome_some, Option.isSome_none, if_true, Cfg.value, bind, Except.bind, List.getElem?_cons_zero, untypedBool, hb, Except.map]
      simp
  refine ⟨e1, e2 d, ?_, ?_⟩
  · simp [Cfg.isTrue, ht, truth]
  · simp only [Cfg.isTrue, ht', e2]

/-- C105: a number with a fraction. -/
theorem float_same (P : Python) (c c' : Cfg) (k s : Str) (q : Rat) (ht : c.typed.get? k = some (.at (.flt q)) ∨ c.typed.get? k = some (.at (.str s))) (ht' : c'.typed.get? k = none)
    (hu' : c'.untyped.get? k = some [s]) (h1 : P.toFloat s = some q) (d : Val) : c.float P k d = .ok (.at (.flt q)) ∧ c'.float P k d = .ok (.at (.flt q)) := by
  constructor
  · rcases ht with ht | ht <;> simp [Cfg.float, contains_iff, ht, Cfg.typedValue, indexVal, castFloat, h1, assertOrNone, isNumber, bind, Except.bind]
  · simp [Cfg.float, contains_iff, ht', Cfg.value, hu', castFloat, h1, assertOrNone, isNumber, bind, Except.bind]

/-- C105: a typed None is the default for `value` and `list`, but None for `int`, `float` and `bool`. -/
theorem none_differs (P : Python) (c : Cfg) (k : Str) (ht : c.typed.get? k = some (.at .none)) (d : Val) (dl : List Atom) (sep : Str) :
    c.value P k d none sep = .ok d ∧ c.list k dl = dl ∧ c.intList P k dl = .ok dl ∧ c.int P k d = .ok (.at .none) ∧ c.float P k d = .ok (.at .none) ∧ c.bool P k d = .ok (.at .none) := by
  simp [Cfg.value, Cfg.list, Cfg.intList, Cfg.int, Cfg.float, Cfg.bool, contains_iff, ht, asList, Cfg.typedValue, indexVal, castFloat, assertOrNone, intToBool, bind, Except.bind]

/-- C105: a typed string is true for `is_true` if it is not empty, whatever it says; `bool` raises. From the command line it is what it says. -/
theorem str_is_true (P : Python) (c : Cfg) (k s : Str) (ht : c.typed.get? k = some (.at (.str s))) (d : Val) (db : Bool) :
    c.isTrue P k db = .ok (.at (.bool (s ≠ []))) ∧ c.bool P k d = .error .assertion := by
  simp [Cfg.isTrue, Cfg.bool, contains_iff, ht, truth, Cfg.typedValue, indexVal, assertOrNone, intToBool, isBool, bind, Except.bind]

/-- C105: a string with an index: from the config file it is a character, from the command line the whole entry. -/
theorem index_differs (P : Python) (c c' : Cfg) (k s : Str) (ch : Char) (ht : c.typed.get? k = some (.at (.str (ch :: s)))) (ht' : c'.typed.get? k = none) (hu' : c'.untyped.get? k = some [ch :: s])
    (d : Val) (sep : Str) : c.value P k d (some 0) sep = .ok (.at (.str [ch])) ∧ c'.value P k d (some 0) sep = .ok (.at (.str (ch :: s))) := by
  simp [Cfg.value, ht, ht', hu']

/-- C105: the copy of a config in another process: typed values are the same. -/
theorem copy_typed (P : Python) (c : Cfg) (k : Str) (x : Val) (ht : c.typed.get? k = some x) (d : Val) (i : Nat) (oi : Option Nat) (sep : Str) (dl : List Atom) :
    c.copy.has k = true ∧ c.copy.value P k d oi sep = c.value P k d oi sep ∧ c.copy.int P k d i = c.int P k d i ∧ c.copy.bool P k d i = c.bool P k d i ∧ c.copy.float P k d i = c.float P k d i ∧
      c.copy.list k dl = c.list k dl ∧ c.copy.intList P k dl = c.intList P k dl := by
  have e : c.copy.typed = c.typed := rfl
  refine ⟨?_, ?_, ?_, ?_, ?_, ?_, ?_⟩
  · simp [Cfg.has, contains_iff, e, ht]
  · simp only [Cfg.value, e, ht]
  · simp only [Cfg.int, Cfg.typedValue, contains_iff, e, ht, Option.isSome_some, if_true]
  · simp only [Cfg.bool, Cfg.typedValue, contains_iff, e, ht, Option.isSome_some, if_true]
  · simp only [Cfg.float, Cfg.typedValue, contains_iff, e, ht, Option.isSome_some, if_true]
  · simp only [Cfg.list, e, ht]
  · simp only [Cfg.intList, e, ht]

/-- C105: but options which are only on the command line are lost in the copy. -/
theorem copy_loses (P : Python) (c : Cfg) (k : Str) (l : List Str) (ht : c.typed.get? k = none) (hu : c.untyped.get? k = some l) (d : Val) (sep : Str) :
    c.has k = true ∧ c.value P k d none sep = .ok (.at (.str (join sep l))) ∧ c.copy.has k = false ∧ c.copy.value P k d none sep = .ok d := by
  have e : c.copy.typed = c.typed := rfl
  have e2 : c.copy.untyped = [] := rfl
  simp [Cfg.has, contains_iff, Cfg.value, e, e2, ht, hu, Dict.get?]

/-- C105: the global config within a context, and after it: without TensorFlow the one from before, whatever the body does and whether it raises. -/
theorem ctx_restores {C E A : Type} (g : Glob C) (hg : g.tf = false) (c : C) (body : Glob C → Except E A × Glob C) (hb : ∀ g, (body g).2.tf = g.tf) :
    (g.set (some c)).get = some c ∧ (g.ctx (some c) body).2.get = g.get := by
  have : (body (g.set (some c))).2.tf = false := by rw [hb]; exact hg
  refine ⟨by simp [Glob.get, Glob.set, hg], ?_⟩
  simp only [Glob.get, Glob.ctx, this, hg]
  rfl

/-- C105: with TensorFlow, the config of the context stays after the context. -/
theorem ctx_leaks {C E A : Type} (g : Glob C) (hg : g.tf = true) (c : C) (body : Glob C → Except E A × Glob C) (hb : ∀ g, (body g).2 = g) : (g.ctx (some c) body).2.get = some c := by
  simp [Glob.get, Glob.set, Glob.ctx, hg, hb]

/-! ### Examples -/

def exTyped : Cfg := { Cfg.empty with typed := [("n".toList, .at (.int 5)), ("l".toList, .tuple [.int 5, .int 5]), ("b".toList, .at (.bool true)), ("s".toList, .at (.str "false".toList))] }
def exUntyped : Cfg := { Cfg.empty with untyped := [("n".toList, ["5".toList]), ("l".toList, ["5".toList, "5".toList]), ("b".toList, ["Yes".toList])] }

example : exTyped.typed.get? "n".toList = some (.at (.int 5)) ∧ exUntyped.typed.get? "n".toList = none ∧ exUntyped.untyped.get? "n".toList = some ["5".toList] ∧ exPy.toInt "5".toList = some 5 ∧
    exPy.strAtom (.int 5) = "5".toList := by decide +kernel

example : lower "Yes".toList ∈ ["true".toList, "yes".toList, "on".toList] ∧ exPy.toInt "Yes".toList = none := by decide +kernel

example : exTyped.typed.get? "s".toList = some (.at (.str "false".toList)) := by decide +kernel

end Verif.ConfigPy
