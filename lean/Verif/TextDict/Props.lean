import Verif.TextDict.Model
import Mathlib.Tactic.Linarith
/-
C128: text dicts as datasets.
-/
namespace Verif.TextDict
open Verif.Py

/-- Parts of given lengths, one after the other. -/
def split {α : Type} : List Nat → List α → List (List α)
  | [], _ => []
  | n :: t, l => l.take n :: split t (l.drop n)

/-- `x` is the first one with the highest score. -/
def IsBest (l : List (ℚ × S)) (x : ℚ × S) : Prop := ∃ i, l[i]? = some x ∧ (∀ y ∈ l, y.1 ≤ x.1) ∧ ∀ (j : Nat) (y : ℚ × S), j < i → l[j]? = some y → y.1 < x.1

theorem best_none (l : List (ℚ × S)) : best l = none ↔ l = [] := by
  cases l with
  | nil => simp [best]
  | cons x t =>
    unfold best
    cases best t with
    | none => simp
    | some y =>
      simp only
      split <;> simp

theorem best_spec : ∀ (l : List (ℚ × S)) (x : ℚ × S), best l = some x → IsBest l x := by
  intro l
  induction l with
  | nil => intro x h; cases h
  | cons a t ih =>
    intro x h
    unfold best at h
    cases hb : best t with
    | none =>
      rw [hb] at h
      simp only [Option.some.injEq] at h
      subst h
      have : t = [] := (best_none t).1 hb
      subst this
      exact ⟨0, rfl, by simp, by intro j y hj; omega⟩
    | some y =>
      rw [hb] at h
      simp only at h
      obtain ⟨i, h1, h2, h3⟩ := ih y hb
      by_cases hay : a.1 < y.1
      · rw [if_pos hay, Option.some.injEq] at h
        subst h
        refine ⟨i + 1, by simpa using h1, ?_, ?_⟩
        · intro z hz
          rcases List.mem_cons.1 hz with heq | hz
          · rw [heq]; exact hay.le
          · exact h2 z hz
        · intro j z hj hz
          cases j with
          | zero =>
            simp only [List.getElem?_cons_zero, Option.some.injEq] at hz
            rw [← hz]
            exact hay
          | succ j => exact h3 j z (by omega) (by simpa using hz)
      · rw [if_neg hay, Option.some.injEq] at h
        subst h
        refine ⟨0, rfl, ?_, by intro j z hj; omega⟩
        intro z hz
        rcases List.mem_cons.1 hz with heq | hz
        · rw [heq]
        · have := h2 z hz
          linarith [not_lt.1 hay]

theorem encodeAll_spec (vocab : S → Res (List Nat)) : ∀ (l : List (ℚ × S)) (r : List (List Nat)), encodeAll vocab l = .ok r → l.map (fun x => vocab x.2) = r.map Except.ok := by
  intro l
  induction l with
  | nil =>
    intro r h
    simp only [encodeAll, Except.ok.injEq] at h
    subst h
    rfl
  | cons x t ih =>
    intro r h
    unfold encodeAll at h
    cases hv : vocab x.2 with
    | error e => rw [hv] at h; cases h
    | ok a =>
      rw [hv] at h
      simp only [bind, Except.bind] at h
      cases hr : encodeAll vocab t with
      | error e => rw [hr] at h; cases h
      | ok r' =>
        rw [hr] at h
        simp only [Except.ok.injEq] at h
        subst h
        simp [hv, ih r' hr]

theorem split_flatten {α : Type} : ∀ ls : List (List α), split (ls.map List.length) ls.flatten = ls := by
  intro ls
  induction ls with
  | nil => rfl
  | cons a t ih => simp [split, ih]

/-- The features of a list: all labels of all texts, which can be taken apart again by the lengths; all scores; and the labels of the best text, which are those at the first highest score. -/
theorem beam_features {c : Cfg} (hc : c.single = false) {l : List (ℚ × S)} {f : Feat} (h : features c (.beam l) = .ok f) :
    (split f.lens f.flat).map Except.ok = l.map (fun x => c.vocab x.2) ∧ f.lens.sum = f.flat.length ∧ f.scores = l.map Prod.fst ∧
    (∃ x, IsBest l x ∧ c.vocab x.2 = .ok f.data) ∧
    ∃ (i : Nat) (s : ℚ), f.scores[i]? = some s ∧ (∀ s' ∈ f.scores, s' ≤ s) ∧ (split f.lens f.flat)[i]? = some f.data ∧ ∀ (j : Nat) (s' : ℚ), j < i → f.scores[j]? = some s' → s' < s := by
  unfold features at h
  rw [hc] at h
  simp only [Bool.false_eq_true, if_false] at h
  cases hb : best l with
  | none => rw [hb] at h; cases h
  | some b =>
    rw [hb] at h
    simp only at h
    cases hv : c.vocab b.2 with
    | error e => rw [hv] at h; cases h
    | ok d =>
      rw [hv] at h
      simp only [bind, Except.bind] at h
      cases he : encodeAll c.vocab l with
      | error e => rw [he] at h; cases h
      | ok ls =>
        rw [he] at h
        simp only [Except.ok.injEq] at h
        subst h
        have henc := encodeAll_spec c.vocab l ls he
        obtain ⟨i, h1, h2, h3⟩ := best_spec l b hb
        have hsplit : split (ls.map List.length) ls.flatten = ls := split_flatten ls
        refine ⟨?_, ?_, rfl, ⟨b, ⟨i, h1, h2, h3⟩, hv⟩, ?_⟩
        · simp only [hsplit]
          exact henc.symm
        · simp only [List.length_flatten]
        · refine ⟨i, b.1, ?_, ?_, ?_, ?_⟩
          · simp [h1]
          · intro s' hs'
            obtain ⟨y, hy, rfl⟩ := List.mem_map.1 hs'
            exact h2 y hy
          · simp only [hsplit]
            have := congrArg (fun l => l[i]?) henc
            simp only [List.getElem?_map, h1, Option.map_some, hv] at this
            cases hl : ls[i]? with
            | none => rw [hl] at this; cases this
            | some x =>
              rw [hl] at this
              simp only [Option.map_some, Option.some.injEq, Except.ok.injEq] at this
              rw [this]
          · intro j s' hj hs'
            simp only [List.getElem?_map, Option.map_eq_some_iff] at hs'
            obtain ⟨y, hy, rfl⟩ := hs'
            exact h3 j y hj hy

/-- It works for each list which is not empty, when all texts can be encoded. -/
theorem beam_ok {c : Cfg} (hc : c.single = false) (l : List (ℚ × S)) (hne : l ≠ []) (hv : ∀ x ∈ l, ∃ r, c.vocab x.2 = .ok r) : ∃ f, features c (.beam l) = .ok f := by
  unfold features
  rw [hc]
  simp only [Bool.false_eq_true, if_false]
  cases hb : best l with
  | none => exact absurd ((best_none l).1 hb) hne
  | some b =>
    obtain ⟨i, h1, _, _⟩ := best_spec l b hb
    obtain ⟨d, hd⟩ := hv b (List.mem_of_getElem? h1)
    have henc : ∃ ls, encodeAll c.vocab l = .ok ls := by
      clear hb h1 hd hne
      rename_i h2 h3
      clear h2 h3
      induction l with
      | nil => exact ⟨[], rfl⟩
      | cons x t ih =>
        obtain ⟨r, hr⟩ := hv x (by simp)
        obtain ⟨ls, hls⟩ := ih (fun y hy => hv y (by simp [hy]))
        exact ⟨r :: ls, by simp only [encodeAll, hr, hls, bind, Except.bind]⟩
    obtain ⟨ls, hls⟩ := henc
    exact ⟨_, by simp only [hd, hls, bind, Except.bind]; rfl⟩

/-- A single text. -/
theorem single_features {c : Cfg} (hc : c.single = true) (t : S) : features c (.text t) = (c.vocab t).map (fun d => ⟨d, [], [], []⟩) := by
  unfold features
  rw [hc]
  simp only [if_true]
  cases c.vocab t <;> rfl

/-- An empty list is only found by the check when it is the first one; otherwise it is an error when it is read. -/
theorem empty_beam_error {c : Cfg} (hc : c.single = false) : features c (.beam []) = .error .valueError := by
  unfold features
  rw [hc]
  rfl

/-! ## Loading and orders -/

/-- What is loaded is the file. -/
def Loaded (c : Cfg) (s : St) : Prop := s.values = some (c.file.map Prod.snd) ∧ s.tags = some (c.file.map Prod.fst)

/-- Nothing, or the file: the states which can be there. -/
def Good (c : Cfg) (s : St) : Prop := Loaded c s ∨ (s.values = none ∧ s.tags = none)

theorem load_spec {c : Cfg} {s s' : St} (hg : Good c s) (h : load c s = .ok s') : Loaded c s' ∧ s'.order = s.order ∧ s'.numSeqs = s.numSeqs := by
  unfold load at h
  rcases hg with hl | ⟨h1, h2⟩
  · rw [hl.1] at h
    simp only [Except.ok.injEq] at h
    subst h
    exact ⟨hl, rfl, rfl⟩
  · rw [h1] at h
    simp only at h
    cases hc : checkFirst c.single c.file with
    | error e => rw [hc] at h; cases h
    | ok u =>
      rw [hc] at h
      simp only [bind, Except.bind, Except.ok.injEq] at h
      subst h
      exact ⟨⟨rfl, rfl⟩, rfl, rfl⟩

/-- The lengths by which sequences are sorted: the number of characters, of all texts for lists. -/
def SpecLen (c : Cfg) (i : Nat) : Nat :=
  match (c.file.map Prod.snd)[i]? with
  | some (.text t) => if c.single then t.length else 0
  | some (.beam l) => if c.single then l.length else (l.map (fun x => x.2.length)).sum
  | none => 0

theorem seqLen_spec (c : Cfg) : seqLen c.single (c.file.map Prod.snd) = SpecLen c := by
  funext i
  unfold seqLen SpecLen
  cases (c.file.map Prod.snd)[i]? with
  | none => rfl
  | some v => cases v <;> rfl

/-- The order of an epoch is the one for the lengths of all entries; a given order is taken as it is, a list of tags is refused; with nothing there is no sequence. -/
theorem init_order {c : Cfg} {s : St} (hg : Good c s) :
    (∀ (e : Nat) (s' : St), initSeqOrder c s (some e) none none = .ok s' → Loaded c s' ∧ s'.order = some (c.order e c.file.length (SpecLen c)) ∧ s'.numSeqs = some (c.order e c.file.length (SpecLen c)).length) ∧
    (∀ e o, initSeqOrder c s e none (some o) = .ok { s with order := some o, numSeqs := some o.length }) ∧ (∀ e l, initSeqOrder c s e (some l) none = .error .notImplemented) ∧
    initSeqOrder c s none none none = .ok { s with numSeqs := some 0 } := by
  refine ⟨?_, ?_, ?_, rfl⟩
  · intro e s' h
    unfold initSeqOrder at h
    simp only [Option.isNone_some, Bool.false_and, Bool.false_eq_true, if_false] at h
    cases hl : load c s with
    | error err => rw [hl] at h; cases h
    | ok s1 =>
      rw [hl] at h
      obtain ⟨l1, _, _⟩ := load_spec hg hl
      simp only [bind, Except.bind, Except.ok.injEq, l1.1, Option.getD_some, List.length_map, seqLen_spec] at h
      subst h
      exact ⟨⟨rfl, l1.2⟩, rfl, rfl⟩
  · intro e o
    unfold initSeqOrder
    simp
  · intro e l
    unfold initSeqOrder
    simp

/-- Reading sequence `i` gives tag and features of the entry at the place which the order has for it. -/
theorem collect_loaded {c : Cfg} {s : St} (hl : Loaded c s) {o : List Nat} (ho : s.order = some o) (i j : Nat) (hi : o[i]? = some j) (tag : S) (v : Val) (hj : c.file[j]? = some (tag, v)) :
    collect c s i = (features c v).map (fun f => (tag, f)) ∧ getTag c s i = .ok (s, tag) := by
  have hload : load c s = .ok s := by
    unfold load
    rw [hl.1]
  constructor
  · unfold collect
    simp only [sub, ho, hi, hl.1, hl.2, List.getElem?_map, hj, Option.map_some, bind, Except.bind]
    cases features c v <;> rfl
  · unfold getTag
    simp only [hload, sub, ho, hi, hl.2, List.getElem?_map, hj, Option.map_some, bind, Except.bind]

/-- All sequences of an epoch. -/
def readAll (c : Cfg) (s : St) (n : Nat) : List (Res (S × Feat)) := (List.range n).map (collect c s)

/-- When the order of an epoch has each entry once, each entry of the file is read once, with its tag. -/
theorem epoch_each_once {c : Cfg} {s s' : St} (hg : Good c s) (e : Nat) (hperm : (c.order e c.file.length (SpecLen c)).Perm (List.range c.file.length)) (h : initSeqOrder c s (some e) none none = .ok s') :
    s'.numSeqs = some c.file.length ∧ (readAll c s' c.file.length).Perm (c.file.map (fun tv => (features c tv.2).map (fun f => (tv.1, f)))) := by
  obtain ⟨hl, ho, hn⟩ := (init_order hg).1 e s' h
  have hlen : (c.order e c.file.length (SpecLen c)).length = c.file.length := by
    have := hperm.length_eq
    simpa using this
  refine ⟨by rw [hn, hlen], ?_⟩
  generalize hO : c.order e c.file.length (SpecLen c) = O at ho hn hlen hperm
  -- what is read, by the order
  let g : Nat → Res (S × Feat) := fun j => match c.file[j]? with
    | some tv => (features c tv.2).map (fun f => (tv.1, f))
    | none => .error .indexError
  have h1 : readAll c s' c.file.length = O.map g := by
    apply List.ext_getElem?
    intro i
    unfold readAll
    simp only [List.getElem?_map]
    by_cases hi : i < c.file.length
    · have hiO : i < O.length := by rw [hlen]; exact hi
      have hOi : O[i]? = some O[i] := List.getElem?_eq_getElem hiO
      have hmem : O[i] < c.file.length := by
        have := hperm.mem_iff.1 (List.getElem_mem hiO)
        simpa using this
      have hf : c.file[O[i]]? = some c.file[O[i]] := List.getElem?_eq_getElem hmem
      rw [List.getElem?_range hi, hOi]
      simp only [Option.map_some]
      rw [(collect_loaded hl ho i O[i] hOi c.file[O[i]].1 c.file[O[i]].2 hf).1]
      simp only [g, hf]
    · have hiO : ¬ i < O.length := by rw [hlen]; exact hi
      rw [List.getElem?_eq_none (by simpa using hi), List.getElem?_eq_none (by omega)]
      rfl
  have h2 : (List.range c.file.length).map g = c.file.map (fun tv => (features c tv.2).map (fun f => (tv.1, f))) := by
    apply List.ext_getElem?
    intro i
    simp only [List.getElem?_map]
    by_cases hi : i < c.file.length
    · rw [List.getElem?_range hi, List.getElem?_eq_getElem hi]
      simp only [Option.map_some, g, List.getElem?_eq_getElem hi]
    · rw [List.getElem?_eq_none (by simpa using hi), List.getElem?_eq_none (by omega)]
      rfl
  rw [h1, ← h2]
  exact hperm.map g

/-- When an order is given first, nothing is loaded, and reading fails, whatever is in the file; after a tag was asked for, it works. -/
theorem order_first_error (c : Cfg) (e : Option Nat) (o : List Nat) (i j : Nat) (hi : o[i]? = some j) :
    ∃ s, initSeqOrder c St.init e none (some o) = .ok s ∧ collect c s i = .error .typeError ∧
      ∀ s' t, getTag c s i = .ok (s', t) → Loaded c s' ∧ ∀ (tag : S) (v : Val), c.file[j]? = some (tag, v) → collect c s' i = (features c v).map (fun f => (tag, f)) := by
  have hg : Good c St.init := .inr ⟨rfl, rfl⟩
  refine ⟨_, (init_order hg).2.1 e o, ?_, ?_⟩
  · unfold collect
    simp only [sub, hi, St.init, bind, Except.bind]
  · intro s' t h
    unfold getTag at h
    cases hl : load c { St.init with order := some o, numSeqs := some o.length } with
    | error err => rw [hl] at h; cases h
    | ok s1 =>
      obtain ⟨a1, a2, _⟩ := load_spec (c := c) (s := { St.init with order := some o, numSeqs := some o.length }) (.inr ⟨rfl, rfl⟩) hl
      have hs' : s' = s1 := by
        rw [hl] at h
        simp only [bind, Except.bind] at h
        cases h1 : sub s1.order i with
        | error err => rw [h1] at h; cases h
        | ok j' =>
          rw [h1] at h
          simp only at h
          cases h2 : sub s1.tags j' with
          | error err => rw [h2] at h; cases h
          | ok t' =>
            rw [h2] at h
            simp only [Except.ok.injEq, Prod.mk.injEq] at h
            exact h.1.symm
      subst hs'
      refine ⟨a1, ?_⟩
      intro tag v hf
      exact (collect_loaded a1 (o := o) a2 i j hi tag v hf).1

/-- All tags of the file. -/
theorem all_tags {c : Cfg} {s s' : St} {l : List S} (hg : Good c s) (h : allTags c s = .ok (s', l)) : l = c.file.map Prod.fst ∧ Loaded c s' := by
  unfold allTags at h
  cases hl : load c s with
  | error e => rw [hl] at h; cases h
  | ok s1 =>
    rw [hl] at h
    obtain ⟨l1, _, _⟩ := load_spec hg hl
    simp only [bind, Except.bind, Except.ok.injEq, Prod.mk.injEq] at h
    obtain ⟨rfl, rfl⟩ := h
    exact ⟨by rw [l1.2]; rfl, l1⟩

/-- Loading works exactly when the first entry is as expected; others are not looked at. -/
theorem load_ok (c : Cfg) : (∃ s, load c St.init = .ok s) ↔
    ∃ tag v rest, c.file = (tag, v) :: rest ∧ ((c.single = true ∧ ∃ t, v = .text t) ∨ (c.single = false ∧ ∃ l, v = .beam l ∧ l ≠ [])) := by
  unfold load
  simp only [St.init]
  constructor
  · rintro ⟨s, h⟩
    cases hf : c.file with
    | nil => rw [hf] at h; simp [checkFirst, bind, Except.bind] at h
    | cons tv rest =>
      obtain ⟨tag, v⟩ := tv
      rw [hf] at h
      refine ⟨tag, v, rest, rfl, ?_⟩
      cases v with
      | text t =>
        cases hc : c.single with
        | true => exact .inl ⟨rfl, t, rfl⟩
        | false => rw [hc] at h; simp [checkFirst, bind, Except.bind] at h
      | beam l =>
        cases hc : c.single with
        | true => rw [hc] at h; simp [checkFirst, bind, Except.bind] at h
        | false =>
          refine .inr ⟨rfl, l, rfl, ?_⟩
          rintro rfl
          rw [hc] at h
          simp [checkFirst, bind, Except.bind] at h
  · rintro ⟨tag, v, rest, hf, hv⟩
    rw [hf]
    rcases hv with ⟨hc, t, rfl⟩ | ⟨hc, l, rfl, hl⟩
    · rw [hc]
      exact ⟨_, rfl⟩
    · rw [hc]
      simp only [checkFirst, hl, if_false, Bool.false_eq_true, bind, Except.bind]
      exact ⟨_, rfl⟩

/-! ## Examples -/

/-- Labels are the characters. -/
def exCfg : Cfg where
  single := false
  file := [([1], .beam [(-5, [10, 11]), (-2, [12]), (-2, [13, 14, 15])]), ([2], .beam [(-1, [])])]
  vocab := fun s => .ok s
  order := fun _ n _ => (List.range n).reverse

example : features exCfg (.beam [(-5, [10, 11]), (-2, [12]), (-2, [13, 14, 15])]) = .ok ⟨[12], [10, 11, 12, 13, 14, 15], [2, 1, 3], [-5, -2, -2]⟩ := by decide +kernel
example : split [2, 1, 3] [10, 11, 12, 13, 14, 15] = [[10, 11], [12], [13, 14, 15]] := by decide +kernel
example : (exCfg.order 1 exCfg.file.length (SpecLen exCfg)).Perm (List.range exCfg.file.length) := List.reverse_perm _
example : SpecLen exCfg 0 = 6 := by decide +kernel
example : ∃ s, initSeqOrder exCfg St.init (some 1) none none = .ok s ∧ collect exCfg s 0 = .ok ([2], ⟨[], [], [0], [-1]⟩) ∧
    collect exCfg s 1 = .ok ([1], ⟨[12], [10, 11, 12, 13, 14, 15], [2, 1, 3], [-5, -2, -2]⟩) := ⟨_, rfl, by decide +kernel, by decide +kernel⟩

end Verif.TextDict
