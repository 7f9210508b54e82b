import Verif.Bpe.SpecTree
import Mathlib.Data.List.Basic
import Mathlib.Data.List.Infix
import Mathlib.Tactic.Push
import Mathlib.Tactic.Tauto
/-
C37: the sampling byte pair encoder finds a split if and only if there is one.
-/
namespace Verif.BpeTree
open Verif.Py

/-! ### The tree -/

/-- The arcs of a label. -/
def arcsOf (opts : Opts) : Nat → Bool → Str → List Str
  | 0, _, _ => []
  | fuel + 1, root, s =>
    let arc := arcFor opts root s
    if s.drop arc.length = [] then [arc] else arc :: arcsOf opts fuel false (s.drop arc.length)

theorem take_one_length {s : Str} (h : s ≠ []) : (s.take 1).length = 1 := by
  cases s with
  | nil => exact absurd rfl h
  | cons a s => rfl

theorem arcFor_pos {opts : Opts} {root : Bool} {s : Str} (h : s ≠ []) : 1 ≤ (arcFor opts root s).length := by
  have h1 := take_one_length h
  have h2 := List.length_pos_iff.2 h
  unfold arcFor
  split
  · split
    · rename_i h; exact List.length_pos_iff.2 h.2.1
    · split <;> omega
  · split <;> omega

/-- What `add` does to the tree. -/
theorem addLoop_spec (opts : Opts) : ∀ (fuel : Nat) (t : Tree) (p : Path) (s : Str), s.length < fuel →
    let arcs := arcsOf opts fuel p.isEmpty s
    let t' := addLoop opts fuel t p s
    (∀ q, q ∈ t'.nodes ↔ q ∈ t.nodes ∨ ∃ a, a ≠ [] ∧ a <+: arcs ∧ q = p ++ a) ∧
    (∀ q, q ∈ t'.finished ↔ q ∈ t.finished ∨ q = p ++ arcs) ∧
    (∀ q, q ∈ t'.bpeFinished ↔ q ∈ t.bpeFinished ∨ ∃ m, opts.merge = some m ∧ ∃ a, arcs = a ++ [m] ∧ q = p ++ a) := by
  intro fuel
  induction fuel with
  | zero => intro t p s h; omega
  | succ fuel ih =>
    intro t p s hf
    simp only [arcsOf, addLoop]
    generalize ha : arcFor opts p.isEmpty s = arc
    have hnodes : ∀ q, q ∈ (if t.nodes.contains (p ++ [arc]) then t else { t with nodes := (p ++ [arc]) :: t.nodes }).nodes ↔
        q ∈ t.nodes ∨ q = p ++ [arc] := by
      intro q
      split
      · rename_i h
        constructor
        · exact Or.inl
        · rintro (h' | rfl)
          · exact h'
          · simpa using h
      · simp only [List.mem_cons]; tauto
    have hfin : (if t.nodes.contains (p ++ [arc]) then t else { t with nodes := (p ++ [arc]) :: t.nodes }).finished
        = t.finished := by split <;> rfl
    have hbpe : (if t.nodes.contains (p ++ [arc]) then t else { t with nodes := (p ++ [arc]) :: t.nodes }).bpeFinished
        = t.bpeFinished := by split <;> rfl
    generalize (if t.nodes.contains (p ++ [arc]) then t else { t with nodes := (p ++ [arc]) :: t.nodes }) = t1
      at hnodes hfin hbpe
    by_cases hr : s.drop arc.length = []
    · rw [if_pos hr, if_pos hr]
      refine ⟨fun q => ?_, fun q => ?_, fun q => ?_⟩
      · have : (∃ a, a ≠ [] ∧ a <+: [arc] ∧ q = p ++ a) ↔ q = p ++ [arc] := by
          constructor
          · rintro ⟨a, h1, h2, rfl⟩
            rcases List.prefix_cons_iff.1 h2 with rfl | ⟨b, rfl, hb⟩
            · exact absurd rfl h1
            · rw [List.prefix_nil.1 hb]
          · rintro rfl; exact ⟨[arc], by simp, List.prefix_refl _, rfl⟩
        rw [this, ← hnodes]
        split <;> rfl
      · simp only [List.mem_cons]
        rw [← hfin]
        split <;> tauto
      · simp only
        split
        · rename_i h
          simp only [List.mem_cons, hbpe]
          constructor
          · rintro (rfl | h')
            · exact Or.inr ⟨arc, h.1, [], rfl, by simp⟩
            · exact Or.inl h'
          · rintro (h' | ⟨m, hm, a, h1, rfl⟩)
            · exact Or.inr h'
            · left
              have : a = [] := by
                have := congrArg List.length h1
                simp at this; exact this
              simp [this]
        · rename_i h
          rw [hbpe]
          constructor
          · exact Or.inl
          · rintro (h' | ⟨m, hm, a, h1, rfl⟩)
            · exact h'
            · exfalso
              have h2 : a = [] := by
                have := congrArg List.length h1
                simp at this; exact this
              rw [h2] at h1
              simp at h1
              exact h ⟨by rw [hm, h1], hr⟩
    · rw [if_neg hr, if_neg hr]
      have hs : s ≠ [] := by rintro rfl; simp at hr
      have hpos := arcFor_pos (opts := opts) (root := p.isEmpty) hs
      rw [ha] at hpos
      have hne : (p ++ [arc]).isEmpty = false := by simp
      have ht1 : (if opts.merge = some arc ∧ s.drop arc.length = [] then { t1 with bpeFinished := p :: t1.bpeFinished } else t1)
          = t1 := by rw [if_neg (fun h => hr h.2)]
      rw [ht1]
      obtain ⟨i1, i2, i3⟩ := ih t1 (p ++ [arc]) (s.drop arc.length) (by
        have := List.length_pos_iff.2 hs
        rw [List.length_drop]; omega)
      rw [hne] at i1 i2 i3
      refine ⟨fun q => ?_, fun q => ?_, fun q => ?_⟩
      · rw [i1 q, hnodes]
        constructor
        · rintro ((h | rfl) | ⟨a, h1, h2, rfl⟩)
          · exact Or.inl h
          · exact Or.inr ⟨[arc], by simp, by simp, rfl⟩
          · exact Or.inr ⟨arc :: a, by simp, by simpa using h2, by simp⟩
        · rintro (h | ⟨a, h1, h2, rfl⟩)
          · exact Or.inl (Or.inl h)
          · rcases List.prefix_cons_iff.1 h2 with rfl | ⟨b, rfl, hb⟩
            · exact absurd rfl h1
            · by_cases hb0 : b = []
              · subst hb0; exact Or.inl (Or.inr rfl)
              · exact Or.inr ⟨b, hb0, hb, by simp⟩
      · rw [i2 q, hfin]; simp
      · rw [i3 q, hbpe]
        constructor
        · rintro (h | ⟨m, hm, a, h1, rfl⟩)
          · exact Or.inl h
          · exact Or.inr ⟨m, hm, arc :: a, by simp [h1], by simp⟩
        · rintro (h | ⟨m, hm, a, h1, rfl⟩)
          · exact Or.inl h
          · right
            cases a with
            | nil =>
              simp only [List.nil_append] at h1
              injection h1 with _ h1
              exfalso
              -- the arcs of a non-empty rest are not empty
              cases fuel with
              | zero => have := List.length_pos_iff.2 hs; omega
              | succ fuel => simp only [arcsOf] at h1; split at h1 <;> cases h1
            | cons b a =>
              rw [List.cons_append] at h1
              injection h1 with h0 h1
              exact ⟨m, hm, a, h1, by rw [← h0]; simp⟩

/-- The arcs of a label in the tree. -/
def arcs (opts : Opts) (l : Str) : List Str := arcsOf opts (l.length + 1) true l

theorem build_spec (opts : Opts) (labels : List Str) :
    (∀ q, q ∈ (build opts labels).nodes ↔ ∃ l ∈ labels, q ≠ [] ∧ q <+: arcs opts l) ∧
    (∀ q, q ∈ (build opts labels).finished ↔ ∃ l ∈ labels, q = arcs opts l) ∧
    (∀ q, q ∈ (build opts labels).bpeFinished ↔ ∃ m, opts.merge = some m ∧ ∃ l ∈ labels, arcs opts l = q ++ [m]) := by
  have key : ∀ (labels : List Str) (t : Tree),
      (∀ q, q ∈ (labels.foldl (add opts) t).nodes ↔ q ∈ t.nodes ∨ ∃ l ∈ labels, q ≠ [] ∧ q <+: arcs opts l) ∧
      (∀ q, q ∈ (labels.foldl (add opts) t).finished ↔ q ∈ t.finished ∨ ∃ l ∈ labels, q = arcs opts l) ∧
      (∀ q, q ∈ (labels.foldl (add opts) t).bpeFinished ↔ q ∈ t.bpeFinished ∨
        ∃ m, opts.merge = some m ∧ ∃ l ∈ labels, arcs opts l = q ++ [m]) := by
    intro labels
    induction labels with
    | nil => intro t; simp
    | cons l labels ih =>
      intro t
      rw [List.foldl_cons]
      obtain ⟨h1, h2, h3⟩ := ih (add opts t l)
      obtain ⟨a1, a2, a3⟩ := addLoop_spec opts (l.length + 1) t [] l (by omega)
      simp only [List.isEmpty_nil, List.nil_append] at a1 a2 a3
      refine ⟨fun q => ?_, fun q => ?_, fun q => ?_⟩
      · rw [h1 q, add, a1 q]
        constructor
        · rintro ((h | ⟨a, b1, b2, rfl⟩) | ⟨l', b1, b2⟩)
          · exact Or.inl h
          · exact Or.inr ⟨l, by simp, b1, b2⟩
          · exact Or.inr ⟨l', by simp [b1], b2⟩
        · rintro (h | ⟨l', b1, b2, b3⟩)
          · exact Or.inl (Or.inl h)
          · rcases List.mem_cons.1 b1 with rfl | b1
            · exact Or.inl (Or.inr ⟨q, b2, b3, rfl⟩)
            · exact Or.inr ⟨l', b1, b2, b3⟩
      · rw [h2 q, add, a2 q]
        constructor
        · rintro ((h | h) | ⟨l', b1, b2⟩)
          · exact Or.inl h
          · exact Or.inr ⟨l, by simp, h⟩
          · exact Or.inr ⟨l', by simp [b1], b2⟩
        · rintro (h | ⟨l', b1, b2⟩)
          · exact Or.inl (Or.inl h)
          · rcases List.mem_cons.1 b1 with rfl | b1
            · exact Or.inl (Or.inr b2)
            · exact Or.inr ⟨l', b1, b2⟩
      · rw [h3 q, add, a3 q]
        constructor
        · rintro ((h | ⟨m, hm, a, b1, rfl⟩) | ⟨m, hm, l', b1, b2⟩)
          · exact Or.inl h
          · exact Or.inr ⟨m, hm, l, by simp, b1⟩
          · exact Or.inr ⟨m, hm, l', by simp [b1], b2⟩
        · rintro (h | ⟨m, hm, l', b1, b2⟩)
          · exact Or.inl (Or.inl h)
          · rcases List.mem_cons.1 b1 with rfl | b1
            · exact Or.inl (Or.inr ⟨m, hm, q, b2, rfl⟩)
            · exact Or.inr ⟨m, hm, l', b1, b2⟩
  obtain ⟨h1, h2, h3⟩ := key labels {}
  exact ⟨fun q => by rw [build, h1 q]; simp, fun q => by rw [build, h2 q]; simp, fun q => by rw [build, h3 q]; simp⟩

/-- The path of single characters. -/
def chars (s : Str) : Path := s.map (fun c => [c])

theorem chars_flatten (s : Str) : (chars s).flatten = s := by
  induction s with
  | nil => rfl
  | cons a s ih => simp only [chars, List.map_cons, List.flatten_cons] at ih ⊢; rw [ih]; rfl

theorem chars_append (a b : Str) : chars (a ++ b) = chars a ++ chars b := by simp [chars]

theorem chars_inj {a b : Str} (h : chars a = chars b) : a = b := by rw [← chars_flatten a, h, chars_flatten]

theorem chars_prefix {a b : Str} : chars a <+: chars b ↔ a <+: b := by
  constructor
  · rintro ⟨t, h⟩
    rw [← chars_flatten a, ← chars_flatten b, ← h]
    exact ⟨t.flatten, by simp⟩
  · rintro ⟨t, rfl⟩; exact ⟨chars t, by rw [chars_append]⟩

theorem arcFor_char {opts : Opts} (ho : OptsOk opts) {root : Bool} {s : Str} (hs : opts.merge ≠ some s) :
    arcFor opts root s = s.take 1 := by
  unfold arcFor
  split
  · rename_i wp hwp
    obtain ⟨c, rfl⟩ := ho.wordPrefix wp hwp
    split
    · rename_i h
      have := h.2.2
      rw [List.isPrefixOf_iff_prefix] at this
      obtain ⟨t, rfl⟩ := this
      rfl
    · rfl
  · rw [if_neg hs]

theorem arcFor_merge {opts : Opts} (ho : OptsOk opts) {root : Bool} {s : Str} (hs : opts.merge = some s) :
    arcFor opts root s = s := by
  unfold arcFor
  split
  · rename_i wp hwp
    obtain ⟨c, rfl⟩ := ho.wordPrefix wp hwp
    split
    · rename_i h
      have := h.2.2
      rw [List.isPrefixOf_iff_prefix] at this
      obtain ⟨t, rfl⟩ := this
      exact absurd rfl (ho.differ _ c hs hwp)
    · rfl
  · rw [if_pos hs]

/-- The arcs of a label with the merge symbol. -/
theorem arcsOf_merge {opts : Opts} (ho : OptsOk opts) {m : Str} (hm : opts.merge = some m) : ∀ (stem : Str) (fuel : Nat)
    (root : Bool), (stem ++ m).length < fuel → arcsOf opts fuel root (stem ++ m) = chars stem ++ [m] := by
  have h2 := ho.merge m hm
  intro stem
  induction stem with
  | nil =>
    intro fuel root hf
    cases fuel with
    | zero => omega
    | succ fuel =>
      simp only [arcsOf, List.nil_append, chars, List.map_nil]
      rw [arcFor_merge ho hm]
      simp
  | cons c stem ih =>
    intro fuel root hf
    cases fuel with
    | zero => omega
    | succ fuel =>
      have hne : opts.merge ≠ some (c :: stem ++ m) := by
        rw [hm]; intro h; injection h with h
        have := congrArg List.length h
        simp at this
        omega
      simp only [arcsOf]
      rw [arcFor_char ho hne]
      have hd : (c :: stem ++ m).drop ((c :: stem ++ m).take 1).length = stem ++ m := by simp
      have hnz : stem ++ m ≠ [] := by
        intro h
        have := congrArg List.length h
        simp at this
        have := this.2
        subst this; simp at h2
      rw [hd, if_neg hnz, ih fuel false (by simp at hf ⊢; omega)]
      simp [chars]

/-- The arcs of a label without the merge symbol. -/
theorem arcsOf_whole {opts : Opts} (ho : OptsOk opts) : ∀ (l : Str) (fuel : Nat) (root : Bool), l.length < fuel → l ≠ [] →
    Whole opts l → arcsOf opts fuel root l = chars l := by
  intro l
  induction l with
  | nil => intro fuel root _ h; exact absurd rfl h
  | cons c l ih =>
    intro fuel root hf _ hw
    cases fuel with
    | zero => omega
    | succ fuel =>
      have hne : opts.merge ≠ some (c :: l) := fun h => hw _ h (List.suffix_refl _)
      simp only [arcsOf]
      rw [arcFor_char ho hne]
      have hd : (c :: l).drop ((c :: l).take 1).length = l := by simp
      rw [hd]
      by_cases hl : l = []
      · rw [if_pos hl, hl]; rfl
      · rw [if_neg hl, ih fuel false (by simp at hf; omega) hl (fun m hm h => hw m hm (h.trans (List.suffix_cons c l)))]
        rfl

theorem arcs_empty {opts : Opts} (ho : OptsOk opts) : arcs opts [] = [[]] := by
  have hne : opts.merge ≠ some [] := fun h => by have := ho.merge _ h; simp at this
  simp only [arcs, arcsOf]
  rw [arcFor_char ho hne]
  simp

theorem arcs_cases {opts : Opts} (ho : OptsOk opts) (l : Str) :
    (l = [] ∧ arcs opts l = [[]]) ∨ (l ≠ [] ∧ Whole opts l ∧ arcs opts l = chars l) ∨
    ∃ m stem, opts.merge = some m ∧ l = stem ++ m ∧ arcs opts l = chars stem ++ [m] := by
  by_cases h0 : l = []
  · exact Or.inl ⟨h0, by rw [h0]; exact arcs_empty ho⟩
  · by_cases hw : Whole opts l
    · exact Or.inr (Or.inl ⟨h0, hw, arcsOf_whole ho l _ _ (by omega) h0 hw⟩)
    · unfold Whole at hw
      push Not at hw
      obtain ⟨m, hm, stem, rfl⟩ := hw
      exact Or.inr (Or.inr ⟨m, stem, hm, rfl, arcsOf_merge ho hm stem _ _ (by omega)⟩)

theorem chars_ne_merge {opts : Opts} (ho : OptsOk opts) {m : Str} (hm : opts.merge = some m) {a b : Str} (p : Path) :
    chars a ≠ p ++ [m] := by
  intro h
  have hmem : m ∈ chars a := by rw [h]; simp
  simp only [chars, List.mem_map] at hmem
  obtain ⟨c, _, rfl⟩ := hmem
  have := ho.merge _ hm
  simp at this

/-- The nodes which are reached by characters. -/
theorem has_iff {opts : Opts} (ho : OptsOk opts) (labels : List Str) (s : Str) (hs : s ≠ []) :
    chars s ∈ (build opts labels).nodes ↔ ∃ l ∈ labels, (Whole opts l ∧ s <+: l) ∨
      ∃ m stem, opts.merge = some m ∧ l = stem ++ m ∧ s <+: stem := by
  have hc : chars s ≠ [] := by intro h; apply hs; simpa [chars] using h
  rw [(build_spec opts labels).1]
  constructor
  · rintro ⟨l, hl, _, hp⟩
    refine ⟨l, hl, ?_⟩
    rcases arcs_cases ho l with ⟨rfl, ha⟩ | ⟨h0, hw, ha⟩ | ⟨m, stem, hm, rfl, ha⟩
    · exfalso
      rw [ha] at hp
      rcases List.prefix_cons_iff.1 hp with h | ⟨t, h, _⟩
      · exact hc h
      · cases s with
        | nil => exact hs rfl
        | cons c s => simp [chars] at h
    · rw [ha] at hp
      exact Or.inl ⟨hw, chars_prefix.1 hp⟩
    · rw [ha] at hp
      right
      refine ⟨m, stem, hm, rfl, chars_prefix.1 ?_⟩
      rcases List.prefix_concat_iff.1 hp with h | h
      · exact absurd h (chars_ne_merge ho hm (b := s) _)
      · exact h
  · rintro ⟨l, hl, h⟩
    refine ⟨l, hl, hc, ?_⟩
    rcases h with ⟨hw, hp⟩ | ⟨m, stem, hm, rfl, hp⟩
    · have h0 : l ≠ [] := by rintro rfl; exact hs (List.prefix_nil.1 hp)
      rw [arcs, arcsOf_whole ho l _ _ (by omega) h0 hw]
      exact chars_prefix.2 hp
    · rw [arcs, arcsOf_merge ho hm stem _ _ (by omega)]
      exact (chars_prefix.2 hp).trans (List.prefix_append _ _)

theorem fin_iff {opts : Opts} (ho : OptsOk opts) (labels : List Str) (s : Str) :
    chars s ∈ (build opts labels).finished ↔ s ∈ labels ∧ s ≠ [] ∧ Whole opts s := by
  rw [(build_spec opts labels).2.1]
  constructor
  · rintro ⟨l, hl, hp⟩
    rcases arcs_cases ho l with ⟨rfl, ha⟩ | ⟨h0, hw, ha⟩ | ⟨m, stem, hm, rfl, ha⟩
    · exfalso
      rw [ha] at hp
      cases s with
      | nil => simp [chars] at hp
      | cons c s => simp [chars] at hp
    · rw [ha] at hp
      have := chars_inj hp
      subst this
      exact ⟨hl, h0, hw⟩
    · rw [ha] at hp
      exact absurd hp (chars_ne_merge ho hm (b := s) _)
  · rintro ⟨hl, h0, hw⟩
    exact ⟨s, hl, by rw [arcs, arcsOf_whole ho s _ _ (by omega) h0 hw]⟩

theorem bpe_iff {opts : Opts} (ho : OptsOk opts) (labels : List Str) (s : Str) :
    chars s ∈ (build opts labels).bpeFinished ↔ ∃ m, opts.merge = some m ∧ s ++ m ∈ labels := by
  rw [(build_spec opts labels).2.2]
  constructor
  · rintro ⟨m, hm, l, hl, hp⟩
    refine ⟨m, hm, ?_⟩
    rcases arcs_cases ho l with ⟨rfl, ha⟩ | ⟨h0, hw, ha⟩ | ⟨m', stem, hm', rfl, ha⟩
    · exfalso
      rw [ha] at hp
      have h2 := ho.merge _ hm
      cases s with
      | nil => simp [chars] at hp; rw [hp] at h2; simp at h2
      | cons c s => simp [chars] at hp
    · rw [ha] at hp
      exact absurd hp (chars_ne_merge ho hm (b := s) _)
    · rw [hm] at hm'; injection hm' with hm'; subst hm'
      rw [ha] at hp
      have := chars_inj (List.append_cancel_right hp)
      rw [← this]; exact hl
  · rintro ⟨m, hm, hl⟩
    exact ⟨m, hm, _, hl, by rw [arcs, arcsOf_merge ho hm s _ _ (by omega)]⟩

/-! ### The search -/

/-- The ways from a node with a rest of the word to the end. -/
inductive Run (opts : Opts) (t : Tree) : Path → Str → List Str → Prop
  | done {p : Path} : p ∈ t.finished → Run opts t p [] [p.flatten]
  | next {p : Path} {c : Char} {rest : Str} {out : List Str} : p ++ [[c]] ∈ t.nodes → Run opts t (p ++ [[c]]) rest out →
      Run opts t p (c :: rest) out
  | merge {p : Path} {c : Char} {rest : Str} {out : List Str} : p ∈ t.bpeFinished → [[c]] ∈ t.nodes →
      Run opts t [[c]] rest out → Run opts t p (c :: rest) ((p.flatten ++ opts.merge.getD []) :: out)
  | word {p : Path} {c : Char} {rest : Str} {out : List Str} : opts.wordPrefix ≠ none → p ∈ t.finished →
      [[c]] ∈ t.nodes → Run opts t [[c]] rest out → Run opts t p (c :: rest) (p.flatten :: out)

/-- A hypothesis leads to this result. -/
def Leads (opts : Opts) (t : Tree) (h : Hyp) (out : List Str) : Prop := ∃ o, Run opts t h.node h.rest o ∧ out = h.history ++ o

theorem leads_next (opts : Opts) (t : Tree) (h : Hyp) (hr : h.rest ≠ []) (out : List Str) :
    Leads opts t h out ↔ ∃ h' ∈ nextHyps opts t h, Leads opts t h' out := by
  obtain ⟨hist, p, rest⟩ := h
  cases rest with
  | nil => exact absurd rfl hr
  | cons c rest =>
    simp only [nextHyps, List.mem_append, List.contains_iff_mem]
    constructor
    · rintro ⟨o, ho, rfl⟩
      cases ho with
      | next h1 h2 =>
        exact ⟨⟨hist, p ++ [[c]], rest⟩, Or.inr (by rw [if_pos h1]; simp), _, h2, rfl⟩
      | merge h1 h2 h3 =>
        exact ⟨⟨hist ++ [p.flatten ++ opts.merge.getD []], [[c]], rest⟩,
          Or.inl (Or.inl (by rw [if_pos ⟨h1, h2⟩]; simp)), _, h3, by simp⟩
      | word h1 h2 h3 h4 =>
        exact ⟨⟨hist ++ [p.flatten], [[c]], rest⟩, Or.inl (Or.inr (by rw [if_pos ⟨h1, h2, h3⟩]; simp)), _, h4, by simp⟩
    · rintro ⟨h', (hm | hm) | hm, o, ho, rfl⟩
      · split at hm
        · rename_i hc
          simp only [List.mem_singleton] at hm
          subst hm
          exact ⟨_, .merge hc.1 hc.2 ho, by simp⟩
        · cases hm
      · split at hm
        · rename_i hc
          simp only [List.mem_singleton] at hm
          subst hm
          exact ⟨_, .word hc.1 hc.2.1 hc.2.2 ho, by simp⟩
        · cases hm
      · split at hm
        · rename_i hc
          simp only [List.mem_singleton] at hm
          subst hm
          exact ⟨_, .next hc ho, rfl⟩
        · cases hm

theorem leads_end (opts : Opts) (t : Tree) (h : Hyp) (hr : h.rest = []) (out : List Str) :
    Leads opts t h out ↔ h.node ∈ t.finished ∧ out = h.history ++ [h.node.flatten] := by
  obtain ⟨hist, p, rest⟩ := h
  simp only at hr
  subst hr
  constructor
  · rintro ⟨o, ho, rfl⟩
    cases ho with
    | done h => exact ⟨h, rfl⟩
  · rintro ⟨h, rfl⟩
    exact ⟨_, .done h, rfl⟩

theorem next_length (opts : Opts) (t : Tree) (h : Hyp) : (nextHyps opts t h).length ≤ 3 ∧
    ∀ h' ∈ nextHyps opts t h, ∃ c, h.rest = c :: h'.rest := by
  unfold nextHyps
  split
  · simp
  · rename_i c rest hr
    constructor
    · simp only [List.length_append]
      have : ∀ (P : Prop) [Decidable P] (x : Hyp), (if P then [x] else []).length ≤ 1 := by
        intro P _ x; split <;> simp
      have h1 := this (t.bpeFinished.contains h.node ∧ t.nodes.contains [[c]]) ⟨h.history ++ [h.node.flatten ++ opts.merge.getD []], [[c]], rest⟩
      have h2 := this (opts.wordPrefix ≠ none ∧ t.finished.contains h.node ∧ t.nodes.contains [[c]]) ⟨h.history ++ [h.node.flatten], [[c]], rest⟩
      have h3 := this (t.nodes.contains (h.node ++ [[c]]) = true) ⟨h.history, h.node ++ [[c]], rest⟩
      omega
    · intro h' hm
      simp only [List.mem_append] at hm
      rcases hm with (hm | hm) | hm <;>
      · split at hm
        · simp only [List.mem_singleton] at hm; subst hm; exact ⟨c, hr⟩
        · cases hm

/-- The number of rounds which is enough for the hypotheses. -/
def weight : List Hyp → Nat
  | [] => 0
  | h :: hs => 4 ^ h.rest.length + weight hs

/-- The search state is right: what it has found is a result, and as long as nothing is found, every result is still
possible. -/
structure DfsInv (opts : Opts) (t : Tree) (R : List Str → Prop) (d : Dfs) : Prop where
  sound : ∀ h ∈ d.hyps, ∀ out, Leads opts t h out → R out
  final : ∀ out, d.final = some out → R out
  rest : ∀ h ∈ d.hyps, h.rest ≠ []

/-- Every result comes from some hypothesis. -/
def Covers (opts : Opts) (t : Tree) (R : List Str → Prop) (d : Dfs) (more : List Hyp) : Prop :=
  d.final = none → ∀ out, R out → ∃ h, (h ∈ d.hyps ∨ h ∈ more) ∧ Leads opts t h out

theorem addHyps_ok (opts : Opts) (t : Tree) (R : List Str → Prop) : ∀ (new : List Hyp) (d : Dfs), DfsInv opts t R d →
    (∀ h ∈ new, ∀ out, Leads opts t h out → R out) → Covers opts t R d new →
    DfsInv opts t R (new.foldl (addHyp t) d) ∧ Covers opts t R (new.foldl (addHyp t) d) [] ∧
    weight (new.foldl (addHyp t) d).hyps ≤ weight d.hyps + weight new := by
  intro new
  induction new with
  | nil => intro d hd _ hc; exact ⟨hd, hc, by simp [weight]⟩
  | cons h new ih =>
    intro d hd hs hc
    rw [List.foldl_cons]
    have hstep : DfsInv opts t R (addHyp t d h) ∧ Covers opts t R (addHyp t d h) new ∧
        weight (addHyp t d h).hyps ≤ weight d.hyps + 4 ^ h.rest.length := by
      unfold addHyp
      split
      · rename_i hr
        split
        · rename_i hf
          refine ⟨⟨hd.sound, ?_, hd.rest⟩, fun h0 => by simp at h0, by simp⟩
          intro out ho
          injection ho with ho
          exact hs h (by simp) out ((leads_end opts t h hr out).2 ⟨by simpa using hf, ho.symm⟩)
        · rename_i hf
          refine ⟨hd, fun h0 out ho => ?_, by simp⟩
          obtain ⟨h', hm, hl⟩ := hc h0 out ho
          rcases hm with hm | hm
          · exact ⟨h', Or.inl hm, hl⟩
          · rcases List.mem_cons.1 hm with rfl | hm
            · exact absurd ((leads_end opts t h' hr out).1 hl).1 (by simpa using hf)
            · exact ⟨h', Or.inr hm, hl⟩
      · rename_i c rest hr
        refine ⟨⟨?_, hd.final, ?_⟩, fun h0 out ho => ?_, by simp only [weight]; rw [hr]; omega⟩
        · intro h' hm out hl
          rcases List.mem_cons.1 hm with rfl | hm
          · exact hs h' (by simp) out hl
          · exact hd.sound h' hm out hl
        · intro h' hm
          rcases List.mem_cons.1 hm with rfl | hm
          · rw [hr]; simp
          · exact hd.rest h' hm
        · obtain ⟨h', hm, hl⟩ := hc h0 out ho
          rcases hm with hm | hm
          · exact ⟨h', Or.inl (by simp [hm]), hl⟩
          · rcases List.mem_cons.1 hm with rfl | hm
            · exact ⟨h', Or.inl (by simp), hl⟩
            · exact ⟨h', Or.inr hm, hl⟩
    obtain ⟨s1, s2, s3⟩ := hstep
    obtain ⟨i1, i2, i3⟩ := ih _ s1 (fun h' hm => hs h' (by simp [hm])) s2
    exact ⟨i1, i2, by simp only [weight]; omega⟩

theorem weight_le {l : List Hyp} {n : Nat} (h : ∀ h ∈ l, h.rest.length = n) : weight l = l.length * 4 ^ n := by
  induction l with
  | nil => simp [weight]
  | cons a l ih =>
    simp only [weight, List.length_cons]
    rw [ih (fun h' hm => h h' (by simp [hm])), h a (by simp), Nat.succ_mul]
    omega

/-- The search finds a result if and only if there is one. -/
theorem dfsLoop_ok (opts : Opts) (t : Tree) (sampler : Nat → Bool) (R : List Str → Prop) : ∀ (fuel n : Nat) (d : Dfs),
    weight d.hyps < fuel → DfsInv opts t R d → Covers opts t R d [] →
    (∀ out, dfsLoop opts t sampler fuel n d = some out → R out) ∧
    (dfsLoop opts t sampler fuel n d = none → ∀ out, ¬ R out) := by
  intro fuel
  induction fuel with
  | zero => intro n d h; omega
  | succ fuel ih =>
    intro n d hw hd hc
    simp only [dfsLoop]
    split
    · rename_i out hf
      refine ⟨fun o ho => ?_, by simp⟩
      injection ho with ho; subst ho
      exact hd.final _ hf
    · rename_i hf hh
      refine ⟨by simp, fun _ out ho => ?_⟩
      obtain ⟨h, hm, _⟩ := hc hf out ho
      rw [hh] at hm
      rcases hm with hm | hm <;> cases hm
    · rename_i h hs hf hh
      have hrest := hd.rest h (by rw [hh]; simp)
      obtain ⟨n1, n2⟩ := next_length opts t h
      generalize hnew : (if sampler n then (nextHyps opts t h).reverse else nextHyps opts t h) = new
      have hmem : ∀ x, x ∈ new ↔ x ∈ nextHyps opts t h := by
        intro x; rw [← hnew]; split <;> simp
      have hlen : new.length = (nextHyps opts t h).length := by rw [← hnew]; split <;> simp
      have hwn : weight new + 1 ≤ 4 ^ h.rest.length := by
        obtain ⟨c, rest, hr⟩ := List.exists_cons_of_ne_nil hrest
        rw [weight_le (n := rest.length)]
        · have h4 : new.length ≤ 3 := by omega
          have : new.length * 4 ^ rest.length ≤ 3 * 4 ^ rest.length := Nat.mul_le_mul_right _ h4
          have hp : 0 < 4 ^ rest.length := Nat.pow_pos (by omega)
          rw [hr, List.length_cons, Nat.pow_succ]
          omega
        · intro x hx
          obtain ⟨c', hc'⟩ := n2 x ((hmem x).1 hx)
          rw [hr] at hc'
          injection hc' with _ hc'
          rw [hc']
      have := addHyps_ok opts t R new { d with hyps := hs }
        ⟨fun h' hm => hd.sound h' (by rw [hh]; simp [hm]), hd.final, fun h' hm => hd.rest h' (by rw [hh]; simp [hm])⟩
        (fun h' hm out hl => hd.sound h (by rw [hh]; simp) out ((leads_next opts t h hrest out).2 ⟨h', (hmem h').1 hm, hl⟩))
        (fun h0 out ho => by
          obtain ⟨h', hm, hl⟩ := hc h0 out ho
          rw [hh] at hm
          rcases hm with hm | hm
          · rcases List.mem_cons.1 hm with rfl | hm
            · obtain ⟨h2, hm2, hl2⟩ := (leads_next opts t h' hrest out).1 hl
              exact ⟨h2, Or.inr ((hmem h2).2 hm2), hl2⟩
            · exact ⟨h', Or.inl hm, hl⟩
          · cases hm)
      obtain ⟨a1, a2, a3⟩ := this
      rw [hh] at hw
      simp only [weight] at hw
      simp only at a3
      have hres := ih (n + 1) (addNew t { d with hyps := hs } (sampler n) (nextHyps opts t h)) (by
        unfold addNew; rw [hnew]; omega) (by unfold addNew; rw [hnew]; exact a1) (by unfold addNew; rw [hnew]; exact a2)
      exact hres

/-- The whole search. -/
theorem search_ok (opts : Opts) (t : Tree) (sampler : Nat → Bool) (start : Path) (word : Str) :
    let r := dfsLoop opts t sampler (dfsFuel word) 0 (addHyp t {} ⟨[], start, word⟩)
    (∀ out, r = some out → Run opts t start word out) ∧ (r = none → ∀ out, ¬ Run opts t start word out) := by
  obtain ⟨a1, a2, a3⟩ := addHyps_ok opts t (Run opts t start word) [⟨[], start, word⟩] {}
    ⟨by simp, by simp, by simp⟩
    (by
      intro h hm out hl
      simp only [List.mem_singleton] at hm
      subst hm
      obtain ⟨o, ho, rfl⟩ := hl
      exact ho)
    (by intro _ out ho; exact ⟨⟨[], start, word⟩, Or.inr (by simp), out, ho, rfl⟩)
  exact dfsLoop_ok opts t sampler _ _ _ _ (by
    simp only [weight, List.foldl_cons, List.foldl_nil] at a3
    unfold dfsFuel; omega) a1 a2

/-- The search over all hypotheses at once gives all results. -/
theorem syncLoop_ok (opts : Opts) (t : Tree) : ∀ (word : Str) (hyps : List Hyp), (∀ h ∈ hyps, h.rest = word) → ∀ out,
    (∃ h ∈ hyps, Leads opts t h out) ↔ ∃ h ∈ syncLoop opts t word hyps, h.node ∈ t.finished ∧ out = h.history ++ [h.node.flatten] := by
  intro word
  induction word with
  | nil =>
    intro hyps hr out
    simp only [syncLoop]
    constructor
    · rintro ⟨h, hm, hl⟩
      exact ⟨h, hm, (leads_end opts t h (hr h hm) out).1 hl⟩
    · rintro ⟨h, hm, hl⟩
      exact ⟨h, hm, (leads_end opts t h (hr h hm) out).2 hl⟩
  | cons c word ih =>
    intro hyps hr out
    simp only [syncLoop]
    rw [← ih (hyps.flatMap (nextHyps opts t)) (by
      intro h' hm
      obtain ⟨h, hm1, hm2⟩ := List.mem_flatMap.1 hm
      obtain ⟨c', hc'⟩ := (next_length opts t h).2 h' hm2
      rw [hr h hm1] at hc'
      injection hc' with _ hc'
      exact hc'.symm) out]
    constructor
    · rintro ⟨h, hm, hl⟩
      obtain ⟨h', hm', hl'⟩ := (leads_next opts t h (by rw [hr h hm]; simp) out).1 hl
      exact ⟨h', List.mem_flatMap.2 ⟨h, hm, hm'⟩, hl'⟩
    · rintro ⟨h', hm, hl⟩
      obtain ⟨h, hm1, hm2⟩ := List.mem_flatMap.1 hm
      exact ⟨h, hm1, (leads_next opts t h (by rw [hr h hm1]; simp) out).2 ⟨h', hm2, hl⟩⟩

/-! ### Runs are splits -/

theorem run_split {opts : Opts} (ho : OptsOk opts) (labels : List Str) {p : Path} {rest : Str} {out : List Str}
    (h : Run opts (build opts labels) p rest out) : ∀ s, p = chars s →
    ∃ (pieces inner : List Str) (last : Str), out = inner ++ [last] ∧ List.Forall₂ (Inner opts labels) pieces inner ∧
      last ∈ labels ∧ last ≠ [] ∧ Whole opts last ∧ pieces.flatten ++ last = s ++ rest := by
  induction h with
  | done hf =>
    rintro s rfl
    obtain ⟨h1, h2, h3⟩ := (fin_iff ho labels s).1 hf
    exact ⟨[], [], s, by simp [chars_flatten], .nil, h1, h2, h3, by simp⟩
  | @next p c rest out hn _ ih =>
    rintro s rfl
    obtain ⟨pieces, inner, last, h1, h2, h3, h4, h5, h6⟩ := ih (s ++ [c]) (by rw [chars_append]; rfl)
    exact ⟨pieces, inner, last, h1, h2, h3, h4, h5, by rw [h6]; simp⟩
  | @merge p c rest out hb hn _ ih =>
    rintro s rfl
    obtain ⟨m, hm, hl⟩ := (bpe_iff ho labels s).1 hb
    obtain ⟨pieces, inner, last, h1, h2, h3, h4, h5, h6⟩ := ih [c] rfl
    refine ⟨s :: pieces, (s ++ m) :: inner, last, ?_, .cons ⟨hl, Or.inl ⟨m, hm, rfl⟩⟩ h2, h3, h4, h5, ?_⟩
    · rw [h1, chars_flatten, hm]; rfl
    · rw [List.flatten_cons, List.append_assoc, h6]; rfl
  | @word p c rest out hw hf hn _ ih =>
    rintro s rfl
    obtain ⟨hl, h0, hwh⟩ := (fin_iff ho labels s).1 hf
    obtain ⟨pieces, inner, last, h1, h2, h3, h4, h5, h6⟩ := ih [c] rfl
    refine ⟨s :: pieces, s :: inner, last, ?_, .cons ⟨hl, Or.inr ⟨hw, rfl, hwh⟩⟩ h2, h3, h4, h5, ?_⟩
    · rw [h1, chars_flatten]; rfl
    · rw [List.flatten_cons, List.append_assoc, h6]; rfl

/-- Going along the characters of a label. -/
theorem run_walk {opts : Opts} {t : Tree} {rest : Str} {out : List Str} : ∀ (u cur : Str),
    (∀ v, v ≠ [] → v <+: u → chars (cur ++ v) ∈ t.nodes) → Run opts t (chars (cur ++ u)) rest out →
    Run opts t (chars cur) (u ++ rest) out := by
  intro u
  induction u with
  | nil => intro cur _ h; simpa using h
  | cons c u ih =>
    intro cur hn h
    have hc : chars cur ++ [[c]] = chars (cur ++ [c]) := by rw [chars_append]; rfl
    refine .next (by rw [hc]; exact hn [c] (by simp) (by simp)) ?_
    rw [hc]
    refine ih (cur ++ [c]) (fun v hv hp => ?_) (by simpa using h)
    have := hn (c :: v) (by simp) (by simpa using hp)
    simpa using this

theorem piece_nodes {opts : Opts} (ho : OptsOk opts) {labels : List Str} {piece token : Str}
    (h : Inner opts labels piece token) {v : Str} (hv : v ≠ []) (hp : v <+: piece) : chars v ∈ (build opts labels).nodes := by
  rw [has_iff ho labels v hv]
  obtain ⟨hl, ⟨m, hm, rfl⟩ | ⟨_, rfl, hw⟩⟩ := h
  · exact ⟨_, hl, Or.inr ⟨m, piece, hm, rfl, hp⟩⟩
  · exact ⟨_, hl, Or.inl ⟨hw, hp⟩⟩

theorem split_run {opts : Opts} (ho : OptsOk opts) {labels : List Str} {last : Str} (hl : last ∈ labels) (hl0 : last ≠ [])
    (hlw : Whole opts last) : ∀ (pieces inner : List Str), List.Forall₂ (Inner opts labels) pieces inner →
    ∀ (cur rest : Str), cur.length ≤ 1 → pieces.flatten ++ last = cur ++ rest →
    (cur ≠ [] → chars cur ∈ (build opts labels).nodes) ∧ ∃ out, Run opts (build opts labels) (chars cur) rest out := by
  intro pieces inner hf
  have hnl : ∀ v, v ≠ [] → v <+: last → chars v ∈ (build opts labels).nodes := by
    intro v hv hp
    rw [has_iff ho labels v hv]
    exact ⟨last, hl, Or.inl ⟨hlw, hp⟩⟩
  have hpre : ∀ (cur rest a b : Str), cur.length ≤ 1 → a ≠ [] → a ++ b = cur ++ rest → ∃ u, a = cur ++ u ∧ rest = u ++ b := by
    intro cur rest a b h1 ha h
    match cur, a with
    | [], a => exact ⟨a, rfl, by simpa using h.symm⟩
    | [c], d :: a =>
      rw [List.cons_append, List.cons_append] at h
      injection h with h2 h3
      exact ⟨a, by rw [h2]; rfl, by simpa using h3.symm⟩
    | [c], [] => exact absurd rfl ha
    | c :: d :: cur, _ => simp at h1
  induction hf with
  | nil =>
    intro cur rest hc h
    obtain ⟨u, hu, hr⟩ := hpre cur rest last [] hc hl0 (by simpa using h)
    refine ⟨fun h0 => hnl cur h0 ⟨u, hu.symm⟩, [last], ?_⟩
    rw [hr]
    refine run_walk u cur (fun v hv hp => hnl _ (by simp [hv]) ?_) ?_
    · rw [hu]; exact (List.prefix_append_right_inj cur).2 hp
    · rw [← hu]
      have := Run.done (opts := opts) ((fin_iff ho labels last).2 ⟨hl, hl0, hlw⟩)
      rwa [chars_flatten] at this
  | @cons piece token pieces inner hi _ ih =>
    intro cur rest hc h
    by_cases hp0 : piece = []
    · exact ih cur rest hc (by rw [← h, hp0]; simp)
    · obtain ⟨u, hu, hr⟩ := hpre cur rest piece (pieces.flatten ++ last) hc hp0 (by rw [← h]; simp)
      obtain ⟨c, r, hcr⟩ : ∃ c r, pieces.flatten ++ last = c :: r :=
        List.exists_cons_of_ne_nil (by simp [hl0])
      obtain ⟨hin, out, hrun⟩ := ih [c] r (by simp) (by rw [hcr]; rfl)
      refine ⟨fun h0 => piece_nodes ho hi h0 ⟨u, hu.symm⟩, ?_⟩
      rw [hr, hcr]
      have hnode : [[c]] ∈ (build opts labels).nodes := hin (by simp)
      have hgo : ∃ out, Run opts (build opts labels) (chars piece) (c :: r) out := by
        obtain ⟨htl, ⟨m, hm, htok⟩ | ⟨hw, htok, hwh⟩⟩ := hi
        · exact ⟨_, .merge ((bpe_iff ho labels piece).2 ⟨m, hm, by rw [← htok]; exact htl⟩) hnode hrun⟩
        · exact ⟨_, .word hw ((fin_iff ho labels piece).2 ⟨by rw [← htok]; exact htl, hp0, by rw [← htok]; exact hwh⟩) hnode hrun⟩
      obtain ⟨o, hgo⟩ := hgo
      refine ⟨o, run_walk u cur (fun v hv hp => piece_nodes ho hi (by simp [hv]) ?_) (by rw [← hu]; exact hgo)⟩
      rw [hu]; exact (List.prefix_append_right_inj cur).2 hp

/-! ### The result -/

theorem start_ok {opts : Opts} (ho : OptsOk opts) (labels : List Str) :
    (startNode opts (build opts labels) = .ok (chars (opts.wordPrefix.getD []))) ∨
    (startNode opts (build opts labels) = .error .keyError ∧ ∃ c, opts.wordPrefix = some [c] ∧
      chars [c] ∉ (build opts labels).nodes) := by
  unfold startNode
  split
  · rename_i h; left; rw [h]; rfl
  · rename_i wp h
    obtain ⟨c, rfl⟩ := ho.wordPrefix wp h
    split
    · left; rw [h]; rfl
    · rename_i hn
      right
      exact ⟨rfl, c, h, by simpa [chars] using hn⟩

theorem no_split_of_keyError {opts : Opts} (ho : OptsOk opts) (labels : List Str) {c : Char}
    (hc : opts.wordPrefix = some [c]) (hn : chars [c] ∉ (build opts labels).nodes) (word : Str) (out : List Str) :
    ¬ Split opts labels word out := by
  rintro ⟨pieces, inner, last, _, h2, h3, h4, h5, h6⟩
  exact hn ((split_run ho h3 h4 h5 pieces inner h2 [c] word (by simp) (by rw [h6, hc]; rfl)).1 (by simp))

theorem split_iff_run {opts : Opts} (ho : OptsOk opts) (labels : List Str) (word : Str) :
    (∀ out, Run opts (build opts labels) (chars (opts.wordPrefix.getD [])) word out → Split opts labels word out) ∧
    ((∃ out, Split opts labels word out) → ∃ out, Run opts (build opts labels) (chars (opts.wordPrefix.getD [])) word out) := by
  constructor
  · intro out h
    exact run_split ho labels h _ rfl
  · rintro ⟨out, pieces, inner, last, _, h2, h3, h4, h5, h6⟩
    refine (split_run ho h3 h4 h5 pieces inner h2 _ word ?_ h6).2
    cases hw : opts.wordPrefix with
    | none => simp
    | some wp => obtain ⟨c, rfl⟩ := ho.wordPrefix wp hw; simp

/-- C37. Whatever the sampler does: a result of the search is a split of the word into labels. -/
theorem split_sound {opts : Opts} (ho : OptsOk opts) (labels : List Str) (sampler : Nat → Bool) {word : Str}
    {out : List Str} (h : getSplit opts (build opts labels) sampler word = .ok (some out)) :
    Split opts labels word out := by
  unfold getSplit at h
  rcases start_ok ho labels with hs | ⟨hs, _⟩
  · rw [hs] at h
    simp only [bind, Except.bind] at h
    injection h with h
    exact (split_iff_run ho labels word).1 out ((search_ok _ _ sampler _ word).1 out h)
  · rw [hs] at h; cases h

/-- C37. Whatever the sampler does: if the search finds nothing, there is no split of the word into labels. -/
theorem split_complete {opts : Opts} (ho : OptsOk opts) (labels : List Str) (sampler : Nat → Bool) {word : Str}
    (h : getSplit opts (build opts labels) sampler word = .ok none) : ∀ out, ¬ Split opts labels word out := by
  unfold getSplit at h
  rcases start_ok ho labels with hs | ⟨hs, _⟩
  · rw [hs] at h
    simp only [bind, Except.bind] at h
    injection h with h
    intro out hsp
    obtain ⟨o, hr⟩ := (split_iff_run ho labels word).2 ⟨out, hsp⟩
    exact (search_ok _ _ sampler _ word).2 h o hr
  · rw [hs] at h; cases h

/-- C37. The search ends without an error, but for a word prefix symbol which no label has: then it is a `KeyError`,
and there is no split of any word. -/
theorem split_total {opts : Opts} (ho : OptsOk opts) (labels : List Str) (sampler : Nat → Bool) (word : Str) :
    (∃ r, getSplit opts (build opts labels) sampler word = .ok r) ∨
    (getSplit opts (build opts labels) sampler word = .error .keyError ∧ opts.wordPrefix ≠ none ∧
      ∀ word out, ¬ Split opts labels word out) := by
  unfold getSplit
  rcases start_ok ho labels with hs | ⟨hs, c, hc, hn⟩
  · rw [hs]; exact Or.inl ⟨_, rfl⟩
  · rw [hs]; exact Or.inr ⟨rfl, by rw [hc]; simp, no_split_of_keyError ho labels hc hn⟩

/-- C37. Without a word prefix symbol: found if and only if there is a split. -/
theorem split_found_iff {opts : Opts} (ho : OptsOk opts) (hw : opts.wordPrefix = none) (labels : List Str)
    (sampler : Nat → Bool) (word : Str) :
    (∃ out, getSplit opts (build opts labels) sampler word = .ok (some out)) ↔ ∃ out, Split opts labels word out := by
  constructor
  · rintro ⟨out, h⟩; exact ⟨out, split_sound ho labels sampler h⟩
  · rintro ⟨out, h⟩
    rcases split_total ho labels sampler word with ⟨r, hr⟩ | ⟨_, h2, _⟩
    · cases r with
      | some o => exact ⟨o, hr⟩
      | none => exact absurd h (split_complete ho labels sampler hr out)
    · exact absurd hw h2

/-- C37. The breadth-first search gives only splits, and it gives one if there is one. -/
theorem sync_splits {opts : Opts} (ho : OptsOk opts) (labels : List Str) {word : Str} {outs : List (List Str)}
    (h : syncSearch opts (build opts labels) word = .ok outs) :
    (∀ out ∈ outs, Split opts labels word out) ∧ (outs = [] → ∀ out, ¬ Split opts labels word out) := by
  unfold syncSearch at h
  rcases start_ok ho labels with hs | ⟨hs, _⟩
  · rw [hs] at h
    simp only [bind, Except.bind] at h
    injection h with h
    have hmem : ∀ out, out ∈ outs ↔ Run opts (build opts labels) (chars (opts.wordPrefix.getD [])) word out := by
      intro out
      have := syncLoop_ok opts (build opts labels) word [⟨[], chars (opts.wordPrefix.getD []), word⟩] (by simp) out
      simp only [List.mem_singleton, exists_eq_left] at this
      rw [show Run opts (build opts labels) (chars (opts.wordPrefix.getD [])) word out ↔
        Leads opts (build opts labels) ⟨[], chars (opts.wordPrefix.getD []), word⟩ out from
          ⟨fun h => ⟨out, h, rfl⟩, fun ⟨o, h, e⟩ => by subst e; exact h⟩, this, ← h]
      simp only [List.mem_map, List.mem_filter, List.contains_iff_mem]
      constructor
      · rintro ⟨h, ⟨h1, h2⟩, rfl⟩; exact ⟨h, h1, h2, rfl⟩
      · rintro ⟨h, h1, h2, rfl⟩; exact ⟨h, ⟨h1, h2⟩, rfl⟩
    refine ⟨fun out ho' => (split_iff_run ho labels word).1 out ((hmem out).1 ho'), fun h0 out hsp => ?_⟩
    obtain ⟨o, hr⟩ := (split_iff_run ho labels word).2 ⟨out, hsp⟩
    have := (hmem o).2 hr
    rw [h0] at this; cases this
  · rw [hs] at h; cases h

/-- C37. Both searches agree: what the depth-first search returns, is one of the results of the other one. -/
theorem dfs_in_sync {opts : Opts} (ho : OptsOk opts) (labels : List Str) (sampler : Nat → Bool) {word : Str} {out : List Str}
    (h : getSplit opts (build opts labels) sampler word = .ok (some out)) :
    ∃ outs, syncSearch opts (build opts labels) word = .ok outs ∧ out ∈ outs := by
  unfold getSplit at h
  rcases start_ok ho labels with hs | ⟨hs, _⟩
  · rw [hs] at h
    simp only [bind, Except.bind] at h
    injection h with h
    have hr := (search_ok _ _ sampler _ word).1 out h
    unfold syncSearch
    rw [hs]
    refine ⟨_, rfl, ?_⟩
    have := (syncLoop_ok opts (build opts labels) word [⟨[], chars (opts.wordPrefix.getD []), word⟩] (by simp) out).1
      ⟨⟨[], chars (opts.wordPrefix.getD []), word⟩, by simp, out, hr, rfl⟩
    obtain ⟨hy, h1, h2, rfl⟩ := this
    exact List.mem_map.2 ⟨hy, List.mem_filter.2 ⟨h1, by simpa using h2⟩, rfl⟩
  · rw [hs] at h; cases h

/-- The tokens of a word in a sentence. -/
def WordTokens (opts : Opts) (labels : List Str) (unknown : Option Str) (w : Str) (toks : List Str) : Prop :=
  Split opts labels w toks ∨ (∃ u, unknown = some u ∧ u ≠ [] ∧ toks = [u] ∧ ∀ out, ¬ Split opts labels w out)

/-- C37. A sentence: every word gives one of its splits, or the unknown label if it has no split. -/
theorem sentence_splits {opts : Opts} (ho : OptsOk opts) (labels : List Str) (unknown : Option Str)
    (samplers : Nat → Nat → Bool) : ∀ (ws : List Str) (out : List Str),
    segmentSentence opts (build opts labels) unknown samplers ws = .ok out →
    ∃ parts, out = parts.flatten ∧ List.Forall₂ (WordTokens opts labels unknown) ws parts := by
  intro ws
  induction ws with
  | nil => intro out h; simp only [segmentSentence] at h; injection h with h; exact ⟨[], h.symm, .nil⟩
  | cons w ws ih =>
    intro out h
    simp only [segmentSentence, bind, Except.bind] at h
    cases hg : getSplit opts (build opts labels) (samplers ws.length) w with
    | error e => rw [hg] at h; cases h
    | ok r =>
      rw [hg] at h
      cases r with
      | none =>
        simp only at h
        split at h
        · rename_i u us
          cases hr : segmentSentence opts (build opts labels) (some (u :: us)) samplers ws with
          | error e => rw [hr] at h; cases h
          | ok o =>
            rw [hr] at h
            injection h with h
            obtain ⟨parts, h1, h2⟩ := ih _ hr
            exact ⟨[u :: us] :: parts, by rw [← h, h1]; rfl,
              .cons (Or.inr ⟨_, rfl, by simp, rfl, split_complete ho labels _ hg⟩) h2⟩
        · cases h
      | some seq =>
        simp only at h
        cases hr : segmentSentence opts (build opts labels) unknown samplers ws with
        | error e => rw [hr] at h; cases h
        | ok o =>
          rw [hr] at h
          injection h with h
          obtain ⟨parts, h1, h2⟩ := ih _ hr
          exact ⟨seq :: parts, by rw [← h, h1]; rfl, .cons (Or.inl (split_sound ho labels _ hg)) h2⟩

/-- C37. A sentence fails only if some word has no split, and there is no unknown label. -/
theorem sentence_fails {opts : Opts} (ho : OptsOk opts) (labels : List Str) (unknown : Option Str)
    (samplers : Nat → Nat → Bool) : ∀ (ws : List Str) (e : Err),
    segmentSentence opts (build opts labels) unknown samplers ws = .error e →
    ∃ w ∈ ws, ∀ out, ¬ Split opts labels w out := by
  intro ws
  induction ws with
  | nil => intro e h; cases h
  | cons w ws ih =>
    intro e h
    simp only [segmentSentence, bind, Except.bind] at h
    cases hg : getSplit opts (build opts labels) (samplers ws.length) w with
    | error e' =>
      rcases split_total ho labels (samplers ws.length) w with ⟨r, hr⟩ | ⟨_, _, hn⟩
      · rw [hr] at hg; cases hg
      · exact ⟨w, by simp, hn w⟩
    | ok r =>
      rw [hg] at h
      cases r with
      | none => exact ⟨w, by simp, split_complete ho labels _ hg⟩
      | some seq =>
        simp only at h
        cases hr : segmentSentence opts (build opts labels) unknown samplers ws with
        | error e' =>
          obtain ⟨w', hw, hn⟩ := ih _ hr
          exact ⟨w', by simp [hw], hn⟩
        | ok o => rw [hr] at h; cases h

/-- C37 is violated for a merge symbol of one character: a label with the symbol may be the last one. -/
theorem short_merge_symbol : ∃ (opts : Opts) (labels : List Str) (word : Str) (out : List Str),
    getSplit opts (build opts labels) (fun _ => false) word = .ok (some out) ∧ ¬ Split opts labels word out := by
  refine ⟨⟨some ['@'], none⟩, [['a', '@']], ['a', '@'], [['a', '@']], by decide +kernel, ?_⟩
  rintro ⟨pieces, inner, last, h1, _, h3, _, h5, _⟩
  simp only [List.mem_singleton] at h3
  subst h3
  exact h5 ['@'] rfl ⟨['a'], rfl⟩

/-! ### Examples -/

/-- The usual options for subwords. -/
def exOpts : Opts := ⟨some "@@".toList, none⟩
/-- The usual options for SentencePiece. -/
def exOptsSp : Opts := ⟨none, some "▁".toList⟩

theorem exOpts_ok : OptsOk exOpts := by
  constructor
  · intro m h; cases h; decide
  · intro wp h; cases h
  · intro m c _ h; cases h
theorem exOptsSp_ok : OptsOk exOptsSp := by
  constructor
  · intro m h; cases h
  · intro wp h; cases h; exact ⟨'▁', rfl⟩
  · intro m c h; cases h

example : getSplit exOpts (build exOpts ["a@@".toList, "b".toList, "ab@@".toList]) (fun _ => false) "ab".toList =
    .ok (some ["a@@".toList, "b".toList]) := by decide +kernel
example : getSplit exOpts (build exOpts ["a@@".toList, "b".toList, "ab".toList]) (fun _ => false) "ab".toList =
    .ok (some ["ab".toList]) := by decide +kernel
example : getSplit exOpts (build exOpts ["a@@".toList, "b@@".toList]) (fun _ => true) "ab".toList = .ok none := by
  decide +kernel
example : getSplit exOptsSp (build exOptsSp ["▁a".toList, "b".toList]) (fun _ => true) "ab".toList =
    .ok (some ["▁a".toList, "b".toList]) := by decide +kernel
example : ∃ out, Split exOpts ["a@@".toList, "b".toList] "ab".toList out :=
  (split_found_iff exOpts_ok rfl _ (fun _ => true) _).1 ⟨["a@@".toList, "b".toList], by decide +kernel⟩

end Verif.BpeTree
