import Verif.CtcFsa.Model
import Mathlib.Tactic.Common
/-
The CTC topology as a relation, which strings it accepts, and when a list of edges has this topology.
-/
namespace Verif.CtcFsa
open Verif.Py

variable {A : Type} [DecidableEq A]

/-! ### Labels, symbol by symbol -/

/-- Labels of the rest of a string, after the label `prev` (`none` after a blank). -/
def col (loop : Bool) (blank : A) : Option A → List A → List A
  | _, [] => []
  | prev, a :: w =>
    if a = blank then col loop blank none w
    else if loop = true ∧ prev = some a then col loop blank (some a) w
    else a :: col loop blank (some a) w

theorem col_noloop (blank : A) (w : List A) (prev : Option A) : col false blank prev w = w.filter (fun a => decide (a ≠ blank)) := by
  induction w generalizing prev with
  | nil => rfl
  | cons a w ih =>
    unfold col
    by_cases h : a = blank
    · rw [if_pos h, ih]; simp [h]
    · rw [if_neg h, if_neg (by simp), ih]; simp [h]

theorem squash_cons (a : A) (w : List A) : (squash (a :: w)).filter (fun x => decide (x ≠ a)) = (squash w).filter (fun x => decide (x ≠ a)) := by
  cases w with
  | nil => simp [squash]
  | cons b w =>
    show List.filter _ (if a = b then squash (b :: w) else a :: squash (b :: w)) = _
    split
    · rfl
    · simp

theorem col_spec (blank : A) (w : List A) : (col true blank none w = (squash w).filter (fun a => decide (a ≠ blank))) ∧
    ∀ p, p ≠ blank → p :: col true blank (some p) w = (squash (p :: w)).filter (fun a => decide (a ≠ blank)) := by
  induction w with
  | nil =>
    refine ⟨rfl, ?_⟩
    intro p hp
    simp [squash, col, hp]
  | cons a w ih =>
    have hfirst : col true blank none (a :: w) = (squash (a :: w)).filter (fun a => decide (a ≠ blank)) := by
      unfold col
      by_cases h : a = blank
      · subst h
        rw [if_pos rfl, ih.1, squash_cons]
      · rw [if_neg h, if_neg (by simp)]
        exact ih.2 a h
    refine ⟨hfirst, ?_⟩
    intro p hp
    by_cases h : p = a
    · subst h
      unfold col
      rw [if_neg hp, if_pos ⟨rfl, rfl⟩]
      conv => rhs; unfold squash
      rw [if_pos rfl]
      exact ih.2 p hp
    · conv => rhs; unfold squash
      rw [if_neg h, List.filter_cons, if_pos (by simpa using hp), ← hfirst]
      congr 1
      unfold col
      by_cases h2 : a = blank
      · rw [if_pos h2, if_pos h2]
      · rw [if_neg h2, if_neg h2, if_neg (by rintro ⟨_, h3⟩; injection h3 with h3; exact h h3), if_neg (by simp)]

theorem labels_eq_col (loop : Bool) (blank : A) (w : List A) : labels loop blank w = col loop blank none w := by
  unfold labels
  cases loop
  · rw [col_noloop]; rfl
  · rw [(col_spec blank w).1]; rfl

theorem col_prev_irrel (blank : A) (w : List A) (p : Option A) : col false blank p w = col false blank none w := by
  rw [col_noloop, col_noloop]

/-! ### The topology -/

/-- The edges of the topology for labels `y`: state `2 * i` after `i` labels (and a blank, or the start), state `2 * i + 1` just after label
`i`, end state `F`. -/
inductive Topo (loop : Bool) (blank : A) (y : List A) (F : Nat) : Nat → A → Nat → Prop
  | blankLoop {s t} (i : Nat) : s = 2 * i → t = 2 * i → i ≤ y.length → Topo loop blank y F s blank t
  | label {s c t} (i : Nat) : s = 2 * i → t = 2 * i + 1 → y[i]? = some c → Topo loop blank y F s c t
  | labelEnd {s c t} (i : Nat) : s = 2 * i → t = F → y[i]? = some c → i + 1 = y.length → Topo loop blank y F s c t
  | labelLoop {s c t} (i : Nat) : s = 2 * i + 1 → t = 2 * i + 1 → y[i]? = some c → loop = true → Topo loop blank y F s c t
  | blank {s t} (i : Nat) : s = 2 * i + 1 → t = 2 * i + 2 → i < y.length → Topo loop blank y F s blank t
  | skip {s c c' t} (i : Nat) : s = 2 * i + 1 → t = 2 * i + 3 → y[i]? = some c → y[i + 1]? = some c' → (c ≠ c' ∨ loop = false) → Topo loop blank y F s c' t
  | skipEnd {s c c' t} (i : Nat) : s = 2 * i + 1 → t = F → y[i]? = some c → y[i + 1]? = some c' → (c ≠ c' ∨ loop = false) → i + 2 = y.length →
      Topo loop blank y F s c' t
  | loopEnd {s c t} (i : Nat) : s = 2 * i + 1 → t = F → y[i]? = some c → loop = true → i + 1 = y.length → Topo loop blank y F s c t
  | blankEnd {s t} (i : Nat) : s = 2 * i + 1 → t = F → i + 1 = y.length → Topo loop blank y F s blank t
  | lastEnd {s t} : s = 2 * y.length → t = F → Topo loop blank y F s blank t

variable {loop : Bool} {blank : A} {y : List A} {F : Nat}

/-- States which are not the end: blank states and label states. -/
theorem Topo.src_lt {s t : Nat} {a : A} (h : Topo loop blank y F s a t) : s ≤ 2 * y.length := by
  have hlt : ∀ (i : Nat) (c : A), y[i]? = some c → i < y.length := by
    intro i c h
    by_contra h'
    rw [List.getElem?_eq_none (by omega)] at h; cases h
  cases h with
  | blankLoop i hs ht hi => omega
  | label i hs ht hi => have := hlt _ _ hi; omega
  | labelEnd i hs ht hi => have := hlt _ _ hi; omega
  | labelLoop i hs ht hi => have := hlt _ _ hi; omega
  | blank i hs ht hi => omega
  | skip i hs ht hi hj => have := hlt _ _ hj; omega
  | skipEnd i hs ht hi hj => have := hlt _ _ hj; omega
  | loopEnd i hs ht hi => have := hlt _ _ hi; omega
  | blankEnd i hs ht hi => omega
  | lastEnd hs ht => omega

theorem Topo.dst {s t : Nat} {a : A} (h : Topo loop blank y F s a t) : t ≤ 2 * y.length ∨ t = F := by
  have hlt : ∀ (i : Nat) (c : A), y[i]? = some c → i < y.length := by
    intro i c h
    by_contra h'
    rw [List.getElem?_eq_none (by omega)] at h; cases h
  cases h with
  | blankLoop i hs ht hi => omega
  | label i hs ht hi => have := hlt _ _ hi; omega
  | labelEnd i hs ht hi => exact Or.inr ht
  | labelLoop i hs ht hi => have := hlt _ _ hi; omega
  | blank i hs ht hi => omega
  | skip i hs ht hi hj => have := hlt _ _ hj; omega
  | skipEnd i hs ht hi hj => exact Or.inr ht
  | loopEnd i hs ht hi => exact Or.inr ht
  | blankEnd i hs ht hi => exact Or.inr ht
  | lastEnd hs ht => exact Or.inr ht

/-- Without the end state, the topology is deterministic. -/
theorem Topo.det (hb : blank ∉ y) (hF : 2 * y.length < F) {s t t' : Nat} {a : A} (h : Topo loop blank y F s a t) (h' : Topo loop blank y F s a t')
    (hn : t ≠ F) (hn' : t' ≠ F) : t = t' := by
  have hmem : ∀ (i : Nat) (c : A), y[i]? = some c → c ≠ blank := by
    intro i c hc hcb
    exact hb (hcb ▸ List.mem_of_getElem? hc)
  cases h with
  | blankLoop i hs ht hi =>
    cases h' with
    | blankLoop j hs' ht' hj => omega
    | label j hs' ht' hj => exact (hmem _ _ hj rfl).elim
    | labelEnd j hs' ht' hj => exact (hn' ht').elim
    | labelLoop j hs' => omega
    | blank j hs' => omega
    | skip j hs' => omega
    | skipEnd j hs' ht' => exact (hn' ht').elim
    | loopEnd j hs' ht' => exact (hn' ht').elim
    | blankEnd j hs' ht' => exact (hn' ht').elim
    | lastEnd hs' ht' => exact (hn' ht').elim
  | label i hs ht hi =>
    cases h' with
    | blankLoop j hs' ht' hj => exact (hmem _ _ hi rfl).elim
    | label j hs' ht' hj => omega
    | labelEnd j hs' ht' hj => exact (hn' ht').elim
    | labelLoop j hs' => omega
    | blank j hs' => omega
    | skip j hs' => omega
    | skipEnd j hs' ht' => exact (hn' ht').elim
    | loopEnd j hs' ht' => exact (hn' ht').elim
    | blankEnd j hs' ht' => exact (hn' ht').elim
    | lastEnd hs' ht' => exact (hn' ht').elim
  | labelEnd i hs ht hi => exact (hn ht).elim
  | labelLoop i hs ht hi hl =>
    cases h' with
    | blankLoop j hs' ht' hj => omega
    | label j hs' ht' hj => omega
    | labelEnd j hs' ht' hj => exact (hn' ht').elim
    | labelLoop j hs' => omega
    | blank j hs' => exact (hmem _ _ hi rfl).elim
    | skip j hs' ht' hj hj' hc =>
      have : j = i := by omega
      subst this
      rw [hi] at hj
      injection hj with hj
      rcases hc with hc | hc
      · exact (hc hj.symm).elim
      · rw [hl] at hc; cases hc
    | skipEnd j hs' ht' => exact (hn' ht').elim
    | loopEnd j hs' ht' => exact (hn' ht').elim
    | blankEnd j hs' ht' => exact (hn' ht').elim
    | lastEnd hs' ht' => exact (hn' ht').elim
  | blank i hs ht hi =>
    cases h' with
    | blankLoop j hs' ht' hj => omega
    | label j hs' ht' hj => omega
    | labelEnd j hs' ht' hj => exact (hn' ht').elim
    | labelLoop j hs' ht' hj => exact (hmem _ _ hj rfl).elim
    | blank j hs' => omega
    | skip j hs' ht' hj hj' hc => exact (hmem _ _ hj' rfl).elim
    | skipEnd j hs' ht' => exact (hn' ht').elim
    | loopEnd j hs' ht' => exact (hn' ht').elim
    | blankEnd j hs' ht' => exact (hn' ht').elim
    | lastEnd hs' ht' => exact (hn' ht').elim
  | skip i hs ht hi hi' hc =>
    cases h' with
    | blankLoop j hs' ht' hj => omega
    | label j hs' ht' hj => omega
    | labelEnd j hs' ht' hj => exact (hn' ht').elim
    | labelLoop j hs' ht' hj hl =>
      have : j = i := by omega
      subst this
      rw [hi] at hj
      injection hj with hj
      rcases hc with hc | hc
      · exact (hc hj).elim
      · rw [hl] at hc; cases hc
    | blank j hs' => exact (hmem _ _ hi' rfl).elim
    | skip j hs' ht' hj hj' hc => omega
    | skipEnd j hs' ht' => exact (hn' ht').elim
    | loopEnd j hs' ht' => exact (hn' ht').elim
    | blankEnd j hs' ht' => exact (hn' ht').elim
    | lastEnd hs' ht' => exact (hn' ht').elim
  | skipEnd i hs ht hi => exact (hn ht).elim
  | loopEnd i hs ht hi => exact (hn ht).elim
  | blankEnd i hs ht hi => exact (hn ht).elim
  | lastEnd hs ht => exact (hn ht).elim

/-! ### Runs -/

/-- The string is accepted from a state. -/
def Acc (loop : Bool) (blank : A) (y : List A) (F : Nat) : Nat → List A → Prop
  | s, [] => s = F
  | s, a :: w => ∃ t, Topo loop blank y F s a t ∧ Acc loop blank y F t w

theorem drop_get {i : Nat} {c : A} (h : y[i]? = some c) : y.drop i = c :: y.drop (i + 1) := by
  have hlt : i < y.length := by
    by_contra h'
    rw [List.getElem?_eq_none (by omega)] at h; cases h
  rw [List.drop_eq_getElem_cons hlt]
  rw [List.getElem?_eq_getElem hlt] at h
  injection h with h
  rw [h]

theorem get_of_lt {i : Nat} (h : i < y.length) : ∃ c, y[i]? = some c := ⟨_, List.getElem?_eq_getElem h⟩

theorem lt_of_get {i : Nat} {c : A} (h : y[i]? = some c) : i < y.length := by
  by_contra h'
  rw [List.getElem?_eq_none (by omega)] at h; cases h

theorem not_acc_end (hF : 2 * y.length < F) (a : A) (w : List A) : ¬ Acc loop blank y F F (a :: w) := by
  rintro ⟨t, h, _⟩
  have := h.src_lt
  omega

/-- What remains to be emitted at a state. -/
theorem acc_iff (hb : blank ∉ y) (hF : 2 * y.length < F) : ∀ (w : List A), w ≠ [] →
    (∀ i, i ≤ y.length → (Acc loop blank y F (2 * i) w ↔ col loop blank none w = y.drop i)) ∧
    (∀ (i : Nat) (c : A), y[i]? = some c → (Acc loop blank y F (2 * i + 1) w ↔ col loop blank (some c) w = y.drop (i + 1)))
  | [], h => (h rfl).elim
  | [a], _ => by
    have hmem : ∀ (i : Nat) (c : A), y[i]? = some c → c ≠ blank := by
      rintro i c h rfl
      exact hb (List.mem_of_getElem? h)
    have hacc : ∀ s, Acc loop blank y F s [a] ↔ Topo loop blank y F s a F := by
      intro s
      constructor
      · rintro ⟨t, h1, h2⟩
        have h2' : t = F := h2
        rw [← h2']; rw [h2'] at h1; rw [h2']; exact h1
      · intro h; exact ⟨F, h, rfl⟩
    have hdn : ∀ i, y.drop i = [] ↔ y.length ≤ i := fun i => List.drop_eq_nil_iff
    refine ⟨?_, ?_⟩
    · intro i hi
      rw [hacc]
      unfold col
      by_cases ha : a = blank
      · subst ha
        rw [if_pos rfl]
        simp only [col]
        constructor
        · intro h
          symm
          rw [hdn]
          cases h with
          | blankLoop j hs ht hj => omega
          | label j hs ht hj => exact (hmem _ _ hj rfl).elim
          | labelEnd j hs ht hj => exact (hmem _ _ hj rfl).elim
          | labelLoop j hs ht hj => omega
          | blank j hs ht hj => omega
          | skip j hs ht hj => omega
          | skipEnd j hs ht hj => omega
          | loopEnd j hs ht hj => omega
          | blankEnd j hs ht hj => omega
          | lastEnd hs ht => omega
        · intro h
          have := (hdn i).1 h.symm
          exact .lastEnd (by omega) rfl
      · rw [if_neg ha, if_neg (by simp)]
        simp only [col]
        constructor
        · intro h
          cases h with
          | blankLoop j hs ht hj => omega
          | label j hs ht hj => have := lt_of_get hj; omega
          | labelEnd j hs ht hj hl =>
            have : j = i := by omega
            subst this
            rw [drop_get hj, (hdn (j + 1)).2 (by omega)]
          | labelLoop j hs ht hj => omega
          | blank j hs ht hj => omega
          | skip j hs ht hj => omega
          | skipEnd j hs ht hj => omega
          | loopEnd j hs ht hj => omega
          | blankEnd j hs ht hj => omega
          | lastEnd hs ht => exact (ha rfl).elim
        · intro h
          by_cases hlt : i < y.length
          · obtain ⟨c, hc⟩ := get_of_lt hlt
            rw [drop_get hc] at h
            injection h with h1 h2
            subst h1
            have := (hdn (i + 1)).1 h2.symm
            exact .labelEnd i rfl rfl hc (by omega)
          · rw [(hdn i).2 (by omega)] at h; cases h
    · intro i c hc
      have hil := lt_of_get hc
      rw [hacc]
      unfold col
      by_cases ha : a = blank
      · subst ha
        rw [if_pos rfl]
        simp only [col]
        constructor
        · intro h
          symm
          rw [hdn]
          cases h with
          | blankLoop j hs ht hj => omega
          | label j hs ht hj => omega
          | labelEnd j hs ht hj => omega
          | labelLoop j hs ht hj => exact (hmem _ _ hj rfl).elim
          | blank j hs ht hj => omega
          | skip j hs ht hj hj' => exact (hmem _ _ hj' rfl).elim
          | skipEnd j hs ht hj hj' => exact (hmem _ _ hj' rfl).elim
          | loopEnd j hs ht hj => exact (hmem _ _ hj rfl).elim
          | blankEnd j hs ht hj => omega
          | lastEnd hs ht => omega
        · intro h
          have := (hdn (i + 1)).1 h.symm
          exact .blankEnd i rfl rfl (by omega)
      · rw [if_neg ha]
        by_cases hlp : loop = true ∧ some c = some a
        · rw [if_pos hlp]
          simp only [col]
          obtain ⟨hl, hca⟩ := hlp
          injection hca with hca
          subst hca
          constructor
          · intro h
            symm
            rw [hdn]
            cases h with
            | blankLoop j hs ht hj => exact (ha rfl).elim
            | label j hs ht hj => omega
            | labelEnd j hs ht hj => omega
            | labelLoop j hs ht hj => omega
            | blank j hs ht hj => omega
            | skip j hs ht hj hj' => have := lt_of_get hj'; omega
            | skipEnd j hs ht hj hj' hcc =>
              have : j = i := by omega
              subst this
              rw [hc] at hj
              injection hj with hj
              rcases hcc with hcc | hcc
              · exact (hcc hj.symm).elim
              · rw [hl] at hcc; cases hcc
            | loopEnd j hs ht hj => omega
            | blankEnd j hs ht hj => omega
            | lastEnd hs ht => omega
          · intro h
            have := (hdn (i + 1)).1 h.symm
            exact .loopEnd i rfl rfl hc hl (by omega)
        · rw [if_neg hlp]
          simp only [col]
          have hskip : c ≠ a ∨ loop = false := by
            cases loop
            · exact Or.inr rfl
            · left
              intro h; exact hlp ⟨rfl, by rw [h]⟩
          constructor
          · intro h
            cases h with
            | blankLoop j hs ht hj => exact (ha rfl).elim
            | label j hs ht hj => omega
            | labelEnd j hs ht hj => omega
            | labelLoop j hs ht hj => have := lt_of_get hj; omega
            | blank j hs ht hj => exact (ha rfl).elim
            | skip j hs ht hj hj' => have := lt_of_get hj'; omega
            | skipEnd j hs ht hj hj' hcc hl =>
              have : j = i := by omega
              subst this
              rw [drop_get hj', (hdn (j + 1 + 1)).2 (by omega)]
            | loopEnd j hs ht hj hl =>
              have : j = i := by omega
              subst this
              rw [hc] at hj
              exact (hlp ⟨hl, hj⟩).elim
            | blankEnd j hs ht hj => exact (ha rfl).elim
            | lastEnd hs ht => omega
          · intro h
            by_cases hlt : i + 1 < y.length
            · obtain ⟨c', hc'⟩ := get_of_lt hlt
              rw [drop_get hc'] at h
              injection h with h1 h2
              subst h1
              have := (hdn (i + 1 + 1)).1 h2.symm
              exact .skipEnd i rfl rfl hc hc' hskip (by omega)
            · rw [(hdn (i + 1)).2 (by omega)] at h; cases h
  | a :: b :: w, _ => by
    obtain ⟨ih1, ih2⟩ := acc_iff hb hF (b :: w) (by simp)
    have hmem : ∀ (i : Nat) (c : A), y[i]? = some c → c ≠ blank := by
      rintro i c h rfl
      exact hb (List.mem_of_getElem? h)
    have hacc : ∀ s, Acc loop blank y F s (a :: b :: w) ↔ ∃ t, Topo loop blank y F s a t ∧ t ≠ F ∧ Acc loop blank y F t (b :: w) := by
      intro s
      constructor
      · rintro ⟨t, h1, h2⟩
        refine ⟨t, h1, ?_, h2⟩
        rintro rfl
        exact not_acc_end hF _ _ h2
      · rintro ⟨t, h1, _, h2⟩; exact ⟨t, h1, h2⟩
    have hdn : ∀ i, y.drop i = [] ↔ y.length ≤ i := fun i => List.drop_eq_nil_iff
    refine ⟨?_, ?_⟩
    · intro i hi
      rw [hacc]
      unfold col
      by_cases ha : a = blank
      · subst ha
        rw [if_pos rfl, ← ih1 i hi]
        constructor
        · rintro ⟨t, h1, h2, h3⟩
          have : t = 2 * i := h1.det hb hF (.blankLoop i rfl rfl hi) h2 (by omega)
          rw [← this]; exact h3
        · intro h; exact ⟨2 * i, .blankLoop i rfl rfl hi, by omega, h⟩
      · rw [if_neg ha, if_neg (by simp)]
        constructor
        · rintro ⟨t, h1, h2, h3⟩
          by_cases hlt : i < y.length
          · obtain ⟨c, hc⟩ := get_of_lt hlt
            have hca : c = a := by
              cases h1 with
              | blankLoop j hs ht hj => exact (ha rfl).elim
              | label j hs ht hj =>
                have : j = i := by omega
                subst this
                rw [hc] at hj; injection hj
              | labelEnd j hs ht hj => exact (h2 ht).elim
              | labelLoop j hs ht hj => omega
              | blank j hs ht hj => omega
              | skip j hs ht hj => omega
              | skipEnd j hs ht hj => omega
              | loopEnd j hs ht hj => omega
              | blankEnd j hs ht hj => omega
              | lastEnd hs ht => exact (ha rfl).elim
            subst hca
            have : t = 2 * i + 1 := h1.det hb hF (.label i rfl rfl hc) h2 (by omega)
            rw [this, ih2 i c hc] at h3
            rw [drop_get hc, h3]
          · exfalso
            cases h1 with
            | blankLoop j hs ht hj => exact ha rfl
            | label j hs ht hj => have := lt_of_get hj; omega
            | labelEnd j hs ht hj => exact h2 ht
            | labelLoop j hs ht hj => omega
            | blank j hs ht hj => omega
            | skip j hs ht hj => omega
            | skipEnd j hs ht hj => omega
            | loopEnd j hs ht hj => omega
            | blankEnd j hs ht hj => omega
            | lastEnd hs ht => exact ha rfl
        · intro h
          by_cases hlt : i < y.length
          · obtain ⟨c, hc⟩ := get_of_lt hlt
            rw [drop_get hc] at h
            injection h with h1 h2
            subst h1
            exact ⟨2 * i + 1, .label i rfl rfl hc, by omega, (ih2 i a hc).2 h2⟩
          · rw [(hdn i).2 (by omega)] at h; cases h
    · intro i c hc
      have hil := lt_of_get hc
      rw [hacc]
      unfold col
      by_cases ha : a = blank
      · subst ha
        rw [if_pos rfl]
        rw [← ih1 (i + 1) (by omega)]
        constructor
        · rintro ⟨t, h1, h2, h3⟩
          have : t = 2 * i + 2 := h1.det hb hF (.blank i rfl rfl hil) h2 (by omega)
          rw [this] at h3; exact h3
        · intro h; exact ⟨2 * i + 2, .blank i rfl rfl hil, by omega, h⟩
      · rw [if_neg ha]
        by_cases hlp : loop = true ∧ some c = some a
        · rw [if_pos hlp]
          obtain ⟨hl, hca⟩ := hlp
          injection hca with hca
          subst hca
          rw [← ih2 i c hc]
          constructor
          · rintro ⟨t, h1, h2, h3⟩
            have : t = 2 * i + 1 := h1.det hb hF (.labelLoop i rfl rfl hc hl) h2 (by omega)
            rw [← this]; exact h3
          · intro h; exact ⟨2 * i + 1, .labelLoop i rfl rfl hc hl, by omega, h⟩
        · rw [if_neg hlp]
          have hskip : c ≠ a ∨ loop = false := by
            cases loop
            · exact Or.inr rfl
            · left
              intro h; exact hlp ⟨rfl, by rw [h]⟩
          constructor
          · rintro ⟨t, h1, h2, h3⟩
            cases h1 with
            | blankLoop j hs ht hj => exact (ha rfl).elim
            | label j hs ht hj => omega
            | labelEnd j hs ht hj => exact (h2 ht).elim
            | labelLoop j hs ht hj hl =>
              have : j = i := by omega
              subst this
              rw [hc] at hj
              exact (hlp ⟨hl, hj⟩).elim
            | blank j hs ht hj => exact (ha rfl).elim
            | skip j hs ht hj hj' hcc =>
              have : j = i := by omega
              subst this
              rw [drop_get hj']
              rw [show t = 2 * (j + 1) + 1 by omega, ih2 (j + 1) a hj'] at h3
              rw [h3]
            | skipEnd j hs ht hj => exact (h2 ht).elim
            | loopEnd j hs ht hj => exact (h2 ht).elim
            | blankEnd j hs ht hj => exact (h2 ht).elim
            | lastEnd hs ht => exact (h2 ht).elim
          · intro h
            by_cases hlt : i + 1 < y.length
            · obtain ⟨c', hc'⟩ := get_of_lt hlt
              rw [drop_get hc'] at h
              injection h with h1 h2
              subst h1
              exact ⟨2 * i + 3, .skip i rfl rfl hc hc' hskip, by omega, (ih2 (i + 1) a hc').2 h2⟩
            · rw [(hdn (i + 1)).2 (by omega)] at h; cases h

/-! ### Edges which have this topology -/

/-- The edges at the states of one sequence, from `o` on, are those of the topology, each once, except for edges to a dead state. -/
structure HasTopo (edges : List (Edge A)) (b o : Nat) (loop : Bool) (blank : A) (y : List A) (F : Nat) (dead : Nat → Prop) : Prop where
  sound : ∀ (e : Nat) (x : Edge A) (s : Nat), edges[e]? = some x → x.src = o + s → (s ≤ 2 * y.length ∨ s = F) → ¬ dead x.dst →
    x.seq = b ∧ ∃ t, x.dst = o + t ∧ Topo loop blank y F s x.label t
  complete : ∀ s a t, Topo loop blank y F s a t → ∃ (e : Nat) (x : Edge A), edges[e]? = some x ∧ x.src = o + s ∧ x.dst = o + t ∧ x.label = a
  unique : ∀ (e e' : Nat) (x x' : Edge A) (s t : Nat), edges[e]? = some x → edges[e']? = some x' → x.src = o + s → x'.src = o + s → x.dst = o + t →
    x'.dst = o + t → x.label = x'.label → Topo loop blank y F s x.label t → e = e'
  dead_closed : ∀ (e : Nat) (x : Edge A), edges[e]? = some x → dead x.src → dead x.dst
  dead_end : ¬ dead (o + F)

section
variable {edges : List (Edge A)} {b o : Nat} {dead : Nat → Prop} (ht : HasTopo edges b o loop blank y F dead)
include ht

theorem HasTopo.not_dead : ∀ {w : List A} {p : List Nat} {s : Nat}, IsPath edges s w p (o + F) → ¬ dead s
  | [], [], s, h, hd => by
    have h' : s = o + F := h
    rw [h'] at hd; exact ht.dead_end hd
  | [], _ :: _, s, h, _ => by simp [IsPath] at h
  | _ :: _, [], s, h, _ => by simp [IsPath] at h
  | a :: w, e :: p, s, h, hd => by
    obtain ⟨x, h1, h2, h3, h4⟩ := h
    exact HasTopo.not_dead h4 (ht.dead_closed e x h1 (by rw [h2]; exact hd))

theorem HasTopo.acc_of_path : ∀ {w : List A} {p : List Nat} {s : Nat}, (s ≤ 2 * y.length ∨ s = F) → IsPath edges (o + s) w p (o + F) →
    Acc loop blank y F s w
  | [], [], s, _, h => by
    have h' : o + s = o + F := h
    show s = F
    omega
  | [], _ :: _, s, _, h => by simp [IsPath] at h
  | _ :: _, [], s, _, h => by simp [IsPath] at h
  | a :: w, e :: p, s, hs, h => by
    obtain ⟨x, h1, h2, h3, h4⟩ := h
    obtain ⟨_, t, h5, h6⟩ := ht.sound e x s h1 h2 hs (ht.not_dead h4)
    rw [h5] at h4
    rw [h3] at h6
    exact ⟨t, h6, HasTopo.acc_of_path h6.dst h4⟩

theorem HasTopo.path_of_acc : ∀ {w : List A} {s : Nat}, Acc loop blank y F s w → ∃ p, IsPath edges (o + s) w p (o + F)
  | [], s, h => by
    have h' : s = F := h
    exact ⟨[], by rw [h']; rfl⟩
  | a :: w, s, h => by
    obtain ⟨t, h1, h2⟩ := h
    obtain ⟨e, x, h3, h4, h5, h6⟩ := ht.complete s a t h1
    obtain ⟨p, hp⟩ := HasTopo.path_of_acc h2
    exact ⟨e :: p, x, h3, h4, h6, by rw [h5]; exact hp⟩

theorem path_nil {s t : Nat} {p : List Nat} (h : IsPath edges s [] p t) : p = [] ∧ s = t := by
  cases p with
  | nil => exact ⟨rfl, h⟩
  | cons e p => simp [IsPath] at h

theorem HasTopo.path_unique (hb : blank ∉ y) (hF : 2 * y.length < F) : ∀ {w : List A} {p p' : List Nat} {s : Nat}, (s ≤ 2 * y.length ∨ s = F) →
    IsPath edges (o + s) w p (o + F) → IsPath edges (o + s) w p' (o + F) → p = p'
  | [], p, p', s, _, h, h' => by
    rw [(path_nil ht h).1, (path_nil ht h').1]
  | _ :: _, [], _, s, _, h, _ => by simp [IsPath] at h
  | _ :: _, _, [], s, _, _, h => by simp [IsPath] at h
  | a :: w, e :: p, e' :: p', s, hs, h, h' => by
    obtain ⟨x, h1, h2, h3, h4⟩ := h
    obtain ⟨x', h1', h2', h3', h4'⟩ := h'
    obtain ⟨_, t, h5, h6⟩ := ht.sound e x s h1 h2 hs (ht.not_dead h4)
    obtain ⟨_, t', h5', h6'⟩ := ht.sound e' x' s h1' h2' hs (ht.not_dead h4')
    rw [h5] at h4
    rw [h5'] at h4'
    have htt : t = t' := by
      cases w with
      | nil =>
        have a1 := (path_nil ht h4).2
        have a2 := (path_nil ht h4').2
        omega
      | cons b w =>
        rw [h3] at h6
        rw [h3'] at h6'
        refine h6.det hb hF h6' ?_ ?_
        · rintro rfl
          exact not_acc_end hF _ _ (ht.acc_of_path (Or.inr rfl) h4)
        · rintro rfl
          exact not_acc_end hF _ _ (ht.acc_of_path (Or.inr rfl) h4')
    subst htt
    have hee := ht.unique e e' x x' s t h1 h1' h2 h2' h5 h5' (by rw [h3, h3']) h6
    rw [hee, HasTopo.path_unique hb hF h6.dst h4 h4']

theorem HasTopo.path_seq : ∀ {w : List A} {p : List Nat} {s : Nat}, (s ≤ 2 * y.length ∨ s = F) → IsPath edges (o + s) w p (o + F) →
    ∀ e ∈ p, ∃ x, edges[e]? = some x ∧ x.seq = b
  | [], p, s, _, h, e, he => by
    rw [(path_nil ht h).1] at he; simp at he
  | _ :: _, [], s, _, h, _, _ => by simp [IsPath] at h
  | a :: w, e :: p, s, hs, h, e', he => by
    obtain ⟨x, h1, h2, h3, h4⟩ := h
    obtain ⟨h7, t, h5, h6⟩ := ht.sound e x s h1 h2 hs (ht.not_dead h4)
    rw [h5] at h4
    rcases List.mem_cons.1 he with rfl | he
    · exact ⟨x, h1, h7⟩
    · exact HasTopo.path_seq h6.dst h4 e' he

/-- All together: a string has exactly one path if its labels are `y`, otherwise none. -/
theorem HasTopo.paths (hb : blank ∉ y) (hF : 2 * y.length < F) (w : List A) (hw : w ≠ []) :
    ((∃ p, IsPath edges o w p (o + F)) ↔ labels loop blank w = y) ∧
    (∀ p p', IsPath edges o w p (o + F) → IsPath edges o w p' (o + F) → p = p') ∧
    (∀ p, IsPath edges o w p (o + F) → ∀ e ∈ p, ∃ x, edges[e]? = some x ∧ x.seq = b) := by
  have hacc := (acc_iff (loop := loop) hb hF w hw).1 0 (by omega)
  rw [Nat.mul_zero, List.drop_zero, ← labels_eq_col] at hacc
  refine ⟨⟨?_, ?_⟩, ?_, ?_⟩
  · rintro ⟨p, hp⟩
    exact hacc.1 (ht.acc_of_path (s := 0) (Or.inl (by omega)) hp)
  · intro h
    exact ht.path_of_acc (s := 0) (hacc.2 h)
  · intro p p' h h'
    exact ht.path_unique hb hF (s := 0) (Or.inl (by omega)) h h'
  · intro p h
    exact ht.path_seq (s := 0) (Or.inl (by omega)) h

end

end Verif.CtcFsa
