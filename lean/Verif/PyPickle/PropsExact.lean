import Verif.PyPickle.Props
/-
When the value is exact, when the buffer is large enough, and what happens for texts which are not supported.
-/
namespace Verif.PyPickle

open Verif.Py

variable (stod : List Nat → Option Nat)

theorem wrap32_eq (i : Int) : wrap32 i = i ↔ Int32 i := by
  unfold wrap32 Int32
  omega

mutual

theorem valueWith_iff (c : Cst) : c.valueWith stod wrap32 = c.valueWith stod id ↔ c.allInt Int32 := by
  match c with
  | .none => simp [Cst.valueWith, Cst.allInt]
  | .int s ds => simp [Cst.valueWith, Cst.allInt, wrap32_eq]
  | .float s ip fp => simp [Cst.valueWith, Cst.allInt]
  | .str q ps => simp [Cst.valueWith, Cst.allInt]
  | .list items => simp only [Cst.valueWith, Cst.allInt, Value.list.injEq]; exact valuesWith_iff items
  | .set items => simp only [Cst.valueWith, Cst.allInt, Value.set.injEq]; exact valuesWith_iff items
  | .dict items => simp only [Cst.valueWith, Cst.allInt, Value.dict.injEq]; exact pairsWith_iff items

theorem valuesWith_iff (it : Items) : it.valuesWith stod wrap32 = it.valuesWith stod id ↔ it.allInt Int32 := by
  match it with
  | .nil w => simp [Items.valuesWith, Items.allInt]
  | .last w₁ c w₂ =>
    simp only [Items.valuesWith, Items.allInt, List.cons.injEq, and_true]
    exact valueWith_iff c
  | .more w₁ c w₂ rest =>
    simp only [Items.valuesWith, Items.allInt, List.cons.injEq]
    exact and_congr (valueWith_iff c) (valuesWith_iff rest)

theorem pairsWith_iff (it : DItems) : it.pairsWith stod wrap32 = it.pairsWith stod id ↔ it.allInt Int32 := by
  match it with
  | .nil w => simp [DItems.pairsWith, DItems.allInt]
  | .last w₁ k w₂ w₃ v w₄ =>
    simp only [DItems.pairsWith, DItems.allInt, List.cons.injEq, and_true, Prod.mk.injEq]
    exact and_congr (valueWith_iff k) (valueWith_iff v)
  | .more w₁ k w₂ w₃ v w₄ rest =>
    simp only [DItems.pairsWith, DItems.allInt, List.cons.injEq, Prod.mk.injEq, and_assoc]
    exact and_congr (valueWith_iff k) (and_congr (valueWith_iff v) (pairsWith_iff rest))

end

/-- `literal_eval` (literal_py_to_pickle.py 17-28) of a text given as bytes: the conversion, then `pickle.loads`. -/
def literalEval (stod : List Nat → Option Nat) (inp : List Nat) : Res (Except PErr Value) :=
  match pyToPickle stod inp with
  | .error e => .error e
  | .ok b => .ok (loads b)

/-- C81: for a literal of the supported kind which fits into the buffer, `literal_eval` gives the value of the
literal exactly if all its integers have at most 32 bits. -/
theorem literal_eval_iff (hstod : Bits64 stod) (c : Cst) (h : c.ok stod) (w₁ w₂ : List Nat) (hw₁ : Ws w₁)
    (hw₂ : Ws w₂) (hlen : c.text.length < 2 ^ 64) (hsize : c.size + 3 ≤ (w₁ ++ c.text ++ w₂).length + 1000) :
    literalEval stod (w₁ ++ c.text ++ w₂) = .ok (.ok (c.value stod)) ↔ c.allInt Int32 := by
  obtain ⟨b, e1, e2⟩ := literal_loads stod hstod c h w₁ w₂ hw₁ hw₂ hlen hsize
  unfold literalEval
  rw [e1]
  simp only [e2, Cst.value, Except.ok.injEq]
  exact valueWith_iff stod c

/-! ### The size of the buffer -/

mutual

/-- The number of items of a literal, including itself. -/
def Cst.nodes : Cst → Nat
  | .none | .int _ _ | .float _ _ _ | .str _ _ => 1
  | .list items => 1 + items.nodes
  | .set items => 1 + items.nodes
  | .dict items => 1 + items.nodes

def Items.nodes : Items → Nat
  | .nil _ => 0
  | .last _ c _ => c.nodes
  | .more _ c _ rest => c.nodes + rest.nodes

def DItems.nodes : DItems → Nat
  | .nil _ => 0
  | .last _ k _ _ v _ => k.nodes + v.nodes
  | .more _ k _ _ v _ rest => k.nodes + v.nodes + rest.nodes

end

mutual

theorem size_le (c : Cst) (h : c.ok stod) : c.size ≤ c.text.length + 7 * c.nodes := by
  match c with
  | .none => rw [Cst.size, Cst.text, Cst.nodes]; simp
  | .int s ds =>
    rw [Cst.size, Cst.text, Cst.nodes]
    unfold intSize; split <;> (try split) <;> omega
  | .float s ip fp =>
    rw [Cst.ok] at h
    rw [Cst.size, Cst.text, Cst.nodes]
    simp only [List.length_append, List.length_cons, List.length_nil]
    have : 1 ≤ s.toList.length + ip.length := by
      rcases h.2.2.2.1 with h | ⟨h, _⟩
      · have := List.length_pos_iff.2 h; omega
      · cases s with
        | none => exact absurd rfl h
        | some s => simp
    omega
  | .str q ps =>
    rw [Cst.ok] at h
    rw [Cst.size, Cst.text, Cst.nodes]
    have := pieces_length q ps h.2
    simp only [List.length_append, List.length_cons, List.length_nil]
    unfold strSize; split <;> (try split) <;> omega
  | .list items =>
    rw [Cst.ok] at h
    have := items_size_le items h
    rw [Cst.size, Cst.text, Cst.nodes]
    simp only [List.length_append, List.length_cons, List.length_nil]; omega
  | .set items =>
    rw [Cst.ok] at h
    have := items_size_le items h.1
    rw [Cst.size, Cst.text, Cst.nodes]
    simp only [List.length_append, List.length_cons, List.length_nil]; omega
  | .dict items =>
    rw [Cst.ok] at h
    have := ditems_size_le items h
    rw [Cst.size, Cst.text, Cst.nodes]
    simp only [List.length_append, List.length_cons, List.length_nil]; omega

theorem items_size_le (it : Items) (h : it.ok stod) : it.size ≤ it.text.length + 7 * it.nodes := by
  match it with
  | .nil w => rw [Items.size]; omega
  | .last w₁ c w₂ =>
    rw [Items.ok] at h
    have := size_le c h.2.1
    rw [Items.size, Items.text, Items.nodes]
    simp only [List.length_append]; omega
  | .more w₁ c w₂ rest =>
    rw [Items.ok] at h
    have := size_le c h.2.1
    have := items_size_le rest h.2.2.2
    rw [Items.size, Items.text, Items.nodes]
    simp only [List.length_append]; omega

theorem ditems_size_le (it : DItems) (h : it.ok stod) : it.size ≤ it.text.length + 7 * it.nodes := by
  match it with
  | .nil w => rw [DItems.size]; omega
  | .last w₁ k w₂ w₃ v w₄ =>
    rw [DItems.ok] at h
    have := size_le k h.2.1
    have := size_le v h.2.2.2.2.2.1
    rw [DItems.size, DItems.text, DItems.nodes]
    simp only [List.length_append]; omega
  | .more w₁ k w₂ w₃ v w₄ rest =>
    rw [DItems.ok] at h
    have := size_le k h.2.1
    have := size_le v h.2.2.2.2.2.1
    have := ditems_size_le rest h.2.2.2.2.2.2.2
    rw [DItems.size, DItems.text, DItems.nodes]
    simp only [List.length_append]; omega

end

/-- C81: a literal with at most 142 items always fits. -/
theorem literal_eval_small (hstod : Bits64 stod) (c : Cst) (h : c.ok stod) (w₁ w₂ : List Nat) (hw₁ : Ws w₁)
    (hw₂ : Ws w₂) (hlen : c.text.length < 2 ^ 64) (hn : c.nodes ≤ 142) (hi : c.allInt Int32) :
    literalEval stod (w₁ ++ c.text ++ w₂) = .ok (.ok (c.value stod)) := by
  refine (literal_eval_iff stod hstod c h w₁ w₂ hw₁ hw₂ hlen ?_).2 hi
  have := size_le stod c h
  simp only [List.length_append]
  omega

/-- `n` times `0.5, `. -/
def halves : Nat → List Nat → Items
  | 0, w => .nil w
  | n + 1, w => .more w (.float none [48] [53]) [] (halves n [32])

theorem halves_facts (hs : (stod [48, 46, 53]).isSome) : ∀ (n : Nat) (w : List Nat), Ws w →
    (halves n w).ok stod ∧ (halves n w).text.length ≤ w.length + 5 * n ∧ (halves n w).size = 9 * n := by
  intro n
  induction n with
  | zero => intro w hw; simp [halves, Items.ok, Items.text, Items.size, hw]
  | succ n ih =>
    intro w hw
    obtain ⟨h1, h2, h3⟩ := ih [32] (by intro c hc; simp at hc; omega)
    refine ⟨?_, ?_, ?_⟩
    · rw [halves, Items.ok, Cst.ok]
      refine ⟨hw, ⟨Or.inl rfl, ?_, ?_, Or.inl (by simp), hs⟩, by intro c hc; simp at hc, h1⟩
      · intro d hd; simp at hd; omega
      · intro d hd; simp at hd; omega
    · rw [halves, Items.text, Cst.text]
      simp only [List.length_append, List.length_cons, List.length_nil, Option.toList_none] at h2 ⊢
      omega
    · rw [halves, Items.size, Cst.size, h3]; omega

/-- C82: the buffer is not always large enough: a list of 250 or more times `0.5, ` is a literal of the supported kind,
but `literal_eval` fails. -/
theorem floats_overflow (hs : (stod [48, 46, 53]).isSome) (n : Nat) (hn : 250 ≤ n) :
    (Cst.list (halves n [])).ok stod ∧
      literalEval stod (Cst.list (halves n [])).text = .error .assertion := by
  obtain ⟨h1, h2, h3⟩ := halves_facts stod hs n [] (by intro c hc; simp at hc)
  have hok : (Cst.list (halves n [])).ok stod := by rw [Cst.ok]; exact h1
  refine ⟨hok, ?_⟩
  have := literal_overflow stod _ hok [] [] (by intro c hc; simp at hc) (by intro c hc; simp at hc) (by
    simp only [List.nil_append, List.append_nil]
    rw [Cst.text, Cst.size, h3]
    simp only [List.length_append, List.length_cons, List.length_nil] at h2 ⊢
    omega)
  rw [List.nil_append, List.append_nil] at this
  unfold literalEval
  rw [this]

/-! ### Texts which are not supported -/

/-- C82: behind the first literal the rest of the text is ignored: if a character follows which is neither white space
nor can belong to a number, the result is the one for the text without the rest. -/
theorem trailing_ignored (cap : Nat) (c : Cst) (h : c.ok stod) (w₁ w₂ : List Nat) (hw₁ : Ws w₁) (hw₂ : Ws w₂)
    (x : Nat) (junk : List Nat) (hx : isSpace x = false) (hx' : isNumChar x = false) :
    ∃ st, fullPass stod cap (w₁ ++ (c.text ++ (w₂ ++ x :: junk))) = .ok st
      ∧ Wr cap ⟨w₁ ++ (c.text ++ (w₂ ++ x :: junk)), [], false, false⟩ ([0x80, 3] ++ c.code stod ++ [46]) st := by
  unfold fullPass fuel
  generalize hinp : w₁ ++ (c.text ++ (w₂ ++ x :: junk)) = inp
  have hw := (Wr.write cap ⟨inp, [], false, false⟩ [0x80]).trans (Wr.write cap _ [3])
  generalize hst0 : write cap (write cap ⟨inp, [], false, false⟩ [0x80]) [3] = st0 at hw
  have hin0 : st0.inp = inp := by rw [← hst0, write_inp, write_inp]
  obtain ⟨st', e1, e2, e3⟩ := parse_item stod cap (parsesTo stod cap c h) (2 * inp.length + 1) st0 w₁ w₂ x junk hw₁ hw₂
    (by rw [hin0, hinp]) hx hx' (by rw [hin0]) (by rw [hw.err])
  rw [e1]
  simp only
  exact ⟨_, rfl, (hw.trans e3).trans (Wr.write cap _ [46])⟩

/-- C82: a text which does not begin with a quote, a bracket, a brace, a number or `N` is rejected. -/
theorem root_rejected (w : List Nat) (hw : Ws w) (x : Nat) (r : List Nat) (hx : isSpace x = false)
    (hx' : isNumChar x = false) (h : x ≠ 39 ∧ x ≠ 34 ∧ x ≠ 91 ∧ x ≠ 123 ∧ x ≠ 78) :
    literalEval stod (w ++ x :: r) = .error .assertion := by
  unfold literalEval pyToPickle pyToPickleC fullPass fuel
  simp only
  generalize hcap : (w ++ x :: r).length + 1000 = cap
  generalize hst0 : write cap (write cap ⟨w ++ x :: r, [], false, false⟩ [0x80]) [3] = st0
  have hin0 : st0.inp = w ++ x :: r := by rw [← hst0, write_inp, write_inp]
  have hl : (w ++ x :: r).length = w.length + (r.length + 1) := by simp
  rw [parse_ws stod cap false (x :: r) w _ st0 hw hin0 (by omega)]
  obtain ⟨g, hg⟩ : ∃ g, 2 * (w ++ x :: r).length + 1 - w.length = g + 1 := ⟨2 * (w ++ x :: r).length - w.length, by omega⟩
  rw [hg, parse]
  simp [hx, hx', h, parseError]

end Verif.PyPickle
