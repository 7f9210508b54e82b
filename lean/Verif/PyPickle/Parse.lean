import Verif.PyPickle.Lemmas
/-
What the parser writes for a literal.
-/
namespace Verif.PyPickle

open Verif.Py

mutual

/-- The opcodes of a literal. -/
def Cst.code (stod : List Nat → Option Nat) : Cst → List Nat
  | .none => [78]
  | .int s ds => intCode (intVal s ds)
  | .float s ip fp => floatCode ((stod (s.toList ++ ip ++ [46] ++ fp)).getD 0)
  | .str _ ps => strHeader (ps.flatMap (fun p => utf8 p.cp)).length ++ ps.flatMap (fun p => utf8 p.cp)
  | .list items => [93, 40] ++ items.code stod ++ [101]
  | .set items => [0x8f, 40] ++ items.code stod ++ [0x90]
  | .dict items => [125, 40] ++ items.code stod ++ [117]

def Items.code (stod : List Nat → Option Nat) : Items → List Nat
  | .nil _ => []
  | .last _ c _ => c.code stod
  | .more _ c _ rest => c.code stod ++ rest.code stod

def DItems.code (stod : List Nat → Option Nat) : DItems → List Nat
  | .nil _ => []
  | .last _ k _ _ v _ => k.code stod ++ v.code stod
  | .more _ k _ _ v _ rest => k.code stod ++ v.code stod ++ rest.code stod

end

/-- `st'` is `st` after `code` was written: all of it, or there is an overflow. -/
structure Wr (cap : Nat) (st : St) (code : List Nat) (st' : St) : Prop where
  err : st'.err = st.err
  ovf : st.ovf = true → st'.ovf = true
  fit : st.ovf = false → st.out.length + code.length ≤ cap → st'.out = st.out ++ code ∧ st'.ovf = false
  nofit : st.ovf = false → cap < st.out.length + code.length → st'.ovf = true

theorem Wr.write (cap : Nat) (st : St) (data : List Nat) : Wr cap st data (write cap st data) := by
  unfold PyPickle.write
  split
  · exact ⟨rfl, fun _ => rfl, fun _ h => by omega, fun _ _ => rfl⟩
  · exact ⟨rfl, fun h => h, fun h _ => ⟨rfl, h⟩, fun _ h => by omega⟩

theorem Wr.inp {cap : Nat} {st st' : St} {code : List Nat} (h : Wr cap st code st') (r r' : List Nat) :
    Wr cap { st with inp := r } code { st' with inp := r' } := ⟨h.err, h.ovf, h.fit, h.nofit⟩

theorem Wr.inp_left {cap : Nat} {st st' : St} {code r : List Nat} (h : Wr cap { st with inp := r } code st') :
    Wr cap st code st' := ⟨h.err, h.ovf, h.fit, h.nofit⟩

theorem Wr.refl {cap : Nat} (st : St) (h : st.ovf = false → st.out.length ≤ cap) (r : List Nat) :
    Wr cap st [] { st with inp := r } :=
  ⟨rfl, fun h => h, fun h _ => ⟨by simp, h⟩, fun h1 h2 => by have := h h1; simp at h2; omega⟩

theorem Wr.trans {cap : Nat} {st st' st'' : St} {c1 c2 : List Nat} (h1 : Wr cap st c1 st')
    (h2 : Wr cap st' c2 st'') : Wr cap st (c1 ++ c2) st'' := by
  refine ⟨h2.err.trans h1.err, fun h => h2.ovf (h1.ovf h), ?_, ?_⟩
  · intro h hl
    rw [List.length_append] at hl
    obtain ⟨e1, e2⟩ := h1.fit h (by omega)
    obtain ⟨e3, e4⟩ := h2.fit e2 (by rw [e1, List.length_append]; omega)
    exact ⟨by rw [e3, e1, List.append_assoc], e4⟩
  · intro h hl
    rw [List.length_append] at hl
    by_cases hf : st.out.length + c1.length ≤ cap
    · obtain ⟨e1, e2⟩ := h1.fit h hf
      exact h2.nofit e2 (by rw [e1, List.length_append]; omega)
    · exact h2.ovf (h1.nofit h (by omega))

theorem write_inp (cap : Nat) (st : St) (d : List Nat) : (write cap st d).inp = st.inp := by
  unfold write; split <;> rfl

/-! ### Steps of `parse` -/

variable (stod : List Nat → Option Nat) (cap : Nat)

theorem isSpace_of_ws {c : Nat} (h : c = 9 ∨ c = 10 ∨ c = 12 ∨ c = 13 ∨ c = 32) : isSpace c = true := by
  rcases h with rfl | rfl | rfl | rfl | rfl <;> rfl

theorem isNumChar_of_ws {c : Nat} (h : c = 9 ∨ c = 10 ∨ c = 12 ∨ c = 13 ∨ c = 32) : isNumChar c = false := by
  rcases h with rfl | rfl | rfl | rfl | rfl <;> rfl

/-- White space is skipped. -/
theorem parse_ws (had : Bool) (r : List Nat) : ∀ (w : List Nat) (f : Nat) (st : St), Ws w → st.inp = w ++ r →
    w.length < f → parse stod cap f had st = parse stod cap (f - w.length) had { st with inp := r } := by
  intro w
  induction w with
  | nil =>
    intro f st _ h _
    rw [List.nil_append] at h
    rw [← h]; rfl
  | cons c w ih =>
    intro f st hw h hf
    obtain ⟨f, rfl⟩ : ∃ g, f = g + 1 := ⟨f - 1, by simp at hf; omega⟩
    rw [parse, h]
    simp only [List.cons_append]
    rw [if_pos (isSpace_of_ws (hw c (by simp))), ih f _ (fun x hx => hw x (by simp [hx])) rfl
      (by simp at hf; omega)]
    simp only [List.length_cons]
    congr 1
    omega

/-- The end of an item: white space and the next character. -/
theorem parse_end (f : Nat) (st : St) (w : List Nat) (c : Nat) (r : List Nat) (hw : Ws w)
    (h : st.inp = w ++ c :: r) (hc : isSpace c = false) (hf : w.length < f) :
    parse stod cap f true st = .ok (some c, true, { st with inp := r }) := by
  rw [parse_ws stod cap true (c :: r) w f st hw h hf]
  obtain ⟨g, hg⟩ : ∃ g, f - w.length = g + 1 := ⟨f - w.length - 1, by omega⟩
  rw [hg, parse]
  simp [hc]

/-- The end of the input after an item. -/
theorem parse_eof (f : Nat) (st : St) (w : List Nat) (hw : Ws w) (h : st.inp = w) (hf : w.length < f) :
    parse stod cap f true st = .ok (none, true, { st with inp := [] }) := by
  rw [parse_ws stod cap true [] w f st hw (by simp [h]) hf]
  obtain ⟨g, hg⟩ : ∃ g, f - w.length = g + 1 := ⟨f - w.length - 1, by omega⟩
  rw [hg, parse]

/-- What `parse` does with an item in front of `rest`: it writes `code` and goes on behind the item. -/
def ParsesTo (text code : List Nat) : Prop :=
  ∀ (f : Nat) (st : St) (rest : List Nat), st.inp = text ++ rest → (∀ c ∈ rest.head?, isNumChar c = false) →
    2 * st.inp.length + 1 ≤ f → st.err = false →
    ∃ f' st', parse stod cap f false st = parse stod cap f' true st' ∧ st'.inp = rest ∧ Wr cap st code st'
      ∧ 2 * rest.length + 1 ≤ f'

theorem head_ws (w : List Nat) (c : Nat) (r : List Nat) (hw : Ws w) (hc : isNumChar c = false) :
    ∀ x ∈ (w ++ c :: r).head?, isNumChar x = false := by
  cases w with
  | nil => intro x hx; simp at hx; rw [← hx]; exact hc
  | cons y w => intro x hx; simp at hx; rw [← hx]; exact isNumChar_of_ws (hw y (by simp))

theorem head_ws' (w : List Nat) (hw : Ws w) : ∀ x ∈ w.head?, isNumChar x = false := by
  cases w with
  | nil => intro x hx; simp at hx
  | cons y w => intro x hx; simp at hx; rw [← hx]; exact isNumChar_of_ws (hw y (by simp))

/-- An item with white space around it and the character after it. -/
theorem parse_item {text code : List Nat} (h : ParsesTo stod cap text code) (f : Nat) (st : St)
    (w₁ w₂ : List Nat) (c : Nat) (r : List Nat) (hw₁ : Ws w₁) (hw₂ : Ws w₂)
    (hin : st.inp = w₁ ++ (text ++ (w₂ ++ c :: r))) (hs : isSpace c = false) (hn : isNumChar c = false)
    (hf : 2 * st.inp.length + 1 ≤ f) (he : st.err = false) :
    ∃ st', parse stod cap f false st = .ok (some c, true, st') ∧ st'.inp = r ∧ Wr cap st code st' := by
  have hlen := congrArg List.length hin
  rw [List.length_append] at hlen
  rw [parse_ws stod cap false _ w₁ f st hw₁ hin (by omega)]
  obtain ⟨f', st', e1, e2, e3, e4⟩ := h (f - w₁.length) { st with inp := text ++ (w₂ ++ c :: r) } (w₂ ++ c :: r) rfl
    (head_ws w₂ c r hw₂ hn) (by simp only; omega) he
  rw [e1, parse_end stod cap f' st' w₂ c r hw₂ e2 hs (by
    have : (w₂ ++ c :: r).length = w₂.length + (r.length + 1) := by simp
    omega)]
  exact ⟨_, rfl, rfl, (e3.inp_left).inp st.inp r⟩

/-- White space only, and the character after it. -/
theorem parse_noitem (f : Nat) (st : St) (w : List Nat) (c : Nat) (r : List Nat) (hw : Ws w)
    (hin : st.inp = w ++ c :: r) (hc : c = 93 ∨ c = 125) (hf : 2 * st.inp.length + 1 ≤ f) :
    parse stod cap f false st = .ok (some c, false, { st with inp := r }) := by
  have hlen := congrArg List.length hin
  rw [List.length_append, List.length_cons] at hlen
  rw [parse_ws stod cap false _ w f st hw hin (by omega)]
  obtain ⟨g, hg⟩ : ∃ g, f - w.length = g + 1 := ⟨f - w.length - 1, by omega⟩
  rw [hg, parse]
  rcases hc with rfl | rfl <;> rfl

/-! ### Simple items -/

theorem parsesTo_none : ParsesTo stod cap [78, 111, 110, 101] [78] := by
  intro f st rest hin _ hf _
  have hlen := congrArg List.length hin
  simp only [List.length_append, List.length_cons, List.length_nil] at hlen
  obtain ⟨f, rfl⟩ : ∃ g, f = g + 1 := ⟨f - 1, by omega⟩
  refine ⟨f, write cap { st with inp := rest } [78], ?_, write_inp _ _ _, ?_, by omega⟩
  · rw [parse, hin]; rfl
  · exact (Wr.write cap { st with inp := rest } [78]).inp_left

theorem parsesTo_str (q : Nat) (ps : List Piece) (hq : q = 39 ∨ q = 34) (hps : ∀ p ∈ ps, p.ok q) :
    ParsesTo stod cap ([q] ++ ps.flatMap Piece.text ++ [q])
      (strHeader (ps.flatMap (fun p => utf8 p.cp)).length ++ ps.flatMap (fun p => utf8 p.cp)) := by
  intro f st rest hin _ hf _
  have hlen := congrArg List.length hin
  simp only [List.length_append, List.length_cons, List.length_nil] at hlen
  obtain ⟨f, rfl⟩ : ∃ g, f = g + 1 := ⟨f - 1, by omega⟩
  have hin' : st.inp = q :: (ps.flatMap Piece.text ++ q :: rest) := by rw [hin]; simp
  have hp := strLoop_pieces q hq rest ps [] hps
  rw [List.nil_append] at hp
  refine ⟨f, parseStr cap { st with inp := ps.flatMap Piece.text ++ q :: rest } q, ?_, ?_, ?_, by omega⟩
  · rw [parse, hin']
    rcases hq with rfl | rfl <;> rfl
  · simp only [parseStr, hp, write_inp]
  · simp only [parseStr, hp]
    exact ((Wr.write cap { st with inp := rest } _).trans (Wr.write cap _ _)).inp_left

theorem numChar_not_space {c : Nat} (h : isNumChar c = true) : isSpace c = false := by
  unfold isNumChar isDigit at h
  unfold isSpace
  simp at h ⊢
  omega

/-- A number: the first character is `first`, the others `l`. -/
theorem parsesTo_num (first : Nat) (l code : List Nat) (h1 : isNumChar first = true)
    (hl : ∀ c ∈ l, isNumChar c = true) (hcode : numCode stod first l = .ok code) :
    ParsesTo stod cap (first :: l) code := by
  intro f st rest hin hrest hf _
  have hlen := congrArg List.length hin
  simp only [List.length_append, List.length_cons] at hlen
  obtain ⟨f, rfl⟩ : ∃ g, f = g + 1 := ⟨f - 1, by omega⟩
  have hnum := numLoop_append l rest hl hrest
  have hns : first ≠ 39 ∧ first ≠ 34 ∧ first ≠ 91 ∧ first ≠ 123 := by
    unfold isNumChar isDigit at h1
    simp at h1; omega
  have hp : parse stod cap (f + 1) false st
      = match parseNum stod cap { st with inp := l ++ rest } first with
        | .error e => .error e
        | .ok (none, st) => .ok (none, true, st)
        | .ok (some c, st) => if isSpace c then parse stod cap f true st else .ok (some c, true, st) := by
    rw [parse, hin]
    simp only [List.cons_append]
    rw [if_neg (by rw [numChar_not_space h1]; simp), if_neg (by simp),
      if_neg (by simp [hns.1, hns.2.1]), if_neg (by simp [hns.2.2.1]), if_neg (by simp [hns.2.2.2]), if_pos h1]
    all_goals rfl
  have hpn : parseNum stod cap { st with inp := l ++ rest } first
      = .ok (rest.head?, write cap { st with inp := rest.tail } code) := by
    unfold parseNum; simp only [hnum, hcode]
  rw [hp, hpn]
  refine ⟨f + 1, { write cap { st with inp := rest.tail } code with inp := rest }, ?_, rfl,
    ((Wr.write cap { st with inp := rest.tail } code).inp_left).inp st.inp rest, by omega⟩
  cases rest with
  | nil =>
    simp only [List.head?_nil, List.tail_nil]
    rw [parse]
    simp only
    have : (write cap { st with inp := [] } code).inp = [] := write_inp _ _ _
    generalize write cap { st with inp := [] } code = s at this ⊢
    obtain ⟨i, o, e, v⟩ := s
    simp only at this; subst this; rfl
  | cons c r =>
    simp only [List.head?_cons, List.tail_cons]
    rw [parse]
    simp only
    have : (write cap { st with inp := r } code).inp = r := write_inp _ _ _
    generalize write cap { st with inp := r } code = s at this ⊢
    obtain ⟨i, o, e, v⟩ := s
    simp only at this; subst this
    by_cases hs : isSpace c = true
    · simp [hs]
    · simp [hs]

theorem isNumChar_digit {d : Nat} (h : 48 ≤ d ∧ d ≤ 57) : isNumChar d = true := by
  unfold isNumChar isDigit; simp; omega

theorem digit_not_point {ds : List Nat} (h : Digits ds) : ds.any (fun c => c == 46) = false := by
  rw [List.any_eq_false]
  intro x hx
  have := h x hx
  simp; omega

theorem parsesTo_int (s : Option Nat) (ds : List Nat) (h : (Cst.int s ds).ok stod) :
    ParsesTo stod cap (Cst.int s ds).text ((Cst.int s ds).code stod) := by
  rw [Cst.ok] at h
  obtain ⟨hs, hne, hd, hlo, hhi⟩ := h
  rw [Cst.text, Cst.code]
  have hst := stol_eq s ds hs hd hne hlo hhi
  have hdn : ∀ c ∈ ds, isNumChar c = true := fun c hc => isNumChar_digit (hd c hc)
  rcases hs with rfl | rfl | rfl
  · cases ds with
    | nil => exact absurd rfl hne
    | cons d ds =>
      refine parsesTo_num stod cap d ds _ (hdn d (by simp)) (fun c hc => hdn c (by simp [hc])) ?_
      unfold numCode
      rw [digit_not_point (fun x hx => hd x (by simp [hx]))]
      simp only [Option.toList_none, List.nil_append] at hst
      simp [hst]
  · refine parsesTo_num stod cap 43 ds _ rfl hdn ?_
    unfold numCode
    rw [digit_not_point hd]
    simp only [Option.toList_some, List.singleton_append] at hst
    simp [hst]
  · refine parsesTo_num stod cap 45 ds _ rfl hdn ?_
    unfold numCode
    rw [digit_not_point hd]
    simp only [Option.toList_some, List.singleton_append] at hst
    simp [hst]

theorem parsesTo_float (s : Option Nat) (ip fp : List Nat) (h : (Cst.float s ip fp).ok stod) :
    ParsesTo stod cap (Cst.float s ip fp).text ((Cst.float s ip fp).code stod) := by
  rw [Cst.ok] at h
  obtain ⟨hs, hip, hfp, hne, hsome⟩ := h
  rw [Cst.text, Cst.code]
  obtain ⟨bits, hb⟩ := Option.isSome_iff_exists.1 hsome
  rw [hb]
  have key : ∀ l : List Nat, (∀ c ∈ l, c ∈ ip ∨ c = 46 ∨ c ∈ fp) → ∀ c ∈ l, isNumChar c = true := by
    intro l hl c hc
    rcases hl c hc with h | h | h
    · exact isNumChar_digit (hip c h)
    · subst h; rfl
    · exact isNumChar_digit (hfp c h)
  rcases hs with rfl | rfl | rfl
  · cases ip with
    | nil => rcases hne with h | h <;> simp at h
    | cons d ip =>
      refine parsesTo_num stod cap d (ip ++ [46] ++ fp) _ (isNumChar_digit (hip d (by simp)))
        (key _ (by simp; tauto)) ?_
      unfold numCode
      rw [if_pos (by simp)]
      simp only [Option.toList_none, List.nil_append, List.cons_append] at hb
      simp only [List.append_assoc, List.cons_append, List.nil_append] at hb ⊢
      rw [hb]; rfl
  · refine parsesTo_num stod cap 43 (ip ++ [46] ++ fp) _ rfl (key _ (by simp)) ?_
    unfold numCode
    rw [if_pos (by simp)]
    simp only [Option.toList_some, List.append_assoc, List.cons_append, List.nil_append] at hb ⊢
    rw [hb]; rfl
  · refine parsesTo_num stod cap 45 (ip ++ [46] ++ fp) _ rfl (key _ (by simp)) ?_
    unfold numCode
    rw [if_pos (by simp)]
    simp only [Option.toList_some, List.append_assoc, List.cons_append, List.nil_append] at hb ⊢
    rw [hb]; rfl

end Verif.PyPickle
