import Verif.LmData.Props
/-
C119: symbols of a line, unknown symbols, collecting the sequences.
-/
namespace Verif.LmData
open Verif Verif.Py

/-! ## Symbols -/

/-- White space: blank, tab, line feed, vertical tab, form feed, carriage return. -/
theorem isSpace_iff (c : Nat) : isSpace c = true ↔ c ∈ [32, 9, 10, 11, 12, 13] := by
  simp [isSpace]
  omega

theorem appendLast_flatten (ret : List Sym) (c : Nat) : (appendLast ret c).reverse.flatten = ret.reverse.flatten ++ [c] := by
  cases ret with
  | nil => rfl
  | cons s t => simp [appendLast]

theorem parse_fold_flatten (brackets : Bool) (s : Text) : ∀ st : PSt,
    (s.foldl (parseStep id false brackets) st).ret.reverse.flatten = st.ret.reverse.flatten ++ s := by
  induction s with
  | nil => intro st; simp
  | cons c t ih =>
    intro st
    rw [List.foldl_cons, ih]
    have : (parseStep id false brackets st c).ret.reverse.flatten = st.ret.reverse.flatten ++ [c] := by
      unfold parseStep
      by_cases hd : st.depth ≠ 0
      · rw [if_pos hd]
        by_cases h1 : c = 91
        · rw [if_pos h1, h1]; exact appendLast_flatten _ _
        · rw [if_neg h1]
          by_cases h2 : c = 93
          · rw [if_pos h2, h2]; exact appendLast_flatten _ _
          · rw [if_neg h2]; exact appendLast_flatten _ _
      · rw [if_neg hd]
        by_cases h1 : (brackets && c == 91) = true
        · have hc : c = 91 := by simp at h1; exact h1.2
          rw [if_pos h1]
          split
          · rw [hc]; exact appendLast_flatten _ _
          · rw [hc]; simp
        · rw [if_neg h1]
          simp
    rw [this]
    simp

/-- With characters as symbols, and without upper case, no character is lost or moved. -/
theorem parse_chars_lossless (brackets : Bool) (s : Text) : (parseSymbols id false brackets s).flatten = s := by
  unfold parseSymbols
  rw [parse_fold_flatten]
  simp

theorem parse_chars_fold (up : Nat → Nat) (brackets : Bool) {s : Text} (h : brackets = true → 91 ∉ s) : ∀ ret : List Sym,
    s.foldl (parseStep up false brackets) ⟨ret, 0⟩ = ⟨(s.map (fun c => [c])).reverse ++ ret, 0⟩ := by
  induction s with
  | nil => intro ret; simp
  | cons c t ih =>
    intro ret
    have hc : ¬ (brackets && c == 91) = true := by
      intro hc
      simp only [Bool.and_eq_true, beq_iff_eq] at hc
      exact h hc.1 (by simp [hc.2])
    have hstep : parseStep up false brackets ⟨ret, 0⟩ c = ⟨[c] :: ret, 0⟩ := by
      unfold parseStep
      simp only [ne_eq, not_true_eq_false, if_false, if_neg hc, Bool.false_eq_true]
    rw [List.foldl_cons, hstep, ih (fun hb hm => h hb (by simp [hm]))]
    simp

/-- Text without brackets: one symbol per character. -/
theorem parse_chars (up : Nat → Nat) (brackets : Bool) {s : Text} (h : brackets = true → 91 ∉ s) :
    parseSymbols up false brackets s = s.map (fun c => [c]) := by
  unfold parseSymbols
  rw [parse_chars_fold up brackets h]
  simp

theorem parse_in_special (up : Nat → Nat) (wb : Bool) {w : Text} (h1 : 91 ∉ w) (h2 : 93 ∉ w) : ∀ (x : Sym) (ret : List Sym),
    w.foldl (parseStep up wb true) ⟨x :: ret, 1⟩ = ⟨(x ++ w.map up) :: ret, 1⟩ := by
  induction w with
  | nil => intro x ret; simp
  | cons c t ih =>
    intro x ret
    simp only [List.mem_cons, not_or] at h1 h2
    have hstep : parseStep up wb true ⟨x :: ret, 1⟩ c = ⟨(x ++ [up c]) :: ret, 1⟩ := by
      unfold parseStep
      rw [if_pos (by simp), if_neg (fun he => h1.1 he.symm), if_neg (fun he => h2.1 he.symm)]
      rfl
    rw [List.foldl_cons, hstep, ih h1.2 h2.2]
    simp

theorem parse_base (up : Nat → Nat) (base : List Sym) (hb : ∀ x ∈ base, x ≠ []) (q : Text) : ∀ (ret : List Sym) (d : Nat),
    (d ≠ 0 → ret ≠ []) → (∀ x ∈ ret, x ≠ []) →
    q.foldl (parseStep up false true) ⟨ret ++ base, d⟩ =
      ⟨(q.foldl (parseStep up false true) ⟨ret, d⟩).ret ++ base, (q.foldl (parseStep up false true) ⟨ret, d⟩).depth⟩ := by
  induction q with
  | nil => intro ret d _ _; rfl
  | cons c t ih =>
    intro ret d hd hr
    simp only [List.foldl_cons]
    have happ : ∀ (c : Nat), ret ≠ [] → appendLast (ret ++ base) c = appendLast ret c ++ base ∧ appendLast ret c ≠ [] ∧
        (∀ x ∈ appendLast ret c, x ≠ []) := by
      intro c hne
      cases ret with
      | nil => exact absurd rfl hne
      | cons s u =>
        refine ⟨rfl, by simp [appendLast], ?_⟩
        intro x hx
        simp only [appendLast, List.mem_cons] at hx
        rcases hx with rfl | hx
        · simp
        · exact hr x (by simp [hx])
    by_cases h0 : d ≠ 0
    · have hne := hd h0
      have hstep : ∀ r, parseStep up false true ⟨r, d⟩ c =
          if c = 91 then ⟨appendLast r 91, d + 1⟩ else if c = 93 then ⟨appendLast r 93, d - 1⟩ else ⟨appendLast r (up c), d⟩ := by
        intro r
        unfold parseStep
        rw [if_pos h0]
      rw [hstep, hstep]
      by_cases h1 : c = 91
      · obtain ⟨e1, e2, e3⟩ := happ 91 hne
        rw [if_pos h1, if_pos h1, e1, ih _ _ (fun _ => e2) e3]
      · rw [if_neg h1, if_neg h1]
        by_cases h2 : c = 93
        · obtain ⟨e1, e2, e3⟩ := happ 93 hne
          rw [if_pos h2, if_pos h2, e1, ih _ _ (fun _ => e2) e3]
        · obtain ⟨e1, e2, e3⟩ := happ (up c) hne
          rw [if_neg h2, if_neg h2, e1, ih _ _ (fun _ => e2) e3]
    · have h0 : d = 0 := by omega
      subst h0
      have hhead : ∀ r : List Sym, (∀ x ∈ r, x ≠ []) → ¬ r.head? = some [] := by
        intro r hr' he
        exact hr' [] (List.mem_of_head? he) rfl
      have hstep : ∀ r : List Sym, (∀ x ∈ r, x ≠ []) → parseStep up false true ⟨r, 0⟩ c =
          if c = 91 then ⟨[91] :: r, 1⟩ else ⟨[c] :: r, 0⟩ := by
        intro r hr'
        unfold parseStep
        simp [hhead r hr']
      have hrb : ∀ x ∈ ret ++ base, x ≠ [] := by
        intro x hx
        rcases List.mem_append.1 hx with hx | hx
        · exact hr x hx
        · exact hb x hx
      rw [hstep _ hrb, hstep _ hr]
      by_cases h1 : c = 91
      · rw [if_pos h1, if_pos h1]
        exact ih ([91] :: ret) 1 (by simp) (by
          intro x hx
          rcases List.mem_cons.1 hx with rfl | hx
          · simp
          · exact hr x hx)
      · rw [if_neg h1, if_neg h1]
        exact ih ([c] :: ret) 0 (by simp) (by
          intro x hx
          rcases List.mem_cons.1 hx with rfl | hx
          · simp
          · exact hr x hx)

/-- A special word in brackets is one symbol, in upper case, and what is behind it does not depend on it. -/
theorem parse_special (up : Nat → Nat) {p w : Text} (hp : 91 ∉ p) (h1 : 91 ∉ w) (h2 : 93 ∉ w) (q : Text) :
    parseSymbols up false true (p ++ 91 :: (w ++ 93 :: q)) =
      p.map (fun c => [c]) ++ [91 :: (w.map up ++ [93])] ++ parseSymbols up false true q := by
  unfold parseSymbols
  rw [List.foldl_append, parse_chars_fold up true (fun _ => hp), List.append_nil, List.foldl_cons]
  have hb : ∀ x ∈ (p.map (fun c => [c])).reverse, x ≠ [] := by
    intro x hx
    simp only [List.mem_reverse, List.mem_map] at hx
    obtain ⟨c, _, rfl⟩ := hx
    simp
  have hhead : ¬ ((p.map (fun c => [c])).reverse).head? = some [] := fun he => hb [] (List.mem_of_head? he) rfl
  have hs : parseStep up false true ⟨(p.map (fun c => [c])).reverse, 0⟩ 91 = ⟨[91] :: (p.map (fun c => [c])).reverse, 1⟩ := by
    unfold parseStep
    simp only [ne_eq, not_true_eq_false, if_false, beq_self_eq_true, Bool.and_true, if_true, if_neg hhead]
  rw [hs, List.foldl_append, parse_in_special up false h1 h2, List.foldl_cons]
  have hs2 : parseStep up false true ⟨([91] ++ w.map up) :: (p.map (fun c => [c])).reverse, 1⟩ 93 =
      ⟨[] ++ ((91 :: (w.map up ++ [93])) :: (p.map (fun c => [c])).reverse), 0⟩ := by
    unfold parseStep
    simp [appendLast]
  rw [hs2, parse_base up _ (by
    intro x hx
    rcases List.mem_cons.1 hx with rfl | hx
    · simp
    · exact hb x hx) q [] 0 (by simp) (by simp)]
  simp

example : parseSymbols (fun c => if 97 ≤ c ∧ c ≤ 122 then c - 32 else c) false true [97, 32, 91, 98, 93, 99] = [[97], [32], [91, 66, 93], [99]] := by
  decide

theorem word_fold (up : Nat → Nat) (brackets : Bool) {w : Text} (hs : ∀ c ∈ w, isSpace c = false) (hb : brackets = true → 91 ∉ w) :
    ∀ (x : Sym) (ret : List Sym), w.foldl (parseStep up true brackets) ⟨x :: ret, 0⟩ = ⟨(x ++ w) :: ret, 0⟩ := by
  induction w with
  | nil => intro x ret; simp
  | cons c t ih =>
    intro x ret
    have hc : ¬ (brackets && c == 91) = true := by
      intro hc
      simp only [Bool.and_eq_true, beq_iff_eq] at hc
      exact hb hc.1 (by simp [hc.2])
    have hstep : parseStep up true brackets ⟨x :: ret, 0⟩ c = ⟨(x ++ [c]) :: ret, 0⟩ := by
      unfold parseStep
      simp only [ne_eq, not_true_eq_false, if_false, if_neg hc, if_true, hs c (by simp), Bool.false_eq_true]
      rfl
    rw [List.foldl_cons, hstep, ih (fun c hc => hs c (by simp [hc])) (fun h hm => hb h (by simp [hm]))]
    simp

theorem word_fold_nil (up : Nat → Nat) (brackets : Bool) {w : Text} (hne : w ≠ []) (hs : ∀ c ∈ w, isSpace c = false)
    (hb : brackets = true → 91 ∉ w) : w.foldl (parseStep up true brackets) ⟨[], 0⟩ = ⟨[w], 0⟩ := by
  cases w with
  | nil => exact absurd rfl hne
  | cons c t =>
    have hc : ¬ (brackets && c == 91) = true := by
      intro hc
      simp only [Bool.and_eq_true, beq_iff_eq] at hc
      exact hb hc.1 (by simp [hc.2])
    have hstep : parseStep up true brackets ⟨[], 0⟩ c = ⟨[c] :: [], 0⟩ := by
      unfold parseStep
      simp only [ne_eq, not_true_eq_false, if_false, if_neg hc, if_true, hs c (by simp), Bool.false_eq_true]
      rfl
    rw [List.foldl_cons, hstep, word_fold up brackets (fun c hc => hs c (by simp [hc])) (fun h hm => hb h (by simp [hm]))]
    simp

theorem words_fold (up : Nat → Nat) (brackets : Bool) : ∀ (ws : List Text) (ret : List Sym), (∀ w ∈ ws, w ≠ [] ∧ (∀ c ∈ w, isSpace c = false) ∧
    (brackets = true → 91 ∉ w)) → ws ≠ [] → (joinSpace ws).foldl (parseStep up true brackets) ⟨[] :: ret, 0⟩ = ⟨ws.reverse ++ ret, 0⟩ := by
  intro ws
  induction ws with
  | nil => intro ret _ h; exact absurd rfl h
  | cons w t ih =>
    intro ret h _
    obtain ⟨h1, h2, h3⟩ := h w (by simp)
    cases t with
    | nil =>
      show w.foldl _ _ = _
      rw [word_fold up brackets h2 h3]
      simp
    | cons w2 t2 =>
      show (w ++ 32 :: joinSpace (w2 :: t2)).foldl _ _ = _
      have hsp : parseStep up true brackets ⟨([] ++ w) :: ret, 0⟩ 32 = ⟨[] :: (w :: ret), 0⟩ := by
        unfold parseStep
        simp [isSpace]
      rw [List.foldl_append, word_fold up brackets h2 h3, List.foldl_cons, hsp, ih (w :: ret) (fun x hx => h x (by simp [hx])) (by simp)]
      simp

theorem parse_joined (up : Nat → Nat) (brackets : Bool) {ws : List Text} (h : ∀ w ∈ ws, w ≠ [] ∧ (∀ c ∈ w, isSpace c = false) ∧
    (brackets = true → 91 ∉ w)) : parseSymbols up true brackets (joinSpace ws) = ws := by
  unfold parseSymbols
  cases ws with
  | nil => rfl
  | cons w t =>
    obtain ⟨h1, h2, h3⟩ := h w (by simp)
    cases t with
    | nil =>
      show (w.foldl (parseStep up true brackets) ⟨[], 0⟩).ret.reverse = _
      rw [word_fold_nil up brackets h1 h2 h3]
      rfl
    | cons w2 t2 =>
      show ((w ++ 32 :: joinSpace (w2 :: t2)).foldl (parseStep up true brackets) ⟨[], 0⟩).ret.reverse = _
      have hsp : parseStep up true brackets ⟨[w], 0⟩ 32 = ⟨[] :: [w], 0⟩ := by
        unfold parseStep
        simp [isSpace]
      rw [List.foldl_append, word_fold_nil up brackets h1 h2 h3, List.foldl_cons, hsp,
        words_fold up brackets (w2 :: t2) [w] (fun x hx => h x (by simp [hx])) (by simp)]
      simp

theorem splitLoop_words : ∀ (fuel : Nat) (s : Text), ∀ w ∈ splitLoop fuel s, w ≠ [] ∧ (∀ c ∈ w, isSpace c = false) ∧ ∀ c ∈ w, c ∈ s := by
  intro fuel
  induction fuel with
  | zero => intro s w hw; cases hw
  | succ fuel ih =>
    intro s w hw
    unfold splitLoop at hw
    simp only at hw
    split at hw
    · cases hw
    · rename_i hne
      rcases List.mem_cons.1 hw with rfl | hw
      · refine ⟨?_, ?_, ?_⟩
        · cases hd : s.dropWhile isSpace with
          | nil => exact absurd hd hne
          | cons a t =>
            have := List.head_dropWhile_not isSpace (l := s) (by rw [hd]; simp)
            simp only [hd, List.head_cons] at this
            simp [List.takeWhile_cons, this]
        · intro c hc
          have := List.mem_takeWhile_imp hc
          simpa using this
        · intro c hc
          exact (List.dropWhile_suffix _).subset ((List.takeWhile_prefix _).subset hc)
      · obtain ⟨h1, h2, h3⟩ := ih _ w hw
        exact ⟨h1, h2, fun c hc => (List.dropWhile_suffix _).subset ((List.dropWhile_suffix _).subset (h3 c hc))⟩

theorem strip_self {s : Text} (h1 : ∀ c, s.head? = some c → isSpace c = false) (h2 : ∀ c, s.getLast? = some c → isSpace c = false) :
    strip s = s := by
  have hd : ∀ (u : Text), (∀ c, u.head? = some c → isSpace c = false) → u.dropWhile isSpace = u := by
    intro u hu
    cases u with
    | nil => rfl
    | cons a t => simp [List.dropWhile_cons, hu a rfl]
  unfold strip
  rw [hd s h1, hd s.reverse (by
    intro c hc
    rw [List.head?_reverse] at hc
    exact h2 c hc), List.reverse_reverse]

theorem strip_joined {ws : List Text} (h : ∀ w ∈ ws, w ≠ [] ∧ ∀ c ∈ w, isSpace c = false) : strip (joinSpace ws) = joinSpace ws := by
  have hkey : ∀ (ws : List Text), (∀ w ∈ ws, w ≠ [] ∧ ∀ c ∈ w, isSpace c = false) →
      (∀ c, (joinSpace ws).head? = some c → isSpace c = false) ∧ (∀ c, (joinSpace ws).getLast? = some c → isSpace c = false) ∧
      (ws ≠ [] → joinSpace ws ≠ []) := by
    intro ws
    induction ws with
    | nil =>
      intro _
      exact ⟨fun c hc => by (cases hc), fun c hc => by (cases hc), fun h => absurd rfl h⟩
    | cons w t ih =>
      intro h
      obtain ⟨h1, h2⟩ := h w (by simp)
      obtain ⟨_, i2, i3⟩ := ih (fun x hx => h x (by simp [hx]))
      cases t with
      | nil =>
        exact ⟨fun c hc => h2 c (List.mem_of_head? hc), fun c hc => h2 c (List.mem_of_getLast? hc), fun _ => h1⟩
      | cons w2 t2 =>
        refine ⟨?_, ?_, ?_⟩
        · intro c hc
          have : (w ++ 32 :: joinSpace (w2 :: t2)).head? = some c := hc
          rw [List.head?_append_of_ne_nil _ h1] at this
          exact h2 c (List.mem_of_head? this)
        · intro c hc
          have : (w ++ 32 :: joinSpace (w2 :: t2)).getLast? = some c := hc
          rw [List.getLast?_append_of_ne_nil _ (by simp), List.getLast?_cons_of_ne_nil (i3 (by simp))] at this
          exact i2 c this
        · intro _
          show w ++ 32 :: joinSpace (w2 :: t2) ≠ []
          simp
  exact strip_self (hkey ws h).1 (hkey ws h).2.1

/-- Words as symbols: the words of the text without the removed characters, between the given prefix and postfix.
Partial: for text without opening brackets. -/
theorem parse_words_partial {o : POpts} (hw : o.wordBased = true) (hc : o.collapse = true) {s : Text} (hb : o.brackets = true → 91 ∉ s) :
    parseOrth o s = o.pre ++ split (s.filter (fun c => !o.remove.contains c)) ++ o.post := by
  have hws := splitLoop_words ((s.filter (fun c => !o.remove.contains c)).length + 1) (s.filter (fun c => !o.remove.contains c))
  have hpre : preprocess o s = joinSpace (split (s.filter (fun c => !o.remove.contains c))) := by
    unfold preprocess
    simp only [hc, if_true]
    split
    · exact strip_joined (fun w h => ⟨(hws w h).1, (hws w h).2.1⟩)
    · rfl
  unfold parseOrth
  rw [hpre, hw, parse_joined o.up o.brackets]
  intro w h
  refine ⟨(hws w h).1, (hws w h).2.1, ?_⟩
  intro hbr hm
  have := (hws w h).2.2 91 hm
  exact hb hbr (List.mem_filter.1 this).1

example : parseOrth ⟨[], [[91, 69, 93]], [40], true, true, id, true, true⟩ [32, 97, 98, 32, 9, 40, 99] = [[97, 98], [99], [91, 69, 93]] := by decide

/-! ## Spaces -/

theorem collapse_collapsed (sp : Sym) (l : List Sym) : Collapsed sp l (collapse sp l) ∧ NoDouble sp (collapse sp l) ∧
    (collapse sp l).head? = l.head? := by
  induction hn : l.length using Nat.strongRecOn generalizing l with
  | _ n ih =>
    match l, hn with
    | [], _ => exact ⟨by simp [collapse]; exact .nil, by simp [collapse, NoDouble], by simp [collapse]⟩
    | [a], _ => exact ⟨by simp [collapse]; exact .cons a .nil, by simp [collapse, NoDouble], by simp [collapse]⟩
    | a :: b :: t, hn =>
      simp only [List.length_cons] at hn
      by_cases h : a = sp ∧ b = sp
      · obtain ⟨h1, h2, h3⟩ := ih (t.length + 1) (by omega) (sp :: t) (by simp)
        have : collapse sp (a :: b :: t) = collapse sp (sp :: t) := by rw [collapse, if_pos h, h.2]
        rw [this, h.1, h.2]
        exact ⟨.drop h1, h2, h3⟩
      · obtain ⟨h1, h2, h3⟩ := ih (t.length + 1) (by omega) (b :: t) (by simp)
        have : collapse sp (a :: b :: t) = a :: collapse sp (b :: t) := by rw [collapse, if_neg h]
        rw [this]
        refine ⟨.cons a h1, ?_, rfl⟩
        cases hc : collapse sp (b :: t) with
        | nil => simp [NoDouble]
        | cons c u =>
          rw [hc] at h2 h3
          simp only [List.head?_cons, Option.some.injEq] at h3
          subst h3
          exact ⟨h, h2⟩

theorem collapse_noDouble {sp : Sym} {l : List Sym} (h : NoDouble sp l) : collapse sp l = l := by
  induction l with
  | nil => simp [collapse]
  | cons a t ih =>
    cases t with
    | nil => simp [collapse]
    | cons b u =>
      rw [collapse, if_neg h.1, ih h.2]

theorem collapse_cons (sp a : Sym) (y : List Sym) : collapse sp (a :: y) = if a = sp ∧ y.head? = some sp then collapse sp y else a :: collapse sp y := by
  cases y with
  | nil => simp [collapse]
  | cons b t =>
    rw [collapse]
    by_cases h : a = sp ∧ b = sp
    · rw [if_pos h, if_pos (by simp [h.1, h.2])]
    · rw [if_neg h, if_neg (by simpa using h)]

theorem collapse_append (sp : Sym) (p x : List Sym) : collapse sp (p ++ collapse sp x) = collapse sp (p ++ x) := by
  induction p with
  | nil => exact collapse_noDouble (collapse_collapsed sp x).2.1
  | cons a t ih =>
    rw [List.cons_append, List.cons_append, collapse_cons, collapse_cons, ih]
    have : (t ++ collapse sp x).head? = (t ++ x).head? := by
      cases t with
      | nil => exact (collapse_collapsed sp x).2.2
      | cons b u => rfl
    rw [this]

theorem collapse_flatMap {sp : Sym} (σ : Sym → List Sym) (hσ : σ sp = [sp]) (l : List Sym) :
    collapse sp ((collapse sp l).flatMap σ) = collapse sp (l.flatMap σ) := by
  induction l with
  | nil => simp [collapse]
  | cons a t ih =>
    rw [collapse_cons]
    by_cases h : a = sp ∧ t.head? = some sp
    · rw [if_pos h, ih, List.flatMap_cons, h.1, hσ]
      cases t with
      | nil => simp at h
      | cons b u =>
        simp only [List.head?_cons, Option.some.injEq] at h
        rw [List.flatMap_cons, h.2, hσ, List.singleton_append, List.singleton_append, collapse_cons sp sp (sp :: _)]
        simp
    · rw [if_neg h, List.flatMap_cons, List.flatMap_cons, ← collapse_append, ih, collapse_append]

theorem collapse_mem {sp : Sym} {l l' : List Sym} (h : Collapsed sp l l') (x : Sym) : x ∈ l' ↔ x ∈ l := by
  induction h with
  | nil => rfl
  | cons a _ ih => simp [ih]
  | drop _ ih => rw [ih]; simp

/-! ## Unknown symbols -/

/-- The replacements which can have been added while reading other sequences. -/
def Learned (o : SOpts) (m0 m : Dict Sym (List Sym)) : Prop :=
  ∀ x, m.get? x = m0.get? x ∨ (o.vocab.contains x = false ∧ (m0.get? x).getD [x] = [x] ∧ m.get? x = some o.unk)

theorem unknown_core (o : SOpts) (m0 : Dict Sym (List Sym)) (hauto : o.autoReplace = true)
    (hu : ∀ u ∈ o.unk, o.vocab.contains u = true ∧ (m0.get? u).getD [u] = [u])
    (hsp : o.vocab.contains o.space = true ∧ (m0.get? o.space).getD [o.space] = [o.space])
    (hid : ∀ s r, r ∈ (m0.get? s).getD [s] → (m0.get? r).getD [r] = [r]) :
    ∀ (fuel : Nat) (m : Dict Sym (List Sym)) (l : List Sym), Learned o m0 m →
      (collapse o.space (replaceAll m l)).countP (fun s => !o.vocab.contains s) < fuel →
      ∃ m', replaceLoop o fuel m l = some (collapse o.space (replaced m0 (fun s => o.vocab.contains s) o.unk l), m') ∧ Learned o m0 m' := by
  have hfix : ∀ (m : Dict Sym (List Sym)) (l : List Sym), Learned o m0 m → ∀ r ∈ collapse o.space (replaceAll m l), (m0.get? r).getD [r] = [r] := by
    intro m l hm r hr
    rw [collapse_mem (collapse_collapsed _ _).1] at hr
    unfold replaceAll at hr
    obtain ⟨s, hs, hr⟩ := List.mem_flatMap.1 hr
    rcases hm s with h | ⟨_, _, h⟩
    · rw [h] at hr
      exact hid s r hr
    · rw [h] at hr
      exact (hu r hr).2
  -- the meaning of the symbols stays the same
  have hsem : ∀ (m : Dict Sym (List Sym)) (l : List Sym), Learned o m0 m →
      collapse o.space (replaced m0 (fun s => o.vocab.contains s) o.unk (collapse o.space (replaceAll m l))) =
        collapse o.space (replaced m0 (fun s => o.vocab.contains s) o.unk l) := by
    intro m l hm
    unfold replaced
    rw [collapse_flatMap _ (by rw [hsp.2]; simp [hsp.1])]
    unfold replaceAll
    rw [List.flatMap_assoc]
    congr 1
    apply List.flatMap_congr
    intro s _
    rcases hm s with h | ⟨h1, h2, h⟩
    · rw [h]
      apply List.flatMap_congr
      intro r hr
      rw [hid s r hr]
      simp
    · rw [h, h2]
      simp only [Option.getD_some, List.flatMap_cons, List.flatMap_nil, List.append_nil, h1, Bool.false_eq_true, if_false]
      conv_rhs => rw [← List.flatMap_singleton' o.unk]
      apply List.flatMap_congr
      intro r hr
      rw [(hu r hr).2]
      simp [(hu r hr).1]
  intro fuel
  induction fuel with
  | zero => intro m l _ h; omega
  | succ fuel ih =>
    intro m l hm hf
    unfold replaceLoop
    simp only [hauto, if_true]
    generalize hl' : collapse o.space (replaceAll m l) = l' at *
    have hfx := hfix m l hm
    have hsm := hsem m l hm
    rw [hl'] at hfx hsm
    cases hx : l'.find? (fun s => !o.vocab.contains s) with
    | none =>
      refine ⟨m, ?_, hm⟩
      simp only
      rw [← hsm]
      have hall : replaced m0 (fun s => o.vocab.contains s) o.unk l' = l' := by
        unfold replaced
        conv_rhs => rw [← List.flatMap_singleton' l']
        apply List.flatMap_congr
        intro r hr
        rw [hfx r hr]
        rw [List.find?_eq_none] at hx
        have := hx r hr
        simp only [Bool.not_eq_eq_eq_not, Bool.not_true, Bool.not_eq_false] at this
        simp [this]
      rw [hall, ← hl', collapse_noDouble (collapse_collapsed _ _).2.1]
    | some x =>
      simp only
      have hxm : x ∈ l' := List.mem_of_find?_eq_some hx
      have hxu : o.vocab.contains x = false := by
        have := List.find?_some hx
        simpa using this
      have hm' : Learned o m0 (m.set x o.unk) := by
        intro y
        rw [Dict.get?_set]
        split
        · rename_i he
          subst he
          exact .inr ⟨hxu, hfx x hxm, rfl⟩
        · exact hm y
      have hcount : (collapse o.space (replaceAll (m.set x o.unk) l')).countP (fun s => !o.vocab.contains s) < fuel := by
        have h1 : ∀ (sp : Sym) (a b : List Sym), Collapsed sp a b → b.countP (fun s => !o.vocab.contains s) ≤ a.countP (fun s => !o.vocab.contains s) := by
          intro sp a b h
          induction h with
          | nil => exact Nat.le_refl _
          | cons a _ ih => simp only [List.countP_cons]; omega
          | drop _ ih => simp only [List.countP_cons] at ih ⊢; omega
        have h2 := h1 _ _ _ (collapse_collapsed o.space (replaceAll (m.set x o.unk) l')).1
        -- every symbol stays or becomes known, and `x` becomes known
        have h3 : ∀ (k : List Sym), (∀ r ∈ k, (m0.get? r).getD [r] = [r]) →
            (replaceAll (m.set x o.unk) k).countP (fun s => !o.vocab.contains s) + k.count x ≤ k.countP (fun s => !o.vocab.contains s) := by
          intro k
          induction k with
          | nil => intro _; simp [replaceAll]
          | cons a t iht =>
            intro hk
            have iht := iht (fun r hr => hk r (by simp [hr]))
            have hunk : o.unk.countP (fun s => !o.vocab.contains s) = 0 := by
              rw [List.countP_eq_zero]
              intro u hu'
              simp [(hu u hu').1]
            unfold replaceAll at iht ⊢
            simp only [List.flatMap_cons, List.countP_append, List.count_cons, List.countP_cons]
            by_cases hax : a = x
            · subst hax
              have hga : ((m.set a o.unk).get? a).getD [a] = o.unk := by rw [Dict.get?_set, if_pos rfl]; rfl
              simp only [hga, hunk, beq_self_eq_true, hxu, Bool.not_false, if_true]
              omega
            · have hne : (a == x) = false := by simpa using hax
              rw [Dict.get?_set, if_neg (fun h => hax h.symm), hne]
              rcases hm a with h | ⟨h4, _, h⟩
              · rw [h, hk a (by simp)]
                simp only [List.countP_cons, List.countP_nil]
                split <;> simp <;> omega
              · rw [h]
                simp only [Option.getD_some, hunk, h4]
                simp
                omega
        have h4 := h3 l' hfx
        have h5 : 0 < l'.count x := List.count_pos_iff.2 hxm
        omega
      obtain ⟨m', e1, e2⟩ := ih (m.set x o.unk) l' hm' hcount
      exact ⟨m', by rw [e1, hsm], e2⟩

/-- With `auto_replace_unknown_symbol`, the symbols of a line are the ones of the replacement map, the unknown ones replaced by the unknown symbol,
with single spaces: they do not depend on the sequences which were read before.
Partial: the unknown symbol and the space have to be known and not replaced themselves, see `unknown_not_known`, and a replacement must not
contain symbols which are replaced again, see `replace_depends_on_history`. -/
theorem unknown_replaced_partial (o : SOpts) (m0 : Dict Sym (List Sym)) (hauto : o.autoReplace = true)
    (hu : ∀ u, o.unknown = some u → o.vocab.contains u = true ∧ (m0.get? u).getD [u] = [u])
    (hsp : o.vocab.contains o.space = true ∧ (m0.get? o.space).getD [o.space] = [o.space])
    (hid : ∀ s r, r ∈ (m0.get? s).getD [s] → (m0.get? r).getD [r] = [r]) (before : List (List Sym)) (l : List Sym) :
    -- whatever was read before, from the given map on
    ∀ m, (∃ ms : List (Dict Sym (List Sym)), ms.length = before.length + 1 ∧ ms.head? = some m0 ∧ ms.getLast? = some m ∧
        ∀ i (h : i < before.length) a b, ms[i]? = some a → ms[i + 1]? = some b → ∃ fuel res, replaceLoop o fuel a before[i] = some (res, b)) →
      ∃ fuel m' out, replaceLoop o fuel m l = some (out, m') ∧ Collapsed o.space (replaced m0 (fun s => o.vocab.contains s) o.unknown.toList l) out ∧
        NoDouble o.space out := by
  have hu' : ∀ u ∈ o.unk, o.vocab.contains u = true ∧ (m0.get? u).getD [u] = [u] := by
    intro u h
    exact hu u (by simpa [SOpts.unk] using h)
  have core := unknown_core o m0 hauto hu' hsp hid
  have hmono : ∀ (fuel k : Nat) (m : Dict Sym (List Sym)) (l : List Sym) r, replaceLoop o fuel m l = some r → replaceLoop o (fuel + k) m l = some r := by
    intro fuel
    induction fuel with
    | zero => intro k m l r h; simp [replaceLoop] at h
    | succ fuel ih =>
      intro k m l r h
      have : fuel + 1 + k = fuel + k + 1 := by omega
      rw [this]
      unfold replaceLoop at h ⊢
      simp only [hauto, if_true] at h ⊢
      split at h
      · exact ih k _ _ _ h
      · exact h
  have hdet : ∀ (f1 f2 : Nat) (m : Dict Sym (List Sym)) (l : List Sym) r1 r2, replaceLoop o f1 m l = some r1 → replaceLoop o f2 m l = some r2 → r1 = r2 := by
    intro f1 f2 m l r1 r2 h1 h2
    have e1 := hmono f1 f2 m l r1 h1
    have e2 := hmono f2 f1 m l r2 h2
    rw [Nat.add_comm f2 f1] at e2
    rw [e1] at e2
    simpa using e2
  rintro m ⟨ms, hlen, hhead, hlast, hsteps⟩
  have hall : ∀ (i : Nat) (a : Dict Sym (List Sym)), ms[i]? = some a → Learned o m0 a := by
    intro i
    induction i with
    | zero =>
      intro a ha
      rw [List.head?_eq_getElem?, ha] at hhead
      simp only [Option.some.injEq] at hhead
      subst hhead
      intro x
      exact .inl rfl
    | succ i ih =>
      intro b hb
      have hib : i + 1 < ms.length := (List.getElem?_eq_some_iff.1 hb).1
      obtain ⟨fuel, res, hr⟩ := hsteps i (by omega) ms[i] b (by rw [List.getElem?_eq_getElem (by omega)]) hb
      obtain ⟨m', h1, h2⟩ := core _ ms[i] _ (ih ms[i] (by rw [List.getElem?_eq_getElem (by omega)])) (Nat.lt_succ_self _)
      have := hdet _ _ _ _ _ _ hr h1
      simp only [Prod.mk.injEq] at this
      rw [this.2]
      exact h2
  have hm : Learned o m0 m := by
    rw [List.getLast?_eq_getElem?] at hlast
    exact hall _ m hlast
  obtain ⟨m', h1, _⟩ := core _ m l hm (Nat.lt_succ_self _)
  exact ⟨_, m', _, h1, (collapse_collapsed _ _).1, (collapse_collapsed _ _).2.1⟩

/-- Symbols `a`, `u` and the space are known, `b` is replaced by `a`; `x` and `y` are unknown. -/
def exOpts : SOpts := ⟨[([97], 0), ([117], 1), ([32], 2)], [32], some [117], true⟩

example : replaceLoop exOpts 5 [([98], [[97]])] [[98], [32], [120], [97], [120], [121]] =
    some ([[97], [32], [117], [97], [117], [117]], [([98], [[97]]), ([120], [[117]]), ([121], [[117]])]) := by decide

example : (∀ u, exOpts.unknown = some u → exOpts.vocab.contains u = true ∧ ((Dict.get? ([([98], [[97]])] : Dict Sym (List Sym)) u)).getD [u] = [u]) ∧
    ∀ s r, r ∈ (Dict.get? ([([98], [[97]])] : Dict Sym (List Sym)) s).getD [s] → (Dict.get? ([([98], [[97]])] : Dict Sym (List Sym)) r).getD [r] = [r] := by
  constructor
  · rintro u h
    simp only [exOpts, Option.some.injEq] at h
    subst h
    decide
  · intro s r hr
    by_cases hs : s = [98]
    · subst hs
      have : r = [97] := by simpa [Dict.get?] using hr
      subst this
      decide
    · have hne : ¬ ([98] = s) := fun h => hs h.symm
      have : r = s := by simpa [Dict.get?, hs, hne] using hr
      subst this
      simp [Dict.get?, hs, hne]

/-- When the unknown symbol is not in the symbol map itself, the loop never ends. -/
theorem unknown_not_known (o : SOpts) (hauto : o.autoReplace = true) {u : Sym} (hu : o.unknown = some u) (hk : o.vocab.contains u = false) :
    ∀ (fuel : Nat) (m : Dict Sym (List Sym)) (l : List Sym), (∃ x ∈ l, ∃ y ∈ (m.get? x).getD [x], o.vocab.contains y = false) →
      replaceLoop o fuel m l = none := by
  intro fuel
  induction fuel with
  | zero => intro m l _; rfl
  | succ fuel ih =>
    rintro m l ⟨x, hx, y, hy, hyu⟩
    unfold replaceLoop
    simp only [hauto, if_true]
    have hmem : y ∈ collapse o.space (replaceAll m l) := by
      rw [collapse_mem (collapse_collapsed _ _).1]
      exact List.mem_flatMap.2 ⟨x, hx, hy⟩
    cases hz : (collapse o.space (replaceAll m l)).find? (fun s => !o.vocab.contains s) with
    | none =>
      rw [List.find?_eq_none] at hz
      have := hz y hmem
      simp [hyu] at this
    | some z =>
      simp only
      apply ih
      refine ⟨z, List.mem_of_find?_eq_some hz, u, ?_, hk⟩
      rw [Dict.get?_set]
      simp [SOpts.unk, hu]

/-- The line `a` has other symbols when it comes with an unknown symbol which was not there before. -/
theorem replace_depends_on_history : ∃ (o : SOpts) (m0 : Dict Sym (List Sym)) (l : List Sym) (m1 : Dict Sym (List Sym)) (r0 r1 : List Sym),
    (∃ fuel m, replaceLoop o fuel m0 l = some (r0, m)) ∧ (∃ fuel l' r', replaceLoop o fuel m0 l' = some (r', m1)) ∧
    (∃ fuel m, replaceLoop o fuel m1 l = some (r1, m)) ∧ r0 ≠ r1 := by
  let o : SOpts := ⟨[([97], 0), ([98], 1), ([99], 2), ([117], 3), ([32], 4)], [32], some [117], true⟩
  let m0 : Dict Sym (List Sym) := [([97], [[98]]), ([98], [[99]])]
  exact ⟨o, m0, [[97], [120]], m0 ++ [([120], [[117]])], [[99], [117]], [[98], [117]], ⟨5, m0 ++ [([120], [[117]])], by decide⟩,
    ⟨5, [[120]], [[117]], by decide⟩, ⟨5, m0 ++ [([120], [[117]])], by decide⟩, by decide⟩

/-- All symbols known: their ids, in order; otherwise none. -/
theorem ids_ok (o : SOpts) (l : List Sym) : ((∀ s ∈ l, o.vocab.contains s = true) ↔ (toIds o l).isSome = true) ∧
    ∀ ids, toIds o l = some ids → ids.map some = l.map o.vocab.get? := by
  induction l with
  | nil => simp [toIds]
  | cons s t ih =>
    unfold toIds
    cases h1 : o.vocab.get? s with
    | none => simp [Dict.contains, h1]
    | some i =>
      cases h2 : toIds o t with
      | none =>
        rw [h2] at ih
        have := ih.1
        simp only [Option.isSome_none, Bool.false_eq_true, iff_false] at this
        simp only [List.mem_cons, forall_eq_or_imp, Option.isSome_none, Bool.false_eq_true, iff_false, not_and]
        exact ⟨fun _ => this, fun ids h => by cases h⟩
      | some r =>
        rw [h2] at ih
        constructor
        · simp only [List.mem_cons, forall_eq_or_imp, Option.isSome_some, iff_true]
          exact ⟨by simp [Dict.contains, h1], ih.1.2 rfl⟩
        · intro ids h
          simp only [Option.some.injEq] at h
          subst h
          simp [h1, ih.2 r rfl]

/-- The delayed data: the start symbol and then the data until the one before the last. Partial: not for an empty sequence, which is an error. -/
theorem delayed_partial (start : Nat) (data : List Nat) : (data ≠ [] → ∃ d, delayed start data = .ok d ∧ d.length = data.length ∧
      d[0]? = some start ∧ ∀ i, i + 1 < data.length → d[i + 1]? = data[i]?) ∧ (data = [] → delayed start data = .error .assertion) := by
  constructor
  · intro hne
    have hl : 0 < data.length := List.length_pos_of_ne_nil hne
    refine ⟨start :: data.dropLast, ?_, by simp; omega, rfl, ?_⟩
    · have : (start :: data.dropLast).length = data.length := by simp; omega
      simp [delayed, pyAssert, this, bind, Except.bind]
    · intro i hi
      rw [List.getElem?_cons_succ, List.getElem?_dropLast, if_pos (by omega)]
  · rintro rfl
    rfl

/-- Ids below the number of labels fit into the dtype. -/
theorem dtype_fits {n m i : Nat} (h : dtypeMax n = .ok m) (hi : i < n) : i ≤ m := by
  unfold dtypeMax at h
  repeat' split at h
  all_goals first | (simp only [Except.ok.injEq] at h; omega) | cases h

/-- Ids of a symbol map with gaps may not fit: three labels with ids 0, 1, 200. -/
theorem dtype_gap : dtypeMax 3 = .ok 127 ∧ ¬ 200 ≤ 127 := by decide

/-! ## Collecting -/

section
variable {D : Type}

/-- The valid sequences, in order. -/
def valid (proc : Nat → Option D) (order : List Nat) : List (Nat × D) := order.filterMap (fun i => (proc i).map (fun d => (i, d)))

theorem collectLoop_ok (proc : Nat → Option D) (err : Bool) (idx : Nat) : ∀ (fuel : Nat) (e : Epoch), e.order.length - e.nextOrth < fuel →
    (err = true → ∀ i ∈ e.order, (proc i).isSome) →
    (match valid proc (e.order.drop e.nextOrth) with
      | [] => e.nextSeq ≤ idx → (e.nextSeq = idx ∨ e.order.length ≤ e.nextOrth) → ∃ e', collectLoop proc err idx fuel e = .ok (none, e') ∧ e'.order = e.order ∧ e'.nextSeq = e.nextSeq ∧
          e'.order.length ≤ e'.nextOrth
      | x :: r => e.nextSeq = idx → ∃ e', collectLoop proc err idx fuel e = .ok (some x, e') ∧ e'.order = e.order ∧ e'.nextSeq = idx + 1 ∧
          valid proc (e'.order.drop e'.nextOrth) = r) := by
  intro fuel
  induction fuel with
  | zero => intro e h; omega
  | succ fuel ih =>
    intro e hf herr
    by_cases hend : e.order.length ≤ e.nextOrth
    · rw [List.drop_eq_nil_of_le hend]
      simp only [valid, List.filterMap_nil]
      intro h _
      refine ⟨e, ?_, rfl, rfl, hend⟩
      unfold collectLoop
      rw [if_pos hend, if_pos h]
    · have hlt : e.nextOrth < e.order.length := by omega
      have hg : e.order.getD e.nextOrth 0 = e.order[e.nextOrth] := by simp [List.getD, hlt]
      rw [List.drop_eq_getElem_cons hlt]
      cases hp : proc e.order[e.nextOrth] with
      | some d =>
        simp only [valid, List.filterMap_cons, hp, Option.map_some]
        intro hs
        refine ⟨{ e with nextOrth := e.nextOrth + 1, nextSeq := idx + 1 }, ?_, rfl, rfl, rfl⟩
        unfold collectLoop
        rw [if_neg hend, if_neg (by simpa using hs), hg, hp]
      | none =>
        have herr' : err = false := by
          cases err with
          | false => rfl
          | true =>
            have := herr rfl _ (List.getElem_mem hlt)
            rw [hp] at this
            simp at this
        have := ih { e with nextOrth := e.nextOrth + 1, skipped := e.skipped + 1 } (by simp only; omega) (by rw [herr']; intro h; cases h)
        simp only [valid, List.filterMap_cons, hp, Option.map_none] at this ⊢
        have hstep : e.nextSeq = idx → collectLoop proc err idx (fuel + 1) e =
            collectLoop proc err idx fuel { e with nextOrth := e.nextOrth + 1, skipped := e.skipped + 1 } := by
          intro hs
          rw [collectLoop, if_neg hend, if_neg (by simpa using hs), hg, hp]
          simp [herr']
        split
        · rename_i hv
          rw [hv] at this
          intro h1 h2
          have hs : e.nextSeq = idx := by
            rcases h2 with h2 | h2
            · exact h2
            · exact absurd h2 hend
          rw [hstep hs]
          exact this h1 (.inl hs)
        · rename_i x r hv
          rw [hv] at this
          intro hs
          rw [hstep hs]
          exact this hs

theorem collectMany_ok (proc : Nat → Option D) (err : Bool) : ∀ (n idx : Nat) (e : Epoch), (err = true → ∀ i ∈ e.order, (proc i).isSome) →
    e.nextSeq ≤ idx → (e.nextSeq = idx ∨ e.order.length ≤ e.nextOrth) →
    ∃ xs e', collectMany proc err n idx e = .ok (xs, e') ∧ xs.length = n ∧
      ∀ i, i < n → xs[i]? = some ((valid proc (e.order.drop e.nextOrth))[i]?) := by
  intro n
  induction n with
  | zero => intro idx e _ _ _; exact ⟨[], e, rfl, rfl, by intro i h; omega⟩
  | succ n ih =>
    intro idx e herr h1 h2
    have h := collectLoop_ok proc err idx (e.order.length + 1) e (by omega) herr
    cases hv : valid proc (e.order.drop e.nextOrth) with
    | nil =>
      rw [hv] at h
      obtain ⟨e', a1, a2, a3, a4⟩ := h h1 h2
      obtain ⟨xs, e'', b1, b2, b3⟩ := ih (idx + 1) e' (by rw [a2]; exact herr) (by rw [a3]; omega) (.inr a4)
      refine ⟨none :: xs, e'', ?_, by simp [b2], ?_⟩
      · simp only [collectMany, collect, a1, bind, Except.bind, b1]
      · intro i hi
        cases i with
        | zero => simp
        | succ i =>
          rw [List.getElem?_cons_succ, b3 i (by omega), List.drop_eq_nil_of_le a4]
          simp [valid]
    | cons x r =>
      rw [hv] at h
      have hs : e.nextSeq = idx := by
        rcases h2 with h2 | h2
        · exact h2
        · rw [List.drop_eq_nil_of_le h2] at hv
          simp [valid] at hv
      obtain ⟨e', a1, a2, a3, a4⟩ := h hs
      obtain ⟨xs, e'', b1, b2, b3⟩ := ih (idx + 1) e' (by rw [a2]; exact herr) (by omega) (.inl a3)
      refine ⟨some x :: xs, e'', ?_, by simp [b2], ?_⟩
      · simp only [collectMany, collect, a1, bind, Except.bind, b1]
      · intro i hi
        cases i with
        | zero => simp
        | succ i =>
          rw [List.getElem?_cons_succ, b3 i (by omega), a4]
          simp

/-- Sequence `i` of the epoch is the `i`-th valid line of the order, with its line number, and there is nothing behind the last one.
With `error_on_invalid_seq` all lines have to be valid. -/
theorem collect_all (proc : Nat → Option D) (err : Bool) (order : List Nat) (herr : err = true → ∀ i ∈ order, (proc i).isSome) (n : Nat) :
    ∃ xs e', collectMany proc err n 0 (initEpoch order).1 = .ok (xs, e') ∧ xs.length = n ∧
      ∀ i, i < n → xs[i]? = some ((order.filterMap (fun j => (proc j).map (fun d => (j, d))))[i]?) :=
  collectMany_ok proc err n 0 (initEpoch order).1 herr (Nat.le_refl _) (.inl rfl)

/-- When lines are skipped, the number of sequences which is told is too large: the last of them does not exist. -/
theorem skipped_missing (proc : Nat → Option D) (order : List Nat) {j : Nat} (hj : j ∈ order) (hn : proc j = none) :
    ∃ xs e', collectMany proc false (initEpoch order).2 0 (initEpoch order).1 = .ok (xs, e') ∧ xs[(initEpoch order).2 - 1]? = some none := by
  have hpos : 0 < order.length := List.length_pos_of_mem hj
  obtain ⟨xs, e', h1, h2, h3⟩ := collect_all proc false order (by intro h; cases h) order.length
  refine ⟨xs, e', h1, ?_⟩
  show xs[order.length - 1]? = some none
  rw [h3 _ (by omega)]
  congr 1
  apply List.getElem?_eq_none
  have : (order.filterMap (fun j => (proc j).map (fun d => (j, d)))).length < order.length := by
    clear h1 h2 h3 hpos
    induction order with
    | nil => cases hj
    | cons a t ih =>
      rw [List.filterMap_cons]
      have hle := List.length_filterMap_le (fun j => (proc j).map (fun d => (j, d))) t
      rcases List.mem_cons.1 hj with rfl | hj
      · simp only [hn, Option.map_none, List.length_cons]
        omega
      · have := ih hj
        cases proc a with
        | none =>
          show (List.filterMap (fun j => (proc j).map (fun d => (j, d))) t).length < t.length + 1
          omega
        | some d =>
          show (List.filterMap (fun j => (proc j).map (fun d => (j, d))) t).length + 1 < t.length + 1
          omega
  omega

/-- With `error_on_invalid_seq`, an epoch with an invalid line ends with an error. -/
theorem invalid_error (proc : Nat → Option D) : ∀ (pre : List Nat) (j : Nat) (post : List Nat), (∀ i ∈ pre, (proc i).isSome) → proc j = none →
    ∃ err, collectMany proc true (pre.length + 1) 0 (initEpoch (pre ++ j :: post)).1 = .error err := by
  have key : ∀ (k : Nat) (e : Epoch) (idx : Nat), e.nextSeq = idx → (∀ i, i < k → ∃ x, e.order[e.nextOrth + i]? = some x ∧ (proc x).isSome) →
      (∃ x, e.order[e.nextOrth + k]? = some x ∧ proc x = none) → ∃ err, collectMany proc true (k + 1) idx e = .error err := by
    intro k
    induction k with
    | zero =>
      rintro e idx hs _ ⟨x, hx, hp⟩
      have hlt : e.nextOrth < e.order.length := (List.getElem?_eq_some_iff.1 hx).1
      have hg : e.order.getD e.nextOrth 0 = x := by
        rw [List.getD]
        simp only [Nat.add_zero] at hx
        rw [hx]
        rfl
      refine ⟨.other "LmDataset: invalid seq", ?_⟩
      simp only [collectMany, collect]
      rw [collectLoop, if_neg (by omega), if_neg (by simpa using hs), hg, hp]
      rfl
    | succ k ih =>
      intro e idx hs h1 h2
      obtain ⟨x, hx, hp⟩ := h1 0 (by omega)
      obtain ⟨d, hd⟩ := Option.isSome_iff_exists.1 hp
      have hlt : e.nextOrth < e.order.length := (List.getElem?_eq_some_iff.1 hx).1
      have hg : e.order.getD e.nextOrth 0 = x := by
        rw [List.getD]
        simp only [Nat.add_zero] at hx
        rw [hx]
        rfl
      obtain ⟨err, herr⟩ := ih { e with nextOrth := e.nextOrth + 1, nextSeq := idx + 1 } (idx + 1) rfl (by
        intro i hi
        have := h1 (i + 1) (by omega)
        simpa [Nat.add_assoc, Nat.add_comm 1 i] using this) (by
        simpa [Nat.add_assoc, Nat.add_comm 1 k] using h2)
      refine ⟨err, ?_⟩
      rw [collectMany, collect, collectLoop, if_neg (by omega), if_neg (by simpa using hs), hg, hd]
      simp only [bind, Except.bind, herr]
  intro pre j post hpre hj
  refine key pre.length _ 0 rfl ?_ ?_
  · intro i hi
    refine ⟨pre[i], ?_, hpre _ (List.getElem_mem hi)⟩
    simp [initEpoch, List.getElem?_append_left hi]
  · exact ⟨j, by simp [initEpoch], hj⟩

end

example : ∃ e', collectMany (fun i => if i = 2 then none else some (i * 10)) false 3 0 (initEpoch [4, 2, 0]).1 =
    .ok ([some (4, 40), some (0, 0), none], e') := ⟨_, by rfl⟩

end Verif.LmData
