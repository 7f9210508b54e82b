import Verif.PPrint.Model
/-
C146: the pretty-printed text is the expression of the object.
-/
namespace Verif.PPrint
open Spec

theorem toks_append (a b : List Piece) : toks (a ++ b) = toks a ++ toks b := by
  induction a with
  | nil => rfl
  | cons x a ih => cases x <;> simp [toks, ih]

theorem scan_append (a b : List Piece) (d : Nat) : scan d (a ++ b) = (scan d a).bind fun d' => scan d' b := by
  induction a generalizing d with
  | nil => rfl
  | cons x a ih =>
    cases x with
    | sp => simp only [List.cons_append, scan, ih]
    | nl => simp only [List.cons_append, scan, ih]; split <;> rfl
    | tok s => simp only [List.cons_append, scan, ih]; repeat' split <;> try rfl

/-- Whitespace, without new lines. -/
def Blank (l : List Piece) : Prop := ∀ x ∈ l, x = Piece.sp

theorem blank_toks {l : List Piece} (h : Blank l) : toks l = [] := by
  induction l with
  | nil => rfl
  | cons x l ih => rw [h x (by simp)]; exact ih fun y hy => h y (by simp [hy])

theorem blank_scan {l : List Piece} (h : Blank l) (d : Nat) : scan d l = some d := by
  induction l with
  | nil => rfl
  | cons x l ih => rw [h x (by simp)]; exact ih fun y hy => h y (by simp [hy])

theorem blank_append {a b : List Piece} (ha : Blank a) (hb : Blank b) : Blank (a ++ b) := fun x hx => (List.mem_append.1 hx).elim (ha x) (hb x)

/-- The texts of leaves are no brackets. -/
def NoBracket (s : String) : Prop := s ≠ "[" ∧ s ≠ "(" ∧ s ≠ "{" ∧ s ≠ "]" ∧ s ≠ ")" ∧ s ≠ "}"

mutual
def Ok : Obj → Prop
  | .leaf r => NoBracket r
  | .list xs => OkItems xs
  | .tuple xs => OkItems xs
  | .set xs => OkItems xs
  | .dict xs => OkItems xs
  | .array l t => Ok l ∧ NoBracket ("dtype=numpy." ++ t)
def OkItems : Items → Prop
  | .nil => True
  | .cons k x xs => (∀ s, k = some s → NoBracket s) ∧ Ok x ∧ OkItems xs
end

/-- The text of an object between prefix and postfix. -/
def Core (o : Obj) (core : List Piece) : Prop := toks core = expr o ∧ (Ok o → ∀ d, scan d core = some d)

theorem scan_tok {s : String} (h : NoBracket s) (d : Nat) (l : List Piece) : scan d (.tok s :: l) = scan d l := by
  obtain ⟨h1, h2, h3, h4, h5, h6⟩ := h
  simp [scan, h1, h2, h3, h4, h5, h6]

/-- All of the output in terms of the arguments of the call, whether simple or not. -/
theorem enter_all (b : Bool) (a : Args) (hl : a.multi = false → a.line = []) (c : List Piece) :
    (enter b a).line ++ (enter b a).pre ++ c ++ (enter b a).post ++ (enter b a).linePost = a.line ++ a.pre ++ c ++ a.post ++ a.linePost := by
  unfold enter Args.linePost
  by_cases h : (a.multi && b) = true
  · rw [if_pos h]
    simp only [Bool.and_eq_true] at h
    simp [h.1]
  · rw [if_neg h]

theorem enter_line (b : Bool) (a : Args) (hb : Blank a.line) : Blank (enter b a).line := by
  unfold enter
  split
  · intro x hx; cases hx
  · exact hb

theorem enter_single (b : Bool) (a : Args) (hl : a.multi = false → a.line = []) : (enter b a).multi = false → (enter b a).line = [] := by
  unfold enter
  split
  · intro _; rfl
  · exact hl

/-- What holds for the arguments of all calls. -/
structure Inv (a : Args) : Prop where
  blank : Blank a.line
  single : a.multi = false → a.line = []
  comma : a.multi = false → endsComma a.post = false

theorem inv_enter (b : Bool) (a : Args) (h : Inv a) : Inv (enter b a) := by
  refine ⟨enter_line b a h.blank, enter_single b a h.single, ?_⟩
  unfold enter
  split
  · intro _; simp [endsComma]
  · exact h.comma

theorem inv_sub (a : Args) (pre post : List Piece) (i : Bool) (h : Inv a) : Inv (subArgs a pre post i) := by
  refine ⟨?_, ?_, ?_⟩
  · unfold subArgs
    simp only
    split
    · refine blank_append h.blank ?_
      split
      · intro x hx; simpa using hx
      · intro x hx; cases hx
    · intro x hx; cases hx
  · unfold subArgs
    intro h
    simp only at h ⊢
    simp [h]
  · intro hm
    unfold subArgs at hm ⊢
    simp only at hm ⊢
    rw [hm]
    by_cases hc : endsComma post = true
    · have hc' : (!false && endsComma post) = true := by simp [hc]
      rw [if_pos hc']; simp [endsComma]
    · simp [hc]

/-- The arguments for the inner object of a tuple of one, or of an array. -/
theorem sub_inner (a : Args) (h : Inv a) (pre post : List Piece) (t : String) (ht : t ≠ ",") :
    subArgs a pre (post ++ [.tok t] ++ a.post) false = ⟨pre, post ++ [.tok t] ++ a.post, a.line, a.multi⟩ := by
  have hnc : (!a.multi && endsComma (post ++ [.tok t] ++ a.post)) = false := by
    cases hm : a.multi with
    | true => rfl
    | false =>
      have := h.comma hm
      unfold endsComma at this ⊢
      rw [List.getLast?_append]
      cases hl : a.post.getLast? with
      | none => simp [ht]
      | some x => rw [hl] at this; simpa using this
  unfold subArgs
  rw [hnc]
  cases hm : a.multi with
  | true => simp
  | false => simp [h.single hm]

theorem post_scan (a : Args) (d : Nat) : scan (d + 1) a.linePost = some (d + 1) := by
  unfold Args.linePost
  split <;> simp [scan]

theorem post_toks (a : Args) : toks a.linePost = [] := by
  unfold Args.linePost
  split <;> rfl

/-- A container with items. -/
theorem container (a : Args) (h : Inv a) (o c : String) (items : List Piece) (ex : List String) (ok : Prop)
    (hoc : (o = "[" ∧ c = "]") ∨ (o = "(" ∧ c = ")") ∨ (o = "{" ∧ c = "}")) (ht : toks items = ex)
    (hs : ok → ∀ d, scan (d + 1) items = some (d + 1)) :
    ∃ core, (toks core = o :: ex ++ [c] ∧ (ok → ∀ d, scan d core = some d)) ∧
      printBegin a o ++ items ++ printEnd a c = a.line ++ a.pre ++ core ++ a.post ++ a.linePost := by
  refine ⟨[.tok o] ++ a.linePost ++ items ++ a.line ++ [.tok c], ⟨?_, ?_⟩, ?_⟩
  · simp only [toks_append, post_toks, blank_toks h.blank, ht, toks]
    simp
  · intro hok d
    have e1 : scan d [.tok o] = some (d + 1) := by rcases hoc with ⟨rfl, _⟩ | ⟨rfl, _⟩ | ⟨rfl, _⟩ <;> simp [scan]
    have e2 : scan (d + 1) [.tok c] = some d := by rcases hoc with ⟨_, rfl⟩ | ⟨_, rfl⟩ | ⟨_, rfl⟩ <;> simp [scan]
    simp only [scan_append, e1, post_scan, hs hok, blank_scan h.blank, e2, Option.bind_some]
  · simp [printBegin, printEnd]

/-- One item between key and comma. -/
theorem item_scan (a : Args) (k : Option String) (post : List Piece) (core : List Piece) (x : Obj) (h : Inv a) (hc : Core x core) :
    toks ((subArgs a (keyPre k) post true).line ++ (subArgs a (keyPre k) post true).pre ++ core ++ (subArgs a (keyPre k) post true).post ++
      (subArgs a (keyPre k) post true).linePost) = keyToks k ++ expr x ++ toks post ∧
    ((∀ s, k = some s → NoBracket s) → Ok x → ∀ d, scan (d + 1) ((subArgs a (keyPre k) post true).line ++ (subArgs a (keyPre k) post true).pre ++ core ++
      (subArgs a (keyPre k) post true).post ++ (subArgs a (keyPre k) post true).linePost) = (scan (d + 1) post).bind fun d' => scan d' (subArgs a (keyPre k) post true).linePost) := by
  have hb := (inv_sub a (keyPre k) post true h).blank
  have hpre : (subArgs a (keyPre k) post true).pre = keyPre k := rfl
  obtain ⟨g, hg, hp⟩ : ∃ g, Blank g ∧ (subArgs a (keyPre k) post true).post = post ++ g := by
    unfold subArgs
    simp only
    split
    · exact ⟨[.sp], fun x hx => by simpa using hx, rfl⟩
    · exact ⟨[], fun x hx => by (cases hx), by simp⟩
  rw [hpre, hp]
  constructor
  · simp only [toks_append, blank_toks hb, blank_toks hg, post_toks, hc.1]
    cases k <;> simp [keyPre, keyToks, toks]
  · intro hk hx d
    have e1 : scan (d + 1) (keyPre k) = some (d + 1) := by
      cases k with
      | none => rfl
      | some s => simp only [keyPre]; rw [scan_tok (hk s rfl)]; simp [scan]
    simp only [scan_append, blank_scan hb, e1, hc.2 hx, Option.bind_some]
    cases scan (d + 1) post with
    | none => rfl
    | some d' => simp [blank_scan hg]

mutual
/-- The output of a call. -/
theorem pp_spec (simple : Obj → Bool) : ∀ (o : Obj) (a : Args), Inv a →
    ∃ core, Core o core ∧ pp simple o a = a.line ++ a.pre ++ core ++ a.post ++ a.linePost
  | .leaf r, a, h => by
    refine ⟨[.tok r], ⟨by simp [toks, expr], fun hok d => ?_⟩, ?_⟩
    · rw [scan_tok (by simpa [Ok] using hok)]; rfl
    · rw [pp]; exact enter_all _ a h.single _
  | .list .nil, a, h => by
    refine ⟨[.tok "[", .tok "]"], ⟨by simp [toks, expr, exprs], fun _ d => by simp [scan]⟩, ?_⟩
    rw [pp]; exact enter_all _ a h.single _
  | .list (.cons k x xs), a, h => by
    have hi := inv_enter (simple (.list (.cons k x xs))) a h
    obtain ⟨ht, hs⟩ := items_spec simple (.cons k x xs) _ hi
    obtain ⟨core, hc, he⟩ := container _ hi "[" "]" _ _ (Ok (.list (.cons k x xs))) (Or.inl ⟨rfl, rfl⟩) ht (fun hok => hs (by simpa [Ok] using hok))
    refine ⟨core, ⟨by rw [hc.1, expr], hc.2⟩, ?_⟩
    rw [pp, he]; exact enter_all _ a h.single _
  | .tuple .nil, a, h => by
    refine ⟨[.tok "(", .tok ")"], ⟨by simp [toks, expr], fun _ d => by simp [scan]⟩, ?_⟩
    rw [pp]; exact enter_all _ a h.single _
  | .tuple (.cons k x .nil), a, h => by
    have hi := inv_enter (simple (.tuple (.cons k x .nil))) a h
    have hsub := inv_sub _ ((enter (simple (.tuple (.cons k x .nil))) a).pre ++ [.tok "("])
      ([.tok ",", .tok ")"] ++ (enter (simple (.tuple (.cons k x .nil))) a).post) false hi
    obtain ⟨core, hc, he⟩ := pp_spec simple x _ hsub
    have hin := sub_inner _ hi ((enter (simple (.tuple (.cons k x .nil))) a).pre ++ [.tok "("]) [.tok ","] ")" (by decide)
    refine ⟨[.tok "("] ++ core ++ [.tok ",", .tok ")"], ⟨?_, ?_⟩, ?_⟩
    · simp [toks_append, toks, hc.1, expr]
    · intro hok d
      have e1 : scan d [.tok "("] = some (d + 1) := by simp [scan]
      have e2 : scan (d + 1) [.tok ",", .tok ")"] = some d := by simp [scan]
      have hok' : Ok x := by simp only [Ok, OkItems] at hok; exact hok.2.1
      simp only [scan_append, e1, hc.2 hok', e2, Option.bind_some]
    · rw [← enter_all (simple (.tuple (.cons k x .nil))) a h.single, pp, he]
      have e3 : ([.tok ",", .tok ")"] : List Piece) ++ (enter (simple (.tuple (.cons k x .nil))) a).post =
        [.tok ","] ++ [.tok ")"] ++ (enter (simple (.tuple (.cons k x .nil))) a).post := by simp
      rw [e3, hin]
      simp [Args.linePost]
  | .tuple (.cons k x (.cons k' x' xs)), a, h => by
    have hi := inv_enter (simple (.tuple (.cons k x (.cons k' x' xs)))) a h
    obtain ⟨ht, hs⟩ := items_spec simple (.cons k x (.cons k' x' xs)) _ hi
    obtain ⟨core, hc, he⟩ := container _ hi "(" ")" _ _ (Ok (.tuple (.cons k x (.cons k' x' xs)))) (Or.inr (Or.inl ⟨rfl, rfl⟩)) ht
      (fun hok => hs (by simpa [Ok] using hok))
    refine ⟨core, ⟨by rw [hc.1]; simp [expr], hc.2⟩, ?_⟩
    rw [pp, he]; exact enter_all _ a h.single _
  | .set .nil, a, h => by
    refine ⟨[.tok "set", .tok "(", .tok ")"], ⟨by simp [toks, expr], fun _ d => by simp [scan]⟩, ?_⟩
    rw [pp]; exact enter_all _ a h.single _
  | .set (.cons k x xs), a, h => by
    have hi := inv_enter (simple (.set (.cons k x xs))) a h
    obtain ⟨ht, hs⟩ := items_spec simple (.cons k x xs) _ hi
    obtain ⟨core, hc, he⟩ := container _ hi "{" "}" _ _ (Ok (.set (.cons k x xs))) (Or.inr (Or.inr ⟨rfl, rfl⟩)) ht (fun hok => hs (by simpa [Ok] using hok))
    refine ⟨core, ⟨by rw [hc.1, expr]; intro c; simp at c, hc.2⟩, ?_⟩
    rw [pp, he]; exact enter_all _ a h.single _
  | .dict .nil, a, h => by
    refine ⟨[.tok "{", .tok "}"], ⟨by simp [toks, expr, exprs], fun _ d => by simp [scan]⟩, ?_⟩
    rw [pp]; exact enter_all _ a h.single _
  | .dict (.cons k x xs), a, h => by
    have hi := inv_enter (simple (.dict (.cons k x xs))) a h
    obtain ⟨ht, hs⟩ := items_spec simple (.cons k x xs) _ hi
    obtain ⟨core, hc, he⟩ := container _ hi "{" "}" _ _ (Ok (.dict (.cons k x xs))) (Or.inr (Or.inr ⟨rfl, rfl⟩)) ht (fun hok => hs (by simpa [Ok] using hok))
    refine ⟨core, ⟨by rw [hc.1, expr], hc.2⟩, ?_⟩
    rw [pp, he]; exact enter_all _ a h.single _
  | .array l t, a, h => by
    have hi := inv_enter (simple (.array l t)) a h
    have hsub := inv_sub _ ((enter (simple (.array l t)) a).pre ++ [.tok "numpy.array", .tok "("])
      ([.tok ",", .sp, .tok ("dtype=numpy." ++ t), .tok ")"] ++ (enter (simple (.array l t)) a).post) false hi
    obtain ⟨core, hc, he⟩ := pp_spec simple l _ hsub
    have hin := sub_inner _ hi ((enter (simple (.array l t)) a).pre ++ [.tok "numpy.array", .tok "("]) [.tok ",", .sp, .tok ("dtype=numpy." ++ t)] ")" (by decide)
    refine ⟨[.tok "numpy.array", .tok "("] ++ core ++ [.tok ",", .sp, .tok ("dtype=numpy." ++ t), .tok ")"], ⟨?_, ?_⟩, ?_⟩
    · simp [toks_append, toks, hc.1, expr]
    · intro hok d
      simp only [Ok] at hok
      have e1 : scan d [.tok "numpy.array", .tok "("] = some (d + 1) := by simp [scan]
      have e2 : scan (d + 1) [.tok ",", .sp, .tok ("dtype=numpy." ++ t), .tok ")"] = some d := by
        have e3 : ∀ l, scan (d + 1) (.tok "," :: .sp :: l) = scan (d + 1) l := fun l => by simp [scan]
        rw [e3, scan_tok hok.2]; simp [scan]
      simp only [scan_append, e1, hc.2 hok.1, e2, Option.bind_some]
    · rw [← enter_all (simple (.array l t)) a h.single, pp, he]
      have e3 : ([.tok ",", .sp, .tok ("dtype=numpy." ++ t), .tok ")"] : List Piece) ++ (enter (simple (.array l t)) a).post =
        [.tok ",", .sp, .tok ("dtype=numpy." ++ t)] ++ [.tok ")"] ++ (enter (simple (.array l t)) a).post := by simp
      rw [e3, hin]
      simp [Args.linePost]
/-- The output of the items. -/
theorem items_spec (simple : Obj → Bool) : ∀ (xs : Items) (a : Args), Inv a →
    toks (ppItems simple xs a) = exprs xs ∧ (OkItems xs → ∀ d, scan (d + 1) (ppItems simple xs a) = some (d + 1))
  | .nil, a, h => by simp [ppItems, toks, exprs, scan]
  | .cons k x .nil, a, h => by
    obtain ⟨core, hc, he⟩ := pp_spec simple x _ (inv_sub a (keyPre k) [] true h)
    obtain ⟨f1, f2⟩ := item_scan a k [] core x h hc
    rw [ppItems, he]
    refine ⟨?_, ?_⟩
    · rw [f1, exprs]; simp [toks]
    · intro hok d
      simp only [OkItems] at hok
      rw [f2 hok.1 hok.2.1]
      exact post_scan _ d
  | .cons k x (.cons k' x' xs), a, h => by
    obtain ⟨core, hc, he⟩ := pp_spec simple x _ (inv_sub a (keyPre k) [.tok ","] true h)
    obtain ⟨f1, f2⟩ := item_scan a k [.tok ","] core x h hc
    obtain ⟨g1, g2⟩ := items_spec simple (.cons k' x' xs) a h
    rw [ppItems, he]
    refine ⟨?_, ?_⟩
    · have e : exprs (.cons k x (.cons k' x' xs)) = keyToks k ++ expr x ++ "," :: exprs (.cons k' x' xs) := by
        rw [exprs]; intro c; cases c
      rw [toks_append, f1, g1, e]
      simp [toks]
    · intro hok d
      simp only [OkItems] at hok
      rw [scan_append, f2 hok.1 hok.2.1]
      have : scan (d + 1) [.tok ","] = some (d + 1) := by simp [scan]
      rw [this, Option.bind_some, post_scan, Option.bind_some]
      exact g2 (by simp only [OkItems]; exact hok.2.2) d
end

/-- The text of an object is one Python expression with exactly the tokens of the object, in one logical line: new lines are only within brackets, but for the last one;
whatever the score says. -/
theorem pformat_expr (simple : Obj → Bool) (o : Obj) :
    ∃ body, pformat simple o = body ++ [.nl] ∧ toks body = expr o ∧ (Ok o → scan 0 body = some 0) := by
  obtain ⟨core, hc, he⟩ := pp_spec simple o ⟨[], [], [], true⟩ ⟨fun x hx => by (cases hx), fun h => by (cases h), fun h => by (cases h)⟩
  exact ⟨core, by rw [pformat, he]; simp [Args.linePost], hc.1, fun h => hc.2 h 0⟩

/-- In particular, the score only changes the whitespace. -/
theorem layout_only (simple simple' : Obj → Bool) (o : Obj) : toks (pformat simple o) = toks (pformat simple' o) := by
  obtain ⟨b, h1, h2, _⟩ := pformat_expr simple o
  obtain ⟨b', h1', h2', _⟩ := pformat_expr simple' o
  rw [h1, h1', toks_append, toks_append, h2, h2']

theorem enter_single_id (b : Bool) (a : Args) (h : a.multi = false) : enter b a = a := by simp [enter, h]

theorem sub_count (a : Args) (pre post : List Piece) (i : Bool) (h : a.multi = false) :
    (subArgs a pre post i).multi = false ∧ (subArgs a pre post i).line = [] ∧ (subArgs a pre post i).pre = pre ∧
    (subArgs a pre post i).post.count .nl = post.count .nl := by
  unfold subArgs
  refine ⟨h, by simp [h], rfl, ?_⟩
  simp only
  split <;> simp

theorem key_count (k : Option String) : (keyPre k).count .nl = 0 := by cases k <;> simp [keyPre]

mutual
theorem single_pp (simple : Obj → Bool) : ∀ (o : Obj) (a : Args), a.multi = false → a.line = [] →
    (pp simple o a).count .nl = a.pre.count .nl + a.post.count .nl
  | .leaf r, a, h, hl => by
    rw [pp, enter_single_id _ a h]; simp [printAll, Args.linePost, h, hl]
  | .list .nil, a, h, hl => by rw [pp, enter_single_id _ a h]; simp [printAll, Args.linePost, h, hl]
  | .list (.cons k x xs), a, h, hl => by
    have := single_items simple (.cons k x xs) a h
    rw [pp, enter_single_id _ a h]; simp [printBegin, printEnd, Args.linePost, h, hl, this]
  | .tuple .nil, a, h, hl => by rw [pp, enter_single_id _ a h]; simp [printAll, Args.linePost, h, hl]
  | .tuple (.cons k x .nil), a, h, hl => by
    rw [pp, enter_single_id _ a h]
    obtain ⟨h1, h2, h3, h4⟩ := sub_count a (a.pre ++ [.tok "("]) ([.tok ",", .tok ")"] ++ a.post) false h
    rw [single_pp simple x _ h1 h2, h3, h4]; simp
  | .tuple (.cons k x (.cons k' x' xs)), a, h, hl => by
    have := single_items simple (.cons k x (.cons k' x' xs)) a h
    rw [pp, enter_single_id _ a h]; simp [printBegin, printEnd, Args.linePost, h, hl, this]
  | .set .nil, a, h, hl => by rw [pp, enter_single_id _ a h]; simp [printAll, Args.linePost, h, hl]
  | .set (.cons k x xs), a, h, hl => by
    have := single_items simple (.cons k x xs) a h
    rw [pp, enter_single_id _ a h]; simp [printBegin, printEnd, Args.linePost, h, hl, this]
  | .dict .nil, a, h, hl => by rw [pp, enter_single_id _ a h]; simp [printAll, Args.linePost, h, hl]
  | .dict (.cons k x xs), a, h, hl => by
    have := single_items simple (.cons k x xs) a h
    rw [pp, enter_single_id _ a h]; simp [printBegin, printEnd, Args.linePost, h, hl, this]
  | .array l t, a, h, hl => by
    rw [pp, enter_single_id _ a h]
    obtain ⟨h1, h2, h3, h4⟩ := sub_count a (a.pre ++ [.tok "numpy.array", .tok "("]) ([.tok ",", .sp, .tok ("dtype=numpy." ++ t), .tok ")"] ++ a.post) false h
    rw [single_pp simple l _ h1 h2, h3, h4]; simp
theorem single_items (simple : Obj → Bool) : ∀ (xs : Items) (a : Args), a.multi = false → (ppItems simple xs a).count .nl = 0
  | .nil, a, h => by simp [ppItems]
  | .cons k x .nil, a, h => by
    obtain ⟨h1, h2, h3, h4⟩ := sub_count a (keyPre k) [] true h
    rw [ppItems, single_pp simple x _ h1 h2, h3, h4, key_count]; simp
  | .cons k x (.cons k' x' xs), a, h => by
    obtain ⟨h1, h2, h3, h4⟩ := sub_count a (keyPre k) [.tok ","] true h
    rw [ppItems, List.count_append, single_pp simple x _ h1 h2, h3, h4, key_count, single_items simple (.cons k' x' xs) a h]; simp
end

theorem enter_idem (b : Bool) (a : Args) : enter b (enter b a) = enter b a := by
  by_cases h : (a.multi && b) = true
  · have e : enter b a = ⟨a.line ++ a.pre, a.post ++ [.nl], [], false⟩ := if_pos h
    rw [e]; rfl
  · have e : enter b a = a := if_neg h
    rw [e, e]

theorem pp_enter (simple : Obj → Bool) (o : Obj) (a : Args) : pp simple o a = pp simple o (enter (simple o) a) := by
  cases o with
  | leaf r => rw [pp, pp, enter_idem]
  | list xs => cases xs <;> rw [pp, pp, enter_idem]
  | tuple xs =>
    cases xs with
    | nil => rw [pp, pp, enter_idem]
    | cons k x xs => cases xs <;> rw [pp, pp, enter_idem]
  | set xs => cases xs <;> rw [pp, pp, enter_idem]
  | dict xs => cases xs <;> rw [pp, pp, enter_idem]
  | array l t => rw [pp, pp, enter_idem]

/-- An object which is simple by the score is all on one line. -/
theorem simple_one_line (simple : Obj → Bool) (o : Obj) (h : simple o = true) : (pformat simple o).count .nl = 1 := by
  rw [pformat, pp_enter, h]
  have e : enter true ⟨[], [], [], true⟩ = ⟨[], [.nl], [], false⟩ := rfl
  rw [e, single_pp simple o _ rfl rfl]
  simp

def exObj : Obj := .dict (.cons (some "'a'") (.tuple (.cons none (.leaf "1") .nil)) (.cons (some "'b'") (.list (.cons none (.leaf "2") (.cons none (.set .nil) .nil))) .nil))
example : expr exObj = ["{", "'a'", ":", "(", "1", ",", ")", ",", "'b'", ":", "[", "2", ",", "set", "(", ")", "]", "}"] := by simp [exObj, expr, exprs, keyToks]
example : Ok exObj := by simp [exObj, Ok, OkItems, NoBracket]
example : pformat (fun _ => true) (.list (.cons none (.leaf "1") (.cons none (.leaf "2") .nil))) =
    [.tok "[", .tok "1", .tok ",", .sp, .tok "2", .tok "]", .nl] := by
  simp [pformat, pp, ppItems, enter, subArgs, printBegin, printEnd, printAll, Args.linePost, keyPre, endsComma]
example : pformat (fun _ => false) (.list (.cons none (.leaf "1") (.cons none (.leaf "2") .nil))) =
    [.tok "[", .nl, .sp, .tok "1", .tok ",", .nl, .sp, .tok "2", .nl, .tok "]", .nl] := by
  simp [pformat, pp, ppItems, enter, subArgs, printBegin, printEnd, printAll, Args.linePost, keyPre, endsComma]

end Verif.PPrint
