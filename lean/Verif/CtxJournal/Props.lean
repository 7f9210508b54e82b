import Verif.CtxJournal.Model
/-
C138: control flow contexts, random journal, tensors of a state.
-/
namespace Verif.CtxJournal
open Verif Verif.Py

theorem search_iff (p c : Ctx) (hp : p ≠ []) : searchUp p c = true ↔ ∃ pre, c = pre ++ p := by
  induction c with
  | nil =>
    simp only [searchUp]
    constructor
    · intro h; cases h
    · rintro ⟨pre, h⟩
      have := List.append_eq_nil_iff.1 h.symm
      exact absurd this.2 hp
  | cons f t ih =>
    simp only [searchUp]
    by_cases h : f :: t = p
    · rw [if_pos h]; exact ⟨fun _ => ⟨[], by simp [h]⟩, fun _ => rfl⟩
    · rw [if_neg h, ih]
      constructor
      · rintro ⟨pre, e⟩; exact ⟨f :: pre, by rw [e]; rfl⟩
      · rintro ⟨pre, e⟩
        cases pre with
        | nil => exact absurd (by simpa using e) h
        | cons g pre' => simp only [List.cons_append, List.cons.injEq] at e; exact ⟨pre', e.2⟩

/-- A context is a parent of (or the same as) another exactly if it is reached by going outwards from it; the root is a parent of all. -/
theorem parent_iff (p c : Ctx) : isParentOrSame p c = true ↔ ∃ inner, c = inner ++ p := by
  unfold isParentOrSame
  by_cases h1 : p = c
  · rw [if_pos h1]; exact ⟨fun _ => ⟨[], by simp [h1]⟩, fun _ => rfl⟩
  · rw [if_neg h1]
    by_cases h2 : p = []
    · rw [if_pos h2]; exact ⟨fun _ => ⟨c, by simp [h2]⟩, fun _ => rfl⟩
    · rw [if_neg h2]
      by_cases h3 : c = []
      · rw [if_pos h3]
        constructor
        · intro h; cases h
        · rintro ⟨i, e⟩
          rw [h3] at e
          exact absurd (List.append_eq_nil_iff.1 e.symm).2 h2
      · rw [if_neg h3]; exact search_iff p c h2

/-- So it is an order: reflexive, transitive, and antisymmetric. -/
theorem parent_order (a b c : Ctx) :
    isParentOrSame a a = true ∧ (isParentOrSame a b = true → isParentOrSame b c = true → isParentOrSame a c = true) ∧
    (isParentOrSame a b = true → isParentOrSame b a = true → a = b) := by
  simp only [parent_iff]
  refine ⟨⟨[], rfl⟩, ?_, ?_⟩
  · rintro ⟨i, rfl⟩ ⟨k, rfl⟩; exact ⟨k ++ i, by simp⟩
  · rintro ⟨i, h⟩ ⟨k, h'⟩
    have hl : a.length = k.length + (i.length + a.length) := by
      have := congrArg List.length h'; rw [h] at this; simpa using this
    have hi : i = [] := List.eq_nil_of_length_eq_zero (by omega)
    rw [h, hi]; rfl

theorem mem_chain (c x : Ctx) : x ∈ chain c ↔ x ≠ [] ∧ ∃ inner, c = inner ++ x := by
  induction c with
  | nil =>
    simp only [chain, List.not_mem_nil, false_iff]
    rintro ⟨h, i, e⟩; exact h (List.append_eq_nil_iff.1 e.symm).2
  | cons f t ih =>
    simp only [chain, List.mem_cons, ih]
    constructor
    · rintro (rfl | ⟨h, i, rfl⟩)
      · exact ⟨by simp, [], rfl⟩
      · exact ⟨h, f :: i, rfl⟩
    · rintro ⟨h, i, e⟩
      cases i with
      | nil => left; simpa using e.symm
      | cons g i => simp only [List.cons_append, List.cons.injEq] at e; exact Or.inr ⟨h, i, e.2⟩

/-- The stack of a context has exactly its parents and itself (without the root), one per depth, the outermost first. -/
theorem stack_meaning (c x : Ctx) :
    (x ∈ absCtxStack c ↔ x ≠ [] ∧ isParentOrSame x c = true) ∧ (absCtxStack c).length = c.length ∧
    (∀ k y, (absCtxStack c)[k]? = some y → y.length = k + 1) ∧ absCtxStackWithRoot c = [] :: absCtxStack c := by
  have hlen : ∀ c : Ctx, (chain c).length = c.length := by
    intro c; induction c with
    | nil => rfl
    | cons f t ih => simp [chain, ih]
  have hget : ∀ (c : Ctx) (k : Nat) (y : Ctx), (chain c)[k]? = some y → y.length + k = c.length := by
    intro c; induction c with
    | nil => intro k y h; simp [chain] at h
    | cons f t ih =>
      intro k y h
      cases k with
      | zero => simp only [chain, List.getElem?_cons_zero, Option.some.injEq] at h; rw [← h]; rfl
      | succ k =>
        simp only [chain, List.getElem?_cons_succ] at h
        have := ih k y h
        simp only [List.length_cons]; omega
  refine ⟨?_, by simp [absCtxStack, hlen], ?_, rfl⟩
  · rw [absCtxStack, List.mem_reverse, mem_chain, parent_iff]
  · intro k y h
    have hk : k < (absCtxStack c).length := (List.getElem?_eq_some_iff.1 h).1
    have hk' : k < c.length := by simpa [absCtxStack, hlen] using hk
    rw [absCtxStack, List.getElem?_reverse (by rw [hlen]; exact hk'), hlen] at h
    have := hget c _ y h
    omega

/-- The dims of the loops around, the outermost first; conditionals and loops without a dim give none. -/
theorem parent_dims (c : Ctx) : collectParentDims c = c.reverse.filterMap fun f => if f.loop then f.dim else none := by
  unfold collectParentDims absCtxStack
  induction c with
  | nil => rfl
  | cons f t ih =>
    simp only [chain, List.reverse_cons, List.filterMap_append, ih]
    rfl

/-- However a program with nested blocks ends, also with an exception, the current context is afterwards what it was before. -/
theorem with_restores (p : Prog) (g : Ctx) : (run p g).1 = g := by
  induction p generalizing g with
  | read => rfl
  | fail => rfl
  | seq a b iha ihb =>
    simp only [run]
    split
    · exact iha g
    · rw [ihb, iha]
  | withCtx c body _ => rfl

/-- Inside of a block the current context is the given one; after it, the one from before. -/
theorem with_reads (c g : Ctx) : (run (.seq (.withCtx c .read) .read) g).2.2 = [c, g] ∧ (run (.seq (.withCtx c .fail) .read) g).2 = (true, []) := ⟨rfl, rfl⟩

theorem sizesEq_iff (a b : List (Option Nat)) (h : a.length = b.length) : sizesEq a b = true ↔ a = b := by
  induction a generalizing b with
  | nil => cases b with
    | nil => simp [sizesEq]
    | cons => simp at h
  | cons x t ih =>
    cases b with
    | nil => simp at h
    | cons y s =>
      simp only [List.length_cons, Nat.add_right_cancel_iff] at h
      simp only [sizesEq]
      by_cases e : x = y
      · rw [if_pos e, ih s h]; simp [e]
      · rw [if_neg e]; simp [e]

/-- The template, if given, is that of the entry. -/
def Matches (t : Option Tmpl) (e : Entry) : Prop := ∀ x, t = some x → x = e.out

theorem fits_iff (t : Option Tmpl) (e : Entry) : fits t e = true ↔ Matches t e := by
  unfold Matches
  cases t with
  | none => simp [fits]
  | some x =>
    simp only [fits, Bool.and_eq_true, decide_eq_true_eq, Option.some.injEq, forall_eq']
    constructor
    · rintro ⟨⟨h1, h2⟩, h3⟩
      have := (sizesEq_iff _ _ h2).1 h3
      cases x; cases ho : e.out; rw [ho] at h1 this; simp_all
    · rintro rfl; exact ⟨⟨rfl, rfl⟩, (sizesEq_iff _ _ rfl).2 rfl⟩

/-- The next entry is given exactly if there is one and the template fits in dtype and all sizes; only then the position moves. -/
theorem next_entry (j : Journal) (t : Option Tmpl) :
    (∀ e, j.entries[j.cur]? = some e → Matches t e → getNext j t = .ok (e, { j with cur := j.cur + 1 })) ∧
    (∀ e, j.entries[j.cur]? = some e → ¬ Matches t e → getNext j t = .error .assertion) ∧
    (j.entries[j.cur]? = none → getNext j t = .error .assertion) ∧ (reachedEnd j = true ↔ j.entries[j.cur]? = none) := by
  refine ⟨?_, ?_, ?_, ?_⟩
  · intro e h hm; simp only [getNext, h, (fits_iff t e).2 hm, if_true]
  · intro e h hm
    have : ¬ fits t e = true := fun hf => hm ((fits_iff t e).1 hf)
    simp only [getNext, h, if_neg this]
  · intro h; simp only [getNext, h]
  · simp [reachedEnd]

/-- Playback: whatever was recorded is read again completely and in the same order, by reads with fitting templates, and then the end is reached. -/
theorem playback (pre rest : List Entry) (ts : List (Option Tmpl)) (hlen : ts.length = rest.length)
    (hm : ∀ (k : Nat) (t : Option Tmpl) (e : Entry), ts[k]? = some t → rest[k]? = some e → Matches t e) :
    ∃ j', replay { entries := pre ++ rest, cur := pre.length } ts = .ok (rest, j') ∧ j'.entries = pre ++ rest ∧ reachedEnd j' = true := by
  induction rest generalizing pre ts with
  | nil =>
    have : ts = [] := List.eq_nil_of_length_eq_zero hlen
    subst this
    exact ⟨_, rfl, rfl, by simp [reachedEnd]⟩
  | cons e rest ih =>
    cases ts with
    | nil => simp at hlen
    | cons t ts =>
      have hn := (next_entry { entries := pre ++ e :: rest, cur := pre.length } t).1 e (by simp) (hm 0 t e rfl rfl)
      obtain ⟨j', h1, h2, h3⟩ := ih (pre ++ [e]) ts (by simpa using hlen) (fun k t' e' ha hb => hm (k + 1) t' e' (by simpa using ha) (by simpa using hb))
      have heq : (pre ++ [e]) ++ rest = pre ++ e :: rest := by simp
      rw [heq] at h1 h2
      have hl : (pre ++ [e]).length = pre.length + 1 := by simp
      rw [hl] at h1
      refine ⟨j', ?_, h2, h3⟩
      simp only [replay, hn, h1]

/-- Recording while reading does not disturb: an appended entry comes last, and the position stays. -/
theorem append_last (j : Journal) (e : Entry) : (append j e).entries = j.entries ++ [e] ∧ (append j e).cur = j.cur := ⟨rfl, rfl⟩

/-- The node which is given to the graph can be accessed: it is the newest reader, or a consumer of it, in a context around the current one; never one of another
run, and never an older reader. -/
theorem reader_accessible (cur : Ctx) (r : Nat) (n : Node) (older : List Node) (t : Nat) (h : recentReader cur r (n :: older) = .ok (some t)) :
    n.runCtx = r ∧ ∃ c, ((t, c) = (n.tensor, n.ctx) ∨ (t, c) ∈ n.consumers) ∧ ∃ inner, cur = inner ++ c := by
  simp only [recentReader] at h
  split at h
  · cases h
  · rename_i hr
    refine ⟨by simpa using hr, ?_⟩
    split at h
    · rename_i hp
      cases h
      exact ⟨n.ctx, Or.inl rfl, (parent_iff _ _).1 hp⟩
    · split at h
      · cases h
      · rename_i c hc
        cases h
        have hf : isParentOrSame c.2 cur = true := by simpa using List.find?_some hc
        exact ⟨c.2, Or.inr (List.mem_of_find?_eq_some hc), (parent_iff _ _).1 hf⟩

/-- A reader of this run which can be accessed is found itself; without readers, or after a change of the run, there is none. -/
theorem reader_found (cur : Ctx) (r : Nat) (n : Node) (older : List Node) :
    (n.runCtx = r → (∃ inner, cur = inner ++ n.ctx) → recentReader cur r (n :: older) = .ok (some n.tensor)) ∧
    (n.runCtx ≠ r → recentReader cur r (n :: older) = .ok none) ∧ recentReader cur r [] = .ok none := by
  refine ⟨?_, ?_, rfl⟩
  · intro h hp; simp [recentReader, h, (parent_iff _ _).2 hp]
  · intro h; simp [recentReader, h]

/-- A tensor is somewhere in the object. -/
inductive Has : Obj → Nat → Prop
  | here (t : Nat) : Has (.tensor t) t
  | inside (xs : List Obj) (x : Obj) (t : Nat) (hx : x ∈ xs) (h : Has x t) : Has (.node xs) t

/-- Something which is neither tensor, dict nor list is somewhere in the object. -/
inductive HasOther : Obj → Prop
  | here : HasOther .other
  | inside (xs : List Obj) (x : Obj) (hx : x ∈ xs) (h : HasOther x) : HasOther (.node xs)

theorem size_node (xs : List Obj) : (Obj.node xs).size = 1 + (xs.map Obj.size).sum := by rw [Obj.size]

theorem size_pos (x : Obj) : 1 ≤ x.size := by
  cases x with
  | tensor t => simp [Obj.size]
  | node xs => rw [size_node]; omega
  | other => simp [Obj.size]

theorem sum_reverse (l : List Nat) : l.reverse.sum = l.sum := by
  induction l with
  | nil => rfl
  | cons x t ih => rw [List.reverse_cons, List.sum_append, ih]; simp [Nat.add_comm]

theorem loop_spec (n : Nat) (q : List Obj) (acc : List Nat) (hn : (q.map Obj.size).sum ≤ n) (hacc : acc.Nodup) :
    ((∃ x ∈ q, HasOther x) → ∃ e, flattenLoop n q acc = .error e ∧ e = .typeError) ∧
    ((∀ x ∈ q, ¬ HasOther x) → ∃ l, flattenLoop n q acc = .ok l ∧ l.Nodup ∧ ∀ t, t ∈ l ↔ t ∈ acc ∨ ∃ x ∈ q, Has x t) := by
  induction n generalizing q acc with
  | zero =>
    cases q with
    | nil => simp [flattenLoop, hacc]
    | cons x q =>
      simp only [List.map_cons, List.sum_cons] at hn
      have := size_pos x; omega
  | succ n ih =>
    cases q with
    | nil => simp [flattenLoop, hacc]
    | cons x q =>
      simp only [List.map_cons, List.sum_cons] at hn
      cases x with
      | tensor t =>
        have hs : (Obj.tensor t).size = 1 := by simp [Obj.size]
        have hacc' : (if t ∈ acc then acc else acc ++ [t]).Nodup := by
          split
          · exact hacc
          · rename_i hnot
            rw [List.nodup_append]
            refine ⟨hacc, by simp, ?_⟩
            intro a ha b hb; simp only [List.mem_singleton] at hb; subst hb; intro e; exact hnot (e ▸ ha)
        obtain ⟨h1, h2⟩ := ih q (if t ∈ acc then acc else acc ++ [t]) (by omega) hacc'
        simp only [flattenLoop]
        constructor
        · rintro ⟨x, hx, ho⟩
          rcases List.mem_cons.1 hx with rfl | hx
          · cases ho
          · exact h1 ⟨x, hx, ho⟩
        · intro hno
          obtain ⟨l, e1, e2, e3⟩ := h2 fun x hx => hno x (by simp [hx])
          refine ⟨l, e1, e2, ?_⟩
          intro u
          rw [e3]
          have hmem : u ∈ (if t ∈ acc then acc else acc ++ [t]) ↔ u ∈ acc ∨ u = t := by
            split
            · rename_i hin
              constructor
              · exact Or.inl
              · rintro (h | rfl)
                · exact h
                · exact hin
            · simp
          rw [hmem]
          constructor
          · rintro ((h | rfl) | ⟨x, hx, h⟩)
            · exact Or.inl h
            · exact Or.inr ⟨_, by simp, .here _⟩
            · exact Or.inr ⟨x, by simp [hx], h⟩
          · rintro (h | ⟨x, hx, h⟩)
            · exact Or.inl (Or.inl h)
            · rcases List.mem_cons.1 hx with rfl | hx
              · cases h; exact Or.inl (Or.inr rfl)
              · exact Or.inr ⟨x, hx, h⟩
      | node xs =>
        rw [size_node] at hn
        obtain ⟨h1, h2⟩ := ih (xs.reverse ++ q) acc (by
          rw [List.map_append, List.sum_append, List.map_reverse, sum_reverse]; omega) hacc
        simp only [flattenLoop]
        constructor
        · rintro ⟨x, hx, ho⟩
          rcases List.mem_cons.1 hx with rfl | hx
          · cases ho with
            | inside _ y hy ho => exact h1 ⟨y, by simp [hy], ho⟩
          · exact h1 ⟨x, by simp [hx], ho⟩
        · intro hno
          obtain ⟨l, e1, e2, e3⟩ := h2 (by
            intro x hx ho
            rcases List.mem_append.1 hx with hx | hx
            · exact hno (.node xs) (by simp) (.inside xs x (List.mem_reverse.1 hx) ho)
            · exact hno x (by simp [hx]) ho)
          refine ⟨l, e1, e2, ?_⟩
          intro u
          rw [e3]
          constructor
          · rintro (h | ⟨x, hx, h⟩)
            · exact Or.inl h
            · rcases List.mem_append.1 hx with hx | hx
              · exact Or.inr ⟨.node xs, by simp, .inside xs x u (List.mem_reverse.1 hx) h⟩
              · exact Or.inr ⟨x, by simp [hx], h⟩
          · rintro (h | ⟨x, hx, h⟩)
            · exact Or.inl h
            · rcases List.mem_cons.1 hx with rfl | hx
              · cases h with
                | inside _ y _ hy h => exact Or.inr ⟨y, by simp [hy], h⟩
              · exact Or.inr ⟨x, by simp [hx], h⟩
      | other =>
        simp only [flattenLoop]
        constructor
        · intro _; exact ⟨_, rfl, rfl⟩
        · intro hno; exact absurd HasOther.here (hno .other (by simp))

/-- The tensors of a state: every tensor which is somewhere inside, each once even if it is there several times; anything else in it is a TypeError. -/
theorem flatten_all (x : Obj) :
    (HasOther x → flatten x = .error .typeError) ∧ (¬ HasOther x → ∃ l, flatten x = .ok l ∧ l.Nodup ∧ ∀ t, t ∈ l ↔ Has x t) := by
  obtain ⟨h1, h2⟩ := loop_spec x.size [x] [] (by simp) (by simp)
  constructor
  · intro ho
    obtain ⟨e, he, rfl⟩ := h1 ⟨x, by simp, ho⟩
    exact he
  · intro hno
    obtain ⟨l, e1, e2, e3⟩ := h2 (by simpa using hno)
    exact ⟨l, e1, e2, by simpa using e3⟩

example : flattenLoop 9 [.node [.tensor 1, .node [.tensor 2, .tensor 1], .tensor 3]] [] = .ok [3, 1, 2] := by decide
example : flattenLoop 9 [.node [.tensor 1, .other]] [] = .error .typeError := by decide
def exC : Ctx := [⟨3, true, some 7⟩, ⟨2, false, none⟩, ⟨1, true, some 5⟩]
example : collectParentDims exC = [5, 7] := by decide
example : isParentOrSame [⟨1, true, some 5⟩] exC = true ∧ isParentOrSame exC [⟨1, true, some 5⟩] = false := by decide

end Verif.CtxJournal
