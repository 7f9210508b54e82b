import Verif.Scan.Model
import Mathlib.Logic.Function.Iterate
import Mathlib.Data.List.Forall2
import Mathlib.Tactic.Common
/-
C57: `rf.while_loop` and `rf.scan`.
-/
namespace Verif.Scan
open Verif.Py

variable {X G P Y S : Type}

/-! ### The reference -/

theorem runSeq_snoc (pr : Prog X G P Y) (x : X) : ∀ (xs : List X) (g : G) (p : P),
    runSeq pr (xs ++ [x]) g p = ((runSeq pr xs g p).1 ++ [(pr.step x (runSeq pr xs g p).2.1 (runSeq pr xs g p).2.2).1],
      pr.stepG (runSeq pr xs g p).2.1, (pr.step x (runSeq pr xs g p).2.1 (runSeq pr xs g p).2.2).2)
  | [], g, p => rfl
  | y :: xs, g, p => by
    simp only [List.cons_append, runSeq, runSeq_snoc pr x xs]

theorem runSeq_length (pr : Prog X G P Y) : ∀ (xs : List X) (g : G) (p : P), (runSeq pr xs g p).1.length = xs.length
  | [], _, _ => rfl
  | _ :: xs, g, p => by simp [runSeq, runSeq_length pr xs]

theorem runSeq_shared (pr : Prog X G P Y) : ∀ (xs : List X) (g : G) (p : P), (runSeq pr xs g p).2.1 = pr.stepG^[xs.length] g
  | [], _, _ => rfl
  | _ :: xs, g, p => by simp [runSeq, runSeq_shared pr xs]

theorem stateAfter_succ (pr : Prog Unit G P Y) (g : G) (p : P) (n : Nat) :
    stateAfter pr g p (n + 1) = (pr.stepG (stateAfter pr g p n).1, (pr.step () (stateAfter pr g p n).1 (stateAfter pr g p n).2).2) := by
  unfold stateAfter
  rw [List.replicate_succ', runSeq_snoc]

theorem stateAfter_shared (pr : Prog Unit G P Y) (g : G) (p : P) (n : Nat) : (stateAfter pr g p n).1 = pr.stepG^[n] g := by
  unfold stateAfter
  rw [runSeq_shared]
  simp

/-- There is only one length. -/
theorem isLen_unique {pr : Prog Unit G P Y} {before : Bool} {max : Option Nat} {g : G} {p : P} {n m : Nat}
    (h1 : IsLen pr before max g p n) (h2 : IsLen pr before max g p m) : n = m := by
  rcases Nat.lt_trichotomy n m with h | h | h
  · rcases h1.2.2 with h3 | h3
    · have := h2.2.1 n h3; omega
    · exact (h3 (h2.1 n h)).elim
  · exact h
  · rcases h2.2.2 with h3 | h3
    · have := h1.2.1 m h3; omega
    · exact (h3 (h1.1 m h)).elim

/-! ### while_loop -/

/-- **C57** `while_loop` is `while cond(s): s = body(s)`: the result is some number of `body` applications, `cond` was true before each
of them, and is false at the end. -/
theorem whileLoop_spec {cond : S → Bool} {body : S → S} : ∀ {fuel : Nat} {s s' : S}, whileLoop cond body fuel s = some s' →
    ∃ n, n < fuel ∧ s' = body^[n] s ∧ cond s' = false ∧ ∀ k, k < n → cond (body^[k] s) = true
  | 0, _, _, h => by simp [whileLoop] at h
  | fuel + 1, s, s', h => by
    rw [whileLoop] at h
    by_cases hc : cond s = true
    · rw [if_pos hc] at h
      obtain ⟨n, h1, h2, h3, h4⟩ := whileLoop_spec h
      refine ⟨n + 1, by omega, by simpa using h2, h3, ?_⟩
      intro k hk
      rcases k with _ | k
      · exact hc
      · rw [Function.iterate_succ_apply]
        exact h4 k (by omega)
    · rw [if_neg hc] at h
      injection h with h
      subst h
      exact ⟨0, by omega, rfl, by simpa using hc, fun k hk => by omega⟩

/-- **C57** `while_loop` ends if `cond` is false at some time. -/
theorem whileLoop_ends {cond : S → Bool} {body : S → S} : ∀ {n fuel : Nat} {s : S}, cond (body^[n] s) = false → n < fuel →
    (whileLoop cond body fuel s).isSome
  | n, 0, s, _, h => by omega
  | n, fuel + 1, s, hc, h => by
    rw [whileLoop]
    by_cases hs : cond s = true
    · rw [if_pos hs]
      rcases n with _ | n
      · simp [hs] at hc
      · exact whileLoop_ends (n := n) (by simpa using hc) (by omega)
    · rw [if_neg hs]; rfl

/-! ### scan with cond -/

/-- The entry after `n` iterations. -/
def entAt (pr : Prog Unit G P Y) (before : Bool) (g : G) (p : P) : Nat → Ent P Y
  | 0 => { p := p, len := 0, c := if before then pr.cond g p else true, ys := [] }
  | n + 1 => entStep pr (pr.stepG^[n] g) (entAt pr before g p n)

theorem loop_iter (pr : Prog Unit G P Y) (before : Bool) (g : G) (ps : List P) : ∀ n,
    (loopBody pr)^[n] (loopInit pr before g ps) = ⟨n, pr.stepG^[n] g, ps.map (fun p => entAt pr before g p n)⟩
  | 0 => rfl
  | n + 1 => by
    rw [Function.iterate_succ_apply', loop_iter pr before g ps n, loopBody]
    simp only [List.map_map, Function.iterate_succ_apply']
    rfl

structure EntInv (pr : Prog Unit G P Y) (before : Bool) (g : G) (p : P) (n : Nat) (e : Ent P Y) : Prop where
  nys : e.ys.length = n
  le : e.len ≤ n
  may : ∀ k, k < e.len → MayRun pr before g p k
  ys : e.ys.take e.len = (runSeq pr (List.replicate e.len ()) g p).1
  live : e.c = true → e.len = n ∧ MayRun pr before g p n ∧ e.p = (stateAfter pr g p n).2
  dead : e.c = false → ¬ MayRun pr before g p e.len ∧ e.p = (stateAfter pr g p (e.len - 1)).2

theorem entAt_inv (pr : Prog Unit G P Y) (before : Bool) (g : G) (p : P) : ∀ n, EntInv pr before g p n (entAt pr before g p n)
  | 0 => by
    refine ⟨rfl, Nat.le_refl 0, fun k h => by simp [entAt] at h, rfl, ?_, ?_⟩
    · intro h
      refine ⟨rfl, ?_, rfl⟩
      unfold MayRun
      cases before
      · exact Or.inl ⟨rfl, rfl⟩
      · exact Or.inr (by simpa [entAt, stateAfter, runSeq] using h)
    · intro h
      refine ⟨?_, rfl⟩
      unfold MayRun
      cases before
      · simp [entAt] at h
      · rintro (⟨_, h1⟩ | h1)
        · cases h1
        · have h2 : pr.cond g p = false := by simpa [entAt] using h
          have h3 : pr.cond g p = true := h1
          rw [h2] at h3; cases h3
  | n + 1 => by
    have hi := entAt_inv pr before g p n
    rw [entAt]
    generalize entAt pr before g p n = e at hi
    have hmay : MayRun pr before g p (n + 1) ↔ pr.cond (stateAfter pr g p (n + 1)).1 (stateAfter pr g p (n + 1)).2 = true := by
      unfold MayRun
      constructor
      · rintro (⟨h, _⟩ | h)
        · omega
        · exact h
      · exact Or.inr
    by_cases hc : e.c = true
    · obtain ⟨h1, h2, h3⟩ := hi.live hc
      have hst := stateAfter_succ pr g p n
      rw [stateAfter_shared, ← h3] at hst
      rw [hst] at hmay
      have hlen : (entStep pr (pr.stepG^[n] g) e).len = n + 1 := by simp [entStep, hc, h1]
      have hcc : (entStep pr (pr.stepG^[n] g) e).c = pr.cond (pr.stepG (pr.stepG^[n] g)) (pr.step () (pr.stepG^[n] g) e.p).2 := by
        simp [entStep, hc]
      refine ⟨by simp [entStep, hi.nys], by omega, ?_, ?_, ?_, ?_⟩
      · intro k hk
        rw [hlen] at hk
        rcases Nat.lt_or_ge k n with hk' | hk'
        · exact hi.may k (by omega)
        · have : k = n := by omega
          subst this; exact h2
      · rw [hlen, List.replicate_succ', runSeq_snoc]
        have hs : (runSeq pr (List.replicate n ()) g p).2 = stateAfter pr g p n := rfl
        simp only [hs]
        have hys := hi.ys
        rw [h1] at hys
        rw [← hys, stateAfter_shared, ← h3]
        have e1 : (entStep pr (pr.stepG^[n] g) e).ys = e.ys ++ [(pr.step () (pr.stepG^[n] g) e.p).1] := rfl
        rw [e1, List.take_of_length_le (by simp [hi.nys]), List.take_of_length_le (by simp [hi.nys])]
      · intro h
        rw [hcc] at h
        refine ⟨hlen, hmay.2 h, ?_⟩
        rw [hst]
        simp [entStep, mask, h, hc]
      · intro h
        rw [hcc] at h
        rw [hlen]
        refine ⟨fun hm => (by rw [hmay.1 hm] at h; cases h), ?_⟩
        rw [Nat.add_sub_cancel, ← h3]
        simp [entStep, mask, h]
    · have hc' : e.c = false := by simpa using hc
      obtain ⟨h1, h2⟩ := hi.dead hc'
      have hlen : (entStep pr (pr.stepG^[n] g) e).len = e.len := by simp [entStep, hc']
      have hcc : (entStep pr (pr.stepG^[n] g) e).c = false := by simp [entStep, hc']
      have hle := hi.le
      refine ⟨by simp [entStep, hi.nys], by omega, by rw [hlen]; exact hi.may, ?_, ?_, ?_⟩
      · rw [hlen]
        have e1 : (entStep pr (pr.stepG^[n] g) e).ys = e.ys ++ [(pr.step () (pr.stepG^[n] g) e.p).1] := rfl
        rw [e1, List.take_append_of_le_length (by rw [hi.nys]; exact hle)]
        exact hi.ys
      · intro h; rw [hcc] at h; cases h
      · intro _
        rw [hlen]
        refine ⟨h1, ?_⟩
        simp [entStep, mask, hc', h2]

theorem dimValue_ge : ∀ (l : List Nat) (m x : Nat), (x ∈ l ∨ x ≤ m) → x ≤ l.foldl max m
  | [], m, x, h => by simpa using h
  | y :: l, m, x, h => by
    simp only [List.foldl_cons]
    apply dimValue_ge l
    rcases h with h | h
    · rcases List.mem_cons.1 h with rfl | h
      · right; omega
      · left; exact h
    · right; omega

theorem dimValue_le : ∀ (l : List Nat) (m n : Nat), m ≤ n → (∀ x ∈ l, x ≤ n) → l.foldl max m ≤ n
  | [], _, _, h, _ => h
  | y :: l, m, n, h, hl => dimValue_le l _ n (by have := hl y (by simp); omega) (fun x hx => hl x (by simp [hx]))

/-- **C57** `scan` with `cond`: for each entry, the length is the number of iterations of its own loop, the outputs up to the length are
those of its own loop, the shared state is advanced by the number of frames, and the stacked outputs have as many frames as the dim
value of the new spatial dim. -/
theorem scanCond_correct {pr : Prog Unit G P Y} {before : Bool} {max : Option Nat} {fuel : Nat} {g : G} {ps : List P} {r : LoopSt G P Y}
    (h : scanCond pr before max fuel g ps = some r) :
    List.Forall₂ (fun p e => IsLen pr before max g p e.len ∧ e.ys.take e.len = (runSeq pr (List.replicate e.len ()) g p).1 ∧
      e.ys.length = dimValue (r.ents.map (fun e => e.len))) ps r.ents ∧ r.g = pr.stepG^[dimValue (r.ents.map (fun e => e.len))] g := by
  obtain ⟨n, h1, h2, h3, h4⟩ := whileLoop_spec h
  rw [loop_iter] at h2
  subst h2
  have hinv := fun p => entAt_inv pr before g p n
  have hn : dimValue ((ps.map (fun p => entAt pr before g p n)).map (fun e => e.len)) = n := by
    apply Nat.le_antisymm
    · apply dimValue_le _ _ _ (by omega)
      intro x hx
      simp only [List.mem_map] at hx
      obtain ⟨e, ⟨p, _, rfl⟩, rfl⟩ := hx
      exact (hinv p).le
    · rcases n with _ | n
      · omega
      · have hk := h4 n (by omega)
        rw [loop_iter] at hk
        simp only [loopCond, Bool.and_eq_true, List.any_eq_true, List.mem_map] at hk
        obtain ⟨⟨e, ⟨p, hp, rfl⟩, hc⟩, _⟩ := hk
        apply dimValue_ge
        left
        simp only [List.mem_map]
        refine ⟨_, ⟨p, hp, rfl⟩, ?_⟩
        have := ((entAt_inv pr before g p n).live hc).1
        simp [entAt, entStep, hc, this]
  have hmax : ∀ m, max = some m → n ≤ m := by
    intro m hm
    rcases n with _ | n
    · omega
    · have hk := h4 n (by omega)
      rw [loop_iter] at hk
      simp only [loopCond, Bool.and_eq_true, hm, belowMax, decide_eq_true_eq] at hk
      omega
  simp only [hn]
  refine ⟨?_, trivial⟩
  rw [List.forall₂_map_right_iff]
  apply List.forall₂_same.2
  intro p hp
  refine ⟨⟨(hinv p).may, fun m hm => Nat.le_trans (hinv p).le (hmax m hm), ?_⟩, (hinv p).ys, (hinv p).nys⟩
  by_cases hc : (entAt pr before g p n).c = true
  · left
    rw [((hinv p).live hc).1]
    simp only [loopCond, Bool.and_eq_false_iff] at h3
    rcases h3 with h3 | h3
    · have := List.any_eq_false.1 h3 (entAt pr before g p n) (List.mem_map.2 ⟨p, hp, rfl⟩)
      exact (this hc).elim
    · unfold belowMax at h3
      split at h3
      · cases h3
      · rename_i _ m
        have h5 := hmax m rfl
        have h3' : ¬ n < m := by simpa using h3
        rw [show n = m by omega]
  · right
    exact ((hinv p).dead (by simpa using hc)).1

/-- What `scan` with `cond` returns as the final state. -/
theorem scanCond_state {pr : Prog Unit G P Y} {before : Bool} {max : Option Nat} {fuel : Nat} {g : G} {ps : List P} {r : LoopSt G P Y}
    (h : scanCond pr before max fuel g ps = some r) :
    List.Forall₂ (fun p e => (MayRun pr before g p e.len → e.p = (stateAfter pr g p e.len).2) ∧
      (¬ MayRun pr before g p e.len → e.p = (stateAfter pr g p (e.len - 1)).2)) ps r.ents := by
  obtain ⟨n, h1, h2, h3, h4⟩ := whileLoop_spec h
  rw [loop_iter] at h2
  subst h2
  rw [List.forall₂_map_right_iff]
  apply List.forall₂_same.2
  intro p hp
  have hi := entAt_inv pr before g p n
  by_cases hc : (entAt pr before g p n).c = true
  · obtain ⟨a, b, c⟩ := hi.live hc
    rw [a]
    exact ⟨fun _ => c, fun h => (h b).elim⟩
  · obtain ⟨a, b⟩ := hi.dead (by simpa using hc)
    exact ⟨fun h => (a h).elim, fun _ => b⟩

/-- The final state is that of the loop of the entry, if the loop is stopped by `max_seq_len` only. The full property (the final state
of every entry is the one after its last iteration) does not hold, see `scanCond_state_wrong`. -/
theorem scanCond_state_partial {pr : Prog Unit G P Y} {before : Bool} {m fuel : Nat} {g : G} {ps : List P} {r : LoopSt G P Y}
    (h : scanCond pr before (some m) fuel g ps = some r) (hc : ∀ p ∈ ps, ∀ k, MayRun pr before g p k) :
    List.Forall₂ (fun p e => e.len = m ∧ e.p = (stateAfter pr g p m).2) ps r.ents := by
  have h1 := (scanCond_correct h).1
  have h2 := scanCond_state h
  rw [List.forall₂_iff_get] at h1 h2 ⊢
  refine ⟨h1.1, fun i hi hj => ?_⟩
  have a := h1.2 i hi hj
  have b := h2.2 i hi hj
  have hm := hc (ps.get ⟨i, hi⟩) (List.get_mem _ _)
  have hl : (r.ents.get ⟨i, hj⟩).len = m := by
    rcases a.1.2.2 with h3 | h3
    · injection h3 with h3; exact h3.symm
    · exact (h3 (hm _)).elim
  refine ⟨hl, ?_⟩
  rw [b.1 (hm _), hl]

/-- `scan` does not return the final state of `while cond: body`: for a counter `while s < 3: s += 1` it returns 2. -/
theorem scanCond_state_wrong : ∃ (pr : Prog Unit Unit Nat Nat) (r : LoopSt Unit Nat Nat) (e : Ent Nat Nat),
    scanCond pr true none 10 () [0] = some r ∧ r.ents = [e] ∧ e.len = 3 ∧ (stateAfter pr () 0 3).2 = 3 ∧ e.p = 2 := by
  refine ⟨⟨fun g => g, fun _ _ p => (p, p + 1), fun _ p => decide (p < 3)⟩, _, _, rfl, rfl, rfl, rfl, rfl⟩

/-- **C57** `scan` with `cond` ends when the loops of all entries have ended. -/
theorem scanCond_ends {pr : Prog Unit G P Y} {before : Bool} {max : Option Nat} {fuel n : Nat} {g : G} {ps : List P}
    (h : ∀ p ∈ ps, ∃ k, k ≤ n ∧ IsLen pr before max g p k) (hf : n < fuel) : (scanCond pr before max fuel g ps).isSome := by
  apply whileLoop_ends (n := n) _ hf
  rw [loop_iter]
  by_contra hc
  simp only [Bool.not_eq_false, loopCond, Bool.and_eq_true, List.any_eq_true, List.mem_map] at hc
  obtain ⟨⟨e, ⟨p, hp, rfl⟩, hcc⟩, hb⟩ := hc
  obtain ⟨k, hk, hl⟩ := h p hp
  have hi := entAt_inv pr before g p n
  obtain ⟨h1, h2, _⟩ := hi.live hcc
  rcases hl.2.2 with h3 | h3
  · have : n < k := by simpa [belowMax, h3] using hb
    omega
  · rcases Nat.lt_or_ge k n with h4 | h4
    · exact h3 (hi.may k (by omega))
    · have : k = n := by omega
      subst this
      exact h3 h2

/-- With `max_seq_len`, it always ends. -/
theorem scanCond_ends_max {pr : Prog Unit G P Y} {before : Bool} {m fuel : Nat} {g : G} {ps : List P} (hf : m < fuel) :
    (scanCond pr before (some m) fuel g ps).isSome := by
  apply whileLoop_ends (n := m) _ hf
  rw [loop_iter]
  simp [loopCond, belowMax]

end Verif.Scan
