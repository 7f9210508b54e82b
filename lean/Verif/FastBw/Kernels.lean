import Verif.FastBw.Lemmas
/-
What each kernel computes, for every order of its threads.
-/
namespace Verif.FastBw
open Verif.CtcFsa

variable {K : Type} [Semifield K] [DecidableEq K]

omit [Semifield K] [DecidableEq K] in
theorem upd_eq (a : Nat → K) (i : Nat) (v : K) : upd a i v i = v := if_pos rfl
omit [Semifield K] [DecidableEq K] in
theorem upd_ne {V : Type} {a : Nat → V} {i j : Nat} {v : V} (h : j ≠ i) : upd a i v j = a j := if_neg h
theorem upd_self {V : Type} (a : Nat → V) (i : Nat) (v : V) : upd a i v i = v := if_pos rfl

/-! ### `next_frame` -/

/-- Where an edge starts and ends in this direction. -/
def eFrom (fwd : Bool) (x : Edge Nat) : Nat := if fwd then x.src else x.dst
def eTo (fwd : Bool) (x : Edge Nat) : Nat := if fwd then x.dst else x.src

/-- What an edge adds to a state. -/
def contrib (fwd : Bool) (edges : List (Edge Nat)) (w : Nat → K) (am : Nat → Nat → K) (prev : Nat → K) (s i : Nat) : K :=
  (edges[i]?).elim 0 (fun x => if eTo fwd x = s then prev (eFrom fwd x) * w i * am x.seq x.label else 0)

/-- The value of the edge buffer after. -/
def edgeAfter (fwd : Bool) (edges : List (Edge Nat)) (w : Nat → K) (am : Nat → Nat → K) (prev eb : Nat → K) (i : Nat) : K :=
  (edges[i]?).elim (eb i) (fun x => eb i * (if fwd then prev x.src * w i * am x.seq x.label else prev x.dst))

section
variable {fwd : Bool} {edges : List (Edge Nat)} {w : Nat → K} {am : Nat → Nat → K} {prev : Nat → K}

theorem nextThread_fst (st : (Nat → K) × (Nat → K)) (i s : Nat) :
    (nextThread fwd edges w am prev st i).1 s = st.1 s + contrib fwd edges w am prev s i := by
  unfold nextThread contrib
  rcases Option.eq_none_or_eq_some (edges[i]?) with he | ⟨x, he⟩
  · simp [he]
  · simp only [he, Option.elim_some]
    have e1 : (if fwd = true then x.src else x.dst) = eFrom fwd x := rfl
    have e2 : (if fwd = true then x.dst else x.src) = eTo fwd x := rfl
    rw [e1, e2]
    split
    · rename_i h0
      rw [h0]; simp
    · by_cases hs : eTo fwd x = s
      · rw [if_pos hs]; subst hs
        simp only [upd_self]
      · rw [if_neg hs, add_zero]
        simp only
        rw [upd_ne (fun h => hs h.symm)]

theorem nextThread_snd (st : (Nat → K) × (Nat → K)) (i j : Nat) :
    (nextThread fwd edges w am prev st i).2 j = if j = i then edgeAfter fwd edges w am prev st.2 i else st.2 j := by
  unfold nextThread edgeAfter
  rcases Option.eq_none_or_eq_some (edges[i]?) with he | ⟨x, he⟩
  · simp only [he, Option.elim_none]
    split
    · rename_i h; rw [h]
    · rfl
  · simp only [he, Option.elim_some]
    by_cases h0 : prev (if fwd = true then x.src else x.dst) = 0
    · rw [if_pos h0]
      show upd st.2 i 0 j = _
      by_cases hj : j = i
      · rw [if_pos hj, hj, upd_self]
        cases fwd
        · simp only [Bool.false_eq_true, if_false] at h0 ⊢; rw [h0, mul_zero]
        · simp only [if_true] at h0 ⊢; rw [h0]; ring
      · rw [if_neg hj, upd_ne hj]
    · rw [if_neg h0]
      show upd st.2 i _ j = _
      by_cases hj : j = i
      · rw [if_pos hj, hj, upd_self]
        cases fwd <;> rfl
      · rw [if_neg hj, upd_ne hj]

theorem nextFold (order : List Nat) (hn : order.Nodup) : ∀ (st : (Nat → K) × (Nat → K)),
    (∀ s, (order.foldl (nextThread fwd edges w am prev) st).1 s = st.1 s + lsum order (contrib fwd edges w am prev s)) ∧
    (∀ j, (order.foldl (nextThread fwd edges w am prev) st).2 j = if j ∈ order then edgeAfter fwd edges w am prev st.2 j else st.2 j) := by
  induction order with
  | nil => intro st; simp [lsum_nil]
  | cons i l ih =>
    intro st
    obtain ⟨h1, h2⟩ := List.nodup_cons.1 hn
    obtain ⟨i1, i2⟩ := ih h2 (nextThread fwd edges w am prev st i)
    rw [List.foldl_cons]
    refine ⟨?_, ?_⟩
    · intro s
      rw [i1, nextThread_fst, lsum_cons, add_assoc]
    · intro j
      rw [i2]
      by_cases hj : j ∈ l
      · rw [if_pos hj, if_pos (by simp [hj])]
        have hji : j ≠ i := by rintro rfl; exact h1 hj
        unfold edgeAfter
        rw [nextThread_snd, if_neg hji]
      · rw [if_neg hj, nextThread_snd]
        by_cases hji : j = i
        · subst hji; simp
        · rw [if_neg hji, if_neg (by simp [hj, hji])]

theorem nextFrame_spec (order : List Nat) (ho : order.Perm (List.range edges.length)) (eb : Nat → K) :
    (∀ s, (nextFrame fwd edges w am order prev eb).1 s = lsum (List.range edges.length) (contrib fwd edges w am prev s)) ∧
    (∀ j, (nextFrame fwd edges w am order prev eb).2 j = edgeAfter fwd edges w am prev eb j) := by
  obtain ⟨h1, h2⟩ := nextFold (fwd := fwd) (edges := edges) (w := w) (am := am) (prev := prev) order
    (ho.nodup_iff.2 List.nodup_range) (fun _ => 0, eb)
  refine ⟨?_, ?_⟩
  · intro s
    unfold nextFrame
    rw [h1, lsum_perm ho, zero_add]
  · intro j
    unfold nextFrame
    rw [h2]
    split
    · rfl
    · rename_i hj
      rw [ho.mem_iff, List.mem_range] at hj
      unfold edgeAfter
      rw [List.getElem?_eq_none (by omega)]; rfl

end

/-! ### Start and end states -/

omit [DecidableEq K] in
theorem setStart_spec (starts : List Nat) (st : Nat → K) (s : Nat) : setStart starts st s = if s ∈ starts then 1 else st s := by
  unfold setStart
  induction starts generalizing st with
  | nil => simp
  | cons a l ih =>
    rw [List.foldl_cons, ih]
    by_cases h : s ∈ l
    · rw [if_pos h, if_pos (by simp [h])]
    · rw [if_neg h]
      by_cases ha : s = a
      · subst ha; rw [upd_self, if_pos (by simp)]
      · rw [upd_ne ha, if_neg (by simp [h, ha])]

omit [DecidableEq K] in
theorem initBwd_spec (index : Nat → Nat → Bool) (ends : List Nat) (t maxT : Nat) (st : Nat → K) (s : Nat) :
    initBwd index ends t maxT st s =
      if ∃ b, b < ends.length ∧ ends.getD b 0 = s ∧ index t b = true ∧ (t = maxT ∨ index (t + 1) b = false) then 1 else st s := by
  classical
  unfold initBwd
  have h : ∀ (l : List Nat) (st : Nat → K),
      (l.foldl (fun st b => if index t b = true ∧ (t = maxT ∨ index (t + 1) b = false) then upd st (ends.getD b 0) 1 else st) st) s =
      if ∃ b, b ∈ l ∧ ends.getD b 0 = s ∧ index t b = true ∧ (t = maxT ∨ index (t + 1) b = false) then 1 else st s := by
    intro l
    induction l with
    | nil => intro st; simp
    | cons a l ih =>
      intro st
      rw [List.foldl_cons, ih]
      by_cases h : ∃ b, b ∈ l ∧ ends.getD b 0 = s ∧ index t b = true ∧ (t = maxT ∨ index (t + 1) b = false)
      · rw [if_pos h, if_pos]
        obtain ⟨b, h1, h2⟩ := h
        exact ⟨b, by simp [h1], h2⟩
      · rw [if_neg h]
        by_cases hc : index t a = true ∧ (t = maxT ∨ index (t + 1) a = false)
        · rw [if_pos hc]
          by_cases hs : ends.getD a 0 = s
          · rw [if_pos ⟨a, by simp, hs, hc⟩, ← hs, upd_self]
          · rw [upd_ne (fun h => hs h.symm), if_neg]
            rintro ⟨b, h1, h2, h3⟩
            rcases List.mem_cons.1 h1 with rfl | h1
            · exact hs h2
            · exact h ⟨b, h1, h2, h3⟩
        · rw [if_neg hc, if_neg]
          rintro ⟨b, h1, h2, h3⟩
          rcases List.mem_cons.1 h1 with rfl | h1
          · exact hc h3
          · exact h ⟨b, h1, h2, h3⟩
  rw [h]
  simp only [List.mem_range]

/-! ### `normalize`, `compute_result` -/

omit [DecidableEq K] in
theorem frameSums_spec (edges : List (Edge Nat)) (buf : Nat → K) (s : Nat) :
    frameSums edges buf s = lsum (List.range edges.length) (fun e => (edges[e]?).elim 0 (fun x => if x.seq = s then buf e else 0)) := by
  unfold frameSums
  have h : ∀ (l : List Nat) (sum : Nat → K),
      (l.foldl (fun sum e => (edges[e]?).elim sum (fun x => upd sum x.seq (sum x.seq + buf e))) sum) s =
      sum s + lsum l (fun e => (edges[e]?).elim 0 (fun x => if x.seq = s then buf e else 0)) := by
    intro l
    induction l with
    | nil => intro sum; simp [lsum_nil]
    | cons a l ih =>
      intro sum
      rw [List.foldl_cons, ih, lsum_cons, ← add_assoc]
      congr 1
      rcases Option.eq_none_or_eq_some (edges[a]?) with he | ⟨x, he⟩
      · simp [he]
      · simp only [he, Option.elim_some]
        by_cases hs : x.seq = s
        · subst hs; rw [upd_self, if_pos rfl]
        · rw [upd_ne (fun h => hs h.symm), if_neg hs, add_zero]
  rw [h, zero_add]

/-- What a thread of `compute_result` adds at one place. -/
def outContrib (edges : List (Edge Nat)) (v : Nat → Nat → K) (t b a idx : Nat) : K :=
  if idx / edges.length = t then (edges[idx % edges.length]?).elim 0 (fun x => if x.seq = b ∧ x.label = a then v t (idx % edges.length) else 0) else 0

omit [DecidableEq K] in
theorem outThread_at (edges : List (Edge Nat)) (nv : Nat → Nat → Option K) (out : Nat → Nat → Nat → K) (idx t b a : Nat) :
    outThread edges nv out idx t b a =
      if idx / edges.length = t ∧ (∃ x, edges[idx % edges.length]? = some x ∧ x.seq = b ∧ x.label = a) then probAdd (out t b a) (nv t (idx % edges.length))
      else out t b a := by
  classical
  unfold outThread
  rcases Option.eq_none_or_eq_some (edges[idx % edges.length]?) with he | ⟨x, he⟩
  · rw [he, if_neg]
    · rfl
    · rintro ⟨_, x, h, _⟩; cases h
  · rw [he]
    simp only [Option.elim_some]
    by_cases h1 : idx / edges.length = t
    · subst h1
      rw [upd_self]
      by_cases h2 : x.seq = b
      · subst h2
        rw [upd_self]
        by_cases h3 : x.label = a
        · subst h3
          rw [upd_self, if_pos ⟨rfl, x, rfl, rfl, rfl⟩]
        · rw [upd_ne (fun h => h3 h.symm), if_neg]
          rintro ⟨_, y, h, _, h'⟩
          injection h with h; subst h; exact h3 h'
      · rw [upd_ne (fun h => h2 h.symm), if_neg]
        rintro ⟨_, y, h, h', _⟩
        injection h with h; subst h; exact h2 h'
    · rw [upd_ne (fun h => h1 h.symm), if_neg]
      rintro ⟨h, _⟩; exact h1 h

/-- All values added at this place are NaN: infinity. -/
theorem out_nan (edges : List (Edge Nat)) (nv : Nat → Nat → Option K) (t b a : Nat)
    (h : ∀ e x, edges[e]? = some x → x.seq = b → nv t e = none) : ∀ (order : List Nat) (out : Nat → Nat → Nat → K), out t b a = 0 →
    order.foldl (outThread edges nv) out t b a = 0
  | [], out, h0 => h0
  | idx :: l, out, h0 => by
    rw [List.foldl_cons]
    refine out_nan edges nv t b a h l _ ?_
    rw [outThread_at]
    split
    · rename_i hc
      obtain ⟨_, x, h1, h2, _⟩ := hc
      rw [h _ x h1 h2]; rfl
    · exact h0

/-- Values: their sum. -/
theorem out_sum (edges : List (Edge Nat)) (nv : Nat → Nat → Option K) (v : Nat → Nat → K) (t b a : Nat)
    (h : ∀ e x, edges[e]? = some x → x.seq = b → nv t e = some (v t e)) : ∀ (order : List Nat) (out : Nat → Nat → Nat → K),
    order.foldl (outThread edges nv) out t b a = out t b a + lsum order (outContrib edges v t b a)
  | [], out => by simp [lsum_nil]
  | idx :: l, out => by
    rw [List.foldl_cons, out_sum edges nv v t b a h l, lsum_cons, ← add_assoc]
    congr 1
    rw [outThread_at]
    unfold outContrib
    rcases Option.eq_none_or_eq_some (edges[idx % edges.length]?) with he | ⟨x, he⟩
    · rw [if_neg]
      · simp [he]
      · rintro ⟨_, x, h', _⟩; rw [he] at h'; cases h'
    · by_cases h1 : idx / edges.length = t
      · by_cases h2 : x.seq = b ∧ x.label = a
        · rw [if_pos ⟨h1, x, he, h2⟩, if_pos h1, h _ x he h2.1]
          simp [he, h2, probAdd]
        · rw [if_neg, if_pos h1]
          · simp [he, h2]
          · rintro ⟨_, y, h', h3⟩
            rw [he] at h'; injection h' with h'; subst h'; exact h2 h3
      · rw [if_neg (fun h' => h1 h'.1), if_neg h1, add_zero]

omit [DecidableEq K] in
theorem outContrib_total (edges : List (Edge Nat)) (v : Nat → Nat → K) (t b a F : Nat) (ht : t < F) :
    lsum (List.range (F * edges.length)) (outContrib edges v t b a) =
    lsum (List.range edges.length) (fun e => (edges[e]?).elim 0 (fun x => if x.seq = b ∧ x.label = a then v t e else 0)) := by
  rw [lsum_range_mul]
  rw [lsum_congr (g := fun i => if i = t then
    lsum (List.range edges.length) (fun e => (edges[e]?).elim 0 (fun x => if x.seq = b ∧ x.label = a then v t e else 0)) else 0)]
  · exact lsum_single List.nodup_range (List.mem_range.2 ht) _
  · intro i _
    have hdiv : ∀ j, j ∈ List.range edges.length → (i * edges.length + j) / edges.length = i ∧ (i * edges.length + j) % edges.length = j := by
      intro j hj
      have hj := List.mem_range.1 hj
      rw [Nat.mul_comm]
      refine ⟨?_, ?_⟩
      · rw [Nat.mul_add_div (by omega), Nat.div_eq_of_lt hj]; rfl
      · rw [Nat.mul_add_mod, Nat.mod_eq_of_lt hj]
    by_cases hi : i = t
    · rw [if_pos hi]
      refine lsum_congr ?_
      intro j hj
      obtain ⟨h1, h2⟩ := hdiv j hj
      unfold outContrib
      rw [h1, h2, if_pos hi]
    · rw [if_neg hi, lsum_congr (g := fun _ => 0), lsum_zero]
      intro j hj
      obtain ⟨h1, h2⟩ := hdiv j hj
      unfold outContrib
      rw [h1, if_neg hi]

end Verif.FastBw
