import Verif.ForwardSplit.Lemmas
import Mathlib.Data.List.Forall2
/-
Forwarding of a dataset (C88): what the callback gets; and splitting of batches (C89).
-/
namespace Verif.ForwardSplit

open Verif.Py

variable {α : Type}

/-- **C88** `collate_batch` keeps the data: the batch stands for the samples. -/
theorem collate_keeps (zero : α) (le : α → α → Bool) {tmpl : List Entry} {ks : List String}
    {samples : List (Dict String (Sample α))} (hne : samples ≠ []) (hg : Good tmpl ks samples) :
    ∃ b, collate zero le samples = .ok b ∧ Rep tmpl samples b := by
  obtain ⟨b, h1, _, h3⟩ := collate_spec zero le hne hg
  exact ⟨b, h1, h3⟩

/-- The largest length is the length of one of them. -/
theorem maxLen_mem {ls : List Nat} (h : ls ≠ []) : maxLen ls ∈ ls := by
  have : ∀ (ls : List Nat) (a : Nat), ls.foldl max a = a ∨ ls.foldl max a ∈ ls := by
    intro ls
    induction ls with
    | nil => intro a; exact Or.inl rfl
    | cons x r ih =>
      intro a
      simp only [List.foldl_cons, List.mem_cons]
      rcases ih (max a x) with e | e
      · rw [e]
        rcases Nat.le_total a x with h | h
        · right; left; omega
        · left; omega
      · exact Or.inr (Or.inr e)
  rcases this ls 0 with e | e
  · obtain ⟨x, r, rfl⟩ := List.exists_cons_of_ne_nil h
    have hx := le_maxLen (ls := x :: r) (n := x) (by simp)
    unfold maxLen at hx ⊢
    rw [e] at hx ⊢
    simp; left; omega
  · exact e

/-- The rows are the sequences, filled up at the end to the length of the longest one. -/
def Padded (zero : α) (rows : List (List α)) : Prop :=
  ∃ (xs : List (List α)) (n : Nat), rows = xs.map (fun x => x ++ List.replicate (n - x.length) zero) ∧
    (∀ row ∈ rows, row.length = n) ∧ (xs ≠ [] → ∃ x ∈ xs, x.length = n)

theorem collateKey_padded {zero : α} {le : α → α → Bool} {batch : List (Dict String (Sample α))} {res res' : Batch α} {key : String}
    (hp : ∀ k rows, res.get? k = some (.mat rows) → Padded zero rows) (h : collateKey zero le batch res key = .ok res') :
    ∀ k rows, res'.get? k = some (.mat rows) → Padded zero rows := by
  have hset : ∀ (d : Batch α) (k0 : String) (v : Val α), (∀ k rows, d.get? k = some (.mat rows) → Padded zero rows) →
      (∀ rows, v = .mat rows → Padded zero rows) → ∀ k rows, (d.set k0 v).get? k = some (.mat rows) → Padded zero rows := by
    intro d k0 v hd hv k rows hk
    rw [Dict.get?_set] at hk
    split at hk
    · simp only [Option.some.injEq] at hk; exact hv rows hk
    · exact hd k rows hk
  unfold collateKey at h
  split at h
  · simp at h
  · next col hcol =>
    split at h
    · split at h
      · simp only [Except.ok.injEq] at h; subst h
        exact hset _ _ _ hp (by simp)
      · simp at h
    · split at h
      · split at h
        · simp at h
        · split at h
          · simp at h
          · simp only [Except.ok.injEq] at h; subst h
            exact hset _ _ _ hp (by simp)
      · split at h
        · split at h
          · simp at h
          · next xs _ =>
            simp only [Except.ok.injEq] at h; subst h
            refine hset _ _ _ (hset _ _ _ hp ?_) (by simp)
            intro rows hr
            simp only [Val.mat.injEq] at hr
            subst hr
            refine ⟨xs, maxLen (xs.map List.length), rfl, ?_, ?_⟩
            · intro row hrow
              simp only [List.mem_map] at hrow
              obtain ⟨x, hx, rfl⟩ := hrow
              have := le_maxLen (ls := xs.map List.length) (n := x.length) (List.mem_map.mpr ⟨x, hx, rfl⟩)
              simp only [padTo, List.length_append, List.length_replicate]
              omega
            · intro hne
              have := maxLen_mem (ls := xs.map List.length) (by simpa using hne)
              obtain ⟨x, hx, he⟩ := List.mem_map.mp this
              exact ⟨x, hx, he⟩
        · split at h
          · simp at h
          · simp only [Except.ok.injEq] at h; subst h
            exact hset _ _ _ hp (by simp)
        · simp at h

/-- **C88** Every tensor of a batch is rectangular: all rows have the length of the longest sequence of the batch. -/
theorem collate_rectangular (zero : α) (le : α → α → Bool) {samples : List (Dict String (Sample α))} {b : Batch α}
    (h : collate zero le samples = .ok b) {key : String} {rows : List (List α)} (hk : b.get? key = some (.mat rows)) :
    Padded zero rows := by
  have hloop : ∀ (ks : List String) (res : Batch α), (∀ k rows, res.get? k = some (.mat rows) → Padded zero rows) →
      collateKeys zero le samples ks res = .ok b → Padded zero rows := by
    intro ks
    induction ks with
    | nil => intro res hp h; simp only [collateKeys, Except.ok.injEq] at h; subst h; exact hp key rows hk
    | cons k r ih =>
      intro res hp h
      unfold collateKeys at h
      split at h
      · simp at h
      · next res' hres =>
        exact ih res' (collateKey_padded hp hres) h
  unfold collate at h
  split at h
  · simp at h
  · exact hloop _ [] (by simp [Dict.get?]) h

example : ∃ b, collate 0 (fun a b : Nat => decide (a ≤ b)) [[("data", .seq [1])], [("data", .seq [2, 3])]] = .ok b ∧
    b.get? "data" = some (.mat [[1, 0], [2, 3]]) := ⟨_, rfl, by decide +kernel⟩

/-- Forwarding the pending batches. -/
theorem forward_pending (tmpl : List Entry) (ht : tmpl ≠ []) (auto : Bool) (oom : Nat → Bool)
    (groups : List (List (Dict String (Sample α)))) (bs : List (Batch α))
    (h : List.Forall₂ (fun g b => header b = .ok () ∧ Rep tmpl g b ∧
      ∀ e ∈ tmpl, ∀ e' ∈ tmpl, e.dim ≠ none → e.dim = e'.dim → lensOf g e.key = lensOf g e'.key) groups bs) :
    ∀ (fuel t : Nat) (q : QIter (Batch α)) (out : List (Dict String (Sample α))), groups.length < fuel → q.pending = bs →
      (∀ i < groups.length, oom (t + i) = false) →
      forward tmpl auto oom fuel t q out = .ok (out ++ groups.flatten.map (restrict tmpl)) := by
  induction h with
  | nil =>
    intro fuel t q out hf hq _
    cases fuel with
    | zero => simp at hf
    | succ fuel =>
      cases hn : q.next with
      | none => simp [forward, hn]
      | some p => have := next_some (x := p.1) (q' := p.2) hn; rw [hq] at this; simp at this
  | @cons g b groups bs hgb _ ih =>
    intro fuel t q out hf hq ho
    cases fuel with
    | zero => simp at hf
    | succ fuel =>
      obtain ⟨q', n1, n2⟩ := next_of_pending hq
      obtain ⟨g1, g2, g3⟩ := hgb
      obtain ⟨st, s1, ⟨_, s2⟩, s3, s4, _⟩ := externSizes_spec tmpl tmpl (fun _ h => h) g2 g3 (none, []) (Or.inl rfl)
        (by simp [Dict.get?])
      obtain ⟨n, sizes⟩ := st
      simp only at s2 s3 s4
      have hproc := processLoop_spec (tmpl := tmpl) (b := b) (sizes := sizes) (samples := g)
        (fun i hi => seqOuts_spec tmpl tmpl (fun _ h => h) g2 g3 s3 s4 hi) (List.range g.length)
        (fun i hi => List.mem_range.mp hi)
      rw [filterMap_range] at hproc
      have h0 := ho 0 (by simp)
      simp only [Nat.add_zero] at h0
      simp only [forward, n1, g1, s1, h0, Bool.false_eq_true, if_false, s2 ht, Option.getD_some, hproc]
      rw [ih fuel (t + 1) q' _ (by simpa using hf) n2 (by
        intro i hi
        have := ho (i + 1) (by simpa using hi)
        rw [← this]
        congr 1
        omega)]
      simp

/-- **C88** If no step runs out of memory, the callback gets every sequence of the dataset exactly once, in the order of the
dataset, with its own data and without padding, whatever the grouping into batches. -/
theorem forward_partial (zero : α) (le : α → α → Bool) (tmpl : List Entry) (ht : tmpl ≠ []) (auto : Bool)
    (oom : Nat → Bool) (ks : List String) (groups : List (List (Dict String (Sample α))))
    (hg : ∀ g ∈ groups, g ≠ [] ∧ Good tmpl ks g) (ho : ∀ i < groups.length, oom i = false) :
    ∃ bs, List.Forall₂ (fun g b => collate zero le g = .ok b) groups bs ∧
      ∀ fuel, groups.length < fuel →
        forward tmpl auto oom fuel 0 ⟨bs, []⟩ [] = .ok (groups.flatten.map (restrict tmpl)) := by
  obtain ⟨bs, h1, h2⟩ : ∃ bs, List.Forall₂ (fun g b => collate zero le g = .ok b) groups bs ∧
      List.Forall₂ (fun g b => header b = .ok () ∧ Rep tmpl g b ∧
        ∀ e ∈ tmpl, ∀ e' ∈ tmpl, e.dim ≠ none → e.dim = e'.dim → lensOf g e.key = lensOf g e'.key) groups bs := by
    clear ho
    induction groups with
    | nil => exact ⟨[], .nil, .nil⟩
    | cons g groups ih =>
      obtain ⟨bs, i1, i2⟩ := ih (fun g' h => hg g' (by simp [h]))
      obtain ⟨g1, g2⟩ := hg g (by simp)
      obtain ⟨b, c1, c2, c3⟩ := collate_spec zero le g1 g2
      exact ⟨b :: bs, .cons c1 i1, .cons ⟨header_spec (c2 _ g2.hasFrac) (c2 _ g2.hasNum), c3, g2.sameDim⟩ i2⟩
  refine ⟨bs, h1, ?_⟩
  intro fuel hf
  have := forward_pending tmpl ht auto oom groups bs h2 fuel 0 ⟨bs, []⟩ [] hf (by simp [QIter.pending])
    (by simpa using ho)
  simpa using this

/-! ### Splitting -/

theorem ceil_spec (num total : Nat) (hn : 0 < num) :
    total ≤ num * (-(Int.fdiv (-(total : Int)) num)).toNat ∧ (-(Int.fdiv (-(total : Int)) num)).toNat * num < total + num := by
  have hn' : (0 : Int) < num := by omega
  rw [Int.fdiv_eq_ediv_of_nonneg _ (by omega)]
  have h1 := Int.mul_ediv_add_emod (-(total : Int)) num
  have h2 := Int.emod_nonneg (-(total : Int)) (by omega : (num : Int) ≠ 0)
  have h3 := Int.emod_lt_of_pos (-(total : Int)) hn'
  generalize -(total : Int) / (num : Int) = q at *
  have hq : q ≤ 0 := by
    by_contra hc
    have : (num : Int) * 1 ≤ num * q := Int.mul_le_mul_of_nonneg_left (by omega) (by omega)
    omega
  obtain ⟨c, hc⟩ : ∃ c : Nat, -q = c := ⟨(-q).toNat, by omega⟩
  rw [hc, Int.toNat_natCast]
  have hq' : q = -(c : Int) := by omega
  rw [hq', Int.mul_neg] at h1
  have hcast : ((num * c : Nat) : Int) = (num : Int) * c := by push_cast; rfl
  have hcomm : c * num = num * c := Nat.mul_comm _ _
  rw [hcomm]
  constructor <;> omega

theorem splitLoop_spec (size k remaining : Nat) :
    (splitLoop size k remaining).1.length = k ∧ (splitLoop size k remaining).2 = remaining - k * size ∧
      (splitLoop size k remaining).1.sum + (splitLoop size k remaining).2 = remaining ∧
      ∀ i < k, (splitLoop size k remaining).1[i]? = some (min (remaining - i * size) size) := by
  induction k generalizing remaining with
  | zero => simp [splitLoop]
  | succ k ih =>
    obtain ⟨h1, h2, h3, h4⟩ := ih (remaining - min remaining size)
    simp only [splitLoop, List.length_cons, List.sum_cons]
    refine ⟨by omega, ?_, by omega, ?_⟩
    · rw [h2, Nat.add_mul]
      omega
    · intro i hi
      cases i with
      | zero => simp
      | succ i =>
        rw [List.getElem?_cons_succ, h4 i (by omega), Nat.add_mul]
        congr 1
        omega

/-- **C89** The sizes of the pieces: as many as asked for, they sum up to the batch size, and all but the last ones have
the same size. -/
theorem makeSplits_spec (num total : Nat) (hn : 0 < num) (ht : num ≤ total) :
    ∃ ss size, makeSplits num total = .ok ss ∧ ss.length = num ∧ ss.sum = total ∧ total ≤ num * size ∧
      size * num < total + num ∧ ∀ i < num, ss[i]? = some (min (total - i * size) size) := by
  obtain ⟨c1, c2⟩ := ceil_spec num total hn
  refine ⟨_, _, ?_, (splitLoop_spec _ num total).1, ?_, c1, c2, (splitLoop_spec _ num total).2.2.2⟩
  · unfold makeSplits
    rw [if_pos ht, if_neg (by omega)]
    simp only
    obtain ⟨h1, h2, h3, _⟩ := splitLoop_spec (-(Int.fdiv (-(total : Int)) num)).toNat num total
    rw [if_pos ⟨by rw [h2]; omega, h1, by omega⟩]
  · obtain ⟨h1, h2, h3, _⟩ := splitLoop_spec (-(Int.fdiv (-(total : Int)) num)).toNat num total
    omega

/-- **C89** Two pieces are never empty. -/
theorem makeSplits_two (total : Nat) (ht : 2 ≤ total) :
    ∃ a b, makeSplits 2 total = .ok [a, b] ∧ 0 < a ∧ 0 < b ∧ a + b = total ∧ b ≤ a ∧ a ≤ b + 1 := by
  obtain ⟨ss, size, h1, h2, h3, h4, h5, h6⟩ := makeSplits_spec 2 total (by omega) ht
  match ss, h2 with
  | [a, b], _ =>
    have ha := h6 0 (by omega)
    have hb := h6 1 (by omega)
    simp at ha hb h3
    exact ⟨a, b, h1, by omega, by omega, by omega, by omega, by omega⟩

/-- Some pieces can be empty: 5 sequences in 4 pieces are 2, 2, 1 and 0; and an empty piece is an error if there are
sequence lengths. -/
theorem split_empty_piece :
    makeSplits 4 5 = .ok [2, 2, 1, 0] ∧
      splitBatch ([("data", .mat [[1], [2], [3], [4], [5]]), ("data:seq_len", .lens [1, 1, 1, 1, 1])] : Batch Nat) 4 =
        .error (.other "RuntimeError") := by
  constructor <;> decide +kernel

/-- Batches of entries which all have the batch axis, where lengths belong to padded sequences. -/
structure AllBatched (n : Nat) (b : Batch α) : Prop where
  wf : b.Wf
  shapes : ∀ e ∈ b, shape0 e.2 = .ok n
  lens : ∀ e ∈ b, ∀ w, b.get? (lenKey e.1) = some w → ∃ rows ls, e.2 = .mat rows ∧ w = .lens ls

theorem slice_length {β : Type} {l : List β} {a s : Nat} (h : a + s ≤ l.length) : (slice l a (a + s)).length = s := by
  simp [slice]
  omega

/-- One piece. -/
theorem piece_rep {tmpl : List Entry} {n : Nat} {b : Batch α} (hb : AllBatched n b)
    {samples : List (Dict String (Sample α))} (hr : Rep tmpl samples b) {offset size : Nat}
    (hs : 0 < size) (ho : offset + size ≤ n) :
    ∃ p p', piece offset size b = .ok p ∧ trimLoop p p = .ok p' ∧ Rep tmpl (slice samples offset (offset + size)) p' := by
  obtain ⟨p, hp⟩ := piece_ok offset size (fun e he => ⟨n, hb.shapes e he⟩)
  have hpw : p.Wf := by unfold Dict.Wf; rw [piece_keys hp]; exact hb.wf
  -- lengths in the piece
  have hlen : ∀ k ls, p.get? (lenKey k) = some (.lens ls) → ls ≠ [] := by
    intro k ls hl
    rcases piece_get? hp (lenKey k) with ⟨_, h⟩ | ⟨v, v', h1, h2, h3⟩
    · rw [h] at hl; simp at hl
    · rw [h2] at hl
      have hv : v' = .lens ls := by simpa using hl
      have hsh := hb.shapes (lenKey k, v) (Dict.mem_of_get? h1)
      cases v with
      | lens l =>
        simp only [shape0, Except.ok.injEq] at hsh
        simp only [sliceVal, Except.ok.injEq] at h3
        rw [hv] at h3
        have hls : ls = slice l offset (offset + size) := by simpa using h3.symm
        rw [hls]
        intro h0
        have := slice_length (l := l) (a := offset) (s := size) (by omega)
        rw [h0] at this
        simp at this
        omega
      | mat l => simp [sliceVal, hv] at h3
      | vec l => simp [sliceVal, hv] at h3
      | scalar x => simp [sliceVal] at h3
  obtain ⟨p', hp'⟩ := trimLoop_ok (d := p) (b := p) (by
    intro e he
    have hge := Dict.get?_of_mem hpw (show (e.1, e.2) ∈ p from he)
    unfold trimVal
    cases hl : p.get? (lenKey e.1) with
    | none => exact ⟨e.2, rfl⟩
    | some w =>
      rcases piece_get? hp (lenKey e.1) with ⟨_, h⟩ | ⟨v, v', h1, h2, h3⟩
      · rw [h] at hl; simp at hl
      · rcases piece_get? hp e.1 with ⟨_, h⟩ | ⟨u, u', g1, g2, g3⟩
        · rw [h] at hge; simp at hge
        · obtain ⟨rows, ls, e1, e2⟩ := hb.lens (e.1, u) (Dict.mem_of_get? g1) v h1
          rw [h2] at hl
          rw [g2] at hge
          have hu : u' = e.2 := by simpa using hge
          have hw : v' = w := by simpa using hl
          subst e2
          simp only at e1
          subst e1
          simp only [sliceVal, Except.ok.injEq] at h3 g3
          rw [← hw, ← h3]
          simp only
          rw [if_neg (hlen e.1 _ (by rw [h2, ← h3])), ← hu, ← g3]
          exact ⟨_, rfl⟩)
  refine ⟨p, p', hp, hp', ?_⟩
  intro e he
  constructor
  · intro hd
    obtain ⟨xs, x1, x2⟩ := (hr e he).1 hd
    rcases piece_get? hp e.key with ⟨h, _⟩ | ⟨v, v', h1, h2, h3⟩
    · rw [x1] at h; simp at h
    · rw [x1] at h1
      have hv : v = .vec xs := by simpa using h1.symm
      subst hv
      simp only [sliceVal, Except.ok.injEq] at h3
      rcases trimLoop_get? hp' e.key with ⟨h, _⟩ | ⟨w, w', g1, g2, g3⟩
      · rw [h2] at h; simp at h
      · rw [h2] at g1
        have hw : v' = w := by simpa using g1
        refine ⟨slice xs offset (offset + size), ?_, by rw [← slice_map, x2, slice_map]⟩
        rw [g2]
        unfold trimVal at g3
        cases hl : p.get? (lenKey e.key) with
        | none =>
          rw [hl] at g3
          simp only [Except.ok.injEq] at g3
          rw [← g3, ← hw, ← h3]
        | some u =>
          rcases piece_get? hp (lenKey e.key) with ⟨_, h⟩ | ⟨u0, u', l1, l2, l3⟩
          · rw [hl] at h; simp at h
          · obtain ⟨rows, ls, e1, _⟩ := hb.lens (e.key, .vec xs) (Dict.mem_of_get? x1) u0 l1
            simp at e1
  · intro hd
    obtain ⟨rows, ls, r1, r2, r3, r4, r5⟩ := (hr e he).2 hd
    have hsr : rows.length = n := by
      have := hb.shapes (e.key, .mat rows) (Dict.mem_of_get? r1)
      simpa [shape0] using this
    rcases piece_get? hp e.key with ⟨h, _⟩ | ⟨v, v', h1, h2, h3⟩
    · rw [r1] at h; simp at h
    rcases piece_get? hp (lenKey e.key) with ⟨h, _⟩ | ⟨u, u', l1, l2, l3⟩
    · rw [r2] at h; simp at h
    rw [r1] at h1
    rw [r2] at l1
    have hv : v = .mat rows := by simpa using h1.symm
    have hu : u = .lens ls := by simpa using l1.symm
    subst hv hu
    simp only [sliceVal, Except.ok.injEq] at h3 l3
    rcases trimLoop_get? hp' e.key with ⟨h, _⟩ | ⟨w, w', g1, g2, g3⟩
    · rw [h2] at h; simp at h
    rcases trimLoop_get? hp' (lenKey e.key) with ⟨h, _⟩ | ⟨z, z', m1, m2, m3⟩
    · rw [l2] at h; simp at h
    rw [h2] at g1
    rw [l2] at m1
    have hw : w = .mat (slice rows offset (offset + size)) := by rw [h3]; simpa using g1.symm
    have hz : z = .lens (slice ls offset (offset + size)) := by rw [l3]; simpa using m1.symm
    -- the lengths are not changed
    have hz' : z' = .lens (slice ls offset (offset + size)) := by
      unfold trimVal at m3
      cases hll : p.get? (lenKey (lenKey e.key)) with
      | none =>
        rw [hll] at m3
        simp only [Except.ok.injEq] at m3
        rw [← m3, hz]
      | some y =>
        rcases piece_get? hp (lenKey (lenKey e.key)) with ⟨_, h⟩ | ⟨y0, _, y1, _, _⟩
        · rw [hll] at h; simp at h
        · obtain ⟨_, _, e1, _⟩ := hb.lens (lenKey e.key, .lens ls) (Dict.mem_of_get? r2) y0 y1
          simp at e1
    have hne : slice ls offset (offset + size) ≠ [] := by
      apply hlen e.key
      rw [l2, ← l3]
    have hw' : w' = .mat ((slice rows offset (offset + size)).map (List.take (maxLen (slice ls offset (offset + size))))) := by
      unfold trimVal at g3
      rw [l2, ← l3] at g3
      simp only at g3
      rw [if_neg hne, hw] at g3
      simpa using g3.symm
    have hzip : List.zipWith List.take (slice ls offset (offset + size))
        ((slice rows offset (offset + size)).map (List.take (maxLen (slice ls offset (offset + size))))) =
        slice (List.zipWith List.take ls rows) offset (offset + size) := by
      rw [zipWith_take_trim _ _ _ (fun _ h => le_maxLen h), slice_zipWith]
    refine ⟨_, _, by rw [g2, hw'], by rw [m2, hz'], ?_, ?_, ?_⟩
    · rw [List.length_map, slice_length (by omega), slice_length (by omega)]
    · rw [hzip, ← slice_map, r4, slice_map]
    · rw [hzip, ← slice_map, r5]

theorem slice_cut {β : Type} (l : List β) (o s : Nat) : slice l o (o + s) = (l.drop o).take s := by
  simp [slice, List.drop_take]

theorem trimAll_cons {d d' : Batch α} {r r' : List (Batch α)} (h1 : trimLoop d d = .ok d') (h2 : trimAll r = .ok r') :
    trimAll (d :: r) = .ok (d' :: r') := by
  simp only [trimAll, h1, h2]

theorem pieces_rep {tmpl : List Entry} {n : Nat} {b : Batch α} (hb : AllBatched n b)
    {samples : List (Dict String (Sample α))} (hr : Rep tmpl samples b) (splits : List Nat) (offset : Nat)
    (hs : ∀ s ∈ splits, 0 < s) (ho : offset + splits.sum ≤ n) :
    ∃ ps ps', pieces b splits offset = .ok ps ∧ trimAll ps = .ok ps' ∧
      List.Forall₂ (fun seg p => Rep tmpl seg p) (cut splits (samples.drop offset)) ps' := by
  induction splits generalizing offset with
  | nil => exact ⟨[], [], rfl, rfl, .nil⟩
  | cons s r ih =>
    simp only [List.sum_cons] at ho
    obtain ⟨p, p', h1, h2, h3⟩ := piece_rep hb hr (offset := offset) (size := s) (hs s (by simp)) (by omega)
    obtain ⟨ps, ps', i1, i2, i3⟩ := ih (offset + s) (fun s hs' => hs s (by simp [hs'])) (by omega)
    refine ⟨p :: ps, p' :: ps', by simp only [pieces, h1, i1], trimAll_cons h2 i2, ?_⟩
    simp only [cut, List.drop_drop]
    rw [slice_cut] at h3
    exact .cons h3 i3

/-- **C89** Splitting a batch in which all entries have the batch axis: the pieces stand for consecutive parts of the
sequences, with the padding cut to the longest of each piece. -/
theorem split_partial {tmpl : List Entry} {n : Nat} {b : Batch α} (hb : AllBatched n b) (hne : b ≠ [])
    {samples : List (Dict String (Sample α))} (hr : Rep tmpl samples b) (splits : List Nat)
    (hs : ∀ s ∈ splits, 0 < s) (hsum : splits.sum = n) :
    ∃ ps, splitSizes b splits = .ok ps ∧ List.Forall₂ (fun seg p => Rep tmpl seg p) (cut splits samples) ps := by
  obtain ⟨ps, ps', h1, h2, h3⟩ := pieces_rep hb hr splits 0 hs (by omega)
  refine ⟨ps', ?_, by simpa using h3⟩
  have hbs : batchSize b = .ok n := by
    cases b with
    | nil => exact absurd rfl hne
    | cons e r => exact hb.shapes e (by simp)
  simp only [splitSizes, hbs, hsum, if_true, h1, h2]

/-- Consecutive parts put together are the whole. -/
theorem cut_flatten {β : Type} (splits : List Nat) (l : List β) (h : l.length ≤ splits.sum) : (cut splits l).flatten = l := by
  induction splits generalizing l with
  | nil => simp at h; simp [cut, h]
  | cons s r ih =>
    simp only [List.sum_cons] at h
    simp [cut, ih (l.drop s) (by simp; omega)]

/-- **C89** The iterator with the queue: the items which are put back come next, in order, then what was still to come. -/
theorem queue_order {β : Type} (q : QIter β) (items : List β) :
    (q.extend items).pending = items ++ q.pending ∧
      (q.next = none ↔ q.pending = []) ∧ ∀ x q', q.next = some (x, q') → q.pending = x :: q'.pending := by
  refine ⟨extend_pending q items, ⟨next_none, ?_⟩, fun x q' h => next_some h⟩
  intro h
  cases hn : q.next with
  | none => rfl
  | some p => have := next_some (x := p.1) (q' := p.2) hn; rw [h] at this; simp at this

/-! ### Running out of memory -/

theorem pieces_mem {b : Batch α} (splits : List Nat) (offset : Nat) {ps : List (Batch α)} (h : pieces b splits offset = .ok ps) :
    List.Forall₂ (fun s p => ∃ o, offset ≤ o ∧ piece o s b = .ok p) splits ps := by
  induction splits generalizing offset ps with
  | nil =>
    simp only [pieces, Except.ok.injEq] at h
    subst h
    exact .nil
  | cons s r ih =>
    simp only [pieces] at h
    split at h
    · exact absurd h (by simp)
    · next p hp =>
      split at h
      · exact absurd h (by simp)
      · next ps' hps =>
        simp only [Except.ok.injEq] at h
        subst h
        refine .cons ⟨offset, Nat.le_refl _, hp⟩ ?_
        have := ih (offset + s) hps
        exact this.imp (fun _ _ ⟨o, ho, hp⟩ => ⟨o, by omega, hp⟩)

theorem trimAll_mem {ps ps' : List (Batch α)} (h : trimAll ps = .ok ps') :
    List.Forall₂ (fun p p' => trimLoop p p = .ok p') ps ps' := by
  induction ps generalizing ps' with
  | nil =>
    simp only [trimAll, Except.ok.injEq] at h
    subst h
    exact .nil
  | cons p r ih =>
    simp only [trimAll] at h
    split at h
    · exact absurd h (by simp)
    · next p' hp =>
      split at h
      · exact absurd h (by simp)
      · next r' hr =>
        simp only [Except.ok.injEq] at h
        subst h
        exact .cons hp (ih hr)

/-- After the split some piece has no value for `complete_frac` any more. -/
theorem onOom_header {auto : Bool} {b : Batch α} (hh : header b = .ok ()) {ps : List (Batch α)} (h : onOom auto b = .ok ps) :
    ∃ p ∈ ps, header p ≠ .ok () := by
  unfold onOom at h
  split at h
  swap
  · exact absurd h (by simp)
  cases hc : canSplit b 2 with
  | error e => rw [hc] at h; exact absurd h (by simp)
  | ok c =>
    rw [hc] at h
    cases c with
    | false => exact absurd h (by simp)
    | true =>
      simp only at h
      unfold canSplit at hc
      unfold splitBatch at h
      cases hb : batchSize b with
      | error e => rw [hb] at h; exact absurd h (by simp)
      | ok n =>
        rw [hb] at h hc
        simp only [Except.ok.injEq, decide_eq_true_eq] at hc
        obtain ⟨a, c, m1, m2, m3, m4, _, _⟩ := makeSplits_two n hc
        simp only [m1] at h
        unfold splitSizes at h
        rw [hb] at h
        simp only at h
        rw [if_pos (by simp; omega)] at h
        cases hp : pieces b [a, c] 0 with
        | error e => rw [hp] at h; exact absurd h (by simp)
        | ok qs =>
          rw [hp] at h
          simp only at h
          have hq2 : ∃ q1 q2, qs = [q1, q2] ∧ piece a c b = .ok q2 := by
            simp only [pieces] at hp
            split at hp
            · exact absurd hp (by simp)
            · next p1 _ =>
              split at hp
              · exact absurd hp (by simp)
              · next ps1 h1 =>
                split at h1
                · exact absurd h1 (by simp)
                · next p2 h2 =>
                  simp only [Except.ok.injEq] at hp h1
                  subst h1 hp
                  exact ⟨p1, p2, rfl, by simpa using h2⟩
          obtain ⟨q1, q2, hqs, hpc⟩ := hq2
          have ht := trimAll_mem h
          rw [hqs] at ht
          cases ht with
          | @cons _ p1 _ _ _ ht =>
            cases ht with
            | @cons _ p2 _ _ ht2 _ =>
              refine ⟨p2, by simp, ?_⟩
              -- the entry of `complete_frac`
              unfold header at hh
              rcases piece_get? hpc "complete_frac" with ⟨h0, _⟩ | ⟨v, v', h1, h2, h3⟩
              · rw [h0] at hh; simp [asNumber] at hh
              · rcases trimLoop_get? ht2 "complete_frac" with ⟨h0, _⟩ | ⟨w, w', g1, g2, g3⟩
                · rw [h2] at h0; simp at h0
                · rw [h2] at g1
                  have hw : w = v' := by simpa using g1.symm
                  rw [h1] at hh
                  have hempty : w' = .vec [] ∨ w' = .lens [] ∨ w' = .mat [] := by
                    have hcut : ∀ {β : Type} (x : β), slice [x] a (a + c) = [] := by
                      intro β x
                      simp [slice]
                      omega
                    have htr : ∀ u, trimVal q2 "complete_frac" u = .ok w' → (u = .vec [] ∨ u = .lens [] ∨ u = .mat []) →
                        w' = .vec [] ∨ w' = .lens [] ∨ w' = .mat [] := by
                      intro u hu hu'
                      unfold trimVal at hu
                      split at hu
                      · simp only [Except.ok.injEq] at hu
                        rw [← hu]; exact hu'
                      · split at hu
                        · exact absurd hu (by simp)
                        · split at hu
                          · simp only [Except.ok.injEq] at hu
                            rcases hu' with hu' | hu' | hu'
                            · simp at hu'
                            · simp at hu'
                            · simp only [Val.mat.injEq] at hu'
                              rw [← hu, hu']
                              simp
                          · exact absurd hu (by simp)
                      · exact absurd hu (by simp)
                    apply htr w g3
                    rw [hw]
                    cases v with
                    | scalar x => simp [sliceVal] at h3
                    | vec xs =>
                      match xs, hh with
                      | [x], _ =>
                        simp only [sliceVal, hcut, Except.ok.injEq] at h3
                        exact Or.inl h3.symm
                      | [], hh => simp [asNumber] at hh
                      | _ :: _ :: _, hh => simp [asNumber] at hh
                    | lens xs =>
                      match xs, hh with
                      | [x], _ =>
                        simp only [sliceVal, hcut, Except.ok.injEq] at h3
                        exact Or.inr (Or.inl h3.symm)
                      | [], hh => simp [asNumber] at hh
                      | _ :: _ :: _, hh => simp [asNumber] at hh
                    | mat xs =>
                      match xs, hh with
                      | [x], _ =>
                        simp only [sliceVal, hcut, Except.ok.injEq] at h3
                        exact Or.inr (Or.inr h3.symm)
                      | [], hh => simp [asNumber] at hh
                      | _ :: _ :: _, hh => simp [asNumber] at hh
                  unfold header
                  rw [g2]
                  rcases hempty with h | h | h <;> rw [h] <;> simp [asNumber]

/-- **C88** Negation for the automatic splitting: whatever the batches are, if any of the steps runs out of memory, the
whole call raises, also with `forward_auto_split_batch_on_oom`.  (Each batch has `complete_frac`, `num_seqs` and `epoch` as
single numbers, which cannot be cut.) -/
theorem auto_split_never_works (tmpl : List Entry) (auto : Bool) (oom : Nat → Bool) (fuel : Nat) :
    ∀ (t : Nat) (q : QIter (Batch α)) (out res : List (Dict String (Sample α))),
      forward tmpl auto oom fuel t q out = .ok res →
      (∀ b ∈ q.pending, header b = .ok ()) ∧ ∀ i < q.pending.length, oom (t + i) = false := by
  induction fuel with
  | zero => intro t q out res h; exact absurd h (by simp [forward])
  | succ fuel ih =>
    intro t q out res h
    simp only [forward] at h
    split at h
    · next hn =>
      rw [next_none hn]
      simp
    · next b q' hn =>
      have hpend := next_some hn
      split at h
      · exact absurd h (by simp)
      · next hh =>
        split at h
        · exact absurd h (by simp)
        · next n sizes hst =>
          split at h
          · next ho =>
            exfalso
            split at h
            · exact absurd h (by simp)
            · next ps hps =>
              obtain ⟨i1, _⟩ := ih _ _ _ _ h
              rw [extend_pending] at i1
              obtain ⟨p, p1, p2⟩ := onOom_header hh hps
              exact p2 (i1 p (by simp [p1]))
          · next ho =>
            split at h
            · exact absurd h (by simp)
            · next ys hys =>
              obtain ⟨i1, i2⟩ := ih _ _ _ _ h
              rw [hpend]
              refine ⟨?_, ?_⟩
              · intro b' hb'
                rcases List.mem_cons.mp hb' with h | h
                · rw [h]; exact hh
                · exact i1 b' h
              · intro i hi
                cases i with
                | zero => simpa using ho
                | succ i =>
                  have := i2 i (by simpa using hi)
                  rw [← this]
                  congr 1
                  omega

/-! ### Concrete runs -/

def exS (tag : Nat) (xs : List Nat) : Dict String (Sample Nat) :=
  [("data", .seq xs), ("classes", .seq (xs.map (· + 10))), ("seq_tag", .num tag), ("epoch", .num 1), ("num_seqs", .num 3),
    ("complete_frac", .num tag)]

def exTmpl : List Entry := [⟨"data", some 0⟩, ⟨"classes", some 0⟩, ⟨"seq_tag", none⟩]

def exGroups : List (List (Dict String (Sample Nat))) := [[exS 1 [1, 2, 3], exS 2 [4]], [exS 3 []]]

/-- The hypotheses of `forward_partial` are met. -/
example : ∀ g ∈ exGroups, g ≠ [] ∧
    Good exTmpl ["data", "classes", "seq_tag", "epoch", "num_seqs", "complete_frac"] g := by
  intro g hg
  simp only [exGroups, List.mem_cons, List.not_mem_nil, or_false] at hg
  rcases hg with hg | hg <;> subst hg
  · refine ⟨by simp, ⟨by decide, by decide, by decide, by decide, by decide, ?_, ?_, by decide⟩⟩
    · simp [exS, Dict.get?, Special]
    · simp [exS, Dict.get?, Special, exTmpl]
  · refine ⟨by simp, ⟨by decide, by decide, by decide, by decide, by decide, ?_, ?_, by decide⟩⟩
    · simp [exS, Dict.get?, Special]
    · simp [exS, Dict.get?, Special, exTmpl]

/-- The run: two batches, three sequences. -/
example : (match collate 0 Nat.ble [exS 1 [1, 2, 3], exS 2 [4]], collate 0 Nat.ble [exS 3 []] with
    | .ok b1, .ok b2 => forward exTmpl true (fun _ => false) 5 0 ⟨[b1, b2], []⟩ []
    | _, _ => .error .assertion) =
    .ok [[("data", .seq [1, 2, 3]), ("classes", .seq [11, 12, 13]), ("seq_tag", .num 1)],
      [("data", .seq [4]), ("classes", .seq [14]), ("seq_tag", .num 2)],
      [("data", .seq []), ("classes", .seq []), ("seq_tag", .num 3)]] := by
  decide +kernel

/-- The same with the first step out of memory: the split raises. -/
example : (match collate 0 Nat.ble [exS 1 [1, 2, 3], exS 2 [4]], collate 0 Nat.ble [exS 3 []] with
    | .ok b1, .ok b2 => forward exTmpl true (fun t => t == 0) 5 0 ⟨[b1, b2], []⟩ []
    | _, _ => .error .assertion) = .error .indexError := by
  decide +kernel

/-- The hypotheses of `split_partial` are met, and the padding is cut. -/
example : AllBatched 3 ([("data", .mat [[1, 2, 3], [4, 0, 0], [5, 6, 0]]), ("data:seq_len", .lens [3, 1, 2]),
      ("seq_tag", .vec [7, 8, 9])] : Batch Nat) ∧
    splitBatch ([("data", .mat [[1, 2, 3], [4, 0, 0], [5, 6, 0]]), ("data:seq_len", .lens [3, 1, 2]),
      ("seq_tag", .vec [7, 8, 9])] : Batch Nat) 2 =
    .ok [[("data", .mat [[1, 2, 3], [4, 0, 0]]), ("data:seq_len", .lens [3, 1]), ("seq_tag", .vec [7, 8])],
      [("data", .mat [[5, 6]]), ("data:seq_len", .lens [2]), ("seq_tag", .vec [9])]] := by
  refine ⟨⟨by unfold Dict.Wf; decide, by decide, ?_⟩, by decide +kernel⟩
  intro e he w hw
  simp only [List.mem_cons, List.not_mem_nil, or_false] at he
  rcases he with he | he | he <;> subst he
  · exact ⟨_, _, rfl, by simpa [lenKey, Dict.get?] using hw.symm⟩
  · simp [lenKey, Dict.get?] at hw
  · simp [lenKey, Dict.get?] at hw

end Verif.ForwardSplit
