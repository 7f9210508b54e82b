import Verif.ForwardSplit.Spec
/-
Lemmas on batches, their pieces and the iterator.
-/
namespace Verif.ForwardSplit

open Verif.Py

variable {α : Type}

theorem lenKey_inj {a b : String} (h : lenKey a = lenKey b) : a = b := by
  unfold lenKey at h
  have := congrArg String.toList h
  simp only [String.toList_append] at this
  exact String.toList_injective (List.append_cancel_right this)

/-! ### The queue -/

theorem extend_pending {β : Type} (q : QIter β) (items : List β) : (q.extend items).pending = items ++ q.pending := by
  simp [QIter.extend, QIter.pending]

theorem next_none {β : Type} {q : QIter β} (h : q.next = none) : q.pending = [] := by
  unfold QIter.next at h
  split at h
  · simp at h
  · next hq =>
    split at h
    · next hi => simp [QIter.pending, List.getLast?_eq_none_iff.mp hq, hi]
    · simp at h

theorem next_some {β : Type} {q q' : QIter β} {x : β} (h : q.next = some (x, q')) : q.pending = x :: q'.pending := by
  unfold QIter.next at h
  split at h
  · next y hq =>
    simp only [Option.some.injEq, Prod.mk.injEq] at h
    obtain ⟨h1, h2⟩ := h
    subst h1 h2
    obtain ⟨ys, hy⟩ := List.getLast?_eq_some_iff.mp hq
    simp [QIter.pending, hy]
  · next hq =>
    split at h
    · simp at h
    · next y r hi =>
      simp only [Option.some.injEq, Prod.mk.injEq] at h
      obtain ⟨h1, h2⟩ := h
      subst h1 h2
      simp [QIter.pending, List.getLast?_eq_none_iff.mp hq, hi]

theorem next_of_pending {β : Type} {q : QIter β} {x : β} {r : List β} (h : q.pending = x :: r) :
    ∃ q', q.next = some (x, q') ∧ q'.pending = r := by
  cases hn : q.next with
  | none => rw [next_none hn] at h; simp at h
  | some p =>
    obtain ⟨y, q'⟩ := p
    have := next_some hn
    rw [h] at this
    simp only [List.cons.injEq] at this
    exact ⟨q', by rw [this.1], this.2.symm⟩

/-! ### `collate_batch` -/

theorem column_spec {k : String} {samples : List (Dict String (Sample α))} (h : ∀ s ∈ samples, ∃ x, s.get? k = some x) :
    ∃ col, column k samples = .ok col ∧ samples.map (fun s => s.get? k) = col.map some := by
  induction samples with
  | nil => exact ⟨[], rfl, rfl⟩
  | cons s r ih =>
    obtain ⟨x, hx⟩ := h s (by simp)
    obtain ⟨col, h1, h2⟩ := ih (fun s hs => h s (by simp [hs]))
    refine ⟨x :: col, ?_, by simp [hx, h2]⟩
    simp [column, Dict.getItem, hx, h1]

theorem nums_spec {col : List (Sample α)} (h : ∀ y ∈ col, ∃ x, y = .num x) :
    ∃ xs, nums col = .ok xs ∧ col = xs.map .num := by
  induction col with
  | nil => exact ⟨[], rfl, rfl⟩
  | cons y r ih =>
    obtain ⟨x, hx⟩ := h y (by simp)
    obtain ⟨xs, h1, h2⟩ := ih (fun y hy => h y (by simp [hy]))
    subst hx
    exact ⟨x :: xs, by simp [nums, h1], by simp [h2]⟩

theorem seqs_spec {col : List (Sample α)} (h : ∀ y ∈ col, ∃ x, y = .seq x) :
    ∃ xs, seqs col = .ok xs ∧ col = xs.map .seq := by
  induction col with
  | nil => exact ⟨[], rfl, rfl⟩
  | cons y r ih =>
    obtain ⟨x, hx⟩ := h y (by simp)
    obtain ⟨xs, h1, h2⟩ := ih (fun y hy => h y (by simp [hy]))
    subst hx
    exact ⟨x :: xs, by simp [seqs, h1], by simp [h2]⟩

/-- All single values. -/
theorem col_num {k : String} {samples : List (Dict String (Sample α))}
    (h : ∀ s ∈ samples, ∃ x, s.get? k = some (.num x)) :
    ∃ xs, column k samples = .ok (xs.map .num) ∧ samples.map (fun s => s.get? k) = xs.map (fun x => some (.num x)) ∧
      nums (xs.map .num) = .ok xs := by
  obtain ⟨col, c1, c2⟩ := column_spec (fun s hs => (h s hs).imp (fun x hx => ⟨.num x, hx⟩) |>.elim (fun _ h => h))
  obtain ⟨xs, n1, n2⟩ := nums_spec (col := col) (by
    intro y hy
    have : some y ∈ samples.map (fun s => s.get? k) := by rw [c2]; exact List.mem_map_of_mem hy
    obtain ⟨s, hs, e⟩ := List.mem_map.mp this
    obtain ⟨x, hx⟩ := h s hs
    rw [hx] at e
    exact ⟨x, (Option.some.inj e).symm⟩)
  rw [n2] at c1 c2 n1
  exact ⟨xs, c1, by rw [c2, List.map_map]; rfl, n1⟩

/-- All sequences. -/
theorem col_seq {k : String} {samples : List (Dict String (Sample α))}
    (h : ∀ s ∈ samples, ∃ x, s.get? k = some (.seq x)) :
    ∃ xs, column k samples = .ok (xs.map .seq) ∧ samples.map (fun s => s.get? k) = xs.map (fun x => some (.seq x)) ∧
      seqs (xs.map .seq) = .ok xs := by
  obtain ⟨col, c1, c2⟩ := column_spec (fun s hs => (h s hs).imp (fun x hx => ⟨.seq x, hx⟩) |>.elim (fun _ h => h))
  obtain ⟨xs, n1, n2⟩ := seqs_spec (col := col) (by
    intro y hy
    have : some y ∈ samples.map (fun s => s.get? k) := by rw [c2]; exact List.mem_map_of_mem hy
    obtain ⟨s, hs, e⟩ := List.mem_map.mp this
    obtain ⟨x, hx⟩ := h s hs
    rw [hx] at e
    exact ⟨x, (Option.some.inj e).symm⟩)
  rw [n2] at c1 c2 n1
  exact ⟨xs, c1, by rw [c2, List.map_map]; rfl, n1⟩

theorem zipWith_take_pad (zero : α) (n : Nat) (xs : List (List α)) :
    List.zipWith List.take (xs.map List.length) (xs.map (padTo zero n)) = xs := by
  induction xs with
  | nil => rfl
  | cons x xs ih => simp [ih, padTo]

/-- The entries of one key: what `collateKey` makes of them. -/
inductive KeyRes (samples : List (Dict String (Sample α))) (k : String) (res res' : Batch α) : Prop
  | special (x : α) (hk : Special k) (h : res' = res.set k (.scalar x))
  | num (xs : List α) (hk : ¬ Special k) (h : res' = res.set k (.vec xs))
      (hx : samples.map (fun s => s.get? k) = xs.map (fun x => some (.num x)))
  | seq (xs rows : List (List α)) (hk : ¬ Special k)
      (h : res' = (res.set k (.mat rows)).set (lenKey k) (.lens (xs.map List.length)))
      (hr : List.zipWith List.take (xs.map List.length) rows = xs) (hl : rows.length = xs.length)
      (hx : samples.map (fun s => s.get? k) = xs.map (fun x => some (.seq x)))

theorem collateKey_spec (zero : α) (le : α → α → Bool) {samples : List (Dict String (Sample α))} (hne : samples ≠ [])
    (res : Batch α) {k : String} (h : (∀ s ∈ samples, ∃ x, s.get? k = some (.num x)) ∨
      (¬ Special k ∧ ∀ s ∈ samples, ∃ xs, s.get? k = some (.seq xs))) :
    ∃ res', collateKey zero le samples res k = .ok res' ∧ KeyRes samples k res res' := by
  rcases h with h | ⟨hs, h⟩
  · obtain ⟨xs, c1, c2, c3⟩ := col_num h
    obtain ⟨x, xs', hxs⟩ : ∃ x xs', xs = x :: xs' := by
      cases xs with
      | nil =>
        simp only [List.map_nil, List.map_eq_nil_iff] at c2
        exact absurd c2 hne
      | cons x xs' => exact ⟨x, xs', rfl⟩
    unfold collateKey
    rw [c1]
    simp only
    by_cases h1 : k = "num_seqs" ∨ k = "epoch"
    · rw [if_pos h1, hxs]
      exact ⟨_, rfl, .special x (by rcases h1 with h1 | h1 <;> simp [Special, h1]) rfl⟩
    · rw [if_neg h1]
      by_cases h2 : k = "complete_frac"
      · rw [if_pos h2, c3]
        simp only
        rw [hxs]
        exact ⟨_, rfl, .special _ (by simp [Special, h2]) rfl⟩
      · rw [if_neg h2]
        have hk : ¬ Special k := by
          unfold Special
          rintro (h | h | h)
          · exact h1 (Or.inl h)
          · exact h1 (Or.inr h)
          · exact h2 h
        refine ⟨res.set k (.vec xs), ?_, .num xs hk rfl c2⟩
        rw [hxs] at c3 ⊢
        simp only [List.map_cons] at c3 ⊢
        rw [c3]
  · obtain ⟨xs, c1, c2, c3⟩ := col_seq h
    obtain ⟨x, xs', hxs⟩ : ∃ x xs', xs = x :: xs' := by
      cases xs with
      | nil =>
        simp only [List.map_nil, List.map_eq_nil_iff] at c2
        exact absurd c2 hne
      | cons x xs' => exact ⟨x, xs', rfl⟩
    unfold collateKey
    rw [c1]
    simp only
    rw [if_neg (fun h' => hs (h'.elim Or.inl (fun h' => Or.inr (Or.inl h')))), if_neg (fun h' => hs (Or.inr (Or.inr h')))]
    refine ⟨_, ?_, .seq xs (xs.map (padTo zero (maxLen (xs.map List.length)))) hs rfl (zipWith_take_pad _ _ _)
      (by simp) c2⟩
    rw [hxs] at c3 ⊢
    simp only [List.map_cons] at c3 ⊢
    rw [c3]
    simp

/-- What a key of the finished batch has. -/
def KeyOk (samples : List (Dict String (Sample α))) (b : Batch α) (k : String) : Prop :=
  (Special k ∧ ∃ x, b.get? k = some (.scalar x)) ∨ (¬ Special k ∧ RepNum samples b k) ∨ (¬ Special k ∧ RepSeq samples b k)

theorem keyOk_congr {samples : List (Dict String (Sample α))} {b b' : Batch α} {k : String}
    (h1 : b'.get? k = b.get? k) (h2 : b'.get? (lenKey k) = b.get? (lenKey k)) (h : KeyOk samples b k) :
    KeyOk samples b' k := by
  unfold KeyOk RepNum RepSeq at *
  rw [h1, h2]
  exact h

theorem keyRes_ok {samples : List (Dict String (Sample α))} {res res' : Batch α} {k : String}
    (h : KeyRes samples k res res') (hk : k ≠ lenKey k) : KeyOk samples res' k := by
  cases h with
  | special x hs h => exact Or.inl ⟨hs, x, by rw [h, Dict.get?_set]; simp⟩
  | num xs hs h hx => exact Or.inr (Or.inl ⟨hs, xs, by rw [h, Dict.get?_set]; simp, hx⟩)
  | seq xs rows hs h hr hl hx =>
    refine Or.inr (Or.inr ⟨hs, rows, xs.map List.length, ?_, ?_, by simp [hl], by rw [hr]; exact hx, by rw [hr]⟩)
    · rw [h, Dict.get?_set, Dict.get?_set]
      simp [Ne.symm hk]
    · rw [h, Dict.get?_set]
      simp

theorem keyRes_other {samples : List (Dict String (Sample α))} {res res' : Batch α} {k k' : String}
    (h : KeyRes samples k res res') (h1 : k ≠ k') (h2 : lenKey k ≠ k') : res'.get? k' = res.get? k' := by
  cases h with
  | special x hs h => rw [h, Dict.get?_set, if_neg h1]
  | num xs hs h hx => rw [h, Dict.get?_set, if_neg h1]
  | seq xs rows hs h hr hl hx => rw [h, Dict.get?_set, if_neg h2, Dict.get?_set, if_neg h1]

theorem collateKeys_spec (zero : α) (le : α → α → Bool) {samples : List (Dict String (Sample α))} (hne : samples ≠ [])
    (ks : List String) (hnd : ks.Nodup) (hlen : ∀ k ∈ ks, ∀ k' ∈ ks, k ≠ lenKey k')
    (h : ∀ k ∈ ks, (∀ s ∈ samples, ∃ x, s.get? k = some (.num x)) ∨
      (¬ Special k ∧ ∀ s ∈ samples, ∃ xs, s.get? k = some (.seq xs))) (res : Batch α) :
    ∃ b, collateKeys zero le samples ks res = .ok b ∧ (∀ k ∈ ks, KeyOk samples b k) ∧
      ∀ k, k ∉ ks → (∀ k' ∈ ks, lenKey k' ≠ k) → b.get? k = res.get? k := by
  induction ks generalizing res with
  | nil => exact ⟨res, rfl, by simp, fun _ _ _ => rfl⟩
  | cons k ks ih =>
    obtain ⟨res', h1, h2⟩ := collateKey_spec zero le hne res (h k (by simp))
    obtain ⟨b, i1, i2, i3⟩ := ih (List.nodup_cons.mp hnd).2
      (fun a ha a' ha' => hlen a (by simp [ha]) a' (by simp [ha'])) (fun a ha => h a (by simp [ha])) res'
    have hnk := (List.nodup_cons.mp hnd).1
    refine ⟨b, by simp only [collateKeys, h1, i1], ?_, ?_⟩
    · intro a ha
      rcases List.mem_cons.mp ha with ha | ha
      · subst ha
        refine keyOk_congr ?_ ?_ (keyRes_ok h2 (hlen a (by simp) a (by simp)))
        · exact i3 a hnk (fun k' hk' e => hlen a (by simp) k' (by simp [hk']) e.symm)
        · refine i3 (lenKey a) (fun hm => hlen (lenKey a) (by simp [hm]) a (by simp) rfl) ?_
          intro k' hk' e
          exact hnk (lenKey_inj e ▸ hk')
      · exact i2 a ha
    · intro a ha hl
      rw [i3 a (fun hm => ha (by simp [hm])) (fun k' hk' => hl k' (by simp [hk'])),
        keyRes_other h2 (fun e => ha (by simp [e])) (hl k (by simp))]

/-- A batch of good samples. -/
theorem collate_spec (zero : α) (le : α → α → Bool) {tmpl : List Entry} {ks : List String}
    {samples : List (Dict String (Sample α))} (hne : samples ≠ []) (hg : Good tmpl ks samples) :
    ∃ b, collate zero le samples = .ok b ∧ (∀ k ∈ ks, KeyOk samples b k) ∧ Rep tmpl samples b := by
  obtain ⟨b, h1, h2, _⟩ := collateKeys_spec zero le hne ks hg.nodup hg.noLen hg.kinds []
  refine ⟨b, ?_, h2, ?_⟩
  · cases samples with
    | nil => exact absurd rfl hne
    | cons s r =>
      unfold collate
      simp only
      rw [hg.keys s (by simp)]
      exact h1
  · intro e he
    obtain ⟨e1, e2, e3, e4⟩ := hg.numEntries e he
    obtain ⟨s, hs⟩ := List.exists_mem_of_ne_nil samples hne
    rcases h2 e.key e1 with h | h | h
    · exact absurd h.1 e2
    · refine ⟨fun _ => h.2, fun hd => ?_⟩
      obtain ⟨xs, h3, h4⟩ := h.2
      obtain ⟨x, hx⟩ := e4 hd s hs
      have : s.get? e.key ∈ samples.map (fun s => s.get? e.key) := List.mem_map_of_mem hs
      rw [h4, hx] at this
      simp at this
    · refine ⟨fun hd => ?_, fun _ => h.2⟩
      obtain ⟨rows, ls, _, _, _, h4, _⟩ := h.2
      obtain ⟨x, hx⟩ := e3 hd s hs
      have : s.get? e.key ∈ samples.map (fun s => s.get? e.key) := List.mem_map_of_mem hs
      rw [h4, hx] at this
      obtain ⟨y, _, hy⟩ := List.mem_map.mp this
      simp at hy

theorem header_spec {samples : List (Dict String (Sample α))} {b : Batch α}
    (h1 : KeyOk samples b "complete_frac") (h2 : KeyOk samples b "num_seqs") : header b = .ok () := by
  have sp : ∀ k, Special k → KeyOk samples b k → ∃ x, b.get? k = some (.scalar x) := by
    intro k hk h
    rcases h with h | h | h
    · exact h.2
    · exact absurd hk h.1
    · exact absurd hk h.1
  obtain ⟨x, hx⟩ := sp _ (by simp [Special]) h1
  obtain ⟨y, hy⟩ := sp _ (by simp [Special]) h2
  simp [header, hx, hy, asNumber]

/-! ### The sequences of a batch -/

theorem repSeq_lens {samples : List (Dict String (Sample α))} {b : Batch α} {k : String} (h : RepSeq samples b k) :
    b.get? (lenKey k) = some (.lens (lensOf samples k)) := by
  obtain ⟨rows, ls, _, h2, _, h4, h5⟩ := h
  rw [h2, ← h5]
  congr 2
  have : lensOf samples k = (samples.map (fun s => s.get? k)).map (fun o => match o with
      | some (.seq xs) => xs.length
      | _ => 0) := by
    unfold lensOf
    rw [List.map_map]
    rfl
  rw [this, h4, List.map_map]
  rfl

theorem repSeq_rows {samples : List (Dict String (Sample α))} {b : Batch α} {k : String} (h : RepSeq samples b k) :
    ∃ rows, b.get? k = some (.mat rows) ∧ rows.length = samples.length ∧
      ∀ i (hi : i < samples.length), ∃ row, rows[i]? = some row ∧ ∃ n, (lensOf samples k)[i]? = some n ∧
        samples[i].get? k = some (.seq (row.take n)) := by
  have hl := repSeq_lens h
  obtain ⟨rows, ls, h1, h2, h3, h4, h5⟩ := h
  rw [h2] at hl
  have hls : ls = lensOf samples k := by simpa using hl
  have hlen : rows.length = samples.length := by
    rw [← h3, hls]; simp [lensOf]
  refine ⟨rows, h1, hlen, ?_⟩
  intro i hi
  have hi' : i < rows.length := by omega
  have hi2 : i < ls.length := by omega
  refine ⟨rows[i], List.getElem?_eq_getElem hi', ls[i], by rw [← hls]; exact List.getElem?_eq_getElem hi2, ?_⟩
  have := congrArg (fun l => l[i]?) h4
  simp only [List.getElem?_map, List.getElem?_zipWith, List.getElem?_eq_getElem hi, List.getElem?_eq_getElem hi',
    List.getElem?_eq_getElem hi2, Option.map_some, Option.some.injEq] at this
  exact this

/-- The sizes found in a batch. -/
theorem externSizes_spec {samples : List (Dict String (Sample α))} {b : Batch α} (all tmpl : List Entry)
    (hall : ∀ e ∈ tmpl, e ∈ all) (hr : Rep all samples b)
    (hd : ∀ e ∈ all, ∀ e' ∈ all, e.dim ≠ none → e.dim = e'.dim → lensOf samples e.key = lensOf samples e'.key)
    (st : Sizes) (h1 : st.1 = none ∨ st.1 = some samples.length)
    (h2 : ∀ d ls, st.2.get? d = some ls → ∃ e ∈ all, e.dim = some d ∧ ls = lensOf samples e.key) :
    ∃ st', externSizes b tmpl st = .ok st' ∧ ((tmpl = [] → st'.1 = st.1) ∧ (tmpl ≠ [] → st'.1 = some samples.length)) ∧
      (∀ d ls, st'.2.get? d = some ls → ∃ e ∈ all, e.dim = some d ∧ ls = lensOf samples e.key) ∧
      (∀ e ∈ tmpl, ∀ d, e.dim = some d → st'.2.get? d ≠ none) ∧ (∀ d, st.2.get? d ≠ none → st'.2.get? d ≠ none) := by
  induction tmpl generalizing st with
  | nil => exact ⟨st, rfl, ⟨fun _ => rfl, fun h => absurd rfl h⟩, h2, by simp, fun _ h => h⟩
  | cons e r ih =>
    have he := hall e (by simp)
    obtain ⟨st1, a1, a2, a3, a4, a5⟩ : ∃ st1, addEntry b st e = .ok st1 ∧ st1.1 = some samples.length ∧
        (∀ d ls, st1.2.get? d = some ls → ∃ e ∈ all, e.dim = some d ∧ ls = lensOf samples e.key) ∧
        (∀ d, e.dim = some d → st1.2.get? d ≠ none) ∧ (∀ d, st.2.get? d ≠ none → st1.2.get? d ≠ none) := by
      have ho : ∀ n, n = samples.length → (st.1 <|> some n) = some samples.length := by
        intro n hn
        rcases h1 with h1 | h1 <;> rw [h1, hn] <;> rfl
      unfold addEntry
      cases hdim : e.dim with
      | none =>
        obtain ⟨xs, x1, x2⟩ := (hr e he).1 hdim
        have hx : xs.length = samples.length := by simpa using (congrArg List.length x2).symm
        rw [x1]
        exact ⟨_, rfl, ho _ hx, h2, by simp, fun _ h => h⟩
      | some d =>
        have hrep := (hr e he).2 (by simp [hdim])
        obtain ⟨rows, r1, r2, _⟩ := repSeq_rows hrep
        rw [r1]
        simp only
        by_cases hc : st.2.contains d = true
        · rw [if_pos hc]
          refine ⟨_, rfl, ho _ r2, h2, ?_, fun _ h => h⟩
          intro d' hd'
          have : d = d' := Option.some.inj hd'
          rw [← this]
          unfold Dict.contains at hc
          intro hn
          rw [hn] at hc
          simp at hc
        · rw [if_neg hc, repSeq_lens hrep]
          refine ⟨_, rfl, ho _ r2, ?_, ?_, ?_⟩
          · intro d' ls hl
            simp only at hl
            rw [Dict.get?_set] at hl
            split at hl
            · next hdd => exact ⟨e, he, by rw [hdim, hdd], (Option.some.inj hl).symm⟩
            · exact h2 d' ls hl
          · intro d' hd'
            have : d = d' := Option.some.inj hd'
            simp only
            rw [Dict.get?_set, if_pos this]
            simp
          · intro d' hd'
            simp only
            rw [Dict.get?_set]
            split
            · simp
            · exact hd'
    obtain ⟨st', i1, ⟨i2, i2'⟩, i3, i4, i5⟩ := ih (fun e he => hall e (by simp [he])) st1 (Or.inr a2) a3
    refine ⟨st', by simp only [externSizes, a1, i1], ⟨by simp, fun _ => ?_⟩, i3, ?_, fun d hd => i5 d (a5 d hd)⟩
    · by_cases hr0 : r = []
      · rw [i2 hr0, a2]
      · exact i2' hr0
    · intro e' he' d hd'
      rcases List.mem_cons.mp he' with h | h
      · rw [h] at hd'
        exact i5 d (a4 d hd')
      · exact i4 e' h d hd'

/-- One sequence. -/
theorem seqOuts_spec {samples : List (Dict String (Sample α))} {b : Batch α} {sizes : Dict Nat (List Nat)} (all tmpl : List Entry)
    (hall : ∀ e ∈ tmpl, e ∈ all) (hr : Rep all samples b)
    (hd : ∀ e ∈ all, ∀ e' ∈ all, e.dim ≠ none → e.dim = e'.dim → lensOf samples e.key = lensOf samples e'.key)
    (hs : ∀ d ls, sizes.get? d = some ls → ∃ e ∈ all, e.dim = some d ∧ ls = lensOf samples e.key)
    (hs' : ∀ e ∈ tmpl, ∀ d, e.dim = some d → sizes.get? d ≠ none) {i : Nat} (hi : i < samples.length) :
    seqOuts b sizes i tmpl = .ok (restrict tmpl samples[i]) := by
  induction tmpl with
  | nil => rfl
  | cons e r ih =>
    have he := hall e (by simp)
    have ih' := ih (fun e he => hall e (by simp [he])) (fun e he => hs' e (by simp [he]))
    obtain ⟨x, x1, x2⟩ : ∃ x, seqOut b sizes i e = .ok x ∧ samples[i].get? e.key = some x := by
      unfold seqOut
      cases hdim : e.dim with
      | none =>
        obtain ⟨xs, x1, x2⟩ := (hr e he).1 hdim
        rw [x1]
        simp only
        have hx : xs.length = samples.length := by simpa using (congrArg List.length x2).symm
        have hi' : i < xs.length := by omega
        refine ⟨.num xs[i], by simp [getItem, List.getElem?_eq_getElem hi'], ?_⟩
        have := congrArg (fun l => l[i]?) x2
        simp only [List.getElem?_map, List.getElem?_eq_getElem hi, List.getElem?_eq_getElem hi', Option.map_some,
          Option.some.injEq] at this
        exact this
      | some d =>
        have hrep := (hr e he).2 (by simp [hdim])
        obtain ⟨rows, r1, r2, r3⟩ := repSeq_rows hrep
        obtain ⟨row, q1, n, q2, q3⟩ := r3 i hi
        rw [r1]
        simp only
        cases hsd : sizes.get? d with
        | none => exact absurd hsd (hs' e (by simp) d hdim)
        | some ls =>
          obtain ⟨e', e1, e2, e3⟩ := hs d ls hsd
          have : ls = lensOf samples e.key := by
            rw [e3]
            exact hd e' e1 e he (by simp [e2]) (by rw [e2, hdim])
          refine ⟨.seq (row.take n), ?_, q3⟩
          simp [getItem, q1, Dict.getItem, hsd, this, q2]
    simp only [seqOuts, x1, ih', restrict, List.filterMap_cons, x2, Option.map_some]

theorem processLoop_spec {samples : List (Dict String (Sample α))} {b : Batch α} {sizes : Dict Nat (List Nat)} {tmpl : List Entry}
    (h : ∀ i (hi : i < samples.length), seqOuts b sizes i tmpl = .ok (restrict tmpl samples[i])) (is : List Nat)
    (his : ∀ i ∈ is, i < samples.length) :
    processLoop tmpl b sizes is = .ok (is.filterMap (fun i => (samples[i]?).map (restrict tmpl))) := by
  induction is with
  | nil => rfl
  | cons i r ih =>
    have hi := his i (by simp)
    simp only [processLoop, h i hi, ih (fun j hj => his j (by simp [hj])), List.filterMap_cons,
      List.getElem?_eq_getElem hi, Option.map_some]

theorem filterMap_range {β γ : Type} (l : List β) (f : β → γ) :
    (List.range l.length).filterMap (fun i => (l[i]?).map f) = l.map f := by
  induction l with
  | nil => rfl
  | cons x l ih =>
    rw [List.length_cons, List.range_succ_eq_map, List.filterMap_cons]
    simp only [List.getElem?_cons_zero, Option.map_some, List.filterMap_map, List.map_cons]
    congr 1

/-! ### Pieces -/

theorem piece_get? {offset size : Nat} {b p : Batch α} (h : piece offset size b = .ok p) (k : String) :
    (b.get? k = none ∧ p.get? k = none) ∨
      ∃ v v', b.get? k = some v ∧ p.get? k = some v' ∧ sliceVal v offset size = .ok v' := by
  induction b generalizing p with
  | nil =>
    simp only [piece, Except.ok.injEq] at h
    subst h
    exact Or.inl ⟨rfl, rfl⟩
  | cons e r ih =>
    obtain ⟨k0, v0⟩ := e
    simp only [piece] at h
    split at h
    · exact absurd h (by simp)
    · next v' hv =>
      split at h
      · exact absurd h (by simp)
      · next r' hr =>
        simp only [Except.ok.injEq] at h
        subst h
        simp only [Dict.get?]
        by_cases hk : k0 = k
        · rw [if_pos hk, if_pos hk]
          exact Or.inr ⟨v0, v', rfl, rfl, hv⟩
        · rw [if_neg hk, if_neg hk]
          exact ih hr

theorem piece_keys {offset size : Nat} {b p : Batch α} (h : piece offset size b = .ok p) : p.keys = b.keys := by
  induction b generalizing p with
  | nil =>
    simp only [piece, Except.ok.injEq] at h
    subst h
    rfl
  | cons e r ih =>
    obtain ⟨k0, v0⟩ := e
    simp only [piece] at h
    split at h
    · exact absurd h (by simp)
    · next v' hv =>
      split at h
      · exact absurd h (by simp)
      · next r' hr =>
        simp only [Except.ok.injEq] at h
        subst h
        have := ih hr
        simp only [Dict.keys, List.map_cons] at this ⊢
        rw [this]

theorem piece_ok (offset size : Nat) {b : Batch α} (h : ∀ e ∈ b, ∃ n, shape0 e.2 = .ok n) :
    ∃ p, piece offset size b = .ok p := by
  induction b with
  | nil => exact ⟨[], rfl⟩
  | cons e r ih =>
    obtain ⟨k0, v0⟩ := e
    obtain ⟨p, hp⟩ := ih (fun e he => h e (by simp [he]))
    obtain ⟨n, hn⟩ := h (k0, v0) (by simp)
    cases v0 with
    | scalar x => simp [shape0] at hn
    | mat rows => exact ⟨(k0, .mat (slice rows offset (offset + size))) :: p, by simp only [piece, sliceVal, hp]⟩
    | vec xs => exact ⟨(k0, .vec (slice xs offset (offset + size))) :: p, by simp only [piece, sliceVal, hp]⟩
    | lens ls => exact ⟨(k0, .lens (slice ls offset (offset + size))) :: p, by simp only [piece, sliceVal, hp]⟩

theorem trimLoop_get? {d b p : Batch α} (h : trimLoop d b = .ok p) (k : String) :
    (b.get? k = none ∧ p.get? k = none) ∨
      ∃ v v', b.get? k = some v ∧ p.get? k = some v' ∧ trimVal d k v = .ok v' := by
  induction b generalizing p with
  | nil =>
    simp only [trimLoop, Except.ok.injEq] at h
    subst h
    exact Or.inl ⟨rfl, rfl⟩
  | cons e r ih =>
    obtain ⟨k0, v0⟩ := e
    simp only [trimLoop] at h
    split at h
    · exact absurd h (by simp)
    · next v' hv =>
      split at h
      · exact absurd h (by simp)
      · next r' hr =>
        simp only [Except.ok.injEq] at h
        subst h
        simp only [Dict.get?]
        by_cases hk : k0 = k
        · rw [if_pos hk, if_pos hk]
          subst hk
          exact Or.inr ⟨v0, v', rfl, rfl, hv⟩
        · rw [if_neg hk, if_neg hk]
          exact ih hr

theorem trimLoop_ok {d b : Batch α} (h : ∀ e ∈ b, ∃ v, trimVal d e.1 e.2 = .ok v) : ∃ p, trimLoop d b = .ok p := by
  induction b with
  | nil => exact ⟨[], rfl⟩
  | cons e r ih =>
    obtain ⟨k0, v0⟩ := e
    obtain ⟨p, hp⟩ := ih (fun e he => h e (by simp [he]))
    obtain ⟨v, hv⟩ := h (k0, v0) (by simp)
    exact ⟨(k0, v) :: p, by simp only [trimLoop, hv, hp]⟩

theorem le_maxLen {ls : List Nat} {n : Nat} (h : n ∈ ls) : n ≤ maxLen ls := by
  unfold maxLen
  have : ∀ (ls : List Nat) (a : Nat), a ≤ ls.foldl max a ∧ ∀ n ∈ ls, n ≤ ls.foldl max a := by
    intro ls
    induction ls with
    | nil => intro a; simp
    | cons x ls ih =>
      intro a
      simp only [List.foldl_cons]
      obtain ⟨i1, i2⟩ := ih (max a x)
      refine ⟨by omega, ?_⟩
      intro n hn
      rcases List.mem_cons.mp hn with h | h
      · omega
      · exact i2 n h
  exact (this ls 0).2 n h

theorem zipWith_take_trim (ls : List Nat) (rows : List (List α)) (m : Nat) (h : ∀ n ∈ ls, n ≤ m) :
    List.zipWith List.take ls (rows.map (List.take m)) = List.zipWith List.take ls rows := by
  induction ls generalizing rows with
  | nil => rfl
  | cons n ls ih =>
    cases rows with
    | nil => rfl
    | cons r rows =>
      have hn := h n (by simp)
      simp only [List.map_cons, List.zipWith_cons_cons, ih rows (fun n hn => h n (by simp [hn])), List.take_take,
        Nat.min_eq_left hn]

theorem slice_map {β γ : Type} (f : β → γ) (l : List β) (a b : Nat) : slice (l.map f) a b = (slice l a b).map f := by
  simp [slice, List.map_take, List.map_drop]

theorem slice_zipWith {β γ δ : Type} (f : β → γ → δ) (l : List β) (m : List γ) (a b : Nat) :
    List.zipWith f (slice l a b) (slice m a b) = slice (List.zipWith f l m) a b := by
  simp [slice, List.take_zipWith, List.drop_zipWith]

end Verif.ForwardSplit
