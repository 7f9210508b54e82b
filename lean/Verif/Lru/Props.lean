import Verif.Lru.Lemmas
/-
Theorems about the LRU cache (C15, C16).
-/
namespace Verif.Lru
open Verif.Py

variable {K V : Type} [DecidableEq K]

theorem erase_eq_filter {W : Type} {d : Dict K W} (h : d.Wf) (k : K) : d.erase k = d.filter (fun e => !decide (e.1 = k)) := by
  induction d with
  | nil => rfl
  | cons e d ih =>
    obtain ⟨k0, v0⟩ := e
    simp only [Dict.Wf, Dict.keys, List.map_cons, List.nodup_cons] at h
    unfold Dict.erase
    split
    · rename_i hk; subst hk
      have : d.filter (fun e => !decide (e.1 = k0)) = d := by
        rw [List.filter_eq_self]
        intro e he
        have : e.1 ≠ k0 := fun hc => h.1 (List.mem_map.mpr ⟨e, he, hc⟩)
        simp [this]
      simp [this]
    · rename_i hk
      simp [hk, ih h.2]

theorem erase_split {W : Type} {A B : Dict K W} {k : K} {v : W} (h : Dict.Wf (A ++ (k, v) :: B)) :
    Dict.erase (A ++ (k, v) :: B) k = A ++ B := by
  rw [erase_eq_filter h]
  simp only [Dict.Wf, Dict.keys, List.map_append, List.map_cons, List.nodup_append, List.nodup_cons, List.mem_cons] at h
  have hA : A.filter (fun e => !decide (e.1 = k)) = A := by
    rw [List.filter_eq_self]
    intro e he
    have : e.1 ≠ k := fun hc => h.2.2 e.1 (List.mem_map.mpr ⟨e, he, rfl⟩) k (.inl rfl) hc
    simp [this]
  have hB : B.filter (fun e => !decide (e.1 = k)) = B := by
    rw [List.filter_eq_self]
    intro e he
    have : e.1 ≠ k := fun hc => h.2.1.1 (List.mem_map.mpr ⟨e, he, hc⟩)
    simp [this]
  simp [List.filter_append, hA, hB]

/-- The implementation state `s` represents the abstract state `a`; `items` are the links with their contents. -/
structure Inv (s : St K V) (a : Abs K V) (items : List (Nat × K × V)) : Prop where
  ring : Ring s.heap s.root (items.map (fun e => e.1))
  ent : a.entries = items.map (fun e => e.2)
  wf : a.entries.Wf
  node : ∀ e ∈ items, kv s.heap e.1 = some (some e.2.1, some e.2.2)
  cache : s.cache.Perm (items.map (fun e => (e.2.1, e.1)))
  fresh : ∀ i ∈ s.root :: items.map (fun e => e.1), i < s.fresh
  hits : s.hits = a.hits
  misses : s.misses = a.misses
  max : s.maxsize = a.maxsize
  le : items.length ≤ s.maxsize
  full1 : s.full = true → items.length = s.maxsize
  full2 : 0 < s.maxsize → items.length = s.maxsize → s.full = true

theorem Inv.cacheWf {s : St K V} {a : Abs K V} {items : List (Nat × K × V)} (h : Inv s a items) : s.cache.Wf := by
  have h1 := h.wf
  rw [h.ent] at h1
  have : s.cache.keys.Perm ((items.map (fun e => e.2)).map Prod.fst) := by
    have := h.cache.map Prod.fst
    simpa [Dict.keys, Function.comp_def] using this
  exact this.nodup_iff.mpr h1

theorem Inv.len {s : St K V} {a : Abs K V} {items : List (Nat × K × V)} (h : Inv s a items) :
    s.cache.length = items.length := by simpa using h.cache.length_eq

theorem Inv.find_none {s : St K V} {a : Abs K V} {items : List (Nat × K × V)} (h : Inv s a items) (k : K)
    (hk : s.cache.get? k = none) : a.entries.get? k = none := by
  rw [Dict.get?_eq_none] at hk ⊢
  have : s.cache.keys.Perm a.entries.keys := by
    have := h.cache.map Prod.fst
    rw [h.ent]
    simpa [Dict.keys, Function.comp_def] using this
  intro hm; exact hk (this.symm.subset hm)

theorem Inv.find_some {s : St K V} {a : Abs K V} {items : List (Nat × K × V)} (h : Inv s a items) (k : K) (i : Nat)
    (hk : s.cache.get? k = some i) : ∃ A v B, items = A ++ (i, k, v) :: B ∧ a.entries.get? k = some v := by
  have := h.cache.subset (Dict.mem_of_get? hk)
  obtain ⟨e, he, h2⟩ := List.mem_map.mp this
  obtain ⟨i', k', v⟩ := e
  simp only [Prod.mk.injEq] at h2
  obtain ⟨rfl, rfl⟩ := h2
  obtain ⟨A, B, hAB⟩ := List.append_of_mem he
  refine ⟨A, v, B, hAB, Dict.get?_of_mem h.wf ?_⟩
  rw [h.ent, hAB]
  simp

theorem Inv.erased {s : St K V} {a : Abs K V} {A B : List (Nat × K × V)} {i : Nat} {k : K} {v : V}
    (h : Inv s a (A ++ (i, k, v) :: B)) :
    a.entries.erase k = (A ++ B).map (fun e => e.2) ∧ (s.cache.erase k).Perm ((A ++ B).map (fun e => (e.2.1, e.1))) ∧
    (a.entries.erase k).Wf := by
  have h1 : a.entries = A.map (fun e => e.2) ++ (k, v) :: B.map (fun e => e.2) := by rw [h.ent]; simp
  have hw := h.wf
  refine ⟨?_, ?_, Dict.wf_erase hw k⟩
  · rw [h1] at hw ⊢
    rw [erase_split hw]; simp
  · rw [erase_eq_filter h.cacheWf]
    have hp := h.cache.filter (fun e => !decide (e.1 = k))
    refine hp.trans (List.Perm.of_eq ?_)
    have hw2 : Dict.Wf ((A ++ (i, k, v) :: B).map (fun e => (e.2.1, e.1))) := by
      have := h.wf
      rw [h.ent] at this
      simpa [Dict.Wf, Dict.keys, Function.comp_def] using this
    rw [← erase_eq_filter hw2]
    have : (A ++ (i, k, v) :: B).map (fun e => (e.2.1, e.1))
        = A.map (fun e => (e.2.1, e.1)) ++ (k, i) :: B.map (fun e => (e.2.1, e.1)) := by simp
    rw [this] at hw2 ⊢
    rw [erase_split hw2]; simp

omit [DecidableEq K] in
theorem kv_isSome (h : Heap K V) (i : Nat) : (nxt h i).isSome → ∃ c, kv h i = some c := by
  unfold nxt kv; cases h i <;> simp

omit [DecidableEq K] in
theorem deref_alive (h : Heap K V) (i : Nat) (hi : (nxt h i).isSome) : ∃ n, deref h i = .ok n ∧ h i = some n := by
  unfold nxt at hi
  cases hh : h i with
  | none => rw [hh] at hi; cases hi
  | some n => exact ⟨n, by simp [deref, hh], rfl⟩

theorem lookup_refines (s : St K V) (a : Abs K V) (items : List (Nat × K × V)) (h : Inv s a items) (k : K) :
    ∃ s' items', lookup s k = .ok ((a.step (.lookup k)).1, s') ∧ Inv s' (a.step (.lookup k)).2 items' := by
  unfold lookup
  simp only [Abs.step]
  cases hk : s.cache.get? k with
  | none =>
    rw [h.find_none k hk]
    exact ⟨_, items, rfl, { h with misses := by simp [h.misses] }⟩
  | some i =>
    obtain ⟨A, v, B, hAB, hv⟩ := h.find_some k i hk
    subst hAB
    rw [hv]
    simp only [bind, Except.bind]
    have hring := h.ring
    rw [List.map_append, List.map_cons] at hring
    obtain ⟨A', p, q, B', hA, hB, e1, e2, e3, e4, _⟩ := hring.around
    have hkv := h.node (i, k, v) (by simp)
    simp only at hkv
    rw [deref_spec s.heap i q p _ e2 e3 hkv]
    simp only
    obtain ⟨h1, w1, w2, w3, w4⟩ := setNext_spec s.heap p q (by rw [e1]; rfl)
    rw [w1]
    simp only
    have hq : (nxt h1 q).isSome := by
      rw [w2]; unfold upd
      split
      · rfl
      · apply hring.alive
        have : q ∈ B.map (fun e => e.1) ++ [s.root] := by rw [hB]; simp
        simp at this ⊢
        tauto
    obtain ⟨h2, x1, x2, x3, x4⟩ := setPrev_spec h1 q p hq
    rw [x1]
    simp only
    have hr2 : Ring h2 s.root (A.map (fun e => e.1) ++ B.map (fun e => e.1)) :=
      hring.unlink e3 e2 (by rw [x3, w2]) (by rw [x2, w3])
    obtain ⟨n0, d0, d0'⟩ := deref_alive h2 s.root (hr2.alive (by simp))
    obtain ⟨C, l, hC, l1, l2⟩ := hr2.last
    have hl : n0.prev = l := by simp [prv, d0'] at l1; exact l1
    rw [d0]
    simp only [hl]
    obtain ⟨h3, y1, y2, y3, y4⟩ := setNext_spec h2 l i (by rw [l2]; rfl)
    rw [y1]
    simp only
    have hroot3 : (nxt h3 s.root).isSome := by
      rw [y2]; unfold upd; split
      · rfl
      · exact hr2.alive (by simp)
    obtain ⟨h4, z1, z2, z3, z4⟩ := setPrev_spec h3 s.root i hroot3
    rw [z1]
    simp only
    have hi4 : (nxt h4 i).isSome := by
      rw [z3, y2]; unfold upd; split
      · rfl
      · rw [x3, w2]; unfold upd; split
        · rfl
        · rw [e2]; rfl
    obtain ⟨h5, u1, u2, u3, u4⟩ := setPrev_spec h4 i l hi4
    rw [u1]
    simp only
    obtain ⟨h6, t1, t2, t3, t4⟩ := setNext_spec h5 i s.root (by rw [u3]; exact hi4)
    rw [t1]
    have hnd := hring.nodup
    have hi : i ∉ s.root :: (A.map (fun e => e.1) ++ B.map (fun e => e.1)) := by
      simp only [List.nodup_cons, List.nodup_append, List.mem_append, List.mem_cons] at hnd ⊢
      rintro (e | e | e)
      · exact hnd.1 (.inr (.inl e.symm))
      · exact hnd.2.2.2 i e i (.inl rfl) rfl
      · exact hnd.2.2.1.1 e
    have hr6 := hr2.link (h' := h6) (x := i) (p := l) hi l1
      (by intro j; rw [t2, u3, z3, y2]; simp only [upd])
      (by intro j; rw [t3, u2, z2, y3]; simp only [upd])
    have hkv6 : kv h6 = kv s.heap := by rw [t4, u4, z4, y4, x4, w4]
    obtain ⟨er1, er2, er3⟩ := h.erased
    refine ⟨_, A ++ B ++ [(i, k, v)], rfl, ?_⟩
    constructor
    · simpa using hr6
    · rw [er1]; simp
    · have : (a.entries.erase k ++ [(k, v)]).keys = (a.entries.erase k).keys ++ [k] := by simp [Dict.keys]
      unfold Dict.Wf
      rw [this, List.nodup_append]
      refine ⟨er3, by simp, ?_⟩
      intro x hx y hy e
      simp at hy; subst hy; subst e
      rw [← Dict.get?_isSome, Dict.get?_erase h.wf] at hx
      simp at hx
    · intro e he
      simp only [hkv6]
      exact h.node e (by simp at he ⊢; tauto)
    · refine h.cache.trans ?_
      simp only [List.map_append, List.map_cons, List.map_nil, List.append_assoc]
      exact List.Perm.append_left _ (List.perm_append_comm (l₁ := [_]))
    · intro j hj
      exact h.fresh j (by
        simp at hj ⊢
        rcases hj with h1 | h1 | h1 | h1
        · exact .inl h1
        · exact .inr (.inl h1)
        · exact .inr (.inr (.inr h1))
        · exact .inr (.inr (.inl h1)))
    · simp [h.hits]
    · exact h.misses
    · exact h.max
    · have := h.le; simp at this ⊢; omega
    · intro hf; have := h.full1 hf; simp at this ⊢; omega
    · intro h0 hl; exact h.full2 h0 (by simp at hl ⊢; omega)

theorem peek_refines (s : St K V) (a : Abs K V) (items : List (Nat × K × V)) (h : Inv s a items) (k : K) (u : Bool) :
    ∃ s' items', peek s k u = .ok ((a.step (.peek k u)).1, s') ∧ Inv s' (a.step (.peek k u)).2 items' := by
  unfold peek
  simp only [Abs.step]
  cases hk : s.cache.get? k with
  | none =>
    rw [h.find_none k hk]
    refine ⟨_, items, rfl, ?_⟩
    cases u
    · exact h
    · exact { h with misses := by simp [h.misses] }
  | some i =>
    obtain ⟨A, v, B, hAB, hv⟩ := h.find_some k i hk
    rw [hv]
    have hkv := h.node (i, k, v) (by simp [hAB])
    obtain ⟨n, d1, d2⟩ := deref_alive s.heap i (h.ring.alive (by simp [hAB]))
    have hres : n.result = some v := by simp [kv, d2] at hkv; exact hkv.2
    simp only [bind, Except.bind, d1, hres]
    refine ⟨_, items, rfl, ?_⟩
    cases u
    · exact h
    · exact { h with hits := by simp [h.hits] }

theorem pop_refines (s : St K V) (a : Abs K V) (items : List (Nat × K × V)) (h : Inv s a items) (k : K) (fb : Bool) :
    ∃ s' items', pop s k fb = .ok ((a.step (.pop k fb)).1, s') ∧ Inv s' (a.step (.pop k fb)).2 items' := by
  unfold pop
  simp only [Abs.step]
  cases hk : s.cache.get? k with
  | none =>
    rw [h.find_none k hk]
    exact ⟨_, items, rfl, h⟩
  | some i =>
    obtain ⟨A, v, B, hAB, hv⟩ := h.find_some k i hk
    subst hAB
    rw [hv]
    simp only [bind, Except.bind]
    have hring := h.ring
    rw [List.map_append, List.map_cons] at hring
    obtain ⟨A', p, q, B', hA, hB, e1, e2, e3, e4, _⟩ := hring.around
    have hkv := h.node (i, k, v) (by simp)
    simp only at hkv
    have hnd := hring.nodup
    have hi : i ∉ s.root :: (A.map (fun e => e.1) ++ B.map (fun e => e.1)) := by
      simp only [List.nodup_cons, List.nodup_append, List.mem_append, List.mem_cons] at hnd ⊢
      rintro (e | e | e)
      · exact hnd.1 (.inr (.inl e.symm))
      · exact hnd.2.2.2 i e i (.inl rfl) rfl
      · exact hnd.2.2.1.1 e
    have hpi : i ≠ p := by
      intro e; subst e
      have : i ∈ s.root :: A.map (fun e => e.1) := by rw [hA]; simp
      simp at this hi; tauto
    have hqi : i ≠ q := by
      intro e; subst e
      have : i ∈ B.map (fun e => e.1) ++ [s.root] := by rw [hB]; simp
      simp at this hi; tauto
    rw [deref_spec s.heap i q p _ e2 e3 hkv]
    simp only
    obtain ⟨h1, w1, w2, w3, w4⟩ := setNext_spec s.heap p q (by rw [e1]; rfl)
    rw [w1]
    simp only
    have e2' : nxt h1 i = some q := by rw [w2]; simp [upd, hpi, e2]
    rw [deref_spec h1 i q p _ e2' (by rw [w3, e3]) (by rw [w4]; exact hkv)]
    simp only
    have hq : (nxt h1 q).isSome := by
      rw [w2]; unfold upd
      split
      · rfl
      · apply hring.alive
        have : q ∈ B.map (fun e => e.1) ++ [s.root] := by rw [hB]; simp
        simp at this ⊢
        tauto
    obtain ⟨h2, x1, x2, x3, x4⟩ := setPrev_spec h1 q p hq
    rw [x1]
    simp only
    rw [deref_spec h2 i q p _ (by rw [x3]; exact e2') (by rw [x2]; simp [upd, hqi, w3, e3]) (by rw [x4, w4]; exact hkv)]
    simp only [hk]
    have hr2 : Ring h2 s.root (A.map (fun e => e.1) ++ B.map (fun e => e.1)) :=
      hring.unlink e3 e2 (by rw [x3, w2]) (by rw [x2, w3])
    obtain ⟨er1, er2, er3⟩ := h.erased
    have hlen : (s.cache.erase k).length = (A ++ B).length := by simpa using er2.length_eq
    have hle := h.le
    refine ⟨_, A ++ B, rfl, ?_⟩
    constructor
    · rw [List.map_append]
      refine hr2.congr ?_ ?_ <;> intro j hj <;> simp only [nxt, prv, write]
      · have : j ≠ i := fun e => hi (by rw [← e]; exact hj)
        simp [this]
      · have : j ≠ i := fun e => hi (by rw [← e]; exact hj)
        simp [this]
    · exact er1
    · exact er3
    · intro e he
      have : e.1 ≠ i := by
        intro hc
        apply hi
        rw [← hc]
        simp only [List.mem_cons, List.mem_append]
        right
        rcases List.mem_append.mp he with he | he
        · exact .inl (List.mem_map.mpr ⟨e, he, rfl⟩)
        · exact .inr (List.mem_map.mpr ⟨e, he, rfl⟩)
      simp only [kv, write, this, if_false]
      have := h.node e (by simp at he ⊢; tauto)
      rw [← this, ← w4, ← x4]; rfl
    · exact er2
    · intro j hj
      exact h.fresh j (by
        simp at hj ⊢
        rcases hj with h1 | h1 | h1
        · exact .inl h1
        · exact .inr (.inl h1)
        · exact .inr (.inr (.inr h1)))
    · exact h.hits
    · exact h.misses
    · exact h.max
    · simp at hle ⊢; omega
    · intro hf; simp [hlen] at hf hle ⊢; omega
    · intro h0 hl; simp [hlen] at hl hle ⊢; omega

theorem popOldest_refines (s : St K V) (a : Abs K V) (items : List (Nat × K × V)) (hm : ℕ) (f : Bool) (h : Inv { s with maxsize := hm, full := f } a items)
    (m : Nat) (fb : Bool) (e : Nat × K × V) (rest : List (Nat × K × V)) (hit : items = e :: rest) :
    ∃ s', popOldest { s with maxsize := m } fb = .ok (.value (some e.2.2), s') ∧ s'.maxsize = m ∧
      Inv { s' with maxsize := hm, full := decide (rest.length ≥ hm) } { a with entries := rest.map (fun e => e.2) } rest ∧
      s'.full = decide (rest.length ≥ m) := by
  subst hit
  obtain ⟨i, k, v⟩ := e
  have hlen0 := h.len
  simp only at hlen0
  unfold popOldest
  have hne : s.cache.isEmpty = false := by
    cases hc : s.cache with
    | nil => rw [hc] at hlen0; simp at hlen0
    | cons _ _ => rfl
  simp only [hne, Bool.false_eq_true, if_false, bind, Except.bind]
  have hring := h.ring
  simp only [List.map_cons] at hring
  obtain ⟨A', p, q, B', hA, hB, e1, e2, e3, e4, _⟩ := Ring.around (A := []) hring
  have hAp : A' = [] ∧ p = s.root := by
    cases A' with
    | nil => simp at hA; exact ⟨rfl, hA.symm⟩
    | cons x A' => simp at hA
  obtain ⟨rfl, rfl⟩ := hAp
  have hkv := h.node (i, k, v) (by simp)
  simp only at hkv
  have hnd := hring.nodup
  have hi : i ∉ s.root :: rest.map (fun e => e.1) := by
    simp only [List.nodup_cons, List.mem_cons] at hnd ⊢
    rintro (e | e)
    · exact hnd.1 (.inl e.symm)
    · exact hnd.2.1 e
  have hpi : i ≠ s.root := fun e => hi (by simp [e])
  have hqi : i ≠ q := by
    intro e; subst e
    have : i ∈ rest.map (fun e => e.1) ++ [s.root] := by rw [hB]; simp
    simp at this hi; tauto
  obtain ⟨n0, d0, d0'⟩ := deref_alive s.heap s.root (hring.alive (by simp))
  have hn0 : n0.next = i := by simp [nxt, d0'] at e1; exact e1
  rw [d0]
  simp only [hn0]
  rw [deref_spec s.heap i q s.root _ e2 e3 hkv]
  simp only
  have hq : (nxt s.heap q).isSome := by
    apply hring.alive
    have : q ∈ rest.map (fun e => e.1) ++ [s.root] := by rw [hB]; simp
    simp at this ⊢
    tauto
  obtain ⟨h1, w1, w2, w3, w4⟩ := setPrev_spec s.heap q s.root hq
  rw [w1]
  simp only
  rw [deref_spec h1 i q s.root _ (by rw [w3]; exact e2) (by rw [w2]; simp [upd, hqi, e3]) (by rw [w4]; exact hkv)]
  simp only
  obtain ⟨h2, x1, x2, x3, x4⟩ := setNext_spec h1 s.root q (by rw [w3]; exact hring.alive (by simp))
  rw [x1]
  simp only
  rw [deref_spec h2 i q s.root _ (by rw [x2]; simp [upd, hpi, w3, e2]) (by rw [x3, w2]; simp [upd, hqi, e3])
    (by rw [x4, w4]; exact hkv)]
  have hk : s.cache.get? k = some i := by
    apply Dict.get?_of_mem h.cacheWf
    exact h.cache.symm.subset (by simp)
  simp only [hk]
  have hr2 : Ring h2 s.root ([] ++ rest.map (fun e => e.1)) :=
    Ring.unlink (A := []) hring e3 e2 (by rw [x2, w3]) (by rw [x3, w2])
  obtain ⟨er1, er2, er3⟩ := Inv.erased (A := []) h
  simp only [List.nil_append] at er1 er2 hr2
  have hlen : (s.cache.erase k).length = rest.length := by simpa using er2.length_eq
  have hle := h.le
  simp at hle
  refine ⟨_, rfl, rfl, ?_, by simp [hlen]⟩
  constructor
  · refine hr2.congr ?_ ?_ <;> intro j hj <;> simp only [nxt, prv, write]
    · have : j ≠ i := fun e => hi (by rw [← e]; exact hj)
      simp [this]
    · have : j ≠ i := fun e => hi (by rw [← e]; exact hj)
      simp [this]
  · rfl
  · rw [er1] at er3; exact er3
  · intro e he
    have : e.1 ≠ i := by
      intro hc
      apply hi
      rw [← hc]
      exact List.mem_cons_of_mem _ (List.mem_map.mpr ⟨e, he, rfl⟩)
    simp only [kv, write, this, if_false]
    have := h.node e (by simp [he])
    simp only at this
    rw [← this, ← w4, ← x4]; rfl
  · exact er2
  · intro j hj
    exact h.fresh j (by simp at hj ⊢; tauto)
  · exact h.hits
  · exact h.misses
  · exact h.max
  · simp; omega
  · intro hf; simp at hf ⊢; omega
  · intro h0 hl; simp at hl ⊢; omega

theorem popLoop_refines (fuel : Nat) (s : St K V) (a : Abs K V) (items : List (Nat × K × V)) (hm m : Nat) (f : Bool)
    (h : Inv { s with maxsize := hm, full := f } a items) (hfuel : items.length ≤ fuel) :
    ∃ (s' : St K V) (f' : Bool), popLoop fuel { s with maxsize := m } = .ok { s' with maxsize := m } ∧
      Inv { s' with maxsize := hm, full := f' } { a with entries := (items.drop (items.length - m)).map (fun e => e.2) }
        (items.drop (items.length - m)) := by
  induction fuel generalizing s a items f with
  | zero =>
    have hl : s.cache.length = items.length := h.len
    have : items = [] := List.length_eq_zero_iff.mp (by omega)
    subst this
    refine ⟨s, f, by simp at hl; simp [popLoop, hl], ?_⟩
    have he := h.ent
    simp at he ⊢
    rw [← he]; exact h
  | succ fuel ih =>
    unfold popLoop
    have hl : s.cache.length = items.length := h.len
    by_cases hgt : items.length > m
    · simp only [hl, hgt, if_true, bind, Except.bind]
      cases items with
      | nil => simp at hgt
      | cons e rest =>
        obtain ⟨s', p1, p2, p3, p4⟩ := popOldest_refines s a (e :: rest) hm f h m false e rest rfl
        rw [p1]
        simp only
        obtain ⟨s'', f'', q1, q2⟩ := ih s' _ rest _ p3 (by simp at hfuel; omega)
        have hs' : ({ s' with maxsize := m } : St K V) = s' := by cases s'; simp at p2; simp [p2]
        rw [hs'] at q1
        refine ⟨s'', f'', q1, ?_⟩
        have hd : (e :: rest).drop ((e :: rest).length - m) = rest.drop (rest.length - m) := by
          simp at hgt
          rw [List.length_cons, show rest.length + 1 - m = rest.length - m + 1 by omega, List.drop_succ_cons]
        rw [hd]
        exact q2
    · simp only [hl, hgt, if_false]
      refine ⟨s, f, rfl, ?_⟩
      have : items.length - m = 0 := by omega
      rw [this, List.drop_zero]
      have he := h.ent
      rw [← he]; exact h

theorem setMaxsize_refines (s : St K V) (a : Abs K V) (items : List (Nat × K × V)) (h : Inv s a items) (n : Nat) :
    ∃ s' items', setMaxsize s n = .ok s' ∧ Inv s' (a.step (.setMaxsize n)).2 items' := by
  obtain ⟨s', f', p1, p2⟩ := popLoop_refines s.cache.length s a items s.maxsize n s.full h (by rw [h.len])
  refine ⟨_, items.drop (items.length - n), by simp [setMaxsize, bind, Except.bind, p1]; rfl, ?_⟩
  have hl : s'.cache.length = (items.drop (items.length - n)).length := p2.len
  simp at hl
  refine ⟨p2.ring, ?_, ?_, p2.node, p2.cache, p2.fresh, p2.hits, p2.misses, rfl, ?_, ?_, ?_⟩
  · simp [Abs.step, h.ent]
  · have := p2.wf
    simpa [Abs.step, h.ent] using this
  · simp; omega
  · intro hf; simp [hl] at hf ⊢; omega
  · intro h0 hl'; simp [hl] at hl' ⊢; omega

theorem set_refines (s : St K V) (a : Abs K V) (items : List (Nat × K × V)) (h : Inv s a items) (k : K) (v : V) :
    ∃ s' items', set s k v = .ok s' ∧ Inv s' (a.step (.set k v)).2 items' := by
  unfold set
  simp only [Abs.step]
  have hmax := h.max
  by_cases h0 : s.maxsize > 0
  swap
  · have h0' : a.maxsize = 0 := by omega
    simp only [h0, if_false, h0', true_or, if_true]
    exact ⟨s, items, rfl, h⟩
  have h0' : ¬ a.maxsize = 0 := by omega
  simp only [h0, if_true, h0', false_or]
  unfold insert
  cases hk : s.cache.get? k with
  | some i =>
    obtain ⟨A, v', B, hAB, hv⟩ := h.find_some k i hk
    have : k ∈ a.entries.keys := by rw [← Dict.get?_isSome, hv]; rfl
    simp only [this, if_true]
    exact ⟨s, items, rfl, h⟩
  | none =>
    have hn := h.find_none k hk
    have hnk : ¬ k ∈ a.entries.keys := (Dict.get?_eq_none _ _).mp hn
    simp only [hnk, if_false]
    have hlen : a.entries.length = items.length := by rw [h.ent]; simp
    by_cases hf : s.full = true
    · have hfl := h.full1 hf
      have hlt : ¬ a.entries.length < a.maxsize := by omega
      simp only [hf, if_true, hlt, if_false, bind, Except.bind]
      cases items with
      | nil => simp at hfl; omega
      | cons e rest =>
        obtain ⟨i, k0, v0⟩ := e
        have hring := h.ring
        simp only [List.map_cons] at hring
        obtain ⟨A', p, q, B', hA, hB, e1, e2, e3, e4, _⟩ := Ring.around (A := []) hring
        have hAp : A' = [] ∧ p = s.root := by
          cases A' with
          | nil => simp at hA; exact ⟨rfl, hA.symm⟩
          | cons x A' => simp at hA
        obtain ⟨rfl, rfl⟩ := hAp
        have hkv := h.node (i, k0, v0) (by simp)
        simp only at hkv
        have hnd := hring.nodup
        have hri : i ≠ s.root := by
          intro e; subst e; simp at hnd
        obtain ⟨h1, w1, w2, w3, w4⟩ := setKV_spec s.heap s.root (some k) (some v) (hring.alive (by simp))
        rw [w1]
        simp only
        obtain ⟨n0, d0, d0'⟩ := deref_alive h1 s.root (by rw [w3]; exact hring.alive (by simp))
        have hn0 : n0.next = i := by
          rw [← w3] at e1
          simp [nxt, d0'] at e1; exact e1
        rw [d0]
        simp only [hn0]
        rw [deref_spec h1 i q s.root (some k0, some v0) (by rw [w3]; exact e2) (by rw [w4]; exact e3)
          (by rw [w2]; simp [upd, hri, hkv])]
        simp only
        obtain ⟨h2, x1, x2, x3, x4⟩ := setKV_spec h1 i none none (by rw [w3]; exact hring.alive (by simp))
        rw [x1]
        have hk0 : s.cache.get? k0 = some i := by
          apply Dict.get?_of_mem h.cacheWf
          exact h.cache.symm.subset (by simp)
        simp only [hk0]
        obtain ⟨er1, er2, er3⟩ := Inv.erased (A := []) h
        simp only [List.nil_append] at er1 er2
        have htail : a.entries.tail = rest.map (fun e => e.2) := by rw [h.ent]; rfl
        have hnk' : k ∉ (s.cache.erase k0).keys := by
          rw [← Dict.get?_isSome, Dict.get?_erase h.cacheWf]
          split <;> simp [hk]
        have hset : ∀ (d : Dict K Nat) (x : Nat), k ∉ d.keys → d.set k x = d ++ [(k, x)] := by
          intro d x
          induction d with
          | nil => intro _; rfl
          | cons e d ih =>
            obtain ⟨k1, v1⟩ := e
            intro hd
            simp only [Dict.keys, List.map_cons, List.mem_cons, not_or] at hd
            simp only [Dict.set]
            rw [if_neg (fun e => hd.1 e.symm), ih hd.2]; rfl
        refine ⟨_, rest ++ [(s.root, k, v)], rfl, ?_⟩
        constructor
        · have := (hring.congr (h' := h2) (by intro j _; rw [x3, w3]) (by intro j _; rw [x4, w4])).rotate
          simpa using this
        · simp [htail]
        · rw [htail, ← er1]
          have : (a.entries.erase k0 ++ [(k, v)]).keys = (a.entries.erase k0).keys ++ [k] := by simp [Dict.keys]
          unfold Dict.Wf
          rw [this, List.nodup_append]
          refine ⟨er3, by simp, ?_⟩
          intro x hx y hy e
          simp at hy; subst hy; subst e
          rw [← Dict.get?_isSome, Dict.get?_erase h.wf] at hx
          split at hx
          · cases hx
          · rw [hn] at hx; cases hx
        · intro e he
          simp only
          rw [x2, w2]
          rcases List.mem_append.mp he with he | he
          · have hne : e.1 ≠ i := by
              intro hc
              simp only [List.nodup_cons] at hnd
              exact hnd.2.1 (by rw [← hc]; exact List.mem_map.mpr ⟨e, he, rfl⟩)
            have hne' : e.1 ≠ s.root := by
              intro hc
              simp only [List.nodup_cons, List.mem_cons, not_or] at hnd
              exact hnd.1.2 (by rw [← hc]; exact List.mem_map.mpr ⟨e, he, rfl⟩)
            simp only [upd, hne, hne', if_false]
            exact h.node e (by simp [he])
          · simp at he; subst he
            simp [upd, hri.symm]
        · simp only
          rw [hset _ _ hnk']
          simp only [List.map_append, List.map_cons, List.map_nil]
          exact er2.append_right _
        · intro j hj
          apply h.fresh j
          simp at hj ⊢
          tauto
        · exact h.hits
        · exact h.misses
        · exact h.max
        · have := h.le; simp at this ⊢; omega
        · intro _; simp at hfl ⊢; omega
        · intro _ _; rfl
    · have hlt : a.entries.length < a.maxsize := by
        rcases Nat.lt_or_ge a.entries.length a.maxsize with hh | hh
        · exact hh
        · exfalso; apply hf
          have := h.le
          exact h.full2 h0 (by omega)
      simp only [hf, Bool.false_eq_true, if_false, hlt, if_true, bind, Except.bind]
      have hring := h.ring
      obtain ⟨C, l, hC, l1, l2⟩ := hring.last
      obtain ⟨n0, d0, d0'⟩ := deref_alive s.heap s.root (hring.alive (by simp))
      have hn0 : n0.prev = l := by simp [prv, d0'] at l1; exact l1
      rw [d0]
      simp only [hn0]
      have hlm : l ∈ s.root :: items.map (fun e => e.1) := by rw [hC]; simp
      have hfl := h.fresh l hlm
      have hfr := h.fresh s.root (by simp)
      have hx : s.fresh ∉ s.root :: items.map (fun e => e.1) := by
        intro hm; have := h.fresh _ hm; omega
      obtain ⟨h1, w1, w2, w3, w4⟩ := setNext_spec (write s.heap s.fresh (some ⟨l, s.root, some k, some v⟩)) l s.fresh
        (by
          have : nxt (write s.heap s.fresh (some ⟨l, s.root, some k, some v⟩)) l = nxt s.heap l := by
            simp [nxt, write, show l ≠ s.fresh by omega]
          rw [this]; exact hring.alive hlm)
      rw [w1]
      simp only
      obtain ⟨h2, x1, x2, x3, x4⟩ := setPrev_spec h1 s.root s.fresh (by
        rw [w2]; unfold upd; split
        · rfl
        · have : nxt (write s.heap s.fresh (some ⟨l, s.root, some k, some v⟩)) s.root = nxt s.heap s.root := by
            simp [nxt, write, show s.root ≠ s.fresh by omega]
          rw [this]; exact hring.alive (by simp))
      rw [x1]
      simp only
      have hset : ∀ (d : Dict K Nat) (x : Nat), k ∉ d.keys → d.set k x = d ++ [(k, x)] := by
        intro d x
        induction d with
        | nil => intro _; rfl
        | cons e d ih =>
          obtain ⟨k1, v1⟩ := e
          intro hd
          simp only [Dict.keys, List.map_cons, List.mem_cons, not_or] at hd
          simp only [Dict.set]
          rw [if_neg (fun e => hd.1 e.symm), ih hd.2]; rfl
      rw [hset _ _ ((Dict.get?_eq_none _ _).mp hk)]
      refine ⟨_, items ++ [(s.fresh, k, v)], rfl, ?_⟩
      have hcl := h.len
      constructor
      · have := hring.link (h' := h2) (x := s.fresh) (p := l) hx l1
          (by
            intro j; rw [x3, w2]; simp only [upd, nxt, write]
            by_cases hj : j = s.fresh
            · subst hj; simp [show ¬ s.fresh = l by omega]
            · by_cases hj2 : j = l <;> simp [hj, hj2, show ¬ l = s.fresh by omega])
          (by
            intro j; rw [x2, w3]; simp only [upd, prv, write]
            by_cases hj : j = s.fresh
            · subst hj; simp [show ¬ s.fresh = s.root by omega]
            · by_cases hj2 : j = s.root <;> simp [hj, hj2, show ¬ s.root = s.fresh by omega])
        simpa using this
      · simp [h.ent]
      · have : (a.entries ++ [(k, v)]).keys = a.entries.keys ++ [k] := by simp [Dict.keys]
        unfold Dict.Wf
        rw [this, List.nodup_append]
        refine ⟨h.wf, by simp, ?_⟩
        intro x hx y hy e
        simp at hy; subst hy; subst e
        exact hnk hx
      · intro e he
        simp only
        rw [x4, w4]
        rcases List.mem_append.mp he with he | he
        · have hne : e.1 < s.fresh := h.fresh e.1 (List.mem_cons_of_mem _ (List.mem_map.mpr ⟨e, he, rfl⟩))
          simp only [kv, write, show ¬ e.1 = s.fresh by omega, if_false]
          exact h.node e he
        · simp at he; subst he
          simp [kv, write]
      · simp only [List.map_append, List.map_cons, List.map_nil]
        exact h.cache.append_right _
      · intro j hj
        simp only
        have : j ∈ s.root :: items.map (fun e => e.1) ∨ j = s.fresh := by
          simp at hj ⊢
          rcases hj with h1 | h1 | h1
          · exact .inl (.inl h1)
          · exact .inl (.inr h1)
          · exact .inr h1
        rcases this with hj | hj
        · have := h.fresh j hj; omega
        · omega
      · exact h.hits
      · exact h.misses
      · exact h.max
      · simp; omega
      · intro hf'; simp [hcl] at hf' ⊢; omega
      · intro _ hl'; simp [hcl] at hl' ⊢; omega

theorem clear_refines (s : St K V) (a : Abs K V) (items : List (Nat × K × V)) (h : Inv s a items) :
    Inv (clear s) (a.step .clear).2 [] := by
  have hm := h.max
  refine ⟨⟨by simp, ?_, ?_⟩, rfl, by simp [Abs.step, Dict.Wf, Dict.keys], by simp, by simp [clear], ?_, rfl, rfl, hm, by simp, ?_, ?_⟩
  · simp [Fwd, nxt, clear, write]
  · simp [Bwd, prv, clear, write]
  · intro i hi; simp at hi; subst hi; exact h.fresh s.root (by simp)
  · intro hf; simp [clear] at hf
  · intro h0 hl; simp at hl; simp [clear] at h0 hl; omega

theorem new_inv (m : Nat) : Inv (St.new m : St K V) (Abs.new m) [] := by
  refine ⟨⟨by simp, ?_, ?_⟩, rfl, by simp [Abs.new, Dict.Wf, Dict.keys], by simp, by simp [St.new], ?_, rfl, rfl, rfl, by simp, ?_, ?_⟩
  · simp [Fwd, nxt, St.new]
  · simp [Bwd, prv, St.new]
  · intro i hi; simp [St.new] at hi ⊢; exact hi
  · intro hf; simp [St.new] at hf
  · intro h0 hl; simp [St.new] at h0 hl; omega

theorem step_refines (s : St K V) (a : Abs K V) (items : List (Nat × K × V)) (h : Inv s a items) (c : Call K V) :
    ∃ s' items', step s c = .ok ((a.step c).1, s') ∧ Inv s' (a.step c).2 items' := by
  cases c with
  | lookup k => exact lookup_refines s a items h k
  | set k v =>
    obtain ⟨s', i', h1, h2⟩ := set_refines s a items h k v
    refine ⟨s', i', ?_, h2⟩
    simp only [step, bind, Except.bind, h1]
    congr 2
    simp only [Abs.step]; split <;> rfl
  | peek k u => exact peek_refines s a items h k u
  | pop k fb => exact pop_refines s a items h k fb
  | popOldest fb =>
    cases items with
    | nil =>
      have hl := h.len
      have he := h.ent
      refine ⟨s, [], ?_, ?_⟩
      · have : s.cache = [] := List.length_eq_zero_iff.mp hl
        simp at he
        simp [step, popOldest, this, Abs.step, he]
      · simp at he
        simp only [Abs.step, he]; exact h
    | cons e rest =>
      obtain ⟨s', p1, p2, p3, p4⟩ := popOldest_refines s a (e :: rest) s.maxsize s.full h s.maxsize fb e rest rfl
      have he := h.ent
      refine ⟨s', rest, ?_, ?_⟩
      · simp only [step, Abs.step, he, List.map_cons]; exact p1
      · have : ({ s' with maxsize := s.maxsize, full := decide (rest.length ≥ s.maxsize) } : St K V) = s' := by
          cases s'; simp at p2 p4; simp [p2, p4]
        rw [this] at p3
        simp only [Abs.step, he, List.map_cons]; exact p3
  | setMaxsize n =>
    obtain ⟨s', i', h1, h2⟩ := setMaxsize_refines s a items h n
    exact ⟨s', i', by simp only [step, bind, Except.bind, h1]; rfl, h2⟩
  | clear => exact ⟨_, [], rfl, clear_refines s a items h⟩
  | info =>
    refine ⟨s, items, ?_, h⟩
    simp [step, info, Abs.step, h.hits, h.misses, h.max, h.len, h.ent]

/-- C15. Every history of API steps on the linked-list implementation gives the results of the bounded list of entries
ordered by recency; no internal access fails. -/
theorem lru_refines (maxsize : Nat) (calls : List (Call K V)) :
    run (St.new maxsize) calls = .ok (Abs.run (Abs.new maxsize) calls) := by
  have : ∀ (s : St K V) (a : Abs K V) items, Inv s a items → run s calls = .ok (Abs.run a calls) := by
    induction calls with
    | nil => intros; rfl
    | cons c cs ih =>
      intro s a items h
      obtain ⟨s', i', h1, h2⟩ := step_refines s a items h c
      simp only [run, bind, Except.bind, h1, ih s' _ i' h2, Abs.run]
  exact this _ _ _ (new_inv maxsize)

/-- The invariants of the abstract cache. -/
theorem abs_step_inv (a : Abs K V) (c : Call K V) (hw : a.entries.Wf) (hl : a.entries.length ≤ a.maxsize) :
    (a.step c).2.entries.Wf ∧ (a.step c).2.entries.length ≤ (a.step c).2.maxsize := by
  have hsnoc : ∀ (d : Dict K V) k v, d.Wf → k ∉ d.keys → Dict.Wf (d ++ [(k, v)]) := by
    intro d k v h1 h2
    have : Dict.keys (d ++ [(k, v)]) = d.keys ++ [k] := by simp [Dict.keys]
    unfold Dict.Wf
    rw [this, List.nodup_append]
    refine ⟨h1, by simp, ?_⟩
    intro x hx y hy e
    simp at hy; subst hy; subst e; exact h2 hx
  have hsub : ∀ d : Dict K V, d.Sublist a.entries → d.Wf := fun d h => (h.map Prod.fst).nodup hw
  have her : ∀ (d : Dict K V) k, (d.erase k).length ≤ d.length ∧ (k ∈ d.keys → (d.erase k).length + 1 = d.length) := by
    intro d k
    induction d with
    | nil => simp [Dict.erase, Dict.keys]
    | cons e d ih =>
      obtain ⟨k0, v0⟩ := e
      unfold Dict.erase
      split
      · simp
      · rename_i hk
        refine ⟨by simp [ih.1], ?_⟩
        intro hm
        simp only [Dict.keys, List.map_cons, List.mem_cons] at hm
        have := ih.2 (by rcases hm with h | h; exact absurd h.symm hk; exact h)
        simp [this]
  cases c with
  | lookup k =>
    simp only [Abs.step]
    cases hk : a.entries.get? k with
    | none => exact ⟨hw, hl⟩
    | some v =>
      have hm : k ∈ a.entries.keys := by rw [← Dict.get?_isSome, hk]; rfl
      refine ⟨hsnoc _ _ _ (Dict.wf_erase hw k) ?_, ?_⟩
      · rw [← Dict.get?_isSome, Dict.get?_erase hw]; simp
      · have := (her a.entries k).2 hm
        simp; omega
  | set k v =>
    simp only [Abs.step]
    split
    · exact ⟨hw, hl⟩
    · rename_i hc
      simp only [not_or] at hc
      by_cases hlt : a.entries.length < a.maxsize
      · simp only [hlt, if_true]
        exact ⟨hsnoc _ _ _ hw hc.2, by simp; omega⟩
      · simp only [hlt, if_false]
        refine ⟨hsnoc _ _ _ (hsub _ (List.tail_sublist _)) ?_, by simp; omega⟩
        intro hm
        exact hc.2 (((List.tail_sublist a.entries).map Prod.fst).subset hm)
  | peek k u => simp only [Abs.step]; split <;> cases u <;> exact ⟨hw, hl⟩
  | pop k fb =>
    simp only [Abs.step]
    split
    · exact ⟨Dict.wf_erase hw k, by have := (her a.entries k).1; simp; omega⟩
    · exact ⟨hw, hl⟩
  | popOldest fb =>
    simp only [Abs.step]
    split
    · exact ⟨hw, hl⟩
    · rename_i e r he
      exact ⟨hsub r (by rw [he]; exact List.sublist_cons_self _ _), by rw [he] at hl; simp at hl ⊢; omega⟩
  | setMaxsize n => exact ⟨hsub _ (List.drop_sublist _ _), by simp [Abs.step]; omega⟩
  | clear => exact ⟨by simp [Abs.step, Dict.Wf, Dict.keys], by simp [Abs.step]⟩
  | info => exact ⟨hw, hl⟩

/-- C15: the cache never has more than `maxsize` entries, each key once. -/
theorem lru_bounded (maxsize : Nat) (calls : List (Call K V)) :
    ((Abs.new maxsize : Abs K V).after calls).entries.length ≤ ((Abs.new maxsize : Abs K V).after calls).maxsize ∧
    ((Abs.new maxsize : Abs K V).after calls).entries.Wf := by
  have : ∀ a : Abs K V, a.entries.Wf → a.entries.length ≤ a.maxsize →
      (a.after calls).entries.length ≤ (a.after calls).maxsize ∧ (a.after calls).entries.Wf := by
    induction calls with
    | nil => intro a h1 h2; exact ⟨h2, h1⟩
    | cons c cs ih => intro a h1 h2; obtain ⟨h3, h4⟩ := abs_step_inv a c h1 h2; exact ih _ h3 h4
  exact this _ (by simp [Abs.new, Dict.Wf, Dict.keys]) (by simp [Abs.new])

/-- Every value which comes out of the cache, in any step. -/
def Ret.Ok (P : V → Prop) : Ret V → Prop
  | .value (some v) => P v
  | .value none => False
  | _ => True

/-- The result of a step for a key satisfies `P key`. -/
def RetOk (P : K → V → Prop) : Call K V → Ret V → Prop
  | .lookup k, r => r.Ok (P k)
  | .peek k _, r => r.Ok (P k)
  | .pop k _, r => r.Ok (P k)
  | .popOldest _, r => r.Ok (fun v => ∃ k, P k v)
  | _, _ => True

/-- C16. If every value put into the cache for a key `k` (by any thread, also while another call for `k` runs) is one
which the user function may return for `k` (`P k`), then in any history the cache only gives such values for `k`; so a call
returns a value of the user function for its own arguments, from the cache or directly. -/
theorem memo_transparent (P : K → V → Prop) (maxsize : Nat) (calls : List (Call K V))
    (hset : ∀ k v, Call.set k v ∈ calls → P k v) :
    ∃ rs, run (St.new maxsize) calls = .ok rs ∧ List.Forall₂ (RetOk P) calls rs := by
  refine ⟨_, lru_refines maxsize calls, ?_⟩
  have : ∀ a : Abs K V, (∀ e ∈ a.entries, P e.1 e.2) → List.Forall₂ (RetOk P) calls (Abs.run a calls) := by
    induction calls with
    | nil => intro a _; exact .nil
    | cons c cs ih =>
      intro a ha
      have hget : ∀ k v, a.entries.get? k = some v → P k v := fun k v h => ha _ (Dict.mem_of_get? h)
      have her : ∀ k, ∀ e ∈ a.entries.erase k, e ∈ a.entries := by
        intro k
        generalize a.entries = d
        induction d with
        | nil => intro e he; exact he
        | cons e d ihd =>
          obtain ⟨k0, v0⟩ := e
          intro e he
          unfold Dict.erase at he
          split at he
          · exact List.mem_cons_of_mem _ he
          · rcases List.mem_cons.mp he with he | he
            · rw [he]; simp
            · exact List.mem_cons_of_mem _ (ihd e he)
      have hstep : RetOk P c (a.step c).1 ∧ ∀ e ∈ (a.step c).2.entries, P e.1 e.2 := by
        cases c with
        | lookup k =>
          simp only [Abs.step]
          cases hk : a.entries.get? k with
          | none => exact ⟨trivial, ha⟩
          | some v =>
            refine ⟨hget k v hk, ?_⟩
            intro e he
            rcases List.mem_append.mp he with he | he
            · exact ha e (her k e he)
            · simp at he; subst he; exact hget k v hk
        | set k v =>
          refine ⟨trivial, ?_⟩
          simp only [Abs.step]
          split
          · exact ha
          · intro e he
            rcases List.mem_append.mp he with he | he
            · split at he
              · exact ha e he
              · exact ha e (List.mem_of_mem_tail he)
            · simp at he; subst he; exact hset k v (by simp)
        | peek k u =>
          simp only [Abs.step]
          cases hk : a.entries.get? k with
          | none => refine ⟨trivial, ?_⟩; cases u <;> exact ha
          | some v => refine ⟨hget k v hk, ?_⟩; cases u <;> exact ha
        | pop k fb =>
          simp only [Abs.step]
          cases hk : a.entries.get? k with
          | none => refine ⟨?_, ha⟩; cases fb <;> exact trivial
          | some v => exact ⟨hget k v hk, fun e he => ha e (her k e he)⟩
        | popOldest fb =>
          simp only [Abs.step]
          split
          · refine ⟨?_, ha⟩; cases fb <;> exact trivial
          · rename_i e r he
            refine ⟨⟨e.1, ha e (by rw [he]; simp)⟩, fun e' he' => ha e' (by rw [he]; exact List.mem_cons_of_mem _ he')⟩
        | setMaxsize n => exact ⟨trivial, fun e he => ha e (List.mem_of_mem_drop he)⟩
        | clear => exact ⟨trivial, by simp [Abs.step]⟩
        | info => exact ⟨trivial, ha⟩
      exact .cons hstep.1 (ih (fun k v h => hset k v (by simp [h])) _ hstep.2)
  exact this _ (by simp [Abs.new])

example : run (St.new 2 : St Nat String) [.lookup 1, .set 1 "a", .set 2 "b", .lookup 1, .set 3 "c", .lookup 2, .lookup 1,
      .pop 1 false, .info, .setMaxsize 1, .popOldest false, .popOldest false, .info]
    = .ok [.miss, .unit, .unit, .value (some "a"), .unit, .miss, .value (some "a"), .value (some "a"), .info 2 2 2 1, .unit,
        .value (some "c"), .keyError, .info 2 2 1 0] := by decide +kernel

/-- The steps which count as lookups in the statistics. -/
def Counts : Call K V → Bool
  | .lookup _ => true
  | .peek _ u => u
  | _ => false

/-- C15: after a history without `clear`, hits plus misses is the number of lookups. -/
theorem stats_count (calls : List (Call K V)) (hc : ∀ c ∈ calls, c ≠ .clear) (maxsize : Nat) :
    ((Abs.new maxsize : Abs K V).after calls).hits + ((Abs.new maxsize : Abs K V).after calls).misses
      = (calls.filter Counts).length := by
  have : ∀ a : Abs K V, (a.after calls).hits + (a.after calls).misses = a.hits + a.misses + (calls.filter Counts).length := by
    induction calls with
    | nil => intro a; rfl
    | cons c cs ih =>
      intro a
      simp only [Abs.after]
      rw [ih (fun c hc' => hc c (by simp [hc']))]
      have hne := hc c (by simp)
      have : (a.step c).2.hits + (a.step c).2.misses = a.hits + a.misses + (if Counts c then 1 else 0) := by
        cases c with
        | lookup k => simp only [Abs.step]; split <;> simp [Counts] <;> omega
        | set k v => simp only [Abs.step]; split <;> simp [Counts]
        | peek k u => simp only [Abs.step]; split <;> cases u <;> simp [Counts] <;> omega
        | pop k fb => simp only [Abs.step]; split <;> simp [Counts]
        | popOldest fb => simp only [Abs.step]; split <;> simp [Counts]
        | setMaxsize n => simp [Abs.step, Counts]
        | clear => exact absurd rfl hne
        | info => simp [Abs.step, Counts]
      rw [this, List.filter_cons]
      cases Counts c <;> simp <;> omega
  have := this (Abs.new maxsize)
  simpa [Abs.new] using this

/-- C15: after a lookup or a (new) insert of `k`, the entry of `k` is the last one in the order of eviction. -/
theorem used_is_last (a : Abs K V) (c : Call K V) (k : K) (hu : Uses k c = true) (hw : a.entries.Wf)
    (hnew : ∀ v, c = .set k v → k ∉ a.entries.keys) (v : V) (hk : (a.step c).2.entries.get? k = some v) :
    (a.step c).2.entries.getLast? = some (k, v) := by
  cases c with
  | lookup k' =>
    simp [Uses] at hu; subst hu
    simp only [Abs.step] at hk ⊢
    cases hg : a.entries.get? k' with
    | none => rw [hg] at hk; simp only at hk; rw [hg] at hk; cases hk
    | some w =>
      rw [hg] at hk
      simp only at hk ⊢
      have : Dict.get? (a.entries.erase k' ++ [(k', w)]) k' = some w := by
        have h1 := Dict.get?_erase hw k' k'
        simp at h1
        have hap : ∀ (d : Dict K V), d.get? k' = none → Dict.get? (d ++ [(k', w)]) k' = some w := by
          intro d
          induction d with
          | nil => intro _; simp [Dict.get?]
          | cons e d ih =>
            obtain ⟨k0, v0⟩ := e
            intro h
            simp only [Dict.get?] at h
            split at h
            · cases h
            · rename_i hne
              simp only [List.cons_append, Dict.get?, hne, if_false]; exact ih h
        exact hap _ h1
      rw [this] at hk
      injection hk with hk
      simp [hk]
  | set k' w =>
    simp [Uses] at hu; subst hu
    have hn := hnew w rfl
    simp only [Abs.step] at hk ⊢
    split at hk
    · simp only at hk
      have : k' ∈ a.entries.keys := by rw [← Dict.get?_isSome, hk]; rfl
      exact absurd this hn
    · rename_i hc
      simp only [hc, if_false]
      simp only at hk
      have hap : ∀ (d : Dict K V), k' ∉ d.keys → Dict.get? (d ++ [(k', w)]) k' = some w := by
        intro d
        induction d with
        | nil => intro _; simp [Dict.get?]
        | cons e d ih =>
          obtain ⟨k0, v0⟩ := e
          intro h
          simp only [Dict.keys, List.map_cons, List.mem_cons, not_or] at h
          simp only [List.cons_append, Dict.get?, if_neg (fun e => h.1 e.symm : ¬ k0 = k')]; exact ih h.2
      rw [hap _ (by
        split
        · exact hn
        · intro hm; exact hn (((List.tail_sublist a.entries).map Prod.fst).subset hm))] at hk
      injection hk with hk
      simp [hk]
  | peek k' u => simp [Uses] at hu
  | pop k' fb => simp [Uses] at hu
  | popOldest fb => simp [Uses] at hu
  | setMaxsize n => simp [Uses] at hu
  | clear => simp [Uses] at hu
  | info => simp [Uses] at hu

/-- C15: a step never changes the order of the entries which it does not use: recency order is kept. -/
theorem others_keep_order (a : Abs K V) (c : Call K V) (hw : a.entries.Wf) :
    ((a.step c).2.entries.filter (fun e => !Uses e.1 c)).Sublist a.entries := by
  have hers : ∀ (d : Dict K V) k, (d.erase k).Sublist d := by
    intro d k
    induction d with
    | nil => exact List.Sublist.refl _
    | cons e d ih =>
      obtain ⟨k0, v0⟩ := e
      unfold Dict.erase
      split
      · exact List.sublist_cons_self _ _
      · exact ih.cons_cons _
  cases c with
  | lookup k =>
    simp only [Abs.step]
    split
    · simp only [List.filter_append]
      simp only [Uses, List.filter_cons, List.filter_nil, decide_true, Bool.not_true, Bool.false_eq_true, if_false,
        List.append_nil]
      exact List.filter_sublist.trans (hers _ _)
    · exact List.filter_sublist
  | set k v =>
    simp only [Abs.step]
    split
    · exact List.filter_sublist
    · simp only [List.filter_append]
      simp only [Uses, List.filter_cons, List.filter_nil, decide_true, Bool.not_true, Bool.false_eq_true, if_false,
        List.append_nil]
      split
      · exact List.filter_sublist
      · exact List.filter_sublist.trans (List.tail_sublist _)
  | peek k u => simp only [Abs.step]; split <;> cases u <;> exact List.filter_sublist
  | pop k fb =>
    simp only [Abs.step]; split
    · exact List.filter_sublist.trans (hers _ _)
    · exact List.filter_sublist
  | popOldest fb =>
    simp only [Abs.step]
    split
    · exact List.filter_sublist
    · rename_i e r he
      rw [he]
      exact List.filter_sublist.trans (List.sublist_cons_self _ _)
  | setMaxsize n => exact List.filter_sublist.trans (List.drop_sublist _ _)
  | clear => simp [Abs.step]
  | info => exact List.filter_sublist

/-- Disagreement with C16 for concurrent threads: `maxsize > 0` is checked outside of the lock. If another thread calls
`cache_set_maxsize(0)` between the check and `_cache_insert`, then the insert raises a `KeyError`, so the call of the
wrapped function fails although the user function returned a value. -/
theorem insert_race_keyerror (m : Nat) (k : K) (v : V) :
    ∃ s : St K V, setMaxsize (St.new m) 0 = .ok s ∧ insert s k v = .error .keyError := by
  refine ⟨_, rfl, ?_⟩
  simp [insert, St.new, Dict.get?, setKV, deref, write, bind, Except.bind]

/-- `cache_set` does not overwrite: the old value stays. -/
theorem cache_set_keeps_old (a : Abs K V) (k : K) (v v' : V) (h : a.entries.get? k = some v) :
    (a.step (.set k v')).2 = a := by
  have : k ∈ a.entries.keys := by rw [← Dict.get?_isSome, h]; rfl
  simp [Abs.step, this]

theorem flat_kwds_inj {O U : Type} (w : Objs O U) (hname : Function.Injective w.name) (k1 k2 : List (String × O)) (r1 r2 : List U)
    (hl : k1.length = k2.length)
    (h : k1.flatMap (fun e => [w.name e.1, w.val e.2]) ++ r1 = k2.flatMap (fun e => [w.name e.1, w.val e.2]) ++ r2) :
    k1.map (fun e => (e.1, w.val e.2)) = k2.map (fun e => (e.1, w.val e.2)) ∧ r1 = r2 := by
  induction k1 generalizing k2 with
  | nil =>
    cases k2 with
    | nil => exact ⟨rfl, by simpa using h⟩
    | cons e k2 => simp at hl
  | cons e k1 ih =>
    cases k2 with
    | nil => simp at hl
    | cons e' k2 =>
      simp at h
      obtain ⟨i1, i2⟩ := ih k2 (by simpa using hl) (by simpa using h.2.2)
      refine ⟨?_, i2⟩
      simp [i1, hname h.1, h.2.1]

theorem split_at_mark {U : Type} (m : U) (a1 a2 b1 b2 : List U) (h1 : m ∉ a1) (h2 : m ∉ a2)
    (h : a1 ++ m :: b1 = a2 ++ m :: b2) : a1 = a2 ∧ b1 = b2 := by
  induction a1 generalizing a2 with
  | nil =>
    cases a2 with
    | nil => simpa using h
    | cons x a2 => simp at h; simp [h.1] at h2
  | cons x a1 ih =>
    cases a2 with
    | nil => simp at h; simp [h.1] at h1
    | cons y a2 =>
      simp at h
      obtain ⟨i1, i2⟩ := ih a2 (by simp at h1; exact h1.2) (by simp at h2; exact h2.2) h.2
      exact ⟨by rw [h.1, i1], i2⟩

theorem flat_length {O U : Type} (w : Objs O U) (k : List (String × O)) :
    (k.flatMap (fun e => [w.name e.1, w.val e.2])).length = 2 * k.length := by
  induction k with
  | nil => rfl
  | cons e k ih => simp; omega

/-- C16: two calls get the same key only if they have equal arguments at the same positions and the same keywords with
equal values in the same order, and with `typed` also the types agree. The mark is a private object, so it is not equal to
any argument, type or keyword name. -/
theorem makeKey_injective {O U : Type} (w : Objs O U) (hname : Function.Injective w.name)
    (hm : (∀ o, w.val o ≠ w.mark) ∧ (∀ o, w.ty o ≠ w.mark) ∧ ∀ s, w.name s ≠ w.mark) (typed : Bool)
    (args args' : List O) (kwds kwds' : List (String × O)) (h : makeKey w typed args kwds = makeKey w typed args' kwds') :
    args.map w.val = args'.map w.val ∧ kwds.map (fun e => (e.1, w.val e.2)) = kwds'.map (fun e => (e.1, w.val e.2)) ∧
    (typed = true → args.map w.ty = args'.map w.ty ∧ kwds.map (fun e => w.ty e.2) = kwds'.map (fun e => w.ty e.2)) := by
  obtain ⟨hm1, hm2, hm3⟩ := hm
  have nm1 : ∀ l : List O, w.mark ∉ l.map w.val := by
    intro l hc; obtain ⟨o, _, ho⟩ := List.mem_map.mp hc; exact hm1 o ho
  have nm2 : ∀ l : List O, w.mark ∉ l.map w.ty := by
    intro l hc; obtain ⟨o, _, ho⟩ := List.mem_map.mp hc; exact hm2 o ho
  have nm3 : ∀ l : List (String × O), w.mark ∉ l.map (fun e => w.ty e.2) := by
    intro l hc; obtain ⟨o, _, ho⟩ := List.mem_map.mp hc; exact hm2 _ ho
  -- the general fact on the lists
  have core : ∀ (t1 t2 : List U), w.mark ∉ t1 → w.mark ∉ t2 →
      (∀ x, t1.length = x → True) →
      (t1.length = (if typed then args.length + kwds.length else 0)) →
      (t2.length = (if typed then args'.length + kwds'.length else 0)) →
      args.map w.val ++ (if kwds.isEmpty then [] else w.mark :: kwds.flatMap (fun e => [w.name e.1, w.val e.2])) ++ t1
        = args'.map w.val ++ (if kwds'.isEmpty then [] else w.mark :: kwds'.flatMap (fun e => [w.name e.1, w.val e.2])) ++ t2 →
      args.map w.val = args'.map w.val ∧ kwds.map (fun e => (e.1, w.val e.2)) = kwds'.map (fun e => (e.1, w.val e.2)) ∧ t1 = t2 := by
    intro t1 t2 ht1 ht2 _ hl1 hl2 he
    cases kwds with
    | nil =>
      cases kwds' with
      | nil =>
        simp only [List.isEmpty_nil, if_true, List.append_nil] at he
        have hlen := congrArg List.length he
        simp only [List.length_append, List.length_map, hl1, hl2, List.length_nil] at hlen
        have : (args.map w.val).length = (args'.map w.val).length := by
          cases typed <;> simp at hlen ⊢ <;> omega
        obtain ⟨e1, e2⟩ := List.append_inj he this
        exact ⟨e1, rfl, e2⟩
      | cons e k =>
        exfalso
        simp only [List.isEmpty_nil, if_true, List.append_nil, List.isEmpty_cons, Bool.false_eq_true, if_false] at he
        have : w.mark ∈ args.map w.val ++ t1 := by rw [he]; simp
        rcases List.mem_append.mp this with h | h
        · exact nm1 _ h
        · exact ht1 h
    | cons e k =>
      cases kwds' with
      | nil =>
        exfalso
        simp only [List.isEmpty_nil, if_true, List.append_nil, List.isEmpty_cons, Bool.false_eq_true, if_false] at he
        have : w.mark ∈ args'.map w.val ++ t2 := by rw [← he]; simp
        rcases List.mem_append.mp this with h | h
        · exact nm1 _ h
        · exact ht2 h
      | cons e' k' =>
        simp only [List.isEmpty_cons, Bool.false_eq_true, if_false, List.append_assoc, List.cons_append] at he
        obtain ⟨e1, e2⟩ := split_at_mark _ _ _ _ _ (nm1 _) (nm1 _) he
        have hal : args.length = args'.length := by simpa using congrArg List.length e1
        have hlen := congrArg List.length e2
        rw [List.length_append, List.length_append, flat_length, flat_length, hl1, hl2] at hlen
        have hkl : (e :: k).length = (e' :: k').length := by cases typed <;> simp at hlen ⊢ <;> omega
        obtain ⟨e3, e4⟩ := flat_kwds_inj w hname _ _ _ _ hkl e2
        exact ⟨e1, e3, e4⟩
  unfold makeKey at h
  cases typed with
  | true =>
    simp only [if_true, Sum.inr.injEq, List.append_assoc] at h
    obtain ⟨c1, c2, c3⟩ := core (args.map w.ty ++ kwds.map (fun e => w.ty e.2)) (args'.map w.ty ++ kwds'.map (fun e => w.ty e.2))
      (by intro hc; rcases List.mem_append.mp hc with h | h; exact nm2 _ h; exact nm3 _ h)
      (by intro hc; rcases List.mem_append.mp hc with h | h; exact nm2 _ h; exact nm3 _ h)
      (fun _ _ => trivial) (by simp) (by simp) (by simpa using h)
    refine ⟨c1, c2, fun _ => ?_⟩
    have hal : args.length = args'.length := by simpa using congrArg List.length c1
    exact List.append_inj c3 (by simpa using hal)
  | false =>
    have hu : ∀ (as : List O) (ks : List (String × O)), (∃ o, as = [o] ∧ ks = [] ∧ makeKey w false as ks = .inl (w.val o)) ∨
        makeKey w false as ks = .inr (as.map w.val ++
          (if ks.isEmpty then [] else w.mark :: ks.flatMap (fun e => [w.name e.1, w.val e.2]))) := by
      intro as ks
      unfold makeKey
      simp only [Bool.false_eq_true, if_false]
      split
      · split
        · exact .inl ⟨_, rfl, rfl, rfl⟩
        · exact .inr rfl
      · exact .inr rfl
    have h' : makeKey w false args kwds = makeKey w false args' kwds' := h
    rcases hu args kwds with ⟨o, rfl, rfl, h1⟩ | h1 <;> rcases hu args' kwds' with ⟨o', rfl, rfl, h2⟩ | h2
    · rw [h1, h2] at h'
      simp only [Sum.inl.injEq] at h'
      simp [h']
    · rw [h1, h2] at h'; cases h'
    · rw [h1, h2] at h'; cases h'
    · rw [h1, h2] at h'
      simp only [Sum.inr.injEq] at h'
      obtain ⟨c1, c2, _⟩ := core [] [] (by simp) (by simp) (fun _ _ => trivial) (by simp) (by simp) (by simpa using h')
      exact ⟨c1, c2, by simp⟩

example : makeKey (O := Nat) (U := Nat) ⟨fun o => o, fun _ => 7, fun s => 100 + s.length, 99, fun _ => true⟩ false [1] []
    ≠ makeKey ⟨fun o => o, fun _ => 7, fun s => 100 + s.length, 99, fun _ => true⟩ false [] [("x", 1)] := by decide

end Verif.Lru
