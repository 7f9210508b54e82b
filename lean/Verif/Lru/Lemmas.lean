import Verif.Lru.Spec
import Mathlib.Data.List.Chain
import Mathlib.Tactic.Tauto
/-
Doubly linked rings.
-/
namespace Verif.Lru
open Verif.Py

variable {K V : Type} [DecidableEq K]

/-- `f a = some b` for neighbours `a`, `b`. -/
def Fwd (f : Nat → Option Nat) (l : List Nat) : Prop := l.IsChain (fun a b => f a = some b)

/-- `f b = some a` for neighbours `a`, `b`. -/
def Bwd (f : Nat → Option Nat) (l : List Nat) : Prop := l.IsChain (fun a b => f b = some a)

/-- Function update. -/
def upd {β : Type} (f : Nat → β) (i : Nat) (x : β) : Nat → β := fun j => if j = i then x else f j

theorem fwd_congr {f g : Nat → Option Nat} {l : List Nat} (h : ∀ a ∈ l.dropLast, f a = g a) (hf : Fwd f l) : Fwd g l := by
  induction l with
  | nil => exact List.IsChain.nil
  | cons a l ih =>
    cases l with
    | nil => exact List.IsChain.singleton a
    | cons b l =>
      simp only [Fwd, List.isChain_cons_cons] at hf ih ⊢
      refine ⟨by rw [← h a (by simp)]; exact hf.1, ih (fun x hx => h x (by simp [hx])) hf.2⟩

theorem bwd_congr {f g : Nat → Option Nat} {l : List Nat} (h : ∀ a ∈ l.tail, f a = g a) (hf : Bwd f l) : Bwd g l := by
  induction l with
  | nil => exact List.IsChain.nil
  | cons a l ih =>
    cases l with
    | nil => exact List.IsChain.singleton a
    | cons b l =>
      simp only [Bwd, List.isChain_cons_cons] at hf ih ⊢
      refine ⟨by rw [← h b (by simp)]; exact hf.1, ih (fun x hx => h x (List.mem_cons_of_mem _ hx)) hf.2⟩

/-- Junction of chains. -/
theorem fwd_append (f : Nat → Option Nat) (A B : List Nat) (p q : Nat) :
    Fwd f (A ++ [p] ++ q :: B) ↔ Fwd f (A ++ [p]) ∧ f p = some q ∧ Fwd f (q :: B) := by
  unfold Fwd
  rw [List.isChain_append]
  simp
  tauto

theorem bwd_append (f : Nat → Option Nat) (A B : List Nat) (p q : Nat) :
    Bwd f (A ++ [p] ++ q :: B) ↔ Bwd f (A ++ [p]) ∧ f q = some p ∧ Bwd f (q :: B) := by
  unfold Bwd
  rw [List.isChain_append]
  simp
  tauto

/-- The pointers of a heap. -/
def nxt (h : Heap K V) (i : Nat) : Option Nat := (h i).map Node.next
def prv (h : Heap K V) (i : Nat) : Option Nat := (h i).map Node.prev
def kv (h : Heap K V) (i : Nat) : Option (Option K × Option V) := (h i).map (fun n => (n.key, n.result))

omit [DecidableEq K] in
theorem setNext_spec (h : Heap K V) (i x : Nat) (hi : (nxt h i).isSome) :
    ∃ h', setNext h i x = .ok h' ∧ nxt h' = upd (nxt h) i (some x) ∧ prv h' = prv h ∧ kv h' = kv h := by
  unfold nxt at hi
  cases hh : h i with
  | none => rw [hh] at hi; cases hi
  | some n =>
    refine ⟨_, by simp [setNext, deref, hh, bind, Except.bind]; rfl, ?_, ?_, ?_⟩ <;> funext j <;>
      simp only [nxt, prv, kv, write, upd] <;> by_cases hj : j = i <;> simp [hj, hh]

omit [DecidableEq K] in
theorem setPrev_spec (h : Heap K V) (i x : Nat) (hi : (nxt h i).isSome) :
    ∃ h', setPrev h i x = .ok h' ∧ prv h' = upd (prv h) i (some x) ∧ nxt h' = nxt h ∧ kv h' = kv h := by
  unfold nxt at hi
  cases hh : h i with
  | none => rw [hh] at hi; cases hi
  | some n =>
    refine ⟨_, by simp [setPrev, deref, hh, bind, Except.bind]; rfl, ?_, ?_, ?_⟩ <;> funext j <;>
      simp only [nxt, prv, kv, write, upd] <;> by_cases hj : j = i <;> simp [hj, hh]

omit [DecidableEq K] in
theorem setKV_spec (h : Heap K V) (i : Nat) (k : Option K) (v : Option V) (hi : (nxt h i).isSome) :
    ∃ h', setKV h i k v = .ok h' ∧ kv h' = upd (kv h) i (some (k, v)) ∧ nxt h' = nxt h ∧ prv h' = prv h := by
  unfold nxt at hi
  cases hh : h i with
  | none => rw [hh] at hi; cases hi
  | some n =>
    refine ⟨_, by simp [setKV, deref, hh, bind, Except.bind]; rfl, ?_, ?_, ?_⟩ <;> funext j <;>
      simp only [nxt, prv, kv, write, upd] <;> by_cases hj : j = i <;> simp [hj, hh]

omit [DecidableEq K] in
theorem deref_spec (h : Heap K V) (i a b : Nat) (c : Option K × Option V) (hn : nxt h i = some a) (hp : prv h i = some b)
    (hk : kv h i = some c) : deref h i = .ok ⟨b, a, c.1, c.2⟩ := by
  unfold nxt at hn; unfold prv at hp; unfold kv at hk
  cases hh : h i with
  | none => rw [hh] at hn; cases hn
  | some n =>
    rw [hh] at hn hp hk
    simp at hn hp hk
    subst hn; subst hp; subst hk
    simp [deref, hh]

/-- A doubly linked ring through `r` and then `ids`. -/
structure Ring (h : Heap K V) (r : Nat) (ids : List Nat) : Prop where
  nodup : (r :: ids).Nodup
  fwd : Fwd (nxt h) (r :: ids ++ [r])
  bwd : Bwd (prv h) (r :: ids ++ [r])

omit [DecidableEq K] in
/-- Pointers around an element. -/
theorem Ring.around {h : Heap K V} {r : Nat} {A B : List Nat} {x : Nat} (hr : Ring h r (A ++ x :: B)) :
    ∃ A' p q B', r :: A = A' ++ [p] ∧ B ++ [r] = q :: B' ∧ nxt h p = some x ∧ nxt h x = some q ∧
      prv h x = some p ∧ prv h q = some x ∧ Fwd (nxt h) (A' ++ [p]) ∧ Fwd (nxt h) (q :: B') ∧
      Bwd (prv h) (A' ++ [p]) ∧ Bwd (prv h) (q :: B') := by
  obtain ⟨A', p, hA⟩ : ∃ A' p, r :: A = A' ++ [p] := ⟨_, _, (List.dropLast_append_getLast (List.cons_ne_nil r A)).symm⟩
  obtain ⟨q, B', hB⟩ : ∃ q B', B ++ [r] = q :: B' := by cases B <;> simp
  have hl : r :: (A ++ x :: B) ++ [r] = A' ++ [p] ++ x :: ([] ++ q :: B') := by
    rw [← hA, List.nil_append, ← hB]; simp
  have h1 := hr.fwd
  have h2 := hr.bwd
  rw [hl] at h1 h2
  rw [fwd_append] at h1
  rw [bwd_append] at h2
  have h3 := h1.2.2
  have h4 := h2.2.2
  simp only [List.nil_append] at h3 h4
  have h3' := (fwd_append (nxt h) [] B' x q).mp h3
  have h4' := (bwd_append (prv h) [] B' x q).mp h4
  exact ⟨A', p, q, B', hA, hB, h1.2.1, h3'.2.1, h2.2.1, h4'.2.1, h1.1, h3'.2.2, h2.1, h4'.2.2⟩

omit [DecidableEq K] in
/-- Unlinking an element. -/
theorem Ring.unlink {h h' : Heap K V} {r : Nat} {A B : List Nat} {x p q : Nat} (hr : Ring h r (A ++ x :: B))
    (hp : prv h x = some p) (hq : nxt h x = some q)
    (hn : nxt h' = upd (nxt h) p (some q)) (hv : prv h' = upd (prv h) q (some p)) : Ring h' r (A ++ B) := by
  obtain ⟨A', p', q', B', hA, hB, e1, e2, e3, e4, f1, f2, b1, b2⟩ := hr.around
  rw [hp] at e3; rw [hq] at e2
  injection e3 with e3; injection e2 with e2
  subst e3; subst e2
  have hnd := hr.nodup
  have hnd' : (A' ++ [p] ++ x :: B).Nodup := by rw [← hA]; simpa using hnd
  have hl : r :: (A ++ B) ++ [r] = A' ++ [p] ++ q :: B' := by rw [← hA, ← hB]; simp
  have hd1 : (q :: B').dropLast = B := by rw [← hB]; simp
  have ht1 : (A' ++ [p]).tail = A := by rw [← hA]; simp
  rw [List.nodup_append] at hnd'
  obtain ⟨n1, n2, n3⟩ := hnd'
  refine ⟨?_, ?_, ?_⟩
  · have : (r :: (A ++ B)).Sublist (r :: (A ++ x :: B)) :=
      (((List.Sublist.refl A).append (List.sublist_cons_self x B))).cons_cons r
    exact this.nodup hnd
  · rw [hl, fwd_append, hn]
    refine ⟨fwd_congr ?_ f1, by simp [upd], fwd_congr ?_ f2⟩
    · intro a ha
      simp at ha
      have : a ≠ p := by
        rw [List.nodup_append] at n1
        intro e; exact n1.2.2 a ha p (by simp) e
      simp [upd, this]
    · rw [hd1]
      intro a ha
      have : a ≠ p := fun e => n3 p (by simp) a (by simp [ha]) e.symm
      simp [upd, this]
  · rw [hl, bwd_append, hv]
    refine ⟨bwd_congr ?_ b1, by simp [upd], bwd_congr ?_ b2⟩
    · rw [ht1]
      intro a ha
      have hq' : q ∈ B ++ [r] := by rw [hB]; simp
      have : a ≠ q := by
        intro e; subst e
        simp only [List.nodup_cons, List.nodup_append, List.mem_append, List.mem_cons] at hnd
        rcases List.mem_append.mp hq' with hq' | hq'
        · exact hnd.2.2.2 a ha a (.inr hq') rfl
        · simp at hq'; subst hq'; exact hnd.1 (.inl ha)
      simp [upd, this]
    · intro a ha
      have : a ≠ q := by
        intro e; subst e
        have : (B ++ [r]).Nodup := by
          simp only [List.nodup_cons, List.nodup_append, List.mem_append, List.mem_cons] at hnd ⊢
          refine ⟨hnd.2.2.1.2, by simp, ?_⟩
          intro a ha b hb
          simp at hb; subst hb
          intro e; subst e; exact hnd.1 (.inr (.inr ha))
        rw [hB] at this
        simp at ha
        exact (List.nodup_cons.mp this).1 ha
      simp [upd, this]

omit [DecidableEq K] in
/-- The last element of a ring. -/
theorem Ring.last {h : Heap K V} {r : Nat} {ids : List Nat} (hr : Ring h r ids) :
    ∃ A p, r :: ids = A ++ [p] ∧ prv h r = some p ∧ (nxt h p) = some r := by
  obtain ⟨A', p, hA⟩ : ∃ A' p, r :: ids = A' ++ [p] := ⟨_, _, (List.dropLast_append_getLast (List.cons_ne_nil r ids)).symm⟩
  have h1 := hr.fwd
  have h2 := hr.bwd
  rw [hA] at h1 h2
  exact ⟨A', p, hA, ((bwd_append _ A' [] p r).mp h2).2.1, ((fwd_append _ A' [] p r).mp h1).2.1⟩

omit [DecidableEq K] in
/-- Linking an element at the end. -/
theorem Ring.link {h h' : Heap K V} {r : Nat} {ids : List Nat} {x p : Nat} (hr : Ring h r ids) (hx : x ∉ r :: ids)
    (hp : prv h r = some p)
    (hn : ∀ j, nxt h' j = if j = x then some r else if j = p then some x else nxt h j)
    (hv : ∀ j, prv h' j = if j = x then some p else if j = r then some x else prv h j) : Ring h' r (ids ++ [x]) := by
  obtain ⟨A, p', hA, hp', _⟩ := hr.last
  rw [hp] at hp'; injection hp' with hp'; subst hp'
  have h1 := hr.fwd
  have h2 := hr.bwd
  have hnd := hr.nodup
  rw [hA] at h1 h2 hnd hx
  have f1 := ((fwd_append _ A [] p r).mp h1).1
  have b1 := ((bwd_append _ A [] p r).mp h2).1
  have hl : r :: (ids ++ [x]) ++ [r] = A ++ [p] ++ x :: [r] := by rw [← hA]; simp
  have hxp : x ≠ p := by intro e; subst e; simp at hx
  have hrm : r ∈ A ++ [p] := by rw [← hA]; simp
  have hxr : r ≠ x := by intro e; subst e; exact hx hrm
  refine ⟨?_, ?_, ?_⟩
  · have : r :: (ids ++ [x]) = A ++ [p] ++ [x] := by rw [← hA]; simp
    rw [this, List.nodup_append]
    refine ⟨hnd, by simp, ?_⟩
    intro a ha b hb
    simp at hb; subst hb
    intro e; subst e; exact hx ha
  · rw [hl, fwd_append]
    refine ⟨fwd_congr ?_ f1, by rw [hn]; simp [hxp.symm], ?_⟩
    · intro a ha
      simp at ha
      rw [hn]
      have e1 : a ≠ x := by intro e; subst e; exact hx (by simp [ha])
      have e2 : a ≠ p := by
        rw [List.nodup_append] at hnd
        intro e; exact hnd.2.2 a ha p (by simp) e
      simp [e1, e2]
    · simp [Fwd, hn]
  · rw [hl, bwd_append]
    refine ⟨bwd_congr ?_ b1, by rw [hv]; simp, ?_⟩
    · intro a ha
      have hat : a ∈ ids := by rw [← hA] at ha; simpa using ha
      rw [hv]
      have e1 : a ≠ x := by intro e; subst e; exact hx (List.mem_of_mem_tail ha)
      have e2 : a ≠ r := by
        intro e; subst e
        rw [← hA] at hnd
        exact (List.nodup_cons.mp hnd).1 hat
      simp [e1, e2]
    · simp [Bwd, hv, hxr]

omit [DecidableEq K] in
/-- The ring seen from the first element. -/
theorem Ring.rotate {h : Heap K V} {r x : Nat} {ids : List Nat} (hr : Ring h r (x :: ids)) : Ring h x (ids ++ [r]) := by
  have h1 := hr.fwd
  have h2 := hr.bwd
  have hnd := hr.nodup
  simp only [List.cons_append] at h1 h2
  have f1 := (fwd_append (nxt h) [] (ids ++ [r]) r x).mp (by simpa using h1)
  have b1 := (bwd_append (prv h) [] (ids ++ [r]) r x).mp (by simpa using h2)
  refine ⟨?_, ?_, ?_⟩
  · have : (x :: (ids ++ [r])).Perm (r :: (x :: ids)) := by
      have : (x :: (ids ++ [r])) = (x :: ids) ++ [r] := by simp
      rw [this]; exact List.perm_append_comm
    exact this.nodup_iff.mpr hnd
  · have : x :: (ids ++ [r]) ++ [x] = (x :: ids) ++ [r] ++ x :: [] := by simp
    rw [this, fwd_append]
    exact ⟨by simpa using f1.2.2, f1.2.1, List.IsChain.singleton x⟩
  · have : x :: (ids ++ [r]) ++ [x] = (x :: ids) ++ [r] ++ x :: [] := by simp
    rw [this, bwd_append]
    exact ⟨by simpa using b1.2.2, b1.2.1, List.IsChain.singleton x⟩

omit [DecidableEq K] in
theorem Ring.congr {h h' : Heap K V} {r : Nat} {ids : List Nat} (hr : Ring h r ids)
    (hn : ∀ i ∈ r :: ids, nxt h' i = nxt h i) (hv : ∀ i ∈ r :: ids, prv h' i = prv h i) : Ring h' r ids := by
  refine ⟨hr.nodup, fwd_congr ?_ hr.fwd, bwd_congr ?_ hr.bwd⟩
  · intro a ha
    have : (r :: ids ++ [r]).dropLast = r :: ids := by rw [List.dropLast_append_cons]; simp
    rw [this] at ha
    exact (hn a ha).symm
  · intro a ha
    simp at ha
    exact (hv a (by simp; tauto)).symm

omit [DecidableEq K] in
/-- All links of the ring are alive. -/
theorem Ring.alive {h : Heap K V} {r : Nat} {ids : List Nat} (hr : Ring h r ids) {i : Nat} (hi : i ∈ r :: ids) :
    (nxt h i).isSome := by
  have h1 := hr.fwd
  obtain ⟨A, B, hAB⟩ := List.append_of_mem hi
  rw [hAB] at h1
  obtain ⟨q, B', hB⟩ : ∃ q B', B ++ [r] = q :: B' := by cases B <;> simp
  have : A ++ i :: B ++ [r] = A ++ [i] ++ q :: B' := by rw [← hB]; simp
  rw [this, fwd_append] at h1
  rw [h1.2.1]; rfl

end Verif.Lru
