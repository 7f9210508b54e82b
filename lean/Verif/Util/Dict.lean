import Verif.Util.Py
/-
Python `dict` with insertion order, as a list of `(key, value)` pairs. No RETURNN code is modelled here.
-/
namespace Verif.Py

/-- A Python dict: items in insertion order. -/
abbrev Dict (K V : Type _) := List (K × V)

namespace Dict
variable {K V W : Type _} [DecidableEq K]

/-- `d.get(k)` (`none` if missing). -/
def get? : Dict K V → K → Option V
  | [], _ => none
  | (k', v) :: d, k => if k' = k then some v else get? d k

/-- `d.keys()`, in insertion order. -/
def keys (d : Dict K V) : List K := d.map Prod.fst

/-- `d.values()`, in insertion order. -/
def values (d : Dict K V) : List V := d.map Prod.snd

/-- `k in d`. -/
def contains (d : Dict K V) (k : K) : Bool := (d.get? k).isSome

/-- `d[k] = v`: replaces in place, or appends. -/
def set : Dict K V → K → V → Dict K V
  | [], k, v => [(k, v)]
  | (k', v') :: d, k, v => if k' = k then (k', v) :: d else (k', v') :: set d k v

/-- `d.pop(k, None)`: the dict without the key. -/
def erase : Dict K V → K → Dict K V
  | [], _ => []
  | (k', v') :: d, k => if k' = k then d else (k', v') :: erase d k

/-- `d[k]`. -/
def getItem (d : Dict K V) (k : K) : Res V :=
  match d.get? k with
  | some v => .ok v
  | none => .error .keyError

/-- Every real dict has distinct keys. -/
def Wf (d : Dict K V) : Prop := d.keys.Nodup

theorem get?_set (d : Dict K V) (k k' : K) (v : V) : (d.set k v).get? k' = if k = k' then some v else d.get? k' := by
  induction d with
  | nil => simp [set, get?]
  | cons e d ih =>
    obtain ⟨k0, v0⟩ := e
    unfold set
    split
    · rename_i h; subst h
      simp only [get?]; split <;> rfl
    · rename_i h
      simp only [get?, ih]
      split
      · rename_i h2; subst h2
        have : ¬ (k = k0) := fun e => h e.symm
        simp [this]
      · rfl

theorem keys_set (d : Dict K V) (k : K) (v : V) : (d.set k v).keys = if k ∈ d.keys then d.keys else d.keys ++ [k] := by
  induction d with
  | nil => simp [set, keys]
  | cons e d ih =>
    obtain ⟨k0, v0⟩ := e
    unfold set
    split
    · rename_i h; subst h; simp [keys]
    · rename_i h
      have h' : ¬ (k = k0) := fun e => h e.symm
      simp only [keys, List.map_cons, List.mem_cons, h', false_or] at ih ⊢
      rw [ih]
      by_cases hk : k ∈ List.map Prod.fst d <;> simp [hk]

theorem wf_set {d : Dict K V} (h : d.Wf) (k : K) (v : V) : (d.set k v).Wf := by
  unfold Wf
  rw [keys_set]
  split
  · exact h
  · rename_i hk
    rw [List.nodup_append]
    refine ⟨h, by simp, ?_⟩
    intro a ha b hb
    simp at hb; subst hb
    intro e; subst e; exact hk ha

theorem get?_isSome (d : Dict K V) (k : K) : (d.get? k).isSome ↔ k ∈ d.keys := by
  induction d with
  | nil => simp [get?, keys]
  | cons e d ih =>
    obtain ⟨k0, v0⟩ := e
    simp only [get?, keys, List.map_cons, List.mem_cons]
    split
    · rename_i h; simp [h]
    · rename_i h
      rw [ih]
      have h' : ¬ (k = k0) := fun e => h e.symm
      simp [h', keys]

theorem get?_eq_none (d : Dict K V) (k : K) : d.get? k = none ↔ k ∉ d.keys := by
  rw [← get?_isSome]; cases d.get? k <;> simp

theorem mem_of_get? {d : Dict K V} {k : K} {v : V} (h : d.get? k = some v) : (k, v) ∈ d := by
  induction d with
  | nil => simp [get?] at h
  | cons e d ih =>
    obtain ⟨k0, v0⟩ := e
    simp only [get?] at h
    split at h
    · rename_i hk; subst hk; injection h with h; subst h; simp
    · exact List.mem_cons_of_mem _ (ih h)

theorem get?_of_mem {d : Dict K V} (hw : d.Wf) {k : K} {v : V} (h : (k, v) ∈ d) : d.get? k = some v := by
  induction d with
  | nil => cases h
  | cons e d ih =>
    obtain ⟨k0, v0⟩ := e
    simp only [Wf, keys, List.map_cons, List.nodup_cons] at hw
    simp only [get?]
    rcases List.mem_cons.mp h with h | h
    · injection h with h1 h2; subst h1; subst h2; simp
    · have : k0 ≠ k := by
        intro e; subst e
        exact hw.1 (List.mem_map.mpr ⟨_, h, rfl⟩)
      simp only [this, if_false]
      exact ih hw.2 h

theorem wf_erase {d : Dict K V} (h : d.Wf) (k : K) : (d.erase k).Wf := by
  have hs : ∀ d : Dict K V, (d.erase k).Sublist d := by
    intro d
    induction d with
    | nil => exact List.Sublist.refl _
    | cons e d ih =>
      obtain ⟨k0, v0⟩ := e
      unfold erase
      split
      · exact List.sublist_cons_self _ _
      · exact ih.cons_cons _
  exact List.Sublist.nodup ((hs d).map _) h

theorem get?_erase {d : Dict K V} (hw : d.Wf) (k k' : K) : (d.erase k).get? k' = if k = k' then none else d.get? k' := by
  induction d with
  | nil => simp [erase, get?]
  | cons e d ih =>
    obtain ⟨k0, v0⟩ := e
    simp only [Wf, keys, List.map_cons, List.nodup_cons] at hw
    unfold erase
    split
    · rename_i h; subst h
      simp only [get?]
      split
      · rename_i h2; subst h2
        rw [get?_eq_none]; exact hw.1
      · rfl
    · rename_i h
      simp only [get?]
      rw [ih hw.2]
      split
      · rename_i h2; subst h2
        have : ¬ (k = k0) := fun e => h e.symm
        simp [this]
      · rfl

end Dict
end Verif.Py
