import Verif.OptRead.Model
/-
C139: all given options are read.
-/
namespace Verif.OptRead
open Verif Verif.Py

variable {V : Type}

/-- The operation asks for the key: by name, or by an iteration which goes so far. -/
def Asks (c : Dict String V) (k : String) : Op V → Prop
  | .item k' => k' = k
  | .get k' _ => k' = k
  | .iter n => ∃ i, i < n ∧ (c.map Prod.fst)[i]? = some k

theorem get?_mem (c : Dict String V) (k : String) : (∃ v, Dict.get? c k = some v) ↔ k ∈ c.map Prod.fst := by
  have := Dict.get?_isSome c k
  rw [Option.isSome_iff_exists] at this
  simpa [Dict.keys] using this

theorem getItem_coll (o : Opts V) (k : String) : (getItem o k).2.collection = o.collection ∧ (getItem o k).2.truth = o.truth := by
  unfold getItem; split <;> simp

theorem getItem_got (o : Opts V) (k x : String) (hx : x ∈ o.collection.map Prod.fst) : x ∈ (getItem o k).2.got ↔ x ∈ o.got ∨ k = x := by
  obtain ⟨v, hv⟩ := (get?_mem o.collection x).2 hx
  unfold getItem
  split
  · rename_i hn
    constructor
    · exact Or.inl
    · rintro (h | rfl)
      · exact h
      · rw [hv] at hn; cases hn
  · simp only [List.mem_cons]
    constructor
    · rintro (h | h)
      · exact Or.inr h.symm
      · exact Or.inl h
    · rintro (h | h)
      · exact Or.inr h
      · exact Or.inl h.symm

theorem get_snd (o : Opts V) (k : String) (d : V) : (get o k d).2 = (getItem o k).2 := by
  unfold get; split <;> rfl

theorem iterKeys_spec (ks : List String) (o : Opts V) (hks : ∀ k ∈ ks, k ∈ o.collection.map Prod.fst) :
    (iterKeys o ks).2.collection = o.collection ∧ (iterKeys o ks).2.truth = o.truth ∧
    ((iterKeys o ks).1.map some = ks.map fun k => Dict.get? o.collection k) ∧
    ∀ x, x ∈ o.collection.map Prod.fst → (x ∈ (iterKeys o ks).2.got ↔ x ∈ o.got ∨ x ∈ ks) := by
  induction ks generalizing o with
  | nil => simp [iterKeys]
  | cons k ks ih =>
    obtain ⟨v, hv⟩ := (get?_mem o.collection k).2 (hks k (by simp))
    have h1 : (getItem o k).1 = .ok v := by simp [getItem, hv]
    obtain ⟨hc, ht⟩ := getItem_coll o k
    obtain ⟨i1, i2, i3, i4⟩ := ih (getItem o k).2 (fun x hx => by rw [hc]; exact hks x (by simp [hx]))
    simp only [iterKeys, h1]
    refine ⟨i1.trans hc, i2.trans ht, ?_, ?_⟩
    · rw [List.map_cons, List.map_cons, i3, hc, hv]
    · intro x hx
      rw [i4 x (by rw [hc]; exact hx), getItem_got o k x hx, List.mem_cons]
      constructor
      · rintro ((h | h) | h)
        · exact Or.inl h
        · exact Or.inr (Or.inl h.symm)
        · exact Or.inr (Or.inr h)
      · rintro (h | h | h)
        · exact Or.inl (Or.inl h)
        · exact Or.inl (Or.inr h.symm)
        · exact Or.inr h

theorem mem_take_iff (l : List String) (n : Nat) (x : String) : x ∈ l.take n ↔ ∃ i, i < n ∧ l[i]? = some x := by
  rw [List.mem_iff_getElem?]
  constructor
  · rintro ⟨i, h⟩
    rw [List.getElem?_take] at h
    split at h
    · exact ⟨i, by assumption, h⟩
    · cases h
  · rintro ⟨i, hi, h⟩
    exact ⟨i, by rw [List.getElem?_take, if_pos hi]; exact h⟩

theorem step_spec (o : Opts V) (op : Op V) :
    (step o op).collection = o.collection ∧ (step o op).truth = o.truth ∧
    ∀ x, x ∈ o.collection.map Prod.fst → (x ∈ (step o op).got ↔ x ∈ o.got ∨ Asks o.collection x op) := by
  cases op with
  | item k => exact ⟨(getItem_coll o k).1, (getItem_coll o k).2, fun x hx => getItem_got o k x hx⟩
  | get k d =>
    simp only [step, get_snd]
    exact ⟨(getItem_coll o k).1, (getItem_coll o k).2, fun x hx => getItem_got o k x hx⟩
  | iter n =>
    obtain ⟨h1, h2, _, h4⟩ := iterKeys_spec ((o.collection.map Prod.fst).take n) o (fun k hk => List.mem_of_mem_take hk)
    refine ⟨h1, h2, ?_⟩
    intro x hx
    have hm := mem_take_iff (o.collection.map Prod.fst) n x
    show x ∈ (iter o n).2.got ↔ x ∈ o.got ∨ ∃ i, i < n ∧ (o.collection.map Prod.fst)[i]? = some x
    rw [← hm]
    exact h4 x hx

theorem steps_spec (ops : List (Op V)) (o : Opts V) :
    (steps o ops).collection = o.collection ∧ (steps o ops).truth = o.truth ∧
    ∀ x, x ∈ o.collection.map Prod.fst → (x ∈ (steps o ops).got ↔ x ∈ o.got ∨ ∃ op ∈ ops, Asks o.collection x op) := by
  induction ops generalizing o with
  | nil => simp [steps]
  | cons op ops ih =>
    obtain ⟨a1, a2, a3⟩ := step_spec o op
    obtain ⟨b1, b2, b3⟩ := ih (step o op)
    refine ⟨b1.trans a1, b2.trans a2, ?_⟩
    intro x hx
    have := b3 x (by rw [a1]; exact hx)
    rw [a1, a3 x hx] at this
    simp only [steps, List.foldl_cons] at this ⊢
    rw [this]
    simp only [List.mem_cons, exists_eq_or_imp, or_assoc]

theorem remaining_nil (o : Opts V) : (remaining o).isEmpty = true ↔ ∀ x ∈ o.collection.map Prod.fst, x ∈ o.got := by
  rw [List.isEmpty_iff, remaining, List.filter_eq_nil_iff]
  constructor
  · intro h x hx
    have := h x hx
    simpa using this
  · intro h x hx
    have := h x hx
    simpa using this

/-- After any reads, the check passes exactly if every given option was asked for, by name or by iteration; else it is an assertion. Reads of options which are not
given neither help nor hurt. -/
theorem all_read_iff (c : Dict String V) (truth : Option Bool) (ops : List (Op V)) :
    (assertAllRead (steps (init c truth) ops) = .ok () ↔ ∀ k ∈ c.map Prod.fst, ∃ op ∈ ops, Asks c k op) ∧
    (assertAllRead (steps (init c truth) ops) = .error .assertion ↔ ∃ k ∈ c.map Prod.fst, ∀ op ∈ ops, ¬ Asks c k op) := by
  obtain ⟨h1, _, h3⟩ := steps_spec ops (init c truth)
  have hkey : (remaining (steps (init c truth) ops)).isEmpty = true ↔ ∀ k ∈ c.map Prod.fst, ∃ op ∈ ops, Asks c k op := by
    rw [remaining_nil, h1]
    constructor
    · intro h k hk
      rcases (h3 k hk).1 (h k hk) with h' | h'
      · cases h'
      · exact h'
    · intro h k hk
      exact (h3 k hk).2 (Or.inr (h k hk))
  constructor
  · rw [← hkey]
    unfold assertAllRead
    split
    · rename_i h; exact ⟨fun _ => h, fun _ => rfl⟩
    · rename_i h; exact ⟨fun e => (by cases e), fun e => absurd e h⟩
  · have hneg : (∃ k ∈ c.map Prod.fst, ∀ op ∈ ops, ¬ Asks c k op) ↔ ¬ (remaining (steps (init c truth) ops)).isEmpty = true := by
      rw [hkey]
      constructor
      · rintro ⟨k, hk, h⟩ hall
        obtain ⟨op, ho, ha⟩ := hall k hk
        exact h op ho ha
      · intro h
        apply Classical.byContradiction
        intro hn
        apply h
        intro k hk
        apply Classical.byContradiction
        intro hno
        exact hn ⟨k, hk, fun op ho ha => hno ⟨op, ho, ha⟩⟩
    rw [hneg]
    unfold assertAllRead
    split
    · rename_i h; exact ⟨fun e => (by cases e), fun e => absurd h e⟩
    · rename_i h; exact ⟨fun _ => h, fun _ => rfl⟩

/-- Reading never changes an option: after any reads, an option has its given value, `get` gives the default exactly for options which are not given, `[]` is then a
KeyError, and iterating gives the *values* (not the keys, as for a dict). -/
theorem reads (c : Dict String V) (truth : Option Bool) (ops : List (Op V)) (k : String) (d : V) :
    (∀ v, Dict.get? c k = some v → (getItem (steps (init c truth) ops) k).1 = .ok v ∧ (get (steps (init c truth) ops) k d).1 = v) ∧
    (Dict.get? c k = none → (getItem (steps (init c truth) ops) k).1 = .error .keyError ∧ (get (steps (init c truth) ops) k d).1 = d) ∧
    (∀ n, (iter (steps (init c truth) ops) n).1.map some = ((c.map Prod.fst).take n).map fun k => Dict.get? c k) := by
  obtain ⟨h1, _, _⟩ := steps_spec ops (init c truth)
  have h1 : (steps (init c truth) ops).collection = c := h1
  refine ⟨?_, ?_, ?_⟩
  · intro v hv; simp [get, getItem, h1, hv]
  · intro hv; simp [get, getItem, h1, hv]
  · intro n
    have := (iterKeys_spec (((steps (init c truth) ops).collection.map Prod.fst).take n) (steps (init c truth) ops) (fun k hk => List.mem_of_mem_take hk)).2.2.1
    rw [iter, this, h1]

/-- The truth value is what was given, else whether there are options, and reads do not change it. In particular options given as `True` are true although there
are none. -/
theorem truth_value (c : Dict String V) (ops : List (Op V)) (b : Bool) :
    toBool (steps (init c (some b)) ops) = b ∧ (toBool (steps (init c none) ops) = true ↔ c ≠ []) ∧ len (steps (init c none) ops) = c.length ∧
    (∃ o, fromBoolOrDict (.bool b : Arg V) = .ok o ∧ toBool o = b ∧ len o = 0 ∧ assertAllRead o = .ok ()) ∧
    (∃ o, fromBoolOrDict (.dict c) = .ok o ∧ (toBool o = true ↔ len o ≠ 0)) ∧ fromBoolOrDict (.other : Arg V) = (.error .typeError : Res (Opts V)) := by
  refine ⟨(steps_spec ops (init c (some b))).2.1, ?_, ?_, ⟨_, rfl, rfl, rfl, rfl⟩, ⟨_, rfl, ?_⟩, rfl⟩
  · rw [toBool, (steps_spec ops (init c none)).2.1]; cases c <;> simp [init]
  · rw [len, (steps_spec ops (init c none)).1]; rfl
  · cases c <;> simp [init, toBool, len]

def exD : Dict String Nat := [("keep_last_n", 5), ("kep_best_n", 3)]
-- a typo is found
example : assertAllRead (steps (init exD none) [.get "keep_last_n" 2, .get "keep_best_n" 4]) = .error .assertion := by decide +kernel
example : assertAllRead (steps (init exD none) [.get "keep_last_n" 2, .item "kep_best_n"]) = .ok () := by decide +kernel
example : assertAllRead (steps (init exD none) [.iter 1]) = .error .assertion ∧ assertAllRead (steps (init exD none) [.iter 2]) = .ok () := by decide +kernel

end Verif.OptRead
