import Verif.ModTree.Spec
import Mathlib.Tactic.Common
import Mathlib.Data.List.Nodup
import Mathlib.Data.List.Range
import Mathlib.Data.List.Perm.Subperm
/-
Lemmas on the traversals.
-/
namespace Verif.ModTree

open Verif.Py

theorem getattr_iff {g : Graph} (hw : g.Wf) {m : Nat} {a : String} {v : Val} : getattr g m a = .ok v ↔ (a, v) ∈ g.vars m := by
  unfold getattr
  constructor
  · intro h
    cases hf : (g.vars m).find? (fun e => e.1 == a) with
    | none => rw [hf] at h; cases h
    | some e =>
      rw [hf] at h
      cases h
      have h1 := List.mem_of_find?_eq_some hf
      have h2 : e.1 = a := by simpa using List.find?_some hf
      rw [← h2]
      exact h1
  · intro h
    cases hf : (g.vars m).find? (fun e => e.1 == a) with
    | none =>
      have := List.find?_eq_none.mp hf _ h
      simp at this
    | some e =>
      have h1 := List.mem_of_find?_eq_some hf
      have h2 : e.1 = a := by simpa using List.find?_some hf
      have h3 : e = (a, v) := List.inj_on_of_nodup_map (hw.names m) h1 h (by rw [h2])
      rw [h3]

theorem getDeep_iff {g : Graph} (hw : g.Wf) (q : Name) : ∀ (m : Nat) (v : Val), getDeep g m q = .ok v ↔ Path g m q v := by
  induction q with
  | nil =>
    intro m v
    constructor
    · intro h
      cases h
      exact .nil m
    · intro h
      cases h
      rfl
  | cons a q ih =>
    intro m v
    cases q with
    | nil =>
      constructor
      · intro h
        exact .leaf ((getattr_iff hw).mp h)
      · intro h
        cases h with
        | leaf hm => exact (getattr_iff hw).mpr hm
        | cons _ hq _ => exact absurd rfl hq
    | cons b rest =>
      constructor
      · intro h
        unfold getDeep at h
        cases ha : getattr g m a with
        | error e => rw [ha] at h; cases h
        | ok w =>
          rw [ha] at h
          cases w with
          | param p => cases h
          | other => cases h
          | mod m' => exact .cons ((getattr_iff hw).mp ha) (by simp) ((ih m' v).mp h)
      · intro h
        cases h with
        | cons hm _ hp =>
          unfold getDeep
          rw [(getattr_iff hw).mpr hm]
          exact (ih _ v).mpr hp

theorem Path.snoc {g : Graph} {m m' : Nat} {q : Name} {a : String} {v w : Val} (hp : Path g m q w) (hw : w = .mod m')
    (ha : (a, v) ∈ g.vars m') : Path g m (q ++ [a]) v := by
  induction hp with
  | nil m => cases hw; exact .leaf ha
  | leaf hm =>
    subst hw
    exact .cons hm (by simp) (.leaf ha)
  | cons hm hq _ ih => exact .cons hm (by simp) (ih hw)

/-- Paths lead to one value. -/
theorem Path.unique {g : Graph} (hw : g.Wf) {m : Nat} {q : Name} {v v' : Val} (h1 : Path g m q v) (h2 : Path g m q v') : v = v' := by
  have := (getDeep_iff hw q m v).mpr h1
  rw [(getDeep_iff hw q m v').mpr h2] at this
  cases this
  rfl

theorem visit_spec (pre : Name) (attrs : List (String × Val)) : ∀ memo : List Nat,
    (visit pre attrs memo).2 = memo ++ (visit pre attrs memo).1.map Prod.snd
    ∧ (memo.Nodup → (visit pre attrs memo).2.Nodup)
    ∧ (∀ e ∈ (visit pre attrs memo).1, ∃ a, e.1 = pre ++ [a] ∧ (a, Val.mod e.2) ∈ attrs)
    ∧ (∀ a m, (a, Val.mod m) ∈ attrs → m ∈ (visit pre attrs memo).2) := by
  induction attrs with
  | nil => exact fun memo => ⟨by simp [visit], fun h => h, fun e he => absurd he (by simp [visit]), fun a m hm => absurd hm (by simp)⟩
  | cons x attrs ih =>
    intro memo
    obtain ⟨a, v⟩ := x
    have skip : v ≠ .mod 0 ∨ True := .inr trivial
    cases v with
    | mod m =>
      by_cases hm : m ∈ memo
      · obtain ⟨i1, i2, i3, i4⟩ := ih memo
        simp only [visit, if_pos hm]
        refine ⟨i1, i2, fun e he => ?_, fun a' m' h => ?_⟩
        · obtain ⟨b, hb1, hb2⟩ := i3 e he
          exact ⟨b, hb1, List.mem_cons_of_mem _ hb2⟩
        · rcases List.mem_cons.mp h with h | h
          · cases h
            rw [i1]
            exact List.mem_append_left _ hm
          · exact i4 a' m' h
      · obtain ⟨i1, i2, i3, i4⟩ := ih (memo ++ [m])
        simp only [visit, if_neg hm]
        refine ⟨?_, fun hn => ?_, fun e he => ?_, fun a' m' h => ?_⟩
        · rw [i1]
          simp
        · exact i2 (List.nodup_append.mpr ⟨hn, by simp, fun x hx y hy => by
            rw [List.mem_singleton] at hy
            subst hy
            exact fun hxy => hm (hxy ▸ hx)⟩)
        · rcases List.mem_cons.mp he with rfl | he
          · exact ⟨a, rfl, by simp⟩
          · obtain ⟨b, hb1, hb2⟩ := i3 e he
            exact ⟨b, hb1, List.mem_cons_of_mem _ hb2⟩
        · rcases List.mem_cons.mp h with h | h
          · cases h
            rw [i1]
            simp
          · exact i4 a' m' h
    | param p =>
      obtain ⟨i1, i2, i3, i4⟩ := ih memo
      simp only [visit]
      refine ⟨i1, i2, fun e he => ?_, fun a' m' h => ?_⟩
      · obtain ⟨b, hb1, hb2⟩ := i3 e he
        exact ⟨b, hb1, List.mem_cons_of_mem _ hb2⟩
      · rcases List.mem_cons.mp h with h | h
        · cases h
        · exact i4 a' m' h
    | other =>
      obtain ⟨i1, i2, i3, i4⟩ := ih memo
      simp only [visit]
      refine ⟨i1, i2, fun e he => ?_, fun a' m' h => ?_⟩
      · obtain ⟨b, hb1, hb2⟩ := i3 e he
        exact ⟨b, hb1, List.mem_cons_of_mem _ hb2⟩
      · rcases List.mem_cons.mp h with h | h
        · cases h
        · exact i4 a' m' h

/-- What the loop yields has names which lead there. -/
theorem bfs_sound {g : Graph} {root : Nat} {recurse : Bool} : ∀ (f : Nat) (queue : List (Name × Nat)) (memo : List Nat),
    (∀ e ∈ queue, Path g root e.1 (.mod e.2)) → ∀ e ∈ bfs g recurse f queue memo, Path g root e.1 (.mod e.2) := by
  intro f
  induction f with
  | zero => exact fun _ _ _ e he => absurd he (by simp [bfs])
  | succ f ih =>
    intro queue memo hq e he
    cases queue with
    | nil => exact absurd he (by simp [bfs])
    | cons x queue =>
      obtain ⟨pre, m⟩ := x
      have hv : ∀ e ∈ (visit pre (g.vars m) memo).1, Path g root e.1 (.mod e.2) := by
        intro e he
        obtain ⟨a, h1, h2⟩ := (visit_spec pre (g.vars m) memo).2.2.1 e he
        rw [h1]
        exact (hq (pre, m) (by simp)).snoc rfl h2
      unfold bfs at he
      rcases List.mem_append.mp he with he | he
      · exact hv e he
      · refine ih _ _ (fun e' he' => ?_) e he
        cases recurse with
        | true =>
          simp only [if_true] at he'
          rcases List.mem_append.mp he' with h | h
          · exact hq e' (List.mem_cons_of_mem _ h)
          · exact hv e' h
        | false =>
          simp only [Bool.false_eq_true, if_false] at he'
          exact hq e' (List.mem_cons_of_mem _ he')

theorem bfs_nodup {g : Graph} {recurse : Bool} : ∀ (f : Nat) (queue : List (Name × Nat)) (memo : List Nat),
    memo.Nodup → (memo ++ (bfs g recurse f queue memo).map Prod.snd).Nodup := by
  intro f
  induction f with
  | zero => intro queue memo h; simpa [bfs] using h
  | succ f ih =>
    intro queue memo h
    cases queue with
    | nil => simpa [bfs] using h
    | cons x queue =>
      obtain ⟨pre, m⟩ := x
      obtain ⟨v1, v2, -, -⟩ := visit_spec pre (g.vars m) memo
      have := ih (if recurse then queue ++ (visit pre (g.vars m) memo).1 else queue) _ (v2 h)
      unfold bfs
      rw [List.map_append, ← List.append_assoc, ← v1]
      exact this

/-- At the end, the children of everything which was found are found. -/
theorem bfs_closed {g : Graph} (hw : g.Wf) : ∀ (f : Nat) (queue : List (Name × Nat)) (memo : List Nat),
    memo.Nodup → (∀ m ∈ memo, m < g.mods.length) →
    (∀ m ∈ memo, m ∈ queue.map Prod.snd ∨ ∀ a c, (a, Val.mod c) ∈ g.vars m → c ∈ memo) →
    g.mods.length + queue.length ≤ f + memo.length →
    ∀ m ∈ memo ++ (bfs g true f queue memo).map Prod.snd, ∀ a c, (a, Val.mod c) ∈ g.vars m →
      c ∈ memo ++ (bfs g true f queue memo).map Prod.snd := by
  intro f
  induction f with
  | zero =>
    intro queue memo hn hb hc hl m hm a c hac
    have hle : memo.length ≤ g.mods.length := by
      have := List.subperm_of_subset hn (l₂ := List.range g.mods.length) (fun m hm => by simpa using hb m hm)
      simpa using this.length_le
    have hq : queue = [] := List.length_eq_zero_iff.mp (by omega)
    subst hq
    simp only [bfs, List.map_nil, List.append_nil] at hm ⊢
    rcases hc m hm with h | h
    · simp at h
    · exact h a c hac
  | succ f ih =>
    intro queue memo hn hb hc hl m hm a c hac
    cases queue with
    | nil =>
      simp only [bfs, List.map_nil, List.append_nil] at hm ⊢
      rcases hc m hm with h | h
      · simp at h
      · exact h a c hac
    | cons x queue =>
      obtain ⟨pre, m0⟩ := x
      obtain ⟨v1, v2, v3, v4⟩ := visit_spec pre (g.vars m0) memo
      have hb' : ∀ m ∈ (visit pre (g.vars m0) memo).2, m < g.mods.length := by
        intro m hm
        rw [v1] at hm
        rcases List.mem_append.mp hm with h | h
        · exact hb m h
        · obtain ⟨e, he, rfl⟩ := List.mem_map.mp h
          obtain ⟨a, -, ha⟩ := v3 e he
          exact hw.closed m0 a e.2 ha
      have hlen : (visit pre (g.vars m0) memo).2.length = memo.length + (visit pre (g.vars m0) memo).1.length := by
        rw [v1]
        simp
      have key := ih (queue ++ (visit pre (g.vars m0) memo).1) _ (v2 hn) hb' (fun m hm => ?_) (by
        rw [hlen, List.length_append]
        simp only [List.length_cons] at hl
        omega)
      · unfold bfs at hm ⊢
        simp only [if_true] at hm ⊢
        rw [List.map_append, ← List.append_assoc, ← v1] at hm ⊢
        exact key m hm a c hac
      · rw [v1] at hm
        rcases List.mem_append.mp hm with h | h
        · rcases hc m h with h' | h'
          · simp only [List.map_cons, List.mem_cons] at h'
            rcases h' with rfl | h'
            · exact .inr v4
            · exact .inl (by rw [List.map_append]; exact List.mem_append_left _ h')
          · exact .inr (fun a c hac => by rw [v1]; exact List.mem_append_left _ (h' a c hac))
        · exact .inl (by rw [List.map_append]; exact List.mem_append_right _ h)

theorem reach_closed {g : Graph} {L : List Nat} (hc : ∀ m ∈ L, ∀ a c, (a, Val.mod c) ∈ g.vars m → c ∈ L) {m : Nat} {q : Name} {v : Val}
    (hp : Path g m q v) (hm : m ∈ L) : ∀ m', v = .mod m' → m' ∈ L := by
  induction hp with
  | nil m => intro m' h; cases h; exact hm
  | leaf ha => intro m' h; subst h; exact hc _ hm _ _ ha
  | cons ha _ _ ih => exact ih (hc _ hm _ _ ha)

/-- The modules which own something reachable. -/
theorem path_param {g : Graph} {m : Nat} {q : Name} {v : Val} (hp : Path g m q v) {p : Nat} (hv : v = .param p) :
    ∃ m' a, Reach g m m' ∧ (a, Val.param p) ∈ g.vars m' := by
  induction hp with
  | nil m => cases hv
  | leaf ha => subst hv; exact ⟨_, _, ⟨[], .nil _⟩, ha⟩
  | cons ha hq hp ih =>
    obtain ⟨m', a', ⟨q', hq'⟩, h2⟩ := ih hv
    refine ⟨m', a', ?_, h2⟩
    by_cases hq0 : q' = []
    · subst hq0
      cases hq'
      exact ⟨_, .leaf ha⟩
    · exact ⟨_, .cons ha hq0 hq'⟩

theorem visitParams_spec (pre : Name) (attrs : List (String × Val)) : ∀ memo : List Nat,
    (visitParams pre attrs memo).2 = memo ++ (visitParams pre attrs memo).1.map Prod.snd
    ∧ (memo.Nodup → (visitParams pre attrs memo).2.Nodup)
    ∧ (∀ e ∈ (visitParams pre attrs memo).1, ∃ a, e.1 = pre ++ [a] ∧ (a, Val.param e.2) ∈ attrs)
    ∧ (∀ a m, (a, Val.param m) ∈ attrs → m ∈ (visitParams pre attrs memo).2) := by
  induction attrs with
  | nil => exact fun memo => ⟨by simp [visitParams], fun h => h, fun e he => absurd he (by simp [visitParams]), fun a m hm => absurd hm (by simp)⟩
  | cons x attrs ih =>
    intro memo
    obtain ⟨a, v⟩ := x
    cases v with
    | param m =>
      by_cases hm : m ∈ memo
      · obtain ⟨i1, i2, i3, i4⟩ := ih memo
        simp only [visitParams, if_pos hm]
        refine ⟨i1, i2, fun e he => ?_, fun a' m' h => ?_⟩
        · obtain ⟨b, hb1, hb2⟩ := i3 e he
          exact ⟨b, hb1, List.mem_cons_of_mem _ hb2⟩
        · rcases List.mem_cons.mp h with h | h
          · cases h
            rw [i1]
            exact List.mem_append_left _ hm
          · exact i4 a' m' h
      · obtain ⟨i1, i2, i3, i4⟩ := ih (memo ++ [m])
        simp only [visitParams, if_neg hm]
        refine ⟨?_, fun hn => ?_, fun e he => ?_, fun a' m' h => ?_⟩
        · rw [i1]
          simp
        · exact i2 (List.nodup_append.mpr ⟨hn, by simp, fun x hx y hy => by
            rw [List.mem_singleton] at hy
            subst hy
            exact fun hxy => hm (hxy ▸ hx)⟩)
        · rcases List.mem_cons.mp he with rfl | he
          · exact ⟨a, rfl, by simp⟩
          · obtain ⟨b, hb1, hb2⟩ := i3 e he
            exact ⟨b, hb1, List.mem_cons_of_mem _ hb2⟩
        · rcases List.mem_cons.mp h with h | h
          · cases h
            rw [i1]
            simp
          · exact i4 a' m' h
    | mod p =>
      obtain ⟨i1, i2, i3, i4⟩ := ih memo
      simp only [visitParams]
      refine ⟨i1, i2, fun e he => ?_, fun a' m' h => ?_⟩
      · obtain ⟨b, hb1, hb2⟩ := i3 e he
        exact ⟨b, hb1, List.mem_cons_of_mem _ hb2⟩
      · rcases List.mem_cons.mp h with h | h
        · cases h
        · exact i4 a' m' h
    | other =>
      obtain ⟨i1, i2, i3, i4⟩ := ih memo
      simp only [visitParams]
      refine ⟨i1, i2, fun e he => ?_, fun a' m' h => ?_⟩
      · obtain ⟨b, hb1, hb2⟩ := i3 e he
        exact ⟨b, hb1, List.mem_cons_of_mem _ hb2⟩
      · rcases List.mem_cons.mp h with h | h
        · cases h
        · exact i4 a' m' h

theorem collect_spec (g : Graph) (L : List (Name × Nat)) : ∀ memo : List Nat,
    (memo.Nodup → (memo ++ (collect g L memo).map Prod.snd).Nodup)
    ∧ (∀ e ∈ collect g L memo, ∃ x ∈ L, ∃ a, e.1 = x.1 ++ [a] ∧ (a, Val.param e.2) ∈ g.vars x.2)
    ∧ (∀ x ∈ L, ∀ a p, (a, Val.param p) ∈ g.vars x.2 → p ∈ memo ++ (collect g L memo).map Prod.snd) := by
  induction L with
  | nil => exact fun memo => ⟨fun h => by simpa [collect] using h, fun e he => absurd he (by simp [collect]), fun x hx => absurd hx (by simp)⟩
  | cons x L ih =>
    intro memo
    obtain ⟨pre, m⟩ := x
    obtain ⟨v1, v2, v3, v4⟩ := visitParams_spec pre (g.vars m) memo
    obtain ⟨i1, i2, i3⟩ := ih (visitParams pre (g.vars m) memo).2
    have heq : memo ++ (collect g ((pre, m) :: L) memo).map Prod.snd
        = (visitParams pre (g.vars m) memo).2 ++ (collect g L (visitParams pre (g.vars m) memo).2).map Prod.snd := by
      rw [collect, List.map_append, ← List.append_assoc, ← v1]
    refine ⟨fun hn => by rw [heq]; exact i1 (v2 hn), fun e he => ?_, fun x hx a p hap => ?_⟩
    · rw [collect] at he
      rcases List.mem_append.mp he with he | he
      · obtain ⟨a, h1, h2⟩ := v3 e he
        exact ⟨(pre, m), by simp, a, h1, h2⟩
      · obtain ⟨x, hx, h⟩ := i2 e he
        exact ⟨x, List.mem_cons_of_mem _ hx, h⟩
    · rw [heq]
      rcases List.mem_cons.mp hx with rfl | hx
      · exact List.mem_append_left _ (v4 a p hap)
      · exact i3 x hx a p hap

end Verif.ModTree
