import Verif.Hooks.Spec
import Mathlib.Data.List.Nodup
/-
Helper lemmas for Props.
-/
namespace Verif.Hooks
open Verif Verif.Py

section
variable {K V : Type} [DecidableEq K]

theorem erase_filter {d : Dict K V} (hw : d.Wf) (k : K) : d.erase k = d.filter (fun p => p.1 ≠ k) := by
  induction d with
  | nil => rfl
  | cons e t ih =>
    obtain ⟨k0, v0⟩ := e
    simp only [Dict.Wf, Dict.keys, List.map_cons, List.nodup_cons] at hw
    unfold Dict.erase
    by_cases h : k0 = k
    · subst h
      rw [if_pos rfl, List.filter_cons_of_neg (by simp)]
      symm
      rw [List.filter_eq_self]
      intro p hp
      have : p.1 ≠ k0 := by
        rintro rfl
        exact hw.1 (List.mem_map.2 ⟨p, hp, rfl⟩)
      simp [this]
    · rw [if_neg h, List.filter_cons_of_pos (by simp [h]), ih hw.2]

theorem set_new {d : Dict K V} {k : K} (h : k ∉ d.keys) (v : V) : d.set k v = d ++ [(k, v)] := by
  induction d with
  | nil => rfl
  | cons e t ih =>
    obtain ⟨k0, v0⟩ := e
    simp only [Dict.keys, List.map_cons, List.mem_cons, not_or] at h
    unfold Dict.set
    rw [if_neg (fun e => h.1 e.symm), ih h.2]
    rfl

theorem erase_set_new {d : Dict K V} {k : K} (hw : d.Wf) (h : k ∉ d.keys) (v : V) : (d.set k v).erase k = d := by
  rw [erase_filter (Dict.wf_set hw k v), set_new h, List.filter_append]
  have : d.filter (fun p => p.1 ≠ k) = d := by
    rw [List.filter_eq_self]
    intro p hp
    have : p.1 ≠ k := by
      rintro rfl
      exact h (List.mem_map.2 ⟨p, hp, rfl⟩)
    simp [this]
  rw [this]
  simp

end

variable {A R : Type}

/-- The hooks of a method among the active ones. -/
def ofMeth (l : List (Active A R)) (o : Nat) (a : Attr) : List (Active A R) := l.filter (fun x => x.obj = o ∧ x.attr = a)

def pairs (l : List (Active A R)) : Dict Nat (Hook A R) := l.map (fun x => (x.id, x.hook))

structure Inv (s : St A R) (hds : List Handle) (n : Nat) (l : List (Active A R)) : Prop where
  next : s.nextId = n
  len : hds.length = n
  handle : ∀ (i : Nat) (h : Handle), hds[i]? = some h → h.id = i ∧ ∀ x ∈ l, x.id = i → x.obj = h.obj ∧ x.attr = h.attr
  get : ∀ o a, s.hooks.get? (o, a) = if ofMeth l o a = [] then none else some (pairs (ofMeth l o a))
  wf : s.hooks.Wf
  nd : (l.map Active.id).Nodup
  lt : ∀ x ∈ l, x.id < n
  depth : ∃ L : List Nat, L.Nodup ∧ L.length = s.depth ∧ ∀ o, o ∈ L ↔ ofMeth l o .call ≠ []

theorem pairs_keys (l : List (Active A R)) : (pairs l).keys = l.map Active.id := by
  simp [pairs, Dict.keys, Function.comp_def]

theorem pairs_wf {l : List (Active A R)} (h : (l.map Active.id).Nodup) (o : Nat) (a : Attr) : (pairs (ofMeth l o a)).Wf := by
  rw [Dict.Wf, pairs_keys]
  exact List.Sublist.nodup (List.Sublist.map _ List.filter_sublist) h

theorem inv_init : Inv (St.init : St A R) [] 0 [] :=
  ⟨rfl, rfl, by simp, by intro o a; simp [ofMeth, St.init, Dict.get?], by simp [St.init, Dict.Wf, Dict.keys], by simp, by simp, ⟨[], by simp, rfl, by simp [ofMeth]⟩⟩

theorem ofMeth_add (l : List (Active A R)) (x : Active A R) (o : Nat) (a : Attr) :
    ofMeth (l ++ [x]) o a = ofMeth l o a ++ (if x.obj = o ∧ x.attr = a then [x] else []) ∧
    ofMeth (x :: l) o a = (if x.obj = o ∧ x.attr = a then [x] else []) ++ ofMeth l o a := by
  unfold ofMeth
  constructor
  · rw [List.filter_append]
    by_cases h : x.obj = o ∧ x.attr = a
    · simp [h]
    · simp [h]
  · by_cases h : x.obj = o ∧ x.attr = a
    · simp [h]
    · simp [h]

theorem add_hook {l : List (Active A R)} {n : Nat} (hnd : (l.map Active.id).Nodup) (hlt : ∀ x ∈ l, x.id < n) (o : Nat) (a : Attr) (h : Hook A R) (pre : Bool) :
    addHook (pairs (ofMeth l o a)) n h pre = pairs (ofMeth (if pre then ⟨n, o, a, h⟩ :: l else l ++ [⟨n, o, a, h⟩]) o a) := by
  have hk : n ∉ (pairs (ofMeth l o a)).keys := by
    rw [pairs_keys]
    intro hm
    obtain ⟨x, hx, hxn⟩ := List.mem_map.1 hm
    have := hlt x (List.mem_of_mem_filter hx)
    omega
  unfold addHook
  cases pre
  · simp only [Bool.false_eq_true, if_false]
    rw [set_new hk, (ofMeth_add l ⟨n, o, a, h⟩ o a).1]
    simp [pairs]
  · simp only [if_true]
    rw [erase_set_new (pairs_wf hnd o a) hk, (ofMeth_add l ⟨n, o, a, h⟩ o a).2]
    simp [pairs]

theorem inv_register {s : St A R} {hds : List Handle} {n : Nat} {l : List (Active A R)} (inv : Inv s hds n l) (o : Nat) (a : Attr) (h : Hook A R) (pre : Bool) :
    Inv (register s o a h pre).1 (hds ++ [(register s o a h pre).2]) (n + 1) (if pre then ⟨n, o, a, h⟩ :: l else l ++ [⟨n, o, a, h⟩]) := by
  have hid : (install s o a).nextId = n := by
    unfold install
    split <;> exact inv.next
  have hwfi : (install s o a).hooks.Wf := by
    unfold install
    split
    · exact inv.wf
    · exact Dict.wf_set inv.wf _ _
  have hgi : ∀ o' a', (install s o a).hooks.get? (o', a') = if (o, a) = (o', a') then some (pairs (ofMeth l o a)) else s.hooks.get? (o', a') := by
    intro o' a'
    unfold install
    have hg := inv.get o a
    by_cases he : ofMeth l o a = []
    · rw [if_pos he] at hg
      rw [hg]
      simp only
      rw [Dict.get?_set]
      split
      · rw [he]; rfl
      · rfl
    · rw [if_neg he] at hg
      rw [hg]
      simp only
      split
      · rename_i heq
        rw [← heq, hg]
      · rfl
  have hmem : ∀ x ∈ (if pre then (⟨n, o, a, h⟩ : Active A R) :: l else l ++ [⟨n, o, a, h⟩]), x = ⟨n, o, a, h⟩ ∨ x ∈ l := by
    intro x hx
    cases pre <;> simp at hx <;> tauto
  have hof : ∀ o' a', (o, a) ≠ (o', a') → ofMeth (if pre then (⟨n, o, a, h⟩ : Active A R) :: l else l ++ [⟨n, o, a, h⟩]) o' a' = ofMeth l o' a' := by
    intro o' a' hne
    have : ¬ (o = o' ∧ a = a') := by
      rintro ⟨rfl, rfl⟩
      exact hne rfl
    cases pre
    · simp [(ofMeth_add l ⟨n, o, a, h⟩ o' a').1, this]
    · simp [(ofMeth_add l ⟨n, o, a, h⟩ o' a').2, this]
  have hne : ofMeth (if pre then (⟨n, o, a, h⟩ : Active A R) :: l else l ++ [⟨n, o, a, h⟩]) o a ≠ [] := by
    cases pre
    · simp [(ofMeth_add l ⟨n, o, a, h⟩ o a).1]
    · simp [(ofMeth_add l ⟨n, o, a, h⟩ o a).2]
  refine ⟨?_, ?_, ?_, ?_, ?_, ?_, ?_, ?_⟩
  · show (install s o a).nextId + 1 = n + 1
    rw [hid]
  · simp [inv.len]
  · intro i hd hi
    rw [List.getElem?_append] at hi
    split at hi
    · rename_i hlt
      obtain ⟨e1, e2⟩ := inv.handle i hd hi
      refine ⟨e1, ?_⟩
      intro x hx hxi
      rcases hmem x hx with rfl | hx
      · have := inv.len
        simp only at hxi
        omega
      · exact e2 x hx hxi
    · rename_i hge
      have hlen := inv.len
      have hi0 : i - hds.length = 0 := by
        by_contra hc
        have : i - hds.length = (i - hds.length - 1) + 1 := by omega
        rw [this] at hi
        simp at hi
      rw [hi0] at hi
      simp only [List.getElem?_cons_zero, Option.some.injEq] at hi
      subst hi
      refine ⟨by show (install s o a).nextId = i; omega, ?_⟩
      intro x hx hxi
      rcases hmem x hx with rfl | hx
      · exact ⟨rfl, rfl⟩
      · have := inv.lt x hx
        omega
  · intro o' a'
    show ((install s o a).hooks.set (o, a) (addHook (((install s o a).hooks.get? (o, a)).getD []) (install s o a).nextId h pre)).get? (o', a') = _
    rw [Dict.get?_set, hgi o a, if_pos rfl, hid]
    by_cases heq : (o, a) = (o', a')
    · simp only [Prod.mk.injEq] at heq
      obtain ⟨rfl, rfl⟩ := heq
      rw [if_pos rfl, if_neg hne]
      simp only [Option.getD_some]
      rw [add_hook inv.nd inv.lt]
    · rw [if_neg heq, hgi, if_neg heq, hof o' a' heq]
      exact inv.get o' a'
  · exact Dict.wf_set hwfi _ _
  · have hnot : n ∉ l.map Active.id := by
      intro hm
      obtain ⟨x, hx, hxn⟩ := List.mem_map.1 hm
      have := inv.lt x hx
      omega
    cases pre
    · simp only [Bool.false_eq_true, if_false, List.map_append, List.map_cons, List.map_nil]
      rw [List.nodup_append]
      refine ⟨inv.nd, by simp, ?_⟩
      intro y hy z hz
      simp only [List.mem_singleton] at hz
      rintro rfl
      exact hnot (hz ▸ hy)
    · simp only [if_true, List.map_cons, List.nodup_cons]
      exact ⟨hnot, inv.nd⟩
  · intro x hx
    rcases hmem x hx with rfl | hx
    · simp
    · have := inv.lt x hx
      omega
  · obtain ⟨L, l1, l2, l3⟩ := inv.depth
    have hd : (register s o a h pre).1.depth = (install s o a).depth := rfl
    have hg := inv.get o a
    have hid2 : (install s o a).depth = if ofMeth l o a = [] ∧ a = .call then s.depth + 1 else s.depth := by
      unfold install
      by_cases he : ofMeth l o a = []
      · rw [if_pos he] at hg
        rw [hg]
        by_cases hc : a = .call
        · subst hc
          simp [he]
        · simp [hc]
      · rw [if_neg he] at hg
        rw [hg]
        simp [he]
    rw [hd, hid2]
    by_cases hc : ofMeth l o a = [] ∧ a = .call
    · obtain ⟨he, rfl⟩ := hc
      rw [if_pos ⟨he, rfl⟩]
      refine ⟨o :: L, ?_, by simp [l2], ?_⟩
      · rw [List.nodup_cons]
        exact ⟨fun hm => (l3 o).1 hm he, l1⟩
      · intro o'
        by_cases ho : o = o'
        · subst ho
          simp only [List.mem_cons, true_or, true_iff]
          exact hne
        · rw [hof o' .call (by simp [ho]), ← l3 o']
          simp [Ne.symm ho]
    · rw [if_neg hc]
      refine ⟨L, l1, l2, ?_⟩
      intro o'
      by_cases ho : (o, a) = (o', .call)
      · simp only [Prod.mk.injEq] at ho
        obtain ⟨rfl, rfl⟩ := ho
        have he : ofMeth l o .call ≠ [] := fun e => hc ⟨e, rfl⟩
        exact ⟨fun _ => hne, fun _ => (l3 o).2 he⟩
      · rw [hof o' .call ho]
        exact l3 o'

theorem ofMeth_filter (l : List (Active A R)) (k : Nat) (o : Nat) (a : Attr) :
    ofMeth (l.filter (fun x => x.id ≠ k)) o a = (ofMeth l o a).filter (fun x => x.id ≠ k) := by
  unfold ofMeth
  rw [List.filter_filter, List.filter_filter]
  congr 1
  funext x
  rw [Bool.and_comm]

theorem pairs_filter (l : List (Active A R)) (k : Nat) : pairs (l.filter (fun x => x.id ≠ k)) = (pairs l).filter (fun p => p.1 ≠ k) := by
  unfold pairs
  rw [List.filter_map]
  rfl

theorem inv_remove {s : St A R} {hds : List Handle} {n : Nat} {l : List (Active A R)} (inv : Inv s hds n l) {k : Nat} {hd : Handle} (hk : hds[k]? = some hd) :
    ∃ s', remove s hd = .ok s' ∧ Inv s' hds n (l.filter (fun x => x.id ≠ k)) := by
  obtain ⟨hid, hh⟩ := inv.handle k hd hk
  have hnd' : ((l.filter (fun x => x.id ≠ k)).map Active.id).Nodup := List.Sublist.nodup (List.Sublist.map _ List.filter_sublist) inv.nd
  have hlt' : ∀ x ∈ l.filter (fun x => x.id ≠ k), x.id < n := fun x hx => inv.lt x (List.mem_of_mem_filter hx)
  have hhd' : ∀ (i : Nat) (h : Handle), hds[i]? = some h → h.id = i ∧ ∀ x ∈ l.filter (fun x => x.id ≠ k), x.id = i → x.obj = h.obj ∧ x.attr = h.attr :=
    fun i h hi => ⟨(inv.handle i h hi).1, fun x hx => (inv.handle i h hi).2 x (List.mem_of_mem_filter hx)⟩
  have hother : ∀ o a, (hd.obj, hd.attr) ≠ (o, a) → ofMeth (l.filter (fun x => x.id ≠ k)) o a = ofMeth l o a := by
    intro o a hne
    rw [ofMeth_filter, List.filter_eq_self]
    intro x hx
    have hx' := List.mem_filter.1 hx
    simp only [decide_eq_true_eq] at hx'
    have : x.id ≠ k := by
      intro e
      have := hh x hx'.1 e
      apply hne
      rw [← this.1, ← this.2, hx'.2.1, hx'.2.2]
    simp [this]
  by_cases hin : k ∈ l.map Active.id
  · obtain ⟨x, hx, hxk⟩ := List.mem_map.1 hin
    obtain ⟨ho, ha⟩ := hh x hx hxk
    have hxm : x ∈ ofMeth l hd.obj hd.attr := by
      unfold ofMeth
      rw [List.mem_filter]
      exact ⟨hx, by simp [ho, ha]⟩
    have hne : ofMeth l hd.obj hd.attr ≠ [] := List.ne_nil_of_mem hxm
    have hg := inv.get hd.obj hd.attr
    rw [if_neg hne] at hg
    have hcont : (pairs (ofMeth l hd.obj hd.attr)).contains hd.id = true := by
      rw [Dict.contains, Dict.get?_isSome, pairs_keys, hid]
      exact List.mem_map.2 ⟨x, hxm, hxk⟩
    have hers : (pairs (ofMeth l hd.obj hd.attr)).erase hd.id = pairs (ofMeth (l.filter (fun x => x.id ≠ k)) hd.obj hd.attr) := by
      rw [erase_filter (pairs_wf inv.nd _ _), ofMeth_filter, pairs_filter, hid]
    have hnil : pairs (ofMeth (l.filter (fun x => x.id ≠ k)) hd.obj hd.attr) = [] ↔ ofMeth (l.filter (fun x => x.id ≠ k)) hd.obj hd.attr = [] := by
      unfold pairs
      exact List.map_eq_nil_iff
    unfold remove
    rw [hg]
    simp only [hcont, if_true, hers]
    obtain ⟨L, l1, l2, l3⟩ := inv.depth
    by_cases he : ofMeth (l.filter (fun x => x.id ≠ k)) hd.obj hd.attr = []
    · rw [if_pos (hnil.2 he)]
      have hget : ∀ o a, ((s.hooks.set (hd.obj, hd.attr) (pairs (ofMeth (l.filter (fun x => x.id ≠ k)) hd.obj hd.attr))).erase (hd.obj, hd.attr)).get? (o, a) =
          if ofMeth (l.filter (fun x => x.id ≠ k)) o a = [] then none else some (pairs (ofMeth (l.filter (fun x => x.id ≠ k)) o a)) := by
        intro o a
        rw [Dict.get?_erase (Dict.wf_set inv.wf _ _), Dict.get?_set]
        by_cases heq : (hd.obj, hd.attr) = (o, a)
        · rw [if_pos heq]
          simp only [Prod.mk.injEq] at heq
          rw [← heq.1, ← heq.2, if_pos he]
        · rw [if_neg heq, if_neg heq, hother o a heq]
          exact inv.get o a
      unfold uninstall
      by_cases hc : hd.attr = .call
      · have hmemL : hd.obj ∈ L := (l3 hd.obj).2 (by rw [← hc]; exact hne)
        have hpos : 1 ≤ s.depth := by
          rw [← l2]
          exact List.length_pos_of_mem hmemL
        rw [if_pos hc]
        refine ⟨{ s with hooks := (s.hooks.set (hd.obj, hd.attr) (pairs (ofMeth (l.filter (fun x => x.id ≠ k)) hd.obj hd.attr))).erase (hd.obj, hd.attr), depth := s.depth - 1 },
          by simp only [pyAssert, hpos, decide_true, if_true, bind, Except.bind], ⟨inv.next, inv.len, hhd', hget, Dict.wf_erase (Dict.wf_set inv.wf _ _) _, hnd', hlt', ?_⟩⟩
        refine ⟨L.erase hd.obj, l1.erase _, ?_, ?_⟩
        · rw [List.length_erase_of_mem hmemL, l2]
        · intro o
          rw [l1.mem_erase_iff]
          by_cases hoo : hd.obj = o
          · subst hoo
            simp only [ne_eq, not_true_eq_false, false_and, false_iff, not_not]
            rw [← hc]
            exact he
          · rw [hother o .call (by simp [hoo]), l3 o]
            simp [Ne.symm hoo]
      · rw [if_neg hc]
        refine ⟨_, rfl, ⟨inv.next, inv.len, hhd', hget, Dict.wf_erase (Dict.wf_set inv.wf _ _) _, hnd', hlt', ?_⟩⟩
        refine ⟨L, l1, l2, ?_⟩
        intro o
        rw [hother o .call (by simp [hc])]
        exact l3 o
    · rw [if_neg (fun h => he (hnil.1 h))]
      refine ⟨_, rfl, ⟨inv.next, inv.len, hhd', ?_, Dict.wf_set inv.wf _ _, hnd', hlt', ?_⟩⟩
      · intro o a
        show (s.hooks.set _ _).get? (o, a) = _
        rw [Dict.get?_set]
        by_cases heq : (hd.obj, hd.attr) = (o, a)
        · rw [if_pos heq]
          simp only [Prod.mk.injEq] at heq
          rw [← heq.1, ← heq.2, if_neg he]
        · rw [if_neg heq, hother o a heq]
          exact inv.get o a
      · refine ⟨L, l1, l2, ?_⟩
        intro o
        rw [l3 o]
        by_cases heq : (hd.obj, hd.attr) = (o, .call)
        · simp only [Prod.mk.injEq] at heq
          rw [← heq.1, ← heq.2]
          exact ⟨fun _ => he, fun _ => hne⟩
        · rw [hother o .call heq]
  · have hsame : l.filter (fun x => x.id ≠ k) = l := by
      rw [List.filter_eq_self]
      intro x hx
      have : x.id ≠ k := by
        rintro rfl
        exact hin (List.mem_map.2 ⟨x, hx, rfl⟩)
      simp [this]
    rw [hsame]
    refine ⟨s, ?_, inv⟩
    unfold remove
    have hg := inv.get hd.obj hd.attr
    rw [hg]
    by_cases he : ofMeth l hd.obj hd.attr = []
    · rw [if_pos he]
    · rw [if_neg he]
      simp only
      have : (pairs (ofMeth l hd.obj hd.attr)).contains hd.id = false := by
        rw [Dict.contains, ← Bool.not_eq_true, Dict.get?_isSome, pairs_keys, hid]
        intro hm
        obtain ⟨x, hx, hxk⟩ := List.mem_map.1 hm
        exact hin (List.mem_map.2 ⟨x, List.mem_of_mem_filter hx, hxk⟩)
      rw [this]
      rfl

theorem inv_run : ∀ (ops : List (Op A R)) {s : St A R} {hds : List Handle} {n : Nat} {l : List (Active A R)}, Inv s hds n l →
    ∃ s' hds', runOps ops (s, hds) = .ok (s', hds') ∧ Inv s' hds' (ops.foldl specStep (n, l)).1 (ops.foldl specStep (n, l)).2 := by
  intro ops
  induction ops with
  | nil => intro s hds n l inv; exact ⟨s, hds, rfl, inv⟩
  | cons op t ih =>
    intro s hds n l inv
    cases op with
    | add o a h pre =>
      obtain ⟨s', hds', h1, h2⟩ := ih (inv_register inv o a h pre)
      refine ⟨s', hds', ?_, ?_⟩
      · rw [runOps]
        simp only [runOp, bind, Except.bind]
        exact h1
      · rw [List.foldl_cons]
        have : specStep (n, l) (.add o a h pre) = (n + 1, if pre then (⟨n, o, a, h⟩ : Active A R) :: l else l ++ [⟨n, o, a, h⟩]) := by
          cases pre <;> rfl
        rw [this]
        exact h2
    | remove k =>
      rw [runOps, List.foldl_cons]
      simp only [runOp]
      cases hk : hds[k]? with
      | none =>
        have hkn : n ≤ k := by
          rw [← inv.len]
          exact List.getElem?_eq_none_iff.1 hk
        have hsame : l.filter (fun x => x.id ≠ k) = l := by
          rw [List.filter_eq_self]
          intro x hx
          have := inv.lt x hx
          simp
          omega
        have : specStep (n, l) (.remove k) = (n, l) := by
          simp only [specStep]
          rw [hsame]
        rw [this]
        exact ih inv
      | some hd =>
        obtain ⟨s1, e1, e2⟩ := inv_remove inv hk
        simp only [e1, bind, Except.bind]
        exact ih e2

end Verif.Hooks
