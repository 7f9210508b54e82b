import Verif.Hooks.Lemmas
/-
C122: hooks on methods, and parametrized parameters.
-/
namespace Verif.Hooks
open Verif Verif.Py

section
variable {A R : Type}

/-- Registering and removing never fails, whatever the history. -/
theorem history_ok (ops : List (Op A R)) : ∃ s hds, runOps ops ((St.init : St A R), []) = .ok (s, hds) := by
  obtain ⟨s, hds, h, _⟩ := inv_run ops (inv_init (A := A) (R := R))
  exact ⟨s, hds, h⟩

theorem applyHooks_pairs (l : List (Active A R)) (o : Nat) (x : A) (r : R) : applyHooks (pairs l) o x r = (l.map Active.hook).foldl (fun r h => h o x r) r := by
  unfold applyHooks pairs Dict.values
  rw [List.map_map]
  rfl

/-- After any history, a method gives the original result changed by its active hooks in their order. -/
theorem method_right (impl : Attr → Nat → A → R) (ops : List (Op A R)) {s : St A R} {hds : List Handle} (h : runOps ops (St.init, []) = .ok (s, hds))
    (limit o n : Nat) (x : A) : call impl s limit o (.meth n) x = .ok (wanted impl ops o (.meth n) x) := by
  obtain ⟨s', hds', h', inv⟩ := inv_run ops (inv_init (A := A) (R := R))
  rw [h] at h'
  simp only [Except.ok.injEq, Prod.mk.injEq] at h'
  obtain ⟨rfl, rfl⟩ := h'
  unfold call
  simp only
  rw [inv.get]
  unfold wanted hooksOf
  have hdef : (ops.foldl specStep (0, [])).2.filter (fun x => x.obj = o ∧ x.attr = .meth n) = ofMeth (ops.foldl specStep (0, [])).2 o (.meth n) := rfl
  rw [hdef]
  by_cases he : ofMeth (ops.foldl specStep (0, [])).2 o (.meth n) = []
  · rw [if_pos he, he]
    rfl
  · rw [if_neg he]
    simp only
    rw [applyHooks_pairs]

theorem depth_cases {s : St A R} {hds : List Handle} {ops : List (Op A R)} (h : runOps ops (St.init, []) = .ok (s, hds)) :
    (∀ o, s.hooks.get? (o, .call) = if ofMeth (ops.foldl specStep (0, [])).2 o .call = [] then none else some (pairs (ofMeth (ops.foldl specStep (0, [])).2 o .call))) ∧
    ∃ L : List Nat, L.Nodup ∧ L.length = s.depth ∧ ∀ o, o ∈ L ↔ hooksOf ops o .call ≠ [] := by
  obtain ⟨s', hds', h', inv⟩ := inv_run ops (inv_init (A := A) (R := R))
  rw [h] at h'
  simp only [Except.ok.injEq, Prod.mk.injEq] at h'
  obtain ⟨rfl, rfl⟩ := h'
  refine ⟨fun o => inv.get o .call, ?_⟩
  obtain ⟨L, l1, l2, l3⟩ := inv.depth
  refine ⟨L, l1, l2, ?_⟩
  intro o
  rw [l3 o]
  have : hooksOf ops o .call = (ofMeth (ops.foldl specStep (0, [])).2 o .call).map Active.hook := rfl
  rw [this]
  simp

/-- The same for calling an object. Partial: only while no two objects of the class have hooks on `__call__`. -/
theorem call_right_partial (impl : Attr → Nat → A → R) (ops : List (Op A R)) {s : St A R} {hds : List Handle} (h : runOps ops (St.init, []) = .ok (s, hds))
    (hone : ∀ o o', hooksOf ops o .call ≠ [] → hooksOf ops o' .call ≠ [] → o = o') (limit o : Nat) (hl : 2 ≤ limit) (x : A) :
    call impl s limit o .call x = .ok (wanted impl ops o .call x) := by
  obtain ⟨hget, L, l1, l2, l3⟩ := depth_cases h
  obtain ⟨n, rfl⟩ : ∃ n, limit = n + 2 := ⟨limit - 2, by omega⟩
  have hdef : hooksOf ops o .call = (ofMeth (ops.foldl specStep (0, [])).2 o .call).map Active.hook := rfl
  have hnil : hooksOf ops o .call = [] ↔ ofMeth (ops.foldl specStep (0, [])).2 o .call = [] := by rw [hdef]; exact List.map_eq_nil_iff
  unfold call wanted
  simp only
  cases L with
  | nil =>
    have : s.depth = 0 := by simpa using l2.symm
    rw [this, callFn]
    have he : hooksOf ops o .call = [] := by
      by_contra hc
      simpa using (l3 o).2 hc
    rw [he]
    rfl
  | cons o' t =>
    have ht : t = [] := by
      cases t with
      | nil => rfl
      | cons b t =>
        exfalso
        have e1 := (l3 o').1 (by simp)
        have e2 := (l3 b).1 (by simp)
        have := hone o' b e1 e2
        subst this
        simp at l1
    subst ht
    have hd : s.depth = 1 := by simpa using l2.symm
    rw [hd, callFn, hget o]
    by_cases he : ofMeth (ops.foldl specStep (0, [])).2 o .call = []
    · rw [if_pos he, hnil.2 he]
      simp only [hd, pyAssert, bind, Except.bind]
      rfl
    · rw [if_neg he, hd]
      simp only [Nat.sub_self, callFn, bind, Except.bind]
      rw [applyHooks_pairs, hdef]

/-- With hooks on `__call__` of two objects, calling any object of the class fails: one with hooks with endless recursion, any other with an assertion. -/
theorem call_broken (impl : Attr → Nat → A → R) (ops : List (Op A R)) {s : St A R} {hds : List Handle} (h : runOps ops (St.init, []) = .ok (s, hds))
    {o1 o2 : Nat} (hne : o1 ≠ o2) (h1 : hooksOf ops o1 .call ≠ []) (h2 : hooksOf ops o2 .call ≠ []) (limit o : Nat) (x : A) :
    (hooksOf ops o .call ≠ [] → call impl s limit o .call x = .error (.other "RecursionError")) ∧
    (hooksOf ops o .call = [] → 2 ≤ limit → call impl s limit o .call x = .error .assertion) := by
  obtain ⟨hget, L, l1, l2, l3⟩ := depth_cases h
  have hd : 2 ≤ s.depth := by
    rw [← l2]
    have m1 := (l3 o1).2 h1
    have m2 := (l3 o2).2 h2
    match L, m1, m2 with
    | [a], m1, m2 =>
      simp only [List.mem_singleton] at m1 m2
      exact absurd (m1.trans m2.symm) hne
    | _ :: _ :: _, _, _ => simp
  obtain ⟨d, hd⟩ : ∃ d, s.depth = d + 2 := ⟨s.depth - 2, by omega⟩
  have hdef : hooksOf ops o .call = (ofMeth (ops.foldl specStep (0, [])).2 o .call).map Active.hook := rfl
  have hnil : hooksOf ops o .call = [] ↔ ofMeth (ops.foldl specStep (0, [])).2 o .call = [] := by rw [hdef]; exact List.map_eq_nil_iff
  unfold call
  simp only
  constructor
  · intro hh
    have hg := hget o
    rw [if_neg (fun e => hh (hnil.2 e))] at hg
    have : ∀ lim k, callFn impl s lim (k + 1) o x = .error (.other "RecursionError") := by
      intro lim
      induction lim with
      | zero => intro k; rfl
      | succ lim ih =>
        intro k
        rw [callFn, hg]
        simp only
        have hd1 : s.depth - 1 = d + 1 := by omega
        rw [hd1, ih d]
        rfl
    rw [hd]
    exact this limit (d + 1)
  · intro hh hl
    obtain ⟨n, rfl⟩ : ∃ n, limit = n + 2 := ⟨limit - 2, by omega⟩
    have hg := hget o
    rw [if_pos (hnil.1 hh)] at hg
    rw [hd, callFn, hg]
    simp only [hd, pyAssert, bind, Except.bind]
    rw [callFn, hg]
    simp [hd, pyAssert, bind, Except.bind]

/-- Two hooks on one object; the second one was put in front; one on another method. -/
def exOps : List (Op Nat Nat) := [.add 0 .call (fun _ _ r => r + 1) false, .add 0 .call (fun _ _ r => r * 2) true, .add 1 (.meth 3) (fun _ x _ => x) false, .remove 2]

example : ∀ o o', hooksOf exOps o .call ≠ [] → hooksOf exOps o' .call ≠ [] → o = o' := by
  intro o o' h h'
  by_cases e : o = 0
  · by_cases e' : o' = 0
    · rw [e, e']
    · exfalso
      apply h'
      simp [hooksOf, exOps, specStep, Ne.symm e']
  · exfalso
    apply h
    simp [hooksOf, exOps, specStep, Ne.symm e]

example : wanted (fun _ _ x => x) exOps 0 .call 5 = 11 := rfl

example : hooksOf (A := Nat) (R := Nat) [.add 0 .call (fun _ _ r => r) false, .add 1 .call (fun _ _ r => r) false] 1 .call ≠ [] := by
  simp [hooksOf, specStep]

end

/-! ## parametrize.py -/

section
variable {T : Type}

/-- After registering with the parameter kept: reading gives the transformed parameter, the parameter itself is not changed, all other attributes give the same as before. -/
theorem register_keep {m m' : Mod T} {name : Nat} {p : Par T} (h : m.register name p true = (m', .ok ())) :
    ∃ r, m.attrs.get? name = some (.param r) ∧ m'.getAttr name = .ok (.computed (p.apply (m.heap r))) ∧ m'.attrs = m.attrs ∧ m'.heap = m.heap ∧
      m'.isParametrized (some name) = true ∧ ∀ n, n ≠ name → m'.getAttr n = m.getAttr n := by
  unfold Mod.register at h
  simp only at h
  cases h2 : ({ m with isPar := true } : Mod T).register2 name p true with
  | error e => rw [h2] at h; simp at h
  | ok m2 =>
    rw [h2] at h
    simp only [Prod.mk.injEq, and_true] at h
    subst h
    unfold Mod.register2 at h2
    split at h2
    · cases h2
    · simp only at h2
      split at h2
      · cases h2
      · rename_i r hr
        simp only [if_true] at h2
        split at h2
        · cases h2
        · simp only [Except.ok.injEq] at h2
          subst h2
          refine ⟨r, hr, ?_, rfl, rfl, ?_, ?_⟩
          · simp [Mod.getAttr, Dict.get?_set, PProp.value]
          · simp [Mod.isParametrized, Mod.clsHas, Dict.contains, Dict.get?_set]
          · intro n hn
            simp [Mod.getAttr, Dict.get?_set, Ne.symm hn]
      · cases h2

/-- Without keeping it: reading gives what the parametrization computes, after the parameter was assigned to it if it can do this. -/
theorem register_replace {m m' : Mod T} {name : Nat} {p : Par T} (h : m.register name p false = (m', .ok ())) :
    ∃ r, m.attrs.get? name = some (.param r) ∧ m'.attrs.get? name = some (.par p) ∧
      (∀ f, p.put = some f → m'.getAttr name = .ok (.computed (p.get (f (m.heap r))))) ∧ (p.put = none → m'.getAttr name = .ok (.computed (p.get (m.heap p.own)))) ∧
      m'.isParametrized (some name) = true ∧ ∀ i, i ≠ p.own → m'.heap i = m.heap i := by
  unfold Mod.register at h
  simp only at h
  cases h2 : ({ m with isPar := true } : Mod T).register2 name p false with
  | error e => rw [h2] at h; simp at h
  | ok m2 =>
    rw [h2] at h
    simp only [Prod.mk.injEq, and_true] at h
    subst h
    unfold Mod.register2 at h2
    split at h2
    · cases h2
    · simp only at h2
      split at h2
      · cases h2
      · rename_i r hr
        simp only [Bool.false_eq_true, if_false, Except.ok.injEq] at h2
        subst h2
        refine ⟨r, hr, by simp [Dict.get?_set], ?_, ?_, ?_, ?_⟩
        · intro f hf
          simp [Mod.getAttr, Dict.get?_set, PProp.value, hf, updRef]
        · intro hf
          simp [Mod.getAttr, Dict.get?_set, PProp.value, hf]
        · simp [Mod.isParametrized, Mod.clsHas, Dict.contains, Dict.get?_set]
        · intro i hi
          cases hp : p.put with
          | none => rfl
          | some f => simp [updRef, hi]
      · cases h2

/-- A parameter can be registered exactly when it is a parameter of the object, the class has no such attribute and no property, and a kept one needs a parametrization without parameters. -/
theorem register_ok_iff (m : Mod T) (name : Nat) (p : Par T) (keep : Bool) : (∃ m', m.register name p keep = (m', .ok ())) ↔
    (∃ r, m.attrs.get? name = some (.param r)) ∧ m.props.get? name = none ∧ name ∉ m.cls ∧ (keep = true → p.hasParams = false) := by
  unfold Mod.register
  simp only
  unfold Mod.register2 Mod.clsHas Dict.contains
  simp only
  cases h1 : m.props.get? name with
  | some q => simp
  | none =>
    by_cases h2 : name ∈ m.cls
    · simp [h2]
    · cases h3 : m.attrs.get? name with
      | none => simp [h2]
      | some v =>
        cases v with
        | param r =>
          cases keep
          · simp [h2]
          · cases hp : p.hasParams <;> simp [h2]
        | par q => simp [h2]
        | tensor v => simp [h2]

/-- Setting a parametrized parameter changes what is below the parametrization, and the next reading sees it. -/
theorem set_then_get {m m' : Mod T} {name : Nat} {q : PProp T} {v : T} (hq : m.props.get? name = some q) (h : m.setAttr name v = .ok m') :
    (∀ r, q.orig = some r → m'.heap r = v ∧ m'.getAttr name = .ok (.computed (q.par.apply v))) ∧
    (q.orig = none → ∃ f, q.par.put = some f ∧ m'.getAttr name = .ok (.computed (q.par.get (f v)))) ∧ m'.attrs = m.attrs := by
  unfold Mod.setAttr at h
  rw [hq] at h
  simp only at h
  cases ho : q.orig with
  | some r =>
    rw [ho] at h
    simp only [Except.ok.injEq] at h
    subst h
    simp [updRef, Mod.getAttr, hq, PProp.value, ho]
  | none =>
    rw [ho] at h
    simp only at h
    cases hp : q.par.put with
    | none => rw [hp] at h; simp at h
    | some f =>
      rw [hp] at h
      simp only [Except.ok.injEq] at h
      subst h
      simp [updRef, Mod.getAttr, hq, PProp.value, ho]

/-- Without `assign` setting is an error. -/
theorem set_without_assign {m : Mod T} {name : Nat} {q : PProp T} (hq : m.props.get? name = some q) (ho : q.orig = none) (hp : q.par.put = none) (v : T) :
    m.setAttr name v = .error (.other "AttributeError") := by
  simp [Mod.setAttr, hq, ho, hp]

/-- The properties are only there with a special class. -/
def Mod.Wf (m : Mod T) : Prop := m.props.Wf ∧ (m.isPar = false → m.props = [])

/-- Removing what was registered with the parameter kept gives the module back: the same parameter with the same value, the other parametrizations are still there. -/
theorem remove_restores {m m' : Mod T} (hw : m.Wf) {name : Nat} {p : Par T} (h : m.register name p true = (m', .ok ())) :
    m'.remove name = .ok { m with isPar := decide (m.props ≠ []) } := by
  obtain ⟨⟨r, hr⟩, hnone, hcls, hpar⟩ := (register_ok_iff m name p true).1 ⟨m', h⟩
  have hm' : m' = { m with isPar := true, props := m.props.set name ⟨p, some r⟩ } := by
    unfold Mod.register Mod.register2 Mod.clsHas Dict.contains at h
    simp only [hnone, hr, hpar rfl] at h
    simp [hcls] at h
    exact h.symm
  subst hm'
  have hk : name ∉ m.props.keys := (Dict.get?_eq_none _ _).1 hnone
  unfold Mod.remove
  simp only [Bool.not_true, Bool.false_eq_true, if_false, Dict.get?_set, if_true]
  rw [erase_set_new hw.1 hk]

/-- Removing what replaced a parameter gives a new parameter with the value which reading gave before. -/
theorem remove_replaced {m : Mod T} {name : Nat} {q : PProp T} (hw : m.props.Wf) (hpar : m.isPar = true) (hq : m.props.get? name = some q) (ho : q.orig = none) :
    ∃ m' v, m.remove name = .ok m' ∧ m.getAttr name = .ok (.computed v) ∧ m'.getAttr name = .ok (.raw (.param m.nextRef)) ∧ m'.heap m.nextRef = v ∧
      ∀ n, n ≠ name → m'.props.get? n = m.props.get? n ∧ m'.attrs.get? n = m.attrs.get? n := by
  refine ⟨⟨m.attrs.set name (.param m.nextRef), updRef m.heap m.nextRef (q.value m.heap), m.nextRef + 1, decide (m.props.erase name ≠ []), m.props.erase name, m.cls⟩, q.value m.heap, ?_, ?_, ?_, ?_, ?_⟩
  · simp [Mod.remove, hpar, hq, ho]
  · simp [Mod.getAttr, hq]
  · simp [Mod.getAttr, Dict.get?_erase hw, Dict.get?_set]
  · simp [updRef]
  · intro n hn
    simp [Dict.get?_erase hw, Dict.get?_set, Ne.symm hn]

/-- All operations keep the module in order. -/
theorem wf_kept {m : Mod T} (hw : m.Wf) : (∀ name p keep, (m.register name p keep).1.Wf) ∧ (∀ name m', m.remove name = .ok m' → m'.Wf) ∧
    ∀ name v m', m.setAttr name v = .ok m' → m'.Wf := by
  refine ⟨?_, ?_, ?_⟩
  · intro name p keep
    unfold Mod.register
    simp only
    cases h2 : ({ m with isPar := true } : Mod T).register2 name p keep with
    | error e => exact ⟨hw.1, fun h => by simp at h⟩
    | ok m2 =>
      simp only
      unfold Mod.register2 at h2
      split at h2
      · cases h2
      · simp only at h2
        split at h2
        · cases h2
        · cases keep
          · simp only [Bool.false_eq_true, if_false, Except.ok.injEq] at h2
            subst h2
            exact ⟨Dict.wf_set hw.1 _ _, fun h => by simp at h⟩
          · simp only [if_true] at h2
            split at h2
            · cases h2
            · simp only [Except.ok.injEq] at h2
              subst h2
              exact ⟨Dict.wf_set hw.1 _ _, fun h => by simp at h⟩
        · cases h2
  · intro name m' h
    unfold Mod.remove at h
    split at h
    · cases h
    · cases hq : m.props.get? name with
      | none =>
        rw [hq] at h
        simp only at h
        split at h <;> cases h
      | some q =>
        rw [hq] at h
        simp only at h
        cases ho : q.orig with
        | some r =>
          rw [ho] at h
          simp only [Except.ok.injEq] at h
          subst h
          exact ⟨Dict.wf_erase hw.1 _, fun h => by simpa using h⟩
        | none =>
          rw [ho] at h
          simp only [Except.ok.injEq] at h
          subst h
          exact ⟨Dict.wf_erase hw.1 _, fun h => by simpa using h⟩
  · intro name v m' h
    unfold Mod.setAttr at h
    split at h
    · split at h
      · simp only [Except.ok.injEq] at h
        subst h
        exact hw
      · split at h
        · simp only [Except.ok.injEq] at h
          subst h
          exact hw
        · cases h
    · simp only [Except.ok.injEq] at h
      subst h
      exact hw

/-- A module without parametrizations is not parametrized. Partial: only by name, and for names which the class does not have. -/
theorem is_parametrized_partial {m : Mod T} (hw : m.Wf) {name : Nat} (hc : name ∉ m.cls) : m.isParametrized (some name) = true ↔ ∃ q, m.props.get? name = some q := by
  unfold Mod.isParametrized Mod.clsHas Dict.contains
  cases hp : m.isPar with
  | false =>
    rw [hw.2 hp]
    simp [Dict.get?]
  | true => simp [hc, Option.isSome_iff_exists]

/-- A module with one parameter (number 0), and a class with a method (number 7). -/
def exMod : Mod Nat := ⟨[(0, .param 0)], fun _ => 5, 1, false, [], [7]⟩

def exPar : Par Nat := ⟨fun x => 2 * x, false, 0, id, none⟩

example : ∃ m', exMod.register 0 exPar true = (m', .ok ()) := ⟨_, rfl⟩

/-- A call of `register_parametrization` which fails leaves a module which counts as parametrized although nothing is. -/
theorem failed_register_stays : ∃ m, (exMod.register 1 exPar true) = (m, .error (.other "AttributeError")) ∧ m.isParametrized none = true ∧ m.props = [] := ⟨_, rfl, rfl, rfl⟩

/-- A method of the class counts as parametrized. -/
theorem method_is_parametrized : (exMod.register 0 exPar true).1.isParametrized (some 7) = true := rfl

end

end Verif.Hooks
