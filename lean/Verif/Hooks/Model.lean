import Verif.Util.Dict
/-
Model of `returnn/frontend/hooks.py` and `returnn/frontend/parametrize.py`.

Simplifications for the whole file:
* objects are numbers, all of one class without subclasses; methods are functions of the object and the arguments, hooks are functions without side effects;
* a handle knows object, attribute and number: the weak references lead to the hooks of this method as long as it is installed, and numbers are never used twice;
* the limit for nested calls is counted in calls of the class function, not in frames.
-/
namespace Verif.Hooks
open Verif Verif.Py

/-- A method name: `__call__`, or another one. -/
inductive Attr where
  | call
  | meth (n : Nat)
deriving DecidableEq

/-- A hook: object, arguments, result. -/
abbrev Hook (A R : Type) := Nat → A → R → R

/-- `hooks`: the `MethodWithHooks` which are set on objects, with their `post_hooks`. `depth`: how many `_CallWrapperClass` objects are
around the `__call__` of the class; the original one is number 0. /repo/returnn/frontend/hooks.py:61-74. -/
structure St (A R : Type) where
  hooks : Dict (Nat × Attr) (Dict Nat (Hook A R))
  depth : Nat
  nextId : Nat

/-- At the beginning. -/
def St.init {A R : Type} : St A R := ⟨[], 0, 0⟩

/-- `RemovableHandle`. /repo/returnn/frontend/hooks.py:139-155. -/
structure Handle where
  obj : Nat
  attr : Attr
  id : Nat

/-- `MethodWithHooks.get`, with `setup`. /repo/returnn/frontend/hooks.py:42-74. -/
def install {A R : Type} (s : St A R) (o : Nat) (a : Attr) : St A R :=
  match s.hooks.get? (o, a) with
  | some _ => s
  | none => { s with hooks := s.hooks.set (o, a) [], depth := if a = .call then s.depth + 1 else s.depth }

/-- `_register_new_hook`: the new dict. /repo/returnn/frontend/hooks.py:122-136. -/
def addHook {A R : Type} (hs : Dict Nat (Hook A R)) (id : Nat) (h : Hook A R) (prepend : Bool) : Dict Nat (Hook A R) :=
  if prepend then (id, h) :: (hs.set id h).erase id else hs.set id h

/-- `setup_post_hook_on_method`. /repo/returnn/frontend/hooks.py:18-32, 148-152. -/
def register {A R : Type} (s : St A R) (o : Nat) (a : Attr) (h : Hook A R) (prepend : Bool) : St A R × Handle :=
  let s := install s o a
  let hs := (s.hooks.get? (o, a)).getD []
  ({ s with hooks := s.hooks.set (o, a) (addHook hs s.nextId h prepend), nextId := s.nextId + 1 }, ⟨o, a, s.nextId⟩)

/-- `uninstall`. /repo/returnn/frontend/hooks.py:76-83. -/
def uninstall {A R : Type} (s : St A R) (o : Nat) (a : Attr) : Res (St A R) := do
  if a = .call then
    pyAssert (decide (1 ≤ s.depth))
    .ok { s with hooks := s.hooks.erase (o, a), depth := s.depth - 1 }
  else .ok { s with hooks := s.hooks.erase (o, a) }

/-- `RemovableHandle.remove`. /repo/returnn/frontend/hooks.py:157-165. -/
def remove {A R : Type} (s : St A R) (hd : Handle) : Res (St A R) :=
  match s.hooks.get? (hd.obj, hd.attr) with
  | none => .ok s
  | some hs =>
    if hs.contains hd.id then
      let s' := { s with hooks := s.hooks.set (hd.obj, hd.attr) (hs.erase hd.id) }
      if hs.erase hd.id = [] then uninstall s' hd.obj hd.attr else .ok s'
    else .ok s

/-- The loop over the hooks. /repo/returnn/frontend/hooks.py:93-95. -/
def applyHooks {A R : Type} (hs : Dict Nat (Hook A R)) (o : Nat) (x : A) (r : R) : R := hs.values.foldl (fun r h => h o x r) r

/-- Function number `k` for `__call__` of the class: the original one, or a wrapper, which asks for the `__call__` of the object.
`MethodWithHooks.__call__` takes the function below the current function of the class. /repo/returnn/frontend/hooks.py:89-95, 98-120. -/
def callFn {A R : Type} (impl : Attr → Nat → A → R) (s : St A R) : Nat → Nat → Nat → A → Res R
  | 0, _, _, _ => .error (.other "RecursionError")
  | _ + 1, 0, o, x => .ok (impl .call o x)
  | limit + 1, k + 1, o, x =>
    match s.hooks.get? (o, .call) with
    | some hs => do
      let r ← callFn impl s limit (s.depth - 1) o x
      .ok (applyHooks hs o x r)
    | none => do
      pyAssert (s.depth == k + 1)
      callFn impl s limit k o x

/-- `obj(args)`, or `obj.method(args)`. /repo/returnn/frontend/hooks.py:89-95. -/
def call {A R : Type} (impl : Attr → Nat → A → R) (s : St A R) (limit : Nat) (o : Nat) (a : Attr) (x : A) : Res R :=
  match a with
  | .call => callFn impl s limit s.depth o x
  | .meth n =>
    match s.hooks.get? (o, .meth n) with
    | some hs => .ok (applyHooks hs o x (impl (.meth n) o x))
    | none => .ok (impl (.meth n) o x)

/-! ## parametrize.py -/

/-- A parametrization. `apply`: what it does with an original parameter. `own`, `get`, `put`: its own parameter, what it computes from it,
and what `assign` puts into it, if it has `assign`. -/
structure Par (T : Type) where
  apply : T → T
  hasParams : Bool
  own : Nat
  get : T → T
  put : Option (T → T)

/-- An attribute of the module object: a parameter, a parametrization as submodule, something else. -/
inductive Val (T : Type) where
  | param (ref : Nat)
  | par (p : Par T)
  | tensor (v : T)

/-- `_Property`. /repo/returnn/frontend/parametrize.py:169-181. -/
structure PProp (T : Type) where
  par : Par T
  orig : Option Nat

/-- A module: its own attributes, the values of all parameters, whether it has a class of `_Metaclass`, with which properties, and what
the original class has as attributes. -/
structure Mod (T : Type) where
  attrs : Dict Nat (Val T)
  heap : Nat → T
  nextRef : Nat
  isPar : Bool
  props : Dict Nat (PProp T)
  cls : List Nat

/-- Changing a parameter. -/
def updRef {T : Type} (f : Nat → T) (r : Nat) (v : T) : Nat → T := fun i => if i = r then v else f i

/-- What `getattr` gives: a computed tensor, or an attribute of the object. -/
inductive Got (T : Type) where
  | computed (v : T)
  | raw (v : Val T)

/-- `_Property.__get__`. /repo/returnn/frontend/parametrize.py:183-190. -/
def PProp.value {T : Type} (p : PProp T) (heap : Nat → T) : T :=
  match p.orig with
  | some r => p.par.apply (heap r)
  | none => p.par.get (heap p.par.own)

/-- `getattr(module, name)` for what is no attribute of the original class. -/
def Mod.getAttr {T : Type} (m : Mod T) (name : Nat) : Res (Got T) :=
  match m.props.get? name with
  | some p => .ok (.computed (p.value m.heap))
  | none =>
    match m.attrs.get? name with
    | some v => .ok (.raw v)
    | none => .error (.other "AttributeError")

/-- `setattr(module, name, value)`, with `_Property.__set__`. /repo/returnn/frontend/parametrize.py:192-200. -/
def Mod.setAttr {T : Type} (m : Mod T) (name : Nat) (v : T) : Res (Mod T) :=
  match m.props.get? name with
  | some p =>
    match p.orig with
    | some r => .ok { m with heap := updRef m.heap r v }
    | none =>
      match p.par.put with
      | some f => .ok { m with heap := updRef m.heap p.par.own (f v) }
      | none => .error (.other "AttributeError")
  | none => .ok { m with attrs := m.attrs.set name (.tensor v) }

/-- `hasattr(module.__class__, name)`. -/
def Mod.clsHas {T : Type} (m : Mod T) (name : Nat) : Bool := m.props.contains name || m.cls.contains name

/-- `is_parametrized`. /repo/returnn/frontend/parametrize.py:108-124. -/
def Mod.isParametrized {T : Type} (m : Mod T) (name : Option Nat) : Bool :=
  if !m.isPar then false
  else match name with
    | none => true
    | some n => m.clsHas n

/-- The second part of `register_parametrization`, with a class which can have properties. /repo/returnn/frontend/parametrize.py:52-84. -/
def Mod.register2 {T : Type} (m : Mod T) (name : Nat) (p : Par T) (keep : Bool) : Res (Mod T) :=
  if m.clsHas name then .error .valueError
  else
    match m.attrs.get? name with
    | none => .error (.other "AttributeError")
    | some (.param r) =>
      if keep then
        if p.hasParams then .error .valueError
        else .ok { m with props := m.props.set name ⟨p, some r⟩ }
      else
        let heap := match p.put with
          | some f => updRef m.heap p.own (f (m.heap r))
          | none => m.heap
        .ok { m with heap := heap, attrs := m.attrs.set name (.par p), props := m.props.set name ⟨p, none⟩ }
    | some _ => .error .typeError

/-- `register_parametrization`: the module afterwards, and the error if there is one. /repo/returnn/frontend/parametrize.py:22-86. -/
def Mod.register {T : Type} (m : Mod T) (name : Nat) (p : Par T) (keep : Bool) : Mod T × Res Unit :=
  let m := { m with isPar := true }
  match m.register2 name p keep with
  | .ok m' => (m', .ok ())
  | .error e => (m, .error e)

/-- `remove_parametrization`. /repo/returnn/frontend/parametrize.py:89-105. -/
def Mod.remove {T : Type} (m : Mod T) (name : Nat) : Res (Mod T) :=
  if !m.isPar then .error .valueError
  else
    match m.props.get? name with
    | none => if m.cls.contains name then .error .assertion else .error (.other "AttributeError")
    | some p =>
      let props := m.props.erase name
      let m := { m with props := props, isPar := decide (props ≠ []) }
      match p.orig with
      | some _ => .ok m
      | none => .ok { m with attrs := m.attrs.set name (.param m.nextRef), heap := updRef m.heap m.nextRef (p.value m.heap), nextRef := m.nextRef + 1 }

end Verif.Hooks
