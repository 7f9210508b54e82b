import Verif.Updater.Groups
import Verif.Updater.Props
import Verif.Util.ListLemmas
/-!
C74: the parameter groups contain every parameter of the network exactly once, in the group which the rule says.
-/

namespace Verif.Updater
open Verif.Py Verif.ListLemmas

/-! ### Specification -/

/-- `x` is the module `m` or one of its submodules, at any depth. -/
inductive Sub : Mod → Mod → Prop
  | refl (m : Mod) : Sub m m
  | child {x m c : Mod} {n : Name} : (n, c) ∈ m.children → Sub x c → Sub x m

/-- The parameter `p` is in module `m` of the network, with this name. -/
def Owner (root m : Mod) (name : Name) (p : Nat) : Prop := Sub m root ∧ (name, p) ∈ m.params

/-- Names which torch allows: not empty, without dots. -/
def GoodName (n : Name) : Prop := n ≠ [] ∧ '.' ∉ n

/-- A network: the names are allowed and keys of dicts, and an id is one module. -/
structure GoodNet (root : Mod) : Prop where
  childNames : ∀ m, Sub m root → (m.children.map Prod.fst).Nodup ∧ ∀ n ∈ m.children.map Prod.fst, GoodName n
  paramNames : ∀ m, Sub m root → (m.params.map Prod.fst).Nodup ∧ ∀ n ∈ m.params.map Prod.fst, GoodName n
  ids : ∀ x y, Sub x root → Sub y root → x.id = y.id → x = y

/-- The documented rule: no weight decay if the check of the user says so; if it says nothing, for biases and for modules in the blacklist. -/
def NoDecay (custom : Mod → Name → Nat → Option Bool) (m : Mod) (name : Name) (p : Nat) : Prop :=
  custom m name p = some false ∨ (custom m name p = none ∧ ((∃ pre, name = pre ++ "bias".toList) ∨ m.black = true))

/-! ### Names -/

/-- The name of a path of submodules. -/
def flatPath (path : List Name) : Name := path.flatMap (fun n => '.' :: n)

def nameOf : List Name → Name
  | [] => []
  | n :: rest => n ++ flatPath rest

theorem nameOf_snoc (path : List Name) (n : Name) (h : ∀ x ∈ path, GoodName x) : subName (nameOf path) n = nameOf (path ++ [n]) := by
  unfold subName
  cases path with
  | nil => simp [nameOf, flatPath]
  | cons a rest =>
    have ha := (h a List.mem_cons_self).1
    rw [if_neg (by unfold nameOf; simp [ha])]
    simp [nameOf, flatPath, List.flatMap_append]

theorem takeWhile_dotfree {a : Name} (ha : '.' ∉ a) (p : List Name) : (a ++ flatPath p).takeWhile (fun c => c != '.') = a ∧ (a ++ flatPath p).dropWhile (fun c => c != '.') = flatPath p := by
  induction a with
  | nil =>
    cases p with
    | nil => simp [flatPath]
    | cons x p => simp [flatPath]
  | cons c a ih =>
    have hc : c ≠ '.' := fun e => ha (by simp [e])
    obtain ⟨i1, i2⟩ := ih (fun e => ha (List.mem_cons_of_mem _ e))
    simp only [List.cons_append]
    rw [List.takeWhile_cons_of_pos (by simp [hc]), List.dropWhile_cons_of_pos (by simp [hc]), i1, i2]
    exact ⟨rfl, rfl⟩

theorem flatPath_inj : ∀ {p q : List Name}, (∀ x ∈ p, '.' ∉ x) → (∀ x ∈ q, '.' ∉ x) → flatPath p = flatPath q → p = q
  | [], [], _, _, _ => rfl
  | [], _ :: _, _, _, h => by simp [flatPath] at h
  | _ :: _, [], _, _, h => by simp [flatPath] at h
  | a :: p, b :: q, hp, hq, h => by
    have h' : a ++ flatPath p = b ++ flatPath q := by
      unfold flatPath at h ⊢
      simpa using h
    obtain ⟨a1, a2⟩ := takeWhile_dotfree (hp a List.mem_cons_self) p
    obtain ⟨b1, b2⟩ := takeWhile_dotfree (hq b List.mem_cons_self) q
    have e1 : a = b := by rw [← a1, ← b1, h']
    have e2 : flatPath p = flatPath q := by rw [← a2, ← b2, h']
    rw [e1, flatPath_inj (fun x hx => hp x (List.mem_cons_of_mem _ hx)) (fun x hx => hq x (List.mem_cons_of_mem _ hx)) e2]

theorem nameOf_inj {p q : List Name} (hp : ∀ x ∈ p, GoodName x) (hq : ∀ x ∈ q, GoodName x) (h : nameOf p = nameOf q) : p = q := by
  cases p with
  | nil =>
    cases q with
    | nil => rfl
    | cons b q =>
      have := (hq b List.mem_cons_self).1
      simp [nameOf, this] at h
  | cons a p =>
    cases q with
    | nil =>
      have := (hp a List.mem_cons_self).1
      simp [nameOf, this] at h
    | cons b q =>
      have h : a ++ flatPath p = b ++ flatPath q := h
      obtain ⟨a1, a2⟩ := takeWhile_dotfree (hp a List.mem_cons_self).2 p
      obtain ⟨b1, b2⟩ := takeWhile_dotfree (hq b List.mem_cons_self).2 q
      have e1 : a = b := by rw [← a1, ← b1, h]
      have e2 : flatPath p = flatPath q := by rw [← a2, ← b2, h]
      rw [e1, flatPath_inj (fun x hx => (hp x (List.mem_cons_of_mem _ hx)).2) (fun x hx => (hq x (List.mem_cons_of_mem _ hx)).2) e2]

/-! ### Traversal -/

/-- Names below a node are allowed and distinct. -/
def GoodNames (m : Mod) : Prop := ∀ x, Sub x m → (x.children.map Prod.fst).Nodup ∧ ∀ n ∈ x.children.map Prod.fst, GoodName n

theorem GoodNames.child {m c : Mod} {n : Name} (h : GoodNames m) (hc : (n, c) ∈ m.children) : GoodNames c := fun x hx => h x (.child hc hx)

mutual
theorem namedModules_names : ∀ (m : Mod) (path : List Name) (memo : List Nat), (∀ x ∈ path, GoodName x) → GoodNames m →
    (∀ e ∈ (namedModules m (nameOf path) memo).1, ∃ q, (∀ x ∈ q, GoodName x) ∧ e.1 = nameOf (path ++ q) ∧ Sub e.2 m) ∧
    ((namedModules m (nameOf path) memo).1.map Prod.fst).Nodup
  | .mk i b ps cs, path, memo, hp, hg => by
    unfold namedModules
    split
    · exact ⟨(by intro e he; exact absurd he List.not_mem_nil), List.nodup_nil⟩
    · have hg0 := hg _ (.refl _)
      obtain ⟨h1, h2⟩ := namedChildren_names cs path (i :: memo) hp hg0.1 hg0.2 (fun e he => hg.child (m := .mk i b ps cs) he)
      refine ⟨?_, ?_⟩
      · intro e he
        rcases List.mem_cons.1 he with rfl | he
        · exact ⟨[], by simp, by simp, .refl _⟩
        · obtain ⟨c, hc, q, hq, hqe, hsub⟩ := h1 e he
          exact ⟨c.1 :: q, by
            intro x hx
            rcases List.mem_cons.1 hx with rfl | hx
            · exact hg0.2 _ (List.mem_map.2 ⟨c, hc, rfl⟩)
            · exact hq x hx, hqe, .child (n := c.1) hc hsub⟩
      · simp only [List.map_cons, List.nodup_cons]
        refine ⟨?_, h2⟩
        intro hc
        obtain ⟨e, he, hee⟩ := List.mem_map.1 hc
        obtain ⟨c, hc, q, hq, hqe, _⟩ := h1 e he
        rw [hee] at hqe
        have hgn : GoodName c.1 := hg0.2 _ (List.mem_map.2 ⟨c, hc, rfl⟩)
        have := nameOf_inj hp (by
          intro x hx
          rcases List.mem_append.1 hx with hx | hx
          · exact hp x hx
          · rcases List.mem_cons.1 hx with rfl | hx
            · exact hgn
            · exact hq x hx) hqe
        simpa using congrArg List.length this
theorem namedChildren_names : ∀ (cs : List (Name × Mod)) (path : List Name) (memo : List Nat), (∀ x ∈ path, GoodName x) → (cs.map Prod.fst).Nodup → (∀ n ∈ cs.map Prod.fst, GoodName n) →
    (∀ e ∈ cs, GoodNames e.2) →
    (∀ e ∈ (namedChildren cs (nameOf path) memo).1, ∃ c ∈ cs, ∃ q, (∀ x ∈ q, GoodName x) ∧ e.1 = nameOf (path ++ c.1 :: q) ∧ Sub e.2 c.2) ∧
    ((namedChildren cs (nameOf path) memo).1.map Prod.fst).Nodup
  | [], path, memo, _, _, _, _ => by
    unfold namedChildren
    exact ⟨(by intro e he; exact absurd he List.not_mem_nil), List.nodup_nil⟩
  | (n, m) :: cs, path, memo, hp, hnd, hgn, hg => by
    unfold namedChildren
    simp only []
    have hn : GoodName n := hgn n (by simp)
    rw [nameOf_snoc path n hp]
    have hp' : ∀ x ∈ path ++ [n], GoodName x := by
      intro x hx
      rcases List.mem_append.1 hx with hx | hx
      · exact hp x hx
      · rw [List.mem_singleton.1 hx]; exact hn
    obtain ⟨a1, a2⟩ := namedModules_names m (path ++ [n]) memo hp' (hg _ List.mem_cons_self)
    obtain ⟨b1, b2⟩ := namedChildren_names cs path (namedModules m (nameOf (path ++ [n])) memo).2 hp (List.nodup_cons.1 hnd).2
      (fun x hx => hgn x (List.mem_cons_of_mem _ hx)) (fun e he => hg e (List.mem_cons_of_mem _ he))
    refine ⟨?_, ?_⟩
    · intro e he
      rcases List.mem_append.1 he with he | he
      · obtain ⟨q, hq, hqe, hs⟩ := a1 e he
        exact ⟨(n, m), List.mem_cons_self, q, hq, by rw [hqe]; simp, hs⟩
      · obtain ⟨c, hc, q, hq, hqe, hs⟩ := b1 e he
        exact ⟨c, List.mem_cons_of_mem _ hc, q, hq, hqe, hs⟩
    · rw [List.map_append, List.nodup_append']
      refine ⟨a2, b2, ?_⟩
      intro x hx hx'
      obtain ⟨e, he, rfl⟩ := List.mem_map.1 hx
      obtain ⟨e', he', hee⟩ := List.mem_map.1 hx'
      obtain ⟨q, hq, hqe, _⟩ := a1 e he
      obtain ⟨c, hc, q', hq', hqe', _⟩ := b1 e' he'
      have hcn : c.1 ∈ cs.map Prod.fst := List.mem_map.2 ⟨c, hc, rfl⟩
      have hcg : GoodName c.1 := hgn _ (by rw [List.map_cons]; exact List.mem_cons_of_mem _ hcn)
      rw [hee, hqe, List.append_assoc] at hqe'
      have := nameOf_inj (by
        intro x hx
        rcases List.mem_append.1 hx with hx | hx
        · exact hp x hx
        · rcases List.mem_append.1 hx with hx | hx
          · rw [List.mem_singleton.1 hx]; exact hn
          · exact hq x hx) (by
        intro x hx
        rcases List.mem_append.1 hx with hx | hx
        · exact hp x hx
        · rcases List.mem_cons.1 hx with rfl | hx
          · exact hcg
          · exact hq' x hx) hqe'
      have := List.append_cancel_left this
      simp only [List.singleton_append, List.cons.injEq] at this
      exact (List.nodup_cons.1 hnd).1 (this.1 ▸ hcn)
end

theorem Sub.trans {a b c : Mod} (h1 : Sub a b) (h2 : Sub b c) : Sub a c := by
  induction h2 with
  | refl => exact h1
  | child hc _ ih => exact .child hc ih

theorem Sub.size {a b : Mod} (h : Sub a b) : sizeOf a ≤ sizeOf b := by
  induction h with
  | refl => exact Nat.le_refl _
  | @child m c n hc _ ih =>
    obtain ⟨i, bl, ps, cs⟩ := m
    have h1 : sizeOf (n, c) < sizeOf cs := List.sizeOf_lt_of_mem hc
    simp only [Mod.mk.sizeOf_spec, Prod.mk.sizeOf_spec] at h1 ⊢
    omega

/-- Modules in the memo, up to a size, are there with all their submodules. -/
def Closed (root : Mod) (memo : List Nat) (k : Nat) : Prop := ∀ x, Sub x root → x.id ∈ memo → sizeOf x ≤ k → ∀ y, Sub y x → y.id ∈ memo

mutual
theorem namedModules_memo (root : Mod) (hids : ∀ x y, Sub x root → Sub y root → x.id = y.id → x = y) : ∀ (m : Mod) (pre : Name) (memo : List Nat), Sub m root → Closed root memo (sizeOf m) →
    (∀ i, i ∈ (namedModules m pre memo).2 ↔ i ∈ memo ∨ ∃ x, Sub x m ∧ x.id = i) ∧ (∀ i, i ∈ (namedModules m pre memo).2 → i ∈ memo ∨ ∃ e ∈ (namedModules m pre memo).1, e.2.id = i)
  | .mk i b ps cs, pre, memo, hsub, hcl => by
    unfold namedModules
    split
    · rename_i hi
      refine ⟨?_, fun _ h => Or.inl h⟩
      intro j
      refine ⟨Or.inl, ?_⟩
      rintro (h | ⟨x, hx, rfl⟩)
      · exact h
      · exact hcl _ hsub hi (Nat.le_refl _) x hx
    · have hcl' : Closed root (i :: memo) (sizeOf cs) := by
        intro x hx hxi hk y hy
        rcases List.mem_cons.1 hxi with hxi | hxi
        · have := hids x (.mk i b ps cs) hx hsub hxi
          subst this
          simp only [Mod.mk.sizeOf_spec] at hk
          omega
        · exact List.mem_cons_of_mem _ (hcl x hx hxi (by simp only [Mod.mk.sizeOf_spec]; omega) y hy)
      obtain ⟨h1, h2⟩ := namedChildren_memo root hids cs pre (i :: memo) (fun e he => (Sub.child (n := e.1) (m := .mk i b ps cs) he (.refl _)).trans hsub) hcl'
      simp only []
      refine ⟨?_, ?_⟩
      · intro j
        rw [h1]
        constructor
        · rintro (h | ⟨e, he, x, hx, rfl⟩)
          · rcases List.mem_cons.1 h with rfl | h
            · exact Or.inr ⟨_, .refl _, rfl⟩
            · exact Or.inl h
          · exact Or.inr ⟨x, .child (n := e.1) he hx, rfl⟩
        · rintro (h | ⟨x, hx, rfl⟩)
          · exact Or.inl (List.mem_cons_of_mem _ h)
          · cases hx with
            | refl => exact Or.inl List.mem_cons_self
            | child hc hx => exact Or.inr ⟨_, hc, x, hx, rfl⟩
      · intro j hj
        rcases h2 j hj with h | ⟨e, he, hee⟩
        · rcases List.mem_cons.1 h with rfl | h
          · exact Or.inr ⟨_, List.mem_cons_self, rfl⟩
          · exact Or.inl h
        · exact Or.inr ⟨e, List.mem_cons_of_mem _ he, hee⟩
theorem namedChildren_memo (root : Mod) (hids : ∀ x y, Sub x root → Sub y root → x.id = y.id → x = y) : ∀ (cs : List (Name × Mod)) (pre : Name) (memo : List Nat), (∀ e ∈ cs, Sub e.2 root) →
    Closed root memo (sizeOf cs) →
    (∀ i, i ∈ (namedChildren cs pre memo).2 ↔ i ∈ memo ∨ ∃ e ∈ cs, ∃ x, Sub x e.2 ∧ x.id = i) ∧ (∀ i, i ∈ (namedChildren cs pre memo).2 → i ∈ memo ∨ ∃ e ∈ (namedChildren cs pre memo).1, e.2.id = i)
  | [], pre, memo, _, _ => by
    unfold namedChildren
    exact ⟨fun i => ⟨Or.inl, by rintro (h | ⟨_, h, _⟩); exacts [h, absurd h List.not_mem_nil]⟩, fun _ h => Or.inl h⟩
  | (n, m) :: cs, pre, memo, hsub, hcl => by
    unfold namedChildren
    simp only []
    have hm := hsub _ List.mem_cons_self
    obtain ⟨a1, a2⟩ := namedModules_memo root hids m (subName pre n) memo hm (fun x hx hi hk y hy => hcl x hx hi (by simp only [List.cons.sizeOf_spec, Prod.mk.sizeOf_spec]; omega) y hy)
    have hcl' : Closed root (namedModules m (subName pre n) memo).2 (sizeOf cs) := by
      intro x hx hi hk y hy
      rw [a1] at hi ⊢
      rcases hi with hi | ⟨x', hx', hxe⟩
      · exact Or.inl (hcl x hx hi (by simp only [List.cons.sizeOf_spec]; omega) y hy)
      · have := hids x' x (hx'.trans hm) hx hxe
        subst this
        exact Or.inr ⟨y, hy.trans hx', rfl⟩
    obtain ⟨b1, b2⟩ := namedChildren_memo root hids cs pre (namedModules m (subName pre n) memo).2 (fun e he => hsub e (List.mem_cons_of_mem _ he)) hcl'
    refine ⟨?_, ?_⟩
    · intro i
      rw [b1, a1]
      constructor
      · rintro ((h | ⟨x, hx, rfl⟩) | ⟨e, he, x, hx, rfl⟩)
        · exact Or.inl h
        · exact Or.inr ⟨_, List.mem_cons_self, x, hx, rfl⟩
        · exact Or.inr ⟨e, List.mem_cons_of_mem _ he, x, hx, rfl⟩
      · rintro (h | ⟨e, he, x, hx, rfl⟩)
        · exact Or.inl (Or.inl h)
        · rcases List.mem_cons.1 he with rfl | he
          · exact Or.inl (Or.inr ⟨x, hx, rfl⟩)
          · exact Or.inr ⟨e, he, x, hx, rfl⟩
    · intro i hi
      rcases b2 i hi with h | ⟨e, he, hee⟩
      · rcases a2 i h with h | ⟨e, he, hee⟩
        · exact Or.inl h
        · exact Or.inr ⟨e, List.mem_append.2 (Or.inl he), hee⟩
      · exact Or.inr ⟨e, List.mem_append.2 (Or.inr he), hee⟩
end

/-! ### The parameters -/

/-- `visit` keeps the first entry of each parameter. -/
theorem visit_spec (l : List (Name × Mod × Name × Nat)) : (visit l).Sublist l ∧ ((visit l).map (fun e => e.2.2.2)).Nodup ∧ ∀ e ∈ l, ∃ e' ∈ visit l, e'.2.2.2 = e.2.2.2 := by
  have key : ∀ (l : List (Name × Mod × Name × Nat)) (acc : List (Name × Mod × Name × Nat)) (seen : List Nat), (∀ p, p ∈ seen ↔ p ∈ acc.map (fun e => e.2.2.2)) → (acc.map (fun e => e.2.2.2)).Nodup →
      ∃ r, (l.foldl (fun acc e => if e.2.2.2 ∈ acc.2 then acc else (acc.1 ++ [e], e.2.2.2 :: acc.2)) (acc, seen)).1 = acc ++ r ∧ r.Sublist l ∧ ((acc ++ r).map (fun e => e.2.2.2)).Nodup ∧
        ∀ e ∈ l, ∃ e' ∈ acc ++ r, e'.2.2.2 = e.2.2.2 := by
    intro l
    induction l with
    | nil => intro acc seen _ h; exact ⟨[], by simp, List.Sublist.refl _, by simpa using h, by intro e he; exact absurd he List.not_mem_nil⟩
    | cons e l ih =>
      intro acc seen hs hn
      rw [List.foldl_cons]
      by_cases he : e.2.2.2 ∈ seen
      · simp only [if_pos he]
        obtain ⟨r, h1, h2, h3, h4⟩ := ih acc seen hs hn
        refine ⟨r, h1, h2.cons _, h3, ?_⟩
        intro x hx
        rcases List.mem_cons.1 hx with rfl | hx
        · obtain ⟨e', he', hee⟩ := List.mem_map.1 ((hs _).1 he)
          exact ⟨e', List.mem_append.2 (Or.inl he'), hee⟩
        · exact h4 x hx
      · simp only [if_neg he]
        obtain ⟨r, h1, h2, h3, h4⟩ := ih (acc ++ [e]) (e.2.2.2 :: seen) (by
          intro p
          rw [List.mem_cons, hs, List.map_append, List.mem_append, List.map_cons, List.map_nil, List.mem_singleton]
          tauto) (by
          rw [List.map_append, List.nodup_append']
          refine ⟨hn, by simp, ?_⟩
          intro p hp hp'
          simp only [List.map_cons, List.map_nil, List.mem_singleton] at hp'
          subst hp'
          exact he ((hs _).2 hp))
        refine ⟨e :: r, by rw [h1]; simp, h2.cons_cons _, by simpa using h3, ?_⟩
        intro x hx
        rcases List.mem_cons.1 hx with rfl | hx
        · exact ⟨x, by simp, rfl⟩
        · obtain ⟨e', he', hee⟩ := h4 x hx
          exact ⟨e', by simpa using he', hee⟩
  obtain ⟨r, h1, h2, h3, h4⟩ := key l [] [] (by simp) (by simp)
  unfold visit
  rw [h1]
  simp only [List.nil_append] at h3 h4 ⊢
  exact ⟨h2, h3, h4⟩

/-- What the loops see: all owners, with distinct full names. -/
theorem allParams_spec {root : Mod} (h : GoodNet root) : ((allParams root).map (fun e => e.1)).Nodup ∧
    (∀ e ∈ allParams root, Owner root e.2.1 e.2.2.1 e.2.2.2) ∧ (∀ m name p, Owner root m name p → ∃ full, (full, m, name, p) ∈ allParams root) := by
  obtain ⟨h1, h2⟩ := namedModules_names root [] [] (by simp) h.childNames
  obtain ⟨m1, m2⟩ := namedModules_memo root h.ids root [] [] (.refl _) (by intro x _ hx; cases hx)
  have hn : nameOf [] = [] := rfl
  rw [hn] at h1 h2
  refine ⟨?_, ?_, ?_⟩
  · unfold allParams
    rw [List.map_flatMap]
    simp only [List.map_map]
    generalize (namedModules root [] []).1 = L at h1 h2
    induction L with
    | nil => exact List.nodup_nil
    | cons e L ih =>
      rw [List.flatMap_cons, List.nodup_append']
      have h2' := List.nodup_cons.1 h2
      obtain ⟨q, hq, hqe, hsub⟩ := h1 e List.mem_cons_self
      rw [List.nil_append] at hqe
      obtain ⟨pn, pg⟩ := h.paramNames e.2 hsub
      have hfull : ∀ (e : Name × Mod) q, (∀ x ∈ q, GoodName x) → e.1 = nameOf q → ∀ n : Name, subName e.1 n = nameOf (q ++ [n]) := by
        intro e q hq hqe n; rw [hqe, nameOf_snoc q n hq]
      have hgood : ∀ (q : List Name) (n : Name), (∀ x ∈ q, GoodName x) → GoodName n → ∀ x ∈ q ++ [n], GoodName x := by
        intro q n hq hn x hx
        rcases List.mem_append.1 hx with hx | hx
        · exact hq x hx
        · rw [List.mem_singleton.1 hx]; exact hn
      refine ⟨?_, ih (fun e' he' => h1 e' (List.mem_cons_of_mem _ he')) h2'.2, ?_⟩
      · have : e.2.params.map ((fun x : Name × Mod × Name × Nat => x.1) ∘ fun p => (subName e.1 p.1, e.2, p.1, p.2)) = (e.2.params.map Prod.fst).map (subName e.1) := by
          rw [List.map_map]; rfl
        rw [this]
        refine List.Nodup.map_on ?_ pn
        intro a ha b hb hab
        rw [hfull e q hq hqe, hfull e q hq hqe] at hab
        have := nameOf_inj (hgood q a hq (pg a ha)) (hgood q b hq (pg b hb)) hab
        simpa using this
      · intro x hx hx'
        obtain ⟨p, hp, rfl⟩ := List.mem_map.1 hx
        obtain ⟨e', he', hx'⟩ := List.mem_flatMap.1 hx'
        obtain ⟨p', hp', hpe⟩ := List.mem_map.1 hx'
        obtain ⟨q', hq', hqe', hsub'⟩ := h1 e' (List.mem_cons_of_mem _ he')
        rw [List.nil_append] at hqe'
        obtain ⟨pn', pg'⟩ := h.paramNames e'.2 hsub'
        simp only [Function.comp_apply] at hpe
        rw [hfull e q hq hqe, hfull e' q' hq' hqe'] at hpe
        have := nameOf_inj (hgood q' p'.1 hq' (pg' _ (List.mem_map.2 ⟨p', hp', rfl⟩))) (hgood q p.1 hq (pg _ (List.mem_map.2 ⟨p, hp, rfl⟩))) hpe
        obtain ⟨hqq, _⟩ := List.append_inj' this rfl
        apply h2'.1
        rw [hqe, ← hqq, ← hqe']
        exact List.mem_map.2 ⟨e', he', rfl⟩
  · intro x hx
    unfold allParams at hx
    obtain ⟨e, he, hx⟩ := List.mem_flatMap.1 hx
    obtain ⟨p, hp, rfl⟩ := List.mem_map.1 hx
    obtain ⟨q, hq, hqe, hsub⟩ := h1 e he
    exact ⟨hsub, hp⟩
  · rintro m name p ⟨hm, hp⟩
    have hid : m.id ∈ (namedModules root [] []).2 := (m1 _).2 (Or.inr ⟨m, hm, rfl⟩)
    rcases m2 _ hid with h0 | ⟨e, he, hee⟩
    · cases h0
    · obtain ⟨q, hq, hqe, hsub⟩ := h1 e he
      have := h.ids e.2 m hsub hm hee
      refine ⟨subName e.1 name, ?_⟩
      unfold allParams
      refine List.mem_flatMap.2 ⟨e, he, List.mem_map.2 ⟨(name, p), this ▸ hp, ?_⟩⟩
      rw [this]

theorem eraseDups_nodup {α : Type} [BEq α] [LawfulBEq α] : ∀ (l : List α), l.Nodup → l.eraseDups = l
  | [], _ => rfl
  | a :: l, h => by
    obtain ⟨h1, h2⟩ := List.nodup_cons.1 h
    rw [List.eraseDups_cons, List.filter_eq_self.2, eraseDups_nodup l h2]
    intro x hx
    have : x ≠ a := fun e => h1 (e ▸ hx)
    simpa using this

theorem isNoWd_iff (custom : Mod → Name → Nat → Option Bool) (m : Mod) (name : Name) (p : Nat) : isNoWd custom m name p = true ↔ NoDecay custom m name p := by
  have he : endsWith name "bias".toList = true ↔ ∃ pre, name = pre ++ "bias".toList := by
    unfold endsWith
    rw [List.isPrefixOf_iff_prefix, List.reverse_prefix]
    exact ⟨fun ⟨t, ht⟩ => ⟨t, ht.symm⟩, fun ⟨t, ht⟩ => ⟨t, ht.symm⟩⟩
  unfold isNoWd NoDecay
  cases custom m name p with
  | none => simp only [Bool.or_eq_true, he, reduceCtorEq, false_or, true_and]
  | some b => cases b <;> simp

/-- C74: with weight decay there are two groups. Every parameter of the network is in exactly one of them, exactly once, and this is the group which the rule says for a module which has it. -/
theorem groups_partition {K : Type} [DecidableEq K] (zero w : K) (hw : w ≠ zero) (opts : WdOpts K) (ho : opts.weightDecay = some w) {root : Mod} (h : GoodNet root) :
    ∃ wd noWd, paramGroups zero true opts root = .ok [(some w, wd), (some zero, noWd)] ∧ (wd ++ noWd).Nodup ∧
      (∀ p, p ∈ wd ++ noWd ↔ ∃ m name, Owner root m name p) ∧
      (∀ p ∈ wd, ∃ m name, Owner root m name p ∧ ¬ NoDecay (opts.custom.getD (fun _ _ _ => none)) m name p) ∧
      (∀ p ∈ noWd, ∃ m name, Owner root m name p ∧ NoDecay (opts.custom.getD (fun _ _ _ => none)) m name p) := by
  obtain ⟨a1, a2, a3⟩ := allParams_spec h
  obtain ⟨v1, v2, v3⟩ := visit_spec (allParams root)
  generalize hcu : opts.custom.getD (fun _ _ _ => none) = custom
  have hnames : ((visit (allParams root)).map (fun e => e.1)).Nodup := (v1.map _).nodup a1
  have hd : (namedParameters root).foldl (fun d e => Dict.set d e.1 e.2) ([] : Dict Name Nat) = namedParameters root := by
    have : ((namedParameters root).map Prod.fst).Nodup := by unfold namedParameters; rw [List.map_map]; exact hnames
    exact mkDict_eq this
  have hdw : (namedParameters root).Wf := by
    show ((namedParameters root).map Prod.fst).Nodup
    unfold namedParameters; rw [List.map_map]; exact hnames
  have hside : ∀ b : Bool, ∃ ps, (sortNames (wdNames custom root b)).mapM (Dict.getItem (namedParameters root)) = .ok ps ∧
      ps.Perm (((visit (allParams root)).filter (fun e => isNoWd custom e.2.1 e.2.2.1 e.2.2.2 == b)).map (fun e => e.2.2.2)) := by
    intro b
    have hfn : (((visit (allParams root)).filter (fun e => isNoWd custom e.2.1 e.2.2.1 e.2.2.2 == b)).map (fun e => e.1)).Nodup := ((List.filter_sublist).map _).nodup hnames
    have hp1 : (sortNames (wdNames custom root b)).Perm (((visit (allParams root)).filter (fun e => isNoWd custom e.2.1 e.2.2.1 e.2.2.2 == b)).map (fun e => e.1)) := by
      unfold sortNames wdNames
      refine (stableSort_perm _ _).trans ?_
      exact (eraseDups_nodup _ hfn).symm ▸ List.Perm.refl _
    obtain ⟨ps, hps⟩ := mapM_total (f := Dict.getItem (namedParameters root)) (l := sortNames (wdNames custom root b)) (by
      intro n hn
      obtain ⟨e, he, rfl⟩ := List.mem_map.1 (hp1.mem_iff.1 hn)
      exact ⟨e.2.2.2, getItem_ok.2 ((get?_iff hdw _ _).2 (List.mem_map.2 ⟨e, (List.mem_filter.1 he).1, rfl⟩))⟩)
    refine ⟨ps, hps, ?_⟩
    have hf := (mapM_forall₂ hps).imp (fun _ _ h => getItem_ok.1 h)
    have e1 : ps = (sortNames (wdNames custom root b)).filterMap (fun n => (namedParameters root).get? n) := by
      clear hps hp1
      generalize sortNames (wdNames custom root b) = L at hf
      induction hf with
      | nil => rfl
      | cons h1 _ ih => rw [List.filterMap_cons_some h1, ih]
    have e2 : ((visit (allParams root)).filter (fun e => isNoWd custom e.2.1 e.2.2.1 e.2.2.2 == b)).map (fun e => e.2.2.2) =
        (((visit (allParams root)).filter (fun e => isNoWd custom e.2.1 e.2.2.1 e.2.2.2 == b)).map (fun e => e.1)).filterMap (fun n => (namedParameters root).get? n) := by
      have : ∀ L : List (Name × Mod × Name × Nat), (∀ e ∈ L, e ∈ visit (allParams root)) → L.map (fun e => e.2.2.2) = (L.map (fun e => e.1)).filterMap (fun n => (namedParameters root).get? n) := by
        intro L
        induction L with
        | nil => intro _; rfl
        | cons e L ih =>
          intro hL
          have he : (namedParameters root).get? e.1 = some e.2.2.2 := (get?_iff hdw _ _).2 (List.mem_map.2 ⟨e, hL e List.mem_cons_self, rfl⟩)
          rw [List.map_cons, List.map_cons, List.filterMap_cons_some he, ih (fun x hx => hL x (List.mem_cons_of_mem _ hx))]
      exact this _ (fun e he => (List.mem_filter.1 he).1)
    rw [e1, e2]
    exact hp1.filterMap _
  obtain ⟨wd, w1, w2⟩ := hside false
  obtain ⟨noWd, n1, n2⟩ := hside true
  refine ⟨wd, noWd, ?_, ?_, ?_, ?_, ?_⟩
  · unfold paramGroups
    have h1 : ¬ ((!true) = true) := by decide
    have h2 : ¬ (opts.weightDecay.getD zero = zero) := by rw [ho]; exact hw
    rw [if_neg h1, if_neg h2]
    simp only [hd, hcu, w1, n1, ho, bind, Except.bind, pure, Except.pure]
  · have hperm : (wd ++ noWd).Perm ((visit (allParams root)).map (fun e => e.2.2.2)) := by
      refine (w2.append n2).trans ?_
      rw [← List.map_append]
      refine List.Perm.map _ ?_
      have hsplit := List.filter_append_perm (fun e : Name × Mod × Name × Nat => isNoWd custom e.2.1 e.2.2.1 e.2.2.2 == false) (visit (allParams root))
      have hneg : (visit (allParams root)).filter (fun e => !(isNoWd custom e.2.1 e.2.2.1 e.2.2.2 == false)) = (visit (allParams root)).filter (fun e => isNoWd custom e.2.1 e.2.2.1 e.2.2.2 == true) := by
        apply List.filter_congr
        intro e _
        cases isNoWd custom e.2.1 e.2.2.1 e.2.2.2 <;> rfl
      rw [hneg] at hsplit
      exact hsplit
    exact hperm.nodup_iff.2 v2
  · intro p
    rw [List.mem_append, w2.mem_iff, n2.mem_iff]
    constructor
    · rintro (hp | hp)
      all_goals
        obtain ⟨e, he, rfl⟩ := List.mem_map.1 hp
        exact ⟨_, _, a2 e (v1.subset (List.mem_filter.1 he).1)⟩
    · rintro ⟨m, name, hO⟩
      obtain ⟨full, hfull⟩ := a3 m name p hO
      obtain ⟨e, he, hee⟩ := v3 _ hfull
      simp only at hee
      cases hb : isNoWd custom e.2.1 e.2.2.1 e.2.2.2 with
      | false => exact Or.inl (List.mem_map.2 ⟨e, List.mem_filter.2 ⟨he, by rw [hb]; rfl⟩, hee⟩)
      | true => exact Or.inr (List.mem_map.2 ⟨e, List.mem_filter.2 ⟨he, by rw [hb]; rfl⟩, hee⟩)
  · intro p hp
    obtain ⟨e, he, rfl⟩ := List.mem_map.1 (w2.mem_iff.1 hp)
    obtain ⟨he1, he2⟩ := List.mem_filter.1 he
    refine ⟨_, _, a2 e (v1.subset he1), ?_⟩
    rw [← isNoWd_iff]
    rw [beq_iff_eq.1 he2]
    decide
  · intro p hp
    obtain ⟨e, he, rfl⟩ := List.mem_map.1 (n2.mem_iff.1 hp)
    obtain ⟨he1, he2⟩ := List.mem_filter.1 he
    refine ⟨_, _, a2 e (v1.subset he1), ?_⟩
    rw [← isNoWd_iff]
    exact beq_iff_eq.1 he2

/-- C74: for a parameter of one module only (not shared), the group is exactly what the rule says. -/
theorem groups_rule {K : Type} [DecidableEq K] (zero w : K) (hw : w ≠ zero) (opts : WdOpts K) (ho : opts.weightDecay = some w) {root : Mod} (h : GoodNet root) {wd noWd : List Nat}
    (hr : paramGroups zero true opts root = .ok [(some w, wd), (some zero, noWd)]) {m : Mod} {name : Name} {p : Nat} (hp : Owner root m name p)
    (hu : ∀ m' name', Owner root m' name' p → m' = m ∧ name' = name) : (p ∈ noWd ↔ NoDecay (opts.custom.getD (fun _ _ _ => none)) m name p) ∧
      (p ∈ wd ↔ ¬ NoDecay (opts.custom.getD (fun _ _ _ => none)) m name p) := by
  obtain ⟨wd', noWd', e, hn, hall, h1, h2⟩ := groups_partition zero w hw opts ho h
  rw [hr, Except.ok.injEq] at e
  simp only [List.cons.injEq, Prod.mk.injEq, true_and, and_true] at e
  obtain ⟨rfl, rfl⟩ := e
  have hmem := (hall p).2 ⟨m, name, hp⟩
  have hW : p ∈ wd → ¬ NoDecay (opts.custom.getD (fun _ _ _ => none)) m name p := by
    intro hp
    obtain ⟨m', n', hO, hc⟩ := h1 p hp
    obtain ⟨rfl, rfl⟩ := hu m' n' hO
    exact hc
  have hN : p ∈ noWd → NoDecay (opts.custom.getD (fun _ _ _ => none)) m name p := by
    intro hp
    obtain ⟨m', n', hO, hc⟩ := h2 p hp
    obtain ⟨rfl, rfl⟩ := hu m' n' hO
    exact hc
  rcases List.mem_append.1 hmem with hm | hm
  · exact ⟨⟨hN, fun hc => (hW hm hc).elim⟩, ⟨hW, fun _ => hm⟩⟩
  · exact ⟨⟨hN, fun _ => hm⟩, ⟨hW, fun hc => (hc (hN hm)).elim⟩⟩

/-- C74: without weight decay, and without the options for it, there is one group with every parameter exactly once. -/
theorem groups_single {K : Type} [DecidableEq K] (zero : K) (accepts : Bool) (opts : WdOpts K) (hb : opts.hasBlacklist = false) (hc : opts.custom = none)
    (ho : opts.weightDecay = none ∨ (accepts = true ∧ opts.weightDecay = some zero)) {root : Mod} (h : GoodNet root) :
    ∃ ps, paramGroups zero accepts opts root = .ok [(opts.weightDecay, ps)] ∧ ps.Nodup ∧ ∀ p, p ∈ ps ↔ ∃ m name, Owner root m name p := by
  obtain ⟨a1, a2, a3⟩ := allParams_spec h
  obtain ⟨v1, v2, v3⟩ := visit_spec (allParams root)
  refine ⟨(namedParameters root).map Prod.snd, ?_, ?_, ?_⟩
  · have hl : checkLeft opts = .ok () := by unfold checkLeft; rw [hb, hc]; rfl
    unfold paramGroups
    rw [hl]
    cases accepts with
    | false =>
      rcases ho with ho | ⟨ho, _⟩
      · rw [ho]; rfl
      · cases ho
    | true =>
      have h1 : ¬ ((!true) = true) := by decide
      rw [if_neg h1, if_pos (by rcases ho with ho | ⟨_, ho⟩ <;> rw [ho] <;> rfl)]
      rfl
  · unfold namedParameters; rw [List.map_map]; exact v2
  · intro p
    unfold namedParameters
    rw [List.map_map]
    constructor
    · intro hp
      obtain ⟨e, he, rfl⟩ := List.mem_map.1 hp
      exact ⟨_, _, a2 e (v1.subset he)⟩
    · rintro ⟨m, name, hO⟩
      obtain ⟨full, hfull⟩ := a3 m name p hO
      obtain ⟨e, he, hee⟩ := v3 _ hfull
      exact List.mem_map.2 ⟨e, he, hee⟩

/-- Errors: weight decay for an optimizer without this option; and the options for the groups without weight decay are passed on to the optimizer, which does not know them. -/
theorem groups_errors {K : Type} [DecidableEq K] (zero : K) (opts : WdOpts K) (root : Mod) :
    (opts.weightDecay ≠ none → paramGroups zero false opts root = .error .assertion) ∧
    ((opts.hasBlacklist = true ∨ opts.custom ≠ none) → opts.weightDecay = none → ∀ accepts, paramGroups zero accepts opts root = .error .typeError) := by
  constructor
  · intro h
    unfold paramGroups
    cases hw : opts.weightDecay with
    | none => exact (h hw).elim
    | some w => rfl
  · intro h hw accepts
    have hl : checkLeft opts = .error .typeError := by
      unfold checkLeft
      rw [if_pos]
      rcases h with h | h
      · simp [h]
      · cases hc : opts.custom with
        | none => exact (h hc).elim
        | some _ => simp
    unfold paramGroups
    rw [hl, hw]
    cases accepts with
    | false => rfl
    | true =>
      have h1 : ¬ ((!true) = true) := by decide
      rw [if_neg h1, if_pos (show (none : Option K).getD zero = zero from rfl)]; rfl

/-! ### Examples -/

/-- A network: encoder with a linear layer (weight 1, bias 2) and a norm (3, 4), decoder which shares the linear layer and has an embedding with the parameter 5, and shares weight 5. -/
def exLinear : Mod := .mk 2 false [("weight".toList, 1), ("bias".toList, 2)] []
def exNorm : Mod := .mk 3 true [("scale".toList, 3), ("bias".toList, 4)] []
def exRoot : Mod := .mk 0 false [("out".toList, 5)] [("encoder".toList, .mk 1 false [] [("linear".toList, exLinear), ("norm".toList, exNorm)]), ("decoder".toList, exLinear),
  ("emb".toList, .mk 4 true [("weight".toList, 5)] [])]

example : (paramGroups (0 : Nat) true { weightDecay := some 7, hasBlacklist := false, custom := none } exRoot) = .ok [(some 7, [1, 5]), (some 0, [2, 4, 3])] := by rfl

theorem exRoot_sub {x : Mod} (h : Sub x exRoot) : x = exRoot ∨ x = .mk 1 false [] [("linear".toList, exLinear), ("norm".toList, exNorm)] ∨ x = exLinear ∨ x = exNorm ∨ x = .mk 4 true [("weight".toList, 5)] [] := by
  have hlin : ∀ {x}, Sub x exLinear → x = exLinear := by
    intro x h
    cases h with
    | refl => rfl
    | child hc _ => exact absurd hc List.not_mem_nil
  have hnorm : ∀ {x}, Sub x exNorm → x = exNorm := by
    intro x h
    cases h with
    | refl => rfl
    | child hc _ => exact absurd hc List.not_mem_nil
  cases h with
  | refl => exact Or.inl rfl
  | child hc h =>
    simp only [exRoot, Mod.children, List.mem_cons, Prod.mk.injEq, List.not_mem_nil, or_false] at hc
    rcases hc with ⟨_, rfl⟩ | ⟨_, rfl⟩ | ⟨_, rfl⟩
    · cases h with
      | refl => exact Or.inr (Or.inl rfl)
      | child hc h =>
        simp only [Mod.children, List.mem_cons, Prod.mk.injEq, List.not_mem_nil, or_false] at hc
        rcases hc with ⟨_, rfl⟩ | ⟨_, rfl⟩
        · exact Or.inr (Or.inr (Or.inl (hlin h)))
        · exact Or.inr (Or.inr (Or.inr (Or.inl (hnorm h))))
    · exact Or.inr (Or.inr (Or.inl (hlin h)))
    · cases h with
      | refl => exact Or.inr (Or.inr (Or.inr (Or.inr rfl)))
      | child hc _ => exact absurd hc List.not_mem_nil

theorem exRoot_good : GoodNet exRoot := by
  refine ⟨?_, ?_, ?_⟩
  · intro m hm
    rcases exRoot_sub hm with rfl | rfl | rfl | rfl | rfl <;> exact ⟨by decide, by unfold GoodName; decide⟩
  · intro m hm
    rcases exRoot_sub hm with rfl | rfl | rfl | rfl | rfl <;> exact ⟨by decide, by unfold GoodName; decide⟩
  · intro x y hx hy he
    rcases exRoot_sub hx with rfl | rfl | rfl | rfl | rfl <;> rcases exRoot_sub hy with rfl | rfl | rfl | rfl | rfl <;> first | rfl | exact absurd he (by decide)

/-- The check of the user gets the name inside of the module as `full_param_name`: a check for the full name of a parameter is never true for a parameter of a submodule. Here the user
excludes "encoder.linear.weight", but it gets weight decay. -/
theorem custom_name_wrong : ∃ (root : Mod) (full : Name), GoodNet root ∧ (full, 1) ∈ namedParameters root ∧
    paramGroups (0 : Nat) true { weightDecay := some 7, hasBlacklist := false, custom := some (fun _ name _ => some (name != full)) } root = .ok [(some 7, [2, 1, 4, 3, 5]), (some 0, [])] :=
  ⟨exRoot, "encoder.linear.weight".toList, exRoot_good, by decide, by rfl⟩

end Verif.Updater
