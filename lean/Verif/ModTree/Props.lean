import Verif.ModTree.Lemmas
/-
C100: every parameter and every module of a model is found exactly once, under a name which leads back to it; the PyTorch module has the
same parameters under the same names.
-/
namespace Verif.ModTree

open Verif.Py

theorem ids_modules (g : Graph) (root : Nat) :
    (namedModules g true true root).map Prod.snd = [root] ++ (bfs g true g.mods.length [([], root)] [root]).map Prod.snd := rfl

/-- **C100, modules.**  All modules which can be reached are found, each once, and its name leads to it.  Also with shared modules and
cycles. -/
theorem modules_once {g : Graph} (hw : g.Wf) {root : Nat} (hr : root < g.mods.length) :
    ((namedModules g true true root).map Prod.snd).Nodup
    ∧ (∀ m, m ∈ (namedModules g true true root).map Prod.snd ↔ Reach g root m)
    ∧ (∀ e ∈ namedModules g true true root, getDeep g root e.1 = .ok (.mod e.2)) := by
  have hs : ∀ e ∈ namedModules g true true root, Path g root e.1 (.mod e.2) := by
    intro e he
    rcases List.mem_append.mp he with he | he
    · rw [List.mem_singleton.mp he]
      exact .nil root
    · refine bfs_sound _ _ _ (fun e he => ?_) e he
      rw [List.mem_singleton.mp he]
      exact .nil root
  refine ⟨?_, fun m => ⟨fun hm => ?_, fun ⟨q, hq⟩ => ?_⟩, fun e he => (getDeep_iff hw _ _ _).mpr (hs e he)⟩
  · rw [ids_modules]
    exact bfs_nodup _ _ _ (by simp)
  · obtain ⟨e, he, rfl⟩ := List.mem_map.mp hm
    exact ⟨e.1, hs e he⟩
  · rw [ids_modules]
    exact reach_closed (bfs_closed hw _ _ _ (by simp) (by simpa using hr) (by simp) (by simp)) hq (by simp) m rfl

/-- **C100, parameters.**  All parameters of the model are found, each once, and its name leads to it. -/
theorem parameters_once {g : Graph} (hw : g.Wf) {root : Nat} (hr : root < g.mods.length) :
    ((namedParameters g true root).map Prod.snd).Nodup
    ∧ (∀ p, p ∈ (namedParameters g true root).map Prod.snd ↔ Owns g root p)
    ∧ (∀ e ∈ namedParameters g true root, getDeep g root e.1 = .ok (.param e.2)) := by
  obtain ⟨m1, m2, m3⟩ := modules_once hw hr
  obtain ⟨c1, c2, c3⟩ := collect_spec g (namedModules g true true root) []
  have hs : ∀ e ∈ namedParameters g true root, Path g root e.1 (.param e.2) := by
    intro e he
    obtain ⟨x, hx, a, h1, h2⟩ := c2 e he
    rw [h1]
    exact ((getDeep_iff hw _ _ _).mp (m3 x hx)).snoc rfl h2
  refine ⟨c1 List.nodup_nil, fun p => ⟨fun hp => ?_, fun ⟨q, hq⟩ => ?_⟩, fun e he => (getDeep_iff hw _ _ _).mpr (hs e he)⟩
  · obtain ⟨e, he, rfl⟩ := List.mem_map.mp hp
    exact ⟨e.1, hs e he⟩
  · obtain ⟨m', a, h1, h2⟩ := path_param hq rfl
    obtain ⟨x, hx, rfl⟩ := List.mem_map.mp ((m2 m').mpr h1)
    exact c3 x hx a p h2

/-- The names are different. -/
theorem names_distinct {g : Graph} (hw : g.Wf) {root : Nat} (hr : root < g.mods.length) :
    ((namedModules g true true root).map Prod.fst).Nodup ∧ ((namedParameters g true root).map Prod.fst).Nodup := by
  obtain ⟨m1, -, m3⟩ := modules_once hw hr
  obtain ⟨p1, -, p3⟩ := parameters_once hw hr
  refine ⟨?_, ?_⟩
  · refine List.Nodup.map_on (fun x hx y hy hxy => ?_) (List.Nodup.of_map _ m1)
    have h1 := m3 x hx
    rw [hxy, m3 y hy] at h1
    cases h1' : x
    cases h2' : y
    rw [h1', h2'] at h1 hxy
    simp only [Except.ok.injEq, Val.mod.injEq] at h1
    simp only at hxy
    rw [hxy, h1]
  · refine List.Nodup.map_on (fun x hx y hy hxy => ?_) (List.Nodup.of_map _ p1)
    have h1 := p3 x hx
    rw [hxy, p3 y hy] at h1
    cases h1' : x
    cases h2' : y
    rw [h1', h2'] at h1 hxy
    simp only [Except.ok.injEq, Val.param.injEq] at h1
    simp only at hxy
    rw [hxy, h1]

/-- Without recursion: the parameters of the module itself. -/
theorem own_parameters {g : Graph} {root : Nat} :
    ((namedParameters g false root).map Prod.snd).Nodup
    ∧ (∀ p, p ∈ (namedParameters g false root).map Prod.snd ↔ ∃ a, (a, Val.param p) ∈ g.vars root)
    ∧ (∀ e ∈ namedParameters g false root, ∃ a, e.1 = [a] ∧ (a, Val.param e.2) ∈ g.vars root) := by
  obtain ⟨c1, c2, c3⟩ := collect_spec g [([], root)] []
  have hs : ∀ e ∈ namedParameters g false root, ∃ a, e.1 = [a] ∧ (a, Val.param e.2) ∈ g.vars root := by
    intro e he
    obtain ⟨x, hx, a, h1, h2⟩ := c2 e he
    rw [List.mem_singleton.mp hx] at h1 h2
    exact ⟨a, h1, h2⟩
  refine ⟨c1 List.nodup_nil, fun p => ⟨fun hp => ?_, fun ⟨a, ha⟩ => ?_⟩, hs⟩
  · obtain ⟨e, he, rfl⟩ := List.mem_map.mp hp
    obtain ⟨a, -, h2⟩ := hs e he
    exact ⟨a, h2⟩
  · exact c3 ([], root) (by simp) a p ha

/-! ### `children` and `apply` -/

theorem children_eq (g : Graph) (m : Nat) : children g m = (visit [] (g.vars m) [m]).1.map Prod.snd := by
  unfold children namedModules
  cases hn : g.mods.length with
  | zero =>
    have : g.vars m = [] := by
      unfold Graph.vars
      rw [List.length_eq_zero_iff.mp hn]
      rfl
    rw [this]
    rfl
  | succ n =>
    simp only [Bool.false_eq_true, if_false, List.nil_append, bfs]
    cases n <;> simp [bfs]

/-- The children of a module: the other modules among its attributes, each once. -/
theorem children_right (g : Graph) (m : Nat) :
    (children g m).Nodup ∧ ∀ c, c ∈ children g m ↔ c ≠ m ∧ ∃ a, (a, Val.mod c) ∈ g.vars m := by
  rw [children_eq]
  obtain ⟨v1, v2, v3, v4⟩ := visit_spec [] (g.vars m) [m]
  have hn := v2 (by simp)
  rw [v1] at hn
  have hn' := List.nodup_append.mp hn
  refine ⟨hn'.2.1, fun c => ⟨fun hc => ⟨fun h => ?_, ?_⟩, fun ⟨hne, a, ha⟩ => ?_⟩⟩
  · exact hn'.2.2 m (by simp) c hc h.symm
  · obtain ⟨e, he, rfl⟩ := List.mem_map.mp hc
    obtain ⟨a, -, h2⟩ := v3 e he
    exact ⟨a, h2⟩
  · have := v4 a c ha
    rw [v1] at this
    rcases List.mem_append.mp this with h | h
    · exact absurd (List.mem_singleton.mp h) hne
    · exact h

theorem concatM_ok {α β : Type} {f : α → Res (List β)} : ∀ (xs : List α), (∀ x ∈ xs, ∃ l, f x = .ok l) →
    ∃ L, concatM f xs = .ok L ∧ (∀ y, y ∈ L ↔ ∃ x ∈ xs, ∃ l, f x = .ok l ∧ y ∈ l) := by
  intro xs
  induction xs with
  | nil => exact fun _ => ⟨[], rfl, by simp⟩
  | cons x xs ih =>
    intro h
    obtain ⟨l, hl⟩ := h x (by simp)
    obtain ⟨L, hL, hm⟩ := ih (fun y hy => h y (List.mem_cons_of_mem _ hy))
    refine ⟨l ++ L, by rw [concatM, hl, hL]; rfl, fun y => ?_⟩
    rw [List.mem_append, hm]
    constructor
    · rintro (hy | ⟨x', hx', l', h1, h2⟩)
      · exact ⟨x, by simp, l, hl, hy⟩
      · exact ⟨x', List.mem_cons_of_mem _ hx', l', h1, h2⟩
    · rintro ⟨x', hx', l', h1, h2⟩
      rcases List.mem_cons.mp hx' with rfl | hx'
      · rw [hl] at h1
        cases h1
        exact .inl h2
      · exact .inr ⟨x', hx', l', h1, h2⟩

/-- Elements of one part keep the elements before them. -/
theorem concatM_before {α β : Type} {f : α → Res (List β)} {P : β → β → Prop} : ∀ (xs : List α) (L : List β), concatM f xs = .ok L →
    (∀ x ∈ xs, ∀ l, f x = .ok l → ∀ pre y post, l = pre ++ y :: post → ∀ c, P y c → c ∈ pre) →
    ∀ pre y post, L = pre ++ y :: post → ∀ c, P y c → c ∈ pre := by
  intro xs
  induction xs with
  | nil =>
    intro L hL _ pre y post h
    cases hL
    simp at h
  | cons x xs ih =>
    intro L hL hf pre y post h c hc
    rw [concatM] at hL
    cases hx : f x with
    | error e => rw [hx] at hL; cases hL
    | ok l =>
      rw [hx] at hL
      cases hr : concatM f xs with
      | error e => rw [hr] at hL; cases hL
      | ok L' =>
        rw [hr] at hL
        cases hL
        have h' : l ++ L' = pre ++ y :: post := h
        rcases List.append_eq_append_iff.mp h' with ⟨w, h1, h2⟩ | ⟨w, h1, h2⟩
        · -- `pre = l ++ w`
          rw [h1]
          exact List.mem_append_right _ (ih L' hr (fun x' hx' => hf x' (List.mem_cons_of_mem _ hx')) w y post h2 c hc)
        · cases w with
          | nil =>
            simp only [List.nil_append] at h2
            have := ih L' hr (fun x' hx' => hf x' (List.mem_cons_of_mem _ hx')) [] y post h2.symm c hc
            simp at this
          | cons w0 w =>
            simp only [List.cons_append, List.cons.injEq] at h2
            obtain ⟨rfl, -⟩ := h2
            exact hf x (by simp) l hx pre y w h1 c hc

theorem reach_cons {g : Graph} {m c x : Nat} {a : String} (ha : (a, Val.mod c) ∈ g.vars m) (hr : Reach g c x) : Reach g m x := by
  obtain ⟨q, hq⟩ := hr
  by_cases h0 : q = []
  · subst h0
    cases hq
    exact ⟨[a], .leaf ha⟩
  · exact ⟨a :: q, .cons ha h0 hq⟩

theorem reach_cases {g : Graph} {m x : Nat} (hr : Reach g m x) : x = m ∨ ∃ a c, (a, Val.mod c) ∈ g.vars m ∧ Reach g c x := by
  obtain ⟨q, hq⟩ := hr
  cases hq with
  | nil => exact .inl rfl
  | leaf ha => exact .inr ⟨_, _, ha, [], .nil _⟩
  | cons ha _ hp => exact .inr ⟨_, _, ha, _, hp⟩

theorem reach_height {g : Graph} {height : Nat → Nat} (hac : Acyclic g height) {m x : Nat} {q : Name} {v : Val} (hp : Path g m q v) :
    v = .mod x → height x ≤ height m := by
  induction hp with
  | nil m => intro h; cases h; exact Nat.le_refl _
  | leaf ha => intro h; subst h; exact Nat.le_of_lt (hac _ _ _ ha)
  | cons ha _ _ ih => intro h; exact Nat.le_trans (ih h) (Nat.le_of_lt (hac _ _ _ ha))

/-- **C100, `apply`.**  Without cycles, the function is applied to all modules which can be reached, and to a module only after its
children. -/
theorem apply_right {g : Graph} {height : Nat → Nat} (hac : Acyclic g height) : ∀ (f m : Nat), height m < f →
    ∃ L, applyOrder g f m = .ok L ∧ (∀ x, x ∈ L ↔ Reach g m x)
      ∧ ∀ pre x post, L = pre ++ x :: post → ∀ a c, (a, Val.mod c) ∈ g.vars x → c ∈ pre := by
  intro f
  induction f with
  | zero => exact fun m h => absurd h (by omega)
  | succ f ih =>
    intro m hm
    have hch : ∀ c, c ∈ children g m ↔ ∃ a, (a, Val.mod c) ∈ g.vars m := by
      intro c
      rw [(children_right g m).2]
      constructor
      · exact fun h => h.2
      · rintro ⟨a, ha⟩
        refine ⟨fun h => ?_, a, ha⟩
        have := hac m a c ha
        rw [h] at this
        omega
    have hlt : ∀ c ∈ children g m, height c < f := by
      intro c hc
      obtain ⟨a, ha⟩ := (hch c).mp hc
      have := hac m a c ha
      omega
    obtain ⟨L, hL, hmem⟩ := concatM_ok (f := applyOrder g f) (children g m)
      (fun c hc => by obtain ⟨l, hl, _⟩ := ih c (hlt c hc); exact ⟨l, hl⟩)
    refine ⟨L ++ [m], by rw [applyOrder, hL]; rfl, fun x => ?_, fun pre x post hsplit a c hac' => ?_⟩
    · rw [List.mem_append, hmem, List.mem_singleton]
      constructor
      · rintro (⟨c, hc, l, h1, h2⟩ | rfl)
        · obtain ⟨l', hl', hx, -⟩ := ih c (hlt c hc)
          rw [h1] at hl'
          cases hl'
          obtain ⟨a, ha⟩ := (hch c).mp hc
          exact reach_cons ha ((hx x).mp h2)
        · exact ⟨[], .nil _⟩
      · intro hr
        rcases reach_cases hr with h | ⟨a, c, ha, hr⟩
        · exact .inr h
        · left
          have hc := (hch c).mpr ⟨a, ha⟩
          obtain ⟨l, hl, hx, -⟩ := ih c (hlt c hc)
          exact ⟨c, hc, l, hl, (hx x).mpr hr⟩
    · rcases List.append_eq_append_iff.mp hsplit with ⟨w, h1, h2⟩ | ⟨w, h1, h2⟩
      · -- `x` is the module itself
        cases w with
        | nil =>
          simp only [List.nil_append, List.cons.injEq] at h2
          obtain ⟨rfl, -⟩ := h2
          rw [h1, List.append_nil, hmem]
          have hc := (hch c).mpr ⟨a, hac'⟩
          obtain ⟨l, hl, hx, -⟩ := ih c (hlt c hc)
          exact ⟨c, hc, l, hl, (hx c).mpr ⟨[], .nil c⟩⟩
        | cons w0 w => simp at h2
      · cases w with
        | nil =>
          simp only [List.append_nil, List.nil_append, List.cons.injEq] at h1 h2
          obtain ⟨rfl, -⟩ := h2
          rw [← h1, hmem]
          have hc := (hch c).mpr ⟨a, hac'⟩
          obtain ⟨l, hl, hx, -⟩ := ih c (hlt c hc)
          exact ⟨c, hc, l, hl, (hx c).mpr ⟨[], .nil c⟩⟩
        | cons w0 w =>
          simp only [List.cons_append, List.cons.injEq] at h2
          obtain ⟨rfl, -⟩ := h2
          refine concatM_before (P := fun y c => ∃ a, (a, Val.mod c) ∈ g.vars y) (children g m) L hL
            (fun c' hc' l hl pre' y post' hs c'' hc'' => ?_) pre x w h1 c ⟨a, hac'⟩
          obtain ⟨l', hl', -, hb⟩ := ih c' (hlt c' hc')
          rw [hl] at hl'
          cases hl'
          obtain ⟨a'', ha''⟩ := hc''
          exact hb pre' y post' hs a'' c'' ha''

theorem concatM_nodup {α β : Type} {f : α → Res (List β)} : ∀ (xs : List α) (L : List β), concatM f xs = .ok L →
    (∀ x ∈ xs, ∀ l, f x = .ok l → l.Nodup) →
    xs.Pairwise (fun x x' => ∀ l l', f x = .ok l → f x' = .ok l' → ∀ y ∈ l, y ∉ l') → L.Nodup := by
  intro xs
  induction xs with
  | nil => intro L hL _ _; cases hL; exact List.nodup_nil
  | cons x xs ih =>
    intro L hL hn hp
    rw [concatM] at hL
    cases hx : f x with
    | error e => rw [hx] at hL; cases hL
    | ok l =>
      rw [hx] at hL
      cases hr : concatM f xs with
      | error e => rw [hr] at hL; cases hL
      | ok L' =>
        rw [hr] at hL
        cases hL
        rw [List.pairwise_cons] at hp
        refine List.nodup_append.mpr ⟨hn x (by simp) l hx, ih L' hr (fun x' hx' => hn x' (List.mem_cons_of_mem _ hx')) hp.2,
          fun y hy y' hy' hyy => ?_⟩
        subst hyy
        obtain ⟨x', hx', l', h1, h2⟩ := mem_parts xs L' hr y hy'
        exact hp.1 x' hx' l l' hx h1 y hy h2
where
  mem_parts {α β : Type} {f : α → Res (List β)} : ∀ (xs : List α) (L : List β), concatM f xs = .ok L → ∀ y ∈ L,
      ∃ x ∈ xs, ∃ l, f x = .ok l ∧ y ∈ l := by
    intro xs
    induction xs with
    | nil => intro L hL y hy; cases hL; simp at hy
    | cons x xs ih =>
      intro L hL y hy
      rw [concatM] at hL
      cases hx : f x with
      | error e => rw [hx] at hL; cases hL
      | ok l =>
        rw [hx] at hL
        cases hr : concatM f xs with
        | error e => rw [hr] at hL; cases hL
        | ok L' =>
          rw [hr] at hL
          cases hL
          rcases List.mem_append.mp hy with h | h
          · exact ⟨x, by simp, l, hx, h⟩
          · obtain ⟨x', hx', h'⟩ := ih L' hr y h
            exact ⟨x', List.mem_cons_of_mem _ hx', h'⟩

theorem tree_child {g : Graph} {m c : Nat} {a : String} (ht : IsTree g m) (ha : (a, Val.mod c) ∈ g.vars m) : IsTree g c := by
  intro q q' v hv h1 h2
  have up : ∀ q, Path g c q v → Path g m (a :: q) v := by
    intro q hq
    by_cases h0 : q = []
    · subst h0
      cases hq
      exact .leaf ha
    · exact .cons ha h0 hq
  have := ht _ _ v hv (up q h1) (up q' h2)
  simpa using this

/-- If nothing is shared, the function is applied to every module once. -/
theorem apply_once {g : Graph} (hw : g.Wf) {height : Nat → Nat} (hac : Acyclic g height) : ∀ (f m : Nat), height m < f → IsTree g m →
    ∃ L, applyOrder g f m = .ok L ∧ L.Nodup := by
  intro f
  induction f with
  | zero => exact fun m h => absurd h (by omega)
  | succ f ih =>
    intro m hm ht
    obtain ⟨L, hL, hx, -⟩ := apply_right hac (f + 1) m hm
    refine ⟨L, hL, ?_⟩
    have hch := (children_right g m).2
    have hlt : ∀ c ∈ children g m, height c < f := by
      intro c hc
      obtain ⟨-, a, ha⟩ := (hch c).mp hc
      have := hac m a c ha
      omega
    rw [applyOrder] at hL
    cases hr : concatM (applyOrder g f) (children g m) with
    | error e => rw [hr] at hL; cases hL
    | ok L' =>
      rw [hr] at hL
      cases hL
      refine List.nodup_append.mpr ⟨concatM_nodup _ _ hr (fun c hc l hl => ?_) ?_, by simp, fun y hy y' hy' hyy => ?_⟩
      · obtain ⟨-, a, ha⟩ := (hch c).mp hc
        obtain ⟨l', hl', hn⟩ := ih c (hlt c hc) (tree_child ht ha)
        rw [hl] at hl'
        cases hl'
        exact hn
      · refine List.Pairwise.imp_of_mem (fun {c c'} hc hc' hne => ?_) (children_right g m).1
        intro l l' h1 h2 y hy hy'
        obtain ⟨-, a, ha⟩ := (hch c).mp hc
        obtain ⟨-, a', ha'⟩ := (hch c').mp hc'
        obtain ⟨l1, k1, k2, -⟩ := apply_right hac f c (hlt c hc)
        obtain ⟨l2, k3, k4, -⟩ := apply_right hac f c' (hlt c' hc')
        rw [h1] at k1
        rw [h2] at k3
        cases k1
        cases k3
        obtain ⟨q, hq⟩ := (k2 y).mp hy
        obtain ⟨q', hq'⟩ := (k4 y).mp hy'
        -- two ways to `y`, so the first attributes are the same, and the children
        have up : ∀ {c a q}, (a, Val.mod c) ∈ g.vars m → Path g c q (.mod y) → Path g m (a :: q) (.mod y) := by
          intro c a q ha hq
          by_cases h0 : q = []
          · subst h0
            cases hq
            exact .leaf ha
          · exact .cons ha h0 hq
        have e := ht _ _ (.mod y) (by simp) (up ha hq) (up ha' hq')
        simp only [List.cons.injEq] at e
        have e1 := e.1
        subst e1
        have := List.inj_on_of_nodup_map (hw.names m) ha ha' rfl
        simp only [Prod.mk.injEq, Val.mod.injEq, true_and] at this
        exact hne this
      · subst hyy
        rw [List.mem_singleton.mp hy'] at hy
        obtain ⟨c, hc, l, h1, h2⟩ := concatM_nodup.mem_parts _ _ hr m hy
        obtain ⟨l1, k1, k2, -⟩ := apply_right hac f c (hlt c hc)
        rw [h1] at k1
        cases k1
        obtain ⟨q, hq⟩ := (k2 m).mp h2
        have := reach_height hac hq rfl
        obtain ⟨-, a, ha⟩ := (hch c).mp hc
        have := hac m a c ha
        omega

end Verif.ModTree
