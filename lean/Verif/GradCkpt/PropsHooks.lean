import Verif.GradCkpt.HooksLemmas
/-
What the hooks of the autograd engine do for programs which use `gradient_checkpoint_scope` (C91).
-/
namespace Verif.GradCkpt.Hooks

open Verif.Py

theorem die_mid {o L : List Nat} {t : T} (h : Mid o L t) (c : Nat) :
    Mid o L { t with ck := fun i => if i = c then { t.ck c with alive := false } else t.ck i } := by
  have hun : ∀ x, unexited { t with ck := fun i => if i = c then { t.ck c with alive := false } else t.ck i } x ↔ unexited t x := by
    intro x
    unfold unexited
    simp only
    split
    · next e => rw [e]
    · exact Iff.rfl
  refine ⟨h.real, h.nodup, h.sub, h.qsub, h.qnodup, ?_, ?_, ?_, ?_, h.empty, h.inited⟩
  · intro x hx
    rcases h.cover x hx with a | a | a
    · exact Or.inl a
    · exact Or.inr (Or.inl a)
    · exact Or.inr (Or.inr ⟨a.1, (hun x).mpr a.2⟩)
  · intro x hx
    obtain ⟨a, b⟩ := h.cbs x hx
    refine ⟨?_, fun hu => b ((hun x).mp hu)⟩
    simp only
    split
    · next e => rw [← e]; exact a
    · exact a
  · intro x hx; exact h.known x ((hun x).mp hx)
  · intro x hx
    simp only at hx ⊢
    split
    · rfl
    · next e => rw [if_neg e] at hx; exact h.dead x hx

/-- The tensors of a scope go away in another thread. -/
theorem die_inv {p : P} {t : T} (h : Inv p t) {c : Nat} :
    Inv (p.step (.die c false)) { t with ck := fun i => if i = c then { t.ck c with alive := false } else t.ck i } := by
  have hun : ∀ x, unexited { t with ck := fun i => if i = c then { t.ck c with alive := false } else t.ck i } x ↔ unexited t x := by
    intro x
    unfold unexited
    simp only
    split
    · next e => rw [e]
    · exact Iff.rfl
  have hfr : ∀ x, t.ck x = ⟨false, false, false⟩ → (if x = c then { t.ck c with alive := false } else t.ck x) = ⟨false, false, false⟩ := by
    intro x hx
    split
    · next e => rw [← e, hx]
    · exact hx
  refine ⟨⟨fun ha => ?_, fun ha => ?_⟩, ?_, ?_, ?_, ?_, ?_, ?_, h.openedUsed, h.openedNodup⟩
  · obtain ⟨o1, o2, o3, o4, o5⟩ := h.post.off ha
    exact ⟨o1, o2, o3, o4, fun x hx => o5 x ((hun x).mp hx)⟩
  · obtain ⟨m1, m2, m3⟩ := h.post.on ha
    exact ⟨die_mid m1 c, m2, m3⟩
  · intro x hx
    simp only at hx ⊢
    split
    · rfl
    · next e => rw [if_neg e] at hx; exact h.dead x hx
  · intro x
    simp only [P.step, List.mem_filter, decide_eq_true_eq]
    by_cases e : x = c
    · simp [e]
    · simp [e, h.alive x]
  · intro x hx
    simp only at hx ⊢
    by_cases e : x = c
    · rw [if_pos e] at hx; simp at hx
    · rw [if_neg e] at hx ⊢; exact h.args x hx
  · intro x hx
    obtain ⟨f1, f2⟩ := h.fresh x hx
    exact ⟨hfr x f1, f2⟩
  · intro x hx; exact h.kept x ((hun x).mp hx)
  · intro x hx; exact hfr x (h.openedCk x hx)

/-- A checkpoint scope is left with tensors alive. -/
theorem keep_inv {p : P} {t : T} (h : Inv p t) {c : Nat} {r : List Nat} (hop : p.opened = c :: r)
    (hal : p.alive ≠ [] ∨ p.opened = [c]) (other : Bool) :
    ∃ t', ckptExit other c true t = .ok t' ∧ Inv (p.step (.ckLeave c true)) t' := by
  have hcfresh := h.openedCk c (by rw [hop]; simp)
  have hcr : c ∉ r := by
    have := h.openedNodup
    rw [hop, List.nodup_cons] at this
    exact this.1
  have hrest : ∀ t2 : T, t2.ck = (fun i => if i = c then ⟨true, false, true⟩ else t.ck i) →
      (∀ x ∈ t2.stack, x ∈ t.stack ∨ x = c) → Post r t2 → Inv (p.step (.ckLeave c true)) t2 := by
    intro t2 hck hst hp
    have hne : ∀ x, x ≠ c → t2.ck x = t.ck x := by
      intro x hx; rw [hck]; simp [hx]
    refine ⟨by simpa [P.step, hop] using hp, ?_, ?_, ?_, ?_, ?_, ?_, ?_, ?_⟩
    · intro x
      by_cases e : x = c
      · subst e; simp [hck]
      · rw [hne x e]; exact h.dead x
    · intro x
      simp only [P.step, if_true, List.mem_cons]
      by_cases e : x = c
      · subst e; simp [hck]
      · rw [hne x e, ← h.alive x]; simp [e]
    · intro x
      by_cases e : x = c
      · subst e; simp [hck]
      · rw [hne x e]; exact h.args x
    · intro x hx
      simp only [P.step] at hx
      have e : x ≠ c := fun e => hx (by rw [e]; exact h.openedUsed c (by rw [hop]; simp))
      obtain ⟨f1, f2⟩ := h.fresh x hx
      refine ⟨by rw [hne x e, f1], fun hc => ?_⟩
      rcases hst x hc with a | a
      · exact f2 a
      · exact e a
    · intro x hx
      simp only [P.step, if_true, List.mem_cons]
      by_cases e : x = c
      · exact Or.inl e
      · right
        apply h.kept
        unfold unexited at hx ⊢
        rw [hne x e] at hx
        exact hx
    · intro x hx
      simp only [P.step, hop, List.tail_cons] at hx
      rw [hne x (fun e => hcr (by rw [← e]; exact hx))]
      exact h.openedCk x (by rw [hop]; simp [hx])
    · intro x hx
      simp only [P.step, hop, List.tail_cons] at hx
      simp only [P.step]
      exact h.openedUsed x (by rw [hop]; simp [hx])
    · have := h.openedNodup
      rw [hop, List.nodup_cons] at this
      simp only [P.step, hop, List.tail_cons]
      exact this.2
  have hckeq : (fun i => if i = c then (⟨true, (t.ck c).exited, true⟩ : Ck) else t.ck i) =
      (fun i => if i = c then ⟨true, false, true⟩ else t.ck i) := by
    rw [hcfresh]
  unfold ckptExit
  simp only [if_true]
  rw [hckeq]
  by_cases ha : t.active = true
  · obtain ⟨m1, m2, m3⟩ := h.post.on ha
    unfold register
    rw [if_pos (by exact ha)]
    refine ⟨_, rfl, hrest _ rfl (fun x hx => Or.inl hx) ⟨fun hc => ?_, fun _ => ⟨?_, m2, m3⟩⟩⟩
    · simp only at hc; rw [ha] at hc; simp at hc
    · have hun : ∀ x, x ≠ c → ((((if x = c then (⟨true, false, true⟩ : Ck) else t.ck x)).exitArgs = true ∧
          ((if x = c then (⟨true, false, true⟩ : Ck) else t.ck x)).exited = false) ↔ unexited t x) := by
        intro x hx
        rw [if_neg hx]
        exact Iff.rfl
      have hsubset : r.Sublist p.opened := by rw [hop]; exact List.sublist_cons_self _ _
      have hcst : c ∈ t.stack := m1.sub.subset (by rw [hop]; simp)
      have hcq : c ∉ t.queued := fun hc => (m1.qsub c hc).2 (by rw [hop]; simp)
      refine ⟨m1.real, m1.nodup, hsubset.trans m1.sub, ?_, m1.qnodup, ?_, ?_, ?_, ?_, ?_, m1.inited⟩
      · intro x hx
        obtain ⟨a, b⟩ := m1.qsub x hx
        exact ⟨a, fun hc => b (hsubset.subset hc)⟩
      · intro x hx
        by_cases e : x = c
        · right; right
          subst e
          refine ⟨by simp, ?_⟩
          unfold unexited
          simp
        · rcases m1.cover x hx with a | a | a
          · left
            rw [hop] at a
            rcases List.mem_cons.mp a with a | a
            · exact absurd a e
            · exact a
          · exact Or.inr (Or.inl a)
          · right; right; exact ⟨by simp [a.1], (hun x e).mpr a.2⟩
      · intro x hx
        by_cases e : x = c
        · subst e
          refine ⟨by simp, fun _ => ⟨hcst, hcq, hcr⟩⟩
        · simp only [List.mem_append, List.mem_singleton] at hx
          obtain ⟨d1, d2⟩ := m1.cbs x (hx.resolve_right e)
          refine ⟨by simp [e, d1], fun hu => ?_⟩
          obtain ⟨e1, e2, e3⟩ := d2 ((hun x e).mp hu)
          exact ⟨e1, e2, fun hc => e3 (hsubset.subset hc)⟩
      · intro x hx
        simp only [List.mem_append, List.mem_singleton]
        by_cases e : x = c
        · exact Or.inr e
        · exact Or.inl (m1.known x ((hun x e).mp hx))
      · intro x hx
        by_cases e : x = c
        · subst e; simp at hx
        · simp only [if_neg e] at hx ⊢; exact m1.dead x hx
      · intro hc; simp only at hc; rw [ha] at hc; simp at hc
  · have hop1 : p.opened = [c] := by
      rcases hal with e | e
      · exact absurd (inv_active_of_alive h e) ha
      · exact e
    have hr : r = [] := by rw [hop1] at hop; simpa using hop.symm
    simp only [Bool.not_eq_true] at ha
    obtain ⟨o1, o2, o3, o4, o5⟩ := h.post.off ha
    rw [hop1] at o1
    have hreg : ∀ T1 : T, T1.active = false → T1.stack = [] → T1.callbacks = [] → T1.queued = [] →
        register c T1 = { T1 with active := true, stack := [c], inited := true } := by
      intro T1 a1 a2 a3 a4
      unfold register
      rw [if_neg (by simp [a1])]
      cases T1
      simp only at a1 a2 a3 a4
      subst a1 a2 a3 a4
      simp only
      split
      · next hi => rw [hi]
      · rfl
    rw [hreg { t with ck := fun i => if i = c then (⟨true, false, true⟩ : Ck) else t.ck i } ha o2 o4 o3]
    have hm : Mid r [c] (T.mk t.real [c] [c] t.queued true true
        (fun i => if i = c then ⟨true, false, true⟩ else t.ck i)) := by
      subst hr
      refine ⟨o1, by simp, by simp, by simp [o3], by simp [o3], ?_, ?_, ?_, ?_, by simp, rfl⟩
      · intro x hx
        simp only [List.mem_singleton] at hx
        right; right
        exact ⟨by simp [hx], by simp [unexited, hx]⟩
      · intro x hx
        simp only [List.mem_singleton] at hx
        subst hx
        exact ⟨by simp, fun _ => ⟨by simp, by simp [o3], by simp⟩⟩
      · intro x hx
        by_cases e : x = c
        · simp [e]
        · exact absurd (by unfold unexited at hx ⊢; simpa [e] using hx) (o5 x)
      · intro x hx
        by_cases e : x = c
        · subst e; simp at hx
        · simp only [if_neg e] at hx ⊢; exact h.dead x hx
    refine ⟨_, rfl, hrest _ rfl (fun x hx => ?_) ⟨fun hc => by simp at hc, fun _ => ⟨?_, by simp, by simp [o3]⟩⟩⟩
    · simp only [List.mem_singleton] at hx; exact Or.inr hx
    · simpa [o4] using hm

/-- Every event which is allowed succeeds, and keeps the invariant. -/
theorem step_inv {p : P} {t : T} (h : Inv p t) {o : Bool} {e : Ev} (hm : p.may e) (hal : p.alone e)
    (ho : o = true → p.alive ≠ []) :
    ∃ t', step o e t = .ok t' ∧ Inv (p.step e) t' ∧
      (∀ s, e = .enter s ∨ e = .ckEnter s → ∃ r, t'.real = s :: r) ∧
      ((∃ s, e = .leave s) ∨ (∃ c, e = .ckLeave c false) ∨ (∃ c, e = .die c true) → ∀ c, unexited t' c → (t'.ck c).alive = true) := by
  cases e with
  | enter s =>
    obtain ⟨t', h1, h2, h3⟩ := enter_inv h hm ho
    exact ⟨t', h1, h2, by rintro s' (e | e) <;> simp at e; subst e; exact h3, by simp⟩
  | ckEnter s =>
    obtain ⟨t', h1, h2, h3⟩ := enter_inv h hm ho
    exact ⟨t', h1, h2, by rintro s' (e | e) <;> simp at e; subst e; exact h3, by simp⟩
  | leave s =>
    obtain ⟨r, hr⟩ := hm
    have hck := h.openedCk s (by rw [hr]; simp)
    obtain ⟨t', h1, h2, h3⟩ := doExit_inv (p' := p.step (.leave s)) h (s := s) ho t.ck (fun _ _ => rfl) (by rw [hck]) (by rw [hck]; simp)
      (Or.inl (by simp [P.step, hr])) rfl rfl (by
        intro c
        simp only [P.step]
        refine ⟨fun hc => ⟨hc, fun e => ?_⟩, fun hc => hc.1⟩
        have := (h.alive c).mp hc
        rw [e, hck] at this
        simp at this)
    exact ⟨t', h1, h2, by simp, fun _ => h3⟩
  | ckLeave c alive =>
    obtain ⟨r, hr⟩ := hm
    have hck := h.openedCk c (by rw [hr]; simp)
    cases alive with
    | true =>
      obtain ⟨t', h1, h2⟩ := keep_inv h hr hal o
      exact ⟨t', h1, h2, by simp, by simp⟩
    | false =>
      obtain ⟨t', h1, h2, h3⟩ := doExit_inv (p' := p.step (.ckLeave c false)) h (s := c) ho
        (fun i => if i = c then ⟨true, true, false⟩ else t.ck i) (fun i hi => by simp [hi]) (by simp) (by simp)
        (Or.inl (by simp [P.step, hr])) rfl (by simp [P.step]) (by
          intro x
          simp only [P.step, Bool.false_eq_true, if_false]
          refine ⟨fun hc => ⟨hc, fun e => ?_⟩, fun hc => hc.1⟩
          have := (h.alive x).mp hc
          rw [e, hck] at this
          simp at this)
      refine ⟨t', ?_, h2, by simp, fun _ => h3⟩
      show ckptExit o c false t = _
      rw [← h1]
      unfold ckptExit exitScope
      simp only [Bool.false_eq_true, if_false, if_true, hck, Bool.not_false, Bool.and_self]
      congr 2
      funext i
      split <;> rfl
  | die c here =>
    have hal := (h.alive c).mp hm
    obtain ⟨hu, hact⟩ := inv_alive h hm
    cases here with
    | false => exact ⟨_, rfl, die_inv h, by simp, by simp⟩
    | true =>
      obtain ⟨t', h1, h2, h3⟩ := doExit_inv (p' := p.step (.die c true)) h (s := c) ho
        (fun i => if i = c then ⟨(t.ck c).exitArgs, true, false⟩ else t.ck i) (fun i hi => by simp [hi]) (by simp) (by simp)
        (Or.inr ⟨rfl, hu, by simp [hu.1]⟩) rfl rfl (by
          intro x
          simp [P.step])
      refine ⟨t', ?_, h2, by simp, fun _ => h3⟩
      show tensorsDie o c true t = _
      rw [← h1]
      unfold tensorsDie exitScope
      simp only [if_true, hu.1, hu.2, Bool.not_false, Bool.and_self]
      congr 2
      funext i
      split <;> rfl

theorem run_inv {evs : List (Bool × Ev)} : ∀ {p : P} {t : T}, Inv p t → Ok evs p →
    ∃ t', run evs t = .ok t' ∧ Inv (P.run evs p) t' := by
  induction evs with
  | nil => intro p t h _; exact ⟨t, rfl, h⟩
  | cons a r ih =>
    intro p t h hok
    obtain ⟨o, e⟩ := a
    obtain ⟨k1, k2, k3, k4⟩ := hok
    obtain ⟨t1, s1, s2, _, _⟩ := step_inv h k1 k2 k3
    obtain ⟨t', r1, r2⟩ := ih s2 k4
    refine ⟨t', ?_, r2⟩
    unfold run
    rw [s1]
    exact r1

theorem ok_append {evs : List (Bool × Ev)} : ∀ {p : P} {a : List (Bool × Ev)}, Ok (evs ++ a) p → Ok evs p ∧ Ok a (P.run evs p) := by
  induction evs with
  | nil => intro p a h; exact ⟨trivial, h⟩
  | cons x r ih =>
    intro p a h
    obtain ⟨o, e⟩ := x
    obtain ⟨k1, k2, k3, k4⟩ := h
    obtain ⟨i1, i2⟩ := ih k4
    exact ⟨⟨k1, k2, k3, i1⟩, i2⟩

/-- A run which ends with the event `e` in the state `t`, and the program before and after it. -/
theorem run_last {evs : List (Bool × Ev)} {o : Bool} {e : Ev} (h : Ok (evs ++ [(o, e)]) P.init) :
    ∃ t, run (evs ++ [(o, e)]) T.init = .ok t ∧ Inv (P.run (evs ++ [(o, e)]) P.init) t ∧
      (∀ s, e = .enter s ∨ e = .ckEnter s → ∃ r, t.real = s :: r) ∧
      ((∃ s, e = .leave s) ∨ (∃ c, e = .ckLeave c false) ∨ (∃ c, e = .die c true) → ∀ c, unexited t c → (t.ck c).alive = true) := by
  obtain ⟨h1, h2⟩ := ok_append h
  obtain ⟨t1, r1, r2⟩ := run_inv inv_init h1
  obtain ⟨k1, k2, k3, _⟩ := h2
  obtain ⟨t', s1, s2, s3, s4⟩ := step_inv r2 k1 k2 k3
  have hrun : ∀ (evs : List (Bool × Ev)) (t0 t1 : T), run evs t0 = .ok t1 → run (evs ++ [(o, e)]) t0 = run [(o, e)] t1 := by
    intro evs
    induction evs with
    | nil => intro t0 t1 h; simp only [run, Except.ok.injEq] at h; subst h; rfl
    | cons a r ih =>
      intro t0 t1 h
      obtain ⟨o', e'⟩ := a
      simp only [List.cons_append, run] at h ⊢
      split at h
      · simp at h
      · next t2 ht2 =>
        exact ih _ _ h
  have hprun : ∀ (evs : List (Bool × Ev)) (p : P), P.run (evs ++ [(o, e)]) p = (P.run evs p).step e := by
    intro evs
    induction evs with
    | nil => intro p; rfl
    | cons a r ih => intro p; obtain ⟨o', e'⟩ := a; exact ih _
  refine ⟨t', ?_, ?_, s3, s4⟩
  · rw [hrun evs _ _ r1]
    simp only [run, s1]
  · rw [hprun]; exact s2

/-- C91: a program whose blocks are nested never gets an exception from entering or leaving scopes, whenever and in whatever
thread the tensors of checkpoint scopes go away; and the blocks which are open are all registered, in their order. -/
theorem hooks_no_exception_partial (evs : List (Bool × Ev)) (h : Ok evs P.init) :
    ∃ t, run evs T.init = .ok t ∧ (P.run evs P.init).opened.Sublist t.real := by
  obtain ⟨t, h1, h2⟩ := run_inv inv_init h
  refine ⟨t, h1, ?_⟩
  cases ha : t.active with
  | false => rw [(h2.post.off ha).1]; exact List.Sublist.refl _
  | true =>
    have := (h2.post.on ha).1
    rw [this.real]
    exact this.sub

/-- C91: a block which is entered is the one whose hooks are used. -/
theorem hooks_entered_partial (evs : List (Bool × Ev)) (o : Bool) (s : Nat) (e : Ev) (he : e = .enter s ∨ e = .ckEnter s)
    (h : Ok (evs ++ [(o, e)]) P.init) :
    ∃ t, run (evs ++ [(o, e)]) T.init = .ok t ∧ t.real.head? = some s := by
  obtain ⟨t, h1, _, h3, _⟩ := run_last h
  obtain ⟨r, hr⟩ := h3 s he
  exact ⟨t, h1, by rw [hr]; rfl⟩

/-- C91: the hooks which are used are never those of a scope which was left, except for checkpoint scopes left with tensors alive. -/
theorem hooks_not_closed_partial (evs : List (Bool × Ev)) (h : Ok evs P.init) :
    ∃ t, run evs T.init = .ok t ∧
      ∀ s, t.real.head? = some s → s ∈ (P.run evs P.init).opened ∨ s ∈ (P.run evs P.init).kept := by
  obtain ⟨t, h1, h2⟩ := run_inv inv_init h
  refine ⟨t, h1, ?_⟩
  intro s hs
  cases ha : t.active with
  | false => rw [(h2.post.off ha).1] at hs; exact Or.inl (List.mem_of_mem_head? hs)
  | true =>
    obtain ⟨m1, _, m3⟩ := h2.post.on ha
    rw [m1.real] at hs
    have hsm : s ∈ t.stack := List.mem_of_mem_head? hs
    rcases m1.cover s hsm with a | a | a
    · exact Or.inl a
    · exact absurd a (m3 s hs)
    · exact Or.inr (h2.kept s a.2)

theorem head_of_sublist {o l : List Nat} (hs : o.Sublist l) (hn : l.Nodup) {x : Nat} (hx : l.head? = some x) (ho : x ∈ o) :
    o.head? = some x := by
  cases hs with
  | slnil => simp at hx
  | cons a h =>
    simp only [List.head?_cons, Option.some.injEq] at hx
    subst hx
    rw [List.nodup_cons] at hn
    exact absurd (h.subset ho) hn.1
  | cons_cons a h => simpa using hx

/-- C91: once no tensors of checkpoint scopes are alive, leaving any scope (or the last of these tensors going away in this thread)
restores the hooks of the innermost block which is open; with none open, there are no hooks and torch is as it was. -/
theorem hooks_restored_partial (evs : List (Bool × Ev)) (o : Bool) (e : Ev)
    (he : (∃ s, e = .leave s) ∨ (∃ c, e = .ckLeave c false) ∨ (∃ c, e = .die c true))
    (h : Ok (evs ++ [(o, e)]) P.init) (ha : (P.run (evs ++ [(o, e)]) P.init).alive = []) :
    ∃ t, run (evs ++ [(o, e)]) T.init = .ok t ∧ t.real.head? = (P.run (evs ++ [(o, e)]) P.init).opened.head? ∧
      ((P.run (evs ++ [(o, e)]) P.init).opened = [] → t.real = [] ∧ t.active = false) := by
  obtain ⟨t, h1, h2, _, h4⟩ := run_last h
  have h4 := h4 he
  have hun : ∀ c, ¬ unexited t c := by
    intro c hc
    have := (h2.alive c).mpr (h4 c hc)
    rw [ha] at this
    simp at this
  refine ⟨t, h1, ?_⟩
  cases hact : t.active with
  | false =>
    obtain ⟨o1, _⟩ := h2.post.off hact
    rw [o1]
    exact ⟨rfl, fun h => ⟨h, rfl⟩⟩
  | true =>
    obtain ⟨m1, m2, m3⟩ := h2.post.on hact
    obtain ⟨x, r, hxr⟩ := List.exists_cons_of_ne_nil m2
    have hx : t.stack.head? = some x := by rw [hxr]; rfl
    have hxo : x ∈ (P.run (evs ++ [(o, e)]) P.init).opened := by
      rcases m1.cover x (by rw [hxr]; simp) with a | a | a
      · exact a
      · exact absurd a (m3 x hx)
      · exact absurd a.2 (hun x)
    refine ⟨?_, fun hc => ?_⟩
    · rw [m1.real, hx, head_of_sublist m1.sub m1.nodup hx hxo]
    · rw [hc] at hxo; simp at hxo

/-- The error of a run, if there is one. -/
def errOf (evs : List (Bool × Ev)) : Option Err :=
  match run evs T.init with
  | .error e => some e
  | .ok _ => none

/-- The stack of torch after a run. -/
def realOf (evs : List (Bool × Ev)) : Option (List Nat) :=
  match run evs T.init with
  | .error _ => none
  | .ok t => some t.real

/-- Not for every program: a checkpoint scope inside of another `saved_tensors_hooks` block, with tensors alive at its end. -/
theorem nested_in_block_raises :
    errOf [(false, .enter 0), (false, .ckEnter 1), (false, .ckLeave 1 true), (false, .leave 0)] = some (.other "mismatch") := by
  decide +kernel

/-- Not for every program: a checkpoint scope inside of another one, where the tensors of the inner one are alive. -/
theorem nested_checkpoints_raise :
    errOf [(false, .ckEnter 0), (false, .ckEnter 1), (false, .ckLeave 1 true), (false, .ckLeave 0 false)] =
      some (.other "mismatch") ∧
    errOf [(false, .ckEnter 0), (false, .ckEnter 1), (false, .ckLeave 1 true), (false, .ckLeave 0 true), (false, .die 1 true),
      (false, .die 0 true)] ≠ none := by
  decide +kernel

/-- Not for every program: a thread without checkpoint scopes cannot enter `saved_tensors_hooks` while another thread has live
checkpoint scopes; and if it had some before, then it cannot leave it. -/
theorem other_thread_raises :
    errOf [(true, .enter 0)] = some (.other "AttributeError") ∧
    errOf [(false, .ckEnter 0), (false, .ckLeave 0 true), (false, .die 0 true), (true, .enter 1), (true, .leave 1)] =
      some (.other "mismatch") := by
  decide +kernel

/-- The hooks of an open block (1) are not used after a checkpoint scope (2) inside of it is left with tensors alive. -/
theorem open_block_hidden :
    Ok [(false, .ckEnter 0), (false, .ckLeave 0 true), (false, .enter 1), (false, .ckEnter 2), (false, .ckLeave 2 true)] P.init ∧
    realOf [(false, .ckEnter 0), (false, .ckLeave 0 true), (false, .enter 1), (false, .ckEnter 2), (false, .ckLeave 2 true)] =
      some [2, 1, 0] ∧
    (P.run [(false, .ckEnter 0), (false, .ckLeave 0 true), (false, .enter 1), (false, .ckEnter 2), (false, .ckLeave 2 true)]
      P.init).opened = [1] := by
  refine ⟨?_, by decide +kernel, by decide +kernel⟩
  simp [Ok, P.may, P.alone, P.step, P.init]

/-- A run with two checkpoint scopes, whose tensors go away here and in another thread, and a block around the second: allowed, and at
the end everything is as before. -/
def exEvs : List (Bool × Ev) :=
  [(false, .ckEnter 0), (false, .ckLeave 0 true), (false, .enter 1), (true, .ckEnter 2), (true, .ckLeave 2 true),
   (false, .die 0 true), (true, .enter 3), (false, .die 2 false), (false, .leave 3)]

example : Ok (exEvs ++ [(false, .leave 1)]) P.init ∧ (P.run (exEvs ++ [(false, .leave 1)]) P.init).alive = [] ∧
    (P.run (exEvs ++ [(false, .leave 1)]) P.init).opened = [] ∧ realOf (exEvs ++ [(false, .leave 1)]) = some [] := by
  refine ⟨?_, by decide +kernel, by decide +kernel, by decide +kernel⟩
  simp [exEvs, Ok, P.may, P.alone, P.step, P.init]

example : Ok exEvs P.init ∧ realOf exEvs = some [1, 0] := by
  refine ⟨?_, by decide +kernel⟩
  simp [exEvs, Ok, P.may, P.alone, P.step, P.init]

example : Ok ([(false, .ckEnter 0), (false, .ckLeave 0 true)] ++ [(true, .enter 1)]) P.init ∧
    realOf [(false, .ckEnter 0), (false, .ckLeave 0 true), (true, .enter 1)] = some [1, 0] := by
  refine ⟨?_, by decide +kernel⟩
  simp [Ok, P.may, P.alone, P.step, P.init]

end Verif.GradCkpt.Hooks
