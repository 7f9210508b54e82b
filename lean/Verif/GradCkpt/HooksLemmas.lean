import Verif.GradCkpt.HooksSpec
import Mathlib.Tactic.Common
/-
Lemmas about the stack of hooks.
-/
namespace Verif.GradCkpt.Hooks

open Verif.Py

/-- `exit_args` is set and the scope is not yet exited. -/
def unexited (t : T) (c : Nat) : Prop := (t.ck c).exitArgs = true ∧ (t.ck c).exited = false

/-- What holds also in the middle of the callbacks; `L`: the callbacks still to be considered, `o`: the open blocks. -/
structure Mid (o L : List Nat) (t : T) : Prop where
  real : t.real = t.stack
  nodup : t.stack.Nodup
  sub : o.Sublist t.stack
  qsub : ∀ s ∈ t.queued, s ∈ t.stack ∧ s ∉ o
  qnodup : t.queued.Nodup
  cover : ∀ s ∈ t.stack, s ∈ o ∨ s ∈ t.queued ∨ (s ∈ L ∧ unexited t s)
  cbs : ∀ c ∈ L, (t.ck c).exitArgs = true ∧ (unexited t c → c ∈ t.stack ∧ c ∉ t.queued ∧ c ∉ o)
  known : ∀ c, unexited t c → c ∈ L
  dead : ∀ c, (t.ck c).exited = true → (t.ck c).alive = false
  empty : t.active = false → t.stack = []
  inited : t.inited = true

theorem popLoop_spec (stack : List Nat) : ∀ (queued : List Nat), stack.Nodup → queued.Nodup → (∀ s ∈ queued, s ∈ stack) →
    ∃ pre rest queued', popLoop stack queued stack = .ok (rest, queued', rest) ∧ stack = pre ++ rest ∧
      (∀ s ∈ pre, s ∈ queued) ∧ (∀ s, s ∈ queued' ↔ s ∈ queued ∧ s ∉ pre) ∧ queued'.Nodup ∧
      (∀ s ∈ queued', s ∈ rest) ∧ ∀ s, rest.head? = some s → s ∉ queued' := by
  induction stack with
  | nil =>
    intro queued _ hq hs
    refine ⟨[], [], queued, rfl, rfl, by simp, by simp, hq, hs, by simp⟩
  | cons a stack ih =>
    intro queued hn hq hs
    simp only [popLoop]
    split
    · next ha =>
      simp only [List.nodup_cons] at hn
      obtain ⟨pre, rest, q', h1, h2, h3, h4, h5, h6, h7⟩ := ih (queued.erase a) hn.2 (hq.erase a) (by
        intro s hsm
        have := (List.Nodup.mem_erase_iff hq).mp hsm
        have h' := hs s this.2
        rcases List.mem_cons.mp h' with h' | h'
        · exact absurd h' this.1
        · exact h')
      refine ⟨a :: pre, rest, q', h1, by simp [h2], ?_, ?_, h5, h6, h7⟩
      · intro s hs'
        rcases List.mem_cons.mp hs' with h | h
        · rw [h]; exact ha
        · exact ((List.Nodup.mem_erase_iff hq).mp (h3 s h)).2
      · intro s
        rw [h4 s, List.Nodup.mem_erase_iff hq]
        simp only [List.mem_cons, not_or]
        tauto
    · next ha =>
      refine ⟨[], a :: stack, queued, rfl, rfl, by simp, by simp, hq, hs, ?_⟩
      intro s hsa
      simp at hsa
      rw [← hsa]
      exact ha

theorem sublist_drop {o pre rest : List Nat} (h : o.Sublist (pre ++ rest)) (hd : ∀ s ∈ pre, s ∉ o) : o.Sublist rest := by
  induction pre with
  | nil => simpa using h
  | cons a pre ih =>
    apply ih
    · have ha : a ∉ o := hd a (by simp)
      rw [List.cons_append] at h
      cases h with
      | cons _ h => exact h
      | cons_cons _ h => exact absurd (by simp) ha
    · intro s hs
      exact hd s (by simp [hs])

/-- The end of an exit. -/
theorem finishExit_mid {o L : List Nat} {t : T} (h : Mid o L t) (inCb : Bool)
    (hcb : inCb = false → t.callbacks = L ∧ ∀ c ∈ L, unexited t c) :
    ∃ t', finishExit inCb t = .ok t' ∧ Mid o L t' ∧ t'.ck = t.ck ∧ t'.callbacks = t.callbacks ∧
      (∀ s, t'.stack.head? = some s → s ∉ t'.queued) ∧ (t'.stack = [] → t'.active = false) ∧ ∀ x ∈ t'.stack, x ∈ t.stack := by
  obtain ⟨pre, rest, q', h1, h2, h3, h4, h5, h6, h7⟩ := popLoop_spec t.stack t.queued h.nodup h.qnodup
    (fun s hs => (h.qsub s hs).1)
  have hnd : (pre ++ rest).Nodup := by rw [← h2]; exact h.nodup
  have hmid : ∀ act : Bool, (act = false → rest = []) →
      Mid o L { t with stack := rest, queued := q', real := rest, active := act } := by
    intro act hact
    refine ⟨rfl, (List.nodup_append.mp hnd).2.1, ?_, ?_, h5, ?_, ?_, h.known, h.dead, hact, h.inited⟩
    · apply sublist_drop (pre := pre)
      · rw [← h2]; exact h.sub
      · intro s hs
        exact (h.qsub s (h3 s hs)).2
    · intro s hs
      exact ⟨h6 s hs, (h.qsub s ((h4 s).mp hs).1).2⟩
    · intro s hs
      rcases h.cover s (by rw [h2]; simp only at hs; simp [hs]) with c | c | c
      · exact Or.inl c
      · right; left
        refine (h4 s).mpr ⟨c, ?_⟩
        intro hp
        exact (List.nodup_append.mp hnd).2.2 s hp s hs rfl
      · exact Or.inr (Or.inr c)
    · intro c hc
      obtain ⟨c1, c2⟩ := h.cbs c hc
      refine ⟨c1, fun hu => ?_⟩
      obtain ⟨c3, c4, c5⟩ := c2 hu
      refine ⟨?_, fun hq => c4 ((h4 c).mp hq).1, c5⟩
      rw [h2] at c3
      rcases List.mem_append.mp c3 with c3 | c3
      · exact absurd (h3 c c3) c4
      · exact c3
  unfold finishExit
  rw [h.real, h1]
  simp only
  by_cases hr : rest = []
  · have hq : q' = [] := by
      rw [List.eq_nil_iff_forall_not_mem]
      intro s hs
      have := h6 s hs
      rw [hr] at this
      simp at this
    rw [if_pos hr, if_pos hq]
    subst hr hq
    by_cases ha : t.active
    · rw [if_pos ha]
      have hcbs : inCb = true ∨ t.callbacks = [] := by
        cases inCb with
        | true => exact Or.inl rfl
        | false =>
          right
          obtain ⟨e, hl⟩ := hcb rfl
          rw [e, List.eq_nil_iff_forall_not_mem]
          intro c hc
          have hm := hmid false (fun _ => rfl)
          have := ((hm.cbs c hc).2 (hl c hc)).1
          simp at this
      refine ⟨{ t with stack := [], queued := [], real := [], active := false }, ?_, hmid false (fun _ => rfl), rfl, rfl, by simp,
        fun _ => rfl, by simp⟩
      unfold unregister
      rw [if_pos ⟨rfl, hcbs, rfl⟩]
    · rw [if_neg ha]
      simp only [Bool.not_eq_true] at ha
      refine ⟨_, rfl, ?_, rfl, rfl, by simp, fun _ => ha, by simp⟩
      have := hmid t.active (fun _ => rfl)
      exact this
  · rw [if_neg hr]
    refine ⟨_, rfl, ?_, rfl, rfl, h7, fun hc => absurd hc hr, fun x hx => by rw [h2]; simp only at hx; simp [hx]⟩
    have := hmid t.active (fun hf => by
      have := h.empty hf
      rw [h2] at this
      simp at this
      exact this.2)
    exact this

/-- A scope gets into the queue. -/
theorem queue_mid {o L o' : List Nat} {t : T} {s : Nat} (h : Mid o L t) (hs : s ∈ t.stack) (hq : s ∉ t.queued)
    (ho : o'.Sublist o) (hso : s ∉ o') (hoo : ∀ x ∈ o, x = s ∨ x ∈ o') (ck' : Nat → Ck)
    (hck : ∀ c, c ≠ s → ck' c = t.ck c) (hdead : (ck' s).exited = true → (ck' s).alive = false)
    (hex : s ∈ L → (ck' s).exitArgs = true) (hun : ¬ ((ck' s).exitArgs = true ∧ (ck' s).exited = false)) :
    Mid o' L { t with queued := t.queued ++ [s], ck := ck' } := by
  have hu : ∀ c, unexited { t with queued := t.queued ++ [s], ck := ck' } c ↔ unexited t c ∧ c ≠ s := by
    intro c
    unfold unexited
    simp only
    by_cases hc : c = s
    · subst hc; simp [hun]
    · rw [hck c hc]; simp [hc]
  refine ⟨h.real, h.nodup, ho.trans h.sub, ?_, ?_, ?_, ?_, ?_, ?_, h.empty, h.inited⟩
  · intro x hx
    simp only [List.mem_append, List.mem_singleton] at hx
    rcases hx with hx | hx
    · exact ⟨(h.qsub x hx).1, fun hc => (h.qsub x hx).2 (ho.subset hc)⟩
    · rw [hx]; exact ⟨hs, hso⟩
  · simp only
    rw [List.nodup_append]
    refine ⟨h.qnodup, by simp, ?_⟩
    intro a ha b hb
    simp at hb
    rw [hb]
    intro e
    rw [e] at ha
    exact hq ha
  · intro x hx
    rcases h.cover x hx with c | c | ⟨c1, c2⟩
    · rcases hoo x c with e | e
      · right; left; simp [e]
      · exact Or.inl e
    · right; left; simp [c]
    · by_cases e : x = s
      · right; left; simp [e]
      · right; right
        exact ⟨c1, (hu x).mpr ⟨c2, e⟩⟩
  · intro c hc
    obtain ⟨c1, c2⟩ := h.cbs c hc
    refine ⟨?_, ?_⟩
    · simp only
      by_cases e : c = s
      · subst e; exact hex hc
      · rw [hck c e]; exact c1
    · intro hcu
      obtain ⟨u1, u2⟩ := (hu c).mp hcu
      obtain ⟨d1, d2, d3⟩ := c2 u1
      refine ⟨d1, ?_, fun hc' => d3 (ho.subset hc')⟩
      simp only [List.mem_append, List.mem_singleton, not_or]
      exact ⟨d2, u2⟩
  · intro c hc
    exact h.known c ((hu c).mp hc).1
  · intro c hc
    simp only at hc ⊢
    by_cases e : c = s
    · subst e; exact hdead hc
    · rw [hck c e] at hc ⊢
      exact h.dead c hc

theorem mid_drop {o L : List Nat} {c : Nat} {t : T} (pre post : List Nat) (hL : L = pre ++ c :: post) (h : Mid o L t)
    (hc : ¬ unexited t c) : Mid o (pre ++ post) t := by
  have hm : ∀ x, x ∈ L → unexited t x → x ∈ pre ++ post := by
    intro x hx hu
    rw [hL] at hx
    simp only [List.mem_append, List.mem_cons] at hx ⊢
    rcases hx with hx | hx | hx
    · exact Or.inl hx
    · rw [hx] at hu; exact absurd hu hc
    · exact Or.inr hx
  have hs : ∀ x ∈ pre ++ post, x ∈ L := by
    intro x hx
    rw [hL]
    simp only [List.mem_append, List.mem_cons] at hx ⊢
    tauto
  refine ⟨h.real, h.nodup, h.sub, h.qsub, h.qnodup, ?_, ?_, ?_, h.dead, h.empty, h.inited⟩
  · intro s hs'
    rcases h.cover s hs' with a | a | ⟨a, b⟩
    · exact Or.inl a
    · exact Or.inr (Or.inl a)
    · exact Or.inr (Or.inr ⟨hm s a b, b⟩)
  · intro x hx
    exact h.cbs x (hs x hx)
  · intro x hx
    exact hm x (h.known x hx) hx

/-- A scope is exited in a callback. -/
theorem exitScopeIn_mid {o L : List Nat} {t : T} (h : Mid o L t) (other : Bool) {c : Nat} (hc : c ∈ L)
    (hd : (t.ck c).alive = false) :
    ∃ t', exitScopeIn other c t = .ok t' ∧ Mid o L t' ∧ ¬ unexited t' c ∧ (∀ x, (t'.ck x).alive = (t.ck x).alive) ∧
      (∀ x, (t'.ck x).exitArgs = (t.ck x).exitArgs) ∧ (∀ x ∈ t'.stack, x ∈ t.stack) ∧
      ∀ x, t'.ck x = t.ck x ∨ unexited t x := by
  obtain ⟨c1, c2⟩ := h.cbs c hc
  unfold exitScopeIn
  by_cases he : (t.ck c).exited
  · rw [c1, he]
    simp only [Bool.not_true, Bool.and_false, Bool.false_eq_true, if_false]
    exact ⟨t, rfl, h, by simp [unexited, he], fun _ => rfl, fun _ => rfl, fun _ h => h, fun _ => Or.inl rfl⟩
  · simp only [Bool.not_eq_true] at he
    rw [c1, he]
    simp only [Bool.not_false, Bool.and_true, if_true]
    obtain ⟨d1, d2, d3⟩ := c2 ⟨c1, he⟩
    have hact : t.active = true := by
      by_contra ha
      simp only [Bool.not_eq_true] at ha
      rw [h.empty ha] at d1
      simp at d1
    rw [hact]
    simp only [Bool.true_or, if_true]
    have hq := queue_mid (o' := o) (s := c) h d1 d2 (List.Sublist.refl _) d3 (fun x hx => Or.inr hx)
      (fun i => if i = c then { t.ck c with exited := true } else t.ck i) (by intro x hx; simp [hx])
      (by simp [hd]) (by simp [c1]) (by simp)
    obtain ⟨t', f1, f2, f3, f4, _, _, f7⟩ := finishExit_mid hq true (by simp)
    refine ⟨t', ?_, f2, ?_, ?_, ?_, f7, ?_⟩
    · unfold customExitIn
      rw [if_pos d1]
      simp only [hact] at f1
      exact f1
    · unfold unexited
      rw [f3]
      simp
    · intro x
      rw [f3]
      simp only
      split
      · next e => rw [e]
      · rfl
    · intro x
      rw [f3]
      simp only
      split
      · next e => rw [e]
      · rfl
    · intro x
      rw [f3]
      by_cases e : x = c
      · right; rw [e]; exact ⟨c1, he⟩
      · left; simp only; rw [if_neg e]

theorem cbLoop_mid {o : List Nat} (other : Bool) (rest : List Nat) :
    ∀ (pre : List Nat) (t : T), Mid o (pre ++ rest) t → (∀ c ∈ pre, (t.ck c).alive = true) →
      ∃ kept t', cbLoop other rest t = .ok (kept, t') ∧ Mid o (pre ++ kept) t' ∧
        (∀ c ∈ pre ++ kept, (t'.ck c).alive = true) ∧
        (∀ c, (t'.ck c).alive = (t.ck c).alive) ∧ (∀ c, (t'.ck c).exitArgs = (t.ck c).exitArgs) ∧
        (∀ x ∈ t'.stack, x ∈ t.stack) ∧ ∀ x, t'.ck x = t.ck x ∨ unexited t x := by
  induction rest with
  | nil =>
    intro pre t h hp
    exact ⟨[], t, rfl, by simpa using h, by simpa using hp, fun _ => rfl, fun _ => rfl, fun _ h => h, fun _ => Or.inl rfl⟩
  | cons c rest ih =>
    intro pre t h hp
    have hcL : c ∈ pre ++ c :: rest := by simp
    have hea := (h.cbs c hcL).1
    simp only [cbLoop, hea, if_true]
    by_cases ha : (t.ck c).alive
    · rw [if_pos ha]
      obtain ⟨kept, t', i1, i2, i3, i4, i5, i6, i7⟩ := ih (pre ++ [c]) t (by simpa using h) (by
        intro x hx
        rcases List.mem_append.mp hx with hx | hx
        · exact hp x hx
        · simp at hx; rw [hx]; exact ha)
      refine ⟨c :: kept, t', by rw [i1], by simpa using i2, by simpa using i3, i4, i5, i6, i7⟩
    · rw [if_neg ha]
      simp only [Bool.not_eq_true] at ha
      obtain ⟨t1, e1, e2, e3, e4, e5, e6, e7⟩ := exitScopeIn_mid h other hcL ha
      rw [e1]
      have hm := mid_drop pre rest rfl e2 e3
      obtain ⟨kept, t', i1, i2, i3, i4, i5, i6, i7⟩ := ih pre t1 hm (by intro x hx; rw [e4]; exact hp x hx)
      exact ⟨kept, t', i1, i2, i3, fun x => by rw [i4, e4], fun x => by rw [i5, e5], fun x hx => e6 x (i6 x hx),
        fun x => by
          rcases e7 x with a | a
          · rcases i7 x with b | b
            · left; rw [b, a]
            · right; unfold unexited at b ⊢; rw [a] at b; exact b
          · exact Or.inr a⟩

theorem callCallbacks_mid {o : List Nat} (other : Bool) {t : T} (h : Mid o t.callbacks t) :
    ∃ t', callCallbacks other t = .ok t' ∧ Mid o t'.callbacks t' ∧ (∀ c ∈ t'.callbacks, unexited t' c) ∧
      (∀ c ∈ t'.callbacks, (t'.ck c).alive = true) ∧
      (∀ c, (t'.ck c).alive = (t.ck c).alive) ∧ (∀ c, (t'.ck c).exitArgs = (t.ck c).exitArgs) ∧
      (∀ x ∈ t'.stack, x ∈ t.stack) ∧ ∀ x, t'.ck x = t.ck x ∨ unexited t x := by
  obtain ⟨kept, t', i1, i2, i3, i4, i5, i6, i7⟩ := cbLoop_mid (o := o) other t.callbacks [] t (by simpa using h) (by simp)
  simp only [List.nil_append] at i2 i3
  have hun : ∀ c ∈ kept, unexited t' c := by
    intro c hc
    refine ⟨(i2.cbs c hc).1, ?_⟩
    cases he : (t'.ck c).exited with
    | false => rfl
    | true =>
      have := i2.dead c he
      rw [i3 c hc] at this
      simp at this
  unfold callCallbacks
  rw [h.inited, i1]
  simp only [if_true]
  have hcond : t'.active = true ∨ kept = [] ∧ t'.stack = [] := by
    cases ha : t'.active with
    | true => exact Or.inl rfl
    | false =>
      right
      have hs := i2.empty ha
      refine ⟨?_, hs⟩
      rw [List.eq_nil_iff_forall_not_mem]
      intro c hc
      have := ((i2.cbs c hc).2 (hun c hc)).1
      rw [hs] at this
      simp at this
  rw [if_pos hcond]
  refine ⟨_, rfl, ?_, hun, i3, i4, i5, i6, i7⟩
  exact ⟨i2.real, i2.nodup, i2.sub, i2.qsub, i2.qnodup, i2.cover, i2.cbs, i2.known, i2.dead, i2.empty, i2.inited⟩

/-- The stacks between two events, for the open blocks `o`. -/
structure Post (o : List Nat) (t : T) : Prop where
  off : t.active = false → t.real = o ∧ t.stack = [] ∧ t.queued = [] ∧ t.callbacks = [] ∧ ∀ c, ¬ unexited t c
  on : t.active = true → Mid o t.callbacks t ∧ t.stack ≠ [] ∧ ∀ s, t.stack.head? = some s → s ∉ t.queued

theorem post_off {o : List Nat} {t : T} (h : Mid o t.callbacks t) (hun : ∀ c ∈ t.callbacks, unexited t c)
    (ha : t.active = false) : t.real = o ∧ t.stack = [] ∧ t.queued = [] ∧ t.callbacks = [] ∧ ∀ c, ¬ unexited t c := by
  have hs := h.empty ha
  have ho : o = [] := by
    have := h.sub
    rw [hs] at this
    exact List.sublist_nil.mp this
  have hcb : t.callbacks = [] := by
    rw [List.eq_nil_iff_forall_not_mem]
    intro c hc
    have := ((h.cbs c hc).2 (hun c hc)).1
    rw [hs] at this
    simp at this
  refine ⟨by rw [h.real, hs, ho], hs, ?_, hcb, ?_⟩
  · rw [List.eq_nil_iff_forall_not_mem]
    intro c hc
    have := (h.qsub c hc).1
    rw [hs] at this
    simp at this
  · intro c hc
    have := h.known c hc
    rw [hcb] at this
    simp at this

theorem customExit_post {o o' : List Nat} {t : T} {s : Nat} (h : Mid o t.callbacks t) (hs : s ∈ t.stack) (hq : s ∉ t.queued)
    (ho : o'.Sublist o) (hso : s ∉ o') (hoo : ∀ x ∈ o, x = s ∨ x ∈ o') (ck' : Nat → Ck)
    (hck : ∀ c, c ≠ s → ck' c = t.ck c) (hdead : (ck' s).exited = true → (ck' s).alive = false)
    (hex : s ∈ t.callbacks → (ck' s).exitArgs = true) (hun : ¬ ((ck' s).exitArgs = true ∧ (ck' s).exited = false))
    (other : Bool) :
    ∃ t', customExit other s { t with ck := ck' } = .ok t' ∧ Post o' t' ∧ (∀ c, (t'.ck c).alive = (ck' c).alive) ∧
      (∀ c, (t'.ck c).exitArgs = (ck' c).exitArgs) ∧ (∀ x ∈ t'.stack, x ∈ t.stack) ∧
      (∀ x, t'.ck x = ck' x ∨ ((ck' x).exitArgs = true ∧ (ck' x).exited = false)) ∧
      (∀ c, (t'.ck c).exited = true → (t'.ck c).alive = false) ∧
      (∀ c, unexited t' c → (t'.ck c).alive = true) := by
  have hm := queue_mid (L := t.callbacks) h hs hq ho hso hoo ck' hck hdead hex hun
  obtain ⟨t1, c1, c2, c3, c4, c5, c6, c7, c8⟩ := callCallbacks_mid (o := o') other
    (t := { t with queued := t.queued ++ [s], ck := ck' }) hm
  obtain ⟨t2, f1, f2, f3, f4, f5, f6, f7⟩ := finishExit_mid c2 false (fun _ => ⟨rfl, c3⟩)
  have hun2 : ∀ c ∈ t2.callbacks, unexited t2 c := by
    intro c hc
    rw [f4] at hc
    have := c3 c hc
    unfold unexited at this ⊢
    rw [f3]
    exact this
  rw [← f4] at f2
  refine ⟨t2, ?_, ⟨post_off f2 hun2, fun ha => ⟨f2, fun hc => ?_, f5⟩⟩, ?_, ?_, fun x hx => c7 x (f7 x hx), ?_, f2.dead, ?_⟩
  · unfold customExit
    have hi := h.inited
    rw [if_pos (by simp [hi]), if_pos (by exact hs)]
    show (match callCallbacks other { t with queued := t.queued ++ [s], ck := ck' } with
      | Except.error e => Except.error e | Except.ok t' => finishExit false t') = _
    rw [c1]
    exact f1
  · have := f6 hc
    rw [this] at ha
    simp at ha
  · intro c; rw [f3, c5]
  · intro c; rw [f3, c6]
  · intro x; rw [f3]; exact c8 x
  · intro c hc
    have := f2.known c hc
    rw [f4] at this
    rw [f3]
    exact c4 c this

/-- The state between two events. -/
structure Inv (p : P) (t : T) : Prop where
  post : Post p.opened t
  dead : ∀ c, (t.ck c).exited = true → (t.ck c).alive = false
  alive : ∀ c, c ∈ p.alive ↔ ((t.ck c).alive = true)
  args : ∀ c, (t.ck c).alive = true → (t.ck c).exitArgs = true
  fresh : ∀ c, c ∉ p.used → t.ck c = ⟨false, false, false⟩ ∧ c ∉ t.stack
  kept : ∀ c, unexited t c → c ∈ p.kept
  openedCk : ∀ c ∈ p.opened, t.ck c = ⟨false, false, false⟩
  openedUsed : ∀ c ∈ p.opened, c ∈ p.used
  openedNodup : p.opened.Nodup

theorem inv_alive {p : P} {t : T} (h : Inv p t) {c : Nat} (hc : c ∈ p.alive) : unexited t c ∧ t.active = true := by
  have h1 := (h.alive c).mp hc
  have h2 := h.args c h1
  have hu : unexited t c := by
    refine ⟨h2, ?_⟩
    cases he : (t.ck c).exited with
    | false => rfl
    | true => have := h.dead c he; rw [h1] at this; simp at this
  refine ⟨hu, ?_⟩
  by_contra hc
  simp only [Bool.not_eq_true] at hc
  exact (h.post.off hc).2.2.2.2 c hu

theorem inv_active_of_alive {p : P} {t : T} (h : Inv p t) (ha : p.alive ≠ []) : t.active = true := by
  obtain ⟨c, hcm⟩ := List.exists_mem_of_ne_nil _ ha
  exact (inv_alive h hcm).2

theorem inv_init : Inv P.init T.init := by
  refine ⟨⟨fun _ => ⟨rfl, rfl, rfl, rfl, by simp [unexited, T.init]⟩, by simp [T.init]⟩, by simp [T.init], by simp [T.init, P.init],
    by simp [T.init], by simp [T.init], by simp [T.init, unexited], by simp [P.init], by simp [P.init], by simp [P.init]⟩

/-- Entering a scope. -/
theorem enter_inv {p : P} {t : T} (h : Inv p t) {s : Nat} (hs : s ∉ p.used) {other : Bool} (ho : other = true → p.alive ≠ []) :
    ∃ t', doEnter other s t = .ok t' ∧ Inv { p with opened := s :: p.opened, used := s :: p.used } t' ∧
      ∃ r, t'.real = s :: r := by
  have hso : s ∉ p.opened := fun hc => hs (h.openedUsed s hc)
  unfold doEnter
  by_cases ha : t.active = true
  · rw [ha]
    simp only [Bool.true_or, if_true]
    obtain ⟨m1, m2, m3⟩ := h.post.on ha
    obtain ⟨t1, c1, c2, c3, c4, c5, c6, c7, c8⟩ := callCallbacks_mid other m1
    rw [c1]
    simp only
    have hnew : s ∉ t1.stack := fun hc => (h.fresh s hs).2 (c7 s hc)
    have hrest : ∀ t2 : T, t2.ck = t1.ck → t2.stack ⊆ s :: t1.stack →
        Post (s :: p.opened) t2 → Inv { p with opened := s :: p.opened, used := s :: p.used } t2 := by
      intro t2 hck hst hpost
      have hfr : ∀ c, t.ck c = ⟨false, false, false⟩ → t1.ck c = ⟨false, false, false⟩ := by
        intro c hc
        rcases c8 c with e | e
        · rw [e, hc]
        · unfold unexited at e; rw [hc] at e; simp at e
      refine ⟨hpost, ?_, ?_, ?_, ?_, ?_, ?_, ?_, ?_⟩
      · intro c; rw [hck]; exact c2.dead c
      · intro c; rw [hck, c5]; exact h.alive c
      · intro c; rw [hck, c5, c6]; exact h.args c
      · intro c hc
        simp only [List.mem_cons, not_or] at hc
        obtain ⟨f1, f2⟩ := h.fresh c hc.2
        refine ⟨?_, ?_⟩
        · rw [hck, hfr c f1]
        · intro hcs
          rcases List.mem_cons.mp (hst hcs) with e | e
          · exact hc.1 e
          · exact f2 (c7 c e)
      · intro c hc
        apply h.kept
        unfold unexited at hc
        rw [hck] at hc
        rcases c8 c with e | e
        · rw [e] at hc; exact hc
        · exact e
      · intro c hc
        rcases List.mem_cons.mp hc with e | e
        · subst e
          rw [hck, hfr c (h.fresh c hs).1]
        · rw [hck, hfr c (h.openedCk c e)]
      · intro c hc
        rcases List.mem_cons.mp hc with e | e
        · simp [e]
        · simp [h.openedUsed c e]
      · simp only [List.nodup_cons]
        exact ⟨hso, h.openedNodup⟩
    by_cases ha1 : t1.active = true
    · rw [ha1]
      simp only [if_true]
      refine ⟨_, rfl, hrest _ rfl (fun _ h => h) ?_, t1.real, rfl⟩
      refine ⟨fun hc => by simp [origEnter, ha1] at hc, fun _ => ⟨?_, by simp [origEnter], ?_⟩⟩
      · refine ⟨by simp [origEnter, c2.real], ?_, ?_, ?_, c2.qnodup, ?_, ?_, c2.known, c2.dead, ?_, c2.inited⟩
        · simp only [origEnter, List.nodup_cons]; exact ⟨hnew, c2.nodup⟩
        · simp only [origEnter]; exact c2.sub.cons_cons s
        · intro x hx
          obtain ⟨q1, q2⟩ := c2.qsub x hx
          refine ⟨by simp [origEnter, q1], ?_⟩
          simp only [List.mem_cons, not_or]
          exact ⟨fun e => hnew (by rw [← e]; exact q1), q2⟩
        · intro x hx
          simp only [origEnter, List.mem_cons] at hx
          rcases hx with hx | hx
          · left; simp [hx]
          · rcases c2.cover x hx with a | a | a
            · left; simp [a]
            · exact Or.inr (Or.inl a)
            · exact Or.inr (Or.inr a)
        · intro c hc
          obtain ⟨d1, d2⟩ := c2.cbs c hc
          refine ⟨d1, fun hu => ?_⟩
          obtain ⟨e1, e2, e3⟩ := d2 hu
          refine ⟨by simp [origEnter, e1], e2, ?_⟩
          simp only [List.mem_cons, not_or]
          exact ⟨fun e => hnew (by rw [← e]; exact e1), e3⟩
        · intro hc; simp [origEnter] at hc
      · intro x hx
        simp [origEnter] at hx
        rw [← hx]
        intro hq
        exact hnew (c2.qsub s hq).1
    · simp only [Bool.not_eq_true] at ha1
      rw [ha1]
      simp only [Bool.false_eq_true, if_false]
      obtain ⟨o1, o2, o3, o4, o5⟩ := post_off c2 c3 ha1
      refine ⟨_, rfl, hrest _ rfl (fun x hx => by simp only [origEnter] at hx; simp [hx]) ?_, t1.real, rfl⟩
      refine ⟨fun _ => ⟨by simp [origEnter, o1], o2, o3, o4, o5⟩, fun hc => ?_⟩
      simp only [origEnter] at hc
      rw [ha1] at hc
      simp at hc
  · simp only [Bool.not_eq_true] at ha
    have hoth : other = false := by
      cases other with
      | false => rfl
      | true =>
        have := inv_active_of_alive h (ho rfl)
        rw [this] at ha
        simp at ha
    rw [ha, hoth]
    simp only [Bool.or_self, Bool.false_eq_true, if_false]
    obtain ⟨o1, o2, o3, o4, o5⟩ := h.post.off ha
    refine ⟨_, rfl, ?_, t.real, rfl⟩
    refine ⟨⟨fun _ => ⟨by simp [origEnter, o1], o2, o3, o4, o5⟩, fun hc => ?_⟩, h.dead, h.alive, h.args, ?_, h.kept, ?_, ?_, ?_⟩
    · simp only [origEnter] at hc
      rw [ha] at hc
      simp at hc
    · intro c hc
      simp only [List.mem_cons, not_or] at hc
      exact h.fresh c hc.2
    · intro c hc
      rcases List.mem_cons.mp hc with e | e
      · subst e; exact (h.fresh c hs).1
      · exact h.openedCk c e
    · intro c hc
      rcases List.mem_cons.mp hc with e | e
      · simp [e]
      · simp [h.openedUsed c e]
    · simp only [List.nodup_cons]
      exact ⟨hso, h.openedNodup⟩

/-- A scope is exited which is on the stack (`o'` are the open blocks afterwards). -/
theorem doExit_inv {p p' : P} {t : T} (h : Inv p t) {s : Nat} {other : Bool} (ho : other = true → p.alive ≠ [])
    (ck' : Nat → Ck) (hck : ∀ c, c ≠ s → ck' c = t.ck c) (hex : (ck' s).alive = false)
    (hun : ¬ ((ck' s).exitArgs = true ∧ (ck' s).exited = false))
    (hcase : (p.opened = s :: p'.opened) ∨ (p'.opened = p.opened ∧ unexited t s ∧ (ck' s).exitArgs = true))
    (hused : p'.used = p.used) (hkept : p'.kept = p.kept) (halive : ∀ c, c ∈ p'.alive ↔ c ∈ p.alive ∧ c ≠ s) :
    ∃ t', doExit other s { t with ck := ck' } = .ok t' ∧ Inv p' t' ∧ ∀ c, unexited t' c → (t'.ck c).alive = true := by
  have hsub : p'.opened.Sublist p.opened := by
    rcases hcase with e | ⟨e, _, _⟩
    · rw [e]; exact List.sublist_cons_self _ _
    · rw [e]; exact List.Sublist.refl _
  have hso : s ∉ p'.opened := by
    rcases hcase with e | ⟨e, e2, _⟩
    · have := h.openedNodup
      rw [e, List.nodup_cons] at this
      exact this.1
    · intro hc
      rw [e] at hc
      have := h.openedCk s hc
      unfold unexited at e2
      rw [this] at e2
      simp at e2
  have hsused : s ∈ p.used := by
    by_contra hc
    rcases hcase with e | ⟨_, e2, _⟩
    · exact hc (h.openedUsed s (by rw [e]; simp))
    · have := (h.fresh s hc).1
      unfold unexited at e2
      rw [this] at e2
      simp at e2
  have hfinish : ∀ t' : T, Post p'.opened t' → (∀ c, (t'.ck c).alive = (ck' c).alive) →
      (∀ c, (t'.ck c).exitArgs = (ck' c).exitArgs) → (∀ x ∈ t'.stack, x ∈ t.stack) →
      (∀ x, t'.ck x = ck' x ∨ ((ck' x).exitArgs = true ∧ (ck' x).exited = false)) → (∀ c, (t'.ck c).exited = true → (t'.ck c).alive = false) →
      Inv p' t' := by
    intro t' hp ha he hs hf hd
    have hfr : ∀ c, c ≠ s → t.ck c = ⟨false, false, false⟩ → t'.ck c = ⟨false, false, false⟩ := by
      intro c e hc
      rcases hf c with e1 | e1
      · rw [e1, hck c e, hc]
      · rw [hck c e, hc] at e1; simp at e1
    refine ⟨hp, hd, ?_, ?_, ?_, ?_, ?_, ?_, ?_⟩
    · intro c
      rw [halive, ha]
      by_cases e : c = s
      · subst e; simp [hex]
      · rw [hck c e, h.alive c]; simp [e]
    · intro c hc
      rw [ha] at hc
      rw [he]
      by_cases e : c = s
      · subst e; rw [hex] at hc; simp at hc
      · rw [hck c e] at hc ⊢; exact h.args c hc
    · intro c hc
      rw [hused] at hc
      obtain ⟨f1, f2⟩ := h.fresh c hc
      have e : c ≠ s := fun e => hc (by rw [e]; exact hsused)
      refine ⟨?_, fun hcs => f2 (hs c hcs)⟩
      exact hfr c e f1
    · intro c hc
      rw [hkept]
      by_cases e : c = s
      · exfalso
        subst e
        unfold unexited at hc
        rcases hf c with e1 | e1
        · rw [e1] at hc; exact hun hc
        · exact hun e1
      · apply h.kept
        unfold unexited at hc ⊢
        rcases hf c with e1 | e1
        · rw [e1, hck c e] at hc; exact hc
        · rw [hck c e] at e1; exact e1
    · intro c hc
      have e : c ≠ s := fun e => hso (by rw [← e]; exact hc)
      exact hfr c e (h.openedCk c (hsub.subset hc))
    · intro c hc; rw [hused]; exact h.openedUsed c (hsub.subset hc)
    · exact h.openedNodup.sublist hsub
  unfold doExit
  by_cases ha : t.active = true
  · simp only [ha, Bool.true_or, if_true]
    obtain ⟨m1, m2, m3⟩ := h.post.on ha
    have hst : s ∈ t.stack ∧ s ∉ t.queued := by
      rcases hcase with e | ⟨_, e2, _⟩
      · have h1 : s ∈ p.opened := by rw [e]; simp
        exact ⟨m1.sub.subset h1, fun hq => (m1.qsub s hq).2 h1⟩
      · have := (m1.cbs s (m1.known s e2)).2 e2
        exact ⟨this.1, this.2.1⟩
    obtain ⟨t', r1, r2, r3, r4, r5, r6, r7, r8⟩ := customExit_post m1 hst.1 hst.2 hsub hso (by
        intro x hx
        rcases hcase with e | ⟨e, _, _⟩
        · rw [e] at hx
          exact List.mem_cons.mp hx
        · rw [e]; exact Or.inr hx) ck' hck (fun _ => hex) (by
        intro hc
        rcases hcase with e | ⟨_, _, e3⟩
        · have h1 := (m1.cbs s hc).1
          have h2 := h.openedCk s (by rw [e]; simp)
          rw [h2] at h1
          simp at h1
        · exact e3) hun other
    refine ⟨t', ?_, hfinish t' r2 r3 r4 r5 r6 r7, r8⟩
    simp only [ha] at r1
    exact r1
  · simp only [Bool.not_eq_true] at ha
    have hoth : other = false := by
      cases other with
      | false => rfl
      | true =>
        have := inv_active_of_alive h (ho rfl)
        rw [this] at ha
        simp at ha
    simp only [ha, hoth, Bool.or_self, Bool.false_eq_true, if_false]
    obtain ⟨o1, o2, o3, o4, o5⟩ := h.post.off ha
    rcases hcase with e | ⟨_, e2, _⟩
    · unfold origExit
      simp only [o1, e]
      refine ⟨_, rfl, hfinish _ ⟨fun _ => ⟨rfl, o2, o3, o4, ?_⟩, fun hc => ?_⟩ (fun _ => rfl) (fun _ => rfl) (fun _ h => h)
        (fun _ => Or.inl rfl) ?_, ?_⟩
      · intro c hc
        by_cases e : c = s
        · subst e; exact hun hc
        · apply o5 c
          unfold unexited at hc ⊢
          simp only [hck c e] at hc
          exact hc
      · simp at hc
      · intro c hc
        simp only at hc ⊢
        by_cases e : c = s
        · subst e; exact hex
        · rw [hck c e] at hc ⊢; exact h.dead c hc
      · intro c hc
        exfalso
        by_cases e : c = s
        · subst e; exact hun hc
        · apply o5 c
          unfold unexited at hc ⊢
          simp only [hck c e] at hc
          exact hc
    · exact absurd e2 (o5 s)

end Verif.GradCkpt.Hooks
