import Verif.TensorDict.Spec
/-
C126: dicts of tensors.
-/
namespace Verif.TensorDict
open Verif Verif.Py

/-- The key of a visit. -/
def evKey (sizeKey : K → Nat → K) : Ev → K
  | .data k _ => k
  | .size k i _ => sizeKey k i

/-- What is in the dict after everything is written: for each visit its value. -/
def Written (sizeKey : K → Nat → K) (o : Opts) (bv : Nat → Res Raw) (h : Heap) (out : Dict K Raw) : Ev → Prop
  | .data k raw => out.get? k = some raw
  | .size k i d => ∃ v, sizeValue o bv h d = .ok v ∧ ∀ r, v = some r → out.get? (sizeKey k i) = some r

/-- Whether a visit writes something. -/
def Writes (o : Opts) (bv : Nat → Res Raw) (h : Heap) : Ev → Prop
  | .data _ _ => True
  | .size _ _ d => ∃ r, sizeValue o bv h d = .ok (some r)

theorem write_spec {sizeKey : K → Nat → K} {o : Opts} {bv : Nat → Res Raw} {h : Heap} {out out' : Dict K Raw} {e : Ev} (hw : write sizeKey o bv h out e = .ok out') :
    Written sizeKey o bv h out' e ∧ (∀ k v, out.get? k = some v → out'.get? k = some v) ∧ out.get? (evKey sizeKey e) = none ∧ (∀ k, out'.get? k ≠ out.get? k → k = evKey sizeKey e ∧ Writes o bv h e) := by
  cases e with
  | data k raw =>
    unfold write at hw
    by_cases hc : out.contains k = true
    · simp [hc, pyAssert, bind, Except.bind] at hw
    · have hnone : out.get? k = none := by
        unfold Dict.contains at hc
        cases hg : out.get? k with
        | none => rfl
        | some v => rw [hg] at hc; simp at hc
      simp only [hc, pyAssert, bind, Except.bind, Bool.not_false, if_true, Except.ok.injEq, Bool.not_eq_true, Bool.not_eq_false] at hw
      subst hw
      refine ⟨?_, ?_, hnone, ?_⟩
      · show (out.set k raw).get? k = some raw
        rw [Dict.get?_set, if_pos rfl]
      · intro k' v hk
        rw [Dict.get?_set]
        split
        · rename_i hkk
          subst hkk
          rw [hnone] at hk
          cases hk
        · exact hk
      · intro k' hne
        rw [Dict.get?_set] at hne
        split at hne
        · rename_i hkk
          exact ⟨hkk.symm, trivial⟩
        · exact absurd rfl hne
  | size k i d =>
    unfold write at hw
    by_cases hc : out.contains (sizeKey k i) = true
    · simp [hc, pyAssert, bind, Except.bind] at hw
    · have hnone : out.get? (sizeKey k i) = none := by
        unfold Dict.contains at hc
        cases hg : out.get? (sizeKey k i) with
        | none => rfl
        | some v => rw [hg] at hc; simp at hc
      simp only [hc, pyAssert, bind, Except.bind, Bool.not_false, if_true, Bool.not_eq_true, Bool.not_eq_false] at hw
      cases hv : sizeValue o bv h d with
      | error e => rw [hv] at hw; cases hw
      | ok v =>
        rw [hv] at hw
        cases v with
        | none =>
          simp only [Except.ok.injEq] at hw
          subst hw
          exact ⟨⟨none, hv, by intro r hr; cases hr⟩, fun k v h => h, hnone, fun k hne => absurd rfl hne⟩
        | some r =>
          simp only [Except.ok.injEq] at hw
          subst hw
          refine ⟨⟨some r, hv, ?_⟩, ?_, hnone, ?_⟩
          · intro r' hr'
            simp only [Option.some.injEq] at hr'
            subst hr'
            rw [Dict.get?_set, if_pos rfl]
          · intro k' v hk
            rw [Dict.get?_set]
            split
            · rename_i hkk
              subst hkk
              rw [hnone] at hk
              cases hk
            · exact hk
          · intro k' hne
            rw [Dict.get?_set] at hne
            split at hne
            · rename_i hkk
              exact ⟨hkk.symm, r, hv⟩
            · exact absurd rfl hne

theorem written_mono {sizeKey : K → Nat → K} {o : Opts} {bv : Nat → Res Raw} {h : Heap} {out out' : Dict K Raw} (hm : ∀ k v, out.get? k = some v → out'.get? k = some v) {e : Ev}
    (hw : Written sizeKey o bv h out e) : Written sizeKey o bv h out' e := by
  cases e with
  | data k raw => exact hm _ _ hw
  | size k i d =>
    obtain ⟨v, h1, h3⟩ := hw
    exact ⟨v, h1, fun r hr => hm _ _ (h3 r hr)⟩

theorem writeAll_spec {sizeKey : K → Nat → K} {o : Opts} {bv : Nat → Res Raw} {h : Heap} : ∀ (l : List Ev) (out out' : Dict K Raw), writeAll sizeKey o bv h l out = .ok out' →
    (∀ e ∈ l, Written sizeKey o bv h out' e) ∧ (∀ k v, out.get? k = some v → out'.get? k = some v) ∧ (∀ k, out'.get? k ≠ out.get? k → ∃ e ∈ l, k = evKey sizeKey e ∧ Writes o bv h e) := by
  intro l
  induction l with
  | nil =>
    intro out out' hw
    simp only [writeAll, Except.ok.injEq] at hw
    subst hw
    exact ⟨by simp, fun k v h => h, fun k h => absurd rfl h⟩
  | cons e t ih =>
    intro out out' hw
    unfold writeAll at hw
    cases h1 : write sizeKey o bv h out e with
    | error err => rw [h1] at hw; cases hw
    | ok out1 =>
      rw [h1] at hw
      simp only [bind, Except.bind] at hw
      obtain ⟨a1, a2, a3, a4⟩ := write_spec h1
      obtain ⟨b1, b2, b3⟩ := ih out1 out' hw
      refine ⟨?_, fun k v hk => b2 k v (a2 k v hk), ?_⟩
      · intro e' he'
        rcases List.mem_cons.1 he' with rfl | he'
        · exact written_mono b2 a1
        · exact b1 e' he'
      · intro k hk
        by_cases h2 : out1.get? k = out.get? k
        · obtain ⟨e', he', hke⟩ := b3 k (by rw [h2]; exact hk)
          exact ⟨e', by simp [he'], hke⟩
        · exact ⟨e, by simp, a4 k h2⟩

theorem asRaw_spec {sizeKey : K → Nat → K} {o : Opts} {bv : Nat → Res Raw} {h : Heap} {td : TD} {out : Dict K Raw} (hw : asRaw sizeKey o bv h td = .ok out) :
    writeAll sizeKey o bv h (events o.excludeDup td []) [] = .ok out := by
  unfold asRaw at hw
  cases hc : pyAssert (!(o.constSizes && !o.scalarDyn)) with
  | error e => rw [hc] at hw; cases hw
  | ok u => rw [hc] at hw; exact hw

/-! ## Which dims are visited -/

theorem dimEvents_spec (excl : Bool) (k : K) : ∀ (l : List Nat) (i : Nat) (seen : List Nat),
    (∀ e ∈ (dimEvents excl k i l seen).1, ∃ j d, e = .size k j d ∧ d ∈ l) ∧ (∀ d, d ∈ (dimEvents excl k i l seen).2 ↔ d ∈ l ∨ d ∈ seen) ∧
    (∀ d ∈ l, (∃ j, Ev.size k j d ∈ (dimEvents excl k i l seen).1) ∨ (excl = true ∧ d ∈ seen)) := by
  intro l
  induction l with
  | nil => intro i seen; simp [dimEvents]
  | cons a t ih =>
    intro i seen
    unfold dimEvents
    by_cases hc : (excl && decide (a ∈ seen)) = true
    · rw [if_pos hc]
      obtain ⟨h1, h2, h3⟩ := ih (i + 1) seen
      simp only [Bool.and_eq_true, decide_eq_true_eq] at hc
      refine ⟨?_, ?_, ?_⟩
      · intro e he
        obtain ⟨j, d, h4, h5⟩ := h1 e he
        exact ⟨j, d, h4, by simp [h5]⟩
      · intro d
        rw [h2 d]
        constructor
        · rintro (h | h)
          · exact .inl (by simp [h])
          · exact .inr h
        · rintro (h | h)
          · rcases List.mem_cons.1 h with rfl | h
            · exact .inr hc.2
            · exact .inl h
          · exact .inr h
      · intro d hd
        rcases List.mem_cons.1 hd with rfl | hd
        · exact .inr hc
        · exact h3 d hd
    · rw [if_neg hc]
      obtain ⟨h1, h2, h3⟩ := ih (i + 1) (a :: seen)
      refine ⟨?_, ?_, ?_⟩
      · intro e he
        rcases List.mem_cons.1 he with rfl | he
        · exact ⟨i, a, rfl, by simp⟩
        · obtain ⟨j, d, h4, h5⟩ := h1 e he
          exact ⟨j, d, h4, by simp [h5]⟩
      · intro d
        simp only
        rw [h2 d]
        simp only [List.mem_cons]
        constructor
        · rintro (h | rfl | h)
          · exact .inl (.inr h)
          · exact .inl (.inl rfl)
          · exact .inr h
        · rintro ((rfl | h) | h)
          · exact .inr (.inl rfl)
          · exact .inl h
          · exact .inr (.inr h)
      · intro d hd
        rcases List.mem_cons.1 hd with rfl | hd
        · exact .inl ⟨i, by simp⟩
        · rcases h3 d hd with ⟨j, hj⟩ | ⟨he, hs⟩
          · exact .inl ⟨j, by simp [hj]⟩
          · rcases List.mem_cons.1 hs with rfl | hs
            · exact .inl ⟨i, by simp⟩
            · exact .inr ⟨he, hs⟩

theorem events_spec (excl : Bool) : ∀ (td : TD) (seen : List Nat),
    (∀ e ∈ events excl td seen, (∃ k v, (k, v) ∈ td ∧ e = .data k v.raw) ∨ ∃ k v j d, (k, v) ∈ td ∧ e = .size k j d ∧ d ∈ v.dims) ∧
    (∀ k v, (k, v) ∈ td → Ev.data k v.raw ∈ events excl td seen ∧ ∀ d ∈ v.dims, (∃ k' j, Ev.size k' j d ∈ events excl td seen) ∨ (excl = true ∧ d ∈ seen)) := by
  intro td
  induction td with
  | nil => intro seen; simp [events]
  | cons kv t ih =>
    intro seen
    obtain ⟨k0, v0⟩ := kv
    obtain ⟨d1, d2, d3⟩ := dimEvents_spec excl k0 v0.dims 0 seen
    obtain ⟨i1, i2⟩ := ih (dimEvents excl k0 0 v0.dims seen).2
    unfold events
    constructor
    · intro e he
      rcases List.mem_cons.1 he with rfl | he
      · exact .inl ⟨k0, v0, by simp, rfl⟩
      · rcases List.mem_append.1 he with he | he
        · obtain ⟨j, d, h1, h2⟩ := d1 e he
          exact .inr ⟨k0, v0, j, d, by simp, h1, h2⟩
        · rcases i1 e he with ⟨k, v, h1, h2⟩ | ⟨k, v, j, d, h1, h2, h3⟩
          · exact .inl ⟨k, v, by simp [h1], h2⟩
          · exact .inr ⟨k, v, j, d, by simp [h1], h2, h3⟩
    · intro k v hkv
      rcases List.mem_cons.1 hkv with heq | hkv
      · simp only [Prod.mk.injEq] at heq
        obtain ⟨rfl, rfl⟩ := heq
        refine ⟨by simp, ?_⟩
        intro d hd
        rcases d3 d hd with ⟨j, hj⟩ | h
        · exact .inl ⟨k, j, by simp [hj]⟩
        · exact .inr h
      · obtain ⟨h1, h2⟩ := i2 k v hkv
        refine ⟨by simp [h1], ?_⟩
        intro d hd
        rcases h2 d hd with ⟨k', j, hj⟩ | ⟨he, hs⟩
        · exact .inl ⟨k', j, by simp [hj]⟩
        · rcases (d2 d).1 hs with hs | hs
          · rcases d3 d hs with ⟨j, hj⟩ | h
            · exact .inl ⟨k0, j, by simp [hj]⟩
            · exact .inr h
          · exact .inr ⟨he, hs⟩

/-- The dict has each raw tensor under its name; for each dim the sizes are there, under the name of a tensor with the axis. -/
theorem raw_dict {sizeKey : K → Nat → K} {o : Opts} {bv : Nat → Res Raw} {h : Heap} {td : TD} {out : Dict K Raw} (hw : asRaw sizeKey o bv h td = .ok out) :
    (∀ k v, (k, v) ∈ td → out.get? k = some v.raw) ∧
    (∀ k v, (k, v) ∈ td → ∀ d ∈ v.dims, Dynamic (h d) → o.scalarDyn = true → ∃ k' j r, out.get? (sizeKey k' j) = some r ∧ SizeIs bv h d r) ∧
    ∀ k r, out.get? k = some r → (∃ v, (k, v) ∈ td) ∨ ∃ k' v j, (k', v) ∈ td ∧ k = sizeKey k' j := by
  obtain ⟨w1, _, w3⟩ := writeAll_spec _ _ _ (asRaw_spec hw)
  obtain ⟨e1, e2⟩ := events_spec o.excludeDup td []
  refine ⟨fun k v hkv => w1 _ (e2 k v hkv).1, ?_, ?_⟩
  · intro k v hkv d hd hdyn hs
    rcases (e2 k v hkv).2 d hd with ⟨k', j, hj⟩ | ⟨_, hc⟩
    · obtain ⟨r, hr, hr'⟩ := w1 _ hj
      unfold sizeValue at hr
      rw [hs] at hr
      by_cases hb : ((h d).isBatch && ((h d).ext.isNone || (h d).ext.any (fun e => decide (e.raw = .none)))) = true
      · rw [if_pos hb] at hr
        simp only [if_true] at hr
        cases hbv : bv d with
        | error e => rw [hbv] at hr; cases hr
        | ok x =>
          rw [hbv] at hr
          simp only [Except.ok.injEq] at hr
          refine ⟨k', j, x, hr' x hr.symm, .inl ⟨?_, ?_, hbv⟩⟩
          · simp only [Bool.and_eq_true] at hb
            exact hb.1
          · intro e he
            simp only [Bool.and_eq_true, Bool.or_eq_true] at hb
            rw [he] at hb
            simpa using hb.2
      · rw [if_neg hb] at hr
        cases he : (h d).ext with
        | none =>
          exfalso
          rcases hdyn with h1 | h1
          · simp [h1, he] at hb
          · rw [he] at h1; cases h1
        | some e =>
          rw [he] at hr
          simp only [Bool.true_or, if_true, Except.ok.injEq] at hr
          refine ⟨k', j, e.raw, hr' _ hr.symm, .inr ⟨e, he, rfl, ?_⟩⟩
          intro hbb hn
          simp [hbb, he, hn] at hb
    · simp at hc
  · intro k r hk
    obtain ⟨e, he, hke, _⟩ := w3 k (by rw [hk]; simp [Dict.get?])
    rcases e1 e he with ⟨k', v, h1, h2⟩ | ⟨k', v, j, d, h1, h2, _⟩
    · subst h2
      exact .inl ⟨v, by rw [hke]; exact h1⟩
    · subst h2
      exact .inr ⟨k', v, j, h1, hke⟩

/-! ## Back -/

theorem dimEvents_axis (excl : Bool) (k : K) : ∀ (l : List Nat) (i : Nat) (seen : List Nat) (k' : K) (j d : Nat), Ev.size k' j d ∈ (dimEvents excl k i l seen).1 → k' = k ∧ i ≤ j ∧ l[j - i]? = some d := by
  intro l
  induction l with
  | nil => intro i seen k' j d h; simp [dimEvents] at h
  | cons a t ih =>
    intro i seen k' j d h
    have hrec : ∀ seen', Ev.size k' j d ∈ (dimEvents excl k (i + 1) t seen').1 → k' = k ∧ i ≤ j ∧ (a :: t)[j - i]? = some d := by
      intro seen' h
      obtain ⟨h1, h2, h3⟩ := ih (i + 1) seen' k' j d h
      refine ⟨h1, by omega, ?_⟩
      have : j - i = (j - (i + 1)) + 1 := by omega
      rw [this]
      simpa using h3
    unfold dimEvents at h
    split at h
    · exact hrec _ h
    · rcases List.mem_cons.1 h with heq | h
      · simp only [Ev.size.injEq] at heq
        obtain ⟨rfl, rfl, rfl⟩ := heq
        simp
      · exact hrec _ h

theorem events_axis (excl : Bool) : ∀ (td : TD) (seen : List Nat) (k : K) (j d : Nat), Ev.size k j d ∈ events excl td seen → ∃ v, (k, v) ∈ td ∧ v.dims[j]? = some d := by
  intro td
  induction td with
  | nil => intro seen k j d h; simp [events] at h
  | cons kv t ih =>
    intro seen k j d h
    obtain ⟨k0, v0⟩ := kv
    unfold events at h
    rcases List.mem_cons.1 h with heq | h
    · cases heq
    · rcases List.mem_append.1 h with h | h
      · obtain ⟨h1, _, h3⟩ := dimEvents_axis excl k0 v0.dims 0 seen k j d h
        exact ⟨v0, by simp [h1], by simpa using h3⟩
      · obtain ⟨v, h1, h2⟩ := ih _ k j d h
        exact ⟨v, by simp [h1], h2⟩

/-- Nothing is there for a dim for which nothing is written. -/
theorem not_written {sizeKey : K → Nat → K} (hinj : ∀ k i k' i', sizeKey k i = sizeKey k' i' → k = k' ∧ i = i') {o : Opts} {bv : Nat → Res Raw} {h : Heap} {td : TD} (hwf : Dict.Wf td)
    (hnames : ∀ k v, (k, v) ∈ td → ∀ k' j, k ≠ sizeKey k' j) {out : Dict K Raw} (hw : asRaw sizeKey o bv h td = .ok out) (k : K) (i d : Nat) (hm : Ev.size k i d ∈ events o.excludeDup td [])
    (hv : sizeValue o bv h d = .ok none) : out.get? (sizeKey k i) = none := by
  obtain ⟨_, _, w3⟩ := writeAll_spec _ _ _ (asRaw_spec hw)
  cases hg : out.get? (sizeKey k i) with
  | none => rfl
  | some r =>
    exfalso
    obtain ⟨e, he, hke, hwr⟩ := w3 (sizeKey k i) (by rw [hg]; simp [Dict.get?])
    cases e with
    | data k' r' =>
      rcases (events_spec o.excludeDup td []).1 _ he with ⟨k2, v, h1, h2⟩ | ⟨_, _, _, _, _, h2, _⟩
      · simp only [Ev.data.injEq] at h2
        obtain ⟨rfl, _⟩ := h2
        exact hnames _ _ h1 k i hke.symm
      · cases h2
    | size k' i' d' =>
      obtain ⟨rfl, rfl⟩ := hinj _ _ _ _ hke
      obtain ⟨v, a1, a2⟩ := events_axis _ _ _ _ _ _ hm
      obtain ⟨v', b1, b2⟩ := events_axis _ _ _ _ _ _ he
      have hvv : v = v' := by
        have h1 := Dict.get?_of_mem hwf a1
        have h2 := Dict.get?_of_mem hwf b1
        rw [h1] at h2
        exact Option.some.inj h2
      subst hvv
      rw [a2] at b2
      simp only [Option.some.injEq] at b2
      subst b2
      obtain ⟨r2, hr2⟩ := hwr
      rw [hv] at hr2
      cases hr2

theorem dimEvents_same (excl : Bool) {td td' : TD} (h : SameTemplate td td') : ∀ (seen : List Nat) (sizeKey : K → Nat → K),
    (events excl td' seen).map (fun e => match e with | .data k _ => Ev.data k .none | e => e) = (events excl td seen).map (fun e => match e with | .data k _ => Ev.data k .none | e => e) := by
  induction h with
  | nil => intro seen _; rfl
  | @cons k v v' t t' hv _ ih =>
    intro seen sk
    unfold events
    rw [← hv]
    simp only [List.map_cons, List.map_append]
    rw [ih _ sk]

/-- Reading does not use the raw tensor of a visit. -/
theorem readAll_forget (sizeKey : K → Nat → K) (ws : Bool) (raw : Dict K Raw) : ∀ (l : List Ev) (s : TD × Heap),
    readAll sizeKey ws raw (l.map (fun e => match e with | .data k _ => Ev.data k .none | e => e)) s = readAll sizeKey ws raw l s := by
  intro l
  induction l with
  | nil => intro s; rfl
  | cons e t ih =>
    intro s
    rw [List.map_cons]
    unfold readAll
    have : read sizeKey ws raw s (match e with | .data k _ => Ev.data k .none | e => e) = read sizeKey ws raw s e := by
      cases e <;> rfl
    rw [this]
    congr 1
    funext s'
    exact ih s'

/-- What a dim gets from what was written for it. -/
theorem assigned_spec {o : Opts} {bv : Nat → Res Raw} {h : Heap} {d : Nat} {d' : D} {v : Option Raw} (hv : sizeValue o bv h d = .ok v) (hf : Fits (h d) d') :
    ∃ d'', d'.assigned o.scalarDyn v = .ok d'' ∧ Fits (h d) d'' ∧ d''.isBatch = d'.isBatch ∧ d''.size = d'.size ∧
      (Dynamic (h d) → (o.scalarDyn = true ∨ ∀ e, d''.ext = some e → e.scalar = false) → ∃ r e, SizeIs bv h d r ∧ d''.ext = some e ∧ e.raw = r) := by
  obtain ⟨f1, f2, f3, f4⟩ := hf
  cases hb : (h d).isBatch with
  | true =>
    have hb' : d'.isBatch = true := by rw [← f1]; exact hb
    obtain ⟨g1, g2⟩ := f4 hb
    -- the target has a scalar tensor of sizes
    have hprep : ∃ e : Ext, d'.prepared = { d' with ext := some e } ∧ e.scalar = true := by
      unfold D.prepared D.reset
      cases he : d'.ext with
      | none => exact ⟨⟨true, .none⟩, by simp [hb'], rfl⟩
      | some e => exact ⟨{ e with raw := .none }, by simp, g2 e he⟩
    obtain ⟨e, he1, he2⟩ := hprep
    unfold D.assigned
    rw [he1]
    simp only [he2]
    cases hs : o.scalarDyn with
    | false =>
      simp only [Bool.not_false, Bool.and_self, if_true]
      refine ⟨_, rfl, ⟨by rw [hb]; exact hb'.symm, f2, ?_, ?_⟩, rfl, rfl, ?_⟩
      · intro hc
        rw [hb] at hc
        cases hc
      · intro _
        refine ⟨g1, ?_⟩
        intro x hx
        simp only [Option.some.injEq] at hx
        rw [← hx]
        exact he2
      · rintro _ (hc | hc)
        · cases hc
        · have := hc e rfl
          rw [he2] at this
          cases this
    | true =>
      simp only [Bool.not_true, Bool.false_and, Bool.false_eq_true, if_false]
      unfold sizeValue at hv
      rw [hs] at hv
      have hval : ∃ r, v = some r ∧ SizeIs bv h d r := by
        by_cases hc : ((h d).isBatch && ((h d).ext.isNone || (h d).ext.any (fun e => decide (e.raw = .none)))) = true
        · rw [if_pos hc] at hv
          simp only [if_true] at hv
          cases hbv : bv d with
          | error e => rw [hbv] at hv; cases hv
          | ok x =>
            rw [hbv] at hv
            simp only [Except.ok.injEq] at hv
            refine ⟨x, hv.symm, .inl ⟨hb, ?_, hbv⟩⟩
            intro e he
            simp only [Bool.and_eq_true, Bool.or_eq_true] at hc
            rw [he] at hc
            simpa using hc.2
        · rw [if_neg hc] at hv
          cases hx : (h d).ext with
          | none => simp [hb, hx] at hc
          | some x =>
            rw [hx] at hv
            simp only [Bool.true_or, if_true, Except.ok.injEq] at hv
            refine ⟨x.raw, hv.symm, .inr ⟨x, hx, rfl, ?_⟩⟩
            intro _ hn
            simp [hb, hx, hn] at hc
      obtain ⟨r, rfl, hr⟩ := hval
      simp only
      refine ⟨_, rfl, ⟨by rw [hb]; exact hb'.symm, f2, ?_, ?_⟩, rfl, rfl, ?_⟩
      · intro hc
        rw [hb] at hc
        cases hc
      · intro _
        refine ⟨g1, ?_⟩
        intro x hx
        simp only [Option.some.injEq] at hx
        rw [← hx]
      · intro _ _
        exact ⟨r, _, hr, rfl, rfl⟩
  | false =>
    have hb' : d'.isBatch = false := by rw [← f1]; exact hb
    have hsc := f3 hb
    have hprep : d'.prepared = d'.reset := by
      unfold D.prepared
      simp [hb']
    unfold sizeValue at hv
    rw [hb] at hv
    simp only [Bool.false_and, Bool.false_eq_true, if_false] at hv
    unfold D.assigned
    rw [hprep]
    cases hx : (h d).ext with
    | some x =>
      rw [hx] at hsc hv
      cases hy : d'.ext with
      | none => rw [hy] at hsc; cases hsc
      | some y =>
        rw [hy] at hsc
        simp only [Option.map_some, Option.some.injEq] at hsc
        have hreset : d'.reset = { d' with ext := some { y with raw := .none } } := by
          unfold D.reset
          rw [hy]
          rfl
        rw [hreset]
        simp only
        by_cases hc : (!o.scalarDyn && y.scalar) = true
        · rw [if_pos hc]
          simp only [Bool.and_eq_true, Bool.not_eq_true'] at hc
          refine ⟨_, rfl, ⟨by rw [hb]; exact hb'.symm, f2, ?_, ?_⟩, rfl, rfl, ?_⟩
          · intro _
            rw [hx]
            simp [hsc]
          · intro h1
            rw [hb] at h1
            cases h1
          · rintro _ (h1 | h1)
            · rw [hc.1] at h1
              cases h1
            · have := h1 _ rfl
              simp only at this
              rw [hc.2] at this
              cases this
        · rw [if_neg hc]
          have hv' : v = some x.raw := by
            have : (o.scalarDyn || !x.scalar) = true := by
              rw [hsc]
              cases h1 : o.scalarDyn <;> cases h2 : y.scalar <;> simp [h1, h2] at hc ⊢
            simp only at hv
            rw [if_pos this] at hv
            simpa using hv.symm
          subst hv'
          simp only
          refine ⟨_, rfl, ⟨by rw [hb]; exact hb'.symm, f2, ?_, ?_⟩, rfl, rfl, ?_⟩
          · intro _
            rw [hx]
            simp [hsc]
          · intro h1
            rw [hb] at h1
            cases h1
          · intro _ _
            refine ⟨x.raw, _, .inr ⟨x, hx, rfl, ?_⟩, rfl, rfl⟩
            intro h1
            rw [hb] at h1
            cases h1
    | none =>
      rw [hx] at hsc hv
      have hy : d'.ext = none := by
        cases hy : d'.ext with
        | none => rfl
        | some y => rw [hy] at hsc; cases hsc
      have hreset : d'.reset = d' := by
        unfold D.reset
        cases d'
        simp only at hy
        subst hy
        rfl
      rw [hreset, hy]
      simp only
      cases hz : (h d).size with
      | none => rw [hz] at hv; cases hv
      | some n =>
        rw [hz] at hv
        have hsz : d'.size = some n := by rw [← f2]; exact hz
        have hfits : Fits (h d) d' := ⟨f1, f2, f3, f4⟩
        have hnd : ¬ Dynamic (h d) := by
          rintro (h1 | h1)
          · rw [hb] at h1; cases h1
          · rw [hx] at h1; cases h1
        simp only at hv
        split at hv
        · simp only [Except.ok.injEq] at hv
          subst hv
          simp only [hsz, if_true]
          exact ⟨_, rfl, hfits, rfl, hsz, fun h1 => absurd h1 hnd⟩
        · simp only [Except.ok.injEq] at hv
          subst hv
          exact ⟨_, rfl, hfits, rfl, rfl, fun h1 => absurd h1 hnd⟩

theorem readAll_spec {sizeKey : K → Nat → K} {o : Opts} {bv : Nat → Res Raw} {h : Heap} {raw : Dict K Raw}
    :
    ∀ (l : List Ev) (td' : TD) (h' : Heap), (∀ e ∈ l, Written sizeKey o bv h raw e) → (∀ k i d v, Ev.size k i d ∈ l → sizeValue o bv h d = .ok v → v = none → raw.get? (sizeKey k i) = none) →
      (∀ k r, Ev.data k r ∈ l → (td'.get? k).isSome) → (∀ k i d, Ev.size k i d ∈ l → Fits (h d) (h' d)) →
      ∃ td'' h'', readAll sizeKey o.scalarDyn raw l (td', h') = .ok (td'', h'') ∧
        (∀ k, (td''.get? k).map T.dims = (td'.get? k).map T.dims) ∧
        (∀ k r, Ev.data k r ∈ l → (td''.get? k).map T.raw = some r) ∧
        (∀ k, (∀ r, Ev.data k r ∉ l) → td''.get? k = td'.get? k) ∧
        (∀ d, (∀ k i, Ev.size k i d ∉ l) → h'' d = h' d) ∧
        (∀ k i d, Ev.size k i d ∈ l → Dynamic (h d) → (o.scalarDyn = true ∨ ∀ e, (h'' d).ext = some e → e.scalar = false) → ∃ r e, SizeIs bv h d r ∧ (h'' d).ext = some e ∧ e.raw = r) := by
  intro l
  induction l with
  | nil =>
    intro td' h' _ _ _ _
    exact ⟨td', h', rfl, fun _ => rfl, by simp, fun _ _ => rfl, fun _ _ => rfl, by simp⟩
  | cons e t ih =>
    intro td' h' hw hn hk hf
    cases e with
    | data k r =>
      obtain ⟨t0, ht0⟩ := Option.isSome_iff_exists.1 (hk k r (by simp))
      have hwk : raw.get? k = some r := hw (Ev.data k r) (by simp)
      have hget : ∀ k', (td'.set k { t0 with raw := r }).get? k' = if k = k' then some { t0 with raw := r } else td'.get? k' := fun k' => Dict.get?_set _ _ _ _
      obtain ⟨td'', h'', h1, h2, h3, h4, h5, h6⟩ := ih (td'.set k { t0 with raw := r }) h' (fun e he => hw e (by simp [he])) (fun k i d v hm => hn k i d v (by simp [hm]))
        (by
          intro k' r' hm
          rw [hget]
          split
          · rfl
          · exact hk k' r' (by simp [hm]))
        (fun k i d hm => hf k i d (by simp [hm]))
      refine ⟨td'', h'', ?_, ?_, ?_, ?_, ?_, ?_⟩
      · unfold readAll
        simp only [read, hwk, ht0, bind, Except.bind]
        exact h1
      · intro k'
        rw [h2 k', hget]
        split
        · rename_i hkk
          subst hkk
          rw [ht0]
          rfl
        · rfl
      · intro k' r' hm
        by_cases hin : ∃ r2, Ev.data k' r2 ∈ t
        · obtain ⟨r2, hr2⟩ := hin
          have e1 : raw.get? k' = some r2 := hw (Ev.data k' r2) (by simp [hr2])
          have e2 : raw.get? k' = some r' := hw (Ev.data k' r') hm
          rw [e1] at e2
          rw [h3 k' r2 hr2, e2]
        · rcases List.mem_cons.1 hm with heq | hm
          · simp only [Ev.data.injEq] at heq
            obtain ⟨rfl, rfl⟩ := heq
            rw [h4 k' (fun r hr => hin ⟨r, hr⟩), hget, if_pos rfl]
            rfl
          · exact absurd ⟨r', hm⟩ hin
      · intro k' hno
        rw [h4 k' (fun r hr => hno r (by simp [hr])), hget, if_neg]
        rintro rfl
        exact hno r (by simp)
      · intro d hno
        exact h5 d (fun k i hm => hno k i (by simp [hm]))
      · intro k' i d hm
        exact h6 k' i d (by simpa using hm)
    | size k i d =>
      obtain ⟨v, hv, hvr⟩ := hw (Ev.size k i d) (by simp)
      have hgiven : raw.get? (sizeKey k i) = v := by
        cases v with
        | none => exact hn k i d none (by simp) hv rfl
        | some r => exact hvr r rfl
      obtain ⟨d'', a1, a2, a3, a4, a5⟩ := assigned_spec hv (hf k i d (by simp))
      obtain ⟨td'', h'', h1, h2, h3, h4, h5, h6⟩ := ih td' (fun x => if x = d then d'' else h' x) (fun e he => hw e (by simp [he])) (fun k i d v hm => hn k i d v (by simp [hm]))
        (fun k' r' hm => hk k' r' (by simp [hm]))
        (by
          intro k' i' x hm
          show Fits (h x) (if x = d then d'' else h' x)
          split
          · rename_i hxd
            subst hxd
            exact a2
          · exact hf k' i' x (by simp [hm]))
      refine ⟨td'', h'', ?_, h2, ?_, ?_, ?_, ?_⟩
      · unfold readAll
        simp only [read, hgiven, a1, bind, Except.bind]
        exact h1
      · intro k' r' hm
        exact h3 k' r' (by simpa using hm)
      · intro k' hno
        exact h4 k' (fun r hr => hno r (by simp [hr]))
      · intro x hno
        rw [h5 x (fun k i hm => hno k i (by simp [hm]))]
        have : x ≠ d := by
          rintro rfl
          exact hno k i (by simp)
        simp [this]
      · intro k' i' x hm hdyn hcond
        by_cases hin : ∃ k2 i2, Ev.size k2 i2 x ∈ t
        · obtain ⟨k2, i2, hin⟩ := hin
          exact h6 k2 i2 x hin hdyn hcond
        · have hx : x = d := by
            rcases List.mem_cons.1 hm with heq | hm
            · simp only [Ev.size.injEq] at heq
              exact heq.2.2
            · exact absurd ⟨k', i', hm⟩ hin
          subst hx
          have hh : h'' x = d'' := by
            rw [h5 x (fun k i hm => hin ⟨k, i, hm⟩)]
            simp
          rw [hh] at hcond ⊢
          exact a5 hdyn hcond

theorem sameTemplate_get {td td' : TD} (h : SameTemplate td td') (k : K) : (td.get? k).map T.dims = (td'.get? k).map T.dims := by
  induction h with
  | nil => rfl
  | @cons k0 v v' t t' hv _ ih =>
    by_cases hk : k0 = k
    · subst hk
      simp [Dict.get?, hv]
    · simpa [Dict.get?, hk] using ih

/-- What was taken apart on one side is put together again on the other: each tensor has its raw tensor, each dim its sizes, and everything else is as before. -/
theorem round_trip {sizeKey : K → Nat → K} (hinj : ∀ k i k' i', sizeKey k i = sizeKey k' i' → k = k' ∧ i = i') {o : Opts} {bv : Nat → Res Raw} {h h' : Heap} {td td' : TD} (hwf : Dict.Wf td)
    (hnames : ∀ k v, (k, v) ∈ td → ∀ k' j, k ≠ sizeKey k' j) {raw : Dict K Raw} (hw : asRaw sizeKey o bv h td = .ok raw) (hsame : SameTemplate td td')
    (hfit : ∀ k v, (k, v) ∈ td → ∀ d ∈ v.dims, Fits (h d) (h' d)) :
    ∃ td'' h'', assign sizeKey o.scalarDyn o.excludeDup raw h' td' = .ok (td'', h'') ∧ (∀ k, td''.get? k = td.get? k) ∧
      (∀ k v, (k, v) ∈ td → ∀ d ∈ v.dims, Dynamic (h d) → (o.scalarDyn = true ∨ ∀ e, (h'' d).ext = some e → e.scalar = false) → ∃ r e, SizeIs bv h d r ∧ (h'' d).ext = some e ∧ e.raw = r) ∧
      ∀ d, (∀ k v, (k, v) ∈ td → d ∉ v.dims) → h'' d = h' d := by
  obtain ⟨w1, _, w3⟩ := writeAll_spec _ _ _ (asRaw_spec hw)
  obtain ⟨e1, e2⟩ := events_spec o.excludeDup td []
  have hdims := sameTemplate_get hsame
  obtain ⟨td'', h'', h1, h2, h3, h4, h5, h6⟩ := readAll_spec (sizeKey := sizeKey) (o := o) (bv := bv) (h := h) (raw := raw) (events o.excludeDup td []) td' h' w1
    (by
      intro k i d v hm hv hn
      subst hn
      exact not_written hinj hwf hnames hw k i d hm hv)
    (by
      intro k r hm
      rcases e1 _ hm with ⟨k2, v, a1, a2⟩ | ⟨_, _, _, _, _, a2, _⟩
      · simp only [Ev.data.injEq] at a2
        obtain ⟨rfl, _⟩ := a2
        have := hdims k
        rw [Dict.get?_of_mem hwf a1] at this
        cases hg : td'.get? k with
        | none => rw [hg] at this; cases this
        | some _ => rfl
      · cases a2)
    (by
      intro k i d hm
      obtain ⟨v, a1, a2⟩ := events_axis _ _ _ _ _ _ hm
      exact hfit k v a1 d (List.mem_of_getElem? a2))
  refine ⟨td'', h'', ?_, ?_, ?_, ?_⟩
  · unfold assign
    rw [← readAll_forget, dimEvents_same o.excludeDup hsame [] sizeKey, readAll_forget]
    exact h1
  · intro k
    have hd := (h2 k).trans (hdims k).symm
    cases hg : td.get? k with
    | none =>
      rw [hg] at hd
      cases hg2 : td''.get? k with
      | none => rfl
      | some _ => rw [hg2] at hd; cases hd
    | some v =>
      have hr := h3 k v.raw (e2 k v (Dict.mem_of_get? hg)).1
      rw [hg] at hd
      cases hg2 : td''.get? k with
      | none => rw [hg2] at hd; cases hd
      | some v2 =>
        rw [hg2] at hd hr
        simp only [Option.map_some, Option.some.injEq] at hd hr
        cases v
        cases v2
        simp_all
  · intro k v hkv d hd hdyn hc
    rcases (e2 k v hkv).2 d hd with ⟨k', j, hj⟩ | ⟨_, hc⟩
    · exact h6 k' j d hj hdyn hc
    · simp at hc
  · intro d hno
    apply h5
    intro k i hm
    obtain ⟨v, a1, a2⟩ := events_axis _ _ _ _ _ _ hm
    exact hno k v a1 (List.mem_of_getElem? a2)

/-! ## When it works -/

theorem dimEvents_once (excl : Bool) (sizeKey : K → Nat → K) (hinj : ∀ k i k' i', sizeKey k i = sizeKey k' i' → k = k' ∧ i = i') (k : K) : ∀ (l : List Nat) (i : Nat) (seen : List Nat),
    (((dimEvents excl k i l seen).1).map (evKey sizeKey)).Nodup := by
  intro l
  induction l with
  | nil => intro i seen; simp [dimEvents]
  | cons a t ih =>
    intro i seen
    unfold dimEvents
    split
    · exact ih _ _
    · simp only [List.map_cons, List.nodup_cons]
      refine ⟨?_, ih _ _⟩
      intro hm
      obtain ⟨e, he, hk⟩ := List.mem_map.1 hm
      obtain ⟨j, d, rfl, _⟩ := (dimEvents_spec excl k t (i + 1) (a :: seen)).1 e he
      obtain ⟨_, h2, _⟩ := dimEvents_axis excl k t (i + 1) (a :: seen) k j d he
      have := (hinj _ _ _ _ hk).2
      omega

theorem events_once (excl : Bool) {sizeKey : K → Nat → K} (hinj : ∀ k i k' i', sizeKey k i = sizeKey k' i' → k = k' ∧ i = i') : ∀ (td : TD) (seen : List Nat), Dict.Wf td →
    (∀ k v, (k, v) ∈ td → ∀ k' j, k ≠ sizeKey k' j) → ((events excl td seen).map (evKey sizeKey)).Nodup := by
  intro td
  induction td with
  | nil => intro seen _ _; simp [events]
  | cons kv t ih =>
    intro seen hwf hn
    obtain ⟨k0, v0⟩ := kv
    unfold events
    have hwf' : k0 ∉ Dict.keys t ∧ Dict.Wf t := by
      unfold Dict.Wf Dict.keys at hwf ⊢
      simpa using hwf
    have hk0 : ∀ v, (k0, v) ∉ t := by
      intro v hv
      exact hwf'.1 (List.mem_map.2 ⟨(k0, v), hv, rfl⟩)
    simp only [List.map_cons, List.map_append, List.nodup_cons, List.nodup_append, List.mem_append]
    refine ⟨?_, dimEvents_once excl sizeKey hinj k0 v0.dims 0 seen, ih _ hwf'.2 (fun k v h => hn k v (by simp [h])), ?_⟩
    · rintro (h | h)
      · obtain ⟨e, he, hk⟩ := List.mem_map.1 h
        obtain ⟨j, d, rfl, _⟩ := (dimEvents_spec excl k0 v0.dims 0 seen).1 e he
        exact hn k0 v0 (by simp) _ _ hk.symm
      · obtain ⟨e, he, hk⟩ := List.mem_map.1 h
        rcases (events_spec excl t _).1 e he with ⟨k, v, h1, rfl⟩ | ⟨k, v, j, d, h1, rfl, _⟩
        · have hkk : k = k0 := hk
          subst hkk
          exact hk0 v h1
        · exact hn k0 v0 (by simp) _ _ hk.symm
    · intro x hx y hy hxy
      subst hxy
      obtain ⟨e, he, hk⟩ := List.mem_map.1 hx
      obtain ⟨e', he', hk'⟩ := List.mem_map.1 hy
      obtain ⟨j, d, rfl, _⟩ := (dimEvents_spec excl k0 v0.dims 0 seen).1 e he
      rcases (events_spec excl t _).1 e' he' with ⟨k, v, h1, rfl⟩ | ⟨k, v, j', d', h1, rfl, _⟩
      · refine hn k v (by simp [h1]) k0 j ?_
        have h2 : k = x := hk'
        have h3 : sizeKey k0 j = x := hk
        rw [h2, h3]
      · have h3 : sizeKey k0 j = x := hk
        have h4 : sizeKey k j' = x := hk'
        obtain ⟨h5, _⟩ := hinj _ _ _ _ (h3.trans h4.symm)
        subst h5
        exact hk0 v h1

theorem writeAll_ok {sizeKey : K → Nat → K} {o : Opts} {bv : Nat → Res Raw} {h : Heap} : ∀ (l : List Ev) (out : Dict K Raw), (l.map (evKey sizeKey)).Nodup → (∀ e ∈ l, out.get? (evKey sizeKey e) = none) →
    (∀ k i d, Ev.size k i d ∈ l → ∃ v, sizeValue o bv h d = .ok v) → ∃ out', writeAll sizeKey o bv h l out = .ok out' := by
  intro l
  induction l with
  | nil => intro out _ _ _; exact ⟨out, rfl⟩
  | cons e t ih =>
    intro out hnd hnone hv
    simp only [List.map_cons, List.nodup_cons] at hnd
    have hw : ∃ out1, write sizeKey o bv h out e = .ok out1 := by
      have hn := hnone e (by simp)
      cases e with
      | data k r =>
        have hn' : out.get? k = none := hn
        exact ⟨out.set k r, by simp [write, Dict.contains, hn', pyAssert, bind, Except.bind]⟩
      | size k i d =>
        have hn' : out.get? (sizeKey k i) = none := hn
        obtain ⟨v, hv⟩ := hv k i d (by simp)
        cases v with
        | none => exact ⟨out, by simp [write, Dict.contains, hn', pyAssert, bind, Except.bind, hv]⟩
        | some r => exact ⟨out.set (sizeKey k i) r, by simp [write, Dict.contains, hn', pyAssert, bind, Except.bind, hv]⟩
    obtain ⟨out1, hw⟩ := hw
    obtain ⟨_, _, _, a4⟩ := write_spec hw
    obtain ⟨out', h'⟩ := ih out1 hnd.2
      (by
        intro e' he'
        cases hg : out1.get? (evKey sizeKey e') with
        | none => rfl
        | some r =>
          exfalso
          have := (a4 (evKey sizeKey e') (by rw [hg, hnone e' (by simp [he'])]; simp)).1
          exact hnd.1 (List.mem_map.2 ⟨e', he', this⟩))
      (fun k i d hm => hv k i d (by simp [hm]))
    exact ⟨out', by unfold writeAll; simp only [hw, bind, Except.bind]; exact h'⟩

/-- It works when the names are not like names of sizes, and the size of each dim is known. -/
theorem raw_dict_ok {sizeKey : K → Nat → K} (hinj : ∀ k i k' i', sizeKey k i = sizeKey k' i' → k = k' ∧ i = i') {o : Opts} (ho : o.constSizes = true → o.scalarDyn = true) {bv : Nat → Res Raw}
    {h : Heap} {td : TD} (hwf : Dict.Wf td) (hnames : ∀ k v, (k, v) ∈ td → ∀ k' j, k ≠ sizeKey k' j)
    (hknown : ∀ k v, (k, v) ∈ td → ∀ d ∈ v.dims, ((h d).isBatch = true → ∃ r, bv d = .ok r) ∧ ((h d).isBatch = false → (h d).ext = none → ∃ n, (h d).size = some n)) :
    ∃ out, asRaw sizeKey o bv h td = .ok out := by
  obtain ⟨out, hout⟩ := writeAll_ok (sizeKey := sizeKey) (o := o) (bv := bv) (h := h) (events o.excludeDup td []) [] (events_once _ hinj td [] hwf hnames) (by intro e _; rfl)
    (by
      intro k i d hm
      obtain ⟨v, a1, a2⟩ := events_axis _ _ _ _ _ _ hm
      obtain ⟨k1, k2⟩ := hknown k v a1 d (List.mem_of_getElem? a2)
      unfold sizeValue
      split
      · split
        · rename_i hb _
          simp only [Bool.and_eq_true] at hb
          obtain ⟨r, hr⟩ := k1 hb.1
          rw [hr]
          exact ⟨_, rfl⟩
        · exact ⟨_, rfl⟩
      · rename_i hb
        cases he : (h d).ext with
        | some e =>
          simp only
          split <;> exact ⟨_, rfl⟩
        | none =>
          have hb2 : (h d).isBatch = false := by
            cases hbb : (h d).isBatch with
            | false => rfl
            | true => simp [hbb, he] at hb
          obtain ⟨n, hn⟩ := k2 hb2 he
          rw [hn]
          simp only
          split <;> exact ⟨_, rfl⟩)
  refine ⟨out, ?_⟩
  unfold asRaw
  have : (!(o.constSizes && !o.scalarDyn)) = true := by
    cases hc : o.constSizes with
    | false => rfl
    | true => rw [ho hc]; rfl
  rw [this]
  exact hout

/-- Sizes of a dim are there only once, when duplicates are to be left out. -/
theorem dims_once (k : K) : ∀ (l : List Nat) (i : Nat) (seen : List Nat), (((dimEvents true k i l seen).1).filterMap (fun e => match e with | .size _ _ d => some d | _ => none)).Nodup ∧
    ∀ d, d ∈ ((dimEvents true k i l seen).1).filterMap (fun e => match e with | .size _ _ d => some d | _ => none) → d ∉ seen := by
  intro l
  induction l with
  | nil => intro i seen; simp [dimEvents]
  | cons a t ih =>
    intro i seen
    unfold dimEvents
    split
    · exact ih _ _
    · rename_i hc
      simp only [Bool.true_and, decide_eq_true_eq] at hc
      obtain ⟨h1, h2⟩ := ih (i + 1) (a :: seen)
      simp only [List.filterMap_cons, List.nodup_cons]
      refine ⟨⟨fun hm => h2 a hm (by simp), h1⟩, ?_⟩
      intro d hd
      rcases List.mem_cons.1 hd with rfl | hd
      · exact hc
      · intro hs
        exact h2 d hd (by simp [hs])

theorem once_of (td : TD) : ∀ (seen : List Nat), ((events true td seen).filterMap (fun e => match e with | .size _ _ d => some d | _ => none)).Nodup ∧
    ∀ d, d ∈ (events true td seen).filterMap (fun e => match e with | .size _ _ d => some d | _ => none) → d ∉ seen := by
  induction td with
  | nil => intro seen; simp [events]
  | cons kv t ih =>
    intro seen
    obtain ⟨k0, v0⟩ := kv
    obtain ⟨a1, a2⟩ := dims_once k0 v0.dims 0 seen
    obtain ⟨b1, b2⟩ := ih (dimEvents true k0 0 v0.dims seen).2
    obtain ⟨c1, c2, _⟩ := dimEvents_spec true k0 v0.dims 0 seen
    unfold events
    simp only [List.filterMap_cons, List.filterMap_append]
    refine ⟨List.nodup_append.2 ⟨a1, b1, ?_⟩, ?_⟩
    · intro x hx y hy hxy
      subst hxy
      apply b2 x hy
      obtain ⟨e, he, hex⟩ := List.mem_filterMap.1 hx
      obtain ⟨j, d, rfl, hd⟩ := c1 e he
      simp only [Option.some.injEq] at hex
      subst hex
      exact (c2 d).2 (.inl hd)
    · intro d hd
      rcases List.mem_append.1 hd with hd | hd
      · exact a2 d hd
      · intro hs
        exact b2 d hd ((c2 d).2 (.inr hs))

/-- With duplicates left out, a dim is written under one name only. -/
theorem sizes_once {sizeKey : K → Nat → K} {o : Opts} {bv : Nat → Res Raw} {h : Heap} {td : TD} {out : Dict K Raw} (hwf : Dict.Wf td)
    (hnames : ∀ k v, (k, v) ∈ td → ∀ k' j, k ≠ sizeKey k' j) (hinj : ∀ k i k' i', sizeKey k i = sizeKey k' i' → k = k' ∧ i = i') (ho : o.excludeDup = true) (hw : asRaw sizeKey o bv h td = .ok out)
    {k k' : K} {v v' : T} {i i' d : Nat} (hk : (k, v) ∈ td) (hi : v.dims[i]? = some d) (hk' : (k', v') ∈ td) (hi' : v'.dims[i']? = some d) (h1 : (out.get? (sizeKey k i)).isSome)
    (h2 : (out.get? (sizeKey k' i')).isSome) : k = k' ∧ i = i' := by
  obtain ⟨_, _, w3⟩ := writeAll_spec _ _ _ (asRaw_spec hw)
  rw [ho] at w3
  have hev : ∀ (k : K) (v : T) (i : Nat), (k, v) ∈ td → v.dims[i]? = some d → (out.get? (sizeKey k i)).isSome → Ev.size k i d ∈ events true td [] := by
    intro k v i hk hi h1
    obtain ⟨e, he, hke, _⟩ := w3 (sizeKey k i) (by
      intro hc
      rw [hc] at h1
      cases h1)
    cases e with
    | data k2 r =>
      rcases (events_spec true td []).1 _ he with ⟨k3, v3, a1, a2⟩ | ⟨_, _, _, _, _, a2, _⟩
      · simp only [Ev.data.injEq] at a2
        obtain ⟨rfl, _⟩ := a2
        exact absurd hke.symm (hnames _ _ a1 k i)
      · cases a2
    | size k2 i2 d2 =>
      obtain ⟨rfl, rfl⟩ := hinj _ _ _ _ hke
      obtain ⟨v2, b1, b2⟩ := events_axis _ _ _ _ _ _ he
      have hvv : v = v2 := by
        have e1 := Dict.get?_of_mem hwf hk
        rw [Dict.get?_of_mem hwf b1] at e1
        exact (Option.some.inj e1).symm
      subst hvv
      rw [hi] at b2
      simp only [Option.some.injEq] at b2
      subst b2
      exact he
  have m1 := hev k v i hk hi h1
  have m2 := hev k' v' i' hk' hi' h2
  have hnd := (once_of td []).1
  -- two visits of the same dim are the same visit
  have key : ∀ (l : List Ev), (l.filterMap (fun e => match e with | .size _ _ d => some d | _ => none)).Nodup → Ev.size k i d ∈ l → Ev.size k' i' d ∈ l → k = k' ∧ i = i' := by
    intro l
    induction l with
    | nil => intro _ h; cases h
    | cons e t ih =>
      intro hn a1 a2
      have hin : ∀ (k : K) (i : Nat), Ev.size k i d ∈ t → d ∈ t.filterMap (fun e => match e with | .size _ _ d => some d | _ => none) := by
        intro k i hm
        exact List.mem_filterMap.2 ⟨_, hm, rfl⟩
      cases e with
      | data k2 r =>
        simp only [List.filterMap_cons] at hn
        exact ih hn (by simpa using a1) (by simpa using a2)
      | size k2 i2 d2 =>
        simp only [List.filterMap_cons, List.nodup_cons] at hn
        rcases List.mem_cons.1 a1 with e1 | b1
        · rcases List.mem_cons.1 a2 with e2 | b2
          · rw [← e1] at e2
            simp only [Ev.size.injEq] at e2
            exact ⟨e2.1.symm, e2.2.1.symm⟩
          · simp only [Ev.size.injEq] at e1
            obtain ⟨_, _, rfl⟩ := e1
            exact absurd (hin _ _ b2) hn.1
        · rcases List.mem_cons.1 a2 with e2 | b2
          · simp only [Ev.size.injEq] at e2
            obtain ⟨_, _, rfl⟩ := e2
            exact absurd (hin _ _ b1) hn.1
          · exact ih hn.2 b1 b2
  exact key _ hnd m1 m2

/-! ## The other functions -/

theorem addDims_spec : ∀ (l out : List Nat), out.Nodup → (addDims out l).Nodup ∧ (∀ d, d ∈ addDims out l ↔ d ∈ out ∨ d ∈ l) ∧ out <+: addDims out l := by
  intro l
  induction l with
  | nil => intro out h; exact ⟨h, by simp [addDims], List.prefix_refl _⟩
  | cons a t ih =>
    intro out h
    unfold addDims
    by_cases ha : a ∈ out
    · rw [if_pos ha]
      obtain ⟨h1, h2, h3⟩ := ih out h
      refine ⟨h1, ?_, h3⟩
      intro d
      rw [h2 d]
      constructor
      · rintro (h | h)
        · exact .inl h
        · exact .inr (by simp [h])
      · rintro (h | h)
        · exact .inl h
        · rcases List.mem_cons.1 h with heq | h
          · exact .inl (by rw [heq]; exact ha)
          · exact .inr h
    · rw [if_neg ha]
      have hnd : (out ++ [a]).Nodup := by
        rw [List.nodup_append]
        refine ⟨h, by simp, ?_⟩
        intro x hx y hy hxy
        simp only [List.mem_singleton] at hy
        subst hy
        subst hxy
        exact ha hx
      obtain ⟨h1, h2, h3⟩ := ih (out ++ [a]) hnd
      refine ⟨h1, ?_, (List.prefix_append _ _).trans h3⟩
      intro d
      rw [h2 d]
      simp only [List.mem_append, List.mem_cons, List.not_mem_nil, or_false]
      constructor
      · rintro ((h | h) | h)
        · exact .inl h
        · exact .inr (.inl h)
        · exact .inr (.inr h)
      · rintro (h | h | h)
        · exact .inl (.inl h)
        · exact .inl (.inr h)
        · exact .inr h

theorem allDims_aux : ∀ (td : TD) (out : List Nat), out.Nodup → (td.foldl (fun out kv => addDims out kv.2.dims) out).Nodup ∧
    (∀ d, d ∈ td.foldl (fun out kv => addDims out kv.2.dims) out ↔ d ∈ out ∨ ∃ k v, (k, v) ∈ td ∧ d ∈ v.dims) ∧ out <+: td.foldl (fun out kv => addDims out kv.2.dims) out := by
  intro td
  induction td with
  | nil => intro out h; exact ⟨h, by simp, List.prefix_refl _⟩
  | cons kv t ih =>
    intro out h
    obtain ⟨a1, a2, a3⟩ := addDims_spec kv.2.dims out h
    obtain ⟨b1, b2, b3⟩ := ih _ a1
    refine ⟨b1, ?_, a3.trans b3⟩
    intro d
    rw [List.foldl_cons, b2 d, a2 d]
    constructor
    · rintro ((h | h) | ⟨k, v, h1, h2⟩)
      · exact .inl h
      · exact .inr ⟨kv.1, kv.2, by simp, h⟩
      · exact .inr ⟨k, v, by simp [h1], h2⟩
    · rintro (h | ⟨k, v, h1, h2⟩)
      · exact .inl (.inl h)
      · rcases List.mem_cons.1 h1 with heq | h1
        · subst heq
          exact .inl (.inr h2)
        · exact .inr ⟨k, v, h1, h2⟩

/-- All dims, each once; the dims of the first tensors come first. -/
theorem all_dims (td : TD) : (allDims td).Nodup ∧ (∀ d, d ∈ allDims td ↔ ∃ k v, (k, v) ∈ td ∧ d ∈ v.dims) ∧ ∀ more : TD, allDims td <+: allDims (td ++ more) := by
  obtain ⟨h1, h2, _⟩ := allDims_aux td [] (by simp)
  refine ⟨h1, ?_, ?_⟩
  · intro d
    unfold allDims
    rw [h2 d]
    simp
  · intro more
    unfold allDims
    rw [List.foldl_append]
    exact (allDims_aux more _ h1).2.2

/-- The last one of a name wins; others stay. -/
theorem update_last : ∀ (l : List (K × T)) (td : TD) (k : K), (update td l).get? k = match (l.reverse.find? (fun kv => decide (kv.1 = k))) with
    | some kv => some kv.2
    | none => td.get? k := by
  intro l
  induction l with
  | nil => intro td k; rfl
  | cons kv t ih =>
    intro td k
    obtain ⟨k0, v0⟩ := kv
    unfold update
    rw [ih, List.reverse_cons, List.find?_append]
    cases hf : t.reverse.find? (fun kv => decide (kv.1 = k)) with
    | some x => rfl
    | none =>
      simp only [Dict.get?_set, Option.none_or]
      by_cases hk : k0 = k
      · simp [hk]
      · simp [hk]

theorem resetDim_fold : ∀ (l : List Nat) (h : Heap) (x : Nat), l.foldl resetDim h x = if x ∈ l then (h x).reset else h x := by
  intro l
  induction l with
  | nil => intro h x; simp
  | cons a t ih =>
    intro h x
    rw [List.foldl_cons, ih]
    unfold resetDim
    by_cases hx : x = a
    · subst hx
      have : (h x).reset.reset = (h x).reset := by
        unfold D.reset
        cases (h x).ext <;> rfl
      simp [this]
    · simp [hx]

/-- After the reset no raw tensor is left, of tensors and of sizes; dims of others are as before. -/
theorem reset_all (h : Heap) (td : TD) : (∀ k v, (k, v) ∈ (resetContent h td).2 → v.raw = .none) ∧ (∀ k v, (k, v) ∈ td → ∀ d ∈ v.dims, ∀ e, ((resetContent h td).1 d).ext = some e → e.raw = .none) ∧
    (∀ d, (∀ k v, (k, v) ∈ td → d ∉ v.dims) → (resetContent h td).1 d = h d) ∧ SameTemplate td (resetContent h td).2 ∧
    ∀ d, ((resetContent h td).1 d).isBatch = (h d).isBatch ∧ ((resetContent h td).1 d).size = (h d).size ∧ ((resetContent h td).1 d).ext.map Ext.scalar = (h d).ext.map Ext.scalar := by
  have hmem := (all_dims td).2.1
  refine ⟨?_, ?_, ?_, ?_, ?_⟩
  · intro k v hm
    unfold resetContent at hm
    obtain ⟨kv, _, heq⟩ := List.mem_map.1 hm
    simp only [Prod.mk.injEq] at heq
    rw [← heq.2]
  · intro k v hkv d hd e he
    unfold resetContent at he
    simp only [resetDim_fold] at he
    rw [if_pos ((hmem d).2 ⟨k, v, hkv, hd⟩)] at he
    unfold D.reset at he
    obtain ⟨e0, _, h0⟩ := Option.map_eq_some_iff.1 he
    rw [← h0]
  · intro d hno
    unfold resetContent
    simp only [resetDim_fold]
    rw [if_neg]
    intro hm
    obtain ⟨k, v, h1, h2⟩ := (hmem d).1 hm
    exact hno k v h1 h2
  · unfold resetContent
    simp only
    clear hmem
    induction td with
    | nil => exact .nil
    | cons kv t ih => exact .cons rfl ih
  · intro d
    unfold resetContent
    simp only [resetDim_fold]
    split
    · unfold D.reset
      refine ⟨rfl, rfl, ?_⟩
      cases (h d).ext <;> rfl
    · exact ⟨rfl, rfl, rfl⟩

/-! ## Examples -/

/-- Names of sizes: the name with a 0 (for the colon) and the axis. -/
def exSizeKey (k : K) (i : Nat) : K := i :: 0 :: k

/-- Batch (dim 0), time (dim 1, sizes per sequence), feature (dim 2, static), a scalar dynamic dim (dim 3). -/
def exHeap : Heap := fun d =>
  match d with
  | 0 => ⟨true, none, none⟩
  | 1 => ⟨false, none, some ⟨false, .tensor 71⟩⟩
  | 2 => ⟨false, some 40, none⟩
  | _ => ⟨false, none, some ⟨true, .tensor 72⟩⟩

/-- The other side: nothing is known yet. -/
def exOther : Heap := fun d => (exHeap d).reset

/-- data [B,T,F], classes [B,T]. -/
def exTd : TD := [([1], ⟨.tensor 10, [0, 1, 2]⟩), ([2], ⟨.tensor 11, [0, 1, 3]⟩)]

/-- The same without raw tensors. -/
def exTemplate : TD := [([1], ⟨.none, [0, 1, 2]⟩), ([2], ⟨.none, [0, 1, 3]⟩)]

/-- The batch size. -/
def exBatch : Nat → Res Raw := fun d => if d = 0 then .ok (.tensor 70) else .error .valueError

example : asRaw exSizeKey ⟨false, true, false⟩ exBatch exHeap exTd =
    .ok [([1], .tensor 10), ([0, 0, 1], .tensor 70), ([1, 0, 1], .tensor 71), ([2], .tensor 11), ([0, 0, 2], .tensor 70), ([1, 0, 2], .tensor 71), ([2, 0, 2], .tensor 72)] := by decide +kernel
example : asRaw exSizeKey ⟨true, true, true⟩ exBatch exHeap exTd =
    .ok [([1], .tensor 10), ([0, 0, 1], .tensor 70), ([1, 0, 1], .tensor 71), ([2, 0, 1], .int 40), ([2], .tensor 11), ([2, 0, 2], .tensor 72)] := by decide +kernel
example : asRaw exSizeKey ⟨false, false, true⟩ exBatch exHeap exTd = .ok [([1], .tensor 10), ([1, 0, 1], .tensor 71), ([2], .tensor 11)] := by decide +kernel
example : ∃ s, assign exSizeKey true true [([1], .tensor 10), ([0, 0, 1], .tensor 70), ([1, 0, 1], .tensor 71), ([2, 0, 1], .int 40), ([2], .tensor 11), ([2, 0, 2], .tensor 72)] exOther exTemplate = .ok s ∧
    s.1 = exTd ∧ s.2 0 = ⟨true, none, some ⟨true, .tensor 70⟩⟩ ∧ s.2 1 = exHeap 1 ∧ s.2 2 = exHeap 2 ∧ s.2 3 = exHeap 3 := by
  exact ⟨_, rfl, by decide +kernel, by decide +kernel, by decide +kernel, by decide +kernel, by decide +kernel⟩

/-- The names of the example meet what is asked of names. -/
example : (∀ k i k' i', exSizeKey k i = exSizeKey k' i' → k = k' ∧ i = i') ∧ Dict.Wf exTd ∧ (∀ k v, (k, v) ∈ exTd → ∀ k' j, k ≠ exSizeKey k' j) ∧ SameTemplate exTd exTemplate := by
  refine ⟨?_, by unfold Dict.Wf; decide +kernel, ?_, .cons rfl (.cons rfl .nil)⟩
  · intro k i k' i' h
    simp only [exSizeKey, List.cons.injEq, true_and] at h
    exact ⟨h.2, h.1⟩
  · intro k v hm k' j heq
    simp only [exTd, List.mem_cons, Prod.mk.injEq, List.not_mem_nil, or_false] at hm
    rcases hm with ⟨rfl, _⟩ | ⟨rfl, _⟩ <;> simp [exSizeKey] at heq

/-- The dims of the example fit. -/
example : ∀ d, Fits (exHeap d) (exOther d) := by
  intro d
  refine ⟨rfl, rfl, ?_, ?_⟩
  · intro _
    unfold exOther D.reset
    cases (exHeap d).ext <;> rfl
  · intro hb
    match d, hb with
    | 0, _ => exact ⟨(by intro e he; cases he), (by intro e he; cases he)⟩
    | 1, hb => cases hb
    | 2, hb => cases hb
    | n + 3, hb => cases hb

example : allDims exTd = [0, 1, 2, 3] := by decide +kernel

/-- A tensor with the name of a size of another: refused, or it is taken for the size of a static dim on the other side. -/
theorem names_clash : asRaw exSizeKey ⟨false, true, false⟩ exBatch exHeap [([1], ⟨.tensor 10, [1]⟩), ([0, 0, 1], ⟨.tensor 11, []⟩)] = .error .assertion ∧
    asRaw exSizeKey ⟨false, true, false⟩ exBatch exHeap [([1], ⟨.tensor 10, [2]⟩), ([0, 0, 1], ⟨.tensor 11, []⟩)] = .ok [([1], .tensor 10), ([0, 0, 1], .tensor 11)] ∧
    (match assign exSizeKey true false [([1], .tensor 10), ([0, 0, 1], .tensor 11)] exOther [([1], ⟨.none, [2]⟩), ([0, 0, 1], ⟨.none, []⟩)] with | .ok _ => false | .error e => decide (e = .assertion)) = true :=
  ⟨by decide +kernel, by decide +kernel, by decide +kernel⟩

end Verif.TensorDict
