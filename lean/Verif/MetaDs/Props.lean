import Verif.MetaDs.Spec
import Mathlib.Data.List.TakeWhile
/-
C42 for `MetaDataset`, and C50: the sequences of the sub-datasets belong together.
-/
namespace Verif.MetaDs
open Verif.Py Spec
variable {T D : Type} [DecidableEq T]

/-! ### Lists -/

omit [DecidableEq T] in
theorem getItem_ok {α : Type} {l : List α} {i : Nat} {x : α} : getItem l i = .ok x ↔ l[i]? = some x := by
  unfold getItem
  cases l[i]? with
  | none => simp
  | some y => simp

theorem mapM_ok {α β : Type} {f : α → Res β} : ∀ {l : List α} {r : List β}, l.mapM f = .ok r →
    r.length = l.length ∧ ∀ (i : Nat) (a : α), l[i]? = some a → ∃ b, r[i]? = some b ∧ f a = .ok b
  | [], r, h => by
    simp only [List.mapM_nil, pure, Except.pure] at h
    injection h with h
    subst h
    exact ⟨rfl, fun i a h => by simp at h⟩
  | a :: l, r, h => by
    simp only [List.mapM_cons, bind, Except.bind, pure, Except.pure] at h
    cases ha : f a with
    | error e => rw [ha] at h; cases h
    | ok b =>
      rw [ha] at h
      simp only at h
      cases hl : l.mapM f with
      | error e => rw [hl] at h; cases h
      | ok bs =>
        rw [hl] at h
        simp only at h
        injection h with h
        subst h
        obtain ⟨h1, h2⟩ := mapM_ok hl
        refine ⟨by simp [h1], ?_⟩
        intro i x hx
        cases i with
        | zero =>
          simp at hx
          subst hx
          exact ⟨b, by simp, ha⟩
        | succ i =>
          simp at hx
          obtain ⟨y, hy, hf⟩ := h2 i x hx
          exact ⟨y, by simpa using hy, hf⟩

theorem mapM_total {α β : Type} {f : α → Res β} : ∀ {l : List α}, (∀ a ∈ l, ∃ b, f a = .ok b) → ∃ r, l.mapM f = .ok r
  | [], _ => ⟨[], rfl⟩
  | a :: l, h => by
    obtain ⟨b, hb⟩ := h a (by simp)
    obtain ⟨r, hr⟩ := mapM_total (l := l) (fun x hx => h x (by simp [hx]))
    exact ⟨b :: r, by simp only [List.mapM_cons, bind, Except.bind, pure, Except.pure, hb, hr]⟩

/-- The line `i` of the ordered lists is the line `idx[i]` of the original lists. -/
theorem orderLists_get {orig o : List (List T)} {idx : List Nat} (h : orderLists orig idx = .ok o) :
    o.length = orig.length ∧ (∀ d < orig.length, (o.getD d []).length = idx.length) ∧
    ∀ (d i j : Nat), d < orig.length → idx[i]? = some j → ∃ t, (o.getD d [])[i]? = some t ∧ (orig.getD d [])[j]? = some t := by
  obtain ⟨h1, h2⟩ := mapM_ok h
  refine ⟨h1, fun d hd => ?_, fun d i j hd hi => ?_⟩
  · obtain ⟨l, hl, hm⟩ := h2 d orig[d] (List.getElem?_eq_getElem hd)
    rw [List.getD_eq_getElem?_getD, hl]
    exact (mapM_ok hm).1
  · obtain ⟨l, hl, hm⟩ := h2 d orig[d] (List.getElem?_eq_getElem hd)
    obtain ⟨t, ht, hg⟩ := (mapM_ok hm).2 i j hi
    refine ⟨t, by rw [List.getD_eq_getElem?_getD, hl]; exact ht, ?_⟩
    rw [List.getD_eq_getElem?_getD, List.getElem?_eq_getElem hd]
    exact getItem_ok.1 hg

/-! ### Loading -/

theorem Sub.get_ok {b : Sub T D} {i : Nat} {x : T × D} : b.get i = .ok x ↔ b.start ≤ i ∧ b.cur[i]? = some x := by
  unfold Sub.get
  by_cases h : i < b.start
  · rw [if_pos h]; simp; omega
  · rw [if_neg h]
    cases b.cur[i]? with
    | none => simp
    | some y => simp; omega

theorem checkAll_ok {tags : List T} {b : Sub T D} : ∀ {l : List Nat}, checkAll tags b l = .ok () ↔
    ∀ i ∈ l, ∃ x : T × D, b.start ≤ i ∧ b.cur[i]? = some x ∧ tags[i]? = some x.1
  | [] => by simp [checkAll]
  | i :: l => by
    simp only [checkAll, checkSeq, bind, Except.bind, List.mem_cons, forall_eq_or_imp]
    cases hx : b.get i with
    | error e =>
      simp only
      constructor
      · intro h; cases h
      · rintro ⟨⟨x, h1, h2, _⟩, _⟩
        rw [Sub.get_ok.2 ⟨h1, h2⟩] at hx
        cases hx
    | ok x =>
      simp only
      have hx' := Sub.get_ok.1 hx
      cases ht : getItem tags i with
      | error e =>
        simp only
        constructor
        · intro h; cases h
        · rintro ⟨⟨y, _, h2, h3⟩, _⟩
          rw [getItem_ok.2 h3] at ht
          cases ht
      | ok t =>
        simp only
        have ht' := getItem_ok.1 ht
        by_cases he : x.1 = t
        · simp only [pyAssert, decide_eq_true he, if_true]
          rw [checkAll_ok]
          constructor
          · intro h
            exact ⟨⟨x, hx'.1, hx'.2, by rw [ht', he]⟩, h⟩
          · exact fun h => h.2
        · simp only [pyAssert, decide_eq_false he, Bool.false_eq_true, if_false]
          constructor
          · intro h; cases h
          · rintro ⟨⟨y, _, h2, h3⟩, _⟩
            rw [hx'.2] at h2
            injection h2 with h2
            subst h2
            rw [ht'] at h3
            injection h3 with h3
            exact absurd h3.symm he

/-- Loading in a sub-dataset. -/
theorem loadSub_ok {tags : List T} {b b' : Sub T D} {start fin : Nat} : loadSub tags b start fin = .ok b' ↔
    b.start ≤ start ∧ b' = { b with start := start } ∧
    ∀ i : Nat, start ≤ i → i < fin → ∃ x : T × D, b.cur[i]? = some x ∧ tags[i]? = some x.1 := by
  simp only [loadSub, bind, Except.bind]
  by_cases h : b.start ≤ start
  · simp only [pyAssert, decide_eq_true h, if_true]
    have hc := checkAll_ok (tags := tags) (b := { b with start := start }) (l := List.range' start (fin - start))
    cases hr : checkAll tags { b with start := start } (List.range' start (fin - start)) with
    | error e =>
      rw [hr] at hc
      simp only
      constructor
      · intro h; cases h
      · rintro ⟨_, _, h3⟩
        have := hc.2 (fun i hi => by
          rw [List.mem_range'_1] at hi
          obtain ⟨x, h4, h5⟩ := h3 i hi.1 (by omega)
          exact ⟨x, hi.1, h4, h5⟩)
        cases this
    | ok u =>
      rw [hr] at hc
      have hall := hc.1 rfl
      simp only
      constructor
      · intro he
        injection he with he
        refine ⟨h, he.symm, fun i h1 h2 => ?_⟩
        obtain ⟨x, _, h4, h5⟩ := hall i (by rw [List.mem_range'_1]; omega)
        exact ⟨x, h4, h5⟩
      · rintro ⟨_, h2, _⟩
        rw [h2]
  · simp only [pyAssert, decide_eq_false h, Bool.false_eq_true, if_false]
    constructor
    · intro h; cases h
    · exact fun h' => absurd h'.1 h

theorem loadSubs_ok {start fin : Nat} : ∀ {bs bs' : List (Sub T D)} {tags : List (List T)},
    loadSubs start fin bs tags = .ok bs' ↔
    bs' = bs.map (fun b => { b with start := start }) ∧
    ∀ (d : Nat) (b : Sub T D), bs[d]? = some b → b.start ≤ start ∧
      ∀ i : Nat, start ≤ i → i < fin → ∃ x : T × D, b.cur[i]? = some x ∧ (tags.getD d [])[i]? = some x.1
  | [], bs', tags => by
    simp only [loadSubs, List.map_nil]
    constructor
    · intro h; injection h with h; exact ⟨h.symm, fun d b h => by simp at h⟩
    · rintro ⟨h, _⟩; rw [h]
  | b :: bs, bs', tags => by
    simp only [loadSubs, bind, Except.bind]
    have htag : ∀ d, tags.getD (d + 1) [] = tags.tail.getD d [] := by
      intro d; cases tags <;> simp
    have htag0 : tags.getD 0 [] = tags.headD [] := by cases tags <;> simp
    cases h1 : loadSub (tags.headD []) b start fin with
    | error e =>
      simp only
      constructor
      · intro h; cases h
      · rintro ⟨_, h⟩
        obtain ⟨h2, h3⟩ := h 0 b (by simp)
        rw [htag0] at h3
        rw [loadSub_ok.2 ⟨h2, rfl, h3⟩] at h1
        cases h1
    | ok b1 =>
      simp only
      have h1' := loadSub_ok.1 h1
      cases h2 : loadSubs start fin bs tags.tail with
      | error e =>
        simp only
        constructor
        · intro h; cases h
        · rintro ⟨_, h⟩
          rw [loadSubs_ok.2 ⟨rfl, fun d b hb => by
            have := h (d + 1) b (by simpa using hb)
            rwa [htag] at this⟩] at h2
          cases h2
      | ok bs1 =>
        simp only
        have h2' := loadSubs_ok.1 h2
        constructor
        · intro h
          injection h with h
          refine ⟨by rw [← h, h1'.2.1, h2'.1]; rfl, ?_⟩
          intro d b' hb
          cases d with
          | zero =>
            simp at hb
            subst hb
            exact ⟨h1'.1, by rw [htag0]; exact h1'.2.2⟩
          | succ d =>
            have := h2'.2 d b' (by simpa using hb)
            rwa [← htag] at this
        · rintro ⟨h, _⟩
          rw [h, h1'.2.1, h2'.1]
          rfl

theorem firstNew_move (s : State T D) {start : Nat} : firstNew (moveWindow s start) start = firstNew s start := by
  unfold moveWindow
  split
  · unfold firstNew
    simp only
    by_cases hn : s.added.dropWhile (fun x => decide (x.idx < start)) = []
    · rw [hn]
      simp only [List.getLast?_nil]
      cases hl : s.added.getLast? with
      | none => rfl
      | some x =>
        have hx := List.mem_of_getLast? hl
        rw [List.dropWhile_eq_nil_iff] at hn
        have := hn x hx
        simp at this
        simp only
        omega
    · obtain ⟨pre, hpre⟩ := List.dropWhile_suffix (l := s.added) (fun x => decide (x.idx < start))
      rw [← hpre, List.getLast?_append]
      rw [hpre]
      cases hg : (s.added.dropWhile (fun x => decide (x.idx < start))).getLast? with
      | none => exact absurd (List.getLast?_eq_none_iff.1 hg) hn
      | some x => rfl
  · rfl

/-- What a loaded sequence is, with respect to the ordered lists. -/
def Checked (c : Config T D) (o : List (List T)) (subs : List (Sub T D)) (x : Seq T D) : Prop :=
  (o.getD c.dflt [])[x.idx]? = some x.tag ∧ x.data.length = subs.length ∧
    ∀ (d : Nat) (b : Sub T D), subs[d]? = some b → ∃ (t : T) (v : D), b.cur[x.idx]? = some (t, v) ∧ x.data[d]? = some v ∧ (o.getD d [])[x.idx]? = some t

omit [DecidableEq T] in
/-- Only the sequences matter. -/
theorem Checked.congr {c : Config T D} {o : List (List T)} {subs subs' : List (Sub T D)} {x : Seq T D}
    (h : Checked c o subs x) (hs : subs'.map Sub.cur = subs.map Sub.cur) : Checked c o subs' x := by
  refine ⟨h.1, ?_, ?_⟩
  · rw [h.2.1]
    have := congrArg List.length hs
    simpa using this.symm
  · intro d b hb
    have h1 : (subs'.map Sub.cur)[d]? = some b.cur := by rw [List.getElem?_map, hb]; rfl
    rw [hs, List.getElem?_map] at h1
    cases hb' : subs[d]? with
    | none => rw [hb'] at h1; cases h1
    | some b' =>
      rw [hb'] at h1
      injection h1 with h1
      obtain ⟨t, v, h2, h3, h4⟩ := h.2.2 d b' hb'
      exact ⟨t, v, by rw [← h1]; exact h2, h3, h4⟩

/-- What `load` does. -/
theorem load_ok {c : Config T D} {s s' : State T D} {start fin : Nat} (h : load c s start fin = .ok s') :
    s'.epoch = s.epoch ∧ s'.ordered = s.ordered ∧ s'.num = s.num ∧ s'.start = start ∧ s.start ≤ start ∧
    s'.subs.map Sub.cur = s.subs.map Sub.cur ∧
    ∃ new, s'.added = (moveWindow s start).added ++ new ∧
      new.map Seq.idx = List.range' (firstNew s start) (fin - firstNew s start) ∧
      ∀ x ∈ new, Checked c (s.ordered.getD []) s'.subs x := by
  simp only [load, bind, Except.bind] at h
  cases h1 : loadDatasets s start fin with
  | error e => rw [h1] at h; cases h
  | ok s1 =>
    rw [h1] at h
    simp only at h
    have h2 : s1.start ≤ start := by
      by_contra h2
      simp only [pyAssert, decide_eq_false h2, Bool.false_eq_true, if_false] at h
      cases h
    simp only [pyAssert, decide_eq_true h2, if_true] at h
    have hs1 : s1.epoch = s.epoch ∧ s1.ordered = s.ordered ∧ s1.num = s.num ∧ s1.start = s.start ∧ s1.added = s.added ∧
        s1.subs.map Sub.cur = s.subs.map Sub.cur ∧
        (firstNew s start < fin → ∀ (d : Nat) (b : Sub T D), s1.subs[d]? = some b →
          ∀ i : Nat, firstNew s start ≤ i → i < fin → ∃ x : T × D, b.cur[i]? = some x ∧ ((s.ordered.getD []).getD d [])[i]? = some x.1) := by
      unfold loadDatasets at h1
      by_cases hf : firstNew s start < fin
      · rw [if_pos hf] at h1
        simp only [bind, Except.bind] at h1
        cases h3 : loadSubs (firstNew s start) fin s.subs (s.ordered.getD []) with
        | error e => rw [h3] at h1; cases h1
        | ok subs =>
          rw [h3] at h1
          simp only at h1
          injection h1 with h1
          subst h1
          obtain ⟨h4, h5⟩ := loadSubs_ok.1 h3
          refine ⟨rfl, rfl, rfl, rfl, rfl, ?_, ?_⟩
          · simp only [h4, List.map_map]
            rfl
          · intro _ d b hb i hi1 hi2
            simp only at hb
            rw [h4, List.getElem?_map] at hb
            cases hb' : s.subs[d]? with
            | none => rw [hb'] at hb; cases hb
            | some b' =>
              rw [hb'] at hb
              injection hb with hb
              subst hb
              exact (h5 d b' hb').2 i hi1 hi2
      · rw [if_neg hf] at h1
        injection h1 with h1
        subst h1
        exact ⟨rfl, rfl, rfl, rfl, rfl, rfl, fun h => absurd h hf⟩
    obtain ⟨e1, e2, e3, e4, e5, e6, e7⟩ := hs1
    have hfn : firstNew (moveWindow s1 start) start = firstNew s start := by
      rw [firstNew_move]; unfold firstNew; rw [e5]
    rw [hfn] at h
    cases h3 : (List.range' (firstNew s start) (fin - firstNew s start)).mapM (collect c (moveWindow s1 start)) with
    | error e => rw [h3] at h; cases h
    | ok new =>
      rw [h3] at h
      simp only at h
      injection h with h
      subst h
      have hm : (moveWindow s1 start).epoch = s1.epoch ∧ (moveWindow s1 start).ordered = s1.ordered ∧
          (moveWindow s1 start).num = s1.num ∧ (moveWindow s1 start).subs = s1.subs ∧ (moveWindow s1 start).start = start ∧
          (moveWindow s1 start).added = (moveWindow s start).added := by
        unfold moveWindow
        rw [e4, e5]
        split
        · exact ⟨rfl, rfl, rfl, rfl, rfl, rfl⟩
        · exact ⟨rfl, rfl, rfl, rfl, by rw [e4] at h2 ⊢; omega, e5⟩
      obtain ⟨m1, m2, m3, m4, m5, m6⟩ := hm
      obtain ⟨l1, l2⟩ := mapM_ok h3
      have hcoll : ∀ (k : Nat) (x : Seq T D), new[k]? = some x → x.idx = firstNew s start + k ∧
          Checked c (s.ordered.getD []) (moveWindow s1 start).subs x := by
        intro k x hx
        have hk : k < fin - firstNew s start := by
          have := (List.getElem?_eq_some_iff.1 hx).1
          rw [l1, List.length_range'] at this
          exact this
        obtain ⟨b, hb, hc⟩ := l2 k (firstNew s start + k) (by rw [List.getElem?_range' hk]; simp)
        rw [hx] at hb
        injection hb with hb
        subst hb
        simp only [collect, bind, Except.bind] at hc
        cases h4 : getItem (((moveWindow s1 start).ordered.getD []).getD c.dflt []) (firstNew s start + k) with
        | error e => rw [h4] at hc; cases hc
        | ok tag =>
          rw [h4] at hc
          simp only at hc
          cases h5 : (moveWindow s1 start).subs.mapM (fun b => (b.get (firstNew s start + k)).map Prod.snd) with
          | error e => rw [h5] at hc; cases hc
          | ok data =>
            rw [h5] at hc
            simp only at hc
            injection hc with hc
            subst hc
            refine ⟨rfl, ?_, (mapM_ok h5).1, ?_⟩
            · rw [m2, e2] at h4
              exact getItem_ok.1 h4
            · intro d b hb
              obtain ⟨v, hv, hg⟩ := (mapM_ok h5).2 d b hb
              cases hbg : b.get (firstNew s start + k) with
              | error e => rw [hbg] at hg; cases hg
              | ok p =>
                rw [hbg] at hg
                injection hg with hg
                have hp := (Sub.get_ok.1 hbg).2
                rw [m4] at hb
                obtain ⟨y, hy1, hy2⟩ := e7 (by omega) d b hb (firstNew s start + k) (by omega) (by omega)
                rw [hp] at hy1
                injection hy1 with hy1
                subst hy1
                exact ⟨p.1, p.2, hp, by simp only [hv, ← hg], hy2⟩
      refine ⟨by rw [m1, e1], by rw [m2, e2], by rw [m3, e3], m5, by omega, by simp only [m4, e6], new, by simp only [m6], ?_, ?_⟩
      · apply List.ext_getElem (by simp [l1])
        intro k h4 h5
        simp only [List.length_map] at h4
        have := (hcoll k new[k] (List.getElem?_eq_getElem h4)).1
        simp only [List.getElem_map, List.getElem_range', Nat.one_mul]
        exact this
      · intro x hx
        obtain ⟨k, hk⟩ := List.getElem?_of_mem hx
        exact (hcoll k x hk).2

/-! ### Alignment -/

/-- The invariant. -/
structure Inv (c : Config T D) (s : State T D) : Prop where
  len : s.subs.length = c.orig.length
  ord : ∀ o, s.ordered = some o → ∃ idx, orderLists c.orig idx = .ok o
  add : ∀ x ∈ s.added, Checked c (s.ordered.getD []) s.subs x

theorem initControl_facts (c : Config T D) (e : Int) (l : Option (List T)) (q : Option (List Nat)) (s : State T D) :
    (initControl c e l q s).subs.length = s.subs.length ∧ (initControl c e l q s).ordered = s.ordered ∧
    (initControl c e l q s).added = s.added ∧ (initControl c e l q s).epoch = s.epoch ∧
    (initControl c e l q s).start = s.start := by
  unfold initControl
  split
  · exact ⟨by simp, rfl, rfl, rfl, rfl⟩
  · exact ⟨rfl, rfl, rfl, rfl, rfl⟩

theorem inv_init {c : Config T D} {s : State T D} (h : Inv c s) (epoch : Option Int) (l : Option (List T))
    (q : Option (List Nat)) : Inv c (init c s epoch l q).2 := by
  have hreset : Inv c (reset s epoch) := ⟨h.len, h.ord, by simp [reset]⟩
  unfold init
  simp only
  cases epoch with
  | none => exact ⟨hreset.len, hreset.ord, by simp [reset]⟩
  | some e =>
    simp only
    split
    · exact ⟨hreset.len, hreset.ord, by simp [reset]⟩
    · obtain ⟨f1, f2, f3, _, _⟩ := initControl_facts c e l q (reset s (some e))
      have hadd : (reset s (some e)).added = [] := rfl
      split
      · exact ⟨by rw [f1]; exact h.len, by rw [f2]; exact h.ord, by rw [f3, hadd]; simp⟩
      · rename_i idx hidx
        split
        · exact ⟨by simp only [f1]; exact h.len, by simp only [f2]; exact h.ord, by simp only [f3, hadd]; simp⟩
        · rename_i o ho
          refine ⟨by simp only [initSubs, List.length_mapIdx, f1]; exact h.len, ?_, by simp only [f3, hadd]; simp⟩
          intro o' ho'
          simp only at ho'
          injection ho' with ho'
          subst ho'
          exact ⟨idx, ho⟩

theorem mem_move {s : State T D} {start : Nat} {x : Seq T D} (h : x ∈ (moveWindow s start).added) : x ∈ s.added := by
  unfold moveWindow at h
  split at h
  · exact (List.dropWhile_suffix _).subset h
  · exact h

theorem inv_load {c : Config T D} {s s' : State T D} (h : Inv c s) {start fin : Nat} (hl : load c s start fin = .ok s') :
    Inv c s' := by
  obtain ⟨_, h2, _, _, _, h6, new, h7, _, h9⟩ := load_ok hl
  refine ⟨?_, by rw [h2]; exact h.ord, ?_⟩
  · rw [← h.len]
    have := congrArg List.length h6
    simpa using this
  · intro x hx
    rw [h7, List.mem_append] at hx
    rw [h2]
    rcases hx with hx | hx
    · exact (h.add x (mem_move hx)).congr h6
    · exact h9 x hx

theorem inv_step {c : Config T D} {s : State T D} (h : Inv c s) (call : Call T) : Inv c (step c s call) := by
  cases call with
  | init e l q => exact inv_init h e l q
  | load a b =>
    simp only [step]
    cases hl : load c s a b with
    | error _ => exact h
    | ok s' => exact inv_load h hl

theorem inv_run {c : Config T D} (calls : List (Call T)) : Inv c (calls.foldl (step c) (new c.orig.length)) := by
  have : ∀ (calls : List (Call T)) (s : State T D), Inv c s → Inv c (calls.foldl (step c) s) := by
    intro calls
    induction calls with
    | nil => intro s h; exact h
    | cons a l ih => intro s h; exact ih _ (inv_step h a)
  exact this calls _ ⟨by simp [new], by simp [new], by simp [new]⟩

/-- C50. After every history of calls (also those with exceptions), whatever the sub-datasets do with the lists of tags:
every sequence which is loaded is made of sequences which belong together, that is they are from the same line of the
lists of tags. -/
theorem loaded_aligned (c : Config T D) (hd : c.dflt < c.orig.length) (calls : List (Call T)) (x : Seq T D)
    (hx : x ∈ (calls.foldl (step c) (new c.orig.length)).added) :
    Aligned c.orig c.dflt (calls.foldl (step c) (new c.orig.length)).subs x := by
  have hi := inv_run (c := c) calls
  generalize calls.foldl (step c) (new c.orig.length) = s at hx hi
  obtain ⟨h1, h2, h3⟩ := hi.add x hx
  cases ho : s.ordered with
  | none => rw [ho] at h1; simp at h1
  | some o =>
    rw [ho] at h1 h3
    simp only [Option.getD_some] at h1 h3
    obtain ⟨idx, hidx⟩ := hi.ord o ho
    obtain ⟨o1, o2, o3⟩ := orderLists_get hidx
    have hlt : x.idx < idx.length := by
      have := (List.getElem?_eq_some_iff.1 h1).1
      rw [o2 c.dflt hd] at this
      exact this
    refine ⟨idx[x.idx], ?_, h2, ?_⟩
    · obtain ⟨t, ht1, ht2⟩ := o3 c.dflt x.idx _ hd (List.getElem?_eq_getElem hlt)
      rw [h1] at ht1
      injection ht1 with ht1
      rw [ht1]
      exact ht2
    · intro d b hb
      obtain ⟨t, v, h4, h5, h6⟩ := h3 d b hb
      have hd' : d < c.orig.length := by
        rw [← hi.len]; exact (List.getElem?_eq_some_iff.1 hb).1
      obtain ⟨t', ht1, ht2⟩ := o3 d x.idx _ hd' (List.getElem?_eq_getElem hlt)
      rw [h6] at ht1
      injection ht1 with ht1
      exact ⟨t, v, h4, h5, by rw [ht1]; exact ht2⟩

end Verif.MetaDs
