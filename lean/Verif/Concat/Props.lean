import Verif.Concat.Model
import Mathlib.Data.List.TakeWhile
/-
C42 and C51 for `ConcatDataset`: it has the sequences of its sub-datasets, one after the other.
-/
namespace Verif.Concat
open Verif.Py

/-- The number of sequences before sub-dataset `d`. -/
def cum (lens : List Nat) (d : Nat) : Nat := (lens.take d).sum

theorem cum_succ (lens : List Nat) {d : Nat} (h : d < lens.length) : cum lens (d + 1) = cum lens d + lens[d] := by
  unfold cum
  rw [List.take_succ_eq_append_getElem h, List.sum_append]; simp

theorem cum_mono (lens : List Nat) {a b : Nat} (h : a ≤ b) : cum lens a ≤ cum lens b := by
  unfold cum
  obtain ⟨z, rfl⟩ := Nat.exists_eq_add_of_le h
  rw [List.take_add, List.sum_append]
  omega

theorem cum_all (lens : List Nat) : cum lens lens.length = lens.sum := by simp [cum]

theorem flatten_get {α : Type} : ∀ (L : List (List α)) (d k : Nat) (h : d < L.length), k < L[d].length →
    L.flatten[cum (L.map List.length) d + k]? = L[d][k]?
  | o :: L, 0, k, _, hk => by
    simp only [cum, List.take_zero, List.sum_nil, Nat.zero_add, List.flatten_cons, List.getElem_cons_zero] at hk ⊢
    rw [List.getElem?_append_left hk]
  | o :: L, d + 1, k, h, hk => by
    simp only [List.getElem_cons_succ] at hk ⊢
    have := flatten_get L d k (by simpa using h) hk
    rw [← this]
    simp only [cum, List.map_cons, List.take_succ_cons, List.sum_cons, List.flatten_cons]
    rw [List.getElem?_append_right (by omega)]
    congr 1
    omega

theorem dsFor_spec (f : Nat → Nat) (i : Nat) : ∀ (n j : Nat), (1 ≤ j → f (j - 1) ≤ i) → (j = 0 → 0 < n ∧ f 0 ≤ i) →
    let d := dsFor i ((List.range' j n).map f) j
    j - 1 ≤ d ∧ d < j + n ∧ f d ≤ i ∧ (d + 1 < j + n → i < f (d + 1))
  | 0, j, h1, h2 => by
    have hj : 1 ≤ j := by
      by_contra hc
      have := h2 (by omega)
      omega
    simp only [List.range'_zero, List.map_nil, dsFor]
    exact ⟨Nat.le_refl _, by omega, h1 hj, fun h => by omega⟩
  | n + 1, j, h1, h2 => by
    simp only [List.range'_succ, List.map_cons, dsFor]
    by_cases hlt : i < f j
    · have hj : 1 ≤ j := by
        by_contra hc
        have hz : j = 0 := by omega
        have := (h2 hz).2
        rw [hz] at hlt
        omega
      rw [if_pos hlt]
      refine ⟨Nat.le_refl _, by omega, h1 hj, fun _ => ?_⟩
      rw [show j - 1 + 1 = j from by omega]
      exact hlt
    · rw [if_neg hlt]
      obtain ⟨a, b, c, d⟩ := dsFor_spec f i n (j + 1) (fun _ => by simpa using Nat.le_of_not_lt hlt) (fun h => by omega)
      exact ⟨by omega, by omega, c, fun h => d (by omega)⟩

/-- The sizes. -/
def lens {α : Type} (s : State α) : List Nat := (s.subs.map Sub.cur).map List.length

/-- All sequences. -/
def flat {α : Type} (s : State α) : List α := (s.subs.map Sub.cur).flatten

theorem flat_length {α : Type} (s : State α) : (flat s).length = (lens s).sum := by
  simp [flat, lens, List.length_flatten]

/-- The offsets and windows, if the window starts at `start`. -/
structure Wins {α : Type} (s : State α) (m start : Nat) : Prop where
  pos : 0 < m
  le : m ≤ s.subs.length
  offs : s.offs = (List.range m).map (cum (lens s))
  win : ∀ (d : Nat) (b : Sub α), s.subs[d]? = some b → b.start ≤ start - cum (lens s) d
  known : ∀ (d : Nat) (b : Sub α), s.subs[d]? = some b → 0 < b.start → d < m

theorem Wins.ds {α : Type} {s : State α} {m start : Nat} (h : Wins s m start) (i : Nat) :
    dsFor i s.offs 0 < m ∧ cum (lens s) (dsFor i s.offs 0) ≤ i ∧
    (dsFor i s.offs 0 + 1 < m → i < cum (lens s) (dsFor i s.offs 0 + 1)) := by
  have := dsFor_spec (cum (lens s)) i m 0 (fun h => by omega) (fun _ => ⟨h.pos, by simp [cum]⟩)
  simp only at this
  rw [h.offs, List.range_eq_range']
  exact ⟨by omega, this.2.2.1, fun h => this.2.2.2 (by omega)⟩

theorem setOff_spec (f : Nat → Nat) {m d : Nat} (h : d < m) :
    setOff ((List.range m).map f) d (f (d + 1)) = (List.range (max m (d + 2))).map f := by
  unfold setOff
  rw [List.append_assoc]
  apply List.ext_getElem
  · simp; omega
  · intro i h1 h2
    have h2' : i < max m (d + 2) := by simpa using h2
    rw [List.getElem_map, List.getElem_range]
    by_cases ha : i < d + 1
    · rw [List.getElem_append_left (by simp; omega)]
      simp
    · by_cases hb : i = d + 1
      · subst hb
        rw [List.getElem_append_right (by simp; omega)]
        have : (List.take (d + 1) ((List.range m).map f)).length = d + 1 := by simp; omega
        simp [this]
      · rw [List.getElem_append_right (by simp; omega)]
        have hl : (List.take (d + 1) ((List.range m).map f)).length = d + 1 := by simp; omega
        rw [List.getElem_append_right (by simp [hl]; omega), List.getElem_drop, List.getElem_map, List.getElem_range]
        congr 1
        simp
        omega

/-- The loop. -/
theorem loadLoop_spec {α : Type} {start fin : Nat} : ∀ (fuel : Nat) (s : State α) (m subStart : Nat),
    Wins s m start → subStart ≤ fin →
    (subStart = start ∨ subStart - cum (lens s) (dsFor subStart s.offs 0) = 0) →
    (∀ (e : Nat) (b : Sub α), dsFor subStart s.offs 0 ≤ e → s.subs[e]? = some b → b.start ≤ subStart - cum (lens s) e) →
    s.subs.length < fuel + dsFor subStart s.offs 0 + 1 →
    ∃ s' m' d, loadLoop fuel s subStart fin = .ok s' ∧ Wins s' m' start ∧ s'.subs.map Sub.cur = s.subs.map Sub.cur ∧
      s'.start = s.start ∧ s'.added = s.added ∧ s'.epoch = s.epoch ∧ d < m' ∧
      (fin < cum (lens s) (d + 1) ∨ d + 1 = s.subs.length) ∧ m ≤ m' ∧
      (∀ (e : Nat) (b b' : Sub α), s.subs[e]? = some b → s'.subs[e]? = some b' → b.loaded ≤ b'.loaded) ∧
      (∀ (e : Nat) (b : Sub α), dsFor subStart s.offs 0 ≤ e → e ≤ d → s'.subs[e]? = some b →
        fin - cum (lens s) e ≤ b.loaded ∨ b.cur = []) := by
  intro fuel
  induction fuel with
  | zero =>
    intro s m subStart hw _ _ _ hfuel
    have := (hw.ds subStart).1
    have := hw.le
    omega
  | succ fuel ih =>
    intro s m subStart hw hle hstart hwin hfuel
    obtain ⟨d1, d2, d3⟩ := hw.ds subStart
    have hlen : (lens s).length = s.subs.length := by simp [lens]
    simp only [loadLoop]
    generalize hdd : dsFor subStart s.offs 0 = d at *
    have hds : d < s.subs.length := by have := hw.le; omega
    have hcur : (lens s)[d]'(by omega) = s.subs[d].cur.length := by simp [lens]
    have hcs := cum_succ (lens s) (d := d) (by omega)
    rw [hcur] at hcs
    have hget : getItem s.subs d = .ok s.subs[d] := by rw [getItem, List.getElem?_eq_getElem hds]
    have hoff : getItem s.offs d = .ok (cum (lens s) d) := by
      rw [getItem, hw.offs, List.getElem?_map, List.getElem?_range d1]; rfl
    have hbs := hwin d s.subs[d] (Nat.le_refl _) (List.getElem?_eq_getElem hds)
    simp only [bind, Except.bind, hget, hoff, pyAssert, decide_eq_true hbs, if_true]
    -- the state with the window moved
    have hsubs : (s.subs.set d { cur := s.subs[d].cur, start := subStart - cum (lens s) d, loaded := max s.subs[d].loaded (fin - cum (lens s) d) }).map Sub.cur = s.subs.map Sub.cur := by
      rw [List.map_set]
      apply List.ext_getElem (by simp)
      intro i h1 h2
      rw [List.getElem_set]
      split
      · rename_i h; subst h; simp
      · rfl
    have hlens : lens { s with subs := s.subs.set d { cur := s.subs[d].cur, start := subStart - cum (lens s) d, loaded := max s.subs[d].loaded (fin - cum (lens s) d) } } = lens s := by
      simp only [lens]
      exact congrArg (List.map List.length) hsubs
    have hw1 : Wins { s with subs := s.subs.set d { cur := s.subs[d].cur, start := subStart - cum (lens s) d, loaded := max s.subs[d].loaded (fin - cum (lens s) d) } } m start := by
      refine ⟨hw.pos, by simpa using hw.le, by rw [hlens]; exact hw.offs, ?_, ?_⟩
      · intro e b hb
        rw [hlens]
        simp only at hb
        rw [List.getElem?_set] at hb
        split at hb
        · rename_i he
          subst he
          injection hb with hb
          subst hb
          simp only
          rcases hstart with h | h
          · rw [h]
          · omega
        · exact hw.win e b hb
      · intro e b hb hpos
        simp only at hb
        rw [List.getElem?_set] at hb
        split at hb
        · rename_i he
          subst he
          exact d1
        · exact hw.known e b hb hpos
    have hgrow : ∀ (e : Nat) (b b' : Sub α), s.subs[e]? = some b →
        (s.subs.set d { cur := s.subs[d].cur, start := subStart - cum (lens s) d, loaded := max s.subs[d].loaded (fin - cum (lens s) d) })[e]? = some b' →
        b.loaded ≤ b'.loaded ∧ (e = d → fin - cum (lens s) d ≤ b'.loaded) := by
      intro e b b' hb hb'
      rw [List.getElem?_set] at hb'
      split at hb'
      · rename_i he
        subst he
        rw [List.getElem?_eq_getElem hds] at hb
        injection hb with hb
        injection hb' with hb'
        subst hb
        subst hb'
        simp only
        exact ⟨by omega, fun _ => by omega⟩
      · rename_i he
        rw [hb] at hb'
        injection hb' with hb'
        subst hb'
        exact ⟨Nat.le_refl _, fun h => absurd h.symm he⟩
    have hown : ∀ (e : Nat) (b : Sub α), d ≤ e → e ≤ d →
        (s.subs.set d { cur := s.subs[d].cur, start := subStart - cum (lens s) d, loaded := max s.subs[d].loaded (fin - cum (lens s) d) })[e]? = some b →
        fin - cum (lens s) e ≤ b.loaded ∨ b.cur = [] := by
      intro e b h1 h2 hb
      have he : e = d := by omega
      subst he
      exact Or.inl ((hgrow e _ b (List.getElem?_eq_getElem hds) hb).2 rfl)
    by_cases hin : fin - cum (lens s) d < s.subs[d].cur.length
    · rw [if_pos hin]
      refine ⟨_, m, d, rfl, hw1, hsubs, rfl, rfl, rfl, d1, Or.inl (by omega), Nat.le_refl _, fun e b b' h h' => (hgrow e b b' h h').1, hown⟩
    · rw [if_neg hin]
      by_cases hlast : d + 1 = s.subs.length
      · rw [if_pos (by simpa using hlast)]
        exact ⟨_, m, d, rfl, hw1, hsubs, rfl, rfl, rfl, d1, Or.inr hlast, Nat.le_refl _, fun e b b' h h' => (hgrow e b b' h h').1, hown⟩
      · rw [if_neg (by simpa using hlast)]
        rw [← hcs]
        have hoffs' : setOff s.offs d (cum (lens s) (d + 1)) = (List.range (max m (d + 2))).map (cum (lens s)) := by
          rw [hw.offs]; exact setOff_spec _ d1
        have hw2 : Wins { s with subs := s.subs.set d { cur := s.subs[d].cur, start := subStart - cum (lens s) d, loaded := max s.subs[d].loaded (fin - cum (lens s) d) },
                                 offs := setOff s.offs d (cum (lens s) (d + 1)) } (max m (d + 2)) start := by
          have hl2 : lens { s with subs := s.subs.set d { cur := s.subs[d].cur, start := subStart - cum (lens s) d, loaded := max s.subs[d].loaded (fin - cum (lens s) d) },
                                   offs := setOff s.offs d (cum (lens s) (d + 1)) } = lens s := hlens
          refine ⟨by have := hw.pos; omega, by have := hw.le; simp only [List.length_set]; omega, by rw [hl2]; exact hoffs', ?_, ?_⟩
          · intro e b hb
            have := hw1.win e b hb
            rw [hlens] at this
            rw [hl2]
            exact this
          · intro e b hb hpos
            have := hw1.known e b hb hpos
            omega
        have hl2 : lens { s with subs := s.subs.set d { cur := s.subs[d].cur, start := subStart - cum (lens s) d, loaded := max s.subs[d].loaded (fin - cum (lens s) d) },
                                 offs := setOff s.offs d (cum (lens s) (d + 1)) } = lens s := hlens
        obtain ⟨e1, e2, e3⟩ := hw2.ds (cum (lens s) (d + 1))
        rw [hl2] at e2 e3
        simp only at e1 e2 e3
        -- the next dataset is after `d`
        have hnext : d + 1 ≤ dsFor (cum (lens s) (d + 1)) (setOff s.offs d (cum (lens s) (d + 1))) 0 := by
          by_contra hc
          have := e3 (by omega)
          have := cum_mono (lens s) (show dsFor (cum (lens s) (d + 1)) (setOff s.offs d (cum (lens s) (d + 1))) 0 + 1 ≤ d + 1 by omega)
          omega
        have hz : cum (lens s) (d + 1) - cum (lens s) (dsFor (cum (lens s) (d + 1)) (setOff s.offs d (cum (lens s) (d + 1))) 0) = 0 := by
          have := cum_mono (lens s) hnext
          omega
        obtain ⟨s', m', d', r1, r2, r3, r4, r5, r6, r7, r8, r9, r10, r11⟩ := ih
          { s with subs := s.subs.set d { cur := s.subs[d].cur, start := subStart - cum (lens s) d, loaded := max s.subs[d].loaded (fin - cum (lens s) d) },
                   offs := setOff s.offs d (cum (lens s) (d + 1)) } (max m (d + 2)) (cum (lens s) (d + 1)) hw2
          (by omega) (Or.inr (by rw [hl2]; exact hz))
          (by
            intro e b he hb
            simp only at he hb
            rw [hl2]
            rw [List.getElem?_set, if_neg (by omega)] at hb
            have hb0 : b.start = 0 := by
              by_contra hpos
              have h1 := hw.known e b hb (by omega)
              have h2 := d3 (by omega)
              have h3 := hwin e b (by omega) hb
              have h4 := cum_mono (lens s) (show d + 1 ≤ e by omega)
              omega
            omega)
          (by simp only [List.length_set]; omega)
        rw [hl2] at r8 r11
        simp only at r10 r11
        have hgetset : ∀ (e : Nat) (b : Sub α), s.subs[e]? = some b → ∃ b1,
            (s.subs.set d { cur := s.subs[d].cur, start := subStart - cum (lens s) d, loaded := max s.subs[d].loaded (fin - cum (lens s) d) })[e]? = some b1 := by
          intro e b hb
          have := (List.getElem?_eq_some_iff.1 hb).1
          exact ⟨_, List.getElem?_eq_getElem (by simpa using this)⟩
        refine ⟨s', m', d', r1, r2, by rw [r3]; exact hsubs, r4, r5, r6, r7, by simpa using r8, by omega, ?_, ?_⟩
        · intro e b b' hb hb'
          obtain ⟨b1, hb1⟩ := hgetset e b hb
          have h1 := (hgrow e b b1 hb hb1).1
          have h2 := r10 e b1 b' hb1 hb'
          omega
        · intro e b he1 he2 hb
          by_cases hge : dsFor (cum (lens s) (d + 1)) (setOff s.offs d (cum (lens s) (d + 1))) 0 ≤ e
          · exact r11 e b hge he2 hb
          · by_cases hed : e = d
            · subst hed
              obtain ⟨b1, hb1⟩ := hgetset e s.subs[e] (List.getElem?_eq_getElem hds)
              have h1 := (hgrow e _ b1 (List.getElem?_eq_getElem hds) hb1).2 rfl
              have h2 := r10 e b1 b hb1 hb
              exact Or.inl (by omega)
            · right
              have hcurs := congrArg (fun l => l[e]?) r3
              simp only [List.getElem?_map, hb, Option.map_some] at hcurs
              have hel : e < s.subs.length := by
                have := e1
                have := hw2.le
                simp only [List.length_set] at this
                omega
              have m1 := cum_mono (lens s) (show d + 1 ≤ e by omega)
              have m2 := cum_mono (lens s) (show e + 1 ≤ dsFor (cum (lens s) (d + 1)) (setOff s.offs d (cum (lens s) (d + 1))) 0 by omega)
              have m3 := cum_succ (lens s) (d := e) (by omega)
              have m4 : (lens s)[e]'(by omega) = s.subs[e].cur.length := by simp [lens]
              have m5 : s.subs[e].cur.length = 0 := by omega
              have m6 := congrArg (fun l => l[e]?) hsubs
              simp only [List.getElem?_map] at m6
              rw [m6, List.getElem?_eq_getElem hel, Option.map_some] at hcurs
              injection hcurs with hcurs
              rw [hcurs]
              exact List.length_eq_zero_iff.1 m5

/-- The state between calls. -/
structure Inv {α : Type} (s : State α) : Prop where
  wins : ∃ m, Wins s m s.start
  add : ∃ k, s.added.map Prod.fst = List.range' s.start k
  val : ∀ p ∈ s.added, (flat s)[p.1]? = some p.2

theorem firstNew_eq {α : Type} {s : State α} {k : Nat} (h : s.added.map Prod.fst = List.range' s.start k) (start : Nat) :
    firstNew s start = max (s.start + k) start ∨ (k = 0 ∧ firstNew s start = start) := by
  unfold firstNew
  cases hl : s.added.getLast? with
  | none =>
    right
    have : s.added = [] := List.getLast?_eq_none_iff.1 hl
    rw [this] at h
    have := congrArg List.length h
    simp at this
    exact ⟨this.symm, rfl⟩
  | some x =>
    left
    have h1 : (s.added.map Prod.fst).getLast? = some x.1 := by rw [List.getLast?_map, hl]; rfl
    rw [h] at h1
    cases k with
    | zero => simp at h1
    | succ k =>
      rw [List.getLast?_range'] at h1
      simp at h1
      simp only
      omega

theorem range'_dropWhile {α : Type} (a k start : Nat) (added : List (Nat × α)) (h : added.map Prod.fst = List.range' a k)
    (hs : a ≤ start) :
    (added.dropWhile (fun x => decide (x.1 < start))).map Prod.fst = List.range' start (a + k - start) := by
  induction added generalizing a k with
  | nil =>
    have := congrArg List.length h
    simp at this
    subst this
    rw [show a + 0 - start = 0 from by omega]
    rfl
  | cons x l ih =>
    cases k with
    | zero => simp at h
    | succ k =>
      rw [List.range'_succ, List.map_cons] at h
      injection h with h1 h2
      by_cases hx : x.1 < start
      · rw [List.dropWhile_cons_of_pos (by simpa using hx), ih (a + 1) k h2 (by omega)]
        congr 1
        omega
      · rw [List.dropWhile_cons_of_neg (by simpa using hx), List.map_cons, h1, h2]
        rw [show start = a from by omega, Nat.add_sub_cancel_left, List.range'_succ]

theorem collect_spec {α : Type} {s : State α} {m start d i : Nat} (hw : Wins s m start) (hd : d < m) {fin : Nat}
    (hfin : fin < cum (lens s) (d + 1) ∨ d + 1 = s.subs.length) {d0 : Nat} (hd0 : d0 < m) (hd0' : cum (lens s) d0 ≤ start)
    (hld : ∀ (e : Nat) (b : Sub α), d0 ≤ e → e ≤ d → s.subs[e]? = some b → fin - cum (lens s) e ≤ b.loaded ∨ b.cur = [])
    (h1 : start ≤ i) (h2 : i < fin)
    (h3 : i < (flat s).length) : ∃ x, collect s i = .ok (i, x) ∧ (flat s)[i]? = some x := by
  obtain ⟨e1, e2, e3⟩ := hw.ds i
  unfold collect
  generalize hdd : dsFor i s.offs 0 = dd at *
  have hlen : (lens s).length = s.subs.length := by simp [lens]
  have hds : dd < s.subs.length := by have := hw.le; omega
  have hlt : i < cum (lens s) (dd + 1) := by
    by_cases hm : dd + 1 < m
    · exact e3 hm
    · rcases hfin with h | h
      · have := cum_mono (lens s) (show d + 1 ≤ dd + 1 by omega)
        omega
      · have : dd + 1 = (lens s).length := by have := hw.le; omega
        rw [this, cum_all, ← flat_length]
        exact h3
  have hcs := cum_succ (lens s) (d := dd) (by omega)
  have hcur : (lens s)[dd]'(by omega) = s.subs[dd].cur.length := by simp [lens]
  rw [hcur] at hcs
  have hget : getItem s.subs dd = .ok s.subs[dd] := by rw [getItem, List.getElem?_eq_getElem hds]
  have hoff : getItem s.offs dd = .ok (cum (lens s) dd) := by
    rw [getItem, hw.offs, List.getElem?_map, List.getElem?_range e1]; rfl
  have hb := hw.win dd s.subs[dd] (List.getElem?_eq_getElem hds)
  have hk : i - cum (lens s) dd < s.subs[dd].cur.length := by omega
  have hfl := flatten_get (s.subs.map Sub.cur) dd (i - cum (lens s) dd) (by simpa using hds) (by simpa using hk)
  have hload : i - cum (lens s) dd < s.subs[dd].loaded := by
    have l1 : d0 ≤ dd := by
      by_contra hc
      have := e3 (by omega)
      have := cum_mono (lens s) (show dd + 1 ≤ d0 by omega)
      omega
    have l2 : dd ≤ d := by
      by_contra hc
      have := cum_mono (lens s) (show d + 1 ≤ dd by omega)
      rcases hfin with h | h <;> omega
    rcases hld dd s.subs[dd] l1 l2 (List.getElem?_eq_getElem hds) with h | h
    · omega
    · rw [h] at hk; simp at hk
  have hcum : cum ((s.subs.map Sub.cur).map List.length) dd = cum (lens s) dd := rfl
  rw [hcum, show cum (lens s) dd + (i - cum (lens s) dd) = i from by omega, List.getElem_map] at hfl
  rw [List.getElem?_eq_getElem hk] at hfl
  refine ⟨s.subs[dd].cur[i - cum (lens s) dd], ?_, hfl⟩
  simp only [bind, Except.bind, hget, hoff]
  rw [if_neg (by omega), List.getElem?_eq_getElem hk]

theorem mapM_collect {α : Type} {s : State α} (L : List α) : ∀ (l : List Nat), (∀ i ∈ l, ∃ x, collect s i = .ok (i, x) ∧ L[i]? = some x) →
    ∃ r, l.mapM (collect s) = .ok r ∧ r.map Prod.fst = l ∧ ∀ p ∈ r, L[p.1]? = some p.2
  | [], _ => ⟨[], rfl, rfl, by simp⟩
  | i :: l, h => by
    obtain ⟨x, h1, h2⟩ := h i (by simp)
    obtain ⟨r, h3, h4, h5⟩ := mapM_collect L l (fun j hj => h j (by simp [hj]))
    refine ⟨(i, x) :: r, ?_, by simp [h4], ?_⟩
    · simp only [List.mapM_cons, bind, Except.bind, pure, Except.pure, h1, h3]
    · intro p hp
      rcases List.mem_cons.1 hp with rfl | hp
      · exact h2
      · exact h5 p hp

/-- C51. A window which does not go past the end, with a start which does not go back, can be loaded, and then its
sequences are those of the concatenation. -/
theorem load_spec {α : Type} {s : State α} (hi : Inv s) {start fin : Nat} (hs : s.start ≤ start) (hsf : start ≤ fin)
    (hf : fin ≤ (flat s).length) :
    ∃ s', load s start fin = .ok s' ∧ Inv s' ∧ s'.start = start ∧ flat s' = flat s ∧
      ∀ i, start ≤ i → i < fin → ∃ x, (i, x) ∈ s'.added ∧ (flat s)[i]? = some x := by
  obtain ⟨m, hw⟩ := hi.wins
  obtain ⟨k, hk⟩ := hi.add
  have hw' : Wins s m start := ⟨hw.pos, hw.le, hw.offs, fun d b hb => by have := hw.win d b hb; omega, hw.known⟩
  obtain ⟨s1, m', d, r1, r2, r3, r4, r5, r6, r7, r8, r9, r10, r11⟩ := loadLoop_spec (start := start) (fin := fin) (s.subs.length + 1) s m start hw' hsf
    (Or.inl rfl) (fun e b _ hb => hw'.win e b hb) (by omega)
  have hlens : lens s1 = lens s := by simp only [lens, r3]
  have hflat : flat s1 = flat s := by simp only [flat, r3]
  have hsl : s1.subs.length = s.subs.length := by have := congrArg List.length r3; simpa using this
  rw [← hlens, ← hsl] at r8
  rw [← hlens] at r11
  obtain ⟨q1, q2, -⟩ := hw'.ds start
  rw [← hlens] at q2
  -- the window
  have hmv : (moveWindow s1 start).offs = s1.offs ∧ (moveWindow s1 start).subs = s1.subs ∧ (moveWindow s1 start).start = start ∧
      (moveWindow s1 start).added.map Prod.fst = List.range' start (s.start + k - start) ∧
      ∀ p ∈ (moveWindow s1 start).added, p ∈ s.added := by
    unfold moveWindow
    rw [r4, r5]
    split
    · refine ⟨rfl, rfl, rfl, range'_dropWhile s.start k start s.added hk hs, ?_⟩
      intro p hp
      exact (List.dropWhile_suffix _).subset hp
    · have he : s.start = start := by omega
      refine ⟨rfl, rfl, by rw [r4]; exact he, ?_, ?_⟩
      · rw [r5, hk, he, Nat.add_sub_cancel_left]
      · intro p hp; rw [r5] at hp; exact hp
  obtain ⟨v1, v2, v3, v4, v5⟩ := hmv
  have hl2 : lens (moveWindow s1 start) = lens s1 := by simp only [lens, v2]
  have hf2 : flat (moveWindow s1 start) = flat s := by rw [← hflat]; simp only [flat, v2]
  have hw2 : Wins (moveWindow s1 start) m' start :=
    ⟨r2.pos, by rw [v2]; exact r2.le, by rw [v1, hl2]; exact r2.offs, by rw [v2, hl2]; exact r2.win, by rw [v2]; exact r2.known⟩
  have hfn : firstNew (moveWindow s1 start) start = start + (s.start + k - start) := by
    rcases firstNew_eq (s := moveWindow s1 start) (k := s.start + k - start) (by rw [v3]; exact v4) start with h | ⟨h, h'⟩
    · rw [v3] at h; omega
    · omega
  obtain ⟨new, n1, n2, n3⟩ := mapM_collect (s := moveWindow s1 start) (flat s)
    (List.range' (firstNew (moveWindow s1 start) start) (fin - firstNew (moveWindow s1 start) start)) (by
      intro i hi'
      rw [List.mem_range'_1, hfn] at hi'
      obtain ⟨x, hx1, hx2⟩ := collect_spec (i := i) (fin := fin) hw2 r7 (by rw [hl2, v2]; exact r8)
        (d0 := dsFor start s.offs 0) (by omega) (by rw [hl2]; exact q2) (by rw [hl2, v2]; exact r11) (by omega) (by omega)
        (by rw [hf2]; omega)
      exact ⟨x, hx1, by rw [hf2] at hx2; exact hx2⟩)
  have hload : load s start fin = .ok { moveWindow s1 start with added := (moveWindow s1 start).added ++ new } := by
    simp only [load, bind, Except.bind, r1, pyAssert, r4, decide_eq_true hs, if_true, n1]
  have hidx : ((moveWindow s1 start).added ++ new).map Prod.fst = List.range' start (s.start + k - start + (fin - firstNew (moveWindow s1 start) start)) := by
    rw [List.map_append, v4, n2, hfn, List.range'_append_1]
  have hval : ∀ p ∈ (moveWindow s1 start).added ++ new, (flat s)[p.1]? = some p.2 := by
    intro p hp
    rcases List.mem_append.1 hp with hp | hp
    · exact hi.val p (v5 p hp)
    · exact n3 p hp
  refine ⟨_, hload, ⟨⟨m', ?_⟩, ⟨_, by simp only [v3]; exact hidx⟩, ?_⟩, v3, hf2, ?_⟩
  · have e : lens { moveWindow s1 start with added := (moveWindow s1 start).added ++ new } = lens (moveWindow s1 start) := rfl
    refine ⟨hw2.pos, hw2.le, by rw [e]; exact hw2.offs, ?_, hw2.known⟩
    intro d b hb
    rw [e]
    simp only [v3]
    exact hw2.win d b hb
  · have e : flat { moveWindow s1 start with added := (moveWindow s1 start).added ++ new } = flat s := hf2
    rw [e]
    exact hval
  · intro i h1 h2
    have : i ∈ ((moveWindow s1 start).added ++ new).map Prod.fst := by
      rw [hidx, List.mem_range'_1]; omega
    obtain ⟨p, hp, rfl⟩ := List.mem_map.1 this
    exact ⟨p.2, hp, hval p hp⟩

/-- The state after `init_seq_order` for another epoch. -/
theorem inv_init {α : Type} (inner : Option Int → List (List α)) (s : State α) (epoch : Option Int)
    (hne : inner epoch ≠ []) (h : s.epoch = none ∨ s.epoch ≠ epoch) :
    Inv (init inner s epoch) ∧ (init inner s epoch).start = 0 ∧ flat (init inner s epoch) = (inner epoch).flatten := by
  have hc : (s.epoch.isNone || decide (s.epoch ≠ epoch)) = true := by
    rcases h with h | h
    · simp [h]
    · simp [h]
  have hinit : init inner s epoch = { epoch := epoch, offs := [0], start := 0, added := [], subs := (inner epoch).map (fun l => { cur := l, start := 0, loaded := 0 }) } := by
    unfold init
    simp only [hc, if_true]
  have hz : ∀ (d : Nat) (b : Sub α), ((inner epoch).map (fun l => ({ cur := l, start := 0, loaded := 0 } : Sub α)))[d]? = some b → b.start = 0 := by
    intro d b hb
    rw [List.getElem?_map] at hb
    cases hl : (inner epoch)[d]? with
    | none => rw [hl] at hb; cases hb
    | some l =>
      rw [hl] at hb
      injection hb with hb
      rw [← hb]
  rw [hinit]
  refine ⟨⟨⟨1, ⟨by omega, ?_, by simp [cum], ?_, ?_⟩⟩, ⟨0, rfl⟩, by simp⟩, rfl, ?_⟩
  · have := List.length_pos_iff.2 hne
    simp
    omega
  · intro d b hb
    simp only at hb
    have := hz d b hb
    omega
  · intro d b hb hpos
    simp only at hb
    have := hz d b hb
    omega
  · simp only [flat, List.map_map]
    congr 1
    exact List.map_id _

/-- C51. Any sequence of windows, with starts which do not go back, and not past the end: all of them can be loaded, and the
last one has the right sequences. -/
theorem windows_spec {α : Type} : ∀ (ws : List (Nat × Nat)) (s : State α), Inv s → (∀ w ∈ ws, w.1 ≤ w.2 ∧ w.2 ≤ (flat s).length) →
    (∀ w ∈ ws, s.start ≤ w.1) → ws.Pairwise (fun a b => a.1 ≤ b.1) →
    ∃ s', loads s ws = .ok s' ∧ Inv s' ∧ flat s' = flat s ∧
      ∀ w, ws.getLast? = some w → ∀ i, w.1 ≤ i → i < w.2 → ∃ x, (i, x) ∈ s'.added ∧ (flat s)[i]? = some x
  | [], s, hi, _, _, _ => ⟨s, rfl, hi, rfl, by simp⟩
  | w :: ws, s, hi, h1, h2, h3 => by
    obtain ⟨a1, a2⟩ := h1 w (by simp)
    obtain ⟨s1, b1, b2, b3, b4, b5⟩ := load_spec hi (h2 w (by simp)) a1 a2
    rw [List.pairwise_cons] at h3
    obtain ⟨s2, c1, c2, c3, c4⟩ := windows_spec ws s1 b2 (fun v hv => by rw [b4]; exact h1 v (by simp [hv]))
      (fun v hv => by rw [b3]; exact h3.1 v hv) h3.2
    refine ⟨s2, by simp only [loads, bind, Except.bind, b1, c1], c2, by rw [c3, b4], ?_⟩
    intro v hv i hi1 hi2
    cases ws with
    | nil =>
      simp at hv
      subst hv
      simp only [loads] at c1
      injection c1 with c1
      subst c1
      exact b5 i hi1 hi2
    | cons u us =>
      rw [List.getLast?_cons_cons] at hv
      obtain ⟨x, hx1, hx2⟩ := c4 v hv i hi1 hi2
      exact ⟨x, hx1, by rw [← b4]; exact hx2⟩

/-! ### Where it does not work -/

/-- An initial state. -/
def exS : State Nat := { epoch := none, offs := [], subs := [], start := 0, added := [] }

/-- Whether it is an error. -/
def errOf {α : Type} : Res α → Option Err
  | .ok _ => none
  | .error e => some e

theorem collect_past {α : Type} {s : State α} {m start i : Nat} (hw : Wins s m start) (h1 : start ≤ i)
    (h3 : (flat s).length ≤ i) : collect s i = .error (.other "AttributeError") := by
  obtain ⟨e1, e2, e3⟩ := hw.ds i
  unfold collect
  generalize hdd : dsFor i s.offs 0 = dd at *
  have hlen : (lens s).length = s.subs.length := by simp [lens]
  have hds : dd < s.subs.length := by have := hw.le; omega
  have hcs := cum_succ (lens s) (d := dd) (by omega)
  have hcur : (lens s)[dd]'(by omega) = s.subs[dd].cur.length := by simp [lens]
  rw [hcur] at hcs
  have hmono := cum_mono (lens s) (show dd + 1 ≤ (lens s).length by omega)
  rw [cum_all, ← flat_length] at hmono
  have hget : getItem s.subs dd = .ok s.subs[dd] := by rw [getItem, List.getElem?_eq_getElem hds]
  have hoff : getItem s.offs dd = .ok (cum (lens s) dd) := by
    rw [getItem, hw.offs, List.getElem?_map, List.getElem?_range e1]; rfl
  have hb := hw.win dd s.subs[dd] (List.getElem?_eq_getElem hds)
  simp only [bind, Except.bind, hget, hoff]
  split
  · rfl
  · rw [List.getElem?_eq_none (by omega)]

theorem mapM_fails {α : Type} {s : State α} : ∀ (l : List Nat), (∃ i ∈ l, ∃ e, collect s i = .error e) →
    ∃ e, l.mapM (collect s) = .error e
  | [], h => by simp at h
  | i :: l, h => by
    simp only [List.mapM_cons, bind, Except.bind, pure, Except.pure]
    cases hc : collect s i with
    | error e => exact ⟨e, rfl⟩
    | ok p =>
      obtain ⟨j, hj, e', he⟩ := h
      rcases List.mem_cons.1 hj with rfl | hj
      · rw [hc] at he; cases he
      · obtain ⟨e'', h''⟩ := mapM_fails l ⟨j, hj, e', he⟩
        exact ⟨e'', by simp only [h'']⟩

/-- C51 violated: after any number of windows, one past the end fails (other datasets then only load what there is). -/
theorem load_past_fails {α : Type} {s : State α} (hi : Inv s) {start fin : Nat} (hs : s.start ≤ start) (hsf : start < fin)
    (hf : (flat s).length < fin) : ∃ e, load s start fin = .error e := by
  obtain ⟨m, hw⟩ := hi.wins
  have hw' : Wins s m start := ⟨hw.pos, hw.le, hw.offs, fun d b hb => by have := hw.win d b hb; omega, hw.known⟩
  obtain ⟨s1, m', d, r1, r2, r3, r4, r5, -, -⟩ := loadLoop_spec (start := start) (fin := fin) (s.subs.length + 1) s m start hw' (by omega)
    (Or.inl rfl) (fun e b _ hb => hw'.win e b hb) (by omega)
  have hflat : flat s1 = flat s := by simp only [flat, r3]
  have hmv : (moveWindow s1 start).offs = s1.offs ∧ (moveWindow s1 start).subs = s1.subs ∧
      ∀ p ∈ (moveWindow s1 start).added, p ∈ s.added := by
    unfold moveWindow
    rw [← r5]
    split
    · exact ⟨rfl, rfl, fun p hp => (List.dropWhile_suffix _).subset hp⟩
    · exact ⟨rfl, rfl, fun p hp => hp⟩
  obtain ⟨v1, v2, v5⟩ := hmv
  have hl2 : lens (moveWindow s1 start) = lens s1 := by simp only [lens, v2]
  have hf2 : flat (moveWindow s1 start) = flat s := by rw [← hflat]; simp only [flat, v2]
  have hw2 : Wins (moveWindow s1 start) m' start :=
    ⟨r2.pos, by rw [v2]; exact r2.le, by rw [v1, hl2]; exact r2.offs, by rw [v2, hl2]; exact r2.win, by rw [v2]; exact r2.known⟩
  have hfn : firstNew (moveWindow s1 start) start < fin := by
    unfold firstNew
    cases hl : (moveWindow s1 start).added.getLast? with
    | none => simp only; omega
    | some x =>
      have := hi.val x (v5 x (List.mem_of_getLast? hl))
      have := (List.getElem?_eq_some_iff.1 this).1
      simp only
      omega
  simp only [load, bind, Except.bind, r1, pyAssert, r4, decide_eq_true hs, if_true]
  obtain ⟨e, he⟩ := mapM_fails (s := moveWindow s1 start)
    (List.range' (firstNew (moveWindow s1 start) start) (fin - firstNew (moveWindow s1 start) start))
    ⟨fin - 1, by rw [List.mem_range'_1]; omega, _, collect_past hw2 (by omega) (by rw [hf2]; omega)⟩
  exact ⟨e, by simp only [he]⟩

/-- C51 violated: a window past the end is an `AttributeError` (other datasets then only load what there is). -/
theorem past_end_fails : errOf (load (init (fun _ => [[1, 2], [3]]) exS (some 1)) 0 4) = some (.other "AttributeError") := by
  decide +kernel

/-- C42 violated: `init_seq_order` for the same epoch does not rewind the sub-datasets. -/
theorem reinit_same_epoch_fails : ∃ s', load (init (fun _ => [[1, 2], [3]]) exS (some 1)) 1 2 = .ok s' ∧
    errOf (load (init (fun _ => [[1, 2], [3]]) s' (some 1)) 0 1) = some .assertion :=
  ⟨_, rfl, by decide +kernel⟩

/-- The part of the list for the sub-datasets together has one entry per sequence. -/
theorem splitList_length {T : Type} : ∀ (sizes : List Nat) (l : List T), (splitList sizes l).1.length = min sizes.sum l.length ∧
    (splitList sizes l).2.length = l.length - sizes.sum
  | [], l => by simp [splitList]
  | n :: ns, l => by
    obtain ⟨h1, h2⟩ := splitList_length ns (l.drop n)
    simp only [splitList, List.length_append, List.length_take, h1, h2, List.length_drop, List.sum_cons]
    omega

/-- C51 violated: a list of tags for all sequences is an `AssertionError`, unless the number of sequences is the number of
sub-datasets. -/
theorem list_fails {T : Type} (sizes : List Nat) (l : List T) (hl : l.length = sizes.sum) (hn : sizes.sum ≠ sizes.length) :
    errOf (listsFor sizes l) = some .assertion := by
  obtain ⟨h1, h2⟩ := splitList_length sizes l
  have he : (splitList sizes l).2.isEmpty = true := by
    rw [List.isEmpty_iff_length_eq_zero]; omega
  simp only [listsFor, bind, Except.bind, pyAssert, he, if_true]
  rw [decide_eq_false (by omega)]
  rfl

/-! ### Examples -/

example : Inv (init (fun _ => [[1, 2], [], [3]]) exS (some 1)) :=
  (inv_init _ exS (some 1) (by decide) (Or.inl rfl)).1
example : (match loads (init (fun _ => [[1, 2], [], [3]]) exS (some 1)) [(0, 1), (1, 3)] with
    | .ok s => s.added | .error _ => []) = [(1, 2), (2, 3)] := by decide +kernel

end Verif.Concat
