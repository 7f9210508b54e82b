import Verif.Engine.SpecTrain
import Verif.Engine.PropsCleanup
import Verif.LearningRate.PropsMore
/-
Lemmas for crash-safe training: the learning rate data in relation to the run without crashes.
-/
namespace Verif.Engine
open Verif.Py LearningRate

variable {M O : Type}

theorem evald_iff (d : Data) (n : String) (j : Int) :
    isEvaluated d n j = true ↔ ∃ x, d.get? j = some x ∧ ∃ key ∈ x.error.keys, ownKey n key := by
  unfold isEvaluated ownKey
  cases h : d.get? j with
  | none => simp
  | some x => simp

theorem evald_some {d : Data} {n : String} {j : Int} (h : isEvaluated d n j = true) : ∃ x, d.get? j = some x := by
  obtain ⟨x, hx, _⟩ := (evald_iff d n j).1 h; exact ⟨x, hx⟩

theorem mem_keys_iff {V : Type _} (d : Dict String V) (k : String) : k ∈ d.keys ↔ ∃ v, d.get? k = some v := by
  constructor
  · intro h
    cases hg : d.get? k with
    | none => exact absurd h ((Dict.get?_eq_none d k).1 hg)
    | some v => exact ⟨v, rfl⟩
  · rintro ⟨v, hv⟩
    by_contra hn
    rw [(Dict.get?_eq_none d k).2 hn] at hv; cases hv

theorem wf_updateDict {V : Type _} (o : Dict String V) : ∀ d : Dict String V, d.Wf → (updateDict d o).Wf := by
  unfold updateDict
  induction o with
  | nil => intro d h; exact h
  | cons a l ih => intro d h; exact ih _ (Dict.wf_set h _ _)

/-! ### The elementary changes -/

theorem get?_setScores (d : Data) (e j : Int) (s : Dict String ℚ) :
    (setScores d e s).get? j = if j = e then (d.get? e).map (fun x => { x with error := updateDict x.error s })
      else d.get? j := by
  unfold setScores
  cases h : d.get? e with
  | none =>
    simp only [Option.map_none]
    by_cases hj : j = e
    · rw [if_pos hj, hj, h]
    · rw [if_neg hj]
  | some x =>
    simp only [Dict.get?_set]
    by_cases hj : j = e
    · subst hj; simp
    · rw [if_neg (fun h => hj h.symm), if_neg hj]

theorem wf_setScores {d : Data} (h : DataWf d) (e : Int) (s : Dict String ℚ) : DataWf (setScores d e s) := by
  refine ⟨?_, ?_⟩
  · unfold setScores
    split
    · exact h.1
    · exact Dict.wf_set h.1 _ _
  · intro j x hx
    rw [get?_setScores] at hx
    split at hx
    · obtain ⟨y, hy, rfl⟩ := Option.map_eq_some_iff.1 hx
      exact wf_updateDict _ _ (h.2 _ _ hy)
    · exact h.2 _ _ hx

theorem get?_withLr (J : Job M O) (d : Data) (e j : Int) :
    (withLr J d e).get? j = if j = e ∧ d.get? e = none then some ⟨lrFor J d e, []⟩ else d.get? j := by
  unfold withLr lrFor
  cases h : d.get? e with
  | some x => simp
  | none =>
    simp only [LearningRate.setDefault, h, Dict.get?_set]
    by_cases hj : j = e
    · subst hj; simp
    · rw [if_neg (fun h => hj h.symm), if_neg (fun h => hj h.1)]

theorem wf_withLr {J : Job M O} {d : Data} (h : DataWf d) (e : Int) : DataWf (withLr J d e) := by
  refine ⟨?_, ?_⟩
  · unfold withLr
    cases hd : d.get? e with
    | some x => exact h.1
    | none => simp only [LearningRate.setDefault, hd]; exact Dict.wf_set h.1 _ _
  · intro j x hx
    rw [get?_withLr] at hx
    split at hx
    · injection hx with hx; subst hx; exact List.nodup_nil
    · exact h.2 _ _ hx

/-- One preset rate, seen from epoch `j`. -/
def presetStep (j : Int) (o : Option EpochData) (p : Int × ℚ) : Option EpochData :=
  if p.1 = j then
    match o with
    | none => some ⟨p.2, []⟩
    | some x => if x.lr = 0 then some { x with lr := p.2 } else some x
  else o

theorem get?_initData (ps : List (Int × ℚ)) : ∀ (d : Data) (j : Int),
    (initData d ps).get? j = ps.foldl (presetStep j) (d.get? j) := by
  unfold initData
  induction ps with
  | nil => intro d j; rfl
  | cons p l ih =>
    intro d j
    rw [List.foldl_cons, List.foldl_cons, ih]
    congr 1
    unfold presetStep LearningRate.setDefault
    by_cases hj : p.1 = j
    · subst hj
      rw [if_pos rfl]
      cases hd : d.get? p.1 with
      | none => simp [Dict.get?_set]
      | some x =>
        simp only
        split
        · simp [Dict.get?_set]
        · exact hd
    · rw [if_neg hj]
      cases hd : d.get? p.1 with
      | none => simp only [Dict.get?_set]; rw [if_neg hj]
      | some x =>
        simp only
        split
        · simp only [Dict.get?_set]; rw [if_neg hj]
        · rfl

theorem wf_initData (ps : List (Int × ℚ)) : ∀ {d : Data}, DataWf d → DataWf (initData d ps) := by
  unfold initData
  induction ps with
  | nil => intro d h; exact h
  | cons p l ih =>
    intro d h
    rw [List.foldl_cons]
    refine ih ?_
    unfold LearningRate.setDefault
    cases hd : d.get? p.1 with
    | none =>
      refine ⟨Dict.wf_set h.1 _ _, fun e x hx => ?_⟩
      simp only [Dict.get?_set] at hx
      split at hx
      · injection hx with hx; subst hx; exact List.nodup_nil
      · exact h.2 _ _ hx
    | some x =>
      simp only
      split
      · refine ⟨Dict.wf_set h.1 _ _, fun e y hy => ?_⟩
        simp only [Dict.get?_set] at hy
        split at hy
        · injection hy with hy; subst hy; exact h.2 _ x hd
        · exact h.2 _ _ hy
      · exact h

theorem preset_stay (j : Int) {x : EpochData} (h : x.lr ≠ 0) (ps : List (Int × ℚ)) :
    ps.foldl (presetStep j) (some x) = some x := by
  induction ps with
  | nil => rfl
  | cons p l ih =>
    rw [List.foldl_cons]
    have : presetStep j (some x) p = some x := by
      unfold presetStep
      split
      · simp only [if_neg h]
      · rfl
    rw [this, ih]

/-- Presets from nothing and from an entry with the same rate give the same rate. -/
theorem preset_same (j : Int) (ps : List (Int × ℚ)) : ∀ (x y : EpochData), x.lr = y.lr →
    ps.foldl (presetStep j) (some x) = (ps.foldl (presetStep j) (some y)).map (fun z => ⟨z.lr, x.error⟩) := by
  induction ps with
  | nil => intro x y h; simp [← h]
  | cons p l ih =>
    intro x y h
    rw [List.foldl_cons, List.foldl_cons]
    by_cases hp : p.1 = j
    · by_cases h0 : x.lr = 0
      · have h1 : presetStep j (some x) p = some { x with lr := p.2 } := by
          unfold presetStep; rw [if_pos hp]; simp only [if_pos h0]
        have h2 : presetStep j (some y) p = some { y with lr := p.2 } := by
          unfold presetStep; rw [if_pos hp]; simp only [if_pos (h ▸ h0)]
        rw [h1, h2]
        exact ih ⟨p.2, x.error⟩ ⟨p.2, y.error⟩ rfl
      · have h1 : presetStep j (some x) p = some x := by
          unfold presetStep; rw [if_pos hp]; simp only [if_neg h0]
        have h2 : presetStep j (some y) p = some y := by
          unfold presetStep; rw [if_pos hp]; simp only [if_neg (h ▸ h0)]
        rw [h1, h2]; exact ih x y h
    · have h1 : presetStep j (some x) p = some x := by unfold presetStep; rw [if_neg hp]
      have h2 : presetStep j (some y) p = some y := by unfold presetStep; rw [if_neg hp]
      rw [h1, h2]; exact ih x y h

theorem preset_none_all (j : Int) (ps : List (Int × ℚ)) :
    ps.foldl (presetStep j) none = none → ∀ o, ps.foldl (presetStep j) o = o := by
  induction ps with
  | nil => intro _ o; rfl
  | cons p l ih =>
    intro h o
    rw [List.foldl_cons] at h ⊢
    by_cases hp : p.1 = j
    · exfalso
      have h1 : presetStep j none p = some ⟨p.2, []⟩ := by unfold presetStep; rw [if_pos hp]
      rw [h1] at h
      have : ∀ (l : List (Int × ℚ)) (x : EpochData), l.foldl (presetStep j) (some x) ≠ none := by
        intro l
        induction l with
        | nil => intro x; simp
        | cons q l ih2 =>
          intro x
          rw [List.foldl_cons]
          have : ∃ y, presetStep j (some x) q = some y := by
            unfold presetStep
            split
            · simp only
              split
              · exact ⟨_, rfl⟩
              · exact ⟨_, rfl⟩
            · exact ⟨_, rfl⟩
          obtain ⟨y, hy⟩ := this
          rw [hy]; exact ih2 y
      exact this _ _ h
    · have h1 : ∀ o, presetStep j o p = o := fun o => by unfold presetStep; rw [if_neg hp]
      rw [h1] at h ⊢
      exact ih h o

/-- Applying the presets to an entry which already has the preset rate changes nothing. -/
theorem preset_idem (j : Int) (ps : List (Int × ℚ)) : ∀ (y x : EpochData), ps.foldl (presetStep j) none = some y →
    x.lr = y.lr → ps.foldl (presetStep j) (some x) = some x := by
  induction ps with
  | nil => intro y x h; cases h
  | cons p l ih =>
    intro y x h hlr
    rw [List.foldl_cons] at h ⊢
    by_cases hp : p.1 = j
    · have h1 : presetStep j none p = some ⟨p.2, []⟩ := by unfold presetStep; rw [if_pos hp]
      rw [h1] at h
      by_cases h0 : x.lr = 0
      · have h2 : presetStep j (some x) p = some { x with lr := p.2 } := by
          unfold presetStep; rw [if_pos hp]; simp only [if_pos h0]
        rw [h2, preset_same j l ⟨p.2, x.error⟩ ⟨p.2, []⟩ rfl, h]
        simp [← hlr]
      · exact (by
          have h2 : presetStep j (some x) p = some x := by
            unfold presetStep; rw [if_pos hp]; simp only [if_neg h0]
          rw [h2]; exact preset_stay j h0 l)
    · have h1 : ∀ o, presetStep j o p = o := fun o => by unfold presetStep; rw [if_neg hp]
      rw [h1] at h ⊢
      exact ih y x h hlr

theorem preset_none_error (j : Int) (ps : List (Int × ℚ)) : ∀ (o : Option EpochData),
    (∀ x, o = some x → x.error = []) → ∀ y, ps.foldl (presetStep j) o = some y → y.error = [] := by
  induction ps with
  | nil => intro o ho y h; exact ho y h
  | cons p l ih =>
    intro o ho y h
    rw [List.foldl_cons] at h
    refine ih _ ?_ y h
    intro x hx
    unfold presetStep at hx
    split at hx
    · split at hx
      · injection hx with hx; subst hx; rfl
      · rename_i x' 
        split at hx
        · injection hx with hx; subst hx; exact ho x' rfl
        · injection hx with hx; subst hx; exact ho _ rfl
    · exact ho x hx

theorem preset_epoch {j : Int} {ps : List (Int × ℚ)} (h : ps.foldl (presetStep j) none ≠ none) : ∃ p ∈ ps, p.1 = j := by
  by_contra hn
  push Not at hn
  apply h
  clear h
  induction ps with
  | nil => rfl
  | cons p l ih =>
    rw [List.foldl_cons]
    have : presetStep j none p = none := by unfold presetStep; rw [if_neg (hn p (by simp))]
    rw [this]; exact ih (fun q hq => hn q (by simp [hq]))

/-! ### The ideal run -/

/-- The rate of epoch `j` in the run without crashes. -/
def lrI (J : Job M O) (j : Int) : ℚ := lrFor J (ideal J (j - 1).toNat).2 j

/-- The scores of epoch `j` in the run without crashes. -/
def scoreI (J : Job M O) (n : String) (j : Int) : Dict String ℚ := J.score n j (idealW J j)

theorem foldl_setScores_other (J : Job M O) (e j : Int) (w : M × O) (h : j ≠ e) (ns : List String) : ∀ d : Data,
    (ns.foldl (fun d n => setScores d e (J.score n e w)) d).get? j = d.get? j := by
  induction ns with
  | nil => intro d; rfl
  | cons n ns ih => intro d; rw [List.foldl_cons, ih, get?_setScores, if_neg h]

theorem ideal_other (J : Job M O) (e : Nat) {j : Int} (h : j ≠ e + 1) :
    (ideal J (e + 1)).2.get? j = (ideal J e).2.get? j := by
  simp only [ideal]
  rw [foldl_setScores_other J _ _ _ h, get?_withLr, if_neg (fun hh => h hh.1)]

/-- Later epochs only have the preset rates. -/
theorem ideal_future (J : Job M O) (e : Nat) : ∀ {j : Int}, (e : Int) < j →
    (ideal J e).2.get? j = (initData [] J.presets).get? j := by
  induction e with
  | zero => intro j _; rfl
  | succ e ih =>
    intro j h
    rw [ideal_other J e (by push_cast at h; omega)]
    exact ih (by push_cast at h; omega)

theorem lrI_preset {J : Job M O} {j : Int} (h1 : 1 ≤ j) {x : EpochData} (h : (initData [] J.presets).get? j = some x) :
    lrI J j = x.lr := by
  unfold lrI lrFor
  rw [ideal_future J _ (by omega), h]

/-- The data agrees with the run without crashes: every rate is right, and the scores are exactly those of the datasets
which are evaluated. -/
def Agree (J : Job M O) (d : Data) : Prop :=
  DataWf d ∧ ∀ j x, d.get? j = some x → 1 ≤ j ∧ x.lr = lrI J j ∧
    ∀ key v, x.error.get? key = some v ↔ ∃ n ∈ J.names, isEvaluated d n j = true ∧ (scoreI J n j).get? key = some v

/-- All preset rates are in the data. -/
def Presets (J : Job M O) (d : Data) : Prop := ∀ j, (initData [] J.presets).get? j ≠ none → d.get? j ≠ none

/-- All epochs before `e` have all scores. -/
def Upto (J : Job M O) (d : Data) (e : Int) : Prop := ∀ i, 1 ≤ i → i < e → ∀ n ∈ J.names, isEvaluated d n i = true

/-! ### Effects on `Agree` -/

theorem evald_setScores {J : Job M O} (hJ : JobOk J) {d : Data} {e : Int} {w : M × O} {n : String} (hn : n ∈ J.names)
    (hd : d.get? e ≠ none) (n' : String) (hn' : n' ∈ J.names) (j : Int) :
    isEvaluated (setScores d e (J.score n e w)) n' j = true ↔ isEvaluated d n' j = true ∨ (n' = n ∧ j = e) := by
  rw [evald_iff, evald_iff, get?_setScores]
  by_cases hj : j = e
  · subst hj
    rw [if_pos rfl]
    cases hx : d.get? j with
    | none => exact absurd hx hd
    | some x =>
      simp only [Option.map_some, Option.some.injEq, exists_eq_left']
      have hkeys : ∀ key, key ∈ (updateDict x.error (J.score n j w)).keys ↔
          key ∈ x.error.keys ∨ key ∈ (J.score n j w).keys := by
        intro key
        rw [mem_keys_iff, mem_keys_iff, mem_keys_iff]
        simp only [get?_updateDict _ _ (hJ.wf n j w)]
        cases (J.score n j w).get? key <;> simp
      constructor
      · rintro ⟨key, hk, ho⟩
        rcases (hkeys key).1 hk with hk | hk
        · exact Or.inl ⟨key, hk, ho⟩
        · by_cases hnn : n' = n
          · exact Or.inr ⟨hnn, trivial⟩
          · exact absurd ho (hJ.other n hn n' hn' (fun h => hnn h.symm) j w key hk)
      · rintro (⟨key, hk, ho⟩ | ⟨rfl, _⟩)
        · exact ⟨key, (hkeys key).2 (Or.inl hk), ho⟩
        · cases hs : J.score n' j w with
          | nil => exact absurd hs (hJ.scores n' hn j w)
          | cons p l =>
            have hm : p.1 ∈ (J.score n' j w).keys := by rw [hs]; simp [Dict.keys]
            exact ⟨p.1, by rw [← hs]; exact (hkeys p.1).2 (Or.inr hm), hJ.own n' hn j w p.1 hm⟩
  · rw [if_neg hj]
    constructor
    · intro h; exact Or.inl h
    · rintro (h | h)
      · exact h
      · exact absurd h.2 hj

theorem agree_setScores {J : Job M O} (hJ : JobOk J) {d : Data} (h : Agree J d) {e : Int} {w : M × O} {n : String}
    (hn : n ∈ J.names) (hd : d.get? e ≠ none) (hw : w = idealW J e) : Agree J (setScores d e (J.score n e w)) := by
  refine ⟨wf_setScores h.1 _ _, fun j x hx => ?_⟩
  rw [get?_setScores] at hx
  split at hx
  · rename_i hj
    subst hj
    obtain ⟨y, hy, rfl⟩ := Option.map_eq_some_iff.1 hx
    obtain ⟨h1, h2, h3⟩ := h.2 _ _ hy
    refine ⟨h1, h2, fun key v => ?_⟩
    simp only [get?_updateDict _ _ (hJ.wf n j w)]
    have hs : J.score n j w = scoreI J n j := by rw [hw]; rfl
    constructor
    · intro hv
      cases hg : (J.score n j w).get? key with
      | some u =>
        rw [hg] at hv
        simp only [Option.some_or] at hv
        exact ⟨n, hn, (evald_setScores hJ hn hd n hn j).2 (Or.inr ⟨rfl, rfl⟩), by rw [← hs, hg, hv]⟩
      | none =>
        rw [hg, Option.none_or] at hv
        obtain ⟨n', hn', he, hsc⟩ := (h3 key v).1 hv
        exact ⟨n', hn', (evald_setScores hJ hn hd n' hn' j).2 (Or.inl he), hsc⟩
    · rintro ⟨n', hn', he, hsc⟩
      by_cases hnn : n' = n
      · subst hnn; rw [hs, hsc]; rfl
      · rcases (evald_setScores hJ hn hd n' hn' j).1 he with he | he
        · have hold := (h3 key v).2 ⟨n', hn', he, hsc⟩
          have hnone : (J.score n j w).get? key = none := by
            rw [Dict.get?_eq_none]
            intro hk
            have ho : ownKey n' key := hJ.own n' hn' j (idealW J j) key ((mem_keys_iff _ _).2 ⟨v, hsc⟩)
            exact hJ.other n hn n' hn' (fun h => hnn h.symm) j w key hk ho
          rw [hnone, Option.none_or]; exact hold
        · exact absurd he.1 hnn
  · rename_i hj
    obtain ⟨h1, h2, h3⟩ := h.2 _ _ hx
    refine ⟨h1, h2, fun key v => ?_⟩
    rw [h3]
    constructor
    · rintro ⟨n', hn', he, hsc⟩
      exact ⟨n', hn', (evald_setScores hJ hn hd n' hn' j).2 (Or.inl he), hsc⟩
    · rintro ⟨n', hn', he, hsc⟩
      rcases (evald_setScores hJ hn hd n' hn' j).1 he with he | he
      · exact ⟨n', hn', he, hsc⟩
      · exact absurd he.2 hj

theorem evald_withLr {J : Job M O} {d : Data} {e : Int} (n : String) (j : Int) :
    isEvaluated (withLr J d e) n j = isEvaluated d n j := by
  rw [Bool.eq_iff_iff, evald_iff, evald_iff, get?_withLr]
  split
  · rename_i h
    rw [h.1, h.2]
    simp [Dict.keys]
  · rfl

theorem agree_withLr {J : Job M O} {d : Data} (h : Agree J d) {e : Int} (he : 1 ≤ e) (hlr : lrFor J d e = lrI J e) :
    Agree J (withLr J d e) := by
  refine ⟨wf_withLr h.1 _, fun j x hx => ?_⟩
  simp only [evald_withLr]
  rw [get?_withLr] at hx
  split at hx
  · rename_i hj
    obtain ⟨rfl, hnone⟩ := hj
    injection hx with hx; subst hx
    refine ⟨he, hlr, fun key v => ?_⟩
    constructor
    · intro hv; simp [Dict.get?] at hv
    · rintro ⟨n, _, hev, _⟩
      obtain ⟨x, hx⟩ := evald_some hev
      rw [hnone] at hx; cases hx
  · exact h.2 j x hx

theorem evald_initData {J : Job M O} (hJ : JobOk J) {d : Data} (h : Agree J d) (n : String) (j : Int) :
    isEvaluated (initData d J.presets) n j = isEvaluated d n j ∧
      (∀ x, d.get? j = some x → (initData d J.presets).get? j = some x) ∧
      (d.get? j = none → (initData d J.presets).get? j = (initData [] J.presets).get? j) := by
  have h1 : ∀ x, d.get? j = some x → (initData d J.presets).get? j = some x := by
    intro x hx
    rw [get?_initData, hx]
    cases hp : J.presets.foldl (presetStep j) none with
    | none => exact preset_none_all j _ hp _
    | some y =>
      refine preset_idem j _ y x hp ?_
      have h0 : (initData [] J.presets).get? j = some y := by rw [get?_initData]; exact hp
      rw [(h.2 j x hx).2.1, lrI_preset (h.2 j x hx).1 h0]
  have h2 : d.get? j = none → (initData d J.presets).get? j = (initData [] J.presets).get? j := by
    intro hd; rw [get?_initData, get?_initData, hd]; rfl
  refine ⟨?_, h1, h2⟩
  rw [Bool.eq_iff_iff, evald_iff, evald_iff]
  cases hd : d.get? j with
  | some x => rw [h1 x hd]
  | none =>
    rw [h2 hd, get?_initData]
    constructor
    · rintro ⟨x, hx, key, hk, _⟩
      have := preset_none_error j J.presets none (by simp) x hx
      rw [this] at hk; simp [Dict.keys] at hk
    · rintro ⟨x, hx, _⟩; cases hx

theorem agree_initData {J : Job M O} (hJ : JobOk J) {d : Data} (h : Agree J d) :
    Agree J (initData d J.presets) ∧ Presets J (initData d J.presets) := by
  refine ⟨⟨wf_initData _ h.1, fun j x hx => ?_⟩, fun j hj => ?_⟩
  · simp only [(evald_initData hJ h _ j).1]
    cases hd : d.get? j with
    | some y =>
      have := (evald_initData hJ h "" j).2.1 y hd
      rw [hx] at this; injection this with this; subst this
      exact h.2 j x hd
    | none =>
      have h2 := (evald_initData hJ h "" j).2.2 hd
      rw [hx] at h2
      have h2' : J.presets.foldl (presetStep j) none = some x := by rw [h2, get?_initData]; rfl
      obtain ⟨p, hp, hpj⟩ := preset_epoch (by rw [h2']; simp)
      have h1j : 1 ≤ j := by rw [← hpj]; exact hJ.presets p hp
      refine ⟨h1j, (lrI_preset h1j h2.symm).symm, fun key v => ?_⟩
      have herr := preset_none_error j J.presets none (by simp) x h2'
      constructor
      · intro hv; rw [herr] at hv; simp [Dict.get?] at hv
      · rintro ⟨n, _, hev, _⟩
        obtain ⟨x, hx⟩ := evald_some hev
        rw [hd] at hx; cases hx
  · cases hd : d.get? j with
    | some y => rw [(evald_initData hJ h "" j).2.1 y hd]; simp
    | none => rw [(evald_initData hJ h "" j).2.2 hd]; exact hj

theorem agree_nil (J : Job M O) : Agree J [] :=
  ⟨⟨List.nodup_nil, fun e x h => by simp [Dict.get?] at h⟩, fun j x h => by simp [Dict.get?] at h⟩

/-! ### The ideal run agrees with itself -/

theorem foldl_scores {J : Job M O} (hJ : JobOk J) {e : Int} {w : M × O} (hw : w = idealW J e) (ns : List String) :
    ∀ (d : Data), (∀ n ∈ ns, n ∈ J.names) → Agree J d → d.get? e ≠ none →
      Agree J (ns.foldl (fun d n => setScores d e (J.score n e w)) d) ∧
      ∀ n' ∈ J.names, ∀ j, isEvaluated (ns.foldl (fun d n => setScores d e (J.score n e w)) d) n' j = true ↔
        isEvaluated d n' j = true ∨ (n' ∈ ns ∧ j = e) := by
  induction ns with
  | nil => intro d _ h _; exact ⟨h, by simp⟩
  | cons n ns ih =>
    intro d hns h hd
    rw [List.foldl_cons]
    have hn := hns n (by simp)
    obtain ⟨h1, h2⟩ := ih (setScores d e (J.score n e w)) (fun m hm => hns m (by simp [hm]))
      (agree_setScores hJ h hn hd hw) (by
        rw [get?_setScores, if_pos rfl]
        cases hx : d.get? e with
        | none => exact absurd hx hd
        | some x => simp)
    refine ⟨h1, fun n' hn' j => ?_⟩
    rw [h2 n' hn' j, evald_setScores hJ hn hd n' hn']
    simp only [List.mem_cons]
    tauto

theorem ideal_agree {J : Job M O} (hJ : JobOk J) (e : Nat) :
    Agree J (ideal J e).2 ∧ Presets J (ideal J e).2 ∧ Upto J (ideal J e).2 (e + 1) := by
  induction e with
  | zero =>
    obtain ⟨h1, h2⟩ := agree_initData hJ (agree_nil J)
    exact ⟨h1, h2, fun i h1 h2 => by push_cast at h2; omega⟩
  | succ e ih =>
    obtain ⟨ih1, ih2, ih3⟩ := ih
    have hlr : lrFor J (ideal J e).2 ((e : Int) + 1) = lrI J ((e : Int) + 1) := by
      unfold lrI; congr 2; simp
    have hA := agree_withLr ih1 (e := (e : Int) + 1) (by omega) hlr
    have hne : (withLr J (ideal J e).2 ((e : Int) + 1)).get? ((e : Int) + 1) ≠ none := by
      rw [get?_withLr]
      split
      · simp
      · rename_i h
        intro h0; exact h ⟨rfl, h0⟩
    have hw : J.train ((e : Int) + 1) (lrFor J (ideal J e).2 ((e : Int) + 1)) (ideal J e).1 = idealW J ((e : Int) + 1) := by
      unfold idealW
      have : ((e : Int) + 1).toNat = e + 1 := by omega
      rw [this]; rfl
    obtain ⟨h1, h2⟩ := foldl_scores hJ hw J.names _ (fun n hn => hn) hA hne
    refine ⟨h1, ?_, ?_⟩
    · intro j hj
      by_cases hje : j = (e : Int) + 1
      · have := (h2 "train" (by simp [Job.names]) j).2 (Or.inr ⟨by simp [Job.names], hje⟩)
        obtain ⟨x, hx⟩ := evald_some this
        simp only [ideal]
        rw [hx]; simp
      · rw [ideal_other J e hje]; exact ih2 j hj
    · intro i hi1 hi2 n hn
      refine (h2 n hn i).2 ?_
      by_cases hie : i = (e : Int) + 1
      · exact Or.inr ⟨hn, hie⟩
      · left
        rw [evald_withLr]
        exact ih3 i hi1 (by push_cast at hi2 ⊢; omega) n hn

/-- Data which has all scores before `e` gives the same rate for `e` as the run without crashes. -/
theorem lr_same {J : Job M O} (hJ : JobOk J) {d : Data} (h : Agree J d) (hp : Presets J d) {e : Int} (he : 1 ≤ e)
    (hu : Upto J d e) : lrFor J d e = lrI J e := by
  cases hx : d.get? e with
  | some x => unfold lrFor; rw [hx]; exact (h.2 e x hx).2.1
  | none =>
    have h0 : (initData [] J.presets).get? e = none := by
      by_contra hc; exact hp e hc hx
    unfold lrI lrFor
    rw [hx, ideal_future J _ (by omega), h0]
    simp only
    obtain ⟨i1, _, i3⟩ := ideal_agree hJ (e - 1).toNat
    refine hJ.past _ _ _ h.1 i1.1 (fun j hj => ?_)
    by_cases hj1 : 1 ≤ j
    · right
      have ev1 := hu j hj1 hj
      have ev2 := i3 j hj1 (by omega)
      obtain ⟨x, hx⟩ := evald_some (ev1 "train" (by simp [Job.names]))
      obtain ⟨y, hy⟩ := evald_some (ev2 "train" (by simp [Job.names]))
      refine ⟨x, y, hx, hy, ?_, fun key => ?_⟩
      · rw [(h.2 j x hx).2.1, (i1.2 j y hy).2.1]
      · apply Option.ext
        intro v
        rw [(h.2 j x hx).2.2, (i1.2 j y hy).2.2]
        constructor
        · rintro ⟨n, hn, _, hs⟩; exact ⟨n, hn, ev2 n hn, hs⟩
        · rintro ⟨n, hn, _, hs⟩; exact ⟨n, hn, ev1 n hn, hs⟩
    · left
      constructor
      · cases hx : d.get? j with
        | none => rfl
        | some x => exact absurd (h.2 j x hx).1 hj1
      · cases hx : (ideal J (e - 1).toNat).2.get? j with
        | none => rfl
        | some x => exact absurd (i1.2 j x hx).1 hj1

theorem train_same {J : Job M O} {d : Data} {e : Int} (he : 1 ≤ e) (hlr : lrFor J d e = lrI J e) :
    J.train e (lrFor J d e) (idealW J (e - 1)) = idealW J e := by
  rw [hlr]
  unfold idealW lrI
  have h1 : e.toNat = (e - 1).toNat + 1 := by omega
  have h2 : (((e - 1).toNat : Int) + 1) = e := by omega
  rw [h1]
  simp only [ideal]
  rw [h2]

end Verif.Engine
