import Verif.LearningRate.Save
import Verif.LearningRate.PropsMore
/-
Properties of saving and loading the learning rate file.
-/
namespace Verif.LearningRate.Save
open Verif.Py Verif.ListLemmas Verif.LearningRate

/-! ### Specification -/

mutual
/-- A normal form, in which the items of all dicts are sorted by key. Two values are equal in Python (`==`, apart from
NaN) if they have the same normal form: the order of a dict does not matter. -/
def canon : PyVal → PyVal
  | .list l => .list (canons l)
  | .tuple l => .tuple (canons l)
  | .dict l => .dict (sortItems (canonItems l))
  | v => v
/-- The elements of a list or tuple. -/
def canons : List PyVal → List PyVal
  | [] => []
  | v :: l => canon v :: canons l
/-- The items of a dict. -/
def canonItems : List (String × PyVal) → List (String × PyVal)
  | [] => []
  | (k, v) :: l => (k, canon v) :: canonItems l
end

/-- A one-element tuple must not be of a string. -/
def safeTuple : List PyVal → Bool → Bool
  | [.str _], _ => false
  | [_], _ => true
  | _, b => b

mutual
/-- There is no tuple with exactly one element, which is a string (such as `("abc",)`), in the value. -/
def safe : PyVal → Bool
  | .list l => safes l
  | .tuple l => safeTuple l (safes l)
  | .dict l => safeItems l
  | _ => true
/-- The elements of a list or tuple. -/
def safes : List PyVal → Bool
  | [] => true
  | v :: l => safe v && safes l
/-- The items of a dict. -/
def safeItems : List (String × PyVal) → Bool
  | [] => true
  | (_, v) :: l => safe v && safeItems l
end

/-- The same dict, up to the order of items (also of the dicts inside). -/
def SameDict (a b : Dict String PyVal) : Prop := ∀ k, (a.get? k).map canon = (b.get? k).map canon

/-! ### Sorting items -/

theorem stableSort_of_pairwise {α : Type _} {le : α → α → Bool} {l : List α} (h : l.Pairwise (fun a b => le a b = true)) :
    stableSort le l = l := by
  induction l with
  | nil => rfl
  | cons a l ih =>
    rw [List.pairwise_cons] at h
    show insertBy le a (stableSort le l) = _
    rw [ih h.2]
    cases l with
    | nil => rfl
    | cons b l => simp [insertBy, h.1 b (by simp)]

theorem sortItems_pairwise {V : Type} (l : List (String × V)) : (sortItems l).Pairwise (fun a b => decide (a.1 ≤ b.1) = true) := by
  refine stableSort_pairwise (le := fun a b : String × V => decide (a.1 ≤ b.1)) ?_ ?_ l
  · intro a b c h1 h2; simp at *; exact String.le_trans h1 h2
  · intro a b; simp; exact String.le_total _ _

theorem sortItems_idem {V : Type} (l : List (String × V)) : sortItems (sortItems l) = sortItems l :=
  stableSort_of_pairwise (sortItems_pairwise l)

theorem sortItems_perm {V : Type} (l : List (String × V)) : (sortItems l).Perm l := stableSort_perm _ _

theorem sortItems_map {V W : Type} (f : V → W) (l : List (String × V)) :
    sortItems (l.map (fun p => (p.1, f p.2))) = (sortItems l).map (fun p => (p.1, f p.2)) := by
  have ins : ∀ (a : String × V) (l : List (String × V)),
      insertBy (fun a b : String × W => decide (a.1 ≤ b.1)) (a.1, f a.2) (l.map (fun p => (p.1, f p.2))) =
      (insertBy (fun a b : String × V => decide (a.1 ≤ b.1)) a l).map (fun p => (p.1, f p.2)) := by
    intro a l
    induction l with
    | nil => rfl
    | cons b l ih =>
      simp only [insertBy, List.map_cons]
      split
      · rfl
      · rw [ih]; rfl
  induction l with
  | nil => rfl
  | cons a l ih =>
    show insertBy _ _ (sortItems _) = List.map _ (insertBy _ _ (sortItems l))
    rw [ih, ins]

theorem canonItems_eq (l : List (String × PyVal)) : canonItems l = l.map (fun p => (p.1, canon p.2)) := by
  induction l with
  | nil => rfl
  | cons a l ih => obtain ⟨k, v⟩ := a; simp only [canonItems, ih, List.map_cons]

theorem canonItems_sort (l : List (String × PyVal)) : canonItems (sortItems l) = sortItems (canonItems l) := by
  rw [canonItems_eq, canonItems_eq, sortItems_map]

theorem evalItems_sort (ev : String → Res PyVal) {l : List (String × Expr)} {r : List (String × PyVal)}
    (h : evalItems ev l = .ok r) : evalItems ev (sortItems l) = .ok (sortItems r) := by
  have ins : ∀ (l : List (String × Expr)) (r : List (String × PyVal)) (k : String) (x : Expr) (v : PyVal),
      eval ev x = .ok v → evalItems ev l = .ok r →
      evalItems ev (insertBy (fun a b => decide (a.1 ≤ b.1)) (k, x) l) =
        .ok (insertBy (fun a b => decide (a.1 ≤ b.1)) (k, v) r) := by
    intro l
    induction l with
    | nil =>
      intro r k x v hx hr
      simp only [evalItems] at hr; injection hr with hr; subst hr
      simp only [insertBy, evalItems, hx, bind, Except.bind, pure, Except.pure]
    | cons a l ih =>
      intro r k x v hx hr
      obtain ⟨k2, x2⟩ := a
      simp only [evalItems, bind, Except.bind, pure, Except.pure] at hr
      cases h1 : eval ev x2 with
      | error _ => rw [h1] at hr; cases hr
      | ok v2 =>
        cases h2 : evalItems ev l with
        | error _ => rw [h1, h2] at hr; cases hr
        | ok r2 =>
          rw [h1, h2] at hr; injection hr with hr; subst hr
          simp only [insertBy]
          split
          · simp only [evalItems, hx, h1, h2, bind, Except.bind, pure, Except.pure]
          · simp only [evalItems, ih r2 k x v hx h2, h1, bind, Except.bind, pure, Except.pure]
  induction l generalizing r with
  | nil => simp only [evalItems] at h; injection h with h; subst h; rfl
  | cons a l ih =>
    obtain ⟨k, x⟩ := a
    simp only [evalItems, bind, Except.bind, pure, Except.pure] at h
    cases h1 : eval ev x with
    | error _ => rw [h1] at h; cases h
    | ok v =>
      cases h2 : evalItems ev l with
      | error _ => rw [h1, h2] at h; cases h
      | ok r2 =>
        rw [h1, h2] at h; injection h with h; subst h
        exact ins _ _ _ _ _ h1 (ih h2)

/-! ### Values -/

mutual
theorem eval_pyRepr (ev : String → Res PyVal) : ∀ v : PyVal, eval ev (pyRepr v) = .ok v
  | .none => rfl
  | .bool _ => rfl
  | .int _ => rfl
  | .float (.fin _) => rfl
  | .float .nan => rfl
  | .float .inf => rfl
  | .float .negInf => rfl
  | .str _ => rfl
  | .list l => by simp only [pyRepr, eval, eval_pyReprs ev l, bind, Except.bind, pure, Except.pure]
  | .tuple l => by simp only [pyRepr, eval, eval_pyReprs ev l, bind, Except.bind, pure, Except.pure]
  | .dict l => by simp only [pyRepr, eval, eval_pyReprItems ev l, bind, Except.bind, pure, Except.pure]
theorem eval_pyReprs (ev : String → Res PyVal) : ∀ l : List PyVal, evals ev (pyReprs l) = .ok l
  | [] => rfl
  | v :: l => by simp only [pyReprs, evals, eval_pyRepr ev v, eval_pyReprs ev l, bind, Except.bind, pure, Except.pure]
theorem eval_pyReprItems (ev : String → Res PyVal) : ∀ l : List (String × PyVal), evalItems ev (pyReprItems l) = .ok l
  | [] => rfl
  | (k, v) :: l => by
    simp only [pyReprItems, evalItems, eval_pyRepr ev v, eval_pyReprItems ev l, bind, Except.bind, pure, Except.pure]
end

mutual
/-- Values are restored by `eval` of `better_repr`, up to the order of dicts. -/
theorem eval_betterRepr (ev : String → Res PyVal) : ∀ v : PyVal, safe v = true →
    ∃ w, eval ev (betterRepr v) = .ok w ∧ canon w = canon v
  | .none, _ => ⟨_, rfl, rfl⟩
  | .bool _, _ => ⟨_, rfl, rfl⟩
  | .int _, _ => ⟨_, rfl, rfl⟩
  | .float (.fin _), _ => ⟨_, rfl, rfl⟩
  | .float .nan, _ => ⟨_, rfl, rfl⟩
  | .float .inf, _ => ⟨_, rfl, rfl⟩
  | .float .negInf, _ => ⟨_, rfl, rfl⟩
  | .str _, _ => ⟨_, rfl, rfl⟩
  | .list l, h => by
    obtain ⟨w, h1, h2⟩ := eval_betterReprs ev l (by simpa only [safe] using h)
    exact ⟨.list w, by simp only [betterRepr, eval, h1, bind, Except.bind, pure, Except.pure], by simp only [canon, h2]⟩
  | .tuple l, h => by
    simp only [safe] at h
    by_cases hl : l.length = 1
    · obtain ⟨v, rfl⟩ := List.length_eq_one_iff.1 hl
      have h1 : eval ev (pyStr v) = .ok v := by
        cases v with
        | str s => simp [safeTuple] at h
        | _ => exact eval_pyRepr ev _
      exact ⟨.tuple [v], by simp only [betterRepr, betterTuple, eval, evals, h1, bind, Except.bind, pure, Except.pure], rfl⟩
    · have hb : betterTuple l (betterReprs l) = betterReprs l := by
        match l, hl with
        | [], _ => rfl
        | [_], hl => exact absurd rfl hl
        | _ :: _ :: _, _ => rfl
      have hs : safeTuple l (safes l) = safes l := by
        match l, hl with
        | [], _ => rfl
        | [_], hl => exact absurd rfl hl
        | _ :: _ :: _, _ => simp only [safeTuple]
      rw [hs] at h
      obtain ⟨w, h1, h2⟩ := eval_betterReprs ev l h
      exact ⟨.tuple w, by simp only [betterRepr, hb, eval, h1, bind, Except.bind, pure, Except.pure],
        by simp only [canon, h2]⟩
  | .dict l, h => by
    obtain ⟨w, h1, h2⟩ := eval_betterReprItems ev l (by simpa only [safe] using h)
    refine ⟨.dict (sortItems w), ?_, ?_⟩
    · simp only [betterRepr, eval, evalItems_sort ev h1, bind, Except.bind, pure, Except.pure]
    · simp only [canon]
      rw [canonItems_sort, h2, sortItems_idem]
theorem eval_betterReprs (ev : String → Res PyVal) : ∀ l : List PyVal, safes l = true →
    ∃ w, evals ev (betterReprs l) = .ok w ∧ canons w = canons l
  | [], _ => ⟨[], rfl, rfl⟩
  | v :: l, h => by
    simp only [safes, Bool.and_eq_true] at h
    obtain ⟨w, h1, h2⟩ := eval_betterRepr ev v h.1
    obtain ⟨r, h3, h4⟩ := eval_betterReprs ev l h.2
    exact ⟨w :: r, by simp only [betterReprs, evals, h1, h3, bind, Except.bind, pure, Except.pure],
      by simp only [canons, h2, h4]⟩
theorem eval_betterReprItems (ev : String → Res PyVal) : ∀ l : List (String × PyVal), safeItems l = true →
    ∃ w, evalItems ev (betterReprItems l) = .ok w ∧ canonItems w = canonItems l
  | [], _ => ⟨[], rfl, rfl⟩
  | (k, v) :: l, h => by
    simp only [safeItems, Bool.and_eq_true] at h
    obtain ⟨w, h1, h2⟩ := eval_betterRepr ev v h.1
    obtain ⟨r, h3, h4⟩ := eval_betterReprItems ev l h.2
    exact ⟨(k, w) :: r, by simp only [betterReprItems, evalItems, h1, h3, bind, Except.bind, pure, Except.pure],
      by simp only [canonItems, h2, h4]⟩
end

/-! ### Dict lemmas -/

theorem get?_perm {V : Type} {a b : Dict String V} (h : a.Perm b) (hw : Dict.Wf a) (k : String) : a.get? k = b.get? k := by
  have hwb : Dict.Wf b := by
    unfold Dict.Wf Dict.keys at *
    exact (h.map Prod.fst).nodup_iff.1 hw
  cases hb : b.get? k with
  | none =>
    rw [Dict.get?_eq_none] at hb ⊢
    intro hk; apply hb
    exact (h.map Prod.fst).subset hk
  | some v => exact Dict.get?_of_mem hw (h.symm.subset (Dict.mem_of_get? hb))

theorem get?_canonItems (l : Dict String PyVal) (k : String) : Dict.get? (canonItems l) k = (l.get? k).map canon := by
  induction l with
  | nil => rfl
  | cons a l ih =>
    obtain ⟨k2, v⟩ := a
    simp only [canonItems, Dict.get?]
    split
    · rfl
    · exact ih

theorem keys_canonItems (l : Dict String PyVal) : Dict.keys (canonItems l) = l.keys := by
  rw [canonItems_eq]; unfold Dict.keys; rw [List.map_map]; rfl

theorem keys_filter_wf {V : Type} {d : Dict String V} (p : String × V → Bool) (hw : Dict.Wf d) : Dict.Wf (List.filter p d) := by
  unfold Dict.Wf Dict.keys at *
  exact List.Nodup.sublist (List.filter_sublist.map _) hw

theorem get?_filter {V : Type} (d : Dict String V) (p : String → Bool) (k : String) :
    Dict.get? (List.filter (fun e => p e.1) d) k = if p k then d.get? k else none := by
  induction d with
  | nil => simp [Dict.get?]
  | cons a d ih =>
    obtain ⟨k2, v⟩ := a
    by_cases hp : p k2 = true
    · rw [List.filter_cons_of_pos (by simpa using hp)]
      simp only [Dict.get?, ih]
      split
      · rename_i h; subst h; rw [if_pos hp]
      · rfl
    · rw [List.filter_cons_of_neg (by simpa using hp), ih]
      simp only [Dict.get?]
      split
      · rename_i h
        rw [if_neg]
        rintro rfl
        exact hp h
      · rfl

theorem dropMeta_addMeta (k : String) : dropMeta (addMeta k) = k := by
  unfold dropMeta addMeta
  rw [String.toList_append, List.drop_left' (by decide)]
  simp

theorem addMeta_inj {a b : String} (h : addMeta a = addMeta b) : a = b := by
  rw [← dropMeta_addMeta a, h, dropMeta_addMeta]

theorem isMeta_addMeta (k : String) : isMeta (addMeta k) = true := by
  unfold isMeta startsWith addMeta
  rw [List.isPrefixOf_iff_prefix, String.toList_append]
  exact List.prefix_append _ _

theorem addMeta_dropMeta {k : String} (h : isMeta k = true) : addMeta (dropMeta k) = k := by
  unfold isMeta startsWith at h
  rw [List.isPrefixOf_iff_prefix] at h
  obtain ⟨t, ht⟩ := h
  unfold addMeta dropMeta
  rw [← ht, List.drop_left' (by decide)]
  apply String.toList_injective
  rw [String.toList_append, ← ht]
  simp

theorem get?_map_add (d : Dict String PyVal) (k : String) :
    Dict.get? (d.map (fun p => (addMeta p.1, p.2))) k = if isMeta k then d.get? (dropMeta k) else none := by
  induction d with
  | nil => simp [Dict.get?]
  | cons a d ih =>
    obtain ⟨k2, v⟩ := a
    simp only [List.map_cons, Dict.get?, ih]
    by_cases h : addMeta k2 = k
    · subst h; rw [if_pos rfl, if_pos (isMeta_addMeta _), dropMeta_addMeta, if_pos rfl]
    · rw [if_neg h]
      by_cases hm : isMeta k = true
      · rw [if_pos hm, if_pos hm, if_neg]
        rintro rfl
        exact h (addMeta_dropMeta hm)
      · rw [if_neg hm, if_neg hm]

theorem wf_map_add {d : Dict String PyVal} (hw : Dict.Wf d) : Dict.Wf (d.map (fun p => (addMeta p.1, p.2))) := by
  unfold Dict.Wf Dict.keys at *
  rw [List.map_map]
  have : (Prod.fst ∘ fun p : String × PyVal => (addMeta p.1, p.2)) = addMeta ∘ Prod.fst := rfl
  rw [this, ← List.map_map]
  exact List.Nodup.map (fun _ _ h => addMeta_inj h) hw

theorem wf_updateDict {V : Type} (other : Dict String V) : ∀ {d : Dict String V}, Dict.Wf d → Dict.Wf (updateDict d other) := by
  unfold updateDict
  induction other with
  | nil => intro d h; exact h
  | cons a l ih => intro d h; exact ih (Dict.wf_set h _ _)

theorem get?_joined {x : EpochData} (he : Dict.Wf x.error) (hi : Dict.Wf x.info)
    (hm : ∀ k ∈ x.error.keys, isMeta k = false) (k : String) :
    (joined x).get? k = if isMeta k then x.info.get? (dropMeta k) else x.error.get? k := by
  unfold joined
  rw [get?_updateDict _ _ (wf_map_add hi), get?_updateDict _ _ he, get?_map_add]
  have hn : Dict.get? ([] : Dict String PyVal) k = none := rfl
  rw [hn]
  by_cases h : isMeta k = true
  · rw [if_pos h, if_pos h]
    have : x.error.get? k = none := by
      rw [Dict.get?_eq_none]; intro hk; rw [hm k hk] at h; cases h
    rw [this]; simp
  · rw [if_neg h, if_neg h]; simp

theorem wf_joined (x : EpochData) : Dict.Wf (joined x) := by
  unfold joined
  exact wf_updateDict _ (wf_updateDict _ (by simp [Dict.Wf, Dict.keys]))

theorem get?_map_drop {d : Dict String PyVal} (hd : ∀ p ∈ d, isMeta p.1 = true) (k : String) :
    Dict.get? (d.map (fun p => (dropMeta p.1, p.2))) k = d.get? (addMeta k) := by
  induction d with
  | nil => rfl
  | cons a d ih =>
    obtain ⟨k2, v⟩ := a
    have h2 := hd (k2, v) (by simp)
    simp only [List.map_cons, Dict.get?, ih (fun p hp => hd p (by simp [hp]))]
    by_cases h : dropMeta k2 = k
    · rw [if_pos h, if_pos]; rw [← h]; exact (addMeta_dropMeta h2).symm
    · rw [if_neg h, if_neg]; intro h3; exact h (by rw [h3, dropMeta_addMeta])

theorem wf_map_drop {d : Dict String PyVal} (hw : Dict.Wf d) (hd : ∀ p ∈ d, isMeta p.1 = true) :
    Dict.Wf (d.map (fun p => (dropMeta p.1, p.2))) := by
  unfold Dict.Wf Dict.keys at *
  rw [List.map_map]
  have : (Prod.fst ∘ fun p : String × PyVal => (dropMeta p.1, p.2)) = dropMeta ∘ Prod.fst := rfl
  rw [this, ← List.map_map]
  refine List.Nodup.map_on ?_ hw
  intro a ha b hb h
  obtain ⟨p, hp, rfl⟩ := List.mem_map.1 ha
  obtain ⟨q, hq, rfl⟩ := List.mem_map.1 hb
  rw [← addMeta_dropMeta (hd p hp), h, addMeta_dropMeta (hd q hq)]

/-! ### One epoch -/

/-- What `EpochData` objects look like in a running training: dicts, no score key with the reserved prefix, no
single-string tuple in the values. -/
structure GoodEpoch (x : EpochData) : Prop where
  errWf : Dict.Wf x.error
  infoWf : Dict.Wf x.info
  noMeta : ∀ k ∈ x.error.keys, isMeta k = false
  errSafe : ∀ p ∈ x.error, safe p.2 = true
  infoSafe : ∀ p ∈ x.info, safe p.2 = true

theorem safeItems_iff (l : List (String × PyVal)) : safeItems l = true ↔ ∀ p ∈ l, safe p.2 = true := by
  induction l with
  | nil => simp [safeItems]
  | cons a l ih => obtain ⟨k, v⟩ := a; simp [safeItems, ih]

theorem safe_joined {x : EpochData} (h : GoodEpoch x) : safeItems (joined x) = true := by
  rw [safeItems_iff]
  rintro ⟨k, v⟩ hp
  have hg := Dict.get?_of_mem (wf_joined x) hp
  rw [get?_joined h.errWf h.infoWf h.noMeta] at hg
  split at hg
  · exact h.infoSafe (dropMeta k, v) (Dict.mem_of_get? hg)
  · exact h.errSafe (_, v) (Dict.mem_of_get? hg)

/-- The same epoch data: rate, scores and meta information. -/
def SameEpoch (a b : EpochData) : Prop := a.lr = b.lr ∧ SameDict a.error b.error ∧ SameDict a.info b.info

theorem epoch_round_trip (ev : String → Res PyVal) {x : EpochData} (h : GoodEpoch x) :
    ∃ v w y, eval ev (reprEpoch x).lr = .ok v ∧ eval ev (reprEpoch x).error = .ok w ∧ mkEpoch v w = .ok y ∧
      SameEpoch y x := by
  have hlr : eval ev (reprEpoch x).lr = .ok (.float x.lr) := by
    show eval ev (betterFloat x.lr) = _
    cases x.lr <;> rfl
  obtain ⟨ws, h1, h2⟩ := eval_betterReprItems ev (joined x) (safe_joined h)
  have herr : eval ev (reprEpoch x).error = .ok (.dict (sortItems ws)) := by
    simp only [reprEpoch, betterRepr, eval, evalItems_sort ev h1, bind, Except.bind, pure, Except.pure]
  refine ⟨_, _, _, hlr, herr, rfl, rfl, ?_, ?_⟩
  all_goals
    have hkeys : Dict.keys ws = (joined x).keys := by rw [← keys_canonItems, h2, keys_canonItems]
    have hww : Dict.Wf ws := by unfold Dict.Wf; rw [hkeys]; exact wf_joined x
    have hws : Dict.Wf (sortItems ws) := by
      unfold Dict.Wf Dict.keys at *
      exact ((sortItems_perm ws).map Prod.fst).nodup_iff.2 hww
    have hget : ∀ k, (Dict.get? (sortItems ws) k).map canon = ((joined x).get? k).map canon := by
      intro k
      rw [get?_perm (sortItems_perm ws) hws, ← get?_canonItems, h2, get?_canonItems]
    intro k
  · have := get?_filter (sortItems ws) (fun k => !isMeta k) k
    rw [this]
    by_cases hm : isMeta k = true
    · simp only [hm, Bool.not_true, Bool.false_eq_true, if_false]
      have : x.error.get? k = none := by
        rw [Dict.get?_eq_none]; intro hk; rw [h.noMeta k hk] at hm; cases hm
      rw [this]
    · have hm' : (!isMeta k) = true := by simpa using hm
      rw [if_pos hm', hget, get?_joined h.errWf h.infoWf h.noMeta, if_neg hm]
  · have hmf : ∀ p ∈ List.filter (fun p : String × PyVal => isMeta p.1) (sortItems ws), isMeta p.1 = true := by
      intro p hp; exact (List.mem_filter.1 hp).2
    have hfold : ∀ (l : Dict String PyVal), l.foldl (fun d p => Dict.set d (dropMeta p.1) p.2) [] =
        updateDict [] (l.map (fun p => (dropMeta p.1, p.2))) := by
      intro l; unfold updateDict; rw [List.foldl_map]
    rw [hfold, get?_updateDict _ _ (wf_map_drop (keys_filter_wf _ hws) hmf), get?_map_drop hmf]
    have hn : Dict.get? ([] : Dict String PyVal) k = none := rfl
    rw [hn, Option.or_none]
    have := get?_filter (sortItems ws) isMeta (addMeta k)
    rw [this, if_pos (isMeta_addMeta k), hget, get?_joined h.errWf h.infoWf h.noMeta, if_pos (isMeta_addMeta k),
      dropMeta_addMeta]

/-! ### The file -/

/-- C35 (round trip). Loading what was saved gives the same epochs, and for every epoch the same rate, scores and meta
information. -/
theorem round_trip_partial (ev : String → Res PyVal) {d : Dict Int EpochData} (hw : d.Wf)
    (hgood : ∀ e x, d.get? e = some x → GoodEpoch x) :
    ∃ d', loadData ev (reprData d) = .ok d' ∧
      ∀ e, (d.get? e = none → d'.get? e = none) ∧
        ∀ x, d.get? e = some x → ∃ y, d'.get? e = some y ∧ SameEpoch y x := by
  have key : ∀ l : Dict Int EpochData, (∀ p ∈ l, GoodEpoch p.2) →
      ∃ d', loadData ev (l.map (fun p => (p.1, reprEpoch p.2))) = .ok d' ∧
        ∀ e, (l.get? e = none → d'.get? e = none) ∧
          ∀ x, l.get? e = some x → ∃ y, d'.get? e = some y ∧ SameEpoch y x := by
    intro l
    induction l with
    | nil => intro _; exact ⟨[], rfl, fun e => ⟨fun _ => rfl, fun x hx => (by cases hx)⟩⟩
    | cons a l ih =>
      intro hl
      obtain ⟨e0, x0⟩ := a
      obtain ⟨d', h1, h2⟩ := ih (fun p hp => hl p (by simp [hp]))
      obtain ⟨v, w, y, g1, g2, g3, g4⟩ := epoch_round_trip ev (hl (e0, x0) (by simp))
      refine ⟨(e0, y) :: d', ?_, fun e => ?_⟩
      · simp only [List.map_cons, loadData, g1, g2, g3, h1, bind, Except.bind, pure, Except.pure]
      · simp only [Dict.get?]
        split
        · exact ⟨fun h => (by cases h), fun x hx => ⟨y, rfl, by injection hx with hx; rw [← hx]; exact g4⟩⟩
        · exact h2 e
  have hperm := stableSort_perm d (fun a b => decide (a.1 ≤ b.1))
  obtain ⟨d', h1, h2⟩ := key (stableSort (fun a b => decide (a.1 ≤ b.1)) d) (fun p hp =>
    hgood p.1 p.2 (Dict.get?_of_mem hw (hperm.subset hp)))
  refine ⟨d', h1, fun e => ?_⟩
  have hget : Dict.get? (stableSort (fun a b => decide (a.1 ≤ b.1)) d) e = d.get? e := by
    have hws : Dict.Wf (stableSort (fun a b : Int × EpochData => decide (a.1 ≤ b.1)) d) := by
      unfold Dict.Wf Dict.keys at *
      exact (hperm.map Prod.fst).nodup_iff.2 hw
    cases hb : d.get? e with
    | none =>
      rw [Dict.get?_eq_none] at hb ⊢
      intro hk; exact hb ((hperm.map Prod.fst).subset hk)
    | some v => exact Dict.get?_of_mem hws (hperm.symm.subset (Dict.mem_of_get? hb))
  rw [← hget]
  exact h2 e

/-- The code violates the round trip in general: meta information with a one-element tuple of a string, such as
`("abc",)`, is written as `(abc,)`, so that loading depends on what `abc` means as code (usually a `NameError`). -/
theorem one_tuple_broken (ev : String → Res PyVal) (s : String) (msg : Err) (hs : ev s = .error msg) (lr : PyFloat) (k : String) :
    loadData ev (reprData [(1, ⟨lr, [], [(k, .tuple [.str s])]⟩)]) = .error msg := by
  have hl : eval ev (betterRepr (.float lr)) = .ok (.float lr) := by cases lr <;> rfl
  show loadData ev [(1, reprEpoch ⟨lr, [], [(k, .tuple [.str s])]⟩)] = _
  simp only [loadData, reprEpoch, hl, bind, Except.bind]
  have : eval ev (betterRepr (.dict (joined ⟨lr, [], [(k, .tuple [.str s])]⟩))) = .error msg := by
    have hj : joined ⟨lr, [], [(k, .tuple [.str s])]⟩ = [(addMeta k, .tuple [.str s])] := rfl
    rw [hj]
    have hb : betterRepr (.dict [(addMeta k, .tuple [.str s])]) = .dict [(addMeta k, .tuple [.raw s])] := rfl
    rw [hb]
    simp only [eval, evalItems, evals, hs, bind, Except.bind]
  rw [this]

/-- The code violates the round trip for a score named with the reserved prefix: after loading it is meta information.
(`set_epoch_error` does not check this, unlike the constructor.) -/
theorem meta_score_moves (ev : String → Res PyVal) : ∃ d', loadData ev (reprData
    [(1, ⟨.fin 1, [(":meta:x", .float (.fin 2))], []⟩)]) = .ok d' ∧
    (d'.get? 1).map (fun y => (y.error.length, y.info.length)) = some (0, 1) := ⟨_, rfl, by decide⟩

/-! ### Crashes -/

/-- Reachable from the files as they were before a `save` of `text` started. -/
def InSave (old : Option (List Char)) (text : List Char) (s : FsState) : Prop :=
  s.text = text ∧
  ((s.files.main = old ∧ s.phase = .idle) ∨
    (s.files.main = old ∧ ∃ m, s.phase = .writing m) ∨
    (s.files.main = old ∧ s.phase = .closed ∧ s.files.tmp = some text) ∨
    (s.files.main = some text ∧ s.phase = .idle))

theorem inSave_step {old : Option (List Char)} {text : List Char} {s s' : FsState} {ev : FsEvent}
    (h : InSave old text s) (hev : ∀ t, ev ≠ .begin t) (hs : fsStep s ev = some s') : InSave old text s' := by
  obtain ⟨ht, h⟩ := h
  cases ev with
  | begin t => exact absurd rfl (hev t)
  | flush n =>
    simp only [fsStep] at hs
    split at hs
    · rename_i m hph
      split at hs
      · injection hs with hs; subst hs
        refine ⟨ht, Or.inr (Or.inl ⟨?_, n, rfl⟩)⟩
        rcases h with ⟨a, b⟩ | ⟨a, b⟩ | ⟨a, b, c⟩ | ⟨a, b⟩
        · exact a
        · exact a
        · exact a
        · rw [hph] at b; cases b
      · cases hs
    · cases hs
  | close =>
    simp only [fsStep] at hs
    split at hs
    · rename_i m hph
      injection hs with hs; subst hs
      refine ⟨ht, Or.inr (Or.inr (Or.inl ⟨?_, rfl, by simp [ht]⟩))⟩
      rcases h with ⟨a, b⟩ | ⟨a, b⟩ | ⟨a, b, c⟩ | ⟨a, b⟩
      · exact a
      · exact a
      · exact a
      · rw [hph] at b; cases b
    · cases hs
  | rename =>
    simp only [fsStep] at hs
    split at hs
    · rename_i hph
      injection hs with hs; subst hs
      refine ⟨ht, Or.inr (Or.inr (Or.inr ⟨?_, rfl⟩))⟩
      rcases h with ⟨a, b⟩ | ⟨a, m, b⟩ | ⟨a, b, c⟩ | ⟨a, b⟩
      · rw [hph] at b; cases b
      · rw [hph] at b; cases b
      · exact c
      · rw [hph] at b; cases b
    · cases hs
  | crash =>
    simp only [fsStep] at hs
    injection hs with hs; subst hs
    refine ⟨ht, ?_⟩
    rcases h with ⟨a, b⟩ | ⟨a, m, b⟩ | ⟨a, b, c⟩ | ⟨a, b⟩
    · exact Or.inl ⟨a, rfl⟩
    · exact Or.inl ⟨a, rfl⟩
    · exact Or.inl ⟨a, rfl⟩
    · exact Or.inr (Or.inr (Or.inr ⟨a, rfl⟩))

/-- C35 (atomicity). Whatever happens during a `save` (any partial flushes, a crash at any point), the learning rate file
is either exactly the old one (or still missing), or exactly the new one. It does not matter which temporary file was left
over by earlier crashes. -/
theorem save_atomic {s s' : FsState} {text : List Char} {evs : List FsEvent}
    (hevs : ∀ t, FsEvent.begin t ∉ evs) (h : fsRun s (.begin text :: evs) = some s') :
    s'.files.main = s.files.main ∨ s'.files.main = some text := by
  simp only [fsRun] at h
  cases hb : fsStep s (.begin text) with
  | none => rw [hb] at h; cases h
  | some s1 =>
    rw [hb] at h
    have h1 : InSave s.files.main text s1 := by
      simp only [fsStep] at hb
      split at hb
      · injection hb with hb; subst hb; exact ⟨rfl, Or.inr (Or.inl ⟨rfl, 0, rfl⟩)⟩
      · cases hb
    have key : ∀ (evs : List FsEvent) (s1 : FsState), (∀ t, FsEvent.begin t ∉ evs) → InSave s.files.main text s1 →
        fsRun s1 evs = some s' → InSave s.files.main text s' := by
      intro evs
      induction evs with
      | nil => intro s1 _ h1 hr; simp only [fsRun] at hr; injection hr with hr; rw [← hr]; exact h1
      | cons ev l ih =>
        intro s1 hl h1 hr
        simp only [fsRun] at hr
        cases hs : fsStep s1 ev with
        | none => rw [hs] at hr; cases hr
        | some s2 =>
          rw [hs] at hr
          exact ih s2 (fun t ht => hl t (by simp [ht])) (inSave_step h1 (fun t ht => hl t (by simp [ht])) hs) hr
    obtain ⟨_, h2⟩ := key evs s1 hevs h1 h
    rcases h2 with ⟨a, b⟩ | ⟨a, m, b⟩ | ⟨a, b, c⟩ | ⟨a, b⟩
    · exact Or.inl a
    · exact Or.inl a
    · exact Or.inl a
    · exact Or.inr a

/-- A `save` which is not disturbed stores the new text, and leaves no temporary file, from every state of the two files. -/
theorem save_done (files : Files) (t0 text : List Char) : ∃ s', fsRun ⟨files, .idle, t0⟩ [.begin text, .close, .rename] = some s' ∧
    s'.files.main = some text ∧ s'.files.tmp = none := ⟨_, rfl, rfl, rfl⟩

/-- Over any history of saves and crashes, the file is always the complete text of one of the saves (or the initial one). -/
theorem never_torn {s s' : FsState} {evs : List FsEvent} (hidle : s.phase = .idle) (h : fsRun s evs = some s') :
    s'.files.main = s.files.main ∨ ∃ text, FsEvent.begin text ∈ evs ∧ s'.files.main = some text := by
  have key : ∀ (evs : List FsEvent) (s1 : FsState) (T : List (List Char)),
      (s1.files.main = s.files.main ∨ ∃ t ∈ T, s1.files.main = some t) →
      (s1.phase = .idle ∨ (s1.text ∈ T ∧ ((∃ m, s1.phase = .writing m) ∨ (s1.phase = .closed ∧ s1.files.tmp = some s1.text)))) →
      (∀ t, FsEvent.begin t ∈ evs → True) → fsRun s1 evs = some s' →
      s'.files.main = s.files.main ∨ ∃ t, (t ∈ T ∨ FsEvent.begin t ∈ evs) ∧ s'.files.main = some t := by
    intro evs
    induction evs with
    | nil =>
      intro s1 T h1 _ _ hr
      simp only [fsRun] at hr; injection hr with hr; rw [← hr]
      rcases h1 with h1 | ⟨t, ht, h1⟩
      · exact Or.inl h1
      · exact Or.inr ⟨t, Or.inl ht, h1⟩
    | cons ev l ih =>
      intro s1 T h1 h2 _ hr
      simp only [fsRun] at hr
      cases hs : fsStep s1 ev with
      | none => rw [hs] at hr; cases hr
      | some s2 =>
        rw [hs] at hr
        have step : ∃ T' : List (List Char), (∀ t ∈ T', t ∈ T ∨ ev = .begin t) ∧
            (s2.files.main = s.files.main ∨ ∃ t ∈ T', s2.files.main = some t) ∧
            (s2.phase = .idle ∨ (s2.text ∈ T' ∧ ((∃ m, s2.phase = .writing m) ∨
              (s2.phase = .closed ∧ s2.files.tmp = some s2.text)))) := by
          cases ev with
          | begin text =>
            simp only [fsStep] at hs
            split at hs
            · injection hs with hs; subst hs
              refine ⟨text :: T, ?_, ?_, Or.inr ⟨by simp, Or.inl ⟨0, rfl⟩⟩⟩
              · intro t ht; rcases List.mem_cons.1 ht with rfl | ht
                · exact Or.inr rfl
                · exact Or.inl ht
              · rcases h1 with h1 | ⟨t, ht, h1⟩
                · exact Or.inl h1
                · exact Or.inr ⟨t, by simp [ht], h1⟩
            · cases hs
          | flush n =>
            simp only [fsStep] at hs
            split at hs
            · rename_i m hph
              split at hs
              · injection hs with hs; subst hs
                refine ⟨T, fun t ht => Or.inl ht, h1, Or.inr ⟨?_, Or.inl ⟨n, rfl⟩⟩⟩
                rcases h2 with h2 | ⟨h2, _⟩
                · rw [hph] at h2; cases h2
                · exact h2
              · cases hs
            · cases hs
          | close =>
            simp only [fsStep] at hs
            split at hs
            · rename_i m hph
              injection hs with hs; subst hs
              refine ⟨T, fun t ht => Or.inl ht, h1, Or.inr ⟨?_, Or.inr ⟨rfl, rfl⟩⟩⟩
              rcases h2 with h2 | ⟨h2, _⟩
              · rw [hph] at h2; cases h2
              · exact h2
            · cases hs
          | rename =>
            simp only [fsStep] at hs
            split at hs
            · rename_i hph
              injection hs with hs; subst hs
              refine ⟨T, fun t ht => Or.inl ht, ?_, Or.inl rfl⟩
              rcases h2 with h2 | ⟨h2, ⟨m, h3⟩ | ⟨_, h3⟩⟩
              · rw [hph] at h2; cases h2
              · rw [hph] at h3; cases h3
              · exact Or.inr ⟨s1.text, h2, h3⟩
            · cases hs
          | crash =>
            simp only [fsStep] at hs
            injection hs with hs; subst hs
            exact ⟨T, fun t ht => Or.inl ht, h1, Or.inl rfl⟩
        obtain ⟨T', hT, h3, h4⟩ := step
        rcases ih s2 T' h3 h4 (fun _ _ => trivial) hr with h5 | ⟨t, ht, h5⟩
        · exact Or.inl h5
        · refine Or.inr ⟨t, ?_, h5⟩
          rcases ht with ht | ht
          · rcases hT t ht with ht | rfl
            · exact Or.inl ht
            · exact Or.inr (by simp)
          · exact Or.inr (by simp [ht])
  rcases key evs s [] (Or.inl rfl) (Or.inl hidle) (fun _ _ => trivial) h with h1 | ⟨t, ht, h1⟩
  · exact Or.inl h1
  · rcases ht with ht | ht
    · cases ht
    · exact Or.inr ⟨t, ht, h1⟩

/-! ### Non-vacuity -/

/-- An epoch with scores (one NaN), and nested meta information, is good. -/
example : GoodEpoch ⟨.fin (1/2), [("dev_score", .float (.fin 2)), ("dev_error", .float .nan)],
    [("steps", .int 100), ("x", .dict [("b", .tuple [.int 1]), ("a", .list [.str "s", .none])])]⟩ := by
  refine ⟨by unfold Dict.Wf; decide, by unfold Dict.Wf; decide, by decide, ?_, ?_⟩
  · intro p hp; simp at hp; rcases hp with rfl | rfl <;> rfl
  · intro p hp; simp at hp; rcases hp with rfl | rfl <;> rfl

/-- A crash after a partial flush, and a restart. -/
example : ∃ s', fsRun ⟨⟨some ['o'], none⟩, .idle, []⟩ [.begin ['a', 'b'], .flush 1, .crash, .begin ['c'], .close, .rename] =
    some s' ∧ s'.files.main = some ['c'] := ⟨_, rfl, rfl⟩

end Verif.LearningRate.Save
