import Verif.RfLoss.Spec
import Mathlib.Algebra.BigOperators.Group.Finset.Basic
import Mathlib.Algebra.BigOperators.Ring.List
import Mathlib.Algebra.Order.Ring.Nat
import Mathlib.Tactic.Common
import Mathlib.Tactic.Ring
namespace Verif.RfLoss

open Verif.Py

variable {R : Type} [AddCommMonoid R]

theorem upd_same (σ : Pos) (d i : Nat) : upd σ d i d = i := by simp [upd]

theorem upd_ne (σ : Pos) {c d : Nat} (h : c ≠ d) (i : Nat) : upd σ d i c = σ c := by simp [upd, h]

theorem upd_comm (σ : Pos) {c d : Nat} (h : c ≠ d) (i j : Nat) : upd (upd σ d i) c j = upd (upd σ c j) d i := by
  funext e
  simp only [upd]
  split <;> split <;> simp_all

/-! ### Sums as sums over tuples -/

theorem sum_flatMap' {α : Type} (l : List α) (f : α → List R) : (l.flatMap f).sum = (l.map (fun a => (f a).sum)).sum := by
  induction l with
  | nil => rfl
  | cons a r ih => simp [List.flatMap_cons, ih]

theorem torchSum_grid (ctx : Nat → DimInfo) (ds : List Nat) (f : Pos → R) (σ : Pos) :
    torchSum ctx ds f σ = (((grid (ds.map (fun d => (ctx d).cap))).map (fun is => place ds is σ)).map f).sum := by
  induction ds generalizing σ with
  | nil => simp [torchSum, grid, place]
  | cons d ds ih =>
    simp only [torchSum, List.map_cons, grid, List.map_flatMap, List.map_map]
    rw [sum_flatMap']
    congr 1
    apply List.map_congr_left
    intro i _
    rw [ih]
    simp only [List.map_map]
    rfl

theorem torchSum_congr (ctx : Nat → DimInfo) (ds : List Nat) (f g : Pos → R) (σ : Pos) (hnd : ds.Nodup)
    (h : ∀ τ, (∀ e, e ∉ ds → τ e = σ e) → (∀ d ∈ ds, τ d < (ctx d).cap) → f τ = g τ) : torchSum ctx ds f σ = torchSum ctx ds g σ := by
  induction ds generalizing σ with
  | nil => exact h σ (fun _ _ => rfl) (by simp)
  | cons d ds ih =>
    obtain ⟨hd, hnd'⟩ := List.nodup_cons.1 hnd
    simp only [torchSum]
    congr 1
    apply List.map_congr_left
    intro i hi
    refine ih (upd σ d i) hnd' (fun τ hτ hc => h τ ?_ ?_)
    · intro e he
      obtain ⟨h1, h2⟩ := not_or.1 (fun hh => he (List.mem_cons.2 hh))
      rw [hτ e h2, upd_ne _ h1]
    · intro c hc'
      rcases List.mem_cons.1 hc' with rfl | hc'
      · rw [hτ c hd, upd_same]; exact List.mem_range.1 hi
      · exact hc c hc'

theorem torchSum_append (ctx : Nat → DimInfo) (as bs : List Nat) (f : Pos → R) (σ : Pos) :
    torchSum ctx (as ++ bs) f σ = torchSum ctx as (torchSum ctx bs f) σ := by
  induction as generalizing σ with
  | nil => rfl
  | cons a as ih => simp only [List.cons_append, torchSum, ih]

theorem sum_comm_list (l m : List Nat) (f : Nat → Nat → R) :
    (l.map (fun i => (m.map (fun j => f i j)).sum)).sum = (m.map (fun j => (l.map (fun i => f i j)).sum)).sum := by
  induction l with
  | nil => induction m with
    | nil => rfl
    | cons _ _ ih => simpa using ih
  | cons i l ih => simp only [List.map_cons, List.sum_cons, ih, List.sum_map_add]

theorem torchSum_perm (ctx : Nat → DimInfo) {as bs : List Nat} (h : as.Perm bs) (hnd : as.Nodup) (f : Pos → R) (σ : Pos) :
    torchSum ctx as f σ = torchSum ctx bs f σ := by
  induction h generalizing σ with
  | nil => rfl
  | cons d _ ih =>
    simp only [torchSum]
    congr 1
    apply List.map_congr_left
    intro i _
    exact ih (List.nodup_cons.1 hnd).2 _
  | swap c d l =>
    have hne : c ≠ d := by
      intro e; subst e; simp at hnd
    simp only [torchSum]
    rw [sum_comm_list]
    congr 1
    apply List.map_congr_left
    intro i _
    congr 1
    apply List.map_congr_left
    intro j _
    rw [upd_comm _ hne]
  | trans h1 _ ih1 ih2 => rw [ih1 hnd, ih2 (h1.nodup_iff.1 hnd)]

theorem torchSum_zero (ctx : Nat → DimInfo) (ds : List Nat) (σ : Pos) : torchSum ctx ds (fun _ => (0 : R)) σ = 0 := by
  induction ds generalizing σ with
  | nil => rfl
  | cons d ds ih => simp [torchSum, ih]

/-! ### Sums over the valid positions -/

theorem sum_if_filter {α : Type} (l : List α) (p : α → Prop) [DecidablePred p] (f : α → R) :
    (l.map (fun a => if p a then f a else 0)).sum = ((l.filter (fun a => decide (p a))).map f).sum := by
  induction l with
  | nil => rfl
  | cons a l ih =>
    by_cases hp : p a
    · simp [hp, ih]
    · simp [hp, ih]

/-- The masked sum is the sum over the positions within the lengths. -/
theorem torchSum_insides (ctx : Nat → DimInfo) (ds : List Nat) (f : Pos → R) (σ : Pos) :
    torchSum ctx ds (fun τ => if Inside ctx ds τ then f τ else 0) σ = ((insides ctx ds σ).map f).sum := by
  rw [torchSum_grid, sum_if_filter]
  rfl

theorem masked_iff {ctx : Nat → DimInfo} {d : Nat} : (ctx d).masked = true ↔ (ctx d).deps ≠ [] := by
  simp [DimInfo.masked]

theorem maskAll_inside {ctx : Nat → DimInfo} {axis : List Nat} (hg : ∀ d ∈ axis, Good ctx d) (f : Pos → R) (τ : Pos) (hc : ∀ d ∈ axis, τ d < (ctx d).cap) :
    maskAll ctx axis f τ = if Inside ctx axis τ then f τ else 0 := by
  unfold maskAll
  have : (∀ d ∈ axis, (ctx d).masked = true → τ d < (ctx d).len τ) ↔ Inside ctx axis τ := by
    constructor
    · intro h d hd
      by_cases hm : (ctx d).masked = true
      · exact h d hd hm
      · have hdeps : (ctx d).deps = [] := by
          by_contra hne
          exact hm (masked_iff.2 hne)
        rw [(hg d hd).scalar hdeps]
        exact hc d hd
    · intro h d hd _
      exact h d hd
  simp only [this]

theorem torchSum_mask {ctx : Nat → DimInfo} {axis : List Nat} (hg : ∀ d ∈ axis, Good ctx d) (hnd : axis.Nodup) (f : Pos → R) (σ : Pos) :
    torchSum ctx axis (maskAll ctx axis f) σ = ((insides ctx axis σ).map f).sum := by
  rw [← torchSum_insides]
  exact torchSum_congr ctx axis _ _ σ hnd (fun τ _ hc => maskAll_inside hg f τ hc)

theorem reduceSum_ok {ctx : Nat → DimInfo} {x : Ten R} {axis : List Nat} (hsub : ∀ d ∈ axis, d ∈ x.dims) (hdeps : ∀ d ∈ axis, ∀ e ∈ (ctx d).deps, e ∈ x.dims) :
    reduceSum ctx x axis = .ok ⟨x.dims.filter (fun d => !axis.contains d), torchSum ctx axis (maskAll ctx axis x.val)⟩ := by
  unfold reduceSum
  rw [if_neg, if_neg]
  · simp only [List.any_eq_true, not_exists, not_and, Bool.and_eq_true, Bool.not_eq_true']
    rintro d hd - e he
    simpa using hdeps d hd e he
  · simpa using hsub

/-! ### Counts -/

theorem sum_range_lt (n m : Nat) (h : n ≤ m) (k : Nat) : ((List.range m).map (fun i => if i < n then k else 0)).sum = n * k := by
  obtain ⟨j, rfl⟩ := Nat.exists_eq_add_of_le h
  rw [List.range_add, List.map_append, List.sum_append]
  have h1 : ((List.range n).map (fun i => if i < n then k else 0)) = List.replicate n k := by
    apply List.ext_getElem
    · simp
    · intro i hi _
      simp only [List.length_map, List.length_range] at hi
      simp [hi]
  have h2 : (((List.range j).map (fun i => n + i)).map (fun i => if i < n then k else 0)) = List.replicate j 0 := by
    apply List.ext_getElem
    · simp
    · intro i hi _
      simp
  rw [h1, h2]
  simp

theorem torchSum_box (ctx : Nat → DimInfo) (L : Nat → Nat) (k : Nat) (ds : List Nat) (hnd : ds.Nodup) (hL : ∀ d ∈ ds, L d ≤ (ctx d).cap) (σ : Pos) :
    torchSum ctx ds (fun τ => if ∀ d ∈ ds, τ d < L d then k else 0) σ = (ds.map L).prod * k := by
  induction ds generalizing σ k with
  | nil => simp [torchSum]
  | cons d ds ih =>
    obtain ⟨hd, hnd'⟩ := List.nodup_cons.1 hnd
    have hin : ∀ i, torchSum ctx ds (fun τ => if ∀ c ∈ d :: ds, τ c < L c then k else 0) (upd σ d i) = if i < L d then (ds.map L).prod * k else 0 := by
      intro i
      rw [torchSum_congr ctx ds _ (fun τ => if ∀ c ∈ ds, τ c < L c then (if i < L d then k else 0) else 0) (upd σ d i) hnd' ?_,
        ih (if i < L d then k else 0) hnd' (fun c hc => hL c (List.mem_cons_of_mem _ hc))]
      · split <;> simp
      · intro τ hτ _
        have : τ d = i := by rw [hτ d hd, upd_same]
        by_cases h1 : i < L d
        · simp [this, h1]
        · simp [this, h1]
    simp only [torchSum, hin]
    rw [sum_range_lt _ _ (hL d (by simp))]
    simp only [List.map_cons, List.prod_cons]
    ring

theorem foldl_mulSize (ctx : Nat → DimInfo) (ds : List Nat) (n : Ten Nat) :
    ds.foldl (mulSize ctx) n = ⟨n.dims ++ ds.flatMap (fun d => (ctx d).deps), fun σ => n.val σ * (ds.map (fun d => (ctx d).len σ)).prod⟩ := by
  induction ds generalizing n with
  | nil => simp
  | cons d ds ih =>
    simp only [List.foldl_cons, ih, mulSize, List.flatMap_cons, List.append_assoc, List.map_cons, List.prod_cons, mul_assoc]

theorem foldl_cap (ctx : Nat → DimInfo) (ds : List Nat) (n : Nat) : ds.foldl (fun n d => n * (ctx d).cap) n = n * (ds.map (fun d => (ctx d).cap)).prod := by
  induction ds generalizing n with
  | nil => simp
  | cons d ds ih => simp only [List.foldl_cons, ih, List.map_cons, List.prod_cons, mul_assoc]

theorem length_insides (ctx : Nat → DimInfo) (ds : List Nat) (σ : Pos) :
    (insides ctx ds σ).length = torchSum ctx ds (fun τ => if Inside ctx ds τ then 1 else 0) σ := by
  rw [torchSum_insides ctx ds (fun _ => (1 : Nat)) σ]
  simp

theorem related_iff {ctx : Nat → DimInfo} {ds : List Nat} {d : Nat} : related ctx ds d = true ↔ ∃ e ∈ ds, d ∈ (ctx e).deps := by
  simp [related]

/-- The heart of `num_elements_of_shape`. -/
theorem count_main (ctx : Nat → DimInfo) (ds : List Nat) (hnd : ds.Nodup) (hg : ∀ d ∈ ds, Good ctx d) (σ : Pos) :
    torchSum ctx (ds.filter (related ctx ds)) (maskAll ctx (ds.filter (related ctx ds)) (fun τ => ((ds.filter (fun d => !related ctx ds d)).map (fun d => (ctx d).len τ)).prod)) σ
      = (insides ctx ds σ).length := by
  rw [length_insides]
  have hperm : ds.Perm (ds.filter (related ctx ds) ++ ds.filter (fun d => !related ctx ds d)) := (List.filter_append_perm _ ds).symm
  rw [torchSum_perm ctx hperm hnd, torchSum_append]
  refine torchSum_congr ctx _ _ _ σ (hnd.filter _) (fun τ _ hc => ?_)
  have hgP : ∀ d ∈ ds.filter (related ctx ds), Good ctx d := fun d hd => hg d (List.mem_filter.1 hd).1
  rw [maskAll_inside hgP _ _ hc]
  have hR : ∀ d ∈ ds.filter (fun d => !related ctx ds d), ∀ e ∈ ds, d ∉ (ctx e).deps := by
    intro d hd e he hde
    have := (List.mem_filter.1 hd).2
    rw [related_iff.2 ⟨e, he, hde⟩] at this
    simp at this
  have hlen : ∀ ρ : Pos, (∀ e, e ∉ ds.filter (fun d => !related ctx ds d) → ρ e = τ e) → ∀ d ∈ ds, (ctx d).len ρ = (ctx d).len τ := by
    intro ρ hρ d hd
    refine (hg d hd).dep ρ τ (fun e he => hρ e (fun hmem => hR e hmem d hd he))
  rw [torchSum_congr ctx _ (fun ρ => if Inside ctx ds ρ then 1 else 0)
      (fun ρ => if ∀ d ∈ ds.filter (fun d => !related ctx ds d), ρ d < (ctx d).len τ then (if Inside ctx (ds.filter (related ctx ds)) τ then 1 else 0) else 0) τ (hnd.filter _) ?_,
    torchSum_box ctx (fun d => (ctx d).len τ) _ _ (hnd.filter _) (fun d hd => (hg d (List.mem_filter.1 hd).1).le τ)]
  · split <;> simp
  · intro ρ hρ _
    have hP : ∀ d ∈ ds.filter (related ctx ds), ρ d = τ d := by
      intro d hd
      refine hρ d (fun hmem => ?_)
      have h1 := (List.mem_filter.1 hd).2
      have h2 := (List.mem_filter.1 hmem).2
      rw [h1] at h2
      simp at h2
    have hiff : Inside ctx ds ρ ↔ (∀ d ∈ ds.filter (fun d => !related ctx ds d), ρ d < (ctx d).len τ) ∧ Inside ctx (ds.filter (related ctx ds)) τ := by
      constructor
      · intro h
        refine ⟨fun d hd => ?_, fun d hd => ?_⟩
        · rw [← hlen ρ hρ d (List.mem_filter.1 hd).1]
          exact h d (List.mem_filter.1 hd).1
        · rw [← hlen ρ hρ d (List.mem_filter.1 hd).1, ← hP d hd]
          exact h d (List.mem_filter.1 hd).1
      · rintro ⟨h1, h2⟩ d hd
        rw [hlen ρ hρ d hd]
        by_cases hr : related ctx ds d = true
        · have hm : d ∈ ds.filter (related ctx ds) := List.mem_filter.2 ⟨hd, hr⟩
          rw [hP d hm]
          exact h2 d hm
        · exact h1 d (List.mem_filter.2 ⟨hd, by simpa using hr⟩)
    by_cases h1 : ∀ d ∈ ds.filter (fun d => !related ctx ds d), ρ d < (ctx d).len τ
    · by_cases h2 : Inside ctx (ds.filter (related ctx ds)) τ
      · rw [if_pos (hiff.2 ⟨h1, h2⟩), if_pos h1, if_pos h2]
      · rw [if_neg (fun h => h2 (hiff.1 h).2), if_pos h1, if_neg h2]
    · rw [if_neg (fun h => h1 (hiff.1 h).1), if_neg h1]

end Verif.RfLoss
