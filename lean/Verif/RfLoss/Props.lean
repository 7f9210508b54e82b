import Verif.RfLoss.Lemmas
import Mathlib.Tactic.FieldSimp
/-
C110: sums, counts and means over dims with lengths are over exactly the positions within the lengths.
-/
namespace Verif.RfLoss

open Verif.Py

/-- C110: the sum over dims is the sum over all positions within the lengths; padding does not matter. -/
theorem reduce_sum_valid {R : Type} [AddCommMonoid R] (ctx : Nat → DimInfo) (x : Ten R) (axis : List Nat) (hnd : axis.Nodup) (hg : ∀ d ∈ axis, Good ctx d)
    (hsub : ∀ d ∈ axis, d ∈ x.dims) (hdeps : ∀ d ∈ axis, ∀ e ∈ (ctx d).deps, e ∈ x.dims) :
    ∃ r, reduceSum ctx x axis = .ok r ∧ (∀ d, d ∈ r.dims ↔ d ∈ x.dims ∧ d ∉ axis) ∧ ∀ σ, r.val σ = ((insides ctx axis σ).map x.val).sum := by
  refine ⟨_, reduceSum_ok hsub hdeps, fun d => by simp, fun σ => ?_⟩
  exact torchSum_mask hg hnd x.val σ

/-- C110: tensors which agree within the lengths have the same sums. -/
theorem reduce_sum_padding {R : Type} [AddCommMonoid R] (ctx : Nat → DimInfo) (x y : Ten R) (axis : List Nat) (hnd : axis.Nodup) (hg : ∀ d ∈ axis, Good ctx d)
    (hsub : ∀ d ∈ axis, d ∈ x.dims) (hdeps : ∀ d ∈ axis, ∀ e ∈ (ctx d).deps, e ∈ x.dims) (hxy : x.dims = y.dims) (hv : ∀ σ, Inside ctx axis σ → x.val σ = y.val σ) :
    reduceSum ctx x axis = reduceSum ctx y axis := by
  rw [reduceSum_ok hsub hdeps, reduceSum_ok (hxy ▸ hsub) (hxy ▸ hdeps), hxy]
  congr 2
  funext σ
  rw [torchSum_mask hg hnd, torchSum_mask hg hnd]
  congr 1
  apply List.map_congr_left
  intro τ hτ
  exact hv τ (by simpa using (List.mem_filter.1 hτ).2)

/-- An axis which the tensor does not have raises. -/
theorem reduce_sum_missing {R : Type} [AddCommMonoid R] (ctx : Nat → DimInfo) (x : Ten R) (axis : List Nat) (d : Nat) (hd : d ∈ axis) (hx : d ∉ x.dims) :
    reduceSum ctx x axis = .error .valueError := by
  unfold reduceSum
  rw [if_pos]
  simp only [List.any_eq_true]
  exact ⟨d, hd, by simpa using hx⟩

theorem prod_caps (ctx : Nat → DimInfo) (ds : List Nat) (hnd : ds.Nodup) (hg : ∀ d ∈ ds, Good ctx d) (hs : ∀ d ∈ ds, (ctx d).deps = []) (σ : Pos) :
    (insides ctx ds σ).length = (ds.map (fun d => (ctx d).cap)).prod := by
  have hbox := torchSum_box ctx (fun d => (ctx d).cap) 1 ds hnd (fun d _ => Nat.le_refl _) σ
  rw [length_insides, ← Nat.mul_one (ds.map _).prod, ← hbox]
  refine torchSum_congr ctx ds _ _ σ hnd (fun τ _ hc => ?_)
  rw [if_pos hc, if_pos]
  intro d hd
  rw [(hg d hd).scalar (hs d hd)]
  exact hc d hd

/-- C110 (partial: shapes with `Direct`, see `count_chain` for what else happens): `num_elements_of_shape` is the number of positions within the lengths, in whatever order the dims are given. -/
theorem count_valid_partial (ctx : Nat → DimInfo) (ds : List Nat) (hnd : ds.Nodup) (hg : ∀ d ∈ ds, Good ctx d) (hdir : Direct ctx ds) :
    ∃ n, numElements ctx ds = .ok n ∧ (∀ d ∈ n.dims, d ∉ ds ∧ ∃ e ∈ ds, d ∈ (ctx e).deps) ∧ ∀ σ, n.val σ = (insides ctx ds σ).length := by
  unfold numElements
  by_cases hst : ds.all (fun d => (ctx d).static) = true
  · rw [if_pos hst]
    refine ⟨_, rfl, by simp, fun σ => ?_⟩
    simp only [List.all_eq_true] at hst
    rw [prod_caps ctx ds hnd hg (fun d hd => (hg d hd).static (hst d hd)), foldl_cap, Nat.one_mul]
  · rw [if_neg hst]
    have hmain : ∃ n, (if (ds.filter (related ctx ds)).isEmpty then Except.ok ((ds.filter (fun d => !related ctx ds d)).foldl (mulSize ctx) ⟨[], fun _ => 1⟩)
          else reduceSum ctx ((ds.filter (fun d => !related ctx ds d)).foldl (mulSize ctx) ⟨[], fun _ => 1⟩) (ds.filter (related ctx ds))) = (Except.ok n : Res (Ten Nat)) ∧
        (∀ d ∈ n.dims, d ∉ ds ∧ ∃ e ∈ ds, d ∈ (ctx e).deps) ∧ ∀ σ, n.val σ = (insides ctx ds σ).length := by
      have hcount := count_main ctx ds hnd hg
      rw [foldl_mulSize]
      simp only [List.nil_append, Nat.one_mul]
      by_cases hp : (ds.filter (related ctx ds)).isEmpty = true
      · rw [if_pos hp]
        have hpe : ds.filter (related ctx ds) = [] := by simpa using hp
        refine ⟨_, rfl, ?_, fun σ => ?_⟩
        · intro d hd
          simp only [List.mem_flatMap, List.mem_filter] at hd
          obtain ⟨r, ⟨hr, _⟩, hdr⟩ := hd
          refine ⟨fun hds => ?_, r, hr, hdr⟩
          have : d ∈ ds.filter (related ctx ds) := List.mem_filter.2 ⟨hds, related_iff.2 ⟨r, hr, hdr⟩⟩
          rw [hpe] at this
          simp at this
        · rw [← hcount σ, hpe]
          simp [torchSum, maskAll]
      · rw [if_neg hp, reduceSum_ok]
        · refine ⟨_, rfl, ?_, fun σ => hcount σ⟩
          intro d hd
          simp only [List.mem_filter, List.mem_flatMap, Bool.not_eq_true'] at hd
          obtain ⟨⟨r, ⟨hr, _⟩, hdr⟩, hnot⟩ := hd
          refine ⟨fun hds => ?_, r, hr, hdr⟩
          have : d ∈ ds.filter (related ctx ds) := List.mem_filter.2 ⟨hds, related_iff.2 ⟨r, hr, hdr⟩⟩
          simp [this] at hnot
        · intro d hd
          obtain ⟨hd1, hd2⟩ := List.mem_filter.1 hd
          obtain ⟨r, hr, hdr, hno⟩ := hdir d hd1 (related_iff.1 hd2) d (.inl rfl)
          refine List.mem_flatMap.2 ⟨r, List.mem_filter.2 ⟨hr, ?_⟩, hdr⟩
          simp only [Bool.not_eq_true', ← Bool.not_eq_true, related_iff, not_exists, not_and]
          exact hno
        · intro d hd e he
          obtain ⟨hd1, hd2⟩ := List.mem_filter.1 hd
          obtain ⟨r, hr, hdr, hno⟩ := hdir d hd1 (related_iff.1 hd2) e (.inr he)
          refine List.mem_flatMap.2 ⟨r, List.mem_filter.2 ⟨hr, ?_⟩, hdr⟩
          simp only [Bool.not_eq_true', ← Bool.not_eq_true, related_iff, not_exists, not_and]
          exact hno
    match ds, hmain with
    | [], hm => exact hm
    | [d], _ =>
      refine ⟨_, rfl, ?_, fun σ => ?_⟩
      · intro c hc
        refine ⟨fun hcd => ?_, d, by simp, hc⟩
        have : c = d := by simpa using hcd
        exact (hg d (by simp)).own (this ▸ hc)
      · have := count_main ctx [d] (by simp) hg σ
        rw [← this]
        have hr : related ctx [d] d = false := by
          rw [← Bool.not_eq_true, related_iff]
          rintro ⟨e, he, hde⟩
          have : e = d := by simpa using he
          subst this
          exact (hg e (by simp)).own hde
        simp [hr, torchSum, maskAll]
    | a :: b :: r, hm => exact hm

/-- C110 fails for chains: when the size of `S` depends on `T` alone and the size of `T` on `B` alone, counting the elements of `[B, T, S]` raises, though the sum over these dims is fine. -/
theorem count_chain (ctx : Nat → DimInfo) (b t s : Nat) (hbt : b ≠ t) (hts : t ≠ s) (hbs : b ≠ s) (hb : (ctx b).deps = []) (ht : (ctx t).deps = [b]) (hs : (ctx s).deps = [t])
    (hdyn : (ctx s).static = false) (x : Ten Rat) (hx : x.dims = [b, t, s]) :
    numElements ctx [b, t, s] = .error .valueError ∧ ∃ r, reduceSum ctx x [b, t, s] = .ok r := by
  constructor
  · unfold numElements
    rw [if_neg (by simp [hdyn])]
    have h1 : related ctx [b, t, s] b = true := related_iff.2 ⟨t, by simp, by simp [ht]⟩
    have h2 : related ctx [b, t, s] t = true := related_iff.2 ⟨s, by simp, by simp [hs]⟩
    have h3 : related ctx [b, t, s] s = false := by
      rw [← Bool.not_eq_true, related_iff]
      rintro ⟨e, he, hse⟩
      simp only [List.mem_cons, List.not_mem_nil, or_false] at he
      rcases he with rfl | rfl | rfl
      · simp [hb] at hse
      · rw [ht] at hse; simp at hse; exact hbs hse.symm
      · rw [hs] at hse; simp at hse; exact hts hse.symm
    simp only [List.filter_cons, h1, h2, h3, Bool.not_true, Bool.not_false, if_true, if_false, List.filter_nil, Bool.false_eq_true, ↓reduceIte]
    rw [if_neg (by simp)]
    refine reduce_sum_missing ctx _ _ b (by simp) ?_
    simp [mulSize, hs, hbt]
  · refine ⟨_, reduceSum_ok ?_ ?_⟩
    · rw [hx]; exact fun d hd => hd
    · rw [hx]
      intro d hd e he
      simp only [List.mem_cons, List.not_mem_nil, or_false] at hd
      rcases hd with rfl | rfl | rfl
      · simp [hb] at he
      · rw [ht] at he; simp at he; simp [he]
      · rw [hs] at he; simp at he; simp [he]

theorem map_prod_pos {l : List Nat} (h : ∀ n ∈ l, n ≠ 0) : l.prod ≠ 0 := by
  induction l with
  | nil => simp
  | cons a r ih =>
    simp only [List.prod_cons]
    exact Nat.mul_ne_zero (h a (by simp)) (ih (fun n hn => h n (by simp [hn])))

/-- C110 (partial as the count): the mean over dims is the sum over the positions within the lengths divided by their number, wherever there are any. -/
theorem reduce_mean_valid_partial (ctx : Nat → DimInfo) (x : Ten Rat) (axis : List Nat) (hnd : axis.Nodup) (hg : ∀ d ∈ axis, Good ctx d)
    (hsub : ∀ d ∈ axis, d ∈ x.dims) (hdeps : ∀ d ∈ axis, ∀ e ∈ (ctx d).deps, e ∈ x.dims) (hdir : Direct ctx axis) :
    ∃ r, reduceMean ctx x axis = .ok r ∧ (∀ d, d ∈ r.dims ↔ d ∈ x.dims ∧ d ∉ axis) ∧
      ∀ σ, insides ctx axis σ ≠ [] → r.val σ = ((insides ctx axis σ).map x.val).sum / ((insides ctx axis σ).length : Rat) := by
  obtain ⟨s, hs, hsd, hsv⟩ := reduce_sum_valid ctx x axis hnd hg hsub hdeps
  obtain ⟨n, hn, hnd', hnv⟩ := count_valid_partial ctx axis hnd hg hdir
  have hcap : ∀ σ, insides ctx axis σ ≠ [] → totalSize ctx axis ≠ 0 := by
    intro σ hne
    unfold totalSize
    rw [foldl_cap, Nat.one_mul]
    refine map_prod_pos ?_
    intro c hc hc0
    obtain ⟨d, hd, rfl⟩ := List.mem_map.1 hc
    obtain ⟨τ, hτ⟩ := List.exists_mem_of_ne_nil _ hne
    have hin : Inside ctx axis τ := by simpa using (List.mem_filter.1 hτ).2
    have h1 := hin d hd
    have h2 := (hg d hd).le τ
    omega
  unfold reduceMean invFraction
  rw [hs]
  simp only [hn]
  by_cases hm : axis.any (fun d => (ctx d).masked) = true
  · rw [if_pos hm]
    simp only
    rw [if_neg]
    · refine ⟨_, rfl, hsd, fun σ hne => ?_⟩
      have hlen : (((insides ctx axis σ).length : Nat) : Rat) ≠ 0 := by
        simpa using hne
      have htot : ((totalSize ctx axis : Nat) : Rat) ≠ 0 := by exact_mod_cast hcap σ hne
      simp only [hsv, hnv]
      field_simp
    · simp only [List.any_eq_true, Bool.not_eq_true', not_exists, not_and, Bool.not_eq_false, List.contains_iff_mem]
      intro d hd
      obtain ⟨h1, e, he, hde⟩ := hnd' d hd
      exact (hsd d).2 ⟨hdeps e he d hde, h1⟩
  · rw [if_neg hm]
    simp only [List.any_nil, Bool.false_eq_true, if_false]
    refine ⟨_, rfl, hsd, fun σ _ => ?_⟩
    have hall : ∀ d ∈ axis, (ctx d).deps = [] := by
      intro d hd
      by_contra hne
      exact hm (List.any_eq_true.2 ⟨d, hd, masked_iff.2 hne⟩)
    simp only [hsv, mul_one]
    rw [prod_caps ctx axis hnd hg hall]
    unfold totalSize
    rw [foldl_cap, Nat.one_mul]

/-- A batch of 3 sequences with lengths 2, 0 and 3, and a feature dim of size 2. -/
def exCtx : Nat → DimInfo
  | 0 => ⟨[], fun _ => 3, 3, false⟩
  | 1 => ⟨[0], fun σ => [2, 0, 3].getD (σ 0) 0, 3, false⟩
  | _ => ⟨[], fun _ => 2, 2, true⟩

theorem exGood : ∀ d ∈ [2, 0, 1], Good exCtx d := by
  intro d hd
  simp only [List.mem_cons, List.not_mem_nil, or_false] at hd
  rcases hd with rfl | rfl | rfl
  · exact ⟨by simp [exCtx], fun _ _ _ => rfl, fun _ => by simp [exCtx], fun _ _ => rfl, fun _ => rfl⟩
  · exact ⟨by simp [exCtx], fun _ _ _ => rfl, fun _ => by simp [exCtx], fun _ _ => rfl, fun _ => rfl⟩
  · refine ⟨by simp [exCtx], fun σ τ h => ?_, fun σ => ?_, fun h => by simp [exCtx] at h, fun h => by simp [exCtx] at h⟩
    · have := h 0 (by simp [exCtx])
      simp [exCtx, this]
    · show [2, 0, 3].getD (σ 0) 0 ≤ 3
      rcases σ 0 with _ | _ | _ | n <;> simp

theorem exDirect : Direct exCtx [2, 0, 1] := by
  intro d hd hex c hc
  simp only [List.mem_cons, List.not_mem_nil, or_false] at hd
  rcases hd with rfl | rfl | rfl
  · obtain ⟨e, he, h⟩ := hex
    simp only [List.mem_cons, List.not_mem_nil, or_false] at he
    rcases he with rfl | rfl | rfl <;> simp [exCtx] at h
  · rcases hc with rfl | hc
    · refine ⟨1, by simp, by simp [exCtx], ?_⟩
      intro e he
      simp only [List.mem_cons, List.not_mem_nil, or_false] at he
      rcases he with rfl | rfl | rfl <;> simp [exCtx]
    · simp [exCtx] at hc
  · obtain ⟨e, he, h⟩ := hex
    simp only [List.mem_cons, List.not_mem_nil, or_false] at he
    rcases he with rfl | rfl | rfl <;> simp [exCtx] at h

example : ∃ n, numElements exCtx [2, 0, 1] = .ok n ∧ n.val zero = 10 := by
  obtain ⟨n, h1, _, h2⟩ := count_valid_partial exCtx [2, 0, 1] (by decide) exGood exDirect
  exact ⟨n, h1, by rw [h2]; decide +kernel⟩

example : ∃ r, reduceMean exCtx ⟨[0, 1, 2], fun σ => (σ 0 : Rat) + σ 1⟩ [2, 0, 1] = .ok r ∧ r.val zero = 2 := by
  obtain ⟨r, h1, _, h2⟩ := reduce_mean_valid_partial exCtx ⟨[0, 1, 2], fun σ => (σ 0 : Rat) + σ 1⟩ [2, 0, 1] (by decide) exGood (by decide) (by decide) exDirect
  exact ⟨r, h1, by rw [h2 zero (by decide +kernel)]; decide +kernel⟩

end Verif.RfLoss
