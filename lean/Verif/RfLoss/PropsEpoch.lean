import Verif.RfLoss.Props
/-
C111: total loss, and the score of an epoch.
-/
namespace Verif.RfLoss

open Verif.Py

theorem insides_nil (ctx : Nat → DimInfo) (σ : Pos) : insides ctx [] σ = [σ] := by
  simp [insides, grid, place, Inside]

/-- C111: the sum of a loss, what it is normalized by, and the mean, for every loss. -/
theorem loss_stats (ctx : Nat → DimInfo) (l : Loss) (h : LossOk ctx l) :
    l.summed ctx = .ok (lossSum ctx l) ∧ l.invNorm ctx = .ok (lossNorm ctx l) ∧ (lossNorm ctx l ≠ 0 → l.mean ctx = .ok (lossSum ctx l / lossNorm ctx l)) := by
  have hsum : ∀ c : Ten Rat, Whole ctx c.dims → scalar (reduceSum ctx c c.dims) = .ok ((insides ctx c.dims zero).map c.val).sum := by
    intro c hc
    obtain ⟨r, hr, _, hv⟩ := reduce_sum_valid ctx c c.dims hc.nodup hc.good (fun d hd => hd) hc.closed
    rw [hr]
    simp [scalar, hv]
  have hnil : ∀ c : Ten Rat, c.dims = [] → ((insides ctx c.dims zero).map c.val).sum = c.val zero := by
    intro c hc
    rw [hc, insides_nil]
    simp
  have h1 : l.summed ctx = .ok (lossSum ctx l) := by
    unfold Loss.summed lossSum
    by_cases he : l.loss.dims.isEmpty = true
    · rw [if_pos he, hnil l.loss (by simpa using he)]
    · rw [if_neg he, hsum l.loss h.1]
  refine ⟨h1, ?_, ?_⟩
  · unfold Loss.invNorm lossNorm
    cases hc : l.custom with
    | none =>
      obtain ⟨n, hn, _, hv⟩ := count_valid_partial ctx l.loss.dims h.1.nodup h.1.good h.1.direct
      simp [hn, count, hv]
    | some c =>
      simp only
      by_cases he : c.dims.isEmpty = true
      · rw [if_pos he, hnil c (by simpa using he)]
      · rw [if_neg he, hsum c (h.2 c hc)]
  · intro hne
    unfold Loss.mean
    unfold lossNorm at hne ⊢
    cases hc : l.custom with
    | none =>
      simp only [hc] at hne ⊢
      by_cases he : l.loss.dims.isEmpty = true
      · rw [if_pos he]
        unfold lossSum
        rw [hnil l.loss (by simpa using he)]
        have : l.loss.dims = [] := by simpa using he
        rw [this, insides_nil]
        simp
      · rw [if_neg he]
        obtain ⟨r, hr, _, hv⟩ := reduce_mean_valid_partial ctx l.loss l.loss.dims h.1.nodup h.1.good (fun d hd => hd) h.1.closed h.1.direct
        rw [hr]
        simp only [scalar]
        rw [hv zero (by intro hh; rw [hh] at hne; simp at hne)]
        rfl
    | some c =>
      simp only [hc] at hne ⊢
      rw [h1, hsum c (h.2 c hc)]
      simp only
      rw [if_neg hne, div_eq_mul_inv]

theorem totalFrom_eq (ctx : Nat → DimInfo) (ls : List Loss) (acc : Rat)
    (h : ∀ l ∈ ls, l.asError = false → l.scale ≠ 0 → LossOk ctx l ∧ (l.normalized = true → lossNorm ctx l ≠ 0)) :
    totalFrom ctx acc ls = .ok (acc + ((ls.filter (fun l => !l.asError)).map (lossTerm ctx)).sum) := by
  induction ls generalizing acc with
  | nil => simp [totalFrom]
  | cons l ls ih =>
    have ih' := fun a => ih a (fun k hk => h k (List.mem_cons_of_mem _ hk))
    unfold totalFrom
    by_cases hs : l.scale = 0 ∨ l.asError = true
    · rw [if_pos hs, ih']
      rcases hs with hs | hs
      · cases he : l.asError <;> simp [he, lossTerm, hs]
      · simp [hs]
    · rw [if_neg hs]
      obtain ⟨h0, he⟩ := not_or.1 hs
      have he' : l.asError = false := by simpa using he
      obtain ⟨hok, hn⟩ := h l (by simp) he' h0
      obtain ⟨s1, s2, s3⟩ := loss_stats ctx l hok
      have : l.scaled ctx = .ok (lossTerm ctx l) := by
        unfold Loss.scaled lossTerm
        cases hnorm : l.normalized with
        | true => simp [s3 (hn hnorm), mul_comm]
        | false => simp [s1, mul_comm]
      rw [this]
      simp only
      rw [ih']
      simp [he', add_assoc]

/-- C111: the total loss is the sum over the losses which are not errors only, each with its scale, normalized where wanted; losses with scale 0 need not even be defined. -/
theorem total_loss_right (ctx : Nat → DimInfo) (ls : List Loss) (hne : ls ≠ [])
    (h : ∀ l ∈ ls, l.asError = false → l.scale ≠ 0 → LossOk ctx l ∧ (l.normalized = true → lossNorm ctx l ≠ 0)) :
    totalLoss ctx ls = .ok ((ls.filter (fun l => !l.asError)).map (lossTerm ctx)).sum := by
  unfold totalLoss
  rw [if_neg (by simpa using hne), totalFrom_eq ctx ls 0 h, zero_add]

/-- C111: a step without any loss raises. -/
theorem total_loss_none (ctx : Nat → DimInfo) : totalLoss ctx [] = .error .assertion := rfl

/-- C111: a name is used for one loss only, all others are kept. -/
theorem mark_loss_right (losses : List (String × Loss)) (name : String) (l : Loss) :
    (name ∈ losses.map Prod.fst → markLoss losses name l = .error .assertion) ∧
    (name ∉ losses.map Prod.fst → markLoss losses name l = .ok (losses ++ [(name, l)])) := by
  unfold markLoss
  constructor
  · intro h
    rw [if_pos]
    obtain ⟨p, hp, rfl⟩ := List.mem_map.1 h
    exact List.any_eq_true.2 ⟨p, hp, by simp⟩
  · intro h
    rw [if_neg]
    simp only [List.any_eq_true, not_exists, not_and, beq_iff_eq]
    intro p hp e
    exact h (List.mem_map.2 ⟨p, hp, e⟩)

/-! ### Batches -/

theorem le_foldl_max (l : List Nat) (n a : Nat) : (n ≤ a ∨ n ∈ l) → n ≤ l.foldl max a := by
  induction l generalizing a with
  | nil => intro h; simpa using h
  | cons b l ih =>
    intro h
    apply ih
    rcases h with h | h
    · exact .inl (Nat.le_trans h (Nat.le_max_left _ _))
    · rcases List.mem_cons.1 h with rfl | h
      · exact .inl (Nat.le_max_right _ _)
      · exact .inr h

theorem batch_good {α : Type} (seqs : List (List α)) (d : Nat) : Good (batchCtx seqs) d := by
  match d with
  | 0 => exact ⟨by simp [batchCtx], fun _ _ _ => rfl, fun _ => Nat.le_refl _, fun _ _ => rfl, fun _ => rfl⟩
  | 1 =>
    refine ⟨by simp [batchCtx, B], fun σ τ h => ?_, fun σ => ?_, fun h => by simp [batchCtx] at h, fun h => by simp [batchCtx] at h⟩
    · have := h B (by simp [batchCtx])
      simp [batchCtx, this]
    · show (seqs.getD (σ B) []).length ≤ (seqs.map List.length).foldl max 0
      apply le_foldl_max
      by_cases hb : σ B < seqs.length
      · right
        have : seqs.getD (σ B) [] = seqs[σ B] := by simp [hb]
        rw [this]
        exact List.mem_map.2 ⟨_, List.getElem_mem hb, rfl⟩
      · left
        have : seqs.getD (σ B) [] = [] := by simp [Nat.le_of_not_lt hb]
        rw [this]
        simp
  | n + 2 => exact ⟨by simp [batchCtx], fun _ _ _ => rfl, fun _ => Nat.le_refl _, fun _ _ => rfl, fun _ => rfl⟩

theorem batch_whole {α : Type} (seqs : List (List α)) (tm : Bool) : Whole (batchCtx seqs) (if tm then [T, B] else [B, T]) := by
  have hmem : ∀ d, d ∈ (if tm then [T, B] else [B, T]) ↔ d = 0 ∨ d = 1 := by
    intro d
    cases tm
    · simp [B, T]
    · simp only [B, T, if_true, List.mem_cons, List.not_mem_nil, or_false]; exact or_comm
  refine ⟨by cases tm <;> decide, fun d _ => batch_good seqs d, ?_, ?_⟩
  · intro d hd e he
    rw [hmem] at hd ⊢
    rcases hd with rfl | rfl
    · simp [batchCtx] at he
    · simp only [batchCtx, B, List.mem_singleton] at he
      exact .inl he
  · intro d hd hex c hc
    rw [hmem] at hd
    obtain ⟨e, he, hde⟩ := hex
    rw [hmem] at he
    have hd0 : d = 0 := by
      rcases he with rfl | rfl
      · simp [batchCtx] at hde
      · simpa [batchCtx, B] using hde
    subst hd0
    have hc0 : c = 0 := by
      rcases hc with h | h
      · exact h
      · simp [batchCtx] at h
    subst hc0
    refine ⟨1, (hmem 1).2 (.inr rfl), by simp [batchCtx, B], ?_⟩
    intro e' he'
    rw [hmem] at he'
    rcases he' with rfl | rfl <;> simp [batchCtx, B]

theorem sum_range_if {R : Type} [AddCommMonoid R] (n m : Nat) (h : n ≤ m) (g : Nat → R) : ((List.range m).map (fun i => if i < n then g i else 0)).sum = ((List.range n).map g).sum := by
  obtain ⟨j, rfl⟩ := Nat.exists_eq_add_of_le h
  rw [List.range_add, List.map_append, List.sum_append]
  have h1 : ((List.range n).map (fun i => if i < n then g i else 0)) = (List.range n).map g :=
    List.map_congr_left (fun i hi => if_pos (List.mem_range.1 hi))
  have h2 : (((List.range j).map (fun i => n + i)).map (fun i => if i < n then g i else 0)) = List.replicate j 0 := by
    apply List.ext_getElem
    · simp
    · intro i hi _
      simp
  rw [h1, h2]
  simp

theorem batch_sum {α R : Type} [AddCommMonoid R] (seqs : List (List α)) (tm : Bool) (g : Pos → R) (σ : Pos) :
    ((insides (batchCtx seqs) (if tm then [T, B] else [B, T]) σ).map g).sum =
      ((List.range seqs.length).map (fun b => ((List.range (seqs.getD b []).length).map (fun t => g (upd (upd σ B b) T t))).sum)).sum := by
  have hBT : ((insides (batchCtx seqs) (if tm then [T, B] else [B, T]) σ).map g).sum = torchSum (batchCtx seqs) [B, T] (fun τ => if Inside (batchCtx seqs) [B, T] τ then g τ else 0) σ := by
    cases tm
    · exact (torchSum_insides _ _ _ _).symm
    · rw [if_pos rfl, ← torchSum_insides, torchSum_perm (batchCtx seqs) (List.Perm.swap B T []) (by decide)]
      refine torchSum_congr _ _ _ _ _ (by decide) (fun τ _ _ => ?_)
      have : Inside (batchCtx seqs) [T, B] τ ↔ Inside (batchCtx seqs) [B, T] τ := by
        constructor <;> intro h d hd <;> exact h d (by simp only [List.mem_cons, List.not_mem_nil, or_false] at hd ⊢; exact hd.symm)
      simp only [this]
  rw [hBT]
  simp only [torchSum]
  congr 1
  show (List.range seqs.length).map _ = _
  apply List.map_congr_left
  intro b hb
  have hb' := List.mem_range.1 hb
  have hle : (seqs.getD b []).length ≤ (batchCtx seqs T).cap := (batch_good seqs T).le (upd σ B b)
  rw [← sum_range_if _ _ hle]
  congr 1
  apply List.map_congr_left
  intro t _
  have hiff : Inside (batchCtx seqs) [B, T] (upd (upd σ B b) T t) ↔ t < (seqs.getD b []).length := by
    constructor
    · intro h
      exact h T (by simp)
    · intro h d hd
      simp only [List.mem_cons, List.not_mem_nil, or_false] at hd
      rcases hd with rfl | rfl
      · exact hb'
      · exact h
  simp only [hiff]

theorem range_getD_sum {α R : Type} [AddCommMonoid R] (l : List α) (f : α → R) (d : Nat → α) : ((List.range l.length).map (fun i => f ((l[i]?).getD (d i)))).sum = (l.map f).sum := by
  congr 1
  apply List.ext_getElem
  · simp
  · intro i h1 h2
    simp only [List.length_map, List.length_range] at h1
    simp [h1]

/-- C111: for a frame-wise loss, a step gives the sum over all frames of all its sequences and the number of frames, whatever the padding has and in both orders of dims. -/
theorem step_frames (seqs : List (List Rat)) (pad : Pos → Rat) (tm : Bool) :
    stepStats (batchCtx seqs) (frameLoss seqs pad tm) = .ok ((frames seqs).sum, ((frames seqs).length : Rat)) := by
  have hok : LossOk (batchCtx seqs) (frameLoss seqs pad tm) := ⟨batch_whole seqs tm, by simp [frameLoss]⟩
  obtain ⟨h1, h2, _⟩ := loss_stats _ _ hok
  unfold stepStats
  rw [h1, h2]
  simp only
  have e1 : lossSum (batchCtx seqs) (frameLoss seqs pad tm) = (frames seqs).sum := by
    unfold lossSum frameLoss frames
    rw [batch_sum, List.sum_flatten, ← range_getD_sum seqs List.sum (fun _ => [])]
    congr 1
    apply List.map_congr_left
    intro b _
    have hv : ∀ t, batchVal seqs pad (upd (upd zero B b) T t) = ((seqs.getD b [])[t]?).getD (pad (upd (upd zero B b) T t)) := fun _ => rfl
    simp only [hv]
    have := range_getD_sum (seqs.getD b []) id (fun t => pad (upd (upd zero B b) T t))
    simp only [id, List.map_id_fun', List.map_id'] at this
    rw [this, List.map_id]
    rfl
  have e2 : lossNorm (batchCtx seqs) (frameLoss seqs pad tm) = ((frames seqs).length : Rat) := by
    unfold lossNorm frameLoss frames
    simp only
    congr 1
    have hl : ∀ l : List Pos, l.length = (l.map (fun _ => 1)).sum := by simp
    rw [hl, batch_sum, List.length_flatten, ← range_getD_sum seqs List.length (fun _ => [])]
    congr 1
    apply List.map_congr_left
    intro b _
    simp
  rw [e1, e2]

/-- C111: for a loss with one value per sequence, a step gives the sum over the sequences and their number, also for empty sequences. -/
theorem step_seqs {α : Type} (seqs : List (List α)) (vals : List Rat) (hl : vals.length = seqs.length) :
    stepStats (batchCtx seqs) (seqLoss vals) = .ok (vals.sum, (vals.length : Rat)) := by
  have hw : Whole (batchCtx seqs) [B] := by
    refine ⟨by simp, fun d _ => batch_good seqs d, ?_, ?_⟩
    · intro d hd e he
      have : d = 0 := by simpa [B] using hd
      subst this
      simp [batchCtx] at he
    · rintro d - ⟨e, he, hde⟩
      have : e = 0 := by simpa [B] using he
      subst this
      simp [batchCtx] at hde
  have hok : LossOk (batchCtx seqs) (seqLoss vals) := ⟨hw, by simp [seqLoss]⟩
  obtain ⟨h1, h2, _⟩ := loss_stats _ _ hok
  have hs : ∀ {R : Type} [AddCommMonoid R] (g : Pos → R), ((insides (batchCtx seqs) [B] zero).map g).sum = ((List.range vals.length).map (fun b => g (upd zero B b))).sum := by
    intro R _ g
    rw [← torchSum_insides]
    simp only [torchSum]
    rw [hl]
    congr 1
    show (List.range seqs.length).map _ = _
    apply List.map_congr_left
    intro b hb
    rw [if_pos]
    intro d hd
    have : d = 0 := by simpa [B] using hd
    subst this
    exact List.mem_range.1 hb
  unfold stepStats
  rw [h1, h2]
  simp only
  have e1 : lossSum (batchCtx seqs) (seqLoss vals) = vals.sum := by
    unfold lossSum seqLoss
    rw [hs]
    have := range_getD_sum vals id (fun _ => 0)
    rw [List.map_id] at this
    exact this
  have e2 : lossNorm (batchCtx seqs) (seqLoss vals) = (vals.length : Rat) := by
    unfold lossNorm seqLoss
    simp only
    congr 1
    have hlen : ∀ l : List Pos, l.length = (l.map (fun _ => 1)).sum := by simp
    rw [hlen, hs]
    simp
  rw [e1, e2]

theorem allStats_eq (bs : List Batch) : allStats bs = .ok (bs.map (fun b => ((frames b.seqs).sum, ((frames b.seqs).length : Rat)))) := by
  induction bs with
  | nil => rfl
  | cons b bs ih => simp [allStats, step_frames, ih]

theorem accumulate_ok (steps : List (Rat × Rat)) (acc : Rat × Rat) (h : ∀ p ∈ steps, p.2 ≠ 0) :
    accumulate acc steps = .ok (acc.1 + (steps.map Prod.fst).sum, acc.2 + (steps.map Prod.snd).sum) := by
  induction steps generalizing acc with
  | nil => simp [accumulate]
  | cons p r ih =>
    obtain ⟨s, n⟩ := p
    have hn : n ≠ 0 := h (s, n) (by simp)
    simp only [accumulate, pyDiv, if_neg hn]
    rw [ih _ (fun q hq => h q (List.mem_cons_of_mem _ hq))]
    simp [add_assoc]

/-- C111 (partial: each batch has a frame, see `epoch_empty_batch`): the score of an epoch is the mean over all frames of all sequences. -/
theorem epoch_mean_partial (bs : List Batch) (hne : bs ≠ []) (hfr : ∀ b ∈ bs, frames b.seqs ≠ []) :
    runEpoch bs = .ok (avg (frames (bs.flatMap Batch.seqs))) := by
  unfold runEpoch
  rw [allStats_eq]
  simp only [epochScore]
  rw [accumulate_ok]
  · have h1 : ((bs.map (fun b => ((frames b.seqs).sum, ((frames b.seqs).length : Rat)))).map Prod.fst).sum = (frames (bs.flatMap Batch.seqs)).sum := by
      induction bs with
      | nil => rfl
      | cons b bs ih =>
        by_cases hb : bs = []
        · subst hb; simp [frames]
        · have := ih hb (fun c hc => hfr c (List.mem_cons_of_mem _ hc))
          simp only [List.map_cons, List.sum_cons, List.flatMap_cons] at this ⊢
          rw [this]
          simp [frames]
    have h2 : ((bs.map (fun b => ((frames b.seqs).sum, ((frames b.seqs).length : Rat)))).map Prod.snd).sum = ((frames (bs.flatMap Batch.seqs)).length : Rat) := by
      clear h1
      induction bs with
      | nil => rfl
      | cons b bs ih =>
        by_cases hb : bs = []
        · subst hb; simp [frames]
        · have := ih hb (fun c hc => hfr c (List.mem_cons_of_mem _ hc))
          simp only [List.map_cons, List.sum_cons, List.flatMap_cons] at this ⊢
          rw [this]
          simp [frames]
    simp only [zero_add]
    rw [h1, h2]
    unfold pyDiv
    rw [if_neg]
    · rfl
    · obtain ⟨b, hb⟩ := List.exists_mem_of_ne_nil _ hne
      obtain ⟨x, hx⟩ := List.exists_mem_of_ne_nil _ (hfr b hb)
      have hmem : x ∈ frames (bs.flatMap Batch.seqs) := by
        unfold frames at hx ⊢
        obtain ⟨s, hs, hxs⟩ := List.mem_flatten.1 hx
        exact List.mem_flatten.2 ⟨s, List.mem_flatMap.2 ⟨b, hb, hs⟩, hxs⟩
      have := List.length_pos_of_mem hmem
      exact_mod_cast (by omega : (frames (bs.flatMap Batch.seqs)).length ≠ 0)
  · intro p hp
    obtain ⟨b, hb, rfl⟩ := List.mem_map.1 hp
    simpa using hfr b hb

/-- C111: the score does not depend on how the sequences are put into batches, nor on their order, the padding or the order of dims. -/
theorem epoch_any_batching (bs cs : List Batch) (hb : bs ≠ []) (hc : cs ≠ []) (hbf : ∀ b ∈ bs, frames b.seqs ≠ []) (hcf : ∀ b ∈ cs, frames b.seqs ≠ [])
    (hp : (bs.flatMap Batch.seqs).Perm (cs.flatMap Batch.seqs)) : runEpoch bs = runEpoch cs := by
  rw [epoch_mean_partial bs hb hbf, epoch_mean_partial cs hc hcf]
  have : (frames (bs.flatMap Batch.seqs)).Perm (frames (cs.flatMap Batch.seqs)) := hp.flatten
  unfold avg
  rw [this.sum_eq, this.length_eq]

/-- C111 fails for a batch without any frame: the epoch raises, though the mean over all frames is defined. -/
theorem epoch_empty_batch (as : List Batch) (b : Batch) (cs : List Batch) (ha : ∀ a ∈ as, frames a.seqs ≠ []) (hb : frames b.seqs = []) :
    runEpoch (as ++ b :: cs) = .error .zeroDivision := by
  unfold runEpoch
  rw [allStats_eq]
  have : ∀ (l r : List (Rat × Rat)) (acc : Rat × Rat) (s : Rat), (∀ p ∈ l, p.2 ≠ 0) → accumulate acc (l ++ (s, 0) :: r) = .error .zeroDivision := by
    intro l
    induction l with
    | nil => intro r acc s _; simp [accumulate, pyDiv]
    | cons p l ih =>
      intro r acc s h
      obtain ⟨u, n⟩ := p
      have hn : n ≠ 0 := h (u, n) (by simp)
      simp only [List.cons_append, accumulate, pyDiv, if_neg hn]
      exact ih r _ s (fun q hq => h q (List.mem_cons_of_mem _ hq))
  simp only [epochScore, List.map_append, List.map_cons, hb, List.length_nil, Nat.cast_zero]
  rw [this]
  intro p hp
  obtain ⟨c, hc, rfl⟩ := List.mem_map.1 hp
  simpa using ha c hc

/-- C111: an epoch without steps raises. -/
theorem epoch_no_step : runEpoch [] = .error .zeroDivision := rfl

example : runEpoch [⟨[[1, 2], [3]], fun _ => 100, false⟩, ⟨[[], [4, 5, 9]], fun _ => 7, true⟩] = .ok 4 := by
  rw [epoch_mean_partial _ (by simp) (by decide)]
  decide +kernel

example : runEpoch [⟨[[1, 2], [3]], fun _ => 100, false⟩, ⟨[[]], fun _ => 7, true⟩] = .error .zeroDivision :=
  epoch_empty_batch [⟨[[1, 2], [3]], fun _ => 100, false⟩] ⟨[[]], fun _ => 7, true⟩ [] (by decide) (by decide)

example : stepStats (batchCtx [[(1 : Rat), 2], []]) (seqLoss [5, 6]) = .ok (11, 2) := by
  rw [step_seqs _ _ rfl]
  decide +kernel

example : LossOk (batchCtx [[(1 : Rat), 2], [3]]) { frameLoss [[1, 2], [3]] (fun _ => 5) false with normalized := true, scale := 3 } := ⟨batch_whole _ false, by simp [frameLoss]⟩

end Verif.RfLoss
