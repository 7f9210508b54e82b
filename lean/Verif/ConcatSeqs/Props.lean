import Verif.ConcatSeqs.Spec
import Mathlib.Tactic.Common
import Mathlib.Tactic.Ring
/-
Concatenated sequences (C96).
-/
namespace Verif.ConcatSeqs

open Verif.Py

variable {K α : Type} [DecidableEq K] [DecidableEq α]

/-! ### Tags -/

theorem pySplit_ne_nil (d s : Tag) : pySplit d s ≠ [] := by
  match s with
  | [] => simp [pySplit]
  | c :: s =>
    rw [pySplit]
    split
    · simp
    · cases pySplit d s <;> simp [consHead]

theorem pySplit_cons (d s : Tag) : ∃ p ps, pySplit d s = p :: ps := by
  cases h : pySplit d s with
  | nil => exact absurd h (pySplit_ne_nil d s)
  | cons p ps => exact ⟨p, ps, rfl⟩

theorem joinTags_consHead (d : Tag) (c : Char) (l : List Tag) (h : l ≠ []) : joinTags d (consHead c l) = c :: joinTags d l := by
  match l with
  | [] => exact absurd rfl h
  | [p] => rfl
  | p :: q :: ps => rfl

/-- The pieces of a tag with the delimiter between them are the tag. -/
theorem split_join (d : Tag) (hd : d ≠ []) (s : Tag) : joinTags d (pySplit d s) = s := by
  match s with
  | [] => simp [pySplit, joinTags]
  | c :: s =>
    rw [pySplit]
    split
    · rename_i h
      obtain ⟨t, ht⟩ := List.isPrefixOf_iff_prefix.1 h
      obtain ⟨p, ps, hp⟩ := pySplit_cons d (s.drop (d.length - 1))
      have ih := split_join d hd (s.drop (d.length - 1))
      rw [hp] at ih ⊢
      simp only [joinTags, List.nil_append]
      rw [ih]
      cases d with
      | nil => exact absurd rfl hd
      | cons x d =>
        simp only [List.cons_append, List.cons.injEq] at ht
        obtain ⟨hx, ht⟩ := ht
        rw [← ht, hx]
        simp
    · rw [joinTags_consHead d c _ (pySplit_ne_nil d s), split_join d hd s]
termination_by s.length
decreasing_by all_goals simp; try omega

theorem head_prefix (d s p : Tag) (ps : List Tag) (h : pySplit d s = p :: ps) : p <+: s := by
  induction s generalizing p ps with
  | nil =>
    simp only [pySplit, List.cons.injEq] at h
    rw [← h.1]
    exact List.nil_prefix
  | cons c s ih =>
    rw [pySplit] at h
    split at h
    · simp only [List.cons.injEq] at h
      rw [← h.1]
      exact List.nil_prefix
    · obtain ⟨q, qs, hq⟩ := pySplit_cons d s
      rw [hq] at h
      simp only [consHead, List.cons.injEq] at h
      rw [← h.1]
      exact List.cons_prefix_cons.2 ⟨rfl, ih q qs hq⟩

/-- No piece contains the delimiter. -/
theorem split_free (d : Tag) (hd : d ≠ []) (s : Tag) : ∀ p ∈ pySplit d s, ¬ d <:+: p := by
  match s with
  | [] =>
    intro p hp
    simp only [pySplit, List.mem_singleton] at hp
    rw [hp, List.infix_nil]
    exact hd
  | c :: s =>
    rw [pySplit]
    split
    · intro p hp
      rcases List.mem_cons.1 hp with h | h
      · rw [h, List.infix_nil]; exact hd
      · exact split_free d hd _ p h
    · rename_i hn
      obtain ⟨q, qs, hq⟩ := pySplit_cons d s
      have ih := split_free d hd s
      intro p hp
      rw [hq] at hp ih
      rcases List.mem_cons.1 hp with h | h
      · rw [h, List.infix_cons_iff]
        rintro (h1 | h1)
        · apply hn
          rw [List.isPrefixOf_iff_prefix]
          exact h1.trans (List.cons_prefix_cons.2 ⟨rfl, head_prefix d s q qs hq⟩)
        · exact ih q (by simp) h1
      · exact ih p (by simp [h])
termination_by s.length
decreasing_by all_goals simp; try omega

theorem split_ok (d : Tag) (hd : d ≠ []) (s : Tag) : split d s = .ok (pySplit d s) := by
  unfold split; rw [if_neg hd]

/-! ### Lists of results -/

theorem mapM_map {β γ : Type} {f : β → Res γ} {g : β → γ} : ∀ {l : List β}, (∀ a ∈ l, f a = .ok (g a)) → l.mapM f = .ok (l.map g)
  | [], _ => rfl
  | a :: l, h => by
    rw [List.mapM_cons, h a (by simp), mapM_map (fun b hb => h b (by simp [hb]))]
    rfl

theorem mapM_mem {β γ : Type} {f : β → Res γ} : ∀ {l : List β} {r : List γ}, l.mapM f = .ok r → ∀ a ∈ l, ∃ b, f a = .ok b
  | [], _, _ => by simp
  | a :: l, r, h => by
    rw [List.mapM_cons] at h
    cases ha : f a with
    | error e => rw [ha] at h; cases h
    | ok b =>
      rw [ha] at h
      cases hl : l.mapM f with
      | error e => rw [hl] at h; cases h
      | ok bs =>
        intro x hx
        rcases List.mem_cons.1 hx with h1 | h1
        · rw [h1]; exact ⟨b, ha⟩
        · exact mapM_mem hl x h1

/-! ### The epoch -/

/-- The number of sub sequences of the first `k` sequences. -/
def offset (d : Tag) (ts : List Tag) (k : Nat) : Nat := ((ts.take k).flatMap (pySplit d)).length

theorem subIdxs_ok (d : Tag) (hd : d ≠ []) (ts : List Tag) (i : Nat) :
    ∃ idxs, subIdxs d ts i = .ok (idxs, ts.flatMap (pySplit d), i + (ts.flatMap (pySplit d)).length) ∧ idxs.length = ts.length ∧
      ∀ k t, ts[k]? = some t → idxs[k]? = some (List.range' (i + offset d ts k) (pySplit d t).length) := by
  induction ts generalizing i with
  | nil => exact ⟨[], rfl, rfl, by simp⟩
  | cons t ts ih =>
    have hl : 0 < (pySplit d t).length := List.length_pos_iff.2 (pySplit_ne_nil d t)
    obtain ⟨idxs, h1, h2, h3⟩ := ih (i + (pySplit d t).length)
    refine ⟨List.range' i (pySplit d t).length :: idxs, ?_, by simp [h2], ?_⟩
    · have hlast : (List.range' i (pySplit d t).length).getLast? = some (i + (pySplit d t).length - 1) := by
        rw [List.getLast?_range']
        rw [if_neg (by omega)]
      unfold subIdxs
      simp only [split_ok d hd, hlast, bind, Except.bind]
      rw [show i + (pySplit d t).length - 1 + 1 = i + (pySplit d t).length by omega, h1]
      simp only [List.flatMap_cons, List.length_append]
      rw [Nat.add_assoc]
    · intro k u hk
      cases k with
      | zero =>
        simp only [List.getElem?_cons_zero, Option.some.injEq] at hk ⊢
        subst hk
        simp [offset]
      | succ k =>
        simp only [List.getElem?_cons_succ] at hk ⊢
        rw [h3 k u hk]
        simp only [offset, List.take_succ_cons, List.flatMap_cons, List.length_append]
        rw [Nat.add_assoc]

/-- The epoch can be initialized for every order over the corpus.  The tags are those of the order, and the sub dataset gets their
pieces, in this order. -/
theorem init_ok (D : DS K α) (hd : D.delim ≠ []) (order : List Nat) (ho : ∀ i ∈ order, i < D.full.length) :
    ∃ c, initSeqOrder D order = .ok c ∧ c.order = order ∧ c.seqList.map some = order.map (fun i => D.full[i]?) ∧
      c.subList = c.seqList.flatMap (pySplit D.delim) ∧
      ∀ k t, c.seqList[k]? = some t →
        c.idxs[k]? = some (List.range' (offset D.delim c.seqList k) (pySplit D.delim t).length) := by
  obtain ⟨ts, h1, h2⟩ : ∃ ts : List Tag, order.mapM (fun i => getItem D.full i) = .ok ts ∧
      ts.map some = order.map (fun i => D.full[i]?) := by
    induction order with
    | nil => exact ⟨[], rfl, rfl⟩
    | cons i l ih =>
      obtain ⟨ts, h1, h2⟩ := ih (fun j hj => ho j (by simp [hj]))
      have hi : D.full[i]? = some (D.full[i]'(ho i (by simp))) := List.getElem?_eq_getElem _
      refine ⟨D.full[i]'(ho i (by simp)) :: ts, ?_, ?_⟩
      · rw [List.mapM_cons, h1]
        simp only [getItem, hi]
        rfl
      · simp only [List.map_cons, h2, hi]
  obtain ⟨idxs, h3, h4, h5⟩ := subIdxs_ok D.delim hd ts 0
  refine ⟨⟨order, ts, idxs, ts.flatMap (pySplit D.delim)⟩, ?_, rfl, h2, rfl, fun k t hk => ?_⟩
  · unfold initSeqOrder
    simp only [h1, h3, bind, Except.bind, pyAssert, Nat.zero_add, beq_self_eq_true, h4, Bool.and_self, if_true]
  · rw [h5 k t hk, Nat.zero_add]

/-! ### One sub sequence -/

theorem lastFrame_cons (l : List α) (x : α) (h : l.getLast? = some x) : lastFrame l = [x] := by
  obtain ⟨t, rfl⟩ := List.getLast?_eq_some_iff.1 h
  simp [lastFrame]

theorem flatten_replicate_single (n : Nat) (x : α) : (List.replicate n [x]).flatten = List.replicate n x := by
  induction n with
  | zero => rfl
  | succ n ih => simp [List.replicate_succ, ih]

theorem toLength_le (l : List α) (n : Nat) (h : n ≤ l.length) : toLength n l = l.take n := by
  unfold toLength
  cases hl : l.getLast? with
  | none =>
    rw [List.getLast?_eq_none_iff] at hl
    simp [hl]
  | some x =>
    simp only
    rw [List.take_append, show n - l.length = 0 by omega]
    simp

theorem toLength_length (l : List α) (n : Nat) (h : l ≠ [] ∨ n = 0) : (toLength n l).length = n := by
  unfold toLength
  cases hl : l.getLast? with
  | none =>
    rw [List.getLast?_eq_none_iff] at hl
    rcases h with h | h
    · exact absurd hl h
    · simp [h]
  | some x => simp

theorem repeatLast_eq (l : List α) (n : Nat) (h : l ≠ []) : repeatLast l n = toLength (l.length + n) l := by
  obtain ⟨x, hx⟩ : ∃ x, l.getLast? = some x := by
    cases hl : l.getLast? with
    | none => rw [List.getLast?_eq_none_iff] at hl; exact absurd hl h
    | some x => exact ⟨x, rfl⟩
  unfold repeatLast toLength
  rw [hx, lastFrame_cons l x hx, flatten_replicate_single]
  simp only
  rw [List.take_append, List.take_of_length_le (by omega), Nat.add_sub_cancel_left, List.take_replicate]
  congr 2
  omega

theorem padNarrow_eq (l : List α) (n : Nat) (h : l ≠ [] ∨ n = 0) : padNarrow l n = toLength n l := by
  unfold padNarrow
  split
  · rw [toLength_le l n (by omega)]
    congr 1
    omega
  · split
    · rw [repeatLast_eq l _ (by rcases h with h | h; exact h; omega)]
      congr 1
      omega
    · rw [toLength_le l n (by omega), List.take_of_length_le (by omega)]

theorem roundUp_of (m n : Nat) (hm : 0 < m) : roundUp m n = if n % m = 0 then n else n + (m - n % m) := by
  unfold roundUp
  have hdm := Nat.div_add_mod n m
  have hlt := Nat.mod_lt n hm
  generalize hq : n / m = q at hdm
  generalize hr : n % m = r at *
  split
  · rename_i h0
    subst h0
    have : (n + m - 1) / m = q := by
      rw [← hdm, show m * q + 0 + m - 1 = m - 1 + m * q by omega, Nat.add_mul_div_left _ _ hm, Nat.div_eq_of_lt (by omega)]
      omega
    rw [this, ← hdm, Nat.mul_comm]
    rfl
  · rename_i h0
    have : (n + m - 1) / m = q + 1 := by
      rw [← hdm, show m * q + r + m - 1 = (r - 1) + m * (q + 1) by rw [Nat.mul_add]; omega, Nat.add_mul_div_left _ _ hm,
        Nat.div_eq_of_lt (by omega)]
      omega
    rw [this, Nat.add_mul, Nat.mul_comm]
    omega

/-- The data of a sub sequence which is not the last one: there is one exactly if it is usable, and it is the specified one. -/
theorem part_between (D : DS K α) (corpus : Tag → K → Arr α) (sub : Sub K α) (i : Nat) (t : Tag) (key : K)
    (hs : ∀ key, sub.data i key = .ok (corpus t key)) :
    (Usable D corpus key t → part D sub i true key = .ok (middle D corpus key t)) ∧
    (∀ r, part D sub i true key = .ok r → Usable D corpus key t) := by
  have hl2 : ∀ l1 : List α, (∀ m, D.rep.get? key = some m → 0 < m) →
      repeatBetween D key true l1 = .ok (match D.rep.get? key with | none => l1 | some m => toLength (roundUp m l1.length) l1) := by
    intro l1 hm
    unfold repeatBetween
    cases hr : D.rep.get? key with
    | none => rfl
    | some m =>
      have hm' := hm m hr
      simp only [if_true, if_neg (show ¬ m = 0 by omega)]
      rw [roundUp_of m l1.length hm']
      by_cases h0 : l1.length % m = 0
      · simp only [h0, ne_eq, not_true_eq_false, if_false, if_true]
        rw [toLength_le l1 _ (Nat.le_refl _), List.take_length]
      · have hne : l1 ≠ [] := by
          intro hc
          rw [hc] at h0
          simp at h0
        simp only [h0, ne_eq, not_false_eq_true, if_true, if_false]
        rw [repeatLast_eq l1 _ hne]
        have hlen := toLength_length l1 (l1.length + (m - l1.length % m)) (.inl hne)
        have hmod : (l1.length + (m - l1.length % m)) % m = 0 := by
          have h1 := Nat.div_add_mod l1.length m
          have h2 := Nat.mod_lt l1.length hm'
          have : l1.length + (m - l1.length % m) = m * (l1.length / m + 1) := by rw [Nat.mul_add]; omega
          rw [this]
          exact Nat.mul_mod_right _ _
        simp only [hlen, hmod, beq_self_eq_true, pyAssert, if_true, bind, Except.bind]
  have hne2 : ∀ l1 : List α, (∀ m, D.rep.get? key = some m → 0 < m) → l1 ≠ [] →
      (match D.rep.get? key with | none => l1 | some m => toLength (roundUp m l1.length) l1) ≠ [] := by
    intro l1 hm hne
    cases hr : D.rep.get? key with
    | none => exact hne
    | some m =>
      simp only
      intro hc
      have := toLength_length l1 (roundUp m l1.length) (.inl hne)
      rw [hc, roundUp_of m _ (hm m hr)] at this
      have hp := List.length_pos_iff.2 hne
      split at this
      · simp at this; omega
      · simp at this; omega
  have hnil2 : (match D.rep.get? key with | none => ([] : List α) | some m => toLength (roundUp m ([] : List α).length) []) = [] := by
    cases D.rep.get? key <;> rfl
  have hpn : ∀ n, (padNarrow ([] : List α) n).length = 0 := by
    intro n
    unfold padNarrow repeatLast lastFrame
    simp only [List.length_nil, Nat.not_lt_zero, if_false]
    split <;> simp
  constructor
  · rintro ⟨h1, h2, h3⟩
    unfold part
    rw [hs key]
    have hp : dropPost D key true (corpus t key) =
        .ok (if D.post.contains key then (corpus t key).frames.dropLast else (corpus t key).frames) := by
      unfold dropPost
      cases hpo : D.post.get? key with
      | none => simp [Dict.contains, hpo]
      | some label =>
        obtain ⟨h4, h5⟩ := h1 label hpo
        simp [Dict.contains, hpo, h4, h5]
    simp only [bind, Except.bind, hp]
    rw [hl2 _ h2]
    simp only [padBetween, middle]
    cases hpa : D.pad.get? key with
    | none => rfl
    | some e =>
      obtain ⟨target, m⟩ := e
      simp only [if_true, hs target, bind, Except.bind]
      have hcond : (match D.rep.get? key with
          | none => (if D.post.contains key then (corpus t key).frames.dropLast else (corpus t key).frames)
          | some m => toLength (roundUp m (if D.post.contains key then (corpus t key).frames.dropLast else (corpus t key).frames).length)
              (if D.post.contains key then (corpus t key).frames.dropLast else (corpus t key).frames)) ≠ [] ∨
          (corpus t target).frames.length * m = 0 := by
        by_cases h0 : (corpus t target).frames.length * m = 0
        · exact .inr h0
        · left
          apply hne2 _ h2
          have h4 := h3 target m hpa (by omega)
          split at h4
          · rename_i hc
            simp only [hc, if_true]
            intro hcn
            have := congrArg List.length hcn
            simp at this
            omega
          · rename_i hc
            simp only [hc]
            exact List.length_pos_iff.1 h4
      rw [padNarrow_eq _ _ hcond, toLength_length _ _ hcond]
      simp only [pyAssert, beq_self_eq_true, if_true]
      all_goals cases D.rep.get? key <;> rfl
  · intro r hr
    unfold part at hr
    rw [hs key] at hr
    simp only [bind, Except.bind] at hr
    cases hdp : dropPost D key true (corpus t key) with
    | error e => rw [hdp] at hr; cases hr
    | ok l1 =>
      rw [hdp] at hr
      simp only at hr
      have h1 : ∀ label, D.post.get? key = some label →
          (corpus t key).ndim = 1 ∧ (corpus t key).frames.getLast? = some label := by
        intro label hpo
        unfold dropPost at hdp
        simp only [hpo, if_true] at hdp
        split at hdp
        · cases hdp
        · rename_i hnd
          cases hg : (corpus t key).frames.getLast? with
          | none => rw [hg] at hdp; cases hdp
          | some x =>
            rw [hg] at hdp
            simp only at hdp
            split at hdp
            · rename_i hx
              exact ⟨by omega, by rw [hx]⟩
            · cases hdp
      have hl1 : l1 = (if D.post.contains key then (corpus t key).frames.dropLast else (corpus t key).frames) := by
        unfold dropPost at hdp
        cases hpo : D.post.get? key with
        | none => rw [hpo] at hdp; simp only [Except.ok.injEq] at hdp; simp [Dict.contains, hpo, hdp]
        | some label =>
          obtain ⟨h4, h5⟩ := h1 label hpo
          simp only [hpo, if_true, h4, h5, ne_eq, not_true_eq_false, if_false, Except.ok.injEq] at hdp
          simp [Dict.contains, hpo, hdp]
      cases hrb : repeatBetween D key true l1 with
      | error e => rw [hrb] at hr; cases hr
      | ok l2 =>
        rw [hrb] at hr
        simp only at hr
        have h2 : ∀ m, D.rep.get? key = some m → 0 < m := by
          intro m hm
          by_contra hc
          have : m = 0 := by omega
          unfold repeatBetween at hrb
          simp [hm, this] at hrb
        refine ⟨h1, h2, fun target m hpa hpos => ?_⟩
        rw [hl2 l1 h2] at hrb
        by_contra hc
        have hnil : l1 = [] := by
          rw [hl1]
          split
          · rename_i hco
            rw [if_pos hco] at hc
            apply List.length_eq_zero_iff.1
            rw [List.length_dropLast]
            omega
          · rename_i hco
            rw [if_neg hco] at hc
            exact List.length_eq_zero_iff.1 (by omega)
        subst hnil
        rw [hnil2] at hrb
        simp only [Except.ok.injEq] at hrb
        subst hrb
        unfold padBetween at hr
        simp only [hpa, if_true, hs target, bind, Except.bind, pyAssert, hpn] at hr
        rw [show ((0 : Nat) == (corpus t target).frames.length * m) = false from beq_eq_false_iff_ne.2 (by omega)] at hr
        cases hr

theorem part_last (D : DS K α) (corpus : Tag → K → Arr α) (sub : Sub K α) (i : Nat) (t : Tag) (key : K)
    (hs : ∀ key, sub.data i key = .ok (corpus t key)) : part D sub i false key = .ok (corpus t key).frames := by
  unfold part
  rw [hs key]
  simp only [bind, Except.bind]
  have h1 : dropPost D key false (corpus t key) = .ok (corpus t key).frames := by
    unfold dropPost; cases D.post.get? key <;> rfl
  have h2 : repeatBetween D key false (corpus t key).frames = .ok (corpus t key).frames := by
    unfold repeatBetween; cases D.rep.get? key <;> rfl
  have h3 : padBetween D sub i key false (corpus t key).frames = .ok (corpus t key).frames := by
    unfold padBetween; cases D.pad.get? key <;> rfl
  simp only [h1, h2, h3]

/-! ### A sequence -/

/-- What is taken from a sub sequence. -/
def piece (D : DS K α) (corpus : Tag → K → Arr α) (between : Bool) (key : K) (t : Tag) : List α :=
  if between then middle D corpus key t else (corpus t key).frames

theorem joined_eq (D : DS K α) (corpus : Tag → K → Arr α) (key : K) (subs : List Tag) (s last : Nat)
    (h : subs ≠ [] → last = s + subs.length - 1) :
    ((List.range' s subs.length).zip subs).flatMap (fun e => piece D corpus (decide (some last ≠ some e.1)) key e.2) =
      joined D corpus key subs := by
  induction subs generalizing s with
  | nil => rfl
  | cons t ts ih =>
    have hl := h (by simp)
    rw [List.length_cons, List.range'_succ, List.zip_cons_cons, List.flatMap_cons]
    cases ts with
    | nil =>
      simp only [List.length_nil, List.length_cons] at hl
      have : last = s := by omega
      simp [joined, piece, this]
    | cons u us =>
      rw [ih (s + 1) (fun _ => by simp only [List.length_cons] at hl ⊢; omega)]
      have : ¬ last = s := by simp only [List.length_cons] at hl; omega
      simp [joined, piece, this]

theorem filter_key (keys : List K) (hk : keys.Nodup) (f : K → List α) (key : K) (hm : key ∈ keys) :
    (((keys.map (fun k => (k, f k))).filter (fun e => e.1 == key)).map Prod.snd).flatten = f key := by
  induction keys with
  | nil => simp at hm
  | cons k ks ih =>
    obtain ⟨h1, h2⟩ := List.nodup_cons.1 hk
    rw [List.map_cons, List.filter_cons]
    by_cases hkk : k = key
    · subst hkk
      have hnone : (ks.map (fun k => (k, f k))).filter (fun e => e.1 == k) = [] := by
        rw [List.filter_eq_nil_iff]
        intro e he
        obtain ⟨k', hk', rfl⟩ := List.mem_map.1 he
        simp only [beq_iff_eq]
        intro hc
        exact h1 (hc ▸ hk')
      simp [hnone]
    · simp only [beq_iff_eq, hkk, if_false]
      exact ih h2 (by rcases List.mem_cons.1 hm with h | h; exact absurd h.symm hkk; exact h)

theorem flatMap_congr_mem {β γ : Type} {f g : β → List γ} : ∀ {l : List β}, (∀ a ∈ l, f a = g a) → l.flatMap f = l.flatMap g
  | [], _ => rfl
  | a :: l, h => by
    rw [List.flatMap_cons, List.flatMap_cons, h a (by simp), flatMap_congr_mem (fun b hb => h b (by simp [hb]))]

theorem mem_zip_range' {s n : Nat} {subs : List Tag} {e : Nat × Tag} (h : e ∈ (List.range' s n).zip subs) :
    ∃ j, e.1 = s + j ∧ subs[j]? = some e.2 ∧ j < n := by
  obtain ⟨j, hj⟩ := List.mem_iff_getElem?.1 h
  rw [List.getElem?_zip_eq_some] at hj
  obtain ⟨h1, h2⟩ := hj
  have hlt : j < n := by
    by_contra hc
    rw [List.getElem?_eq_none (by simp; omega)] at h1
    cases h1
  rw [List.getElem?_range' hlt] at h1
  simp only [Nat.one_mul, Option.some.injEq] at h1
  exact ⟨j, h1.symm, h2, hlt⟩

theorem offset_sub (d : Tag) (ts : List Tag) (k : Nat) (t : Tag) (hk : ts[k]? = some t) (j : Nat) (s : Tag)
    (hj : (pySplit d t)[j]? = some s) : (ts.flatMap (pySplit d))[offset d ts k + j]? = some s := by
  induction ts generalizing k with
  | nil => simp at hk
  | cons u us ih =>
    cases k with
    | zero =>
      simp only [List.getElem?_cons_zero, Option.some.injEq] at hk
      subst hk
      have hlt : j < (pySplit d u).length := by
        by_contra hc
        rw [List.getElem?_eq_none (by omega)] at hj
        cases hj
      rw [List.flatMap_cons, List.getElem?_append_left (by simpa [offset] using hlt)]
      simpa [offset] using hj
    | succ k =>
      simp only [List.getElem?_cons_succ] at hk
      have := ih k hk
      simp only [offset, List.take_succ_cons, List.flatMap_cons, List.length_append] at this ⊢
      rw [List.getElem?_append_right (by omega)]
      rw [← this]
      congr 1
      omega

/-- **C96.** For every corpus, order and options: a sequence has, for each key, the data of its sub sequences one after the other,
in the order of its tag, with the in-between changes of the options; it is returned exactly if the options can be applied to all
sub sequences but the last. -/
theorem collect_right (D : DS K α) (corpus : Tag → K → Arr α) (hd : D.delim ≠ []) (hk : D.keys.Nodup) (hck : checkKeys D = true)
    (order : List Nat) (ho : ∀ i ∈ order, i < D.full.length) (c : Cur) (hc : initSeqOrder D order = .ok c)
    (hsub : Delivers D.sub corpus c.subList) (i : Nat) (tag : Tag) (hi : (order[i]?).bind (fun n => D.full[n]?) = some tag) :
    ((∃ r, collect D c i = .ok r) ↔ ∀ t ∈ (pySplit D.delim tag).dropLast, ∀ key ∈ D.keys, Usable D corpus key t) ∧
    ∀ r, collect D c i = .ok r →
      r = some ⟨i, tag, D.keys.map (fun key => (key, joined D corpus key (pySplit D.delim tag)))⟩ := by
  obtain ⟨c', h1, h2, h3, h4, h5⟩ := init_ok D hd order ho
  rw [hc] at h1
  obtain rfl : c = c' := by simpa using h1
  have htag : c.seqList[i]? = some tag := by
    have := congrArg (fun l => l[i]?) h3
    simp only [List.getElem?_map] at this
    cases hoi : order[i]? with
    | none => rw [hoi] at hi; simp at hi
    | some n =>
      rw [hoi] at hi this
      simp only [Option.bind_some] at hi
      simp only [Option.map_some, hi] at this
      cases hs : c.seqList[i]? with
      | none => rw [hs] at this; simp at this
      | some x => rw [hs] at this; simpa using this
  have hidx := h5 i tag htag
  generalize hsubs : pySplit D.delim tag = subs at *
  have hsne : subs ≠ [] := by rw [← hsubs]; exact pySplit_ne_nil _ _
  have hspos : 0 < subs.length := List.length_pos_iff.2 hsne
  generalize hoff : offset D.delim c.seqList i = s at *
  have hlen : ¬ c.seqList.length ≤ i := by
    intro hcn
    rw [List.getElem?_eq_none hcn] at htag
    cases htag
  have hat : ∀ j u, subs[j]? = some u → (D.sub c.subList).tag (s + j) = .ok u ∧
      ∀ key, (D.sub c.subList).data (s + j) key = .ok (corpus u key) := by
    intro j u hj
    apply hsub
    rw [h4, ← hoff]
    exact offset_sub D.delim c.seqList i tag htag j u (by rw [hsubs]; exact hj)
  have hlast : (List.range' s subs.length).getLast? = some (s + subs.length - 1) := by
    rw [List.getLast?_range', if_neg (by omega)]
  have hbet : ∀ x, isBetween (List.range' s subs.length) x = decide (some (s + subs.length - 1) ≠ some x) := by
    intro x; unfold isBetween; rw [hlast]
  have hcol : collect D c i = (do
      let rows ← ((List.range' s subs.length).zip subs).mapM (round D (D.sub c.subList) (List.range' s subs.length))
      .ok (some ⟨i, tag, D.keys.map (fun key => (key, joinKey rows key))⟩)) := by
    unfold collect
    rw [if_neg hlen]
    simp [getItem, htag, hidx, split_ok D.delim hd, hsubs, bind, Except.bind, pyAssert, hck]
  have hround : ∀ e ∈ (List.range' s subs.length).zip subs,
      (∀ key ∈ D.keys, isBetween (List.range' s subs.length) e.1 = true → Usable D corpus key e.2) →
      round D (D.sub c.subList) (List.range' s subs.length) e =
        .ok (D.keys.map (fun key => (key, piece D corpus (isBetween (List.range' s subs.length) e.1) key e.2))) := by
    intro e he hu
    obtain ⟨j, hj1, hj2, -⟩ := mem_zip_range' he
    obtain ⟨ht, hdat⟩ := hat j e.2 hj2
    rw [← hj1] at ht hdat
    unfold round
    simp only [ht, bind, Except.bind, pyAssert, beq_self_eq_true, if_true]
    apply mapM_map
    intro key hkey
    cases hb : isBetween (List.range' s subs.length) e.1 with
    | true => rw [(part_between D corpus _ e.1 e.2 key hdat).1 (hu key hkey hb)]; rfl
    | false => rw [part_last D corpus _ e.1 e.2 key hdat]; rfl
  have hmem : ∀ t, t ∈ subs.dropLast ↔
      ∃ e ∈ (List.range' s subs.length).zip subs, e.2 = t ∧ isBetween (List.range' s subs.length) e.1 = true := by
    intro t
    constructor
    · intro ht
      obtain ⟨j, hj⟩ := List.mem_iff_getElem?.1 ht
      have hjl : j < subs.length - 1 := by
        by_contra hcn
        rw [List.getElem?_eq_none (by simp; omega)] at hj
        cases hj
      rw [List.getElem?_dropLast, if_pos hjl] at hj
      refine ⟨(s + j, t), ?_, rfl, ?_⟩
      · apply List.mem_iff_getElem?.2
        refine ⟨j, ?_⟩
        rw [List.getElem?_zip_eq_some]
        refine ⟨?_, hj⟩
        rw [List.getElem?_range' (by omega)]
        simp
      · rw [hbet]
        simp
        omega
    · rintro ⟨e, he, rfl, hb⟩
      obtain ⟨j, hj1, hj2, hj3⟩ := mem_zip_range' he
      rw [hbet, hj1] at hb
      simp only [ne_eq, Option.some.injEq, decide_eq_true_eq] at hb
      apply List.mem_iff_getElem?.2
      refine ⟨j, ?_⟩
      rw [List.getElem?_dropLast, if_pos (by omega)]
      exact hj2
  have hfwd : (∀ t ∈ subs.dropLast, ∀ key ∈ D.keys, Usable D corpus key t) →
      collect D c i = .ok (some ⟨i, tag, D.keys.map (fun key => (key, joined D corpus key subs))⟩) := by
    intro hu
    rw [hcol, mapM_map (g := fun e => D.keys.map (fun key => (key, piece D corpus (isBetween (List.range' s subs.length) e.1) key e.2)))
      (fun e he => hround e he (fun key hkey hb => hu e.2 ((hmem e.2).2 ⟨e, he, rfl, hb⟩) key hkey))]
    simp only [bind, Except.bind, Except.ok.injEq, Option.some.injEq, Seq.mk.injEq, true_and]
    apply List.map_congr_left
    intro key hkey
    congr 1
    unfold joinKey
    rw [List.flatMap_map]
    rw [← joined_eq D corpus key subs s (s + subs.length - 1) (fun _ => rfl)]
    apply flatMap_congr_mem
    intro e he
    rw [filter_key D.keys hk _ key hkey, hbet]
  have hbwd : ∀ r, collect D c i = .ok r → ∀ t ∈ subs.dropLast, ∀ key ∈ D.keys, Usable D corpus key t := by
    intro r hr t ht key hkey
    obtain ⟨e, he, rfl, hb⟩ := (hmem t).1 ht
    rw [hcol] at hr
    cases hm : ((List.range' s subs.length).zip subs).mapM (round D (D.sub c.subList) (List.range' s subs.length)) with
    | error x => rw [hm] at hr; cases hr
    | ok rows =>
      obtain ⟨row, hrow⟩ := mapM_mem hm e he
      obtain ⟨j, hj1, hj2, -⟩ := mem_zip_range' he
      obtain ⟨ht, hdat⟩ := hat j e.2 hj2
      rw [← hj1] at ht hdat
      unfold round at hrow
      simp only [ht, bind, Except.bind, pyAssert, beq_self_eq_true, if_true] at hrow
      obtain ⟨b, hb'⟩ := mapM_mem hrow key hkey
      rw [hb] at hb'
      cases hp : part D (D.sub c.subList) e.1 true key with
      | error x => rw [hp] at hb'; cases hb'
      | ok l => exact (part_between D corpus _ e.1 e.2 key hdat).2 l hp
  refine ⟨⟨fun ⟨r, hr⟩ => hbwd r hr, fun h => ⟨_, hfwd h⟩⟩, fun r hr => ?_⟩
  rw [hfwd (hbwd r hr)] at hr
  exact (Except.ok.inj hr).symm

/-- Whatever the sub dataset does: if a sequence is returned then the sub dataset reported the right tag for each of its sub
sequences (other data than that of the tag is not used silently). -/
theorem collect_tags (D : DS K α) (hd : D.delim ≠ []) (order : List Nat) (ho : ∀ i ∈ order, i < D.full.length) (c : Cur)
    (hc : initSeqOrder D order = .ok c) (i : Nat) (seq : Seq K α) (h : collect D c i = .ok (some seq)) (j : Nat) (t : Tag)
    (hj : (pySplit D.delim seq.tag)[j]? = some t) :
    (D.sub c.subList).tag (offset D.delim c.seqList i + j) = .ok t := by
  obtain ⟨c', h1, h2, h3, h4, h5⟩ := init_ok D hd order ho
  rw [hc] at h1
  obtain rfl : c = c' := by simpa using h1
  unfold collect at h
  split at h
  · cases h
  · rename_i hlt
    cases hg : c.seqList[i]? with
    | none =>
      rw [List.getElem?_eq_none_iff] at hg
      omega
    | some tag =>
      have hidx := h5 i tag hg
      simp only [getItem, hg, hidx, split_ok D.delim hd, bind, Except.bind, pyAssert, List.length_range', beq_self_eq_true,
        if_true] at h
      split at h
      · cases h
      · split at h
        · cases h
        · rename_i rows hm
          simp only [Except.ok.injEq, Option.some.injEq] at h
          subst h
          simp only at hj
          have hlt2 : j < (pySplit D.delim tag).length := by
            by_contra hcn
            rw [List.getElem?_eq_none (by omega)] at hj
            cases hj
          have he : (offset D.delim c.seqList i + j, t) ∈
              (List.range' (offset D.delim c.seqList i) (pySplit D.delim tag).length).zip (pySplit D.delim tag) := by
            apply List.mem_iff_getElem?.2
            refine ⟨j, ?_⟩
            rw [List.getElem?_zip_eq_some]
            exact ⟨by rw [List.getElem?_range' hlt2]; simp, hj⟩
          obtain ⟨row, hrow⟩ := mapM_mem hm _ he
          unfold round at hrow
          cases ht : (D.sub c.subList).tag (offset D.delim c.seqList i + j) with
          | error e => simp only [ht, bind, Except.bind] at hrow; cases hrow
          | ok u =>
            simp only [ht, bind, Except.bind, pyAssert] at hrow
            by_cases hu : u = t
            · rw [hu]
            · rw [show (u == t) = false from by simpa using hu] at hrow
              cases hrow

/-- After the last sequence there is none. -/
theorem collect_end (D : DS K α) (order : List Nat) (c : Cur) (hc : initSeqOrder D order = .ok c) (i : Nat) (hi : order.length ≤ i) :
    collect D c i = .ok none := by
  unfold initSeqOrder at hc
  cases hm : order.mapM (fun i => getItem D.full i) with
  | error e => rw [hm] at hc; cases hc
  | ok ts =>
    have hlen : ts.length = order.length := by
      clear hc
      induction order generalizing ts with
      | nil => simp only [List.mapM_nil, pure, Except.pure, Except.ok.injEq] at hm; simp [← hm]
      | cons a l ih =>
        rw [List.mapM_cons] at hm
        cases ha : getItem D.full a with
        | error e => rw [ha] at hm; cases hm
        | ok b =>
          rw [ha] at hm
          cases hl : l.mapM (fun i => getItem D.full i) with
          | error e => rw [hl] at hm; cases hm
          | ok bs =>
            rw [hl] at hm
            simp only [bind, Except.bind, pure, Except.pure, Except.ok.injEq] at hm
            rw [← hm, List.length_cons, List.length_cons, ih (by simp at hi; omega) bs hl]
    rw [hm] at hc
    simp only [bind, Except.bind] at hc
    cases hs : subIdxs D.delim ts 0 with
    | error e => rw [hs] at hc; cases hc
    | ok r =>
      rw [hs] at hc
      simp only [pyAssert] at hc
      split at hc
      · cases hc
      · simp only [Except.ok.injEq] at hc
        unfold collect
        rw [if_pos (by rw [← hc]; simp; omega)]

/-- Over the whole epoch the sub dataset is asked for its sequences one by one, from the first to the last. -/
theorem loads_all (D : DS K α) (hd : D.delim ≠ []) (order : List Nat) (ho : ∀ i ∈ order, i < D.full.length) (c : Cur)
    (hc : initSeqOrder D order = .ok c) :
    (List.range order.length).flatMap (loads c) = (List.range c.subList.length).map (fun j => (j, j + 1)) := by
  obtain ⟨c', h1, h2, h3, h4, h5⟩ := init_ok D hd order ho
  rw [hc] at h1
  obtain rfl : c = c' := by simpa using h1
  have hlen : order.length = c.seqList.length := by
    have := congrArg List.length h3
    simpa using this.symm
  rw [hlen]
  have key : ∀ n, n ≤ c.seqList.length → (List.range n).flatMap (loads c) =
      (List.range (offset D.delim c.seqList n)).map (fun j => (j, j + 1)) := by
    intro n hn
    induction n with
    | zero => simp [offset]
    | succ n ih =>
      have hg : c.seqList[n]? = some (c.seqList[n]'(by omega)) := List.getElem?_eq_getElem _
      rw [List.range_succ, List.flatMap_append, ih (by omega)]
      simp only [List.flatMap_cons, List.flatMap_nil, List.append_nil, loads]
      rw [h5 n _ hg, Option.getD_some, ← List.map_append]
      congr 1
      have : offset D.delim c.seqList (n + 1) = offset D.delim c.seqList n + (pySplit D.delim (c.seqList[n]'(by omega))).length := by
        unfold offset
        rw [List.take_succ, hg, List.flatMap_append, List.length_append]
        simp only [Option.toList_some, List.flatMap_cons, List.flatMap_nil, List.append_nil]
      rw [this, List.range_eq_range', List.range_eq_range']
      have := List.range'_append (s := 0) (m := offset D.delim c.seqList n) (n := (pySplit D.delim (c.seqList[n]'(by omega))).length) (step := 1)
      simpa using this
  rw [key _ (Nat.le_refl _), h4]
  unfold offset
  rw [List.take_length]

/-- The length of a sequence used for sorting is the sum of those of its sub sequences. -/
theorem fullSeqLens_right (D : DS K α) (hd : D.delim ≠ []) (len : Tag → Nat)
    (hl : ∀ t ∈ D.full, ∀ s ∈ pySplit D.delim t, D.lens.get? s = some (len s)) :
    fullSeqLens D = .ok (D.full.map (fun t => ((pySplit D.delim t).map len).sum)) := by
  apply mapM_map
  intro t ht
  unfold fullLen
  rw [split_ok D.delim hd]
  simp only [bind, Except.bind]
  rw [mapM_map (g := len) (fun s hs => by unfold Dict.getItem; rw [hl t ht s hs])]

/-! ### What the options are for -/

theorem joined_length_rep (D : DS K α) (corpus : Tag → K → Arr α) (key : K) (m : Nat) (hm : 0 < m)
    (hpost : D.post.get? key = none) (hrep : D.rep.get? key = some m) (hpad : D.pad.get? key = none) (subs : List Tag) :
    (roundUp m (joined D corpus key subs).length) = (subs.map (fun t => roundUp m (corpus t key).frames.length)).sum := by
  match subs with
  | [] =>
    simp only [joined, List.length_nil, List.map_nil, List.sum_nil]
    rw [roundUp_of m 0 hm]
    simp
  | [t] => simp [joined]
  | t :: u :: ts =>
    have ih := joined_length_rep D corpus key m hm hpost hrep hpad (u :: ts)
    simp only [joined, List.length_append, List.map_cons, List.sum_cons] at ih ⊢
    rw [← ih]
    have hmid : (middle D corpus key t).length = roundUp m (corpus t key).frames.length := by
      unfold middle
      simp only [Dict.contains, hpost, hrep, hpad, Option.isSome_none, Bool.false_eq_true, if_false]
      apply toLength_length
      by_cases h : (corpus t key).frames = []
      · right
        rw [h, roundUp_of m _ hm]
        simp
      · exact .inl h
    rw [hmid]
    unfold roundUp
    rw [show (((corpus t key).frames.length + m - 1) / m * m + (joined D corpus key (u :: ts)).length + m - 1) =
      ((joined D corpus key (u :: ts)).length + m - 1) + ((corpus t key).frames.length + m - 1) / m * m by omega,
      Nat.add_mul_div_right _ _ hm, Nat.add_mul, Nat.add_comm]

/-- `repeat_in_between_last_frame_up_to_multiple_of`: downsampling by the factor gives as many frames for the concatenation as for
the sub sequences together. -/
theorem repeat_aligned (D : DS K α) (corpus : Tag → K → Arr α) (key : K) (m : Nat) (hm : 0 < m)
    (hpost : D.post.get? key = none) (hrep : D.rep.get? key = some m) (hpad : D.pad.get? key = none) (subs : List Tag) :
    ((joined D corpus key subs).length + m - 1) / m = (subs.map (fun t => ((corpus t key).frames.length + m - 1) / m)).sum := by
  have h := joined_length_rep D corpus key m hm hpost hrep hpad subs
  unfold roundUp at h
  have hs : (subs.map (fun t => ((corpus t key).frames.length + m - 1) / m * m)).sum =
      (subs.map (fun t => ((corpus t key).frames.length + m - 1) / m)).sum * m := by
    clear h
    induction subs with
    | nil => simp
    | cons t ts ih => simp only [List.map_cons, List.sum_cons, ih, Nat.add_mul]
  rw [hs] at h
  exact Nat.eq_of_mul_eq_mul_right hm h

theorem ceilDiv_add_mul (a f q : Int) (hf : 0 < f) : ceilDiv (q * f + a) f = q + ceilDiv a f := by
  unfold ceilDiv
  rw [show -(q * f + a) = -a + (-q) * f by ring, Int.add_mul_ediv_right _ _ (by omega)]
  ring

/-- `pad_narrow_data_to_multiple_of_target_len`: if the targets of all sub sequences have the length `ceildiv(len - P, F)`, so have
those of the concatenation. -/
theorem pad_aligned (D : DS K α) (corpus : Tag → K → Arr α) (key target : K) (P : Int) (F : Nat) (hF : 0 < F)
    (hpad : D.pad.get? key = some (target, F)) (ht1 : D.post.get? target = none) (ht2 : D.rep.get? target = none)
    (ht3 : D.pad.get? target = none) (subs : List Tag) (hne : subs ≠ [])
    (hu : ∀ t ∈ subs.dropLast, Usable D corpus key t)
    (hal : ∀ t ∈ subs, ((corpus t target).frames.length : Int) = ceilDiv ((corpus t key).frames.length - P) F) :
    ((joined D corpus target subs).length : Int) = ceilDiv ((joined D corpus key subs).length - P) F := by
  match subs, hne with
  | [t], _ => simpa [joined] using hal t (by simp)
  | t :: u :: ts, _ =>
    have ih := pad_aligned D corpus key target P F hF hpad ht1 ht2 ht3 (u :: ts) (by simp)
      (fun x hx => hu x (by rw [List.dropLast_cons_of_ne_nil (by simp)]; simp [hx])) (fun x hx => hal x (by simp only [List.mem_cons] at hx ⊢; exact .inr hx))
    simp only [joined, List.length_append] at ih ⊢
    have hut := hu t (by rw [List.dropLast_cons_of_ne_nil (by simp)]; simp)
    have hmt : (middle D corpus target t).length = (corpus t target).frames.length := by
      unfold middle
      simp only [Dict.contains, ht1, ht2, ht3, Option.isSome_none, Bool.false_eq_true, if_false]
    have hmk : (middle D corpus key t).length = (corpus t target).frames.length * F := by
      unfold middle
      simp only [hpad]
      apply toLength_length
      by_cases h0 : (corpus t target).frames.length * F = 0
      · exact .inr h0
      · left
        have h4 := hut.2.2 target F hpad (by omega)
        have hne1 : (if D.post.contains key then (corpus t key).frames.dropLast else (corpus t key).frames) ≠ [] := by
          split at h4
          · rename_i hc
            simp only [hc, if_true]
            intro hcn
            have := congrArg List.length hcn
            simp at this
            omega
          · rename_i hc
            simp only [hc]
            exact List.length_pos_iff.1 h4
        generalize (if D.post.contains key then (corpus t key).frames.dropLast else (corpus t key).frames) = l1 at hne1
        cases hr : D.rep.get? key with
        | none => exact hne1
        | some m =>
          simp only
          intro hc
          have := toLength_length l1 (roundUp m l1.length) (.inl hne1)
          rw [hc, roundUp_of m _ (hut.2.1 m hr)] at this
          have hp := List.length_pos_iff.2 hne1
          split at this
          · simp only [List.length_nil] at this; omega
          · simp only [List.length_nil] at this; omega
    rw [hmt, hmk]
    push_cast
    rw [ih, show ((corpus t target).frames.length : Int) * F + (joined D corpus key (u :: ts)).length - P =
      (corpus t target).frames.length * F + ((joined D corpus key (u :: ts)).length - P) by ring,
      ceilDiv_add_mul _ _ _ (by omega)]

/-! ### Examples -/

/-- Two keys: 0 for the data, 1 for the targets, which end with the label 0. -/
def exDS (post : Dict Nat Nat) (rep : Dict Nat Nat) (pad : Dict Nat (Nat × Nat)) : DS Nat Nat where
  delim := [';']
  post := post
  rep := rep
  pad := pad
  full := [['a', ';', 'b'], ['b'], ['b', ';', 'a', ';', 'b']]
  lens := [(['a'], 4), (['b'], 3)]
  keys := [0, 1]
  sub := fun tags => ⟨fun i => getItem tags i, fun i key => do
    let t ← getItem tags i
    .ok (if t = ['a'] then ⟨1, if key = 0 then [1, 2, 3, 4] else [5, 0]⟩ else ⟨1, if key = 0 then [7, 8, 9] else [6, 0]⟩)⟩

def exCorpus (t : Tag) (key : Nat) : Arr Nat :=
  if t = ['a'] then ⟨1, if key = 0 then [1, 2, 3, 4] else [5, 0]⟩ else ⟨1, if key = 0 then [7, 8, 9] else [6, 0]⟩

theorem ex_delivers (post : Dict Nat Nat) (rep : Dict Nat Nat) (pad : Dict Nat (Nat × Nat)) (tags : List Tag) :
    Delivers (exDS post rep pad).sub exCorpus tags := by
  intro i t hi
  simp only [exDS, getItem, hi, bind, Except.bind, true_and]
  intro key
  rfl

example : pySplit [';'] ['b', ';', 'a', ';', 'b'] = [['b'], ['a'], ['b']] := by
  simp [pySplit, consHead]

theorem ex_split0 : pySplit [';'] ['a', ';', 'b'] = [['a'], ['b']] := by simp [pySplit, consHead]
theorem ex_split1 : pySplit [';'] ['b'] = [['b']] := by simp [pySplit, consHead]
theorem ex_split2 : pySplit [';'] ['b', ';', 'a', ';', 'b'] = [['b'], ['a'], ['b']] := by simp [pySplit, consHead]

/-- The epoch with the sequences 2 and 0 of the corpus. -/
theorem ex_init (post : Dict Nat Nat) (rep : Dict Nat Nat) (pad : Dict Nat (Nat × Nat)) :
    initSeqOrder (exDS post rep pad) [2, 0] = .ok ⟨[2, 0], [['b', ';', 'a', ';', 'b'], ['a', ';', 'b']], [[0, 1, 2], [3, 4]],
      [['b'], ['a'], ['b'], ['a'], ['b']]⟩ := by
  have h : [2, 0].mapM (fun i => getItem (exDS post rep pad).full i) =
      .ok [['b', ';', 'a', ';', 'b'], ['a', ';', 'b']] := rfl
  unfold initSeqOrder
  rw [h]
  have hs : (exDS post rep pad).delim = [';'] := rfl
  simp only [bind, Except.bind, subIdxs, hs, split, ex_split0, ex_split2]
  rfl

/-- `collect_right` applies: the postfix 0 is removed in between, and the data is extended to a multiple of 2. -/
example : collect (exDS [(1, 0)] [(0, 2)] []) ⟨[2, 0], [['b', ';', 'a', ';', 'b'], ['a', ';', 'b']], [[0, 1, 2], [3, 4]],
      [['b'], ['a'], ['b'], ['a'], ['b']]⟩ 0 =
    .ok (some ⟨0, ['b', ';', 'a', ';', 'b'], [(0, [7, 8, 9, 9, 1, 2, 3, 4, 7, 8, 9]), (1, [6, 5, 6, 0])]⟩) := by
  have h := collect_right (exDS [(1, 0)] [(0, 2)] []) exCorpus (by simp [exDS]) (by decide) (by decide) [2, 0] (by decide) _
    (ex_init _ _ _) (ex_delivers _ _ _ _) 0 ['b', ';', 'a', ';', 'b'] rfl
  have hs : (exDS [(1, 0)] [(0, 2)] []).delim = [';'] := rfl
  rw [hs, ex_split2] at h
  obtain ⟨r, hr⟩ := h.1.2 (by
    intro t ht key hkey
    have ht' : t = ['b'] ∨ t = ['a'] := by simpa using ht
    have hk' : key = 0 ∨ key = 1 := by simpa [exDS] using hkey
    refine ⟨?_, ?_, ?_⟩
    · intro label hl
      rcases hk' with rfl | rfl
      · cases hl
      · have : label = 0 := by simpa [exDS, Dict.get?] using hl.symm
        subst this
        rcases ht' with rfl | rfl <;> exact ⟨rfl, rfl⟩
    · intro m hm
      rcases hk' with rfl | rfl
      · have : m = 2 := by simpa [exDS, Dict.get?] using hm.symm
        omega
      · cases hm
    · intro target m hp
      cases hp)
  rw [hr, h.2 r hr]
  rfl

/-- `repeat_aligned` for this sequence: 2 + 2 + 2 frames after downsampling by 2; without the option it would be 5. -/
example : ((joined (exDS [] [(0, 2)] []) exCorpus 0 [['b'], ['a'], ['b']]).length + 2 - 1) / 2 = 6 ∧
    ((joined (exDS [] [] []) exCorpus 0 [['b'], ['a'], ['b']]).length + 2 - 1) / 2 = 5 := by
  exact ⟨by rw [repeat_aligned _ _ 0 2 (by omega) rfl rfl rfl]; rfl, by decide⟩

/-- `pad_aligned` for this sequence. -/
example : ((joined (exDS [] [] [(0, (1, 2))]) exCorpus 1 [['b'], ['a'], ['b']]).length : Int) =
    ceilDiv ((joined (exDS [] [] [(0, (1, 2))]) exCorpus 0 [['b'], ['a'], ['b']]).length - 0) 2 := by
  apply pad_aligned _ _ 0 1 0 2 (by omega) rfl rfl rfl rfl _ (by simp)
  · intro t ht
    have ht' : t = ['b'] ∨ t = ['a'] := by simpa using ht
    refine ⟨(fun label hl => by cases hl), (fun m hm => by cases hm), fun target m hp _ => ?_⟩
    rcases ht' with rfl | rfl <;> decide
  · intro t ht
    have ht' : t = ['b'] ∨ t = ['a'] := by simp at ht; tauto
    rcases ht' with rfl | rfl <;> decide

/-- If the targets also lose their postfix (`remove_in_between_postfix`) then the claim of the documentation is false: the length of
the target with the postfix is used.  So `pad_aligned` needs the assumption that the targets are not changed. -/
theorem pad_misaligned :
    (∀ t ∈ [['a'], ['b']], ((exCorpus t 1).frames.length : Int) = ceilDiv ((exCorpus t 0).frames.length - 0) 2) ∧
    ((joined (exDS [(1, 0)] [] [(0, (1, 2))]) exCorpus 1 [['a'], ['b']]).length : Int) = 3 ∧
    ceilDiv ((joined (exDS [(1, 0)] [] [(0, (1, 2))]) exCorpus 0 [['a'], ['b']]).length - 0) 2 = 4 := by
  refine ⟨?_, by decide, by decide⟩
  intro t ht
  have ht' : t = ['a'] ∨ t = ['b'] := by simpa using ht
  rcases ht' with rfl | rfl <;> decide

/-- The sub dataset is read in order. -/
example : (List.range 2).flatMap (loads ⟨[2, 0], [['b', ';', 'a', ';', 'b'], ['a', ';', 'b']], [[0, 1, 2], [3, 4]],
    [['b'], ['a'], ['b'], ['a'], ['b']]⟩) = [(0, 1), (1, 2), (2, 3), (3, 4), (4, 5)] :=
  loads_all (exDS [] [] []) (by simp [exDS]) [2, 0] (by decide) _ (ex_init _ _ _)

/-- The lengths for sorting. -/
example : fullSeqLens (exDS [] [] []) = .ok [7, 3, 10] := by
  rw [fullSeqLens_right (exDS [] [] []) (by simp [exDS]) (fun s => if s = ['a'] then 4 else 3)]
  · have hs : (exDS [] [] []).delim = [';'] := rfl
    simp only [exDS, List.map_cons, List.map_nil, ex_split0, ex_split1, ex_split2]
    rfl
  · have hs : (exDS [] [] []).delim = [';'] := rfl
    rw [hs]
    intro t ht s hs
    have ht' : t = ['a', ';', 'b'] ∨ t = ['b'] ∨ t = ['b', ';', 'a', ';', 'b'] := by simpa [exDS] using ht
    have : s = ['a'] ∨ s = ['b'] := by
      rcases ht' with rfl | rfl | rfl
      · rw [ex_split0] at hs; simpa using hs
      · rw [ex_split1] at hs; right; simpa using hs
      · rw [ex_split2] at hs; simp at hs; tauto
    rcases this with rfl | rfl <;> rfl

end Verif.ConcatSeqs
