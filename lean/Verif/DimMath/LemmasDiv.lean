import Verif.DimMath.LemmasAdd
namespace Verif.DimMath
open Verif.Py

variable {P : Params} {env : Nat → Int}

/-- Division by kind. -/
def dv (k : DK) (a b : Int) : Int := meaning (.div k true) a b

theorem dv_dv (k : DK) {t a b : Int} (ha : 0 < a) (hb : 0 < b) : dv k (dv k t a) b = dv k t (a * b) := by
  have key : ∀ t : Int, (t.fdiv a).fdiv b = t.fdiv (a * b) := by
    intro t
    rw [Int.fdiv_eq_ediv_of_nonneg _ ha.le, Int.fdiv_eq_ediv_of_nonneg _ hb.le, Int.fdiv_eq_ediv_of_nonneg _ (Int.mul_pos ha hb).le,
      Int.ediv_ediv_of_nonneg ha.le]
  cases k <;> simp only [dv, meaning]
  · exact key t
  · rw [neg_neg, key]
  · exact key t

theorem dv_mul (k : DK) {t b : Int} (hb : 0 < b) : dv k (t * b) b = t := by
  have h : ∀ t : Int, (t * b).fdiv b = t := fun t => by
    rw [Int.fdiv_eq_ediv_of_nonneg _ hb.le, Int.mul_ediv_cancel _ hb.ne']
  cases k <;> simp only [dv, meaning]
  · exact h t
  · rw [← neg_mul, h, neg_neg]
  · exact h t

theorem dv_exact_dvd {t a b : Int} (ha : 0 < a) (hab : a * b ∣ t) : b ∣ dv .exact t a := by
  obtain ⟨c, hc⟩ := hab
  subst hc
  rw [show a * b * c = b * c * a by ring, dv_mul _ ha]
  exact Dvd.intro _ rfl

theorem dv_one (k : DK) (t : Int) : dv k t 1 = t := by
  have := dv_mul k (t := t) (b := 1) (by omega)
  simpa using this

theorem divKind_spec {num den : D} {k : DK} {right : Bool} {r : DK × Bool} (h : divKind num den k right = .ok r)
    (h0 : 0 < val env den) (he : k = .exact → val env den ∣ val env num) :
    dv r.1 (val env num) (val env den) = dv k (val env num) (val env den) ∧
    (r.1 = .exact → val env den ∣ val env num) ∧ (r.2 = true → val env den ∣ val env num) := by
  unfold divKind at h
  split at h
  · rename_i a b ha hb
    have ha' := dimension_val (env := env) num ha
    have hb' := dimension_val (env := env) den hb
    rw [ha', hb'] at he
    rw [hb'] at h0
    rw [ha', hb']
    have hm : a.fmod b = 0 ↔ b ∣ a := by
      rw [Int.fmod_eq_emod_of_nonneg _ h0.le]
      exact (Int.dvd_iff_emod_eq_zero).symm
    split at h
    · cases h
    · cases k with
      | floor =>
        injection h with h
        subst h
        refine ⟨rfl, by intro h; simp at h, ?_⟩
        intro h
        simpa [hm] using h
      | ceil =>
        injection h with h
        subst h
        refine ⟨?_, ?_, ?_⟩
        · simp only
          split
          · rename_i hc
            obtain ⟨c, hc'⟩ := hm.1 hc.1
            subst hc'
            rw [mul_comm, dv_mul _ h0, dv_mul _ h0]
          · rfl
        · simp only
          split <;> (intro h; cases h)
        · intro h
          simpa [hm] using h
      | exact =>
        simp only at h
        split at h
        · cases h
        · injection h with h
          subst h
          refine ⟨?_, fun _ => he rfl, fun _ => he rfl⟩
          cases right <;> rfl
  · injection h with h
    subst h
    exact ⟨rfl, he, by intro h; simp at h⟩

theorem newDiv_spec (hs : SoundW True P env) {num den : D} {k : DK} {right : Bool} {r : D} (h : newDiv P num den k right = .ok r)
    (hn : ValidW True env num) (hd : ValidW True env den) (h0 : 0 < val env den) (he : k = .exact → val env den ∣ val env num) :
    ValidW True env r ∧ val env r = dv k (val env num) (val env den) := by
  unfold newDiv at h
  cases hk : divKind num den k right with
  | error e => rw [hk] at h; cases h
  | ok q =>
    rw [hk] at h
    simp only [Except.bind] at h
    obtain ⟨q1, q2, q3⟩ := divKind_spec hk h0 he
    split at h
    · rename_i c hc
      injection h with h
      subst h
      obtain ⟨c1, c2⟩ := hs.cache _ _ _ _ hc hn hd ⟨h0, q2, trivial⟩
      refine ⟨c1, ?_⟩
      rw [c2, ← q1]
      cases q.1 <;> rfl
    · injection h with h
      subst h
      cases hq : q.2 with
      | true =>
        refine ⟨⟨hn, hd, h0, fun _ => q3 hq, trivial⟩, ?_⟩
        obtain ⟨c, hc⟩ := q3 hq
        simp only [if_true, val]
        rw [hc, mul_comm, dv_mul _ h0]
        exact dv_mul .exact h0
      | false =>
        simp only [Bool.false_eq_true, if_false]
        refine ⟨⟨hn, hd, h0, q2, trivial⟩, ?_⟩
        rw [← q1]
        cases q.1 <;> rfl

theorem sameQuot_spec {k : DK} {right : Bool} {t num den : D} (h : sameQuot k right t = some (num, den)) : t = .div k right num den := by
  unfold sameQuot at h
  split at h
  · split at h
    · rename_i hk
      injection h with h
      injection h with h1 h2
      rw [hk.1, hk.2, h1, h2]
    · cases h
  · cases h

theorem val_div' (k : DK) (right : Bool) (a b : D) : val env (.div k right a b) = dv k (val env a) (val env b) := by
  cases k <;> rfl

/-- No product of several factors with a factor which is a quotient of this kind. -/
def NoQuot (k : DK) (right : Bool) (t : List D) : Prop := t.length ≤ 1 ∨ ∀ d ∈ t, sameQuot k right d = none

theorem NoQuot_pop {k : DK} {right r : Bool} {t : List D} (h : NoQuot k right t) : NoQuot k right (popRecent r t) := by
  rcases h with h | h
  · left
    unfold popRecent
    split <;> simp <;> omega
  · exact Or.inr (fun d hd => h d (mem_pop hd))

theorem NoQuot_single (k : DK) (right : Bool) (d : D) : NoQuot k right [d] := Or.inl (by simp)

/-- What a division of a product by a dim should be. -/
def DivOk (env : Nat → Int) (k : DK) (right : Bool) (other : Int) (t r : List D) : Prop :=
  VM True env r ∧ mv env r = dv k (mv env t) other ∧ NoQuot k right r

theorem popRecent_singleton {α : Type} (right : Bool) {l : List α} {x : α} (h : mostRecent right l = some x) (hl : l.length ≤ 1) :
    l = [x] := by
  match l, hl with
  | [], _ => cases right <;> simp [mostRecent] at h
  | [y], _ => cases right <;> simp [mostRecent] at h <;> rw [h]

theorem multDiv1_spec (hs : SoundW True P env) {fuel : Nat} {k : DK} {right : Bool} {other : D} {t r : List D}
    (h : multDiv1 P fuel k right other t = .ok r) (ht : VM True env t) (hn : NoQuot k right t) (ho : ValidW True env other)
    (h0 : 0 < val env other) (he : k = .exact → val env other ∣ mv env t) : DivOk env k right (val env other) t r := by
  unfold multDiv1 at h
  split at h
  · rename_i hm
    have hnil : t = [] := by
      cases right
      · simpa [mostRecent] using hm
      · simpa [mostRecent] using hm
    subst hnil
    cases hd : newDiv P (.const 1) other k right with
    | error e => rw [hd] at h; cases h
    | ok q =>
      rw [hd] at h
      injection h with h
      subst h
      obtain ⟨q1, q2⟩ := newDiv_spec hs hd trivial ho h0 (by simpa [val] using he)
      refine ⟨by intro d hd; simp at hd; rw [hd]; exact q1, ?_, NoQuot_single _ _ _⟩
      simp [q2, val]
  · rename_i x hm
    split at h
    · rename_i heq
      injection h with h
      subst h
      refine ⟨VM_pop ht, ?_, NoQuot_pop hn⟩
      rw [mv_recent (env := env) hm, ← hs.eq _ _ heq, dv_mul _ h0]
    · split at h
      · rename_i num den hq
        have hx := sameQuot_spec hq
        have hsing : t = [x] := by
          rcases hn with hn | hn
          · exact popRecent_singleton right hm hn
          · have := hn x (mem_recent hm)
            rw [this] at hq
            cases hq
        subst hsing
        have hv : ValidW True env x := ht x (by simp)
        rw [hx] at hv
        cases hdm : dMul P fuel den other with
        | error e => rw [hdm] at h; cases h
        | ok den' =>
          rw [hdm] at h
          simp only [Except.bind] at h
          obtain ⟨m1, m2⟩ := dMul_spec hs hdm hv.2.1 ho
          have hmv : mv env [x] = dv k (val env num) (val env den) := by rw [hx]; simp [val_div']
          have hpos : 0 < val env den' := by rw [m2]; exact Int.mul_pos hv.2.2.1 h0
          have hex : k = .exact → val env den' ∣ val env num := by
            intro hk
            obtain ⟨c, hc⟩ := hv.2.2.2.1 hk
            have := he hk
            rw [hmv, hc, mul_comm, dv_mul _ hv.2.2.1] at this
            rw [m2, hc]
            exact mul_dvd_mul_left _ this
          cases hd : newDiv P num den' k right with
          | error e => rw [hd] at h; cases h
          | ok q =>
            rw [hd] at h
            injection h with h
            subst h
            obtain ⟨q1, q2⟩ := newDiv_spec hs hd hv.1 m1 hpos hex
            have hres : pushRecent right (popRecent right [x]) q = [q] := by cases right <;> simp [pushRecent, popRecent]
            rw [hres]
            refine ⟨by intro d hd; simp at hd; rw [hd]; exact q1, ?_, NoQuot_single _ _ _⟩
            rw [hmv, dv_dv k hv.2.2.1 h0, ← m2]
            simp [q2]
      · obtain ⟨m1, m2⟩ := multAsDim_spec hs ht
        cases hd : newDiv P (multAsDim P t) other k right with
        | error e => rw [hd] at h; cases h
        | ok q =>
          rw [hd] at h
          injection h with h
          subst h
          obtain ⟨q1, q2⟩ := newDiv_spec hs hd m1 ho h0 (by rw [m2]; exact he)
          refine ⟨by intro d hd; simp at hd; rw [hd]; exact q1, ?_, NoQuot_single _ _ _⟩
          rw [← m2]
          simp [q2]

theorem posFactors_pos : ∀ (d : D), PosFactors env d → 0 < val env d
  | .mul a b, h => Int.mul_pos (posFactors_pos a h.1) (posFactors_pos b h.2)
  | .base _ _, h => h
  | .const _, h => h
  | .add _ _, h => h
  | .div _ _ _ _, h => h

theorem multDivLeaf_spec (hs : SoundW True P env) {fuel : Nat} {k : DK} {right : Bool} {other : D} {t r : List D}
    (h : (if other = .const 1 then (Except.ok t : Res (List D)) else multDiv1 P fuel k right other t) = .ok r)
    (ht : VM True env t) (hn : NoQuot k right t) (ho : ValidW True env other)
    (h0 : 0 < val env other) (he : k = .exact → val env other ∣ mv env t) : DivOk env k right (val env other) t r := by
  split at h
  · rename_i h1
    injection h with h
    subst h h1
    exact ⟨ht, by simp only [val]; rw [dv_one], hn⟩
  · exact multDiv1_spec hs h ht hn ho h0 he

theorem multDiv_spec (hs : SoundW True P env) {fuel : Nat} {k : DK} {right : Bool} : ∀ (other : D) {t r : List D},
    multDiv P fuel k right other t = .ok r → VM True env t → NoQuot k right t → ValidW True env other → PosFactors env other →
    (k = .exact → val env other ∣ mv env t) → DivOk env k right (val env other) t r
  | .mul a b, t, r, h, ht, hn, ho, hp, he => by
    have hpa := posFactors_pos a hp.1
    have hpb := posFactors_pos b hp.2
    rw [multDiv] at h
    split at h
    · rename_i hnil
      subst hnil
      cases hd : newDiv P (.const 1) (.mul a b) k right with
      | error e => rw [hd] at h; cases h
      | ok q =>
        rw [hd] at h
        injection h with h
        subst h
        obtain ⟨q1, q2⟩ := newDiv_spec hs hd trivial ho (posFactors_pos _ hp) (by simpa [val] using he)
        refine ⟨by intro d hd; simp at hd; rw [hd]; exact q1, ?_, NoQuot_single _ _ _⟩
        simp only [val] at q2
        simp [q2, val]
    · split at h
      · cases h1 : multDiv P fuel k right a t with
        | error e => rw [h1] at h; cases h
        | ok t1 =>
          rw [h1] at h
          simp only [Except.bind] at h
          obtain ⟨a1, a2, a3⟩ := multDiv_spec hs a h1 ht hn ho.1 hp.1
            (fun hk => dvd_trans (Dvd.intro _ rfl) (he hk))
          obtain ⟨b1, b2, b3⟩ := multDiv_spec hs b h a1 a3 ho.2 hp.2
            (fun hk => by subst hk; rw [a2]; exact dv_exact_dvd hpa (he rfl))
          exact ⟨b1, by rw [b2, a2, dv_dv k hpa hpb]; rfl, b3⟩
      · cases h1 : multDiv P fuel k right b t with
        | error e => rw [h1] at h; cases h
        | ok t1 =>
          rw [h1] at h
          simp only [Except.bind] at h
          obtain ⟨a1, a2, a3⟩ := multDiv_spec hs b h1 ht hn ho.2 hp.2
            (fun hk => dvd_trans (Dvd.intro_left _ rfl) (he hk))
          obtain ⟨b1, b2, b3⟩ := multDiv_spec hs a h a1 a3 ho.1 hp.1
            (fun hk => by
              subst hk; rw [a2]
              exact dv_exact_dvd hpb (by rw [mul_comm]; exact he rfl))
          exact ⟨b1, by rw [b2, a2, dv_dv k hpb hpa, mul_comm]; rfl, b3⟩
  | .base i d, t, r, h, ht, hn, ho, hp, he => by rw [multDiv] at h; exact multDivLeaf_spec hs h ht hn ho hp he; all_goals (intros; simp_all)
  | .const i, t, r, h, ht, hn, ho, hp, he => by rw [multDiv] at h; exact multDivLeaf_spec hs h ht hn ho hp he; all_goals (intros; simp_all)
  | .add i d, t, r, h, ht, hn, ho, hp, he => by rw [multDiv] at h; exact multDivLeaf_spec hs h ht hn ho hp he; all_goals (intros; simp_all)
  | .div _ _ i d, t, r, h, ht, hn, ho, hp, he => by rw [multDiv] at h; exact multDivLeaf_spec hs h ht hn ho hp he; all_goals (intros; simp_all)

theorem divisible1_spec (hs : SoundW True P env) {right : Bool} {other : D} {t : List D} (h : divisible1 P right other t = .ok true)
    (h0 : 0 < val env other) : val env other ∣ mv env t := by
  unfold divisible1 at h
  split at h
  · cases h
  · rename_i x hm
    rw [mv_recent (env := env) hm]
    apply Dvd.dvd.mul_left
    split at h
    · rename_i heq
      rw [hs.eq _ _ heq]
    · split at h
      · rename_i a b ha hb
        split at h
        · cases h
        · injection h with h
          have := dimension_val (env := env) _ ha
          have hb' := dimension_val (env := env) _ hb
          rw [this, hb']
          rw [hb'] at h0
          rw [decide_eq_true_iff, Int.fmod_eq_emod_of_nonneg _ h0.le] at h
          exact Int.dvd_of_emod_eq_zero h
      · cases h

theorem divisible_spec (hs : SoundW True P env) {fuel : Nat} {right : Bool} : ∀ (other : D) {t : List D},
    divisible P fuel right other t = .ok true → VM True env t → NoQuot .exact right t → ValidW True env other → PosFactors env other →
    val env other ∣ mv env t
  | .mul a b, t, h, ht, hn, ho, hp => by
    have hpa := posFactors_pos a hp.1
    have hpb := posFactors_pos b hp.2
    rw [divisible] at h
    split at h
    · cases h
    · cases right with
      | true =>
        simp only [if_true] at h
        cases h1 : divisible P fuel true a t with
        | error e => rw [h1] at h; cases h
        | ok r1 =>
          rw [h1] at h
          cases r1 with
          | false => cases h
          | true =>
            simp only [Except.bind, if_true] at h
            have d1 := divisible_spec hs a h1 ht hn ho.1 hp.1
            cases h2 : multDiv P fuel .exact true a t with
            | error e => rw [h2] at h; cases h
            | ok tmp =>
              rw [h2] at h
              simp only at h
              obtain ⟨a1, a2, a3⟩ := multDiv_spec hs a h2 ht hn ho.1 hp.1 (fun _ => d1)
              cases h3 : divisible P fuel true b tmp with
              | error e => rw [h3] at h; cases h
              | ok r2 =>
                rw [h3] at h
                cases r2 with
                | false => cases h
                | true =>
                  have d2 := divisible_spec hs b h3 a1 a3 ho.2 hp.2
                  obtain ⟨c, hc⟩ := d1
                  rw [a2, hc, mul_comm, dv_mul _ hpa] at d2
                  rw [hc]
                  exact mul_dvd_mul_left _ d2
      | false =>
        simp only [Bool.false_eq_true, if_false] at h
        cases h1 : divisible P fuel false b t with
        | error e => rw [h1] at h; cases h
        | ok r1 =>
          rw [h1] at h
          cases r1 with
          | false => cases h
          | true =>
            simp only [Except.bind, if_true] at h
            have d1 := divisible_spec hs b h1 ht hn ho.2 hp.2
            cases h2 : multDiv P fuel .exact false b t with
            | error e => rw [h2] at h; cases h
            | ok tmp =>
              rw [h2] at h
              simp only at h
              obtain ⟨a1, a2, a3⟩ := multDiv_spec hs b h2 ht hn ho.2 hp.2 (fun _ => d1)
              cases h3 : divisible P fuel false a tmp with
              | error e => rw [h3] at h; cases h
              | ok r2 =>
                rw [h3] at h
                cases r2 with
                | false => cases h
                | true =>
                  have d2 := divisible_spec hs a h3 a1 a3 ho.1 hp.1
                  obtain ⟨c, hc⟩ := d1
                  rw [a2, hc, mul_comm, dv_mul _ hpb] at d2
                  rw [hc]
                  simp only [val]
                  rw [mul_comm (val env a)]
                  exact mul_dvd_mul_left _ d2
  | .base i d, t, h, ht, hn, ho, hp => by rw [divisible] at h; exact divisible1_spec hs h hp; all_goals (intros; simp_all)
  | .const i, t, h, ht, hn, ho, hp => by rw [divisible] at h; exact divisible1_spec hs h hp; all_goals (intros; simp_all)
  | .add i d, t, h, ht, hn, ho, hp => by rw [divisible] at h; exact divisible1_spec hs h hp; all_goals (intros; simp_all)
  | .div _ _ i d, t, h, ht, hn, ho, hp => by rw [divisible] at h; exact divisible1_spec hs h hp; all_goals (intros; simp_all)

theorem divEach_spec (hs : SoundW True P env) {fuel : Nat} {k : DK} {right : Bool} {other : D} (ho : ValidW True env other) (hp : PosFactors env other) :
    ∀ (ts : List (List D)) {rs : List (List D)}, divEach P fuel k right other ts = .ok rs → VL True env ts → (∀ t ∈ ts, NoQuot k right t) →
    (∀ t ∈ ts, val env other ∣ mv env t) → VL True env rs ∧ lv env rs * val env other = lv env ts
  | [], rs, h, _, _, _ => by
    injection h with h
    subst h
    exact ⟨VL_nil, by simp⟩
  | t :: ts, rs, h, hv, hn, hd => by
    rw [divEach] at h
    rw [VL_cons] at hv
    cases h1 : multDiv P fuel k right other t with
    | error e => rw [h1] at h; cases h
    | ok r =>
      rw [h1] at h
      simp only [Except.bind] at h
      cases h2 : divEach P fuel k right other ts with
      | error e => rw [h2] at h; cases h
      | ok rs' =>
        rw [h2] at h
        injection h with h
        subst h
        obtain ⟨a1, a2, _⟩ := multDiv_spec hs other h1 hv.1 (hn t (by simp)) ho hp (fun _ => hd t (by simp))
        obtain ⟨b1, b2⟩ := divEach_spec hs ho hp ts h2 hv.2 (fun t ht => hn t (by simp [ht])) (fun t ht => hd t (by simp [ht]))
        refine ⟨VL_cons.2 ⟨a1, b1⟩, ?_⟩
        obtain ⟨c, hc⟩ := hd t (by simp)
        rw [lv_cons, lv_cons, add_mul, b2, a2, hc, mul_comm _ c, dv_mul _ (posFactors_pos _ hp)]

theorem allDivisible_spec (hs : SoundW True P env) {fuel : Nat} {right : Bool} {other : D} (ho : ValidW True env other) (hp : PosFactors env other) :
    ∀ (ts : List (List D)), allDivisible P fuel right other ts = .ok true → VL True env ts → (∀ t ∈ ts, NoQuot .exact right t) →
    ∀ t ∈ ts, val env other ∣ mv env t
  | [], _, _, _ => by simp
  | t :: ts, h, hv, hn => by
    rw [allDivisible] at h
    rw [VL_cons] at hv
    cases h1 : divisible P fuel right other t with
    | error e => rw [h1] at h; cases h
    | ok r =>
      rw [h1] at h
      cases r with
      | false => cases h
      | true =>
        simp only [Except.bind, if_true] at h
        intro x hx
        rcases List.mem_cons.1 hx with rfl | hx
        · exact divisible_spec hs other h1 hv.1 (hn _ (by simp)) ho hp
        · exact allDivisible_spec hs ho hp ts h hv.2 (fun t ht => hn t (by simp [ht])) x hx

theorem linDiv_spec (hs : SoundW True P env) {fuel : Nat} {k : DK} {right : Bool} {other : D} {ts rs : List (List D)}
    (h : linDiv P fuel k right other ts = .ok rs) (ho : ValidW True env other) (hp : PosFactors env other) (ht : VL True env ts)
    (hn : ∀ t ∈ ts, NoQuot k right t ∧ NoQuot .exact right t) (he : k = .exact → val env other ∣ lv env ts) :
    VL True env rs ∧ lv env rs = dv k (lv env ts) (val env other) := by
  have h0 := posFactors_pos _ hp
  unfold linDiv at h
  split at h
  · rename_i h1
    injection h with h
    subst h h1
    exact ⟨ht, by simp only [val]; rw [dv_one]⟩
  · split at h
    · cases h1 : allDivisible P fuel right other ts with
      | error e => rw [h1] at h; cases h
      | ok q =>
        rw [h1] at h
        simp only [Except.bind] at h
        cases q with
        | true =>
          simp only [if_true] at h
          have hd := allDivisible_spec hs ho hp ts h1 ht (fun t h => (hn t h).2)
          obtain ⟨e1, e2⟩ := divEach_spec hs ho hp ts h ht (fun t h => (hn t h).1) hd
          exact ⟨e1, by rw [← e2, dv_mul _ h0]⟩
        | false =>
          simp only [Bool.false_eq_true, if_false] at h
          obtain ⟨l1, l2⟩ := linAsDim_spec hs ht
          cases h2 : newDiv P (linAsDim P ts) other k right with
          | error e => rw [h2] at h; cases h
          | ok q =>
            rw [h2] at h
            injection h with h
            subst h
            obtain ⟨q1, q2⟩ := newDiv_spec hs h2 l1 ho h0 (by rw [l2]; exact he)
            obtain ⟨m1, m2⟩ := multFromDim_spec q1
            exact ⟨VL_cons.2 ⟨m1, VL_nil⟩, by rw [lv_cons, m2, q2, l2]; simp⟩
    · rename_i hlen
      match ts, hlen with
      | [], _ =>
        injection h with h
        subst h
        refine ⟨VL_nil, ?_⟩
        have := dv_mul k (t := 0) h0
        simp at this
        simp [this]
      | [t], _ =>
        rw [divEach, divEach] at h
        cases h1 : multDiv P fuel k right other t with
        | error e => rw [h1] at h; cases h
        | ok r =>
          rw [h1] at h
          injection h with h
          subst h
          rw [VL_cons] at ht
          obtain ⟨a1, a2, _⟩ := multDiv_spec hs other h1 ht.1 (hn t (by simp)).1 ho hp (by simpa using he)
          exact ⟨VL_cons.2 ⟨a1, VL_nil⟩, by simp [a2]⟩
      | _ :: _ :: _, h => simp at h

end Verif.DimMath
