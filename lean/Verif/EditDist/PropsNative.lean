import Verif.EditDist.Props
/-
C56: the native op `EditDistanceOp`: the edit distance, no access out of bounds, for every order of the threads.
-/
namespace Verif.EditDist
open Verif.Py

/-! ### Index arithmetic -/

theorem num_le_max {na nb d : Nat} (hd : d ≤ na + nb) : numEntries na nb d ≤ maxEntries na nb := by
  unfold numEntries maxEntries
  split_ifs <;> omega

theorem num_pos {na nb d : Nat} (hd : d ≤ na + nb) : 0 < numEntries na nb d := by
  unfold numEntries
  split_ifs <;> omega

theorem tA_le {na nb d e : Nat} (hd : d ≤ na + nb) (he : e < numEntries na nb d) : tA na d e ≤ na ∧ tB na d e ≤ nb ∧ tA na d e + tB na d e = d := by
  unfold numEntries at he
  unfold tA tB
  split_ifs at * <;> omega

theorem idx_del {na nb d e : Nat} (hd : d ≤ na + nb) (he : e < numEntries na nb d) (ha : 0 < tA na d e) (hb : 0 < tB na d e) :
    ∃ e', e' < numEntries na nb (d - 1) ∧ tA na (d - 1) e' = tA na d e ∧ tB na (d - 1) e' + 1 = tB na d e ∧
    e' + 1 < numEntries na nb (d - 1) ∧ tA na (d - 1) (e' + 1) + 1 = tA na d e ∧ tB na (d - 1) (e' + 1) = tB na d e ∧
    ∀ m : Int, (if d ≤ na then m + e - 1 else m + e) = m + e' := by
  unfold numEntries tA tB at *
  by_cases h : d ≤ na
  · refine ⟨e - 1, ?_⟩
    simp only [if_pos h] at he ha hb ⊢
    refine ⟨?_, ?_, ?_, ?_, ?_, ?_, ?_⟩
    · split_ifs at * <;> omega
    · split_ifs at * <;> omega
    · split_ifs at * <;> omega
    · split_ifs at * <;> omega
    · split_ifs at * <;> omega
    · split_ifs at * <;> omega
    · intro m; omega
  · refine ⟨e, ?_, ?_, ?_, ?_, ?_, ?_, ?_⟩
    · split_ifs at * <;> omega
    · split_ifs at * <;> omega
    · split_ifs at * <;> omega
    · split_ifs at * <;> omega
    · split_ifs at * <;> omega
    · split_ifs at * <;> omega
    · intro m; rw [if_neg h]

theorem idx_sub {na nb d e : Nat} (hd : d ≤ na + nb) (he : e < numEntries na nb d) (ha : 0 < tA na d e) (hb : 0 < tB na d e) :
    ∃ e', e' < numEntries na nb (d - 2) ∧ tA na (d - 2) e' + 1 = tA na d e ∧ tB na (d - 2) e' + 1 = tB na d e ∧
    ∀ m : Int, (if (d : Int) - 1 < na then m + e - 1 else if (d : Int) - 1 = na then m + e else m + e + 1) = m + e' := by
  unfold numEntries tA tB at *
  by_cases h : d ≤ na
  · refine ⟨e - 1, ?_⟩
    simp only [if_pos h] at he ha hb ⊢
    refine ⟨?_, ?_, ?_, ?_⟩
    · split_ifs at * <;> omega
    · split_ifs at * <;> omega
    · split_ifs at * <;> omega
    · intro m; split_ifs <;> omega
  · simp only [if_neg h] at he ha hb ⊢
    by_cases h1 : d - 1 = na
    · refine ⟨e, ?_, ?_, ?_, ?_⟩
      · split_ifs at * <;> omega
      · split_ifs at * <;> omega
      · split_ifs at * <;> omega
      · intro m; split_ifs <;> omega
    · refine ⟨e + 1, ?_, ?_, ?_, ?_⟩
      · split_ifs at * <;> omega
      · split_ifs at * <;> omega
      · split_ifs at * <;> omega
      · intro m; split_ifs <;> omega

theorem idx_surj {na nb ta tb : Nat} (ha : ta ≤ na) (hb : tb ≤ nb) : ∃ e, e < numEntries na nb (ta + tb) ∧ tA na (ta + tb) e = ta ∧
    tB na (ta + tb) e = tb := by
  unfold numEntries tA tB
  by_cases h : ta + tb ≤ na
  · refine ⟨tb, ?_, ?_, ?_⟩ <;> split_ifs <;> omega
  · refine ⟨na - ta, ?_, ?_, ?_⟩ <;> split_ifs <;> omega

/-! ### Arrays -/

theorem readAt_ok {l : List Int} {i : Int} {n : Nat} (h : i = n) (hn : n < l.length) : readAt l i = .ok (l.getD n 0) := by
  subst h
  unfold readAt
  rw [if_pos (by omega)]
  simp

theorem cell_lt {bi n m e : Nat} (hb : bi < n) (he : e < m) : bi * m + e < n * m := by
  have : (bi + 1) * m ≤ n * m := Nat.mul_le_mul_right m hb
  rw [Nat.add_mul] at this
  omega

theorem cell_inj {a b m e f : Nat} (he : e < m) (hf : f < m) (h : a * m + e = b * m + f) : a = b := by
  have h1 : (a * m + e) / m = a := by rw [Nat.mul_comm, Nat.mul_add_div (by omega), Nat.div_eq_of_lt he]; rfl
  have h2 : (b * m + f) / m = b := by rw [Nat.mul_comm, Nat.mul_add_div (by omega), Nat.div_eq_of_lt hf]; rfl
  rw [← h1, ← h2, h]

theorem getD_set (l : List Int) (i j : Nat) (x : Int) (hi : i < l.length) : (l.set i x).getD j 0 = if i = j then x else l.getD j 0 := by
  simp only [List.getD_eq_getElem?_getD, List.getElem?_set]
  by_cases h : i = j
  · subst h; simp [hi]
  · simp [h]

/-! ### The kernel -/

/-- The symbols of one batch entry. -/
def symNA (i : Inputs) (bi k : Nat) : Int := i.a.getD (bi * i.na + k) 0
def symNB (i : Inputs) (bi k : Nat) : Int := i.b.getD (bi * i.nb + k) 0

/-- The value of a cell of a diagonal. -/
def cellVal (i : Inputs) (d bi e : Nat) : Int := dp (symNA i bi) (symNB i bi) (tA i.na d e) (tB i.na d e)

/-- A buffer has the values of a diagonal. -/
def HasDiag (i : Inputs) (d : Nat) (buf : List Int) : Prop :=
  ∀ bi, bi < i.nBatch → ∀ e, e < numEntries i.na i.nb d → buf.getD (bi * maxEntries i.na i.nb + e) 0 = cellVal i d bi e

structure WF (i : Inputs) : Prop where
  a : i.a.length = i.nBatch * i.na
  b : i.b.length = i.nBatch * i.nb
  aLen : i.aLen.length = i.nBatch
  bLen : i.bLen.length = i.nBatch
  lens : ∀ bi, bi < i.nBatch → ∃ la lb : Nat, i.aLen.getD bi 0 = la ∧ i.bLen.getD bi 0 = lb ∧ la ≤ i.na ∧ lb ≤ i.nb

theorem cost_spec {i : Inputs} (hw : WF i) {d : Nat} {last1 last2 : List Int} (h1 : last1.length = i.nBatch * maxEntries i.na i.nb)
    (h2 : last2.length = i.nBatch * maxEntries i.na i.nb) (hd : d ≤ i.na + i.nb) (hl2 : 1 ≤ d → HasDiag i (d - 1) last2)
    (hl1 : 2 ≤ d → HasDiag i (d - 2) last1) {bi e : Nat} (hbi : bi < i.nBatch) (he : e < numEntries i.na i.nb d) :
    cost i d last1 last2 bi (bi * maxEntries i.na i.nb + e) (tA i.na d e) (tB i.na d e) = .ok (cellVal i d bi e) := by
  obtain ⟨hta, htb, hsum⟩ := tA_le hd he
  unfold cost cellVal
  split
  · rename_i h0
    rw [h0]
    simp [dp]
  · split
    · rename_i h0
      rw [h0, dp_zero]
    · obtain ⟨e1, p1, p2, p3, p4, p5, p6, p7⟩ := idx_del hd he (by omega) (by omega)
      obtain ⟨e2, q1, q2, q3, q4⟩ := idx_sub hd he (by omega) (by omega)
      have hm1 := num_le_max (na := i.na) (nb := i.nb) (d := d - 1) (by omega)
      have hm2 := num_le_max (na := i.na) (nb := i.nb) (d := d - 2) (by omega)
      have c1 := cell_lt hbi (show e1 < maxEntries i.na i.nb by omega)
      have c2 := cell_lt hbi (show e1 + 1 < maxEntries i.na i.nb by omega)
      have c3 := cell_lt hbi (show e2 < maxEntries i.na i.nb by omega)
      obtain ⟨ta, hta'⟩ : ∃ t, tA i.na d e = t + 1 := ⟨tA i.na d e - 1, by omega⟩
      obtain ⟨tb, htb'⟩ : ∃ t, tB i.na d e = t + 1 := ⟨tB i.na d e - 1, by omega⟩
      have c4 := cell_lt hbi (show ta < i.na by omega)
      have c5 := cell_lt hbi (show tb < i.nb by omega)
      have r1 := hl2 (by omega) bi hbi e1 p1
      have r2 := hl2 (by omega) bi hbi (e1 + 1) p4
      have r3 := hl1 (by omega) bi hbi e2 q1
      unfold cellVal at r1 r2 r3
      simp only [Nat.cast_add]
      rw [p7, q4]
      rw [readAt_ok (n := bi * maxEntries i.na i.nb + e1) (by push_cast; rfl) (by omega)]
      simp only [Except.bind]
      rw [readAt_ok (n := bi * maxEntries i.na i.nb + (e1 + 1)) (by push_cast; omega) (by omega)]
      simp only
      rw [readAt_ok (n := bi * maxEntries i.na i.nb + e2) (by push_cast; rfl) (by omega)]
      simp only
      rw [readAt_ok (n := bi * i.na + ta) (by rw [hta']; push_cast; omega) (by rw [hw.a]; omega)]
      simp only
      rw [readAt_ok (n := bi * i.nb + tb) (by rw [htb']; push_cast; omega) (by rw [hw.b]; omega)]
      simp only
      rw [r1, r2, r3, p2, p6, show tB i.na (d - 1) e1 = tb by omega, show tA i.na (d - 1) (e1 + 1) = ta by omega,
        show tA i.na (d - 2) e2 = ta by omega, show tB i.na (d - 2) e2 = tb by omega, hta', htb', dp]
      unfold symNA symNB
      congr 2
      split_ifs <;> simp

/-- The result for a batch entry. -/
def resVal (i : Inputs) (bi : Nat) : Int := dp (symNA i bi) (symNB i bi) (i.aLen.getD bi 0).toNat (i.bLen.getD bi 0).toNat

/-- What one thread iteration does. -/
theorem kernel1_spec {i : Inputs} (hw : WF i) {d : Nat} {last1 last2 : List Int} (h1 : last1.length = i.nBatch * maxEntries i.na i.nb)
    (h2 : last2.length = i.nBatch * maxEntries i.na i.nb) (hd : d ≤ i.na + i.nb) (hl2 : 1 ≤ d → HasDiag i (d - 1) last2)
    (hl1 : 2 ≤ d → HasDiag i (d - 2) last1) {s : List Int × List Int} (hs1 : s.1.length = i.nBatch * maxEntries i.na i.nb)
    (hs2 : s.2.length = i.nBatch) {bi e : Nat} (hbi : bi < i.nBatch) (he : e < numEntries i.na i.nb d) :
    ∃ out, kernel1 i d last1 last2 s (bi * numEntries i.na i.nb d + e) = .ok (s.1.set (bi * maxEntries i.na i.nb + e) (cellVal i d bi e), out) ∧
      out.length = i.nBatch ∧
      (∀ bj, s.2.getD bj 0 = resVal i bj → out.getD bj 0 = resVal i bj) ∧
      ((tA i.na d e : Int) = i.aLen.getD bi 0 → (tB i.na d e : Int) = i.bLen.getD bi 0 → out.getD bi 0 = resVal i bi) := by
  have hnum := num_pos (na := i.na) (nb := i.nb) hd
  have hdiv : (bi * numEntries i.na i.nb d + e) / numEntries i.na i.nb d = bi := by
    rw [Nat.mul_comm, Nat.mul_add_div hnum, Nat.div_eq_of_lt he]; rfl
  have hmod : (bi * numEntries i.na i.nb d + e) % numEntries i.na i.nb d = e := by
    rw [Nat.mul_comm, Nat.mul_add_mod, Nat.mod_eq_of_lt he]
  have hmax := num_le_max (na := i.na) (nb := i.nb) hd
  have hcell := cell_lt hbi (show e < maxEntries i.na i.nb by omega)
  unfold kernel1
  simp only [hdiv, hmod, cost_spec hw h1 h2 hd hl2 hl1 hbi he, Except.bind]
  have hwr : writeAt s.1 (bi * maxEntries i.na i.nb + e) (cellVal i d bi e) = .ok (s.1.set (bi * maxEntries i.na i.nb + e) (cellVal i d bi e)) := by
    unfold writeAt
    rw [if_pos (by omega)]
  rw [hwr]
  simp only
  unfold writeResult
  rw [readAt_ok (n := bi) rfl (by rw [hw.aLen]; exact hbi)]
  simp only [Except.bind]
  rw [readAt_ok (n := bi) rfl (by rw [hw.bLen]; exact hbi)]
  simp only
  by_cases hc : (tA i.na d e : Int) = i.aLen.getD bi 0 ∧ (tB i.na d e : Int) = i.bLen.getD bi 0
  · rw [if_pos hc]
    unfold writeAt
    rw [if_pos (by omega)]
    have hv : cellVal i d bi e = resVal i bi := by
      unfold cellVal resVal
      rw [← hc.1, ← hc.2]
      simp
    refine ⟨s.2.set bi (cellVal i d bi e), rfl, by simpa using hs2, ?_, ?_⟩
    · intro bj hbj
      rw [getD_set _ _ _ _ (by omega)]
      split
      · rename_i hij; subst hij; exact hv
      · exact hbj
    · intro _ _
      rw [getD_set _ _ _ _ (by omega), if_pos rfl]
      exact hv
  · rw [if_neg hc]
    exact ⟨s.2, rfl, hs2, fun _ h => h, fun ha hb => (hc ⟨ha, hb⟩).elim⟩

theorem kernel_spec {i : Inputs} (hw : WF i) {d : Nat} {last1 last2 : List Int} (h1 : last1.length = i.nBatch * maxEntries i.na i.nb)
    (h2 : last2.length = i.nBatch * maxEntries i.na i.nb) (hd : d ≤ i.na + i.nb) (hl2 : 1 ≤ d → HasDiag i (d - 1) last2)
    (hl1 : 2 ≤ d → HasDiag i (d - 2) last1) : ∀ (ord : List Nat) (s : List Int × List Int), s.1.length = i.nBatch * maxEntries i.na i.nb →
    s.2.length = i.nBatch → (∀ idx ∈ ord, idx < i.nBatch * numEntries i.na i.nb d) →
    ∃ cur out, kernel i d last1 last2 ord s = .ok (cur, out) ∧ cur.length = i.nBatch * maxEntries i.na i.nb ∧ out.length = i.nBatch ∧
      (∀ bi, bi < i.nBatch → ∀ e, e < numEntries i.na i.nb d → s.1.getD (bi * maxEntries i.na i.nb + e) 0 = cellVal i d bi e →
        cur.getD (bi * maxEntries i.na i.nb + e) 0 = cellVal i d bi e) ∧
      (∀ bi, bi < i.nBatch → ∀ e, e < numEntries i.na i.nb d → bi * numEntries i.na i.nb d + e ∈ ord →
        cur.getD (bi * maxEntries i.na i.nb + e) 0 = cellVal i d bi e ∧
        ((tA i.na d e : Int) = i.aLen.getD bi 0 → (tB i.na d e : Int) = i.bLen.getD bi 0 → out.getD bi 0 = resVal i bi)) ∧
      (∀ bj, s.2.getD bj 0 = resVal i bj → out.getD bj 0 = resVal i bj)
  | [], s, hs1, hs2, _ => ⟨s.1, s.2, rfl, hs1, hs2, fun _ _ _ _ h => h, fun _ _ _ _ h => by simp at h, fun _ h => h⟩
  | idx :: ord, s, hs1, hs2, ho => by
    have hnum := num_pos (na := i.na) (nb := i.nb) hd
    have hmax := num_le_max (na := i.na) (nb := i.nb) hd
    have hidx := ho idx (by simp)
    have hbi : idx / numEntries i.na i.nb d < i.nBatch := (Nat.div_lt_iff_lt_mul hnum).2 hidx
    have he : idx % numEntries i.na i.nb d < numEntries i.na i.nb d := Nat.mod_lt _ hnum
    have hdec : idx / numEntries i.na i.nb d * numEntries i.na i.nb d + idx % numEntries i.na i.nb d = idx := Nat.div_add_mod' _ _
    obtain ⟨out1, k1, k2, k3, k4⟩ := kernel1_spec hw h1 h2 hd hl2 hl1 hs1 hs2 hbi he
    rw [hdec] at k1
    have hcell := cell_lt hbi (show idx % numEntries i.na i.nb d < maxEntries i.na i.nb by omega)
    obtain ⟨cur, out, r1, r2, r3, r4, r5, r6⟩ := kernel_spec hw h1 h2 hd hl2 hl1 ord
      (s.1.set (idx / numEntries i.na i.nb d * maxEntries i.na i.nb + idx % numEntries i.na i.nb d)
        (cellVal i d (idx / numEntries i.na i.nb d) (idx % numEntries i.na i.nb d)), out1) (by simpa using hs1) k2 (fun x hx => ho x (by simp [hx]))
    refine ⟨cur, out, ?_, r2, r3, ?_, ?_, fun bj h => r6 bj (k3 bj h)⟩
    · rw [kernel, k1]
      exact r1
    · intro bi hbi' e he' h
      apply r4 bi hbi' e he'
      rw [getD_set _ _ _ _ (by omega)]
      split
      · rename_i hc
        have hpos : 0 < maxEntries i.na i.nb := by omega
        have hb : idx / numEntries i.na i.nb d = bi := by
          exact cell_inj (show idx % numEntries i.na i.nb d < maxEntries i.na i.nb by omega) (show e < maxEntries i.na i.nb by omega) hc
        have hee : idx % numEntries i.na i.nb d = e := by rw [hb] at hc; omega
        rw [hb, hee]
      · exact h
    · intro bi hbi' e he' hmem
      rcases List.mem_cons.1 hmem with hmem | hmem
      · have hb : idx / numEntries i.na i.nb d = bi := by
          rw [← hmem, Nat.mul_comm, Nat.mul_add_div hnum, Nat.div_eq_of_lt he']; rfl
        have hee : idx % numEntries i.na i.nb d = e := by rw [← hmem, Nat.mul_comm, Nat.mul_add_mod, Nat.mod_eq_of_lt he']
        rw [hb, hee] at k4
        refine ⟨r4 bi hbi' e he' ?_, fun ha hb' => r6 bi (k4 ha hb')⟩
        rw [hb, hee] at hcell ⊢
        rw [getD_set _ _ _ _ (by omega), if_pos rfl]
      · exact r5 bi hbi' e he' hmem

/-! ### All diagonals -/

structure NInv (i : Inputs) (d : Nat) (s : St) : Prop where
  l1 : s.last1.length = i.nBatch * maxEntries i.na i.nb
  l2 : s.last2.length = i.nBatch * maxEntries i.na i.nb
  l3 : s.cur.length = i.nBatch * maxEntries i.na i.nb
  lo : s.out.length = i.nBatch
  d1 : 1 ≤ d → HasDiag i (d - 1) s.last2
  d2 : 2 ≤ d → HasDiag i (d - 2) s.last1
  res : ∀ bi, bi < i.nBatch → (i.aLen.getD bi 0) + (i.bLen.getD bi 0) < d → s.out.getD bi 0 = resVal i bi

theorem native_spec {i : Inputs} (hw : WF i) {order : Nat → List Nat}
    (ho : ∀ d, d ≤ i.na + i.nb → ∀ idx, idx ∈ order d ↔ idx < i.nBatch * numEntries i.na i.nb d) {s : St} (h0 : NInv i 0 s) :
    ∀ n, n ≤ i.na + i.nb + 1 → ∃ s', native i order n s = .ok s' ∧ NInv i n s'
  | 0, _ => ⟨s, rfl, h0⟩
  | n + 1, hn => by
    obtain ⟨s', e1, hi⟩ := native_spec hw ho h0 n (by omega)
    obtain ⟨cur, out, k1, k2, k3, k4, k5, k6⟩ := kernel_spec hw hi.l1 hi.l2 (by omega) hi.d1 hi.d2 (order n) (s'.cur, s'.out) hi.l3 hi.lo
      (fun idx h => (ho n (by omega) idx).1 h)
    refine ⟨⟨s'.last2, cur, s'.last1, out⟩, by rw [native, e1]; simp only [Except.bind]; rw [k1], ?_⟩
    have hall : ∀ bi, bi < i.nBatch → ∀ e, e < numEntries i.na i.nb n → bi * numEntries i.na i.nb n + e ∈ order n :=
      fun bi hbi e he => (ho n (by omega) _).2 (cell_lt hbi he)
    refine ⟨hi.l2, k2, hi.l1, k3, ?_, ?_, ?_⟩
    · intro _ bi hbi e he
      exact (k5 bi hbi e he (hall bi hbi e he)).1
    · intro h
      exact hi.d1 (by omega)
    · intro bi hbi hlt
      obtain ⟨la, lb, hla, hlb, h1, h2⟩ := hw.lens bi hbi
      by_cases hc : la + lb = n
      · obtain ⟨e, he, hea, heb⟩ := idx_surj h1 h2
        rw [hc] at he hea heb
        exact (k5 bi hbi e he (hall bi hbi e he)).2 (by rw [hea, hla]) (by rw [heb, hlb])
      · apply k6
        apply hi.res bi hbi
        rw [hla, hlb] at hlt ⊢
        push_cast at hlt
        omega

/-- **C56** The native op gives the edit distance for each batch entry, for every order of the threads and whatever is in the
uninitialised work buffers, and never accesses memory out of bounds. -/
theorem editDistanceOp_correct {i : Inputs} (hw : WF i) {order : Nat → List Nat}
    (ho : ∀ d, d ≤ i.na + i.nb → (order d).Perm (List.range (i.nBatch * numEntries i.na i.nb d))) {buf1 buf2 buf3 : List Int}
    (hb1 : buf1.length = i.nBatch * min (i.na + 1) (i.nb + 1)) (hb2 : buf2.length = i.nBatch * min (i.na + 1) (i.nb + 1))
    (hb3 : buf3.length = i.nBatch * min (i.na + 1) (i.nb + 1)) :
    ∃ out, editDistanceOp i order buf1 buf2 buf3 = .ok out ∧ out.length = i.nBatch ∧
      ∀ bi, bi < i.nBatch → IsDist (((i.a.drop (bi * i.na)).take (i.aLen.getD bi 0).toNat)) (((i.b.drop (bi * i.nb)).take (i.bLen.getD bi 0).toNat))
        (out.getD bi 0) := by
  have hmax : maxEntries i.na i.nb = min (i.na + 1) (i.nb + 1) := by unfold maxEntries; split_ifs <;> omega
  have h0 : NInv i 0 ⟨buf1, buf2, buf3, List.replicate i.nBatch (-1)⟩ := by
    refine ⟨by rw [hmax]; exact hb1, by rw [hmax]; exact hb2, by rw [hmax]; exact hb3, by simp, by intro h; omega, by intro h; omega, ?_⟩
    intro bi hbi h
    obtain ⟨la, lb, hla, hlb, _⟩ := hw.lens bi hbi
    rw [hla, hlb] at h
    omega
  obtain ⟨s', e1, hi⟩ := native_spec hw (fun d hd idx => by rw [(ho d hd).mem_iff, List.mem_range]) h0 (i.na + i.nb + 1) (le_refl _)
  refine ⟨s'.out, by unfold editDistanceOp; rw [e1]; rfl, hi.lo, ?_⟩
  intro bi hbi
  obtain ⟨la, lb, hla, hlb, h1, h2⟩ := hw.lens bi hbi
  rw [hi.res bi hbi (by rw [hla, hlb]; push_cast; omega)]
  unfold resVal
  rw [hla, hlb]
  simp only [Int.toNat_natCast]
  have key := dp_isDist (symNA i bi) (symNB i bi) la lb
  have ca : bi * i.na + i.na ≤ i.a.length := by
    have := Nat.mul_le_mul_right i.na (show bi + 1 ≤ i.nBatch from hbi)
    rw [Nat.add_mul] at this
    rw [hw.a]; omega
  have cb : bi * i.nb + i.nb ≤ i.b.length := by
    have := Nat.mul_le_mul_right i.nb (show bi + 1 ≤ i.nBatch from hbi)
    rw [Nat.add_mul] at this
    rw [hw.b]; omega
  rw [pre_eq_take _ (i.a.drop (bi * i.na)) la (by simp; omega) (fun k _ => by rw [getD_drop]; rfl),
    pre_eq_take _ (i.b.drop (bi * i.nb)) lb (by simp; omega) (fun k _ => by rw [getD_drop]; rfl)] at key
  exact key

/-! ### Example -/

example : (editDistanceOp ⟨2, 3, 2, [1, 2, 3, 4, 4, 9], [1, 3, 5, 9], [3, 2], [2, 1]⟩ (fun d => (List.range (2 * numEntries 3 2 d)).reverse)
    [7, 7, 7, 7, 7, 7] [8, 8, 8, 8, 8, 8] [9, 9, 9, 9, 9, 9]) = .ok [1, 2] := by decide +kernel
example : WF ⟨2, 3, 2, [1, 2, 3, 4, 4, 9], [1, 3, 5, 9], [3, 2], [2, 1]⟩ := by
  refine ⟨rfl, rfl, rfl, rfl, ?_⟩
  intro bi h
  have : bi = 0 ∨ bi = 1 := by simp at h; omega
  rcases this with rfl | rfl
  · exact ⟨3, 2, rfl, rfl, by decide, by decide⟩
  · exact ⟨2, 1, rfl, rfl, by decide, by decide⟩

end Verif.EditDist
