import Verif.Postproc.Lemmas
/-
What comes out of a `PostprocessingDataset` (C93).
-/
namespace Verif.Postproc

open Verif.Py

variable {V R : Type}

/-- The state after `init_seq_order`. -/
theorem init_state {o : Opts V R} {ds : List (Seq V)} {known : Bool} {epoch : Nat} {seqList : Option (List String)} {so : Bool}
    {st : St V} (h : init o ds known epoch seqList so = .ok st) :
    ∃ ns, st = at_ (build o ds epoch seqList).items (build o ds epoch seqList).err ns 0 ∧
      ns = if (o.mapStream.isNone || o.preserves) && known then some ds.length else none := by
  unfold init at h
  split at h
  · simp at h
  · simp only [Except.ok.injEq] at h
    exact ⟨_, by rw [← h]; rfl, rfl⟩

/-- Every sequence which comes out, whatever was asked for before. -/
theorem collectAll_right {items : List (TD V)} {ns : Option Nat} (idxs : List Nat) :
    ∀ (err : Option Err) (k : Nat), (∀ i ∈ idxs, k ≤ i) → idxs.Pairwise (· < ·) →
      ∀ p ∈ idxs.zip (collectAll idxs (at_ items err ns k)), ∀ s, p.2 = .ok (some s) →
        ∃ t, items[p.1]? = some t ∧ toSeq p.1 t = .ok s := by
  induction idxs with
  | nil => intro err k _ _ p hp; simp at hp
  | cons i r ih =>
    intro err k hk hp p hpm s hs
    simp only [collectAll, List.zip_cons_cons, List.mem_cons] at hpm
    rw [List.pairwise_cons] at hp
    have hki : k ≤ i := hk i (by simp)
    rcases hpm with rfl | hpm
    · exact (collect_right hki hs).1
    · obtain ⟨err', k', hst, hk', _⟩ := collect_state (items := items) (err := err) (ns := ns) hki
      rw [hst] at hpm
      exact ih err' k' (fun j hj => by have := hp.1 j hj; omega) hp.2 p hpm s hs

/-- All indices give their item. -/
theorem collectAll_ok {items : List (TD V)} {ns : Option Nat} {seqs : List (DSeq V)} (hlen : seqs.length = items.length)
    (hns : ∀ n, ns = some n → n = items.length)
    (hseq : ∀ i t s, items[i]? = some t → seqs[i]? = some s → toSeq i t = .ok s) (idxs : List Nat) :
    ∀ (k : Nat), k ≤ items.length → (∀ i ∈ idxs, k ≤ i) → idxs.Pairwise (· < ·) →
      collectAll idxs (at_ items none ns k) = idxs.map (fun i => .ok seqs[i]?) := by
  have hend : ∀ (idxs : List Nat), (∀ i ∈ idxs, items.length ≤ i) →
      collectAll idxs (at_ items none ns items.length) = idxs.map (fun i => .ok seqs[i]?) := by
    intro idxs
    induction idxs with
    | nil => intro _; rfl
    | cons i r ih =>
      intro h
      have hi := h i (by simp)
      simp only [collectAll, List.map_cons]
      rw [collect_end (Nat.le_refl _) hi hi (fun n hn => by rw [hns n hn])]
      simp only
      rw [ih (fun j hj => h j (by simp [hj]))]
      have : ns.all (fun n => decide (items.length = n)) = true := by
        cases ns with
        | none => rfl
        | some n => simp [hns n rfl]
      rw [if_pos this, List.getElem?_eq_none (by omega)]
  induction idxs with
  | nil => intro k _ _ _; rfl
  | cons i r ih =>
    intro k hk hki hp
    rw [List.pairwise_cons] at hp
    have hi := hki i (by simp)
    simp only [collectAll, List.map_cons]
    by_cases hlt : i < items.length
    · have h1 : items[i]? = some items[i] := List.getElem?_eq_getElem hlt
      have h2 : seqs[i]? = some seqs[i] := List.getElem?_eq_getElem (by omega)
      obtain ⟨c1, c2⟩ := collect_item (err := none) (ns := ns) hi _ h1 (fun n hn => by rw [hns n hn]; omega)
      rw [c1, c2, hseq i _ _ h1 h2, h2, ih (i + 1) (by omega) (fun j hj => hp.1 j hj) hp.2]
      rfl
    · have := hend (i :: r) (fun j hj => by
        rcases List.mem_cons.mp hj with rfl | hj
        · omega
        · have := hp.1 j hj; omega)
      have hce : collect i (at_ items none ns k) = collect i (at_ items none ns items.length) := by
        rw [collect_end hk hi (by omega) (fun n hn => by rw [hns n hn]),
          collect_end (Nat.le_refl _) (by omega) (by omega) (fun n hn => by rw [hns n hn])]
      rw [hce]
      simpa [collectAll] using this

theorem mapped_length {f : Nat → Nat → R → TD V → Res (TD V × R)} {epoch : Nat} {ds : List (Seq V)} {i : Nat} {rng : R}
    {ts : List (TD V)} (h : Mapped f epoch ds i rng ts) : ts.length = ds.length := by
  induction h with
  | nil => rfl
  | cons _ _ ih => simp [ih]

theorem expectedAll_length (ds : List (Seq V)) (ts : List (TD V)) (h : ts.length = ds.length) (i : Nat) :
    (expectedAll i ds ts).length = ds.length := by
  induction ds generalizing i ts with
  | nil => cases ts <;> rfl
  | cons s ds ih =>
    cases ts with
    | nil => simp at h
    | cons t ts => simp only [expectedAll, List.length_cons]; rw [ih ts (by simpa using h)]

theorem readd_expected (s : Seq V) (t : TD V) (i : Nat) (hf : t.frac ≠ some none) :
    toSeq i (readd s t) = .ok (expected i s t) ∧ (readd s t).frac.getD none = t.frac.getD s.frac ∧ (readd s t).data = t.data ∧
      (readd s t).frac ≠ some none ∧ (readd s t).tag = some (t.tag.getD s.tag) := by
  obtain ⟨d, f, g⟩ := t
  obtain ⟨sg, sd, sf⟩ := s
  cases f with
  | none => cases sf <;> cases g <;> simp [readd, toSeq, expected]
  | some f =>
    cases f with
    | none => simp at hf
    | some f => cases sf <;> cases g <;> simp [readd, toSeq, expected]

theorem iterate_mapped {o : Opts V R} {f : Nat → Nat → R → TD V → Res (TD V × R)} (hf : o.mapSeq = some f) {epoch : Nat}
    {seqList : Option (List String)} {ds : List (Seq V)} {i : Nat} {rng : R} {ts : List (TD V)} (h : Mapped f epoch ds i rng ts)
    (hfr : ∀ t ∈ ts, t.frac ≠ some none)
    (htags : ∀ l, seqList = some l → ∀ x ∈ expectedAll i ds ts, l[x.idx]? = some x.tag) :
    iterate o epoch seqList ds i rng = ⟨List.zipWith readd ds ts, none⟩ := by
  induction h with
  | nil => rfl
  | @cons s r i rng rng' t ts h hr ih =>
    unfold iterate
    simp only [hf]
    have h' : f epoch i rng (inputOf s) = .ok (t, rng') := h
    rw [h']
    simp only
    obtain ⟨_, _, _, _, e5⟩ := readd_expected s t i (hfr t (by simp))
    have htag : tagOk seqList i (readd s t) = .ok () := by
      unfold tagOk
      cases seqList with
      | none => rfl
      | some l =>
        have := htags l rfl (expected i s t) (by simp [expectedAll])
        simp only [expected] at this
        simp only [this, e5, if_true]
    rw [htag]
    simp only
    rw [ih (fun t ht => hfr t (by simp [ht])) (fun l hl x hx => htags l hl x (by simp [expectedAll, hx]))]
    rfl

theorem fracs_eq (ds : List (Seq V)) (ts : List (TD V)) (i : Nat) (hfr : ∀ t ∈ ts, t.frac ≠ some none) :
    (List.zipWith readd ds ts).filterMap (fun t => t.frac.getD none) = (expectedAll i ds ts).filterMap DSeq.frac := by
  induction ds generalizing ts i with
  | nil => cases ts <;> rfl
  | cons s ds ih =>
    cases ts with
    | nil => rfl
    | cons t ts =>
      obtain ⟨_, e2, _⟩ := readd_expected s t i (hfr t (by simp))
      simp only [List.zipWith_cons_cons, List.filterMap_cons, expectedAll, e2]
      rw [ih ts (i + 1) (fun t ht => hfr t (by simp [ht]))]
      rfl

theorem zip_expected (ds : List (Seq V)) (ts : List (TD V)) (k : Nat) (hfr : ∀ t ∈ ts, t.frac ≠ some none) (i : Nat) (t : TD V)
    (s : DSeq V) (h1 : (List.zipWith readd ds ts)[i]? = some t) (h2 : (expectedAll k ds ts)[i]? = some s) :
    toSeq (k + i) t = .ok s := by
  induction ds generalizing ts k i with
  | nil => cases ts <;> simp [expectedAll] at h2
  | cons a ds ih =>
    cases ts with
    | nil => simp [expectedAll] at h2
    | cons b ts =>
      cases i with
      | zero =>
        simp only [List.zipWith_cons_cons, List.getElem?_cons_zero, Option.some.injEq, expectedAll] at h1 h2
        subst h1 h2
        exact (readd_expected a b k (hfr b (by simp))).1
      | succ i =>
        simp only [List.zipWith_cons_cons, List.getElem?_cons_succ, expectedAll] at h1 h2
        have := ih ts (k + 1) (fun t ht => hfr t (by simp [ht])) i h1 h2
        rw [← this]
        congr 1
        omega

/-- **C93** With `map_seq`: the sequences are those of the wrapped dataset, one for one and in their order, with what the function
makes of them, in whatever steps they are asked for.  `_partial`: the wrapped dataset has to give a fraction for all sequences, or the
function has to drop the entry. -/
theorem map_seq_partial (o : Opts V R) (f : Nat → Nat → R → TD V → Res (TD V × R)) (hf : o.mapSeq = some f)
    (hs : o.mapStream = none) (ds : List (Seq V)) (known : Bool) (epoch : Nat) (seqList : Option (List String)) (so : Bool)
    (ts : List (TD V)) (hm : Mapped f epoch ds 0 (o.seed epoch) ts)
    (hfr : ∀ t ∈ ts, t.frac ≠ some none) (hfracs : Fracs ((expectedAll 0 ds ts).filterMap DSeq.frac))
    (hcheck : ∀ t ∈ ts, o.check t.data = .ok ())
    (htags : ∀ l, seqList = some l → ∀ x ∈ expectedAll 0 ds ts, l[x.idx]? = some x.tag)
    (idxs : List Nat) (hidxs : idxs.Pairwise (· < ·)) :
    ∃ st, init o ds known epoch seqList so = .ok st ∧
      collectAll idxs st = idxs.map (fun i => .ok (expectedAll 0 ds ts)[i]?) := by
  have hlen := mapped_length hm
  have hb : build o ds epoch seqList = ⟨List.zipWith readd ds ts, none⟩ := by
    unfold build
    simp only [hs]
    rw [iterate_mapped hf hm hfr htags]
    apply validate_ok
    · intro t ht
      obtain ⟨a, b, ha, hb', rfl⟩ : ∃ a b, a ∈ ds ∧ b ∈ ts ∧ t = readd a b := by
        have : ∀ (ds : List (Seq V)) (ts : List (TD V)), t ∈ List.zipWith readd ds ts → ∃ a b, a ∈ ds ∧ b ∈ ts ∧ t = readd a b := by
          intro ds
          induction ds with
          | nil => intro ts h; simp at h
          | cons s ds ih =>
            intro ts h
            cases ts with
            | nil => simp at h
            | cons x ts =>
              simp only [List.zipWith_cons_cons, List.mem_cons] at h
              rcases h with rfl | h
              · exact ⟨s, x, by simp, by simp, rfl⟩
              · obtain ⟨a, b, ha, hb, e⟩ := ih ts h
                exact ⟨a, b, by simp [ha], by simp [hb], e⟩
        exact this ds ts ht
      obtain ⟨_, _, e3, e4, _⟩ := readd_expected a b 0 (hfr b hb')
      rw [e3]
      exact ⟨hcheck b hb', e4⟩
    · rw [fracs_eq ds ts 0 hfr]
      intro x hx
      have := hfracs.1 x hx
      exact ⟨this.1, this⟩
    · rw [fracs_eq ds ts 0 hfr]
      exact hfracs.2
  have hinit : init o ds known epoch seqList so =
      .ok (at_ (List.zipWith readd ds ts) none (if known then some ds.length else none) 0) := by
    unfold init
    simp [hs, hb, at_]
  refine ⟨_, hinit, ?_⟩
  have hzl : (List.zipWith readd ds ts).length = ds.length := by simp [List.length_zipWith, hlen]
  refine collectAll_ok ?_ ?_ ?_ idxs 0 (by omega) (fun _ _ => by omega) hidxs
  · rw [expectedAll_length ds ts hlen 0, hzl]
  · intro n hn
    split at hn
    · simp only [Option.some.injEq] at hn; omega
    · simp at hn
  · intro i t s h1 h2
    have := zip_expected ds ts 0 hfr i t s h1 h2
    rwa [Nat.zero_add] at this

theorem iterate_inputs {o : Opts V R} (hm : o.mapSeq = none) (epoch : Nat) (seqList : Option (List String)) (ds : List (Seq V))
    (i : Nat) (rng : R) :
    iterate o epoch seqList ds i rng = ⟨ds.map (fun s => ⟨s.data, some s.frac, some s.tag⟩), none⟩ := by
  induction ds generalizing i with
  | nil => rfl
  | cons s r ih =>
    unfold iterate
    simp only [hm]
    rw [ih]
    rfl

/-- What the function of the user makes of the whole epoch. -/
def streamOut (o : Opts V R) (f : Nat → R → Gen (TD V) → Gen (TD V)) (ds : List (Seq V)) (epoch : Nat) : Gen (TD V) :=
  f epoch (o.seed epoch) ⟨ds.map (fun s => ⟨s.data, some s.frac, some s.tag⟩), none⟩

/-- **C93** With `map_seq_stream`: a sequence which comes out as number `i` is number `i` of what the function yields, also if some
were not asked for, or there were errors before.  (No hypothesis on the function.) -/
theorem stream_right (o : Opts V R) (f : Nat → R → Gen (TD V) → Gen (TD V)) (hs : o.mapStream = some f) (hm : o.mapSeq = none)
    (ds : List (Seq V)) (known : Bool) (epoch : Nat) (st : St V) (h : init o ds known epoch none false = .ok st)
    (idxs : List Nat) (hidxs : idxs.Pairwise (· < ·)) (i : Nat) (x : DSeq V)
    (hc : (i, .ok (some x)) ∈ idxs.zip (collectAll idxs st)) :
    ∃ t, (streamOut o f ds epoch).items[i]? = some t ∧ o.check t.data = .ok () ∧
      x = ⟨i, t.tag.getD (s!"seq-{i}"), t.data, t.frac.getD none⟩ := by
  obtain ⟨ns, rfl, _⟩ := init_state h
  obtain ⟨t, h1, h2⟩ := collectAll_right idxs _ 0 (fun _ _ => by omega) hidxs _ hc x rfl
  simp only at h1 h2
  have hb : build o ds epoch none = validate o.check (streamOut o f ds epoch).items (streamOut o f ds epoch).err 0 := by
    unfold build streamOut
    simp only [hs, iterate_inputs hm]
  rw [hb] at h1
  obtain ⟨r, p1, p2, _, _⟩ := validate_prefix o.check (streamOut o f ds epoch).items (streamOut o f ds epoch).err 0
  obtain ⟨c1, c2⟩ := p2 t (List.mem_of_getElem? h1)
  refine ⟨t, ?_, c1, ?_⟩
  · rw [p1, List.getElem?_append_left]
    · exact h1
    · by_contra hc
      rw [List.getElem?_eq_none (by omega)] at h1
      simp at h1
  · unfold toSeq at h2
    split at h2
    · simp at h2
    · next e => simp only [Except.ok.injEq] at h2; rw [← h2, e]; rfl
    · next f e => simp only [Except.ok.injEq] at h2; rw [← h2, e]; rfl

theorem filterMap_sublist_of_idxs {items : List (TD V)} (idxs : List Nat) (hidxs : idxs.Pairwise (· < ·)) :
    (idxs.filterMap (fun i => items[i]?)).Sublist items := by
  have : ∀ (idxs : List Nat) (k : Nat), idxs.Pairwise (· < ·) → (∀ i ∈ idxs, k ≤ i) →
      (idxs.filterMap (fun i => items[i]?)).Sublist (items.drop k) := by
    intro idxs
    induction idxs with
    | nil => intro k _ _; simp
    | cons i r ih =>
      intro k hp hk
      rw [List.pairwise_cons] at hp
      have hr := ih (i + 1) hp.2 (fun j hj => hp.1 j hj)
      have hki := hk i (by simp)
      have hsub : (items.drop i).Sublist (items.drop k) := by
        rw [show i = k + (i - k) by omega, ← List.drop_drop]
        exact List.drop_sublist _ _
      simp only [List.filterMap_cons]
      by_cases hi : i < items.length
      · rw [List.getElem?_eq_getElem hi]
        simp only
        refine List.Sublist.trans ?_ hsub
        rw [List.drop_eq_getElem_cons hi]
        exact hr.cons_cons _
      · rw [List.getElem?_eq_none (by omega)]
        simp only
        refine hr.trans ?_
        rw [List.drop_eq_nil_of_le (by omega)]
        simp
  have h := this idxs 0 hidxs (fun _ _ => by omega)
  simpa using h

/-- **C93** The fractions which come out lie between 0 and 1 and do not go down, whatever the functions of the user do. -/
theorem fracs_right (o : Opts V R) (ds : List (Seq V)) (known : Bool) (epoch : Nat) (seqList : Option (List String)) (so : Bool)
    (st : St V) (h : init o ds known epoch seqList so = .ok st) (idxs : List Nat) (hidxs : idxs.Pairwise (· < ·)) :
    Fracs ((collectAll idxs st).filterMap (fun r => match r with | .ok (some x) => x.frac | _ => none)) := by
  obtain ⟨ns, rfl, _⟩ := init_state h
  obtain ⟨g, hg⟩ : ∃ g, build o ds epoch seqList = g := ⟨_, rfl⟩
  have hv : (∀ x ∈ g.items.filterMap (fun t => t.frac.getD none), 0 ≤ x ∧ x ≤ 1) ∧
      (g.items.filterMap (fun t => t.frac.getD none)).Pairwise (· ≤ ·) := by
    rw [← hg]
    unfold build
    obtain ⟨_, _, _, p3, p4⟩ := validate_prefix o.check
      (match o.mapStream with
        | none => iterate o epoch seqList ds 0 (o.seed epoch)
        | some f => f epoch (o.seed epoch) (iterate o epoch seqList ds 0 (o.seed epoch))).items
      (match o.mapStream with
        | none => iterate o epoch seqList ds 0 (o.seed epoch)
        | some f => f epoch (o.seed epoch) (iterate o epoch seqList ds 0 (o.seed epoch))).err 0
    exact ⟨fun x hx => (p3 x hx).2, p4⟩
  rw [hg]
  have hsub : ((collectAll idxs (at_ g.items g.err ns 0)).filterMap
      (fun r => match r with | .ok (some x) => x.frac | _ => none)).Sublist (g.items.filterMap (fun t => t.frac.getD none)) := by
    have hgen : ∀ (idxs : List Nat) (err : Option Err) (k : Nat), idxs.Pairwise (· < ·) → (∀ i ∈ idxs, k ≤ i) →
        ((collectAll idxs (at_ g.items err ns k)).filterMap
          (fun r => match r with | .ok (some x) => x.frac | _ => none)).Sublist
          ((idxs.filterMap (fun i => g.items[i]?)).filterMap (fun t => t.frac.getD none)) := by
      intro idxs
      induction idxs with
      | nil => intro err k _ _; simp [collectAll]
      | cons i r ih =>
        intro err k hp hk
        rw [List.pairwise_cons] at hp
        have hki := hk i (by simp)
        obtain ⟨err', k', hst, hk', _⟩ := collect_state (items := g.items) (err := err) (ns := ns) hki
        have hr := ih err' k' hp.2 (fun j hj => by have := hp.1 j hj; omega)
        have hmid : ((r.filterMap (fun i => g.items[i]?)).filterMap (fun t => t.frac.getD none)).Sublist
            (((i :: r).filterMap (fun i => g.items[i]?)).filterMap (fun t : TD V => t.frac.getD none)) :=
          ((List.sublist_cons_self i r).filterMap _).filterMap _
        simp only [collectAll, hst]
        rw [List.filterMap_cons]
        cases hc : (collect i (at_ g.items err ns k)).1 with
        | error e => exact hr.trans hmid
        | ok q =>
          cases q with
          | none => exact hr.trans hmid
          | some x =>
            obtain ⟨⟨t, ht, hts⟩, _⟩ := collect_right hki hc
            have hxf : x.frac = t.frac.getD none := by
              unfold toSeq at hts
              split at hts
              · simp at hts
              · next e => simp only [Except.ok.injEq] at hts; rw [← hts, e]; rfl
              · next f e => simp only [Except.ok.injEq] at hts; rw [← hts, e]; rfl
            simp only [List.filterMap_cons, ht, ← hxf]
            cases x.frac with
            | none => exact hr
            | some f => exact hr.cons_cons f
    exact (hgen idxs g.err 0 hidxs (fun _ _ => by omega)).trans ((filterMap_sublist_of_idxs idxs hidxs).filterMap _)
  exact ⟨fun x hx => hv.1 x (hsub.subset hx), hv.2.sublist hsub⟩

/-- **C93** Asked for given tags, the dataset gives these or an error. -/
theorem seq_list_right (o : Opts V R) (f : Nat → Nat → R → TD V → Res (TD V × R)) (hf : o.mapSeq = some f)
    (ds : List (Seq V)) (known : Bool) (epoch : Nat) (l : List String) (so : Bool)
    (st : St V) (h : init o ds known epoch (some l) so = .ok st) (idxs : List Nat) (hidxs : idxs.Pairwise (· < ·)) (i : Nat)
    (x : DSeq V) (hc : (i, .ok (some x)) ∈ idxs.zip (collectAll idxs st)) : l[i]? = some x.tag := by
  have hs : o.mapStream = none := by
    unfold init at h
    cases hm : o.mapStream with
    | none => rfl
    | some f => simp [hm] at h
  obtain ⟨ns, rfl, _⟩ := init_state h
  obtain ⟨t, h1, h2⟩ := collectAll_right idxs _ 0 (fun _ _ => by omega) hidxs _ hc x rfl
  simp only at h1 h2
  have hit : ∀ (ds : List (Seq V)) (k : Nat) (rng : R) (j : Nat) (t : TD V),
      (iterate o epoch (some l) ds k rng).items[j]? = some t → ∃ tag, l[k + j]? = some tag ∧ t.tag = some tag := by
    intro ds
    induction ds with
    | nil => intro k rng j t h; simp [iterate] at h
    | cons s r ih =>
      intro k rng j t h
      unfold iterate at h
      simp only [hf] at h
      cases he : f epoch k rng (inputOf s) with
      | error e => rw [he] at h; simp at h
      | ok p =>
        obtain ⟨t', rng'⟩ := p
        rw [he] at h
        simp only at h
        cases htag : tagOk (some l) k (readd s t') with
        | error e => rw [htag] at h; simp at h
        | ok u =>
          rw [htag] at h
          simp only at h
          cases j with
          | zero =>
            simp only [List.getElem?_cons_zero, Option.some.injEq] at h
            subst h
            unfold tagOk at htag
            simp only at htag
            split at htag
            · simp at htag
            · next tag ht =>
              split at htag
              · next e => exact ⟨tag, ht, e⟩
              · simp at htag
          | succ j =>
            simp only [List.getElem?_cons_succ] at h
            obtain ⟨tag, a, b⟩ := ih (k + 1) rng' j t h
            exact ⟨tag, by rw [← a]; congr 1; omega, b⟩
  have hb : build o ds epoch (some l) = validate o.check (iterate o epoch (some l) ds 0 (o.seed epoch)).items
      (iterate o epoch (some l) ds 0 (o.seed epoch)).err 0 := by
    unfold build
    simp only [hs]
  rw [hb] at h1
  obtain ⟨r, p1, _⟩ := validate_prefix o.check (iterate o epoch (some l) ds 0 (o.seed epoch)).items
    (iterate o epoch (some l) ds 0 (o.seed epoch)).err 0
  have h1' : (iterate o epoch (some l) ds 0 (o.seed epoch)).items[i]? = some t := by
    rw [p1, List.getElem?_append_left]
    · exact h1
    · by_contra hc
      rw [List.getElem?_eq_none (by omega)] at h1
      simp at h1
  obtain ⟨tag, a, b⟩ := hit ds 0 _ i t h1'
  rw [Nat.zero_add] at a
  rw [a]
  unfold toSeq at h2
  split at h2
  · simp at h2
  · simp only [Except.ok.injEq] at h2; rw [← h2, b]; rfl
  · simp only [Except.ok.injEq] at h2; rw [← h2, b]; rfl

/-- **C93** If the number of sequences is said to be kept, but fewer are yielded, then there is an error, not a shorter epoch. -/
theorem fewer_raises (o : Opts V R) (f : Nat → R → Gen (TD V) → Gen (TD V)) (hs : o.mapStream = some f) (hm : o.mapSeq = none)
    (hp : o.preserves = true) (ds : List (Seq V)) (epoch : Nat) (st : St V)
    (h : init o ds true epoch none false = .ok st) (hfew : (streamOut o f ds epoch).items.length < ds.length)
    (idxs : List Nat) (hidxs : idxs.Pairwise (· < ·)) (i : Nat) (hi : (streamOut o f ds epoch).items.length ≤ i)
    (r : Res (Option (DSeq V))) (hc : (i, r) ∈ idxs.zip (collectAll idxs st)) : ∃ e, r = .error e := by
  obtain ⟨ns, rfl, hns⟩ := init_state h
  have hb : build o ds epoch none = validate o.check (streamOut o f ds epoch).items (streamOut o f ds epoch).err 0 := by
    unfold build streamOut
    simp only [hs, iterate_inputs hm]
  obtain ⟨rr, p1, _⟩ := validate_prefix o.check (streamOut o f ds epoch).items (streamOut o f ds epoch).err 0
  rw [← hb] at p1
  have hlen : (build o ds epoch none).items.length ≤ (streamOut o f ds epoch).items.length := by
    have := congrArg List.length p1
    simp only [List.length_append] at this
    omega
  simp only [hp, Bool.or_true, Bool.and_self, if_true] at hns
  subst hns
  have hgen : ∀ (idxs : List Nat) (err : Option Err) (k : Nat), idxs.Pairwise (· < ·) → (∀ i ∈ idxs, k ≤ i) → k ≤ (build o ds epoch none).items.length →
      (i, r) ∈ idxs.zip (collectAll idxs (at_ (build o ds epoch none).items err (some ds.length) k)) → ∃ e, r = .error e := by
    intro idxs
    induction idxs with
    | nil => intro err k _ _ _ h; simp at h
    | cons j q ih =>
      intro err k hp hk hkl hm
      rw [List.pairwise_cons] at hp
      have hkj := hk j (by simp)
      simp only [collectAll, List.zip_cons_cons, List.mem_cons] at hm
      rcases hm with hm | hm
      · simp only [Prod.mk.injEq] at hm
        obtain ⟨rfl, rfl⟩ := hm
        cases hcr : (collect i (at_ (build o ds epoch none).items err (some ds.length) k)).1 with
        | error e => exact ⟨e, rfl⟩
        | ok x =>
          exfalso
          cases x with
          | some s =>
            obtain ⟨⟨t, ht, _⟩, _⟩ := collect_right hkj hcr
            rw [List.getElem?_eq_none (by omega)] at ht
            simp at ht
          | none =>
            · rw [collect_end hkl hkj (by omega) (by intro n hn; simp only [Option.some.injEq] at hn; omega)] at hcr
              cases err with
              | some e => simp at hcr
              | none =>
                simp only [Option.all_some] at hcr
                rw [if_neg (by simp; omega)] at hcr
                simp at hcr
      · obtain ⟨err', k', hst, hk', hk''⟩ := collect_state (items := (build o ds epoch none).items) (err := err) (ns := some ds.length) hkj
        rw [hst] at hm
        exact ih err' k' hp.2 (fun j' hj => by have := hp.1 j' hj; omega) (hk'' hkl) hm
  exact hgen idxs _ 0 hidxs (fun _ _ => by omega) (by omega) hc

/-- A wrapped dataset which does not know its fraction (`get_complete_frac` is `None`): the first sequence is an error, unless the
function drops the (empty) entry `complete_frac`. -/
theorem no_frac_raises (o : Opts V R) (f : Nat → Nat → R → TD V → Res (TD V × R)) (hf : o.mapSeq = some f)
    (hs : o.mapStream = none) (s : Seq V) (r : List (Seq V)) (known : Bool) (epoch : Nat) (t : TD V) (rng : R)
    (hm : f epoch 0 (o.seed epoch) ⟨s.data, some s.frac, some s.tag⟩ = .ok (t, rng)) (hfr : t.frac = some none) :
    ∃ st, init o (s :: r) known epoch none false = .ok st ∧ (collect 0 st).1 = .error .typeError := by
  have hre : (readd s t).frac = some none := by
    unfold readd
    rw [hfr]
    simp only
    split <;> simp [hfr]
  have hb : build o (s :: r) epoch none = ⟨[], some .typeError⟩ := by
    unfold build
    simp only [hs]
    unfold iterate
    have hm' : f epoch 0 (o.seed epoch) (inputOf s) = .ok (t, rng) := hm
    simp only [hf, hm', tagOk]
    unfold validate
    simp only [checkFrac, hre]
  refine ⟨_, by unfold init; simp only [hs, hb]; rfl, ?_⟩
  simp [collect, collectLoop]

/-- Sequences which are yielded beyond the number which was said to be kept are never asked for, and there is no error. -/
theorem extra_dropped :
    ∃ (o : Opts Nat Nat) (ds : List (Seq Nat)) (st : St Nat), o.preserves = true ∧ o.mapStream.isSome ∧
      init o ds true 1 none false = .ok st ∧ st.numSeqs = some 1 ∧ st.rest.length = 2 ∧
      (collect 0 st).1.isOk = true ∧ ds.length = 1 :=
  ⟨⟨none, some (fun _ _ g => ⟨g.items ++ g.items, g.err⟩), true, fun e => e, fun _ => .ok ()⟩,
    [⟨"a", [("data", 1)], some 1⟩], _, rfl, rfl, rfl, rfl, by decide +kernel, by decide +kernel, rfl⟩

/-- A wrapped dataset with three sequences, and a function which adds a random number. -/
def exDs : List (Seq Nat) := [⟨"a", [("data", 1)], some 0⟩, ⟨"b", [("data", 2)], some (1 / 2)⟩, ⟨"c", [("data", 3)], some 1⟩]

def exF : Nat → Nat → Nat → TD Nat → Res (TD Nat × Nat) :=
  fun _ _ rng t => .ok (⟨t.data.map (fun p => (p.1, p.2 + rng)), none, none⟩, rng + 1)

def exO : Opts Nat Nat := ⟨some exF, none, false, fun e => 10 * e, fun _ => .ok ()⟩

def exTs : List (TD Nat) := [⟨[("data", 11)], none, none⟩, ⟨[("data", 13)], none, none⟩, ⟨[("data", 15)], none, none⟩]

example : Mapped exF 1 exDs 0 (exO.seed 1) exTs ∧ (∀ t ∈ exTs, t.frac ≠ some none) ∧
    Fracs ((expectedAll 0 exDs exTs).filterMap DSeq.frac) ∧ (∀ t ∈ exTs, exO.check t.data = .ok ()) ∧
    ((expectedAll 0 exDs exTs).map DSeq.tag) = ["a", "b", "c"] := by
  refine ⟨.cons rfl (.cons rfl (.cons rfl (.nil _ _))), by simp [exTs], ?_, fun _ _ => rfl, rfl⟩
  have : (expectedAll 0 exDs exTs).filterMap DSeq.frac = [0, 1 / 2, 1] := rfl
  rw [this]
  unfold Fracs
  decide +kernel

/-- A stream which joins neighbours. -/
def exS : Opts Nat Nat := ⟨none, some (fun _ _ g => ⟨g.items.drop 1, g.err⟩), false, fun e => e, fun _ => .ok ()⟩

example : ∃ st, init exS exDs true 1 none false = .ok st ∧
    (collectAll [1] st).map (fun r => match r with | .ok (some x) => (x.tag, x.features) | _ => ("", [])) = [("c", [("data", 3)])] :=
  ⟨_, rfl, by decide +kernel⟩

/-- The same tags asked for. -/
example : ∃ st, init exO exDs true 1 (some ["a", "b", "c"]) false = .ok st ∧
    (collectAll [0, 2] st).map (fun r => match r with | .ok (some x) => (x.tag, x.features) | _ => ("", [])) =
      [("a", [("data", 11)]), ("c", [("data", 15)])] :=
  ⟨_, rfl, by decide +kernel⟩

/-- A stream which says that it keeps the number, but does not. -/
example : ∃ st, init { exS with preserves := true } exDs true 1 none false = .ok st ∧
    (streamOut exS (fun _ _ g => ⟨g.items.drop 1, g.err⟩) exDs 1).items.length < exDs.length ∧
    (collectAll [0, 1, 2] st).map (fun r => match r with | .ok _ => true | _ => false) = [true, true, false] :=
  ⟨_, rfl, by decide +kernel, by decide +kernel⟩

theorem collectLoop_none (i : Nat) (err : Option Err) (ns : Option Nat) (l : List (TD V)) (idx produced : Nat) (h : idx ≤ i)
    (hr : (collectLoop i err ns l idx produced).1 = .ok none) : err = none ∧ idx + l.length ≤ i := by
  induction l generalizing idx produced with
  | nil =>
    unfold collectLoop at hr
    cases err with
    | some e => simp at hr
    | none => exact ⟨rfl, by simpa using h⟩
  | cons t r ih =>
    unfold collectLoop at hr
    dsimp only at hr
    split at hr
    · by_cases he : idx ≠ i
      · rw [if_pos he] at hr
        obtain ⟨h1, h2⟩ := ih (idx + 1) (produced + 1) (by omega) hr
        exact ⟨h1, by simp only [List.length_cons]; omega⟩
      · rw [if_neg he] at hr
        cases hs : toSeq i t with
        | error e => rw [hs] at hr; simp at hr
        | ok s => rw [hs] at hr; simp at hr
    · simp at hr

theorem iterate_length {o : Opts V R} {epoch : Nat} {seqList : Option (List String)} {ds : List (Seq V)} {i : Nat} {rng : R}
    (h : (iterate o epoch seqList ds i rng).err = none) : (iterate o epoch seqList ds i rng).items.length = ds.length := by
  induction ds generalizing i rng with
  | nil => rfl
  | cons s r ih =>
    unfold iterate at h ⊢
    cases hm : o.mapSeq with
    | none => rw [hm] at h; simp only [List.length_cons] at h ⊢; rw [ih h]
    | some f =>
      rw [hm] at h
      simp only at h ⊢
      cases hf : f epoch i rng (inputOf s) with
      | error e => rw [hf] at h; simp at h
      | ok p =>
        obtain ⟨t, rng'⟩ := p
        rw [hf] at h
        simp only at h ⊢
        cases ht : tagOk seqList i (readd s t) with
        | error e => rw [ht] at h; simp at h
        | ok u => rw [ht] at h; simp only [List.length_cons] at h ⊢; rw [ih h]

theorem validate_length {check : Dict String V → Res Unit} {l : List (TD V)} {e : Option Err} {last : Rat}
    (h : (validate check l e last).err = none) : (validate check l e last).items.length = l.length ∧ e = none := by
  induction l generalizing last with
  | nil => exact ⟨rfl, h⟩
  | cons t r ih =>
    unfold validate at h ⊢
    cases hc : checkFrac last t with
    | error e' => rw [hc] at h; simp at h
    | ok last' =>
      rw [hc] at h
      simp only at h ⊢
      cases hd : check t.data with
      | error e' => rw [hd] at h; simp at h
      | ok u =>
        rw [hd] at h
        simp only [List.length_cons] at h ⊢
        exact ⟨by rw [(ih h).1], (ih h).2⟩

/-- **C93.** With `map_seq` an epoch does not end early: as long as nothing raised, the answer "no more sequences" is given only
for indices behind the sequences of the wrapped dataset.  So an exception in the function is not taken for the end. -/
theorem no_early_end (o : Opts V R) (hs : o.mapStream = none) (ds : List (Seq V)) (known : Bool) (epoch : Nat)
    (seqList : Option (List String)) (so : Bool) (st : St V) (h : init o ds known epoch seqList so = .ok st) (idxs : List Nat)
    (hidxs : idxs.Pairwise (· < ·)) (hok : ∀ x ∈ collectAll idxs st, ∃ y, x = .ok y) (i : Nat)
    (hi : (i, .ok none) ∈ idxs.zip (collectAll idxs st)) : ds.length ≤ i := by
  obtain ⟨ns, rfl, -⟩ := init_state h
  have hlen : (build o ds epoch seqList).err = none → (build o ds epoch seqList).items.length = ds.length := by
    intro he
    unfold build at he ⊢
    simp only [hs] at he ⊢
    rw [(validate_length he).1, iterate_length (validate_length he).2]
  generalize (build o ds epoch seqList) = g at hlen hok hi
  have key : ∀ (idxs : List Nat) (k : Nat), k ≤ g.items.length → (∀ i ∈ idxs, k ≤ i) → idxs.Pairwise (· < ·) →
      (∀ x ∈ collectAll idxs (at_ g.items g.err ns k), ∃ y, x = .ok y) →
      (i, .ok none) ∈ idxs.zip (collectAll idxs (at_ g.items g.err ns k)) → g.err = none ∧ g.items.length ≤ i := by
    intro idxs
    induction idxs with
    | nil => intro k _ _ _ _ hm; simp at hm
    | cons j r ih =>
      intro k hk hkj hp hok hm
      rw [List.pairwise_cons] at hp
      have hj := hkj j (by simp)
      obtain ⟨y, hy⟩ := hok _ (List.mem_cons_self)
      have hnone : y = none → g.err = none ∧ g.items.length ≤ j := by
        intro hyn
        rw [hyn] at hy
        obtain ⟨h1, h2⟩ := collectLoop_none _ _ _ _ _ _ (by simpa [at_] using hj) hy
        refine ⟨by simpa [at_] using h1, ?_⟩
        simp only [at_, List.length_drop] at h2
        omega
      simp only [collectAll, List.zip_cons_cons, List.mem_cons, Prod.mk.injEq] at hm
      cases y with
      | none =>
        obtain ⟨h1, h2⟩ := hnone rfl
        refine ⟨h1, ?_⟩
        rcases hm with ⟨rfl, -⟩ | hm
        · exact h2
        · have := hp.1 i (List.of_mem_zip hm).1
          omega
      | some s =>
        obtain ⟨⟨t, ht, -⟩, hst⟩ := collect_right hj hy
        rcases hm with ⟨rfl, hm⟩ | hm
        · rw [hy] at hm; simp at hm
        · rw [hst] at hm
          refine ih (j + 1) ?_ (fun a ha => hp.1 a ha) hp.2 (fun x hx => hok x ?_) hm
          · by_contra hc
            rw [List.getElem?_eq_none (by omega)] at ht
            simp at ht
          · rw [collectAll, hst]
            exact List.mem_cons_of_mem _ hx
  obtain ⟨h1, h2⟩ := key idxs 0 (Nat.zero_le _) (fun _ _ => Nat.zero_le _) hidxs hok hi
  rw [hlen h1] at h2
  exact h2

end Verif.Postproc
