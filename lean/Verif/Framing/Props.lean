import Verif.Framing.Model
import Mathlib.Data.List.Basic
/-
Theorems about the framing (C18).
-/
namespace Verif.Framing
open Verif.Py

theorem read_spec (r : Reader) (n : Nat) (hn : 0 < n) :
    ∃ m s, r.read n = (r.rest.take m, ⟨r.rest.drop m, s⟩) ∧ 0 < m ∧ m ≤ n := by
  unfold Reader.read
  cases r.sched with
  | nil => exact ⟨n, [], rfl, hn, Nat.le_refl _⟩
  | cons k s => exact ⟨min n (max 1 k), s, rfl, by omega, by omega⟩

theorem readLoop_spec (fuel : Nat) (r : Reader) (need : Nat) (buf : List Nat) (hf : need ≤ fuel) :
    (need ≤ r.rest.length → ∃ s, readLoop fuel r need buf = .ok (buf ++ r.rest.take need, ⟨r.rest.drop need, s⟩)) ∧
    (r.rest.length < need → readLoop fuel r need buf = .error .eof) := by
  induction fuel generalizing r need buf with
  | zero =>
    have : need = 0 := by omega
    subst this
    refine ⟨fun _ => ⟨r.sched, by simp [readLoop]⟩, fun h => absurd h (by omega)⟩
  | succ fuel ih =>
    unfold readLoop
    by_cases hn : need > 0
    · obtain ⟨m, s, hr, hm0, hmn⟩ := read_spec r need hn
      simp only [hn, if_true, hr]
      by_cases he : r.rest.length = 0
      · have : (r.rest.take m).length = 0 := by simp [he]
        simp only [this, if_true]
        exact ⟨fun h => absurd h (by omega), fun _ => trivial⟩
      · have hl : (r.rest.take m).length = min m r.rest.length := by simp
        have hne : ¬ (r.rest.take m).length = 0 := by omega
        simp only [hne, if_false]
        obtain ⟨i1, i2⟩ := ih ⟨r.rest.drop m, s⟩ (need - (r.rest.take m).length) (buf ++ r.rest.take m) (by omega)
        simp only [List.length_drop] at i1 i2
        refine ⟨fun h => ?_, fun h => i2 (by omega)⟩
        obtain ⟨s', hs⟩ := i1 (by omega)
        refine ⟨s', ?_⟩
        rw [hs, hl, show min m r.rest.length = m by omega]
        congr 2
        · rw [List.append_assoc]
          congr 1
          conv_rhs => rw [show need = m + (need - m) by omega, List.take_add]
        · congr 1
          rw [List.drop_drop, show m + (need - m) = need by omega]
    · have : need = 0 := by omega
      subst this
      exact ⟨fun _ => ⟨r.sched, by simp⟩, fun h => absurd h (by omega)⟩

theorem readBytes_spec (r : Reader) (n : Nat) :
    (n ≤ r.rest.length → ∃ s, readBytes r n = .ok (r.rest.take n, ⟨r.rest.drop n, s⟩)) ∧
    (r.rest.length < n → readBytes r n = .error .eof) := by
  have := readLoop_spec n r n [] (Nat.le_refl n)
  simpa [readBytes] using this

theorem unpack_pack (n : Nat) (h : List Nat) (hp : pack n = .ok h) : h.length = 4 ∧ unpack h = .ok (n : Int) := by
  unfold pack at hp
  split at hp
  · rename_i hn
    injection hp with hp
    subst hp
    refine ⟨rfl, ?_⟩
    simp only [unpack]
    have : n % 256 + 256 * (n / 256 % 256) + 65536 * (n / 65536 % 256) + 16777216 * (n / 16777216 % 256) = n := by omega
    rw [this]
    simp only [show ¬ n ≥ 2147483648 by omega, if_false]
  · cases hp

theorem writeObj_spec {O : Type} (dump : O → List Nat) (o : O) (b : List Nat) (h : writeObj dump o = .ok b) :
    ∃ hd, pack (dump o).length = .ok hd ∧ b = hd ++ dump o ∧ 0 < (dump o).length := by
  unfold writeObj at h
  simp only [bind, Except.bind, pyAssert] at h
  by_cases h0 : (dump o).length > 0
  · simp only [h0, decide_true, if_true] at h
    cases hp : pack (dump o).length with
    | error e => rw [hp] at h; cases h
    | ok hd => rw [hp] at h; injection h with h; exact ⟨hd, rfl, h.symm, h0⟩
  · simp [h0] at h

/-- Reading from a stream which starts with a complete frame, or with a part of it only. -/
theorem readObj_spec {O : Type} (dump : O → List Nat) (load : List Nat → Res O) (hload : ∀ o, load (dump o) = .ok o)
    (o : O) (b rest : List Nat) (h : writeObj dump o = .ok b) (s : List Nat) :
    (∃ s', readObj load ⟨b ++ rest, s⟩ = .ok (o, ⟨rest, s'⟩)) ∧
    (∀ p, p <+: b → p ≠ b → readObj load ⟨p, s⟩ = .error .eof) := by
  obtain ⟨hd, hp, rfl, h0⟩ := writeObj_spec dump o b h
  obtain ⟨hl, hu⟩ := unpack_pack _ _ hp
  have hpos : (((dump o).length : Int) > 0) := by omega
  constructor
  · obtain ⟨s1, r1⟩ := (readBytes_spec ⟨hd ++ dump o ++ rest, s⟩ 4).1 (by simp [hl])
    have ht : (hd ++ dump o ++ rest).take 4 = hd := by
      rw [List.append_assoc, List.take_append_of_le_length (by omega), ← hl, List.take_length]
    have hd' : (hd ++ dump o ++ rest).drop 4 = dump o ++ rest := by
      rw [List.append_assoc, ← hl, List.drop_left]
    simp only [ht, hd'] at r1
    rw [List.append_assoc] at r1
    obtain ⟨s2, r2⟩ := (readBytes_spec ⟨dump o ++ rest, s1⟩ (dump o).length).1 (by simp)
    simp only [List.take_left, List.drop_left] at r2
    refine ⟨s2, ?_⟩
    simp [readObj, bind, Except.bind, r1, hu, pyAssert, h0, r2, hload]
  · intro p hpre hne
    have hlen : p.length < (hd ++ dump o).length := by
      rcases Nat.lt_or_ge p.length (hd ++ dump o).length with h | h
      · exact h
      · exact absurd (hpre.eq_of_length_le h) hne
    by_cases h4 : p.length < 4
    · simp [readObj, bind, Except.bind, (readBytes_spec ⟨p, s⟩ 4).2 h4]
    · obtain ⟨s1, r1⟩ := (readBytes_spec ⟨p, s⟩ 4).1 (by simp; omega)
      obtain ⟨t, ht⟩ := hpre
      have htk : p.take 4 = hd := by
        have := congrArg (List.take 4) ht
        rw [List.take_append_of_le_length (by omega), List.take_append_of_le_length (by omega)] at this
        rw [this, ← hl, List.take_length]
      simp only [htk] at r1
      have r2 := (readBytes_spec ⟨p.drop 4, s1⟩ (dump o).length).2 (by simp at hlen ⊢; omega)
      simp [readObj, bind, Except.bind, r1, hu, pyAssert, h0, r2]

/-- C18. Whatever part of the written bytes arrives before the end of file, and in whatever pieces: the reader gets the
objects of all completely received frames, in order and unchanged, and then `EOFError`. -/
theorem framing_prefix {O : Type} (dump : O → List Nat) (load : List Nat → Res O) (hload : ∀ o, load (dump o) = .ok o)
    (objs : List O) (bytes : List Nat) (h : writeAll dump objs = .ok bytes) (p : List Nat) (hp : p <+: bytes) (s : List Nat) :
    ∃ j ≤ objs.length, readUntilError load (objs.length + 1) ⟨p, s⟩ = (objs.take j, some .eof) ∧
      (∃ b, writeAll dump (objs.take j) = .ok b ∧ b <+: p) ∧
      (j < objs.length → ∃ b, writeAll dump (objs.take (j + 1)) = .ok b ∧ p.length < b.length) := by
  induction objs generalizing bytes p s with
  | nil =>
    simp only [writeAll, Except.ok.injEq] at h
    subst h
    have : p = [] := List.prefix_nil.mp hp
    subst this
    refine ⟨0, Nat.le_refl _, ?_, ⟨[], rfl, by simp⟩, fun h => absurd h (by simp)⟩
    have := (readBytes_spec ⟨[], s⟩ 4).2 (by simp)
    simp [readUntilError, readObj, bind, Except.bind, this]
  | cons o os ih =>
    simp only [writeAll, bind, Except.bind] at h
    cases ha : writeObj dump o with
    | error e => rw [ha] at h; cases h
    | ok a =>
      rw [ha] at h
      simp only at h
      cases hb : writeAll dump os with
      | error e => rw [hb] at h; cases h
      | ok b =>
        rw [hb] at h
        simp only [Except.ok.injEq] at h
        subst h
        by_cases hle : a.length ≤ p.length
        · obtain ⟨t, ht⟩ := hp
          have hpa : p = a ++ p.drop a.length := by
            have h1 := congrArg (List.take a.length) ht
            rw [List.take_append_of_le_length hle, List.take_left] at h1
            conv_lhs => rw [← List.take_append_drop a.length p, h1]
          have hq : p.drop a.length <+: b := by
            refine ⟨t, ?_⟩
            have h1 := congrArg (List.drop a.length) ht
            rw [List.drop_append_of_le_length hle, List.drop_left] at h1
            exact h1
          obtain ⟨⟨s', r1⟩, _⟩ := readObj_spec dump load hload o a (p.drop a.length) ha s
          obtain ⟨j, j1, j2, ⟨c, c1, c2⟩, j4⟩ := ih b hb (p.drop a.length) hq s'
          refine ⟨j + 1, by simp; omega, ?_, ⟨a ++ c, ?_, ?_⟩, ?_⟩
          · rw [hpa]
            unfold readUntilError
            rw [r1]
            simp only [List.length_cons, j2, List.take_succ_cons]
          · simp [writeAll, bind, Except.bind, ha, c1]
          · rw [hpa]; exact (List.prefix_append_right_inj a).mpr c2
          · intro hlt
            obtain ⟨d, d1, d2⟩ := j4 (by simp at hlt; omega)
            refine ⟨a ++ d, by simp [writeAll, bind, Except.bind, ha, d1], ?_⟩
            simp at d2 ⊢; omega
        · have hpa : p <+: a := by
            refine List.prefix_of_prefix_length_le hp (List.prefix_append a b) (by omega)
          obtain ⟨_, r2⟩ := readObj_spec dump load hload o a [] ha s
          have := r2 p hpa (by intro e; subst e; exact hle (Nat.le_refl _))
          refine ⟨0, by simp, ?_, ⟨[], rfl, by simp⟩, fun _ => ⟨a, by simp [writeAll, bind, Except.bind, ha], by omega⟩⟩
          unfold readUntilError
          rw [this]; rfl

/-- C18: if all bytes arrive then all objects are read. -/
theorem framing_roundtrip {O : Type} (dump : O → List Nat) (load : List Nat → Res O) (hload : ∀ o, load (dump o) = .ok o)
    (objs : List O) (bytes : List Nat) (h : writeAll dump objs = .ok bytes) (s : List Nat) :
    readUntilError load (objs.length + 1) ⟨bytes, s⟩ = (objs, some .eof) := by
  obtain ⟨j, j1, j2, _, j4⟩ := framing_prefix dump load hload objs bytes h bytes (List.prefix_refl _) s
  rcases Nat.lt_or_ge j objs.length with hlt | hge
  · obtain ⟨b, b1, b2⟩ := j4 hlt
    exfalso
    -- the bytes of a part of the objects are not more than all bytes
    have hmono : ∀ (l : List O) (n : Nat) (x y : List Nat), writeAll dump (l.take n) = .ok x → writeAll dump l = .ok y →
        x.length ≤ y.length := by
      intro l
      induction l with
      | nil => intro n x y hx hy; simp [writeAll] at hx hy; subst hx; simp
      | cons o l ih =>
        intro n x y hx hy
        cases n with
        | zero => simp [writeAll] at hx; subst hx; simp
        | succ n =>
          simp only [List.take_succ_cons, writeAll, bind, Except.bind] at hx hy
          cases ha : writeObj dump o with
          | error e => rw [ha] at hx; cases hx
          | ok a =>
            rw [ha] at hx hy
            simp only at hx hy
            cases h1 : writeAll dump (l.take n) with
            | error e => rw [h1] at hx; cases hx
            | ok x' =>
              cases h2 : writeAll dump l with
              | error e => rw [h2] at hy; cases hy
              | ok y' =>
                rw [h1] at hx; rw [h2] at hy
                simp only [Except.ok.injEq] at hx hy
                subst hx; subst hy
                have := ih n x' y' h1 h2
                simp; omega
    have := hmono objs (j + 1) b bytes b1 h
    omega
  · have : j = objs.length := by omega
    subst this
    simpa using j2

/-- C18: `deserialize_object(serialize_object(o))` is `o`. -/
theorem deserialize_serialize {O : Type} (dump : O → List Nat) (load : List Nat → Res O) (hload : ∀ o, load (dump o) = .ok o)
    (o : O) (b : List Nat) (h : writeObj dump o = .ok b) : deserialize load b = .ok o := by
  obtain ⟨⟨s, r⟩, _⟩ := readObj_spec dump load hload o b [] h []
  simp at r
  simp [deserialize, bind, Except.bind, r]

/-- C18: writing fails exactly if the pickle is empty or does not fit the signed 32 bit length; nothing is written then. -/
theorem write_ok_iff {O : Type} (dump : O → List Nat) (o : O) :
    (∃ b, writeObj dump o = .ok b) ↔ 0 < (dump o).length ∧ (dump o).length < 2147483648 := by
  constructor
  · rintro ⟨b, h⟩
    obtain ⟨hd, hp, _, h0⟩ := writeObj_spec dump o b h
    refine ⟨h0, ?_⟩
    unfold pack at hp
    split at hp
    · assumption
    · cases hp
  · rintro ⟨h0, h1⟩
    simp [writeObj, bind, Except.bind, pyAssert, h0, pack, h1]

/-- A small instance: an object is a list of bytes with a leading mark; 300 bytes to use two length bytes. -/
def exDump (n : Nat) : List Nat := 7 :: List.replicate n 5
def exLoad (b : List Nat) : Res Nat := .ok (b.length - 1)

example : (match writeAll exDump [3, 300] with
    | .ok b => readUntilError exLoad 3 ⟨b, [1, 2, 50, 1, 1]⟩
    | .error _ => ([], none)) = ([3, 300], some .eof) := by decide +kernel

example : (match writeAll exDump [3, 300] with
    | .ok b => readUntilError exLoad 3 ⟨b.take 100, [1, 2, 50, 1, 1]⟩
    | .error _ => ([], none)) = ([3], some .eof) := by decide +kernel

example : ∀ n, exLoad (exDump n) = .ok n := by intro n; simp [exLoad, exDump]

end Verif.Framing
