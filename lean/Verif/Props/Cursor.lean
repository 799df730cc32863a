import Verif.Spec.Cursor
import Mathlib.Tactic.SplitIfs

/-! # Properties of `Cursor`: C12, C13 -/

namespace Souris

open Cursor

variable {α : Type}

/-- The cursor showing the zipper `(d, t)`. -/
def Cursor.ofZip (d t : List α) : Cursor α := ⟨d ++ t, d.length⟩

theorem Cursor.specStep_append (d t : List α) (op : Op) :
    (specStep d t op).2.1 ++ (specStep d t op).2.2 = d ++ t := by
  cases op <;> simp only [specStep]
  case moveForwards n => split_ifs <;> simp
  case moveBackwards n =>
    split_ifs
    · simp [← List.append_assoc]
    · rfl
  case read n => split_ifs <;> simp
  case readRemaining => simp
  case setPos n => simp
  case next => cases t <;> simp

theorem Cursor.moveForwards_eq (l : List α) (p n : Nat) (h : l.length < usizeMod) :
    (Cursor.mk l p).moveForwards n
      = if p + n ≤ l.length then (true, ⟨l, p + n⟩) else (false, ⟨l, p⟩) := by
  unfold moveForwards checkedAdd
  show (match if p + n < usizeMod then some (p + n) else none with
    | none => (false, Cursor.mk l p)
    | some newPos => if newPos > l.length then (false, ⟨l, p⟩) else (true, ⟨l, newPos⟩)) = _
  by_cases h1 : p + n ≤ l.length
  · rw [if_pos h1, if_pos (by omega)]
    exact if_neg (by omega)
  · rw [if_neg h1]
    by_cases h2 : p + n < usizeMod
    · rw [if_pos h2]; exact if_pos (by omega)
    · rw [if_neg h2]

theorem Cursor.moveBackwards_eq (l : List α) (p n : Nat) :
    (Cursor.mk l p).moveBackwards n
      = if n ≤ p then (true, ⟨l, p - n⟩) else (false, ⟨l, p⟩) := by
  unfold moveBackwards checkedSub
  show (match if n ≤ p then some (p - n) else none with
    | none => (false, Cursor.mk l p)
    | some newPos => (true, ⟨l, newPos⟩)) = _
  by_cases h1 : n ≤ p
  · rw [if_pos h1, if_pos h1]
  · rw [if_neg h1, if_neg h1]

theorem Cursor.read_eq (l : List α) (p n : Nat) (h : l.length < usizeMod) :
    (Cursor.mk l p).read n
      = if p + n ≤ l.length then (some ((l.drop p).take n), ⟨l, p + n⟩) else (none, ⟨l, p⟩) := by
  unfold Cursor.read checkedAdd
  show (match if p + n < usizeMod then some (p + n) else none with
    | none => (none, Cursor.mk l p)
    | some stop => if stop > l.length then (none, ⟨l, p⟩) else (some (slice l p stop), ⟨l, stop⟩)) = _
  by_cases h1 : p + n ≤ l.length
  · rw [if_pos h1, if_pos (by omega)]
    refine (if_neg (by omega)).trans ?_
    simp [slice]
  · rw [if_neg h1]
    by_cases h2 : p + n < usizeMod
    · rw [if_pos h2]; exact if_pos (by omega)
    · rw [if_neg h2]

theorem Cursor.peek_eq (l : List α) (p n : Nat) (h : l.length < usizeMod) :
    (Cursor.mk l p).peek n
      = if p + n ≤ l.length then some ((l.drop p).take n) else none := by
  unfold Cursor.peek checkedAdd
  show (match if p + n < usizeMod then some (p + n) else none with
    | none => none
    | some stop => if stop > l.length then none else some (slice l p stop)) = _
  by_cases h1 : p + n ≤ l.length
  · rw [if_pos h1, if_pos (by omega)]
    refine (if_neg (by omega)).trans ?_
    simp [slice]
  · rw [if_neg h1]
    by_cases h2 : p + n < usizeMod
    · rw [if_pos h2]; exact if_pos (by omega)
    · rw [if_neg h2]

theorem Cursor.implStep_ofZip (d t : List α) (h : (d ++ t).length < usizeMod) (op : Op) :
    implStep (ofZip d t) op
      = ((specStep d t op).1, ofZip (specStep d t op).2.1 (specStep d t op).2.2) := by
  show implStep ⟨d ++ t, d.length⟩ op = _
  have hiff : ∀ n, d.length + n ≤ (d ++ t).length ↔ n ≤ t.length := by
    intro n; simp
  cases op with
  | moveForwards n =>
    simp only [implStep, moveForwards_eq _ _ _ h, specStep, hiff]
    split_ifs with hc
    · simp [ofZip, Nat.min_eq_left hc]
    · rfl
  | moveBackwards n =>
    simp only [implStep, moveBackwards_eq, specStep]
    split_ifs with hc
    · simp [ofZip, ← List.append_assoc]
    · rfl
  | read n =>
    simp only [implStep, read_eq _ _ _ h, specStep, hiff]
    split_ifs with hc
    · simp [ofZip, Nat.min_eq_left hc]
    · rfl
  | peek n =>
    simp only [implStep, peek_eq _ _ _ h, specStep, hiff]
    simp [ofZip]
  | readRemaining =>
    cases t with
    | nil => simp [implStep, Cursor.readRemaining, specStep, ofZip]
    | cons x t =>
      have : ¬ d.length + (t.length + 1) ≤ d.length := by omega
      simp [implStep, Cursor.readRemaining, specStep, ofZip, if_neg this]
  | peekRemaining =>
    cases t with
    | nil => simp [implStep, Cursor.asRef, specStep, ofZip]
    | cons x t => simp [implStep, Cursor.asRef, specStep, ofZip]
  | pos => rfl
  | itemsRemaining => simp [implStep, Cursor.itemsRemaining, ofZip, specStep]
  | setPos n =>
    simp only [implStep, Cursor.setPos, specStep, ofZip, List.take_append_drop, List.length_take,
      Nat.min_comm]
  | isFinished => cases t <;> simp [implStep, Cursor.isFinished, specStep, ofZip]
  | next =>
    cases t with
    | nil => simp [implStep, Cursor.next, specStep, ofZip]
    | cons x t =>
      have : ¬ d.length + (t.length + 1) ≤ d.length := by omega
      simp [implStep, Cursor.next, specStep, ofZip, if_neg this]

/-- C12: on every slice that fits in memory and for every history of operations (with any offsets,
including those whose sum with the position exceeds `usize::MAX`), the cursor returns exactly what the
zipper returns and ends at the same place; in particular `read` returns exactly the next `n` items or
`None` without moving, and `items_remaining` never panics. -/
theorem C12_cursor_refine (items : List α) (h : items.length < 2 ^ 64) (ops : List Op) :
    let spec := specRun ops [] items
    let impl := implRun ops (Cursor.new items)
    impl.1 = spec.1 ∧ impl.2.backing = items ∧ spec.2.1 ++ spec.2.2 = items ∧
      impl.2.pos = spec.2.1.length ∧ impl.2.pos ≤ items.length := by
  have key : ∀ ops (d t : List α), d ++ t = items →
      (implRun ops (ofZip d t)).1 = (specRun ops d t).1 ∧
      (implRun ops (ofZip d t)).2 = ofZip (specRun ops d t).2.1 (specRun ops d t).2.2 ∧
      (specRun ops d t).2.1 ++ (specRun ops d t).2.2 = items := by
    intro ops
    induction ops with
    | nil => intro d t hd; exact ⟨rfl, rfl, hd⟩
    | cons op ops ih =>
      intro d t hd
      have hs := implStep_ofZip d t (by rw [hd]; exact h) op
      have happ := specStep_append d t op
      obtain ⟨i1, i2, i3⟩ := ih _ _ (happ.trans hd)
      simp only [implRun, specRun, hs, i1, i2]
      exact ⟨trivial, trivial, i3⟩
  obtain ⟨k1, k2, k3⟩ := key ops [] items rfl
  have h0 : Cursor.new items = ofZip [] items := rfl
  simp only [h0, k2]
  refine ⟨k1, k3, k3, rfl, ?_⟩
  have := congrArg List.length k3
  simp only [List.length_append] at this
  show (specRun ops [] items).2.1.length ≤ _
  omega

example : (implRun [.read 2, .moveForwards (2 ^ 64 - 1), .moveBackwards 1, .read 9, .next, .readRemaining]
    (Cursor.new [1, 2, 3, 4])).1 =
    [.optItems (some [1, 2]), .bool false, .bool true, .optItems none, .optItem (some 2),
      .items [3, 4]] := by decide

/-- C12: a `seek` also keeps the position inside the slice. -/
theorem C12_seek_in_bounds (c : Cursor α) (h : c.pos ≤ c.backing.length) (s : SeekFrom) :
    (c.seek s).2.backing = c.backing ∧ (c.seek s).2.pos ≤ c.backing.length := by
  have hf : ∀ n, (c.moveForwards n).2.backing = c.backing ∧
      (c.moveForwards n).2.pos ≤ c.backing.length := by
    intro n
    unfold moveForwards
    split
    · exact ⟨rfl, h⟩
    · split
      · exact ⟨rfl, h⟩
      · exact ⟨rfl, by simp only; omega⟩
  have hb : ∀ n, (c.moveBackwards n).2.backing = c.backing ∧
      (c.moveBackwards n).2.pos ≤ c.backing.length := by
    intro n
    unfold moveBackwards checkedSub
    split
    · exact ⟨rfl, h⟩
    · rename_i heq
      split at heq
      · cases heq; exact ⟨rfl, by simp only; omega⟩
      · cases heq
  cases s with
  | start n =>
    have := hb n
    simp only [seek]
    split <;> rename_i heq <;> rw [heq] at this <;> exact this
  | fromEnd n =>
    have := hb (-n).toNat
    simp only [seek]
    split
    · exact ⟨rfl, h⟩
    · split
      · exact ⟨rfl, h⟩
      · split <;> rename_i heq <;> rw [heq] at this <;> exact this
  | current n =>
    have := hf n.toNat
    simp only [seek]
    split
    · split <;> rename_i heq <;> rw [heq] at this <;> exact this
    · exact ⟨rfl, h⟩

/-- The documentation of `read` says `None` is *always* returned at the end; `read(0)` is not. -/
theorem C12_refuted_read_at_end (items : List α) (h : items.length < 2 ^ 64) :
    (Cursor.mk items items.length).isFinished = true ∧
    ((Cursor.mk items items.length).read 0).1 = some [] := by
  constructor
  · simp [isFinished]
  · simp [Cursor.read, checkedAdd, usizeMod, h, slice]

/-! ## C13: the `Seek` contract -/

/-- C13, partial: the contract holds for `Current(d)` with `d ≥ 0`. Missing: every other kind of
offset, see the refutations. -/
theorem C13_seek_current_partial (c : Cursor α) (hp : c.pos ≤ c.backing.length)
    (hl : c.backing.length < 2 ^ 63) (d : Int) (h0 : 0 ≤ d) (h1 : d < 2 ^ 63) :
    SeekContract c (.current d) := by
  obtain ⟨n, rfl⟩ := Int.eq_ofNat_of_zero_le h0
  obtain ⟨l, p⟩ := c
  simp only at hp hl
  unfold SeekContract seekTarget seek
  simp only [Int.toNat_natCast, moveForwards_eq l p n (by unfold usizeMod; omega)]
  by_cases hn : p + n ≤ l.length
  · rw [if_pos (by omega), if_pos hn]
    have ht : ((p : Int) + (n : Int)).toNat = p + n := by omega
    rw [ht]
    split_ifs with hpos
    · rfl
    · have : n = 0 := by omega
      subst this; rfl
  · rw [if_neg (by omega), if_pos (by omega), if_neg hn]

/-- C13 exactly for `Start(n)`: the contract holds iff `2n = pos`, or `n` is past the end. -/
theorem C13_seek_start_iff (c : Cursor α) (hp : c.pos ≤ c.backing.length) (n : Nat) :
    SeekContract c (.start n) ↔ (2 * n = c.pos ∨ c.backing.length < n) := by
  obtain ⟨l, p⟩ := c
  simp only at hp
  unfold SeekContract seekTarget seek
  simp only [moveBackwards_eq]
  by_cases hn : n ≤ l.length
  · rw [if_pos (by omega)]
    by_cases hb : n ≤ p
    · simp only [if_pos hb, Int.toNat_natCast, Prod.mk.injEq, Out.ok.injEq, Cursor.mk.injEq,
        true_and, and_self]
      omega
    · simp only [if_neg hb, Prod.mk.injEq]
      constructor
      · rintro ⟨h, _⟩; cases h
      · omega
  · rw [if_neg (by omega)]
    simp only [if_neg (show ¬ n ≤ p by omega), true_iff]
    omega

/-- C13 exactly for `Current(d)` with `d < 0`: the contract never holds when the target exists, and
never when it does not (the call returns `Ok` without moving). -/
theorem C13_refuted_current_negative (c : Cursor α) (d : Int) (h : d < 0) :
    ¬ SeekContract c (.current d) ∧ c.seek (.current d) = (.ok c.pos, c) := by
  have hs : c.seek (.current d) = (.ok c.pos, c) := by
    simp only [seek]; rw [if_neg (by omega)]
  refine ⟨?_, hs⟩
  unfold SeekContract
  intro hc
  rw [hs] at hc
  split at hc
  · rename_i hcond
    simp only [seekTarget] at hcond
    simp only [Prod.mk.injEq, Out.ok.injEq, seekTarget] at hc
    have := hc.1
    omega
  · cases congrArg Prod.fst hc

/-- C13 is violated by rewinding, `Start(0)`, from every position other than 0: the cursor stays. -/
theorem C13_refuted_rewind (c : Cursor α) (hp : c.pos ≤ c.backing.length) (h : c.pos ≠ 0) :
    ¬ SeekContract c (.start 0) ∧ c.seek (.start 0) = (.ok c.pos, c) := by
  refine ⟨by rw [C13_seek_start_iff c hp]; omega, ?_⟩
  simp [seek, moveBackwards, checkedSub]

/-- C13 is violated by `End(0)` from every position other than the end: the cursor stays. -/
theorem C13_refuted_end (c : Cursor α) (h : c.pos < c.backing.length) :
    ¬ SeekContract c (.fromEnd 0) ∧ c.seek (.fromEnd 0) = (.ok c.pos, c) := by
  have hs : c.seek (.fromEnd 0) = (.ok c.pos, c) := by
    simp [seek, moveBackwards, checkedSub]
  refine ⟨?_, hs⟩
  unfold SeekContract
  intro hc
  rw [hs] at hc
  split at hc
  · rename_i hcond
    simp only [seekTarget] at hcond
    simp only [Prod.mk.injEq, Out.ok.injEq, seekTarget] at hc
    have := hc.1
    omega
  · cases congrArg Prod.fst hc

/-- C13: `End(i64::MIN)` panics on every cursor (with overflow checks). -/
theorem C13_refuted_end_min (c : Cursor α) : (c.seek (.fromEnd (-(2 ^ 63)))).1 = .panic .arith := by
  simp [seek]

example : SeekContract (Cursor.mk [1, 2, 3, 4] 1) (.current 2) :=
  C13_seek_current_partial _ (by decide) (by decide) _ (by decide) (by decide)
example : ¬ SeekContract (Cursor.mk [1, 2, 3, 4] 1) (.start 3) := by
  rw [C13_seek_start_iff _ (by decide)]; decide

end Souris
