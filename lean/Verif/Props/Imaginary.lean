import Verif.Lemmas.Imaginary

/-! # Property of imaginary numbers: C54 -/

namespace Souris

/-- C54: deserialising the bytes of `z` with its magic bits, with anything before and behind them, gives
the same form and the same coefficients (same signedness and value; floats bit for bit) and stops
exactly behind them. -/
theorem C54_imaginary_roundtrip {z : Imaginary} (hz : z.Reachable) :
    ∃ z', z.SameAs z' ∧ Inverts (Imaginary.deser z.ser.1) z.ser.2 z' :=
  ⟨z.norm, z.norm_sameAs, (Imaginary.deser_reads hz).inverts⟩

/-- C54: polar numbers come back bit for bit. -/
theorem C54_polar_exact (m a : UInt64) :
    Inverts (Imaginary.deser (Imaginary.polar m a).ser.1) (Imaginary.polar m a).ser.2 (.polar m a) :=
  (Imaginary.deser_reads (.polar m a)).inverts

/-- C54: the magic bits written fit in four bits, and tell the two forms and the nine combinations of
signedness apart. -/
theorem C54_magic (z w : Imaginary) : z.ser.1 < 16 ∧
    (z.ser.1 = w.ser.1 ↔
      match z, w with
      | .polar _ _, .polar _ _ => True
      | .cartesian a b, .cartesian c d => a.signedState = c.signedState ∧ b.signedState = d.signedState
      | _, _ => False) := by
  refine ⟨z.ser_lt, ?_⟩
  cases z with
  | polar m a =>
    cases w with
    | polar m' a' => simp [Imaginary.ser]
    | cartesian c d =>
      have := Imaginary.magic_pos c.ser.1 d.ser.1
      simp only [Imaginary.ser, iff_false]
      intro h; rw [← h] at this; exact absurd this (by decide)
  | cartesian a b =>
    cases w with
    | polar m' a' =>
      have := Imaginary.magic_pos a.ser.1 b.ser.1
      simp only [Imaginary.ser, iff_false]
      intro h; rw [h] at this; exact absurd this (by decide)
    | cartesian c d =>
      simp only [Imaginary.ser, Integer.WF.ser_state]
      generalize a.signedState = s1; generalize b.signedState = s2
      generalize c.signedState = s3; generalize d.signedState = s4
      revert s1 s2 s3 s4
      intro s1 s2 s3 s4
      cases s1 <;> cases s2 <;> cases s3 <;> cases s4 <;> decide

/-- C54: unknown magic bits are rejected, whatever the bytes. -/
theorem C54_unknown_magic (m : UInt8) (hm : ∀ z : Imaginary, z.ser.1 ≠ m) (c : Cursor UInt8) :
    ∃ e, Imaginary.deser m c = .err e := by
  have h0 := hm (.polar 0 0)
  have hn : ∀ s t, Imaginary.magic s t ≠ m := by
    intro s t
    have := hm (.cartesian ⟨s, [], 0⟩ ⟨t, [], 0⟩)
    simpa [Imaginary.ser, Integer.WF.ser_state] using this
  refine ⟨.invalidSignedStateDiscriminant m, ?_⟩
  have hpos : m > 0 := by
    simp only [Imaginary.ser] at h0
    exact UInt8.pos_iff_ne_zero.mpr (Ne.symm h0)
  have hu : Imaginary.unMagic m = .err (.invalidSignedStateDiscriminant m) := by
    cases h : Imaginary.unMagic m with
    | ok p =>
      exfalso
      have := hn p.1 p.2
      unfold Imaginary.unMagic at h
      split_ifs at h <;> simp only [Out.ok.injEq] at h <;> subst h <;> simp_all [Imaginary.magic]
    | err e =>
      unfold Imaginary.unMagic at h
      split_ifs at h
      exact h.symm
    | panic r => exact absurd h (Imaginary.unMagic_noPanic m r)
  unfold Imaginary.deser
  rw [if_pos hpos, hu, Parser.bind_apply]
  simp

/-- C54: never a panic. -/
theorem C54_no_panic (m : UInt8) (r : Panic) (c : Cursor UInt8) : Imaginary.deser m c ≠ .panic r :=
  Imaginary.deser_noPanic m r c

example : (Imaginary.cartesian (Integer.ofSigned 4 (-300)) (Integer.ofUnsigned 1 7)).Reachable :=
  .cartesian (.native (.signed (by simp [Width]) (by simp [IsSigned])))
    (.native (.unsigned (by simp [Width]) (by simp [IsUnsigned])))
example : (Imaginary.cartesian (Integer.ofSigned 4 (-300)) (Integer.ofUnsigned 1 7)).ser
    = (5, [241, 212, 254, 7]) := by decide +kernel
example : ∀ z : Imaginary, z.ser.1 ≠ 200 := by
  intro z h
  have := z.ser_lt
  rw [h] at this
  exact absurd this (by decide)

end Souris
