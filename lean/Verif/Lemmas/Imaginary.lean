import Verif.Spec.Imaginary
import Verif.Lemmas.Integer2
import Verif.Lemmas.Parser
import Verif.Lemmas.Binary

/-! # Lemmas about imaginary numbers -/

namespace Souris

theorem Integer.normUsed_sameAs (i : Integer) : i.SameAs i.normUsed := ⟨rfl, rfl⟩

theorem readU64_ofNat (x : UInt64) : UInt64.ofNat (ofLe (leBytes 8 x.toNat)) = x := by
  rw [ofLe_leBytes_of_lt]
  · exact UInt64.ofNat_toNat
  · exact x.toNat_lt

namespace Imaginary

theorem unMagic_magic (s t : SignedState) : unMagic (magic s t) = .ok (s, t) := by
  cases s <;> cases t <;> rfl

theorem magic_pos (s t : SignedState) : magic s t > 0 := by cases s <;> cases t <;> decide

theorem magic_lt (s t : SignedState) : magic s t < 16 := by cases s <;> cases t <;> decide

theorem readF64_reads (x : UInt64) : Reads readF64 (leBytes 8 x.toNat) x := by
  unfold readF64
  refine Reads.bind' (b1 := leBytes 8 x.toNat) (b2 := []) (by simp) (Reads.read _ (by simp)) ?_
  rw [readU64_ofNat]
  exact Reads.pure _

/-- What `deser` gives back for the bytes of `z`. -/
def norm : Imaginary → Imaginary
  | cartesian re im => cartesian re.normUsed im.normUsed
  | polar m a => polar m a

theorem norm_sameAs (z : Imaginary) : z.SameAs z.norm := by
  cases z with
  | cartesian a b => exact .cartesian a.normUsed_sameAs b.normUsed_sameAs
  | polar m a => exact .polar m a

theorem deser_reads {z : Imaginary} (hz : z.Reachable) : Reads (deser z.ser.1) z.ser.2 z.norm := by
  cases hz with
  | @cartesian re im h1 h2 =>
    show Reads (deser (magic re.ser.1 im.ser.1)) (re.ser.2 ++ im.ser.2)
      (cartesian re.normUsed im.normUsed)
    rw [Integer.WF.ser_state, Integer.WF.ser_state]
    unfold deser
    rw [if_pos (magic_pos _ _), unMagic_magic]
    refine Reads.bind' (b1 := []) rfl (Reads.lift _) ?_
    simp only
    refine Reads.bind h1.serialisable.reads ?_
    refine Reads.bind' (b2 := []) (by simp) h2.serialisable.reads ?_
    exact Reads.pure _
  | polar m a =>
    show Reads (deser 0) (leBytes 8 m.toNat ++ leBytes 8 a.toNat) (polar m a)
    unfold deser
    rw [if_neg (by decide)]
    refine Reads.bind (readF64_reads m) ?_
    exact Reads.bind' (b2 := []) (by simp) (readF64_reads a) (Reads.pure _)

theorem deser_adv (m : UInt8) : Adv 1 (deser m) := by
  unfold deser
  refine Adv.ite (fun _ => ?_) (fun _ => ?_)
  · refine Adv.mono (Adv.bind (k := 0) (m := 1) (Adv.lift _) (fun p => ?_)) (Nat.le_refl _)
    exact Adv.bind0 (Integer.deser_adv _) (fun _ => Adv.mono (Adv.bind0 (Integer.deser_adv _)
      (fun _ => Adv.pure _)) (Nat.zero_le _))
  · unfold readF64
    refine Adv.mono (Adv.bind0 (Adv.bind0 (Adv.read _ _) (fun _ => Adv.pure _)) (fun _ => ?_))
      (show 1 ≤ 8 by decide)
    exact Adv.mono (Adv.bind0 (Adv.bind0 (Adv.read _ _) (fun _ => Adv.pure _))
      (fun _ => Adv.pure _)) (Nat.zero_le _)

theorem unMagic_noPanic (m : UInt8) (r : Panic) : unMagic m ≠ .panic r := by
  unfold unMagic; split_ifs <;> simp

theorem readF64_noPanic (r : Panic) : NoPanic r readF64 :=
  NoPanic.bind (NoPanic.read _ _) (fun _ => NoPanic.pure _)

theorem deser_noPanic (m : UInt8) (r : Panic) : NoPanic r (deser m) := by
  unfold deser
  refine NoPanic.ite (fun _ => ?_) (fun _ => ?_)
  · exact NoPanic.bind (NoPanic.lift (unMagic_noPanic m r)) (fun _ =>
      NoPanic.bind (Integer.deser_noPanic _ _) (fun _ =>
        NoPanic.bind (Integer.deser_noPanic _ _) (fun _ => NoPanic.pure _)))
  · exact NoPanic.bind (readF64_noPanic r) (fun _ => NoPanic.bind (readF64_noPanic r)
      (fun _ => NoPanic.pure _))

theorem ser_lt (z : Imaginary) : z.ser.1 < 16 := by
  cases z with
  | cartesian a b => exact magic_lt _ _
  | polar => exact (by decide : (0 : UInt8) < 16)

end Imaginary

end Souris
