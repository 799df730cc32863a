import Verif.Lemmas.JsonCut
import Verif.Props.JsonUse
import Verif.Props.StdText

/-! # C83 and C78: different JSON is printed differently -/

namespace Souris

open SerdeJson

/-- **C83**: JSON values with the same text, compact or indented, are the same value, whatever their floats and however
deep they are. -/
theorem C83_different {j k : SJValue} (hj : j.Made fun _ => True) (hk : k.Made fun _ => True) :
    (print j = print k → j = k) ∧ (pretty 0 j = pretty 0 k → j = k) := by
  have nil : EndsValue [] := fun _ _ e => by cases e
  exact ⟨fun h => (print_cut hj k hk [] [] nil nil (by rw [h])).1, fun h => (pretty_cut 0 hj k hk [] [] nil nil (by rw [h])).1⟩

/-- Two neighbouring floats, which `serde_json` itself does not tell apart when it reads them. -/
example : print (.array [.number (.float 0x433FFFFFFFFFFFFF)]) ≠ print (.array [.number (.float 0x433FFFFFFFFFFFFE)]) := by
  have made : ∀ b : UInt64, F64Finite b → (SJValue.array [.number (.float b)]).Made fun _ => True := by
    intro b hb
    refine .array fun j hj => ?_
    cases List.mem_singleton.mp hj
    exact .float hb trivial
  intro h
  have := (C83_different (made _ (by unfold F64Finite; decide)) (made _ (by unfold F64Finite; decide))).1 h
  simp only [SJValue.array.injEq, List.cons.injEq, SJValue.number.injEq, SJNumber.float.injEq, and_true] at this
  exact absurd this (by decide)

/-- **C78** for JSON: the text of JSON tells which JSON it is. -/
theorem C78_json {env : Env} (hs : env.Serde) (sh : Shows) {j k : SJValue} (hj : j.Made fun _ => True)
    (hk : k.Made fun _ => True) : Value.display env sh (.json j) = Value.display env sh (.json k) ↔ j = k := by
  simp only [Value.display, hs.print]
  exact ⟨(C83_different hj hk).1, fun h => by rw [h]⟩

/-- **C78**, in part: within one type other than arrays and maps, the text tells which value it is, with nothing
assumed of std, chrono and serde_json. Missing: arrays and maps, other leap seconds (`C78_refuted_leap`). -/
theorem C78_scalar_partial {env : Env} (hc : env.Chrono) (hs : env.Serde) (sh : Shows) {v v' : Value} (hv : v.Scalar)
    (hv' : v'.Scalar) (ht : v.asTy = v'.asTy) (hts : ∀ t, v = .timestamp t ∨ v' = .timestamp t → t.Valid ∧ t.LeapAt59)
    (hj : ∀ j, v = .json j ∨ v' = .json j → j.Made fun _ => True)
    (h : Value.display env sh.withStd v = Value.display env sh.withStd v') : Value.Alike v v' := by
  refine C78_same_type_partial (std_faithful sh) hv hv' ht (fun j k e e' h => ?_) (fun t u e e' h => ?_) h
  · rw [hs.print] at h
    exact (C83_different (hj j (.inl e)) (hj k (.inr e'))).1 h
  · rw [hc.print] at h
    exact C86_different_partial (hts t (.inl e)).1 (hts t (.inl e)).2 (hts u (.inr e')).1 (hts u (.inr e')).2 h

end Souris
