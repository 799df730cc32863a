import Verif.Props.ChronoUse
import Verif.Props.StoreJsonExact

/-! # C31, C36, C86: nothing with a timestamp in it comes back from JSON -/

namespace Souris

open Value

/-- **C86** is violated by every timestamp: what is printed is not accepted, wherever a leap second is. -/
theorem C86_refuted_every {t : Timestamp} (hv : t.Valid) : Chrono.parse (Chrono.print t) = none := by
  by_cases hl : t.LeapAt59
  · exact C86_refuted_reread hv hl
  · obtain ⟨y, mo, d, h, m, s, n⟩ := t
    obtain ⟨hd, hh, hm, hs, hn⟩ := hv
    simp only [Timestamp.LeapAt59, Classical.not_imp] at hl
    simp only at hd hh hm hs hn
    obtain ⟨h1, h2⟩ := hl
    have hv' : Timestamp.Valid ⟨y, mo, d, h, m, s + 1, n - 1000000000⟩ := ⟨hd, hh, hm, by simp only; omega, by simp only; omega⟩
    have hl' : Timestamp.LeapAt59 ⟨y, mo, d, h, m, s + 1, n - 1000000000⟩ := fun h => by simp only at h; omega
    have e : Chrono.print ⟨y, mo, d, h, m, s, n⟩ = Chrono.print ⟨y, mo, d, h, m, s + 1, n - 1000000000⟩ := by
      have h3 : ¬ 1000000000 ≤ n - 1000000000 := by omega
      simp only [Chrono.print, Chrono.timeText, if_pos h1, if_neg h3]
    rw [e]
    exact C86_refuted_reread hv' hl'

theorem jsonable_no_timestamp {env : Env} (hc : env.Chrono) {v : Value} (h : Jsonable env v) {t : Timestamp}
    (hs : Sub (.timestamp t) v) (hv : t.Valid) : False := by
  induction h with
  | timestamp h =>
    cases hs
    rw [hc.print, hc.parse, C86_refuted_every hv] at h
    cases h
  | array _ ih =>
    cases hs with
    | array hm h => exact ih _ hm h
  | map _ _ _ ih =>
    cases hs with
    | map hm h => exact ih _ _ hm h
  | _ => cases hs

/-- **C31** is violated by every value that holds a timestamp, at whatever depth. -/
theorem C31_refuted_holds {env : Env} (hc : env.Chrono) (hord : HashOrder env.mapOrd) {v : Value}
    (hi : ∀ i, Sub (.integer i) v → i.Native) (hz : ∀ a b, Sub (.imaginary (.cartesian a b)) v → a.Native ∧ b.Native)
    (hk : KeysDistinct v) (hj : ∀ j, Sub (.json j) v → j.Made (fun _ => True)) {t : Timestamp} (hs : Sub (.timestamp t) v)
    (hv : t.Valid) : ¬ ∃ j w, toJson env true v = some j ∧ fromJson env j = .ok w ∧ Widened v w := fun h =>
  jsonable_no_timestamp hc ((C31_exact hord hi hz hk hj).mp h) hs hv

/-- **C36** is violated by every store that holds a timestamp. -/
theorem C36_refuted_timestamp {env : Env} (hc : env.Chrono) (hord : HashOrder env.mapOrd) {s : Store}
    (hi : ∀ i, Sub (.integer i) (.map s) → i.Native)
    (hz : ∀ a b, Sub (.imaginary (.cartesian a b)) (.map s) → a.Native ∧ b.Native)
    (hk : KeysDistinct (.map s)) (hj : ∀ j, Sub (.json j) (.map s) → j.Made (fun _ => True)) {t : Timestamp}
    (hs : Sub (.timestamp t) (.map s)) (hv : t.Valid) :
    ¬ ∃ j s', Store.toJson env true s = some j ∧ Store.fromJson env j = .ok s' ∧ Widened (.map s) (.map s') := fun h =>
  jsonable_no_timestamp hc ((C36_store_exact hord hi hz hk hj).mp h).1 hs hv

-- a timestamp two levels down
example : ¬ ∃ j w, toJson chronoEnv true (.array [.null, .array [.timestamp leapSecond]]) = some j ∧
    fromJson chronoEnv j = .ok w ∧ Widened (.array [.null, .array [.timestamp leapSecond]]) w := by
  refine C31_refuted_holds chronoEnv_chrono (fun l => .refl l) ?_ ?_ ?_ ?_ (.array (v := .array [.timestamp leapSecond]) (by simp)
    (.array (v := .timestamp leapSecond) (by simp) (.refl _))) leapSecond_ok.1
  · intro i h
    rcases h with _ | ⟨hm, h⟩
    simp only [List.mem_cons, List.not_mem_nil, or_false] at hm
    rcases hm with rfl | rfl
    · cases h
    · rcases h with _ | ⟨hm, h⟩
      simp only [List.mem_cons, List.not_mem_nil, or_false] at hm
      subst hm
      cases h
  · intro a b h
    rcases h with _ | ⟨hm, h⟩
    simp only [List.mem_cons, List.not_mem_nil, or_false] at hm
    rcases hm with rfl | rfl
    · cases h
    · rcases h with _ | ⟨hm, h⟩
      simp only [List.mem_cons, List.not_mem_nil, or_false] at hm
      subst hm
      cases h
  · intro a h
    rcases h with _ | ⟨hm, h⟩
    simp only [List.mem_cons, List.not_mem_nil, or_false] at hm
    rcases hm with rfl | rfl
    · cases h
    · rcases h with _ | ⟨hm, h⟩
      simp only [List.mem_cons, List.not_mem_nil, or_false] at hm
      subst hm
      cases h
  · intro a h
    rcases h with _ | ⟨hm, h⟩
    simp only [List.mem_cons, List.not_mem_nil, or_false] at hm
    rcases hm with rfl | rfl
    · cases h
    · rcases h with _ | ⟨hm, h⟩
      simp only [List.mem_cons, List.not_mem_nil, or_false] at hm
      subst hm
      cases h

end Souris
