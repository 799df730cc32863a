import Verif.Lemmas.JsonNumberRead

/-! # How a number is read does not depend on what follows -/

namespace Souris

namespace SerdeJson

theorem expLoop_same (pos up : Bool) (sig : Nat) (start : Int) {ds : List Char} (hd : ∀ c ∈ ds, c ∈ decimalDigits) (e : Nat) :
    ∃ o : Option UInt64, ∀ rest, NoDigit rest → expLoop pos sig start up e (ds ++ rest) = o.map (·, rest) := by
  induction ds generalizing e with
  | nil =>
    refine ⟨fromParts pos sig (if up then start + e else start - e), fun rest hr => ?_⟩
    unfold expLoop
    cases rest with
    | nil => rfl
    | cons c cs => simp only [List.nil_append, digitOf_none (hr c rfl)]
  | cons c cs ih =>
    have hcs : ∀ x ∈ cs, x ∈ decimalDigits := fun x hx => hd x (by simp [hx])
    unfold expLoop
    simp only [List.cons_append, digitOf_of_mem (hd c (by simp))]
    split
    · split
      · exact ⟨none, fun _ _ => rfl⟩
      · exact ⟨some _, fun rest hr => by rw [eatDigits_eq hcs hr]; rfl⟩
    · exact ih hcs _

theorem expOrEnd_same (pos : Bool) (sig : Nat) (start : Int) {x : Int} {ex : List Char} (h : JsonExponent ex x) :
    ∃ o : Option UInt64, ∀ rest, Stops rest → expOrEnd pos sig start (ex ++ rest) = o.map (·, rest) := by
  cases h with
  | none => exact ⟨_, fun rest hr => expOrEnd_reads .none hr (by simp)⟩
  | plain hc hd =>
    obtain ⟨c, cs, rfl, h1, h2, _⟩ := digits_cons hd
    obtain ⟨o, ho⟩ := expLoop_same pos true sig start h2 (decimalDigits.idxOf c)
    refine ⟨o, fun rest hr => ?_⟩
    rw [List.cons_append, expOrEnd_e hc, expPart_cons h1]
    exact ho rest hr.noDigit
  | plus hc hd =>
    obtain ⟨c, cs, rfl, h1, h2, _⟩ := digits_cons hd
    obtain ⟨o, ho⟩ := expLoop_same pos true sig start h2 (decimalDigits.idxOf c)
    refine ⟨o, fun rest hr => ?_⟩
    rw [List.cons_append, expOrEnd_e hc, expPart_plus h1]
    exact ho rest hr.noDigit
  | minus hc hd =>
    obtain ⟨c, cs, rfl, h1, h2, _⟩ := digits_cons hd
    obtain ⟨o, ho⟩ := expLoop_same pos false sig start h2 (decimalDigits.idxOf c)
    refine ⟨o, fun rest hr => ?_⟩
    rw [List.cons_append, expOrEnd_e hc, expPart_minus h1]
    exact ho rest hr.noDigit

/-- A number is read as the same number or not at all, whatever follows. -/
theorem number_same (pos : Bool) {t int frac : List Char} {x : Int} (h : JsonReal t int frac x) :
    ∃ o : Option SJNumber, ∀ rest, Stops rest → number pos (t ++ rest) = o.map (·, rest) := by
  by_cases hint : t = int → 2 ^ 64 ≤ digitsValue int
  · obtain ⟨ex, hx, sig, e, _, hn⟩ := number_real pos h hint
    obtain ⟨o, ho⟩ := expOrEnd_same pos sig e hx
    refine ⟨o.map .float, fun rest hr => ?_⟩
    rw [hn rest hr, ho rest hr]
    cases o <;> rfl
  · obtain ⟨rfl, hlt⟩ := Classical.not_imp.mp hint
    obtain ⟨_, _, _, hw, _⟩ := h
    refine ⟨some (integerEnd pos (digitsValue t)), fun rest hr => ?_⟩
    rw [number_integer hw hr (by omega)]
    rfl

end SerdeJson

end Souris
