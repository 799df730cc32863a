import Verif.Spec.IntegerSerde
import Verif.Lemmas.IntegerConv

/-! # Lemmas about integers in JSON text -/

namespace Souris

theorem digitOf_isSome {c : Char} : (digitOf c).isSome = true ↔ c ∈ decimalDigits := by
  rw [Option.isSome_iff_exists]
  constructor
  · rintro ⟨d, h⟩; exact (digitOf_eq_some.mp h).1
  · intro h; exact ⟨_, digitOf_eq_some.mpr ⟨h, rfl⟩⟩

theorem ws_iff {c : Char} : SerdeJson.ws c = true ↔ JsonSpace c := by
  simp [SerdeJson.ws, JsonSpace, or_assoc]

theorem ws_not_digit {c : Char} (h : JsonSpace c) : c ∉ decimalDigits := by
  unfold JsonSpace at h
  simp only [List.mem_cons, List.not_mem_nil, or_false] at h
  rcases h with h | h | h | h <;> subst h <;> decide

theorem minus_not_ws : SerdeJson.ws '-' = false := by decide

theorem digit_not_ws {c : Char} (h : c ∈ decimalDigits) : SerdeJson.ws c = false := by
  cases hw : SerdeJson.ws c
  · rfl
  · exact absurd h (ws_not_digit (ws_iff.mp hw))

theorem parseDigits_iff {max : Nat} {ds : List Char} {r : Nat} : parseDigits max 0 ds = some r ↔
    (∀ c ∈ ds, c ∈ decimalDigits) ∧ r = digitsValue ds ∧ r ≤ max :=
  parseDigits_eq_some (Nat.zero_le _)

theorem significand_some {cs rest : List Char} {n : Nat}
    (h : SerdeJson.significand cs = some (n, rest)) :
    ∃ ds, cs = ds ++ rest ∧ ds ≠ [] ∧ (∀ c ∈ ds, c ∈ decimalDigits) ∧ (ds.head? = some '0' → ds = ['0']) ∧
      n = digitsValue ds ∧ n < 2 ^ 64 := by
  unfold SerdeJson.significand at h
  simp only at h
  split at h
  · cases h
  · rename_i hne
    split at h
    · cases h
    · rename_i hz
      cases hp : parseDigits (2 ^ 64 - 1) 0 (cs.takeWhile fun c => (digitOf c).isSome) with
      | none => rw [hp] at h; cases h
      | some r =>
        rw [hp] at h
        simp only [Option.map_some, Option.some.injEq, Prod.mk.injEq] at h
        obtain ⟨rfl, rfl⟩ := h
        obtain ⟨h1, h2, h3⟩ := parseDigits_iff.mp hp
        refine ⟨_, (List.takeWhile_append_dropWhile).symm, hne, h1, fun h0 => ?_, h2, by omega⟩
        have : (cs.takeWhile fun c => (digitOf c).isSome).length ≤ 1 := by
          by_contra hl
          exact hz ⟨h0, by omega⟩
        revert h0 this
        cases cs.takeWhile fun c => (digitOf c).isSome with
        | nil => intro h0; cases h0
        | cons a t =>
          intro h0 hl
          simp only [List.head?_cons, Option.some.injEq] at h0
          have : t = [] := List.length_eq_zero_iff.mp (by simpa using hl)
          rw [h0, this]

theorem takeWhile_digits {ds rest : List Char} (hd : ∀ c ∈ ds, c ∈ decimalDigits)
    (hr : ∀ c ∈ rest, JsonSpace c) :
    (ds ++ rest).takeWhile (fun c => (digitOf c).isSome) = ds ∧
    (ds ++ rest).dropWhile (fun c => (digitOf c).isSome) = rest := by
  induction ds with
  | nil =>
    cases rest with
    | nil => exact ⟨rfl, rfl⟩
    | cons a t =>
      have : (digitOf a).isSome = false := by
        cases h : (digitOf a).isSome
        · rfl
        · exact absurd (digitOf_isSome.mp h) (ws_not_digit (hr a (by simp)))
      simp [this]
  | cons a t ih =>
    have h := digitOf_isSome.mpr (hd a (by simp))
    obtain ⟨h1, h2⟩ := ih (fun c hc => hd c (by simp [hc]))
    simp [h, h1, h2]

theorem significand_of {ds rest : List Char} (hne : ds ≠ []) (hd : ∀ c ∈ ds, c ∈ decimalDigits)
    (hz : ds.head? = some '0' → ds = ['0']) (hr : ∀ c ∈ rest, JsonSpace c) :
    SerdeJson.significand (ds ++ rest) =
      if digitsValue ds < 2 ^ 64 then some (digitsValue ds, rest) else none := by
  obtain ⟨h1, h2⟩ := takeWhile_digits hd hr
  unfold SerdeJson.significand
  simp only [h1, h2]
  rw [if_neg hne, if_neg]
  · split
    · rename_i hlt
      rw [parseDigits_iff.mpr ⟨hd, rfl, by omega⟩]
      rfl
    · rename_i hlt
      cases hp : parseDigits (2 ^ 64 - 1) 0 ds with
      | none => rfl
      | some r =>
        obtain ⟨_, h3, h4⟩ := parseDigits_iff.mp hp
        omega
  · rintro ⟨h0, hl⟩
    rw [hz h0] at hl
    simp at hl

theorem dropWs {before rest : List Char} (hb : ∀ c ∈ before, JsonSpace c) {a : Char}
    (ha : SerdeJson.ws a = false) : (before ++ a :: rest).dropWhile SerdeJson.ws = a :: rest := by
  induction before with
  | nil => simp [ha]
  | cons b t ih =>
    have := ws_iff.mpr (hb b (by simp))
    simp only [List.cons_append, List.dropWhile_cons, this, if_true]
    exact ih fun c hc => hb c (by simp [hc])

theorem all_ws {rest : List Char} : rest.all SerdeJson.ws = true ↔ ∀ c ∈ rest, JsonSpace c := by
  simp only [List.all_eq_true]
  exact ⟨fun h c hc => ws_iff.mp (h c hc), fun h c hc => ws_iff.mpr (h c hc)⟩

theorem takeWs (s : List Char) : ∀ c ∈ s.takeWhile SerdeJson.ws, JsonSpace c := by
  have := List.all_takeWhile (p := SerdeJson.ws) (l := s)
  exact all_ws.mp this

/-- What is read is written there. -/
theorem read_sound {s : List Char} {v : SerdeNum} (h : SerdeJson.read s = some v) :
    (∃ n : Nat, v = .unsigned 8 n ∧ n < 2 ^ 64 ∧ JsonInt s n) ∨
    (∃ n : Nat, v = .signed 8 (-(n : Int)) ∧ 0 < n ∧ n ≤ 2 ^ 63 ∧ JsonInt s (-(n : Int))) ∨ v = .other := by
  have hs : s = s.takeWhile SerdeJson.ws ++ s.dropWhile SerdeJson.ws := (List.takeWhile_append_dropWhile).symm
  unfold SerdeJson.read at h
  split at h
  · rename_i cs hcs
    split at h
    · rename_i n rest hsig
      obtain ⟨ds, e, hne, hd, hz, hn, hlt⟩ := significand_some hsig
      split at h
      · rename_i hws
        split at h
        · simp only [Option.some.injEq] at h
          exact .inr (.inr h.symm)
        · rename_i hr
          simp only [Option.some.injEq] at h
          refine .inr (.inl ⟨n, h.symm, by omega, by omega, ?_⟩)
          rw [hs, hcs, e, hn]
          have := JsonInt.neg (takeWs s) (all_ws.mp hws) hne hd hz
          simpa using this
      · cases h
    · cases h
  · split at h
    · rename_i n rest hsig
      obtain ⟨ds, e, hne, hd, hz, hn, hlt⟩ := significand_some hsig
      split at h
      · rename_i hws
        simp only [Option.some.injEq] at h
        refine .inl ⟨n, h.symm, hlt, ?_⟩
        rw [hs, e, hn]
        have := JsonInt.pos (takeWs s) (all_ws.mp hws) hne hd hz
        simpa using this
      · cases h
    · cases h

/-- What is written there is read, if it fits 64 bits. -/
theorem read_complete {s : List Char} {z : Int} (h : JsonInt s z) :
    (0 ≤ z → z < 2 ^ 64 → SerdeJson.read s = some (.unsigned 8 z.toNat) ∨
      (z = 0 ∧ SerdeJson.read s = some .other ∧ '-' ∈ s)) ∧
    (z < 0 → -(2 ^ 63) ≤ z → SerdeJson.read s = some (.signed 8 z)) ∧
    (2 ^ 64 ≤ z ∨ z < -(2 ^ 63) → SerdeJson.read s = none ∨ SerdeJson.read s = some .other) := by
  cases h with
  | @pos before ds after hb ha hne hd hz =>
    obtain ⟨a, t, rfl⟩ := List.exists_cons_of_ne_nil hne
    have h1 : (before ++ (a :: t) ++ after).dropWhile SerdeJson.ws = a :: t ++ after := by
      rw [List.append_assoc]
      exact dropWs hb (digit_not_ws (hd a (by simp)))
    have hsig := significand_of hne hd hz ha
    have hread : SerdeJson.read (before ++ (a :: t) ++ after) =
        if digitsValue (a :: t) < 2 ^ 64 then some (.unsigned 8 (digitsValue (a :: t))) else none := by
      unfold SerdeJson.read
      rw [h1]
      split
      · rename_i cs hcs
        simp only [List.cons_append, List.cons.injEq] at hcs
        exact absurd (hcs.1 ▸ hd a (by simp)) minus_not_digit
      · rw [hsig]
        by_cases hlt : digitsValue (a :: t) < 2 ^ 64
        · simp only [if_pos hlt, all_ws.mpr ha, if_true]
        · simp only [if_neg hlt]
    rw [hread]
    generalize digitsValue (a :: t) = n
    refine ⟨fun _ hlt => .inl ?_, fun h => by omega, fun h => .inl ?_⟩
    · rw [if_pos (by omega), Int.toNat_natCast]
    · rw [if_neg (by omega)]
  | @neg before ds after hb ha hne hd hz =>
    have h1 : (before ++ '-' :: ds ++ after).dropWhile SerdeJson.ws = '-' :: (ds ++ after) := by
      rw [List.append_assoc]
      exact dropWs hb minus_not_ws
    have hsig := significand_of hne hd hz ha
    have hread : SerdeJson.read (before ++ '-' :: ds ++ after) =
        if digitsValue ds < 2 ^ 64 then
          if digitsValue ds = 0 ∨ 2 ^ 63 < digitsValue ds then some .other
          else some (.signed 8 (-(digitsValue ds : Int)))
        else none := by
      unfold SerdeJson.read
      rw [h1]
      simp only [hsig]
      by_cases hlt : digitsValue ds < 2 ^ 64
      · simp only [if_pos hlt, all_ws.mpr ha, if_true]
      · simp only [if_neg hlt]
    rw [hread]
    generalize digitsValue ds = n
    refine ⟨fun h0 _ => .inr ⟨by omega, ?_, by simp⟩, fun h0 h2 => ?_, fun h => ?_⟩
    · rw [if_pos (by omega), if_pos (by omega)]
    · rw [if_pos (by omega), if_neg (by omega)]
    · by_cases hlt : n < 2 ^ 64
      · rw [if_pos hlt, if_pos (by omega)]; exact .inr rfl
      · rw [if_neg hlt]; exact .inl rfl

theorem natText_head (n : Nat) : (natText n).head? = some '0' → natText n = ['0'] := by
  induction n using Nat.strongRecOn with
  | ind n ih =>
    intro h
    by_cases hn : n < 10
    · unfold natText at h ⊢
      rw [if_pos hn] at h ⊢
      simpa using h
    · exfalso
      have hne := (natText_spec (n / 10)).1
      have h0 : (natText (n / 10)).head? = some '0' := by
        unfold natText at h
        rw [if_neg hn] at h
        rwa [List.head?_append_of_ne_nil _ hne] at h
      have h1 := ih (n / 10) (by omega) h0
      have h2 := (natText_spec (n / 10)).2.2
      rw [h1] at h2
      have : digitsValue ['0'] = 0 := by decide
      omega

theorem natText_json (n : Nat) : JsonInt (natText n) n := by
  obtain ⟨h1, h2, h3⟩ := natText_spec n
  have := JsonInt.pos (before := []) (after := []) (by simp) (by simp) h1 h2 (natText_head n)
  rw [h3] at this
  simpa using this

theorem intText_json (z : Int) : JsonInt (intText z) z := by
  obtain ⟨h1, h2, h3⟩ := natText_spec z.natAbs
  unfold intText
  split
  · have := JsonInt.neg (before := []) (after := []) (by simp) (by simp) h1 h2 (natText_head _)
    rw [h3] at this
    rw [show -(z.natAbs : Int) = z by omega] at this
    simpa using this
  · have := natText_json z.natAbs
    rwa [show (z.natAbs : Int) = z by omega] at this

theorem intText_minus {z : Int} (h : '-' ∈ intText z) : z < 0 := by
  unfold intText at h
  split at h
  · assumption
  · exact absurd ((natText_spec _).2.1 _ h) minus_not_digit

end Souris
