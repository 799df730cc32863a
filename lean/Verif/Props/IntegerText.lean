import Verif.Props.IntegerSerde
import Verif.Props.JsonText

/-! # C61: integers straight to JSON text and through the value tree of serde_json agree -/

namespace Souris

open Integer SerdeJson

theorem read_number {s : List Char} {v : SerdeNum} (h : SerdeJson.read s = some v) (hv : v ≠ .other) :
    ∃ n, ofNumber n = v ∧ JsonText JsonExact 127 s (.number n) := by
  have hs : s = s.takeWhile ws ++ s.dropWhile ws := (List.takeWhile_append_dropWhile).symm
  unfold SerdeJson.read at h
  split at h
  · rename_i cs hcs
    split at h
    · rename_i n rest hsig
      obtain ⟨ds, e, hne, hd, hz, hn, hlt⟩ := significand_some hsig
      split at h
      · rename_i hws
        split at h
        · cases h; exact absurd rfl hv
        · rename_i hr
          cases h
          refine ⟨.negInt (-(n : Int)), rfl, s.takeWhile ws, '-' :: ds, rest, ?_, takeWs s, all_ws.mp hws, ?_⟩
          · rw [List.append_assoc, List.cons_append, ← e, ← hcs]
            exact hs
          · subst hn
            exact .number _ (.negInt ⟨⟨hne, hd⟩, hz⟩ (by omega) (by omega))
      · cases h
    · cases h
  · split at h
    · rename_i n rest hsig
      obtain ⟨ds, e, hne, hd, hz, hn, hlt⟩ := significand_some hsig
      split at h
      · rename_i hws
        cases h
        refine ⟨.posInt n, rfl, s.takeWhile ws, ds, rest, ?_, takeWs s, all_ws.mp hws, ?_⟩
        · rw [List.append_assoc, ← e]
          exact hs
        · subst hn
          exact .number _ (.posInt ⟨⟨hne, hd⟩, hz⟩ hlt)
      · cases h
    · cases h

/-- **C61**: reading an integer straight from a text and reading the text as a JSON value from which the integer is
taken are the same, for every text. -/
theorem C61_tree_reads (s : List Char) (i : Integer) :
    ofJsonText s = .ok i ↔ ∃ n, parse s = some (.number n) ∧ ofJsonNumber n = .ok i := by
  constructor
  · intro h
    unfold ofJsonText at h
    split at h
    · rename_i v hv
      have ho : v ≠ .other := by rintro rfl; cases h
      obtain ⟨n, rfl, hn⟩ := read_number hv ho
      exact ⟨n, C84_exact_partial hn, h⟩
    · cases h
  · rintro ⟨n, hp, hi⟩
    obtain ⟨before, t, after, rfl, hb, ha, hdoc⟩ := C84_sound_partial hp
    cases hdoc with
    | number _ hN =>
      cases hN with
      | posInt hw hv =>
        have hj := JsonInt.pos hb ha hw.1.1 hw.1.2 hw.2
        rcases (read_complete hj).1 (by omega) (by omega) with h | ⟨_, _, hm⟩
        · unfold ofJsonText
          rw [h, Int.toNat_natCast]
          exact hi
        · simp only [List.mem_append] at hm
          rcases hm with (hm | hm) | hm
          · exact absurd (hb _ hm) (by unfold JsonSpace; decide)
          · exact absurd (hw.1.2 _ hm) (by decide)
          · exact absurd (ha _ hm) (by unfold JsonSpace; decide)
      | negInt hw h0 hv =>
        have hj := JsonInt.neg hb ha hw.1.1 hw.1.2 hw.2
        unfold ofJsonText
        rw [(read_complete hj).2.1 (by omega) (by omega)]
        exact hi
      | _ => cases hi

/-- **C61**: an integer that goes into the value tree has the same text there as straight to text. -/
theorem C61_tree_writes {i : Integer} (hi : i.Native) {n : SJNumber} (h : i.toJsonNumber = .ok (some n)) :
    i.toJsonText = .ok (print (.number n)) := by
  rw [toJsonText_eq hi]
  obtain ⟨v, e, hv, _⟩ := C61_serialise hi
  unfold toJsonNumber at h
  rw [e] at h
  have h : (Out.ok (toNumber v) : Out IntegerSerError (Option SJNumber)) = .ok (some n) := h
  simp only [Out.ok.injEq] at h
  revert hv
  generalize i.value = z
  intro hv
  have nat : ∀ m : Nat, intText (m : Int) = natText m := fun m => by
    unfold intText
    rw [if_neg (by omega), Int.natAbs_natCast]
  cases hv with
  | @unsigned k m hk hm =>
    simp only [toNumber] at h
    split_ifs at h
    cases h
    rw [nat]; rfl
  | signed hk hm =>
    simp only [toNumber] at h
    split_ifs at h with h1 h2
    · cases h
      show _ = Out.ok (natText _)
      rw [← nat, Int.toNat_of_nonneg h1.1]
    · cases h
      have h0 : z < 0 := by omega
      unfold SJNumber.ofI64
      rw [if_pos h0]
      rfl

example : ofJsonText " 42\n".toList = .ok (ofUnsigned 8 42) := by decide +kernel
example : (ofSigned 8 (-7)).toJsonNumber = .ok (some (.negInt (-7))) := by decide +kernel

end Souris
