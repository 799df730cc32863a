import Verif.Props.Http

/-! # The characters of query strings (C72) -/

namespace Souris

open Http

/-- What a query string may consist of: RFC 3986 does not allow more, and none of `#`, `?`, `/`, `:`, `@`, space and
control characters. -/
def queryChars : List Char :=
  "ABCDEFGHIJKLMNOPQRSTUVWXYZabcdefghijklmnopqrstuvwxyz0123456789*-._%+=&".toList

/-- C72: whatever the names, keys and values, the query string that a client sends has only characters that a URI
may have, so that it is one word of the request line and ends where it ends. -/
theorem C72_characters (ps : List Pair) : ∀ b ∈ encodePairs ps, b ∈ queryChars.map fun c => UInt8.ofNat c.toNat := by
  have one : ∀ n : Fin 256, ∀ b ∈ encodeByte (UInt8.ofNat n.val), b ∈ queryChars.map fun c => UInt8.ofNat c.toNat := by
    decide +kernel
  have word : ∀ s : List Char, ∀ b ∈ encode s, b ∈ queryChars.map fun c => UInt8.ofNat c.toNat := by
    intro s b hb
    obtain ⟨x, _, hx⟩ := List.mem_flatMap.mp hb
    have := one ⟨x.toNat, x.toNat_lt⟩ b
    simp only [UInt8.ofNat_toNat] at this
    exact this hx
  have special : (61 : UInt8) ∈ (queryChars.map fun c => UInt8.ofNat c.toNat) ∧ (38 : UInt8) ∈ queryChars.map fun c => UInt8.ofNat c.toNat := by
    decide +kernel
  induction ps with
  | nil => intro b hb; cases hb
  | cons p ps ih =>
    obtain ⟨k, v⟩ := p
    intro b hb
    have : b ∈ encode k ∨ b = 61 ∨ b ∈ encode v ∨ b = 38 ∨ b ∈ encodePairs ps := by
      cases ps with
      | nil =>
        rw [encodePairs] at hb
        rcases List.mem_append.mp hb with h | h
        · exact .inl h
        · rcases List.mem_cons.mp h with h | h
          · exact .inr (.inl h)
          · exact .inr (.inr (.inl h))
      | cons q ps =>
        rw [encodePairs] at hb
        · rcases List.mem_append.mp hb with h | h
          · rcases List.mem_append.mp h with h | h
            · exact .inl h
            · rcases List.mem_cons.mp h with h | h
              · exact .inr (.inl h)
              · exact .inr (.inr (.inl h))
          · rcases List.mem_cons.mp h with h | h
            · exact .inr (.inr (.inr (.inl h)))
            · exact .inr (.inr (.inr (.inr h)))
        · simp
    rcases this with h | rfl | h | rfl | h
    · exact word k b h
    · exact special.1
    · exact word v b h
    · exact special.2
    · exact ih b h

example : encodePairs [("db_name".toList, ['#', ' ', '/', 'é'])] = "db_name=%23+%2F%C3%A9".toList.map fun c => UInt8.ofNat c.toNat := by
  decide +kernel

end Souris
