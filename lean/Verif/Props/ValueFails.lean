import Verif.Lemmas.ValueFails

/-! # Values: C26, no wrong value comes back -/

namespace Souris

open Value

/-- C26, partial: `deser` returns either the value that `ser` wrote, and all of it, or fails; it does not
return a different one. This holds with maps and arrays of any shape, and exactly the storable values
come back: those without maps, empty arrays, misplaced leap seconds, and arrays that are too long to be
allocated. Missing: one-symbol coders, codes with one of the lengths above 2 MiB that C15 tells
(`C26_refuted_one_symbol`, `C26_binary_exact`, `C26_string_exact`), JSON that its own text form does not preserve. -/
theorem C26_never_wrong_partial {env : Env} {h : Option (Huffman Char)} (hlz : env.lz.Lossless)
    (hord : HashOrder env.byteOrd) {v : Value} (hv : Faithful env h v) {bytes : List UInt8}
    (e : ser env h v = .ok bytes) (hlen : bytes.length < 2 ^ 64) :
    ((∃ v' c', deser env h (Cursor.new bytes) = .ok (v', c')) ↔ Storable env h v) ∧
    ∀ v' c', deser env h (Cursor.new bytes) = .ok (v', c') →
      SameAs v v' ∧ c'.pos = bytes.length ∧ ser env h v' = .ok bytes := by
  by_cases hs : Storable env h v
  · obtain ⟨bytes', v', e', h1, h2, h3⟩ := C26_stable_partial hlz hord hs
    rw [e, Out.ok.injEq] at e'
    subst e'
    have h4 := h2 [] [] (by simpa using hlen)
    simp only [List.nil_append, List.append_nil, List.length_nil] at h4
    refine ⟨⟨fun _ => hs, fun _ => ⟨_, _, h4⟩⟩, fun w c' hw => ?_⟩
    have hw' : deser env h ⟨bytes, 0⟩ = .ok (w, c') := hw
    rw [h4, Out.ok.injEq, Prod.mk.injEq] at hw'
    obtain ⟨rfl, rfl⟩ := hw'
    exact ⟨h1, rfl, h3⟩
  · have hno : ∀ x, deser env h (Cursor.new bytes) ≠ .ok x := by
      obtain ⟨n, _, o, hl, ho⟩ := C27_terminates env h (Cursor.new bytes)
      rw [ho]
      have hm := meets hlz hord hv bytes e [] [] 0 [.valueNeeded] (.more .nil) (by simpa [usizeMod] using hlen)
      have hc : Cursor.At [] (bytes ++ []) = Cursor.new bytes := by simp [Cursor.At, Cursor.new]
      rw [hc] at hm
      rcases hm with hm | ⟨n', st', hw, hst, _, hn'⟩
      · exact hm n o hl
      · obtain ⟨m, rfl⟩ : ∃ m, n' = m + 1 := ⟨n' - 1, by have := hn' hs; omega⟩
        exact Fails.of_steps hst (want_fails hw _) n o hl
    exact ⟨⟨fun ⟨v', c', h⟩ => absurd h (hno _), fun h => absurd h hs⟩, fun v' c' h => absurd h (hno _)⟩

-- An empty array inside an array swallows its neighbour, and the whole is refused.
example : Faithful sampleEnv none (.array [.array [], .null]) ∧
    ∃ bytes, ser sampleEnv none (.array [.array [], .null]) = .ok bytes ∧
      deser sampleEnv none (Cursor.new bytes) = .err .notEnoughBytes := by
  refine ⟨.array ?_, [0xB4, 0xB0, 0x90], rfl, rfl⟩
  intro v hv
  simp only [List.mem_cons, List.not_mem_nil, or_false] at hv
  rcases hv with rfl | rfl
  · exact .array (by simp)
  · exact .null

-- With bytes behind them, the same bytes are read as another value.
example : ∃ c', deser sampleEnv none (Cursor.new [0xB4, 0xB0, 0x90, 0x31]) =
    .ok (.array [.array [.null], .boolean true], c') := ⟨⟨[0xB4, 0xB0, 0x90, 0x31], 4⟩, rfl⟩

end Souris
