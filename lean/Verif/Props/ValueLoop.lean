import Verif.Lemmas.ValuePanic
import Verif.Lemmas.ValueClean

/-! # Deserialising values: C27 (termination), C28 (panics) -/

namespace Souris

open Value

/-! ## C27 -/

/-- C27: on every buffer, from every position and with every coder, the loop ends by itself after at most
`4n + 1` iterations, `n` being the number of bytes ahead, and `deser` returns its outcome. -/
theorem C27_terminates (env : Env) (h : Option (Huffman Char)) (c : Cursor UInt8) :
    ∃ n ≤ 4 * (c.backing.length - c.pos) + 1, ∃ o, Loops env h n [.valueNeeded] c o ∧ deser env h c = o := by
  by_cases hc : c.pos ≤ c.backing.length
  · obtain ⟨k, hk, o, hl, hr⟩ := loops_of_measure env h (4 * (c.backing.length - c.pos) + 1) [.valueNeeded] c hc
      (by simp [Value.measure, weight, topW])
    refine ⟨k, ?_, o, hl, hr⟩
    simpa [Value.measure, weight, topW] using hk
  · have hs : step env h .valueNeeded [] c = .err .notEnoughBytes := by
      simp only [step]
      rw [Parser.bind_apply]
      unfold parsePrimitive
      rw [Parser.bind_apply]
      rcases Parser.next_cases ValueSerError.notEnoughBytes c with e | ⟨b, hlt, _⟩
      · rw [e]; rfl
      · omega
    refine ⟨1, by omega, _, .err hs, ?_⟩
    have h0 : 4 * (c.backing.length - c.pos) + 1 = 0 + 1 := by omega
    show run env h (4 * (c.backing.length - c.pos) + 1) [.valueNeeded] c = _
    rw [h0]
    show (step env h .valueNeeded [] >>= _) c = _
    rw [Parser.bind_apply, hs]
    rfl

/-- C27: the loop has exactly one outcome, after one number of iterations. -/
theorem C27_outcome_unique {env : Env} {h : Option (Huffman Char)} {c : Cursor UInt8} {n m : Nat}
    {stack : List DState} {o o' : Out ValueSerError (Value × Cursor UInt8)}
    (h1 : Loops env h n stack c o) (h2 : Loops env h m stack c o') : n = m ∧ o = o' := h1.det h2

/-- C27: a successful run stays inside the buffer, consumes at least one byte and leaves the bytes as
they are. -/
theorem C27_progress {env : Env} {h : Option (Huffman Char)} {c c' : Cursor UInt8} {v : Value}
    (e : deser env h c = .ok (v, c')) :
    c'.backing = c.backing ∧ c.pos < c'.pos ∧ c'.pos ≤ c.backing.length := by
  have hpos : c.pos ≤ c.backing.length := by
    by_contra hc
    obtain ⟨n, hn, o, hl, ho⟩ := C27_terminates env h c
    have hn1 : n ≤ 1 := by omega
    cases hl with
    | done e1 =>
      simp only [step] at e1
      rw [Parser.bind_apply, Out.bind_eq_ok] at e1
      obtain ⟨⟨r, c1⟩, e2, e3⟩ := e1
      unfold parsePrimitive at e2
      rw [Parser.bind_apply, Out.bind_eq_ok] at e2
      obtain ⟨⟨b, c2⟩, e4, _⟩ := e2
      rcases Parser.next_cases ValueSerError.notEnoughBytes c with e5 | ⟨b, hlt, _⟩
      · rw [e5] at e4; cases e4
      · omega
    | err e1 => rw [ho] at e; cases e
    | panic e1 => rw [ho] at e; cases e
    | more e1 hn' => cases hn' <;> omega
  obtain ⟨n, hn, o, hl, ho⟩ := C27_terminates env h c
  rw [ho] at e
  subst e
  -- the loop never moves backwards
  have mono : ∀ (n : Nat) (stack : List DState) (c : Cursor UInt8)
      (o : Out ValueSerError (Value × Cursor UInt8)), Loops env h n stack c o →
      c.pos ≤ c.backing.length → o = .ok (v, c') →
      c'.backing = c.backing ∧ c.pos ≤ c'.pos ∧ c'.pos ≤ c.backing.length ∧
        (∀ s, stack = .valueNeeded :: s → c.pos < c'.pos) := by
    intro n stack c o hl
    induction hl with
    | empty c => intro _ h; cases h
    | err e => intro _ h; cases h
    | panic e => intro _ h; cases h
    | @done st stack c c1 v1 e =>
      intro hc ho
      simp only [Out.ok.injEq, Prod.mk.injEq] at ho
      obtain ⟨rfl, rfl⟩ := ho
      cases st with
      | foundValue w =>
        simp only [step] at e
        obtain ⟨h1, h2, h3⟩ := Adv.lift _ c _ c1 e
        exact ⟨h1, h2, h3 hc, by simp⟩
      | valueNeeded =>
        simp only [step] at e
        rw [Parser.bind_apply, Out.bind_eq_ok] at e
        obtain ⟨⟨r, c2⟩, e2, e3⟩ := e
        cases r with
        | value v => simp at e3
        | newArray len => simp only at e3; split at e3 <;> simp at e3
        | newMap len byte => simp only at e3; split at e3 <;> simp at e3
        | json => simp at e3
        | timezone => simp at e3
      | array soFar left => simp [step] at e
      | map soFar left byte =>
        simp only [step] at e
        rw [Parser.bind_apply, Out.bind_eq_ok] at e
        obtain ⟨⟨r, c2⟩, e2, e3⟩ := e
        simp at e3
      | foundKeyValue k v =>
        simp only [step] at e
        split at e
        · split at e <;> simp at e
        · simp at e
      | foundKey k => simp [step] at e
      | jsonNeeded => simp [step] at e
      | timezoneNeeded => simp [step] at e
    | @more n st stack stack' c c1 o e hn ih =>
      intro hc ho
      obtain ⟨h1, h2, _⟩ := step_inv hc e
      obtain ⟨h3, h4, h5, _⟩ := ih h2 ho
      have hstep := step_moves hc e
      refine ⟨h3.trans h1, by omega, by rw [← h1]; exact h5, ?_⟩
      intro s hs
      simp only [List.cons.injEq] at hs
      have := hstep.2 hs.1
      omega
  obtain ⟨h1, _, h3, h4⟩ := mono n _ c _ hl hpos rfl
  exact ⟨h1, h4 [] rfl, h3⟩

/-- An environment for the examples. -/
def sampleEnv : Env where
  lz := ⟨id, fun b _ => .ok b⟩
  byteOrd := id
  charOrd := id
  mapOrd := id
  jsonPrint := fun _ => "null".toList
  jsonPretty := fun _ => "null".toList
  jsonParse := fun _ => some .null
  tzNames := ["UTC".toList]
  tsPrint := fun _ => []
  tsParse := fun _ => none
  arrayCapMax := 1000
  mapCapMax := 1000

-- an array of two values inside an array: 0xB4 is an array of length 2
example : ∃ c', deser sampleEnv none (Cursor.new [0xB4, 0xB2, 0x90, 0x31]) =
    .ok (.array [.array [.null], .boolean true], c') := ⟨⟨[0xB4, 0xB2, 0x90, 0x31], 4⟩, rfl⟩
example : ∃ n, n ≤ 17 ∧ Loops sampleEnv none n [.valueNeeded] (Cursor.new [0xB4, 0xB2, 0x90, 0x31])
    (deser sampleEnv none (Cursor.new [0xB4, 0xB2, 0x90, 0x31])) := by
  obtain ⟨n, hn, o, hl, rfl⟩ := C27_terminates sampleEnv none (Cursor.new [0xB4, 0xB2, 0x90, 0x31])
  exact ⟨n, hn, hl⟩

/-! ## C28 -/

/-- C28, partial: the only panics are a declared capacity that is too large, decoding with a one-leaf
Huffman tree, and, in buffers of at least 2 MiB, the two of `Bits::pop`; provided that lz4_flex
only panics for that reason too (`C89_panics`). In particular the overflow and assertion panics do not occur. Missing: these panics do occur, see
`C28_refuted_*`. -/
theorem C28_panics_partial (env : Env) (hlz : env.lz.Allocates)
    (h : Option (Huffman Char)) (c : Cursor UInt8) (r : Panic) (e : deser env h c = .panic r) :
    r = .capacityOverflow ∨ r = .unreachable ∨
      (2 ^ 21 ≤ c.backing.length ∧ (r = .index ∨ r = .unwrapNone)) := by
  obtain ⟨n, hn, o, hl, ho⟩ := C27_terminates env h c
  rw [ho] at e
  by_cases hc : c.pos ≤ c.backing.length
  · cases hl.safe hc e with
    | capacity => exact .inl rfl
    | leafRoot => exact .inr (.inl rfl)
    | bitsIndex h => exact .inr (.inr ⟨h, .inl rfl⟩)
    | bitsEmpty h => exact .inr (.inr ⟨h, .inr rfl⟩)
    | lz h => exact .inl (hlz _ _ _ h).1
  · exfalso
    subst e
    cases hl with
    | panic e1 =>
      simp only [step] at e1
      rw [Parser.bind_apply] at e1
      unfold parsePrimitive at e1
      rw [Parser.bind_apply] at e1
      rcases Parser.next_cases ValueSerError.notEnoughBytes c with e | ⟨b, hlt, _⟩
      · rw [e] at e1; cases e1
      · omega
    | more e1 hn' => cases hn' <;> omega

/-- `deser` returns whatever the loop ends in. -/
theorem deser_of_loops {env : Env} {h : Option (Huffman Char)} {c : Cursor UInt8} {n : Nat}
    {o : Out ValueSerError (Value × Cursor UInt8)} (hl : Loops env h n [.valueNeeded] c o) :
    deser env h c = o := by
  obtain ⟨m, _, o', hl', ho⟩ := C27_terminates env h c
  rw [ho, (hl'.det hl).2]

/-- C28 is violated: ten bytes declare an array whose capacity overflows, for every implementation that
cannot hold 2^64 - 1 values. -/
theorem C28_refuted_array_capacity (env : Env) (h : Option (Huffman Char)) (hcap : env.arrayCapMax < 2 ^ 64 - 1) :
    ∃ bytes : List UInt8, bytes.length = 10 ∧ deser env h (Cursor.new bytes) = .panic .capacityOverflow := by
  refine ⟨serLen .array (2 ^ 64 - 1), by decide +kernel, deser_of_loops (n := 1) (.panic ?_)⟩
  obtain ⟨b, hr⟩ := lenP_reads (env := env) (h := h) (t := .array) (n := 2 ^ 64 - 1) (by decide)
    (mk := fun n _ => .newArray n) (fun _ => rfl)
  have e := hr.run (by decide +kernel)
  simp only [step]
  rw [Parser.bind_apply, e]
  simp only [Out.ok_bind]
  rw [if_neg (by omega)]
  rfl

/-- C28 is violated: the same for maps. -/
theorem C28_refuted_map_capacity (env : Env) (h : Option (Huffman Char)) (hcap : env.mapCapMax < 2 ^ 64 - 1) :
    ∃ bytes : List UInt8, bytes.length = 10 ∧ deser env h (Cursor.new bytes) = .panic .capacityOverflow := by
  refine ⟨serLen .map (2 ^ 64 - 1), by decide +kernel, deser_of_loops (n := 1) (.panic ?_)⟩
  obtain ⟨b, hr⟩ := lenP_reads (env := env) (h := h) (t := .map) (n := 2 ^ 64 - 1) (by decide)
    (mk := fun n b => .newMap n b) (fun _ => rfl)
  have e := hr.run (by decide +kernel)
  simp only [step]
  rw [Parser.bind_apply, e]
  simp only [Out.ok_bind]
  rw [if_neg (by omega)]
  rfl

/-- C28 is violated: six bytes hold binary data with a one-leaf Huffman tree; decoding panics. -/
theorem C28_refuted_leaf_tree (env : Env) (h : Option (Huffman Char)) :
    deser env h (Cursor.new [0x23, 2, 1, 0, 1, 0]) = .panic .unreachable := rfl

/-- C28 is violated: twelve bytes ask for one byte to be repeated 2^64 - 1 times. -/
theorem C28_refuted_repeat (env : Env) (h : Option (Huffman Char)) :
    deser env h (Cursor.new ([0x23, 1] ++ (Integer.ofUnsigned 8 (2 ^ 64 - 1)).ser.2 ++ [7])) = .panic .capacityOverflow := rfl

end Souris
