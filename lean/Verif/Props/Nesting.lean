import Verif.Lemmas.Nesting
import Verif.Props.JsonUse
import Verif.Props.ValueYields

/-! # How deeply what is read can be nested: C93 -/

namespace Souris

open Value

/-- C93, partial: a value that is read has at most as many parts as bytes were read for it. Missing: a
limit that does not grow with the input. -/
theorem C93_parts_partial {env : Env} (hord : HashOrder env.mapOrd) {h : Option (Huffman Char)}
    {c c' : Cursor UInt8} {v : Value} (e : deser env h c = .ok (v, c')) : v.parts + c.pos ≤ c'.pos := by
  have := run_parts hord h _ e
  simpa [stackParts, DState.parts] using this

/-- C93, partial: and so it is nested less deeply than bytes were read. -/
theorem C93_depth_partial {env : Env} (hord : HashOrder env.mapOrd) {h : Option (Huffman Char)}
    {c c' : Cursor UInt8} {v : Value} (e : deser env h c = .ok (v, c')) {n : Nat} (hn : Nested n v) :
    c.pos + n < c'.pos := by
  have h1 := C93_parts_partial hord e
  have h2 := hn.lt_parts
  omega

/-- C93: JSON inside whatever is read is nested at most 127 deep. -/
theorem C93_json {env : Env} (hs : env.Serde) (hord : HashOrder env.mapOrd) {h : Option (Huffman Char)}
    {c c' : Cursor UInt8} {v : Value} (e : deser env h c = .ok (v, c')) {j : SJValue} (hj : Sub (.json j) v) :
    j.depth ≤ 127 := by
  obtain ⟨s, h⟩ := run_fromText hord h _ e (by
    intro st hst
    rw [List.mem_singleton.mp hst]
    trivial) j hj
  rw [hs.parse] at h
  exact (C84_made h).2

/-- C93, partial: whatever was asked of the daemon before, a value that it serves under a key is nested less
deeply than the body of some request for that key was long. -/
theorem C93_served_partial {env : Env} (hord : HashOrder env.mapOrd) (hs : List Happening) {name k : List Char}
    {v : Value} (hv : ((Daemon.history env {} hs).handle env (.getValue name k)).1 = .value v) {n : Nat}
    (hn : Nested n v) :
    ∃ create overwrite body, Happening.request (.addKv name k create overwrite body) ∈ hs ∧ n < body.length := by
  obtain ⟨create, overwrite, body, c', hm, e⟩ := C59_served_was_sent hord hs hv
  refine ⟨create, overwrite, body, hm, ?_⟩
  have h1 := C93_depth_partial hord e hn
  have h2 := (C27_progress e).2.2
  simp only [Cursor.new] at h1 h2
  omega

/-- C93 is violated: for every number there is a value nested that deeply which the library reads, from one
byte for each level and one more. -/
theorem C93_refuted_unlimited {env : Env} (hcap : 1 ≤ env.arrayCapMax) (h : Option (Huffman Char)) (n : Nat)
    (hn : n + 1 < 2 ^ 64) :
    ∃ bytes v c', bytes.length = n + 1 ∧ deser env h (Cursor.new bytes) = .ok (v, c') ∧ Nested n v := by
  have := inverts_of_parsed (boxes_parsed (env := env) hcap h n) [] [] (by
    simp only [List.nil_append, List.append_nil, boxBytes_length]
    exact hn)
  simp only [List.nil_append, List.append_nil] at this
  exact ⟨boxBytes n, boxes n, _, boxBytes_length n, this, boxes_nested n⟩

/-- C93 is violated by the daemon: whatever was asked of it before, a body of `n + 1` bytes makes it store and
serve a value that is nested `n` deep. -/
theorem C93_refuted_daemon {env : Env} (hord : HashOrder env.mapOrd) (hcap : 1 ≤ env.arrayCapMax) (n : Nat)
    (hn : n + 1 < 2 ^ 64) (hs : List Happening) (name k : List Char) :
    ∃ body v, body.length = n + 1 ∧ Nested n v ∧
      ((Daemon.history env {} (hs ++ [.request (.addKv name k true true body)])).handle env (.getValue name k)).1
        = .value v := by
  obtain ⟨body, v, c', hlen, e, hv⟩ := C93_refuted_unlimited hcap none n hn
  refine ⟨body, v, hlen, hv, ?_⟩
  obtain ⟨hok, _, _⟩ := history_sim (env := env) hord hs {} DbsOk.nil (by intro n b h; cases h)
  have hstep : Daemon.history env {} (hs ++ [.request (.addKv name k true true body)])
      = ((Daemon.history env {} hs).exec env (.addKv name k true true v)).2 := by
    simp only [Daemon.history, List.foldl_append, List.foldl_cons, List.foldl_nil, Daemon.happen, Daemon.handle,
      Request.route, e]
  rw [hstep]
  obtain ⟨c, _, h1, _, _, h4, _, h6⟩ := C41_codes hord hok name k true true v
  rw [if_neg (by
    rintro (h | h)
    · exact absurd (h1.mp h).2 (by decide)
    · exact absurd (h4.mp h).1 (by decide))] at h6
  obtain ⟨⟨m, hm, hk, _⟩, _⟩ := h6
  show Dbs.getValue name k _ = _
  unfold Dbs.getValue
  unfold Daemon.view at hm
  cases hg : AMap.get name ((Daemon.history env {} hs).exec env (.addKv name k true true v)).2.dbs with
  | none => rw [hg] at hm; cases hm
  | some s =>
    rw [hg] at hm
    simp only [Option.map_some, Option.some.injEq] at hm
    subst hm
    have : AMap.get k s = some v := hk
    simp only [this]

-- two arrays around `true`: three bytes, three parts, two levels
example : deser sampleEnv none (Cursor.new [0xB2, 0xB2, 0x31]) = .ok (.array [.array [.boolean true]], ⟨[0xB2, 0xB2, 0x31], 3⟩) ∧
    Nested 2 (.array [.array [.boolean true]]) :=
  ⟨rfl, .array (List.mem_singleton.mpr rfl) (.array (List.mem_singleton.mpr rfl) (.zero _))⟩

end Souris
